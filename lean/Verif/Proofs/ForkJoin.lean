import Verif.Proofs.ThreadPool

/-! # Fork-join programs on a thread pool: counters, and who is waited for -/

namespace CoEcs
open PoolState

theorem Prog.FJ.noThrow : ∀ {p : Prog} {Γ : List Kind}, p.FJ Γ → p.NoThrow
  | .ret, _, _ => trivial
  | .throw, _, h => h
  | .submit none _ _, _, h => ⟨noThrow h.1, noThrow h.2⟩
  | .submit (some _) _ _, _, h => ⟨noThrow h.2.1, noThrow h.2.2⟩
  | .wait _ k, _, h => by have := noThrow (p := k) h.2; simpa [Prog.NoThrow] using this

/-- How many tasks have yet to decrement the counter of their parent `j`. -/
def pend (l : List PTask) (j : Nat) : Nat := l.countP fun q => q.parent == some j && q.par

def b2n (b : Bool) : Nat := if b then 1 else 0

theorem countP_modify (P : PTask → Bool) (F : PTask → PTask) : ∀ (l : List PTask) (k : Nat) (q : PTask), l[k]? = some q →
    (l.modify k F).countP P + b2n (P q) = l.countP P + b2n (P (F q)) := by
  intro l
  induction l with
  | nil => intro k q h; simp at h
  | cons a l ih =>
    intro k q h
    cases k with
    | zero =>
      simp at h; subst h
      simp only [List.modify_zero_cons, List.countP_cons, b2n]
      omega
    | succ k =>
      simp at h
      have := ih k q h
      simp only [List.modify_succ_cons, List.countP_cons]
      omega

/-- What a call knows about the tasks its variables hold. -/
def Typed (tasks : List PTask) (i : Nat) (f : Frame) : Prop :=
  ∃ Γ : List Kind, Γ.length = f.env.length ∧ f.code.FJ Γ ∧ ∀ (v m : Nat), (Γ[v]? = some .root ∨ Γ[v]? = some .child) → f.env[v]? = some m →
    ∃ q, tasks[m]? = some q ∧ q.by_ = i ∧ q.caller = f.time ∧ (Γ[v]? = some .root → q.parent = none)

/-- Which counters a call of task `k` has decremented. -/
def Flags (q : PTask) (k : Nat) : FramePc → Prop
  | .run => q.own = true ∧ q.par = q.parent.isSome
  | .push _ => q.own = true ∧ q.par = q.parent.isSome
  | .sub j => (j = k ∧ q.own = true ∧ q.par = q.parent.isSome) ∨ (j ≠ k ∧ q.parent = some j ∧ q.own = false ∧ q.par = true)
  | .check j => (j = k ∧ q.own = false ∧ q.par = q.parent.isSome) ∨ (j ≠ k ∧ q.parent = some j ∧ q.own = false ∧ q.par = false)

/-- What always holds for fork-join programs. -/
structure FInv (s : PoolState) : Prop where
  typ : ∀ i f, f ∈ (s.thr i).stack → Typed s.tasks i f
  code : ∀ (j : Nat) (q : PTask), s.tasks[j]? = some q → q.code.FJ (q.env.map fun _ => .other)
  parent : ∀ (j p : Nat) (q : PTask), s.tasks[j]? = some q → q.parent = some p →
    ∃ q', s.tasks[p]? = some q' ∧ q'.parent = none ∧ q'.by_ = q.by_ ∧ q'.caller = q.caller
  flags : ∀ i f (k : Nat) (q : PTask), f ∈ (s.thr i).stack → f.task = some k → s.tasks[k]? = some q → Flags q k f.pc
  fresh : ∀ (j : Nat) (q : PTask), s.tasks[j]? = some q → q.st = .made ∨ q.st = .queued → q.own = true ∧ q.par = q.parent.isSome
  fin : ∀ (j : Nat) (q : PTask), s.tasks[j]? = some q → q.st = .finished → q.own = false ∧ q.par = false
  cnt : ∀ (j : Nat) (q : PTask), s.tasks[j]? = some q → q.counter = (b2n q.own + pend s.tasks j) % 65536

/-- The part of a task that never changes. -/
def PTask.static (q : PTask) : Option Nat × Prog × List Nat × Nat × Nat := (q.parent, q.code, q.env, q.by_, q.caller)

theorem Typed.mono {t t' : List PTask} {i : Nat} {f : Frame} (h : Typed t i f)
    (ht : ∀ (m : Nat) (q : PTask), t[m]? = some q → ∃ q', t'[m]? = some q' ∧ q'.static = q.static) : Typed t' i f := by
  obtain ⟨Γ, h1, h2, h3⟩ := h
  refine ⟨Γ, h1, h2, ?_⟩
  intro v m hv hm
  obtain ⟨q, hq, e1, e2, e3⟩ := h3 v m hv hm
  obtain ⟨q', hq', e⟩ := ht m q hq
  simp only [PTask.static, Prod.mk.injEq] at e
  exact ⟨q', hq', by simp [e, e1], by simp [e, e2], by simpa [e] using e3⟩

theorem FInv.init {p : Prog} (hp : p.FJ []) : FInv (PoolState.init p) := by
  have hs : ∀ i, ((PoolState.init p).thr i).stack = if i = 0 then [⟨none, p, [], .run, 0⟩] else [] := by
    intro i; simp only [PoolState.init]; split <;> rfl
  have ht : (PoolState.init p).tasks = [] := rfl
  constructor <;> simp only [hs, ht]
  · intro i f hf
    split at hf
    · simp at hf; subst hf
      exact ⟨[], rfl, hp, by simp⟩
    · simp at hf
  all_goals simp

/-- Steps that leave tasks alone. -/
theorem FInv.keep {s u : PoolState} (h : FInv s) (ht : u.tasks = s.tasks)
    (hf : ∀ i f, f ∈ (u.thr i).stack → f ∈ (s.thr i).stack ∨ Typed s.tasks i f ∧
      ∀ (k : Nat) (q : PTask), f.task = some k → s.tasks[k]? = some q → Flags q k f.pc) : FInv u := by
  constructor <;> simp only [ht]
  · intro i f hm
    rcases hf i f hm with hm | hm
    · exact h.typ i f hm
    · exact hm.1
  · exact h.code
  · exact h.parent
  · intro i f k q hm hk hq
    rcases hf i f hm with hm | hm
    · exact h.flags i f k q hm hk hq
    · exact hm.2 k q hk hq
  · exact h.fresh
  · exact h.fin
  · exact h.cnt

/-- A change of the history of one task. -/
theorem FInv.marked {s u : PoolState} (h : FInv s) {k : Nat} {q : PTask} {F : PTask → PTask} (hq : s.tasks[k]? = some q)
    (ht : u.tasks = s.tasks.modify k F) (hF : ∀ q, (F q).static = q.static ∧ (F q).own = q.own ∧ (F q).par = q.par ∧ (F q).counter = q.counter)
    (hst : (F q).st = .made ∨ (F q).st = .queued → q.own = true ∧ q.par = q.parent.isSome)
    (hfi : (F q).st = .finished → q.own = false ∧ q.par = false)
    (hf : ∀ i f, f ∈ (u.thr i).stack → Typed s.tasks i f ∧
      ∀ (k : Nat) (q : PTask), f.task = some k → s.tasks[k]? = some q → Flags q k f.pc) : FInv u := by
  have hs : ∀ (m : Nat), u.tasks[m]? = if m = k then some (F q) else s.tasks[m]? := by intro m; rw [ht]; exact get_modify _ _ hq
  have hpend : ∀ j, pend u.tasks j = pend s.tasks j := by
    intro j
    have := countP_modify (fun q => q.parent == some j && q.par) F s.tasks k q hq
    have e := hF q
    simp only [PTask.static, Prod.mk.injEq] at e
    simp only [e] at this
    simp only [pend, ht]
    omega
  have hst2 : ∀ (m : Nat) (q' : PTask), u.tasks[m]? = some q' → ∃ q0, s.tasks[m]? = some q0 ∧ q'.static = q0.static ∧ q'.own = q0.own ∧
      q'.par = q0.par ∧ q'.counter = q0.counter ∧ (m = k → q0 = q ∧ q' = F q) ∧ (m ≠ k → q' = q0) := by
    intro m q' hm
    rw [hs] at hm
    split at hm
    · rename_i e; subst e
      simp only [Option.some.injEq] at hm; subst hm
      exact ⟨q, hq, (hF q).1, (hF q).2.1, (hF q).2.2.1, (hF q).2.2.2, by simp, by simp⟩
    · exact ⟨q', hm, rfl, rfl, rfl, rfl, by simp_all, by simp⟩
  have hmono : ∀ (m : Nat) (q : PTask), s.tasks[m]? = some q → ∃ q', u.tasks[m]? = some q' ∧ q'.static = q.static := by
    intro m q' hm
    rw [hs]
    split
    · rename_i e; subst e
      rw [hq] at hm; simp only [Option.some.injEq] at hm; subst hm
      exact ⟨_, rfl, (hF q).1⟩
    · exact ⟨q', hm, rfl⟩
  constructor
  · intro i f hm; exact (hf i f hm).1.mono hmono
  · intro j q' hj
    obtain ⟨q0, h0, e, -⟩ := hst2 j q' hj
    simp only [PTask.static, Prod.mk.injEq] at e
    have := h.code j q0 h0
    simpa [e] using this
  · intro j p q' hj hp
    obtain ⟨q0, h0, e, -⟩ := hst2 j q' hj
    simp only [PTask.static, Prod.mk.injEq] at e
    obtain ⟨q1, h1, h2, h3, h4⟩ := h.parent j p q0 h0 (by rw [← e.1]; exact hp)
    obtain ⟨q2, h5, h6⟩ := hmono p q1 h1
    simp only [PTask.static, Prod.mk.injEq] at h6
    exact ⟨q2, h5, by simp [h6, h2], by simp [h6, h3, e], by simp [h6, h4, e]⟩
  · intro i f m q' hm hk hj
    obtain ⟨q0, h0, e, e1, e2, -⟩ := hst2 m q' hj
    simp only [PTask.static, Prod.mk.injEq] at e
    have := (hf i f hm).2 m q0 hk h0
    cases hpc : f.pc <;> simp only [hpc, Flags] at this ⊢ <;> simpa [e, e1, e2] using this
  · intro j q' hj hs'
    obtain ⟨q0, h0, e, e1, e2, -, e3, e4⟩ := hst2 j q' hj
    simp only [PTask.static, Prod.mk.injEq] at e
    by_cases hjk : j = k
    · obtain ⟨rfl, rfl⟩ := e3 hjk
      have := hst hs'
      simpa [e, e1, e2] using this
    · have := e4 hjk; subst this
      exact h.fresh j _ h0 hs'
  · intro j q' hj hs'
    obtain ⟨q0, h0, e, e1, e2, -, e3, e4⟩ := hst2 j q' hj
    by_cases hjk : j = k
    · obtain ⟨rfl, rfl⟩ := e3 hjk
      have := hfi hs'
      simpa [e, e1, e2] using this
    · have := e4 hjk; subst this
      exact h.fin j _ h0 hs'
  · intro j q' hj
    obtain ⟨q0, h0, e, e1, e2, e3, -⟩ := hst2 j q' hj
    rw [e3, e1, hpend]
    exact h.cnt j q0 h0

/-- Calls are calls of different tasks. -/
theorem TPoolInv.uniq {n : Nat} {s : PoolState} (h : TPoolInv n s) {i i' k : Nat} {f g : Frame} (hf : f ∈ (s.thr i).stack)
    (hg : g ∈ (s.thr i').stack) (hfk : f.task = some k) (hgk : g.task = some k) : i' = i ∧ g = f := by
  obtain ⟨q, h1, -, h2, h3, -⟩ := h.task i f k hf hfk
  obtain ⟨q', h1', -, h2', h3', -⟩ := h.task i' g k hg hgk
  rw [h1] at h1'; simp only [Option.some.injEq] at h1'; subst h1'
  have hii : i' = i := by rw [← h2, ← h2']
  subst hii
  refine ⟨rfl, ?_⟩
  have ho := h.ord i'
  have ht : f.time = g.time := by rw [← h3, ← h3']
  generalize (s.thr i').stack = l at ho hf hg
  clear h1 h2 h2' h3 h3' h hfk hgk
  induction l with
  | nil => simp at hf
  | cons a l ih =>
    obtain ⟨ha, hl⟩ := List.pairwise_cons.1 ho
    rcases List.mem_cons.1 hf with hf | hf <;> rcases List.mem_cons.1 hg with hg | hg
    · rw [hf, hg]
    · have := ha g hg; subst hf; omega
    · have := ha f hf; subst hg; omega
    · exact ih hl hf hg

theorem FInv.pend_child {s : PoolState} (h : FInv s) {k p : Nat} {q : PTask} (hq : s.tasks[k]? = some q) (hp : q.parent = some p) :
    pend s.tasks k = 0 := by
  unfold pend
  rw [List.countP_eq_zero]
  intro q' hq' hc
  simp only [Bool.and_eq_true, beq_iff_eq] at hc
  obtain ⟨m, hm⟩ := List.getElem?_of_mem hq'
  obtain ⟨q1, h1, h2, -⟩ := h.parent m k q' hm hc.1
  rw [hq] at h1; simp only [Option.some.injEq] at h1; subst h1
  rw [hp] at h2; simp at h2

theorem FInv.pend_new {s : PoolState} (h : FInv s) : pend s.tasks s.tasks.length = 0 := by
  unfold pend
  rw [List.countP_eq_zero]
  intro q' hq' hc
  simp only [Bool.and_eq_true, beq_iff_eq] at hc
  obtain ⟨m, hm⟩ := List.getElem?_of_mem hq'
  obtain ⟨q1, h1, -⟩ := h.parent m _ q' hm hc.1
  simp at h1

theorem static_pay (k j : Nat) (q : PTask) : (PTask.pay k j q).static = q.static := by unfold PTask.pay; split <;> rfl
theorem static_dec (q : PTask) : (PTask.dec q).static = q.static := by simp only [PTask.dec, PTask.static]
theorem static_inc (q : PTask) : (PTask.inc q).static = q.static := by simp only [PTask.inc, PTask.static]

/-- A counter is decremented. -/
theorem FInv.sub {n : Nat} {s u : PoolState} (hP : TPoolInv n s) (h : FInv s) {i j k : Nat} {f : Frame} {fs : List Frame} {q : PTask}
    (hst : (s.thr i).stack = f :: fs) (hpc : f.pc = .sub j) (hq : s.tasks[j]? = some q) (hk : f.task = some k)
    (hs : ∀ k, (u.thr k).stack = if k = i then { f with pc := .check j } :: fs else (s.thr k).stack)
    (ht : u.tasks = (s.tasks.modify j PTask.dec).modify k (PTask.pay k j)) : FInv u := by
  have hmem : ∀ g, g ∈ (s.thr i).stack ↔ g = f ∨ g ∈ fs := by simp [hst]
  obtain ⟨qk, hqk, hkst, -, -, -⟩ := hP.task i f k (by simp [hst]) hk
  have hfl := h.flags i f k qk (by simp [hst]) hk hqk
  rw [hpc] at hfl
  simp only [Flags] at hfl
  -- the other calls
  have hoth : ∀ i' g, g ∈ (u.thr i').stack → (i' = i ∧ g = { f with pc := .check j }) ∨ (g ∈ (s.thr i').stack ∧ g.task ≠ some k) := by
    intro i' g hg
    rw [hs] at hg
    split at hg
    · rename_i e; subst e
      rcases List.mem_cons.1 hg with rfl | hg'
      · exact .inl ⟨rfl, rfl⟩
      · refine .inr ⟨(hmem g).2 (.inr hg'), ?_⟩
        intro hgk
        have := (hP.uniq (f := f) (g := g) ((hmem f).2 (.inl rfl)) ((hmem g).2 (.inr hg')) hk hgk).2
        subst this
        have ho := hP.ord i'
        rw [hst] at ho
        have := (List.pairwise_cons.1 ho).1 g hg'
        omega
    · rename_i e
      refine .inr ⟨hg, ?_⟩
      intro hgk
      exact e (hP.uniq (f := f) (g := g) ((hmem f).2 (.inl rfl)) hg hk hgk).1
  -- tasks before and after
  have hT : ∀ m : Nat, u.tasks[m]? = (s.tasks[m]?).map fun q => { q with
      own := if m = k ∧ k = j then false else q.own, par := if m = k ∧ k ≠ j then false else q.par,
      counter := if m = j then (q.counter + 65535) % 65536 else q.counter } := by
    intro m
    rw [ht, List.getElem?_modify, List.getElem?_modify]
    cases s.tasks[m]? with
    | none => rfl
    | some x =>
      simp only [Option.map_eq_map, Option.map_some, Option.some.injEq]
      by_cases e1 : j = m <;> by_cases e2 : k = m <;> simp only [e1, e2, if_true, if_false, PTask.pay, PTask.dec] <;> cases x <;> grind
  have hback : ∀ (m : Nat) (q' : PTask), u.tasks[m]? = some q' → ∃ q0, s.tasks[m]? = some q0 ∧ q'.static = q0.static ∧ q'.st = q0.st ∧
      q'.own = (if m = k ∧ k = j then false else q0.own) ∧ q'.par = (if m = k ∧ k ≠ j then false else q0.par) ∧
      q'.counter = if m = j then (q0.counter + 65535) % 65536 else q0.counter := by
    intro m q' hm
    rw [hT] at hm
    cases e : s.tasks[m]? with
    | none => simp [e] at hm
    | some q0 =>
      simp only [e, Option.map_some, Option.some.injEq] at hm
      subst hm
      exact ⟨q0, rfl, rfl, rfl, rfl, rfl, rfl⟩
  have hmono : ∀ (m : Nat) (q : PTask), s.tasks[m]? = some q → ∃ q', u.tasks[m]? = some q' ∧ q'.static = q.static := by
    intro m q' hm
    rw [hT, hm]
    exact ⟨_, rfl, rfl⟩
  have htyp := h.typ
  constructor
  · intro i' g hg
    rcases hoth i' g hg with ⟨rfl, rfl⟩ | ⟨hg, -⟩
    · obtain ⟨Γ, h1, h2, h3⟩ := (h.typ i' f (by simp [hst])).mono hmono
      exact ⟨Γ, h1, h2, h3⟩
    · exact (h.typ i' g hg).mono hmono
  · intro m q' hm
    obtain ⟨q0, h0, e, -⟩ := hback m q' hm
    simp only [PTask.static, Prod.mk.injEq] at e
    have := h.code m q0 h0
    simpa [e] using this
  · intro m p q' hm hp
    obtain ⟨q0, h0, e, -⟩ := hback m q' hm
    simp only [PTask.static, Prod.mk.injEq] at e
    obtain ⟨q1, h1, h2, h3, h4⟩ := h.parent m p q0 h0 (by rw [← e.1]; exact hp)
    obtain ⟨q2, h5, h6⟩ := hmono p q1 h1
    simp only [PTask.static, Prod.mk.injEq] at h6
    exact ⟨q2, h5, by simp [h6, h2], by simp [h6, h3, e], by simp [h6, h4, e]⟩
  · intro i' g m q' hg hgk hm
    obtain ⟨q0, h0, e, -, e2, e3, -⟩ := hback m q' hm
    simp only [PTask.static, Prod.mk.injEq] at e
    rcases hoth i' g hg with ⟨rfl, rfl⟩ | ⟨hg, hne⟩
    · simp only [hk, Option.some.injEq] at hgk; subst hgk
      rw [hqk] at h0; simp only [Option.some.injEq] at h0; subst h0
      simp only [Flags]
      rcases hfl with ⟨rfl, h1, h2⟩ | ⟨h0, h1, h2, h3⟩
      · left; simpa [e2, e3, e] using h2
      · right; simp [e2, e3, e, Ne.symm h0, h0, h1, h2]
    · have hmk : m ≠ k := by rintro rfl; exact hne hgk
      have := h.flags i' g m q0 hg hgk h0
      cases hpc : g.pc <;> simp only [hpc, Flags] at this ⊢ <;> simpa [e, e2, e3, hmk] using this
  · intro m q' hm hs'
    obtain ⟨q0, h0, e, e1, e2, e3, -⟩ := hback m q' hm
    simp only [PTask.static, Prod.mk.injEq] at e
    have hmk : m ≠ k := by
      rintro rfl
      rw [hqk] at h0; simp only [Option.some.injEq] at h0; subst h0
      rw [e1, hkst] at hs'; simp at hs'
    have := h.fresh m q0 h0 (by rw [← e1]; exact hs')
    simpa [e, e2, e3, hmk] using this
  · intro m q' hm hs'
    obtain ⟨q0, h0, e, e1, e2, e3, -⟩ := hback m q' hm
    have hmk : m ≠ k := by
      rintro rfl
      rw [hqk] at h0; simp only [Option.some.injEq] at h0; subst h0
      rw [e1, hkst] at hs'; simp at hs'
    have := h.fin m q0 h0 (by rw [← e1]; exact hs')
    simpa [e2, e3, hmk] using this
  · intro m q' hm
    obtain ⟨q0, h0, e, e1, e2, e3, e4⟩ := hback m q' hm
    have hc := h.cnt m q0 h0
    have hqk' : (s.tasks.modify j PTask.dec)[k]? = some ((if k = j then PTask.dec else id) qk) := by
      rw [List.getElem?_modify, hqk]
      by_cases e : k = j
      · simp [e]
      · simp [e, Ne.symm e]
    have hp1 : ∀ m, pend (s.tasks.modify j PTask.dec) m = pend s.tasks m := by
      intro m
      have := countP_modify (fun q => q.parent == some m && q.par) PTask.dec s.tasks j q hq
      simp only [PTask.dec] at this
      unfold pend
      omega
    have hp2 := countP_modify (fun q => q.parent == some m && q.par) (PTask.pay k j) _ k _ hqk'
    change pend ((s.tasks.modify j PTask.dec).modify k (PTask.pay k j)) m + _ = pend (s.tasks.modify j PTask.dec) m + _ at hp2
    rw [hp1, ← ht] at hp2
    rw [e4, e2]
    rcases hfl with ⟨rfl, h1, h2⟩ | ⟨hjk, h1, h2, h3⟩
    · -- the task's own counter
      have : pend u.tasks m = pend s.tasks m := by
        simp [PTask.pay, PTask.dec] at hp2; omega
      rw [this]
      by_cases hmj : m = j
      · subst hmj
        rw [hqk] at h0; simp only [Option.some.injEq] at h0; subst h0
        simp [b2n, h1] at hc ⊢
        omega
      · simp [hmj]; exact hc
    · -- the counter of the parent
      simp only [if_neg (Ne.symm hjk), id, PTask.pay, h1, h3] at hp2
      simp only [Ne.symm hjk, and_false, if_false]
      by_cases hmj : m = j
      · subst hmj
        simp [b2n] at hp2 
        rw [if_pos rfl]
        omega
      · have : (some j == some m) = false := by simp [Ne.symm hmj]
        simp [b2n, this] at hp2
        rw [if_neg hmj, hp2]; exact hc

/-- A task is submitted.  `F` changes the counter of the parent. -/
theorem FInv.submitted {n : Nat} {s u : PoolState} (hP : TPoolInv n s) (h : FInv s) {i : Nat} {f f' : Frame} {fs : List Frame}
    {t : PTask} {old : List PTask} (hst : (s.thr i).stack = f :: fs) (hpc : f.pc = .run) (htk : f'.task = f.task)
    (hpc' : f'.pc = .push s.tasks.length)
    (hs : ∀ k, (u.thr k).stack = if k = i then f' :: fs else (s.thr k).stack)
    (ht : u.tasks = old ++ [t]) (htc : t.counter = 1) (hto : t.own = true) (htp : t.par = t.parent.isSome) (htst : t.st = .made)
    (htcode : t.code.FJ (t.env.map fun _ => .other))
    (htpar : ∀ p, t.parent = some p → ∃ q', s.tasks[p]? = some q' ∧ q'.parent = none ∧ q'.by_ = t.by_ ∧ q'.caller = t.caller)
    (hold : ∀ m : Nat, old[m]? = (s.tasks[m]?).map fun q => { q with counter := if t.parent = some m then (q.counter + 1) % 65536 else q.counter })
    (hop : ∀ m, pend old m = pend s.tasks m)
    (htyp : ∀ t' : List PTask, t'[s.tasks.length]? = some t → (∀ (m : Nat) (q : PTask), s.tasks[m]? = some q → ∃ q', t'[m]? = some q' ∧ q'.static = q.static) →
      Typed t' i f') : FInv u := by
  have hmem : ∀ g, g ∈ (s.thr i).stack ↔ g = f ∨ g ∈ fs := by simp [hst]
  have hlen : old.length = s.tasks.length := by
    have h1 := hold s.tasks.length
    have h2 := hold old.length
    rw [List.getElem?_eq_none (Nat.le_refl _)] at h2
    have h2 := List.getElem?_eq_none_iff.1 (Option.map_eq_none_iff.1 h2.symm)
    simp at h1
    omega
  have hback : ∀ (m : Nat) (q' : PTask), u.tasks[m]? = some q' → (m = s.tasks.length ∧ q' = t) ∨ (m ≠ s.tasks.length ∧ ∃ q0, s.tasks[m]? = some q0 ∧
      q'.static = q0.static ∧ q'.st = q0.st ∧ q'.own = q0.own ∧ q'.par = q0.par ∧
      q'.counter = if t.parent = some m then (q0.counter + 1) % 65536 else q0.counter) := by
    intro m q' hm
    rw [ht, List.getElem?_append] at hm
    split at hm
    · rename_i hl
      rw [hold] at hm
      cases e : s.tasks[m]? with
      | none => simp [e] at hm
      | some q0 =>
        simp only [e, Option.map_some, Option.some.injEq] at hm
        subst hm
        exact .inr ⟨by omega, q0, rfl, rfl, rfl, rfl, rfl, rfl⟩
    · rename_i hl
      have : m - old.length = 0 := by
        cases e : m - old.length with
        | zero => rfl
        | succ x => simp [e] at hm
      rw [this] at hm
      simp at hm
      exact .inl ⟨by omega, hm.symm⟩
  have hmono : ∀ (m : Nat) (q : PTask), s.tasks[m]? = some q → ∃ q', u.tasks[m]? = some q' ∧ q'.static = q.static := by
    intro m q hm
    have hl : m < s.tasks.length := by
      rcases Nat.lt_or_ge m s.tasks.length with h | h
      · exact h
      · rw [List.getElem?_eq_none h] at hm; simp at hm
    rw [ht, List.getElem?_append_left (by omega), hold, hm]
    exact ⟨_, rfl, rfl⟩
  have hnew : u.tasks[s.tasks.length]? = some t := by
    rw [ht, ← hlen, List.getElem?_append_right (by omega)]; simp
  have hlt : ∀ (m : Nat) (q : PTask), s.tasks[m]? = some q → m ≠ s.tasks.length := by
    rintro m q hm rfl; simp at hm
  have hpu : ∀ m, pend u.tasks m = pend s.tasks m + if t.parent = some m then 1 else 0 := by
    intro m
    rw [ht]
    unfold pend
    rw [List.countP_append, List.countP_singleton]
    have := hop m
    unfold pend at this
    rw [this, htp]
    cases hp : t.parent <;> simp
  constructor
  · intro i' g hg
    rw [hs] at hg
    split at hg
    · rename_i e; subst e
      rcases List.mem_cons.1 hg with rfl | hg'
      · exact htyp _ hnew hmono
      · exact (h.typ i' g ((hmem g).2 (.inr hg'))).mono hmono
    · exact (h.typ i' g hg).mono hmono
  · intro m q' hm
    rcases hback m q' hm with ⟨rfl, rfl⟩ | ⟨-, q0, h0, e, -⟩
    · exact htcode
    · simp only [PTask.static, Prod.mk.injEq] at e
      have := h.code m q0 h0
      simpa [e] using this
  · intro m p q' hm hp
    rcases hback m q' hm with ⟨rfl, rfl⟩ | ⟨-, q0, h0, e, -⟩
    · obtain ⟨q1, h1, h2, h3, h4⟩ := htpar p hp
      obtain ⟨q2, h5, h6⟩ := hmono p q1 h1
      simp only [PTask.static, Prod.mk.injEq] at h6
      exact ⟨q2, h5, by simp [h6, h2], by simp [h6, h3], by simp [h6, h4]⟩
    · simp only [PTask.static, Prod.mk.injEq] at e
      obtain ⟨q1, h1, h2, h3, h4⟩ := h.parent m p q0 h0 (by rw [← e.1]; exact hp)
      obtain ⟨q2, h5, h6⟩ := hmono p q1 h1
      simp only [PTask.static, Prod.mk.injEq] at h6
      exact ⟨q2, h5, by simp [h6, h2], by simp [h6, h3, e], by simp [h6, h4, e]⟩
  · intro i' g m q' hg hgk hm
    have hg2 : ∃ g0 ∈ (s.thr i').stack, g0.task = some m ∧ (g.pc = g0.pc ∨ (∃ x, g.pc = .push x) ∧ g0.pc = .run) := by
      rw [hs] at hg
      split at hg
      · rename_i e; subst e
        rcases List.mem_cons.1 hg with rfl | hg'
        · exact ⟨f, (hmem f).2 (.inl rfl), by rw [← htk]; exact hgk, .inr ⟨⟨_, hpc'⟩, hpc⟩⟩
        · exact ⟨g, (hmem g).2 (.inr hg'), hgk, .inl rfl⟩
      · exact ⟨g, hg, hgk, .inl rfl⟩
    obtain ⟨g0, hg0, hgk0, hgpc⟩ := hg2
    obtain ⟨qx, hqx, -⟩ := hP.task i' g0 m hg0 hgk0
    rcases hback m q' hm with ⟨rfl, rfl⟩ | ⟨-, q0, h0, e, e1, e2, e3, -⟩
    · simp at hqx
    · simp only [PTask.static, Prod.mk.injEq] at e
      have := h.flags i' g0 m q0 hg0 hgk0 h0
      rcases hgpc with hgpc | ⟨⟨x, hgpc⟩, hg0pc⟩
      · rw [hgpc]
        cases hpc : g0.pc <;> simp only [hpc, Flags] at this ⊢ <;> simpa [e, e2, e3] using this
      · rw [hgpc]; rw [hg0pc] at this
        simp only [Flags] at this ⊢
        simpa [e, e2, e3] using this
  · intro m q' hm hs'
    rcases hback m q' hm with ⟨rfl, rfl⟩ | ⟨-, q0, h0, e, e1, e2, e3, -⟩
    · exact ⟨hto, htp⟩
    · simp only [PTask.static, Prod.mk.injEq] at e
      have := h.fresh m q0 h0 (by rw [← e1]; exact hs')
      simpa [e, e2, e3] using this
  · intro m q' hm hs'
    rcases hback m q' hm with ⟨rfl, rfl⟩ | ⟨-, q0, h0, e, e1, e2, e3, -⟩
    · rw [htst] at hs'; simp at hs'
    · have := h.fin m q0 h0 (by rw [← e1]; exact hs')
      simpa [e2, e3] using this
  · intro m q' hm
    rcases hback m q' hm with ⟨rfl, rfl⟩ | ⟨-, q0, h0, e, e1, e2, e3, e4⟩
    · rw [htc, hto, hpu, h.pend_new]
      have : q'.parent ≠ some s.tasks.length := by
        intro hp
        obtain ⟨q1, h1, -⟩ := htpar _ hp
        simp at h1
      simp [b2n, this]
    · have := h.cnt m q0 h0
      rw [e4, e2, hpu]
      split <;> omega

theorem typed_other (tasks : List PTask) (i : Nat) (f : Frame) (h : f.code.FJ (f.env.map fun _ => .other)) : Typed tasks i f := by
  refine ⟨f.env.map fun _ => .other, by simp, h, ?_⟩
  intro v m hv
  simp at hv

theorem FInv.step {n : Nat} {s u : PoolState} {i : Nat} (hP : TPoolInv n s) (h : FInv s) (hs : PoolStep n s i u) : FInv u := by
  cases hs with
  | idle => exact h.keep rfl (by intro k f hf; simp [setThr, upd] at hf; grind)
  | retry => exact h.keep rfl (by intro k f hf; simp [setThr, upd] at hf; grind)
  | goOn => exact h.keep rfl (by intro k f hf; simp [setThr, upd] at hf; grind)
  | look => exact h.keep rfl (by intro k f hf; simp [setThr, upd] at hf; grind)
  | again => exact h.keep rfl (by intro k f hf; simp [setThr, upd] at hf; grind)
  | exit => exact h.keep rfl (by intro k f hf; simp [setThr, upd] at hf; grind)
  | stop => exact h.keep rfl (fun k f hf => .inl hf)
  | stopped => exact h.keep rfl (fun k f hf => .inl hf)
  | join => exact h.keep rfl (fun k f hf => .inl hf)
  | joined => exact h.keep rfl (fun k f hf => .inl hf)
  | terminate => exact h.keep rfl (fun k f hf => .inl hf)
  | leave => exact h.keep rfl (by intro k f hf; simp [setThr, upd] at hf; grind)
  | unwind => exact h.keep rfl (by intro k f hf; simp [setThr, upd] at hf; grind)
  | start hm hg ht hq =>
    rename_i g v j qu q
    obtain ⟨l, r, hl, hr⟩ := ht.mem
    obtain ⟨q0, hq0, hq1, hq2⟩ := hP.queue v j (by simp [hl])
    rw [hq] at hq0; simp only [Option.some.injEq] at hq0; subst hq0
    refine h.marked (k := j) (F := PTask.begin_ i (s.clock + 1)) hq rfl (fun _ => ⟨rfl, rfl, rfl, rfl⟩) (by simp [PTask.begin_]) (by simp [PTask.begin_]) ?_
    intro k f hf
    simp only [modTask, setThr_stack] at hf
    have hold : ∀ i f, f ∈ (s.thr i).stack → Typed s.tasks i f ∧ ∀ (k : Nat) (q : PTask), f.task = some k → s.tasks[k]? = some q → Flags q k f.pc :=
      fun i f hf => ⟨h.typ i f hf, fun k q => h.flags i f k q hf⟩
    split at hf
    · rename_i e; subst e
      rcases List.mem_cons.1 hf with rfl | hf'
      · refine ⟨typed_other _ _ _ (h.code j q hq), ?_⟩
        intro k q' hk hq'
        simp only [Option.some.injEq] at hk; subst hk
        rw [hq] at hq'; simp only [Option.some.injEq] at hq'; subst hq'
        exact h.fresh _ _ hq (.inr hq1)
      · exact hold _ f hf'
    · exact hold _ f hf
  | push hst hpc =>
    rename_i f fs j
    obtain ⟨q0, hq0, hq1, hq2, hq3⟩ := hP.push i f j (by simp [hst]) hpc
    refine h.marked (k := j) (F := PTask.setSt .queued) hq0 rfl (fun _ => ⟨rfl, rfl, rfl, rfl⟩) (fun _ => h.fresh j q0 hq0 (.inl hq1)) (by simp [PTask.setSt]) ?_
    intro k g hg
    simp only [modTask, setTop, setThr_stack] at hg
    have hold : ∀ i f, f ∈ (s.thr i).stack → Typed s.tasks i f ∧ ∀ (k : Nat) (q : PTask), f.task = some k → s.tasks[k]? = some q → Flags q k f.pc :=
      fun i f hf => ⟨h.typ i f hf, fun k q => h.flags i f k q hf⟩
    split at hg
    · rename_i e; subst e
      rcases List.mem_cons.1 hg with rfl | hg'
      · have := hold k f (by simp [hst])
        refine ⟨this.1, ?_⟩
        intro m q hm hq
        have := this.2 m q hm hq
        rw [hpc] at this
        exact this
      · exact hold _ g (by rw [hst]; exact List.mem_cons_of_mem _ hg')
    · exact hold _ g hg
  | sub hst hpc hq hk => exact FInv.sub hP h hst hpc hq hk (by simp [setTop, modTask]) rfl
  | up hst hpc hq hk hc hp =>
    rename_i f fs j q k p
    refine h.keep rfl ?_
    intro m g hg
    simp only [setTop, setThr_stack] at hg
    split at hg
    · rename_i e; subst e
      rcases List.mem_cons.1 hg with rfl | hg'
      · refine .inr ⟨h.typ m f (by simp [hst]), ?_⟩
        intro k' q' hk' hq'
        have hfl := h.flags m f k' q' (by simp [hst]) hk' hq'
        rw [hpc] at hfl
        simp only [Flags] at hfl ⊢
        rcases hfl with ⟨rfl, h1, h2⟩ | ⟨h0, h1, -⟩
        · rw [hq] at hq'; simp only [Option.some.injEq] at hq'; subst hq'
          right
          refine ⟨?_, hp, h1, by simp [h2, hp]⟩
          rintro rfl
          obtain ⟨q1, h3, h4, -⟩ := h.parent _ _ _ hq hp
          rw [hq] at h3; simp only [Option.some.injEq] at h3; subst h3
          rw [hp] at h4; simp at h4
        · obtain ⟨q1, h3, h4, -⟩ := h.parent _ _ _ hq' h1
          rw [hq] at h3; simp only [Option.some.injEq] at h3; subst h3
          rw [hp] at h4; simp at h4
      · exact .inl (by rw [hst]; exact List.mem_cons_of_mem _ hg')
    · exact .inl hg
  | finish hst hpc hq hk hc =>
    rename_i f fs j q k
    obtain ⟨q0, hq0, hq1, -⟩ := hP.task i f k (by simp [hst]) hk
    have hfl := h.flags i f k q0 (by simp [hst]) hk hq0
    rw [hpc] at hfl
    simp only [Flags] at hfl
    have hdone : q0.own = false ∧ q0.par = false := by
      rcases hfl with ⟨rfl, h1, h2⟩ | ⟨-, -, h1, h2⟩
      · rw [hq] at hq0; simp only [Option.some.injEq] at hq0; subst hq0
        refine ⟨h1, ?_⟩
        rw [h2]
        cases hp : q.parent with
        | none => rfl
        | some p =>
          have := h.cnt _ _ hq
          rw [h.pend_child hq hp, h1] at this
          simp [b2n] at this
          simp [hp, this] at hc
      · exact ⟨h1, h2⟩
    refine h.marked (k := k) (F := PTask.setSt .finished) hq0 rfl (fun _ => ⟨rfl, rfl, rfl, rfl⟩) (by simp [PTask.setSt]) (fun _ => hdone) ?_
    intro m g hg
    have hg' : g ∈ (s.thr m).stack := by
      simp only [modTask, setThr_stack] at hg
      split at hg
      · rename_i e; subst e; rw [hst]; exact List.mem_cons_of_mem _ hg
      · exact hg
    exact ⟨h.typ m g hg', fun k q => h.flags m g k q hg'⟩
  | ret hst hpc hc hk =>
    rename_i f fs j
    refine h.keep rfl ?_
    intro m g hg
    simp only [setTop, setThr_stack] at hg
    split at hg
    · rename_i e; subst e
      rcases List.mem_cons.1 hg with rfl | hg'
      · refine .inr ⟨h.typ m f (by simp [hst]), ?_⟩
        intro k' q' hk' hq'
        have hfl := h.flags m f k' q' (by simp [hst]) hk' hq'
        rw [hpc] at hfl
        simp only [hk, Option.some.injEq] at hk'
        exact .inl ⟨hk', hfl⟩
      · exact .inl (by rw [hst]; exact List.mem_cons_of_mem _ hg')
    · exact .inl hg
  | waited hst hpc hc hgn hv hq h0 =>
    rename_i f fs v k j q
    refine h.keep rfl ?_
    intro m g hg
    simp only [setTop, setThr_stack] at hg
    split at hg
    · rename_i e; subst e
      rcases List.mem_cons.1 hg with rfl | hg'
      · obtain ⟨Γ, h1, h2, h3⟩ := h.typ m f (by simp [hst])
        rw [hc] at h2
        refine .inr ⟨⟨Γ, h1, h2.2, h3⟩, ?_⟩
        intro k' q' hk' hq'
        exact h.flags m f k' q' (by simp [hst]) hk' hq'
      · exact .inl (by rw [hst]; exact List.mem_cons_of_mem _ hg')
    · exact .inl hg
  | submitRoot hst hpc hc =>
    rename_i f fs c k
    obtain ⟨Γ, h1, h2, h3⟩ := h.typ i f (by simp [hst])
    rw [hc] at h2
    refine FInv.submitted hP h hst hpc (f' := { f with code := k, env := s.tasks.length :: f.env, pc := .push s.tasks.length })
      rfl rfl (by simp [setTop]) rfl rfl rfl rfl rfl ?_ (by simp) (by intro m; simp) (fun _ => rfl) ?_
    · have := h2.1
      have e : Γ.map (fun _ => Kind.other) = f.env.map fun _ => Kind.other := by simp [List.map_const', h1]
      simpa [e] using this
    · intro t' hn hm
      refine ⟨.root :: Γ, by simp [h1], h2.2, ?_⟩
      intro v m hv hm'
      cases v with
      | zero =>
        simp at hm'; subst hm'
        exact ⟨_, hn, rfl, rfl, fun _ => rfl⟩
      | succ v =>
        simp only [List.getElem?_cons_succ] at hv hm' ⊢
        obtain ⟨q, e0, e1, e2, e3⟩ := h3 v m hv hm'
        obtain ⟨q', e4, e5⟩ := hm m q e0
        simp only [PTask.static, Prod.mk.injEq] at e5
        exact ⟨q', e4, by simp [e5, e1], by simp [e5, e2], by simpa [e5] using e3⟩
  | submitChild hst hpc hc hv hq =>
    rename_i f fs v c k pj q
    obtain ⟨Γ, h1, h2, h3⟩ := h.typ i f (by simp [hst])
    rw [hc] at h2
    obtain ⟨qp, hqp, hp1, hp2, hp3⟩ := h3 v pj (.inl h2.1) hv
    refine FInv.submitted hP h hst hpc (f' := { f with code := k, env := s.tasks.length :: f.env, pc := .push s.tasks.length })
      rfl rfl (by simp [setTop]) rfl rfl rfl rfl rfl ?_ ?_ ?_ ?_ ?_
    · have := h2.2.1
      have e : Γ.map (fun _ => Kind.other) = f.env.map fun _ => Kind.other := by simp [List.map_const', h1]
      simpa [e] using this
    · intro p hp
      simp only [Option.some.injEq] at hp; subst hp
      exact ⟨qp, hqp, hp3 h2.1, hp1, hp2⟩
    · intro m
      rw [get_modify _ _ hq]
      split
      · rename_i e; subst e; simp [hq, PTask.inc]
      · rename_i e; simp [Ne.symm e]
    · intro m
      have := countP_modify (fun q => q.parent == some m && q.par) PTask.inc s.tasks pj q hq
      simp only [PTask.inc] at this
      unfold pend
      omega
    · intro t' hn hm
      refine ⟨.child :: Γ, by simp [h1], h2.2.2, ?_⟩
      intro v m hv hm'
      cases v with
      | zero =>
        simp at hm'; subst hm'
        exact ⟨_, hn, rfl, rfl, by simp⟩
      | succ v =>
        simp only [List.getElem?_cons_succ] at hv hm' ⊢
        obtain ⟨q, e0, e1, e2, e3⟩ := h3 v m hv hm'
        obtain ⟨q', e4, e5⟩ := hm m q e0
        simp only [PTask.static, Prod.mk.injEq] at e5
        exact ⟨q', e4, by simp [e5, e1], by simp [e5, e2], by simpa [e5] using e3⟩

theorem PoolReach.fork {n : Nat} (hn : 0 < n) {p : Prog} {s : PoolState} (hp : p.FJ []) (h : PoolReach n p s) : FInv s := by
  unfold PoolReach at h
  generalize hp0 : PoolState.init p = s0 at h
  induction h with
  | refl => subst hp0; exact FInv.init hp
  | step i r a ha hs ih =>
    obtain ⟨-, -, hs⟩ := step_cases hs
    subst hp0
    exact FInv.step (PoolReach.inv hn ha).1 ih hs

end CoEcs
