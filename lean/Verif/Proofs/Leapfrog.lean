import Verif.Proofs.Nested

/-! # Two workers and nothing but `parallel_for` and stages -/

namespace CoEcs
open PoolState

theorem Prog.One.joined : ∀ {p : Prog} {o : Option Nat}, p.One o → p.Joined o.toList
  | .ret, _, h => by rw [show _ = none from h]; rfl
  | .throw, _, h => h.elim
  | .submit none _ _, _, h => by obtain ⟨rfl, h1, h2⟩ := h; exact ⟨joined h1, joined h2⟩
  | .submit (some v) _ _, _, h => by obtain ⟨rfl, h1, h2⟩ := h; exact ⟨by simp, joined h1, by simpa using joined h2⟩
  | .wait v _, _, h => by obtain ⟨rfl, h1⟩ := h; exact ⟨by simp, by simpa using joined h1⟩

theorem Prog.One.unique : ∀ {p : Prog} {o : Option Nat} {ps : List Nat}, p.One o → p.Joined ps → ps = o.toList
  | .ret, _, _, h, hj => by rw [show _ = none from h]; exact hj
  | .throw, _, _, h, _ => h.elim
  | .submit none _ _, _, ps, h, hj => by
      obtain ⟨rfl, -, h2⟩ := h
      have := unique h2 hj.2
      cases ps with
      | nil => rfl
      | cons a l => simp at this
  | .submit (some v) _ _, _, ps, h, hj => by
      obtain ⟨rfl, -, h2⟩ := h
      have := unique h2 hj.2.2
      match ps, this with
      | [a], e => simp at e; simp [e]
      | [], e => simp at e
      | _ :: _ :: _, e => simp at e
  | .wait v _, _, ps, h, hj => by
      obtain ⟨rfl, h1⟩ := h
      have := unique h1 hj.2
      simp only [Option.toList] at this ⊢
      have hl := List.length_erase_of_mem hj.1
      rw [this] at hl
      match ps, hj.1, hl with
      | [a], hm, _ => simp at hm; simp [hm]
      | _ :: _ :: _, _, hl => simp at hl

/-- All functions are of this kind. -/
structure OneInv (s : PoolState) : Prop where
  frame : ∀ i f, f ∈ (s.thr i).stack → ∃ o, f.code.One o
  task : ∀ q ∈ s.tasks, q.code.One none

theorem OneInv.step {n : Nat} {s u : PoolState} {i : Nat} (h : OneInv s) (hs : PoolStep n s i u) : OneInv u := by
  have hf := h.frame
  have ht := h.task
  cases hs
  case unwind f fs hst hpc hc hi => obtain ⟨o, this⟩ := hf i f (by simp [hst]); rw [hc] at this; exact this.elim
  case terminate f fs hst hpc hc hi => obtain ⟨o, this⟩ := hf i f (by simp [hst]); rw [hc] at this; exact this.elim
  all_goals refine ⟨?_, ?_⟩
  case start.refine_2 =>
    intro q hq
    simp only [modTask, setThr] at hq
    rcases mem_modify hq with hq | ⟨q', hq', rfl⟩
    · exact ht q hq
    · exact ht q' hq'
  case push.refine_2 =>
    intro q hq
    simp only [modTask, setTop, setThr] at hq
    rcases mem_modify hq with hq | ⟨q', hq', rfl⟩
    · exact ht q hq
    · exact ht q' hq'
  case finish.refine_2 =>
    intro q hq
    simp only [modTask, setThr] at hq
    rcases mem_modify hq with hq | ⟨q', hq', rfl⟩
    · exact ht q hq
    · exact ht q' hq'
  case sub.refine_2 j _ _ _ _ _ _ =>
    intro q hq
    simp only [modTask, setTop, setThr] at hq
    have : ∀ q ∈ s.tasks.modify j PTask.dec, q.code.One none := by
      intro q hq
      rcases mem_modify hq with hq | ⟨q', hq', rfl⟩
      · exact ht q hq
      · simp only [PTask.dec]; exact ht q' hq'
    rcases mem_modify hq with hq | ⟨q', hq', rfl⟩
    · exact this q hq
    · rw [pay_code]; exact this q' hq'
  case submitRoot.refine_2 f fs c k hst hpc hc =>
    obtain ⟨o, this⟩ := hf i f (by simp [hst])
    rw [hc] at this
    intro q hq
    simp only [setTop, setThr, List.mem_append, List.mem_singleton] at hq
    rcases hq with hq | rfl
    · exact ht q hq
    · exact this.2.1
  case submitChild.refine_2 f fs v c k pj q0 hst hpc hc hv hq0 =>
    obtain ⟨o, this⟩ := hf i f (by simp [hst])
    rw [hc] at this
    intro q hq
    simp only [setTop, setThr, List.mem_append, List.mem_singleton] at hq
    rcases hq with hq | rfl
    · rcases mem_modify hq with hq | ⟨q', hq', rfl⟩
      · exact ht q hq
      · exact ht q' hq'
    · exact this.2.1
  all_goals first | exact ht | exact hf | skip
  case start.refine_1 q _ _ _ hq =>
    have := ht _ (List.mem_of_getElem? hq)
    simp only [modTask, setThr, upd]; grind
  case submitRoot.refine_1 f fs c k hst hpc hc =>
    obtain ⟨o, this⟩ := hf i f (by simp [hst])
    rw [hc] at this
    have := this.2.2
    simp only [setTop, setThr, upd]; grind
  case submitChild.refine_1 f fs v c k pj q0 hst hpc hc hv hq0 =>
    obtain ⟨o, this⟩ := hf i f (by simp [hst])
    rw [hc] at this
    have := this.2.2
    simp only [setTop, setThr, upd]; grind
  case waited.refine_1 f fs v k j q hst hpc hc hg hv hq h0 =>
    obtain ⟨o, this⟩ := hf i f (by simp [hst])
    rw [hc] at this
    have := this.2
    simp only [setTop, setThr, upd]; grind
  case push.refine_1 f fs j hst hpc =>
    obtain ⟨o, this⟩ := hf i f (by simp [hst])
    simp only [modTask, setTop, setThr, upd]; grind
  case sub.refine_1 f fs j q k hst hpc hq hk =>
    obtain ⟨o, this⟩ := hf i f (by simp [hst])
    simp only [modTask, setTop, setThr, upd]; grind
  case up.refine_1 f fs j q k p hst hpc hq hk h0 hp =>
    obtain ⟨o, this⟩ := hf i f (by simp [hst])
    simp only [setTop, setThr, upd]; grind
  case ret.refine_1 f fs j hst hpc hc hk =>
    obtain ⟨o, this⟩ := hf i f (by simp [hst])
    simp only [setTop, setThr, upd]; grind
  all_goals simp only [modTask, setTop, setThr, upd]; grind

theorem PoolReach.one {n : Nat} {p : Prog} {s : PoolState} (hp : p.One none) (h : PoolReach n p s) : OneInv s := by
  unfold PoolReach at h
  generalize hp0 : PoolState.init p = s0 at h
  induction h with
  | refl => subst hp0; exact ⟨by intro i f; simp only [PoolState.init]; grind, by simp [PoolState.init]⟩
  | step i r a _ hs ih =>
    obtain ⟨-, -, hs⟩ := step_cases hs
    exact ih.step hs

/-- Which call it is. -/
def Frame.key (f : Frame) : Option Nat × Nat := (f.task, f.time)

/-- The calls of worker `k`, innermost first. -/
def PoolState.keys (s : PoolState) (k : Nat) : List (Option Nat × Nat) := (s.thr k).stack.map Frame.key

/-- The task of call `c` was submitted on worker `i` by the call that began at `t`. -/
def From (s : PoolState) (c : Option Nat × Nat) (i t : Nat) : Prop :=
  ∃ m q, c.1 = some m ∧ s.tasks[m]? = some q ∧ q.by_ = i ∧ q.caller = t

/-- Why a call of worker `i` that began at `t` and is looking for work has to: one of its tasks is in the queue, or executed by the other
worker; or there is nothing to take, and the other worker cannot get on either. -/
def Pinned (s : PoolState) (i k t : Nat) : Prop :=
  (∃ x ∈ (s.queue i).items, ∃ q, s.tasks[x]? = some q ∧ q.caller = t) ∨ (∃ c ∈ s.keys k, From s c i t) ∨
    ((s.queue i).items = [] ∧ (s.queue k).items = [] ∧ ((s.thr k).stack = [] ∨
      ∃ d ds v p, (s.thr k).stack = d :: ds ∧ d.pc = .run ∧ d.code = .wait v p ∧ ∃ e ∈ s.keys i, From s e k d.time))

/-- What always holds of two workers. -/
structure LeapInv (s : PoolState) : Prop where
  past : ∀ i g, (s.thr i).get = some g → g ≠ .pop → (s.queue i).items = []
  young : ∀ k, ∀ c ∈ s.keys k, ∀ (m : Nat) (q : PTask), c.1 = some m → s.tasks[m]? = some q → q.by_ ≠ k → ∀ x ∈ (s.queue k).items,
    ∀ qx, s.tasks[x]? = some qx → c.2 ≤ qx.caller
  chain : ∀ i k, i < 2 → k < 2 → i ≠ k → ∀ l f g r, s.keys i = l ++ f :: g :: r → ∀ (m : Nat) (q : PTask), f.1 = some m → s.tasks[m]? = some q →
    q.by_ = k → ∀ h ∈ s.keys k, h.2 = q.caller → ∃ c ∈ s.keys k, From s c i g.2 ∧ c.2 ≤ h.2
  held : ∀ i k, i < 2 → k < 2 → i ≠ k → (s.thr i).get ≠ none → ∀ g fs, (s.thr i).stack = g :: fs → Pinned s i k g.time

/-- What never changes of a task. -/
def Stat (s u : PoolState) : Prop := ∀ (m : Nat) (q : PTask), s.tasks[m]? = some q → ∃ q', u.tasks[m]? = some q' ∧ q'.by_ = q.by_ ∧ q'.caller = q.caller

theorem Stat.of_eq {s u : PoolState} (h : u.tasks = s.tasks) : Stat s u := by
  intro m q hm; exact ⟨q, by rw [h]; exact hm, rfl, rfl⟩

theorem Stat.modify {s t u : PoolState} {j : Nat} {F : PTask → PTask} (h : Stat s t) (hF : ∀ q, (F q).by_ = q.by_ ∧ (F q).caller = q.caller)
    (ht : u.tasks = t.tasks.modify j F) : Stat s u := by
  intro m q hm
  obtain ⟨q', h1, h2, h3⟩ := h m q hm
  rw [ht, List.getElem?_modify, h1]
  by_cases e : j = m
  · exact ⟨F q', by simp [e], by rw [(hF q').1, h2], by rw [(hF q').2, h3]⟩
  · exact ⟨q', by simp [e], h2, h3⟩

theorem From.keep {s u : PoolState} {c : Option Nat × Nat} {i t : Nat} (h : From s c i t) (hS : Stat s u) : From u c i t := by
  obtain ⟨m, q, h1, h2, h3, h4⟩ := h
  obtain ⟨q', e1, e2, e3⟩ := hS m q h2
  exact ⟨m, q', h1, e1, by omega, by omega⟩

theorem mem_keys {s : PoolState} {k : Nat} {c : Option Nat × Nat} (h : c ∈ s.keys k) : ∃ f ∈ (s.thr k).stack, f.task = c.1 ∧ f.time = c.2 := by
  obtain ⟨f, hf, rfl⟩ := List.mem_map.1 h
  exact ⟨f, hf, rfl, rfl⟩

theorem TPoolInv.keys_task {n : Nat} {s : PoolState} (hP : TPoolInv n s) {k : Nat} {c : Option Nat × Nat} (h : c ∈ s.keys k) {m : Nat} (hm : c.1 = some m) :
    ∃ q, s.tasks[m]? = some q := by
  obtain ⟨f, hf, e, -⟩ := mem_keys h
  obtain ⟨q, hq, -⟩ := hP.task k f m hf (by rw [e, hm])
  exact ⟨q, hq⟩

theorem TPoolInv.keys_ord {n : Nat} {s : PoolState} (hP : TPoolInv n s) (k : Nat) : (s.keys k).Pairwise (fun f g => g.2 < f.2) := by
  unfold PoolState.keys
  rw [List.pairwise_map]
  exact hP.ord k

/-- Steps that start no task keep `young` and `chain`. -/
theorem LeapInv.keep {n : Nat} {s u : PoolState} (hP : TPoolInv n s) (h : LeapInv s) (hS : Stat s u) (hK : ∀ k, u.keys k <:+ s.keys k)
    (hq : ∀ k x, x ∈ (u.queue k).items → x ∈ (s.queue k).items ∨ ∃ q, s.tasks[x]? = some q ∧ ∀ c ∈ s.keys k, c.2 ≤ q.caller)
    (hpast : ∀ i g, (u.thr i).get = some g → g ≠ .pop → (u.queue i).items = [])
    (hheld : ∀ i k, i < 2 → k < 2 → i ≠ k → (u.thr i).get ≠ none → ∀ g fs, (u.thr i).stack = g :: fs → Pinned u i k g.time) : LeapInv u := by
  have hsub : ∀ k c, c ∈ u.keys k → c ∈ s.keys k := fun k c hc => (hK k).subset hc
  refine ⟨hpast, ?_, ?_, hheld⟩
  · intro k c hc m q hm hq1 hb x hx qx hqx
    obtain ⟨q0, h0⟩ := hP.keys_task (hsub k c hc) hm
    obtain ⟨q0', e1, e2, e3⟩ := hS m q0 h0
    rw [hq1] at e1; simp only [Option.some.injEq] at e1; subst e1
    rcases hq k x hx with hx | ⟨qx0, hx0, hle⟩
    · obtain ⟨qx0, hx0, -⟩ := hP.queue k x hx
      obtain ⟨qx', f1, f2, f3⟩ := hS x qx0 hx0
      rw [hqx] at f1; simp only [Option.some.injEq] at f1; subst f1
      have := h.young k c (hsub k c hc) m q0 hm h0 (by omega) x hx qx0 hx0
      omega
    · obtain ⟨qx', f1, f2, f3⟩ := hS x qx0 hx0
      rw [hqx] at f1; simp only [Option.some.injEq] at f1; subst f1
      have := hle c (hsub k c hc)
      omega
  · intro i k hi hk hne l f g r hl m q hm hq1 hb hh hhk hht
    obtain ⟨pre, hpre⟩ := hK i
    have hl' : s.keys i = (pre ++ l) ++ f :: g :: r := by rw [← hpre, hl, List.append_assoc]
    have hfu : f ∈ u.keys i := by rw [hl]; simp
    obtain ⟨q0, h0⟩ := hP.keys_task (hsub i f hfu) hm
    obtain ⟨q0', e1, e2, e3⟩ := hS m q0 h0
    rw [hq1] at e1; simp only [Option.some.injEq] at e1; subst e1
    obtain ⟨c, hc, hF, hle⟩ := h.chain i k hi hk hne _ f g r hl' m q0 hm h0 (by omega) hh (hsub k hh hhk) (by omega)
    refine ⟨c, ?_, hF.keep hS, hle⟩
    obtain ⟨pk, hpk⟩ := hK k
    rw [← hpk] at hc
    rcases List.mem_append.1 hc with hc | hc
    · have := hP.keys_ord k
      rw [← hpk, List.pairwise_append] at this
      have := this.2.2 c hc hh hhk
      omega
    · exact hc

theorem Pinned.keep {s u : PoolState} {i k t : Nat} (h : Pinned s i k t) (hS : Stat s u) (hqi : (u.queue i).items = (s.queue i).items)
    (hqk : (u.queue k).items = (s.queue k).items) (hki : u.keys i = s.keys i) (hkk : u.keys k = s.keys k) (hst : (u.thr k).stack = (s.thr k).stack) : Pinned u i k t := by
  rcases h with ⟨x, hx, q, h1, h2⟩ | ⟨c, hc, hF⟩ | ⟨h1, h2, h3⟩
  · obtain ⟨q', e1, -, e2⟩ := hS x q h1
    exact .inl ⟨x, by rw [hqi]; exact hx, q', e1, by omega⟩
  · exact .inr (.inl ⟨c, by rw [hkk]; exact hc, hF.keep hS⟩)
  · refine .inr (.inr ⟨by rw [hqi]; exact h1, by rw [hqk]; exact h2, ?_⟩)
    rcases h3 with h3 | ⟨d, ds, v, p, h3, h4, h5, e, he, hF⟩
    · exact .inl (by rw [hst]; exact h3)
    · exact .inr ⟨d, ds, v, p, by rw [hst]; exact h3, h4, h5, e, by rw [hki]; exact he, hF.keep hS⟩

/-- All that is known about a state with two workers. -/
structure DuoInv (s : PoolState) : Prop where
  A : AllInv 2 s
  N : NestInv s
  J : JInv s
  O : OneInv s
  few : ∀ j, s.children j < 65535

/-- A call that waits for its tasks has not got all of them while one is executed. -/
theorem DuoInv.waits {s : PoolState} (h : DuoInv s) {k : Nat} {d : Frame} {ds : List Frame} (hst : (s.thr k).stack = d :: ds) {v : Nat} {p : Prog}
    (hc : d.code = .wait v p) {j : Nat} {q : PTask} (hv : d.env[v]? = some j) (hq : s.tasks[j]? = some q) {m : Nat} {qm : PTask}
    (hm : s.tasks[m]? = some qm) (hb : qm.by_ = k) (hcal : qm.caller = d.time) (hown : qm.own = true) : q.counter ≠ 0 := by
  intro h0
  have hd : d ∈ (s.thr k).stack := by simp [hst]
  obtain ⟨ps, hj, hps⟩ := h.J.frame k d hd
  obtain ⟨o, ho⟩ := h.O.frame k d hd
  have hu := ho.unique hj
  rw [hc] at ho
  obtain ⟨rfl, -⟩ := ho
  obtain ⟨w, hw, r, hr, hmr⟩ := hps m qm hm hb hcal hown
  rw [hu] at hw
  simp only [Option.toList, List.mem_singleton] at hw
  subst hw
  rw [hv] at hr; simp only [Option.some.injEq] at hr; subst hr
  obtain ⟨h1, h2⟩ := h.A.zero hq h0 (h.few j)
  rcases hmr with rfl | hp
  · rw [hq] at hm; simp only [Option.some.injEq] at hm; subst hm; rw [h1] at hown; cases hown
  · rw [h2 m qm hm hp] at hown; cases hown

/-- All calls of a worker that looks for work are in their functions. -/
theorem AllInv.own_below {n : Nat} {s : PoolState} (h : AllInv n s) {i : Nat} (hg : (s.thr i).get ≠ none) {e : Option Nat × Nat} (he : e ∈ s.keys i) {m : Nat} {q : PTask}
    (hm : e.1 = some m) (hq : s.tasks[m]? = some q) : q.own = true := by
  obtain ⟨f, hf, e1, -⟩ := mem_keys he
  have hpc : f.pc = .run := by
    cases hst : (s.thr i).stack with
    | nil => rw [hst] at hf; cases hf
    | cons g fs =>
      rw [hst] at hf
      rcases List.mem_cons.1 hf with rfl | hf
      · exact (h.P2.get i _ fs hg hst).1
      · exact (h.P.low i g fs hst f hf).1
  have := h.F.flags i f m q hf (by rw [e1, hm]) hq
  rw [hpc] at this
  exact this.1

/-- A call that finds the task it waits for not completed has one in the queue, or the other worker executes one. -/
theorem AllInv.held {s : PoolState} (h : AllInv 2 s) {i k : Nat} (hi : i < 2) (hk : k < 2) (hik : i ≠ k) {g : Frame} {fs : List Frame} (hst : (s.thr i).stack = g :: fs)
    {v : Nat} {p : Prog} (hpc : g.pc = .run) (hc : g.code = .wait v p) {j : Nat} {q : PTask} (hv : g.env[v]? = some j) (hq : s.tasks[j]? = some q)
    (h0 : q.counter ≠ 0) : Pinned s i k g.time := by
  have hgs : g ∈ (s.thr i).stack := by simp [hst]
  obtain ⟨Γ, -, hcode, htyp⟩ := h.F.typ i g hgs
  rw [hc] at hcode
  obtain ⟨q', hq', hb, hcal, -⟩ := htyp v j hcode.1 hv
  rw [hq] at hq'; simp only [Option.some.injEq] at hq'; subst hq'
  have key : ∀ (c : Nat) (qc : PTask), s.tasks[c]? = some qc → qc.by_ = i → qc.caller = g.time → qc.st ≠ .finished → Pinned s i k g.time := by
    intro c qc hqc hcb hcc hne
    cases hs : qc.st with
    | made =>
      obtain ⟨f, hf, hfp⟩ := h.P.made c qc hqc hs
      rw [hcb, hst] at hf
      rcases List.mem_cons.1 hf with rfl | hf
      · rw [hpc] at hfp; cases hfp
      · have := (h.P.low i g fs hst f hf).1; rw [hfp] at this; cases this
    | queued => exact .inl ⟨c, by have := h.P.queued c qc hqc hs; rwa [hcb] at this, qc, hqc, hcc⟩
    | finished => exact absurd hs hne
    | started =>
      rcases h.P.started c qc hqc hs with ⟨f, hf, hft⟩ | hu
      · by_cases ho : qc.on = i
        · rw [ho] at hf
          obtain ⟨q0, e1, -, -, -, e2⟩ := h.P.task i f c hf hft
          rw [hqc] at e1; simp only [Option.some.injEq] at e1; subst e1
          have := h.P.top_max hst hf
          omega
        · have := (h.P.bnd c qc hqc).2.1
          have hok : qc.on = k := by omega
          rw [hok] at hf
          exact .inr (.inl ⟨f.key, List.mem_map.2 ⟨f, hf, rfl⟩, c, qc, hft, hqc, hcb, hcc⟩)
      · rw [h.N.unwound] at hu; cases hu
  by_cases hf : q.st = .finished
  · have hcnt := h.F.cnt j q hq
    rw [(h.F.fin j q hq hf).1] at hcnt
    have hpos : 0 < pend s.tasks j := by
      rcases Nat.eq_zero_or_pos (pend s.tasks j) with e | e
      · rw [e] at hcnt; simp [b2n] at hcnt; exact absurd hcnt h0
      · exact e
    unfold pend at hpos
    rw [List.countP_pos_iff] at hpos
    obtain ⟨qc, hm, hpar⟩ := hpos
    simp only [Bool.and_eq_true, beq_iff_eq] at hpar
    obtain ⟨c, hqc⟩ := List.getElem?_of_mem hm
    obtain ⟨qp, e1, -, e2, e3⟩ := h.F.parent c j qc hqc hpar.1
    rw [hq] at e1; simp only [Option.some.injEq] at e1; subst e1
    refine key c qc hqc (by omega) (by omega) ?_
    intro hfin
    have := (h.F.fin c qc hqc hfin).2
    rw [hpar.2] at this; cases this
  · exact key j q hq hb hcal hf

/-- The queue of a worker that is about to return from a stolen task is empty. -/
theorem DuoInv.drained {s : PoolState} (hD : DuoInv s) (h : LeapInv s) {a j : Nat} {f : Frame} {fs : List Frame} (hst : (s.thr a).stack = f :: fs)
    (hpc : f.pc = .check j) {m : Nat} {q : PTask} (hm : f.task = some m) (hq : s.tasks[m]? = some q) (hb : q.by_ ≠ a) : (s.queue a).items = [] := by
  have hf : f ∈ (s.thr a).stack := by simp [hst]
  cases hx : (s.queue a).items with
  | nil => rfl
  | cons x l =>
    have hxm : x ∈ (s.queue a).items := by simp [hx]
    obtain ⟨qx, hqx, hxs, hxb⟩ := hD.A.P.queue a x hxm
    have hown := (hD.A.F.fresh x qx hqx (.inr hxs)).1
    have hge := h.young a f.key (List.mem_map.2 ⟨f, hf, rfl⟩) m q hm hq hb x hxm qx hqx
    obtain ⟨c, hc, hct⟩ := hD.J.live x qx hqx hown
    rw [hxb] at hc
    have hle := hD.A.P.top_max hst hc
    have heq : qx.caller = f.time := by simp only [Frame.key] at hge; omega
    obtain ⟨ps, hj, hps⟩ := hD.J.frame a f hf
    rw [hD.J.pc a f j hf (.inr hpc)] at hj
    obtain ⟨v, hv, -⟩ := hps x qx hqx hxb heq hown
    rw [show ps = [] from hj] at hv
    cases hv

theorem LeapInv.step {s u : PoolState} {a : Nat} (ha : a < 2) (hD : DuoInv s) (h : LeapInv s) (hs : PoolStep 2 s a u) : LeapInv u := by
  have hP := hD.A.P
  have hP2 := hD.A.P2
  -- steps that change neither stacks nor queues nor tasks
  have calm : ∀ (w : PoolState), w.tasks = s.tasks → w.queue = s.queue → (∀ k, (w.thr k).stack = (s.thr k).stack) → (∀ k, k ≠ a → (w.thr k).get = (s.thr k).get) →
      (∀ g, (w.thr a).get = some g → g ≠ .pop → (s.queue a).items = []) →
      (∀ k g fs, k < 2 → a ≠ k → (w.thr a).get ≠ none → (s.thr a).stack = g :: fs → Pinned s a k g.time) → LeapInv w := by
    intro w e1 e2 e3 e4 e5 e6
    have hk : ∀ k, w.keys k = s.keys k := fun k => by simp only [PoolState.keys, e3]
    refine h.keep hP (.of_eq e1) (fun k => by rw [hk]; exact List.suffix_refl _) (fun k x hx => .inl (by rw [e2] at hx; exact hx)) ?_ ?_
    · intro i g hg hne
      rw [e2]
      by_cases e : i = a
      · subst e; exact e5 g hg hne
      · rw [e4 i e] at hg; exact h.past i g hg hne
    · intro i k hi hk' hik hg g fs hst
      rw [e3] at hst
      refine Pinned.keep (s := s) ?_ (.of_eq e1) (by rw [e2]) (by rw [e2]) (hk i) (hk k) (e3 k)
      by_cases e : i = a
      · subst e; exact e6 k g fs hk' hik hg hst
      · rw [e4 i e] at hg; exact h.held i k hi hk' hik hg g fs hst
  -- steps that change the innermost call
  have top : ∀ (f f' : Frame) (fs : List Frame) (w : PoolState), (s.thr a).stack = f :: fs → f'.task = f.task → f'.time = f.time → (s.thr a).get = none →
      (∀ k, (w.thr k).stack = if k = a then f' :: fs else (s.thr k).stack) → (∀ k, (w.thr k).get = (s.thr k).get) → w.queue = s.queue → Stat s w →
      (∀ i t, i < 2 → i ≠ a → (s.thr i).get ≠ none → (∃ g gs, (s.thr i).stack = g :: gs ∧ g.time = t) →
        ¬ ∃ v p, f.pc = .run ∧ f.code = .wait v p ∧ ∃ e ∈ s.keys i, From s e a f.time) → LeapInv w := by
    intro f f' fs w hst e1 e2 e3 e4 e5 e6 e7 e8
    have hk : ∀ k, w.keys k = s.keys k := by
      intro k
      simp only [PoolState.keys, e4]
      split
      · rename_i e; subst e; simp [hst, Frame.key, e1, e2]
      · rfl
    refine h.keep hP e7 (fun k => by rw [hk]; exact List.suffix_refl _) (fun k x hx => .inl (by rw [e6] at hx; exact hx)) ?_ ?_
    · intro i g hg hne
      rw [e6]; rw [e5] at hg; exact h.past i g hg hne
    · intro i k hi hk' hik hg g gs hgs
      rw [e5] at hg
      have hia : i ≠ a := by rintro rfl; exact hg e3
      rw [e4, if_neg hia] at hgs
      have hka : k = a := by omega
      subst hka
      rcases h.held i k hi hk' hik hg g gs hgs with ⟨x, hx, q, h1, h2⟩ | ⟨c, hc, hF⟩ | ⟨h1, h2, h3⟩
      · obtain ⟨q', f1, -, f2⟩ := e7 x q h1
        exact .inl ⟨x, by rw [e6]; exact hx, q', f1, by omega⟩
      · exact .inr (.inl ⟨c, by rw [hk]; exact hc, hF.keep e7⟩)
      · rcases h3 with h3 | ⟨d, ds, v, p, h3, h4, h5, e, he, hF⟩
        · rw [hst] at h3; cases h3
        · rw [hst] at h3; simp only [List.cons.injEq] at h3; obtain ⟨rfl, rfl⟩ := h3
          exact absurd ⟨v, p, h4, h5, e, he, hF⟩ (e8 i g.time hi hik hg ⟨g, gs, hgs, rfl⟩)
  have nog : ∀ f fs, (s.thr a).stack = f :: fs → (f.pc ≠ .run ∨ ∀ v p, f.code ≠ .wait v p) → (s.thr a).get = none := by
    intro f fs hst hne
    cases hgt : (s.thr a).get with
    | none => rfl
    | some x =>
      obtain ⟨h1, v, p, h2⟩ := hP2.get a f fs (by simp [hgt]) hst
      rcases hne with hne | hne
      · exact absurd h1 hne
      · exact absurd h2 (hne v p)
  cases hs with
  | idle hst hm hi hg hne hsem =>
    refine calm _ rfl rfl (by simp) (by intro k hk; simp [setThr, upd, hk]) ?_ ?_
    · intro g hg'; simp [setThr, upd] at hg'
    · intro k g fs _ _ hg'; simp [setThr, upd] at hg'
  | retry hm hne hg hne' =>
    refine calm _ rfl rfl (by simp) (by intro k hk; simp [setThr, upd, hk]) ?_ ?_
    · intro g hg'; simp [setThr, upd] at hg'
    · intro k g fs _ _ hg'; simp [setThr, upd] at hg'
  | goOn hm hg hgo =>
    rename_i g0 g1
    refine calm _ rfl rfl (by simp) (by intro k hk; simp [setThr, upd, hk]) ?_ ?_
    · intro g _ _
      by_cases e : g0 = .pop
      · exact hgo.2.1 e
      · exact h.past a g0 hg e
    · intro k g fs hk hak _ hst
      exact h.held a k ha hk hak (by simp [hg]) g fs hst
  | look hm hg hne =>
    refine calm _ rfl rfl (by simp) (by intro k hk; simp [setThr, upd, hk]) ?_ ?_
    · intro g hg' hne'; simp [setThr, upd] at hg'; exact absurd hg'.symm hne'
    · intro k g fs hk hak _ hst
      rcases hm with ⟨hm, -⟩ | ⟨f, fs', v, c, hst', hpc, hc⟩
      · rw [hm] at hst; cases hst
      · rw [hst'] at hst; simp only [List.cons.injEq] at hst; obtain ⟨rfl, rfl⟩ := hst
        obtain ⟨j, q, hv, hq, h0⟩ := hne f fs' v c hst' hc
        exact hD.A.held ha hk hak hst' hpc hc hv hq h0
  | again hst hm hi hac =>
    refine calm _ rfl rfl (by simp) (by intro k hk; simp [setThr, upd, hk]) ?_ ?_
    · intro g hg' hne'; simp [setThr, upd] at hg'; exact h.past a g hg' hne'
    · intro k g fs _ _ _ hst'; rw [hst] at hst'; cases hst'
  | exit hst hm hi hac =>
    refine calm _ rfl rfl (by simp) (by intro k hk; simp [setThr, upd, hk]) ?_ ?_
    · intro g hg' hne'; simp [setThr, upd] at hg'; exact h.past a g hg' hne'
    · intro k g fs _ _ _ hst'; rw [hst] at hst'; cases hst'
  | stop _ hst _ _ =>
    exact calm _ rfl rfl (fun _ => rfl) (fun _ _ => rfl) (fun g hg hne => h.past a g hg hne) (fun k g fs _ _ _ hst' => by rw [hst] at hst'; cases hst')
  | stopped _ hst _ _ =>
    exact calm _ rfl rfl (fun _ => rfl) (fun _ _ => rfl) (fun g hg hne => h.past a g hg hne) (fun k g fs _ _ _ hst' => by rw [hst] at hst'; cases hst')
  | join _ hst _ _ _ =>
    exact calm _ rfl rfl (fun _ => rfl) (fun _ _ => rfl) (fun g hg hne => h.past a g hg hne) (fun k g fs _ _ _ hst' => by rw [hst] at hst'; cases hst')
  | joined _ hst _ _ =>
    exact calm _ rfl rfl (fun _ => rfl) (fun _ _ => rfl) (fun g hg hne => h.past a g hg hne) (fun k g fs _ _ _ hst' => by rw [hst] at hst'; cases hst')
  | unwind hst hpc hc hi =>
    rename_i f fs
    have := hD.A.N.frame a f (by simp [hst])
    rw [hc] at this; exact this.elim
  | terminate hst hpc hc hi =>
    rename_i f fs
    have := hD.A.N.frame a f (by simp [hst])
    rw [hc] at this; exact this.elim
  | sub hst hpc hq hk =>
    rename_i f fs j q k
    refine top f { f with pc := .check j } fs _ hst rfl rfl (nog f fs hst (.inl (by simp [hpc]))) (by simp [setTop, modTask]) ?_ rfl ?_ ?_
    · intro k; simp only [setTop, setThr, modTask, upd]; split
      · rename_i e; rw [e]
      · rfl
    · exact Stat.modify (t := s.modTask j PTask.dec) (j := k) (F := PTask.pay k j) (Stat.modify (t := s) (j := j) (F := PTask.dec) (.of_eq rfl) (fun q => by simp only [PTask.dec, and_self]) rfl)
        (fun q => by unfold PTask.pay; split <;> exact ⟨rfl, rfl⟩) rfl
    · rintro i t - - - - ⟨v, p, h1, -⟩; rw [hpc] at h1; cases h1
  | up hst hpc hq hk h0 hp =>
    rename_i f fs j q k p
    refine top f { f with pc := .sub p } fs _ hst rfl rfl (nog f fs hst (.inl (by simp [hpc]))) (by simp [setTop]) ?_ rfl (.of_eq rfl) ?_
    · intro k; simp only [setTop, setThr, upd]; split
      · rename_i e; rw [e]
      · rfl
    · rintro i t - - - - ⟨v, p, h1, -⟩; rw [hpc] at h1; cases h1
  | ret hst hpc hc hk =>
    rename_i f fs j
    refine top f { f with pc := .sub j } fs _ hst rfl rfl (nog f fs hst (.inr (by simp [hc]))) (by simp [setTop]) ?_ rfl (.of_eq rfl) ?_
    · intro k; simp only [setTop, setThr, upd]; split
      · rename_i e; rw [e]
      · rfl
    · rintro i t - - - - ⟨v, p, -, h1, -⟩; rw [hc] at h1; cases h1
  | submitRoot hst hpc hc =>
    rename_i f fs c k
    refine top f { f with code := k, env := s.tasks.length :: f.env, pc := .push s.tasks.length } fs _ hst rfl rfl (nog f fs hst (.inr (by simp [hc]))) (by simp [setTop]) ?_ rfl ?_ ?_
    · intro k; simp only [setTop, setThr, upd]; split
      · rename_i e; rw [e]
      · rfl
    · intro m q hm
      have := (List.getElem?_eq_some_iff.1 hm).1
      exact ⟨q, by simp only [setTop, setThr]; rw [List.getElem?_append_left this]; exact hm, rfl, rfl⟩
    · rintro i t - - - - ⟨v, p, -, h1, -⟩; rw [hc] at h1; cases h1
  | submitChild hst hpc hc hv hq =>
    rename_i f fs v c k pj q
    refine top f { f with code := k, env := s.tasks.length :: f.env, pc := .push s.tasks.length } fs _ hst rfl rfl (nog f fs hst (.inr (by simp [hc]))) (by simp [setTop]) ?_ rfl ?_ ?_
    · intro k; simp only [setTop, setThr, upd]; split
      · rename_i e; rw [e]
      · rfl
    · intro m q hm
      have hlt := (List.getElem?_eq_some_iff.1 hm).1
      obtain ⟨q', h1, h2⟩ := (Stat.modify (t := s) (u := s.modTask pj PTask.inc) (F := PTask.inc) (.of_eq rfl) (fun q => ⟨rfl, rfl⟩) rfl) m q hm
      refine ⟨q', ?_, h2⟩
      simp only [setTop, setThr]
      rw [List.getElem?_append_left (by simpa using hlt)]
      exact h1
    · rintro i t - - - - ⟨v, p, -, h1, -⟩; rw [hc] at h1; cases h1
  | waited hst hpc hc hg hv hq h0 =>
    rename_i f fs v k j q
    refine top f { f with code := k } fs _ hst rfl rfl hg (by simp [setTop]) ?_ rfl (.of_eq rfl) ?_
    · intro k; simp only [setTop, setThr, upd]; split
      · rename_i e; rw [e]
      · rfl
    · rintro i t hi hia hgi - ⟨v', p, -, -, e, he, m, qm, h1, h2, h3, h4⟩
      exact hD.waits hst hc hv hq h2 h3 h4 (hD.A.own_below hgi he h1 h2) h0
  | push hst hpc =>
    rename_i f fs j
    have hfs : f ∈ (s.thr a).stack := by simp [hst]
    have hno := nog f fs hst (.inl (by simp [hpc]))
    obtain ⟨qj, hqj, -, hjb, hjc⟩ := hP.push a f j hfs hpc
    have hS : Stat s (({ s with queue := upd s.queue a ((s.queue a).push j), sem := s.sem + 1 }.setTop a { f with pc := .run } fs).modTask j (PTask.setSt .queued)) :=
      Stat.modify (t := s) (j := j) (F := PTask.setSt .queued) (.of_eq rfl) (fun q => ⟨rfl, rfl⟩) rfl
    have hk : ∀ k, (({ s with queue := upd s.queue a ((s.queue a).push j), sem := s.sem + 1 }.setTop a { f with pc := .run } fs).modTask j (PTask.setSt .queued)).keys k = s.keys k := by
      intro k
      simp only [PoolState.keys, modTask, setTop, setThr_stack]
      split
      · rename_i e; subst e; simp [hst, Frame.key]
      · rfl
    refine h.keep hP hS (fun k => by rw [hk]; exact List.suffix_refl _) ?_ ?_ ?_
    · intro k x hx
      simp only [modTask, setTop, setThr, upd] at hx
      split at hx
      · rename_i e; subst e
        simp only [TQueue.push, List.mem_append, List.mem_singleton] at hx
        rcases hx with hx | rfl
        · exact .inl hx
        · refine .inr ⟨qj, hqj, ?_⟩
          intro c hc
          obtain ⟨f', hf', -, e⟩ := mem_keys hc
          have := hP.top_max hst hf'
          omega
      · exact .inl hx
    · intro i g hg hne
      simp only [modTask, setTop, setThr, upd] at hg ⊢
      by_cases e : i = a
      · rw [if_pos e] at hg; simp only [hno] at hg; cases hg
      · rw [if_neg e] at hg ⊢; exact h.past i g hg hne
    · intro i k hi hk' hik hg g gs hgs
      have hia : i ≠ a := by
        rintro rfl
        simp [modTask, setTop, setThr, upd, hno] at hg
      have hka : k = a := by omega
      subst hka
      have hg' : (s.thr i).get ≠ none := by simpa [modTask, setTop, setThr, upd, hia] using hg
      have hgs' : (s.thr i).stack = g :: gs := by simpa [modTask, setTop, setThr, upd, hia] using hgs
      rcases h.held i k hi hk' hik hg' g gs hgs' with ⟨x, hx, q, h1, h2⟩ | ⟨c, hc, hF⟩ | ⟨h1, h2, h3⟩
      · obtain ⟨q', f1, -, f2⟩ := hS x q h1
        exact .inl ⟨x, by simpa [modTask, setTop, setThr, upd, hia] using hx, q', f1, by omega⟩
      · exact .inr (.inl ⟨c, by rw [hk]; exact hc, hF.keep hS⟩)
      · rcases h3 with h3 | ⟨d, ds, v, p, h3, h4, h5, -⟩
        · rw [hst] at h3; cases h3
        · rw [hst] at h3; simp only [List.cons.injEq] at h3; obtain ⟨rfl, rfl⟩ := h3
          rw [hpc] at h4; cases h4
  | leave hst hpc hc hk =>
    rename_i f fs
    have hfs : f ∈ (s.thr a).stack := by simp [hst]
    have hno := nog f fs hst (.inr (by simp [hc]))
    have hnil : fs = [] := by
      cases fs with
      | nil => rfl
      | cons g gs =>
        have h1 := (hP.main a f hfs hk).2
        have h2 := hP.ord a
        rw [hst] at h2
        have := (List.pairwise_cons.1 h2).1 g (by simp)
        omega
    subst hnil
    refine h.keep hP (.of_eq rfl) ?_ (fun k x hx => .inl hx) ?_ ?_
    · intro k
      simp only [PoolState.keys, setThr_stack]
      split
      · exact List.nil_suffix
      · exact List.suffix_refl _
    · intro i g hg hne
      simp only [setThr, upd] at hg
      by_cases e : i = a
      · rw [if_pos e] at hg; simp only [hno] at hg; cases hg
      · rw [if_neg e] at hg; exact h.past i g hg hne
    · intro i k hi hk' hik hg g gs hgs
      have hia : i ≠ a := by
        rintro rfl
        simp [setThr, upd, hno] at hg
      have hka : k = a := by omega
      subst hka
      have hg' : (s.thr i).get ≠ none := by simpa [setThr, upd, hia] using hg
      have hgs' : (s.thr i).stack = g :: gs := by simpa [setThr, upd, hia] using hgs
      rcases h.held i k hi hk' hik hg' g gs hgs' with hx | ⟨c, hc', m, q, h1, -⟩ | ⟨h1, h2, h3⟩
      · exact .inl hx
      · simp only [PoolState.keys, hst, List.map_cons, List.map_nil, List.mem_singleton] at hc'
        subst hc'
        simp [Frame.key, hk] at h1
      · rcases h3 with h3 | ⟨d, ds, v, p, h3, h4, h5, -⟩
        · rw [hst] at h3; cases h3
        · rw [hst] at h3; simp only [List.cons.injEq] at h3; obtain ⟨rfl, rfl⟩ := h3
          rw [hc] at h5; cases h5
  | finish hst hpc hq hk h0 =>
    rename_i f fs j q m
    have hfs : f ∈ (s.thr a).stack := by simp [hst]
    have hno := nog f fs hst (.inl (by simp [hpc]))
    have hS : Stat s (({ s with sem := if fs.isEmpty then s.sem else s.sem + 1 }.setThr a { s.thr a with stack := fs }).modTask m (PTask.setSt .finished)) :=
      Stat.modify (t := s) (j := m) (F := PTask.setSt .finished) (.of_eq rfl) (fun q => ⟨rfl, rfl⟩) rfl
    have hka0 : (({ s with sem := if fs.isEmpty then s.sem else s.sem + 1 }.setThr a { s.thr a with stack := fs }).modTask m (PTask.setSt .finished)).keys a = fs.map Frame.key := by
      simp [PoolState.keys, modTask, setThr_stack]
    have hkb : ∀ k, k ≠ a → (({ s with sem := if fs.isEmpty then s.sem else s.sem + 1 }.setThr a { s.thr a with stack := fs }).modTask m (PTask.setSt .finished)).keys k = s.keys k := by
      intro k hk; simp [PoolState.keys, modTask, setThr_stack, hk]
    have hsa : s.keys a = f.key :: fs.map Frame.key := by simp [PoolState.keys, hst]
    refine h.keep hP hS ?_ (fun k x hx => .inl hx) ?_ ?_
    · intro k
      by_cases e : k = a
      · subst e; rw [hka0, hsa]; exact List.suffix_cons _ _
      · rw [hkb k e]; exact List.suffix_refl _
    · intro i g hg hne
      simp only [modTask, setThr, upd] at hg ⊢
      by_cases e : i = a
      · rw [if_pos e] at hg; simp only [hno] at hg; cases hg
      · rw [if_neg e] at hg; exact h.past i g hg hne
    · intro i k hi hk' hik hg g gs hgs
      have hia : i ≠ a := by
        rintro rfl
        simp [modTask, setThr, upd, hno] at hg
      have hka : k = a := by omega
      subst hka
      have hg' : (s.thr i).get ≠ none := by simpa [modTask, setThr, upd, hia] using hg
      have hgs' : (s.thr i).stack = g :: gs := by simpa [modTask, setThr, upd, hia] using hgs
      rcases h.held i k hi hk' hik hg' g gs hgs' with ⟨x, hx, q, h1, h2⟩ | ⟨c, hc, hF⟩ | ⟨h1, h2, h3⟩
      · obtain ⟨q', f1, -, f2⟩ := hS x q h1
        exact .inl ⟨x, hx, q', f1, by omega⟩
      · rw [hsa] at hc
        rcases List.mem_cons.1 hc with rfl | hc
        · -- the last of its tasks that was executed: nothing is left, and the call below waits for one that is below this one
          obtain ⟨m', qm, h1, h2, h3, h4⟩ := hF
          have hmm : m' = m := by simp [Frame.key, hk] at h1; exact h1.symm
          subst hmm
          have hqk : (s.queue k).items = [] := hD.drained h hst hpc hk h2 (by omega)
          cases hqi : (s.queue i).items with
          | cons x l =>
            have hxm : x ∈ (s.queue i).items := by simp [hqi]
            obtain ⟨qx, hqx, hxs, hxb⟩ := hP.queue i x hxm
            obtain ⟨q0, e1, e2, e3, -⟩ := hP.task k f m' hfs hk
            rw [h2] at e1; simp only [Option.some.injEq] at e1; subst e1
            have hlt := hD.N.stolen m' qm h2 (by simp [PTask.stolen, e2]; omega) x (by rw [h3]; exact hxm)
            have hge := hD.N.mono m' x qm qx h2 hqx hlt (by omega) ⟨g, by rw [h3, hgs']; simp, h4.symm⟩
            obtain ⟨y, hy, hyt⟩ := hD.J.live x qx hqx (hD.A.F.fresh x qx hqx (.inr hxs)).1
            rw [hxb] at hy
            have := hP.top_max hgs' hy
            obtain ⟨q', f1, -, f2⟩ := hS x qx hqx
            exact .inl ⟨x, hxm, q', f1, by omega⟩
          | nil =>
            refine .inr (.inr ⟨hqi, hqk, ?_⟩)
            cases fs with
            | nil => exact .inl (by simp [modTask, setThr_stack])
            | cons d ds =>
              right
              obtain ⟨hdp, v, p, hdc⟩ := hP.low k f _ hst d (by simp)
              obtain ⟨e, he, hFe, -⟩ := h.chain k i hk' hi (Ne.symm hik) [] f.key d.key (ds.map Frame.key) (by rw [hsa]; rfl) m' qm h1 h2 h3 g.key
                (List.mem_map.2 ⟨g, by rw [hgs']; simp, rfl⟩) h4.symm
              exact ⟨d, ds, v, p, by simp [modTask, setThr_stack], hdp, hdc, e, by rw [hkb i hia]; exact he, hFe.keep hS⟩
        · exact .inr (.inl ⟨c, by rw [hka0]; exact hc, hF.keep hS⟩)
      · rcases h3 with h3 | ⟨d, ds, v, p, h3, h4, h5, -⟩
        · rw [hst] at h3; cases h3
        · rw [hst] at h3; simp only [List.cons.injEq] at h3; obtain ⟨rfl, rfl⟩ := h3
          rw [hpc] at h4; cases h4
  | start hm hg hT hq =>
    rename_i gp v j qu q
    obtain ⟨l, r, hl, hr⟩ := hT.mem
    have hjq : j ∈ (s.queue v).items := by simp [hl]
    obtain ⟨hqs, hqb⟩ : q.st = .queued ∧ q.by_ = v := by
      obtain ⟨q', h1, h2⟩ := hP.queue v j hjq
      rw [hq] at h1; simp only [Option.some.injEq] at h1; subst h1; exact h2
    have hv2 : v < 2 := by have := (hP.bnd j q hq).1; omega
    have hpast : v ≠ a → (s.queue a).items = [] := by
      intro hne
      refine h.past a gp hg ?_
      rcases hT with ⟨-, e, -⟩ | ⟨t, -, ⟨e, -⟩ | e⟩
      · exact absurd e hne
      · rw [e]; simp
      · rw [e]; simp
    generalize hu : (((({ s with queue := upd s.queue v qu, clock := s.clock + 1 } : PoolState).setThr a
        { s.thr a with stack := ⟨some j, q.code, q.env, .run, s.clock + 1⟩ :: (s.thr a).stack, get := none }).modTask j
          (PTask.begin_ a (s.clock + 1)))) = u
    have hS : Stat s u := by
      rw [← hu]; exact Stat.modify (t := s) (j := j) (F := PTask.begin_ a (s.clock + 1)) (.of_eq rfl) (fun q => ⟨rfl, rfl⟩) rfl
    have hka : u.keys a = (some j, s.clock + 1) :: s.keys a := by rw [← hu]; simp [PoolState.keys, modTask, setThr_stack, Frame.key]
    have hkb : ∀ k, k ≠ a → u.keys k = s.keys k := by intro k hk; rw [← hu]; simp [PoolState.keys, modTask, setThr_stack, hk]
    have hga : (u.thr a).get = none := by rw [← hu]; simp [modTask, setThr, upd]
    have hgb : ∀ k, k ≠ a → u.thr k = s.thr k := by intro k hk; rw [← hu]; simp [modTask, setThr, upd, hk]
    have hQ : ∀ k, u.queue k = if k = v then qu else s.queue k := by intro k; rw [← hu]; simp [modTask, setThr, upd]
    have sub : ∀ k x, x ∈ (u.queue k).items → x ∈ (s.queue k).items := by
      intro k x hx
      rw [hQ] at hx
      split at hx
      · rename_i e; subst e
        rw [hr] at hx; rw [hl]
        rcases List.mem_append.1 hx with hx | hx <;> simp [hx]
      · exact hx
    have back : ∀ {m : Nat} {q0 q' : PTask}, s.tasks[m]? = some q0 → u.tasks[m]? = some q' → q'.by_ = q0.by_ ∧ q'.caller = q0.caller := by
      intro m q0 q' h1 h2
      obtain ⟨q1, e1, e2⟩ := hS m q0 h1
      rw [h2] at e1; simp only [Option.some.injEq] at e1; subst e1; exact e2
    refine ⟨?_, ?_, ?_, ?_⟩
    · intro i g hgi hne
      have hia : i ≠ a := by rintro rfl; rw [hga] at hgi; cases hgi
      rw [hgb i hia] at hgi
      have := h.past i g hgi hne
      cases hx : (u.queue i).items with
      | nil => rfl
      | cons x l' =>
        have := sub i x (by simp [hx])
        rw [h.past i g hgi hne] at this; cases this
    · intro k c hc m q' hm' hq' hb x hx qx hqx
      obtain ⟨qx0, hx0, -⟩ := hP.queue k x (sub k x hx)
      have ex := back hx0 hqx
      by_cases hcs : c ∈ s.keys k
      · obtain ⟨q0, h0⟩ := hP.keys_task hcs hm'
        have e0 := back h0 hq'
        have := h.young k c hcs m q0 hm' h0 (by omega) x (sub k x hx) qx0 hx0
        omega
      · have hk : k = a := by
          by_cases e : k = a
          · exact e
          · rw [hkb k e] at hc; exact absurd hc hcs
        subst hk
        rw [hka] at hc
        rcases List.mem_cons.1 hc with rfl | hc
        · simp only [Option.some.injEq] at hm'; subst hm'
          have e0 := back hq hq'
          have := sub k x hx
          rw [hpast (by omega)] at this; cases this
        · exact absurd hc hcs
    · intro i k hi hk hik l' f g r' hl' m q' hm' hq' hb hh hhk hht
      -- calls of the other worker that were there before
      by_cases hia : i = a
      · subst hia
        rw [hka] at hl'
        rw [hkb k (Ne.symm hik)] at hhk ⊢
        cases l' with
        | nil =>
          simp only [List.nil_append, List.cons.injEq] at hl'
          obtain ⟨rfl, hl'⟩ := hl'
          simp only [Option.some.injEq] at hm'; subst hm'
          have e0 := back hq hq'
          have hvk : v = k := by omega
          subst hvk
          -- the call it is taken on top of
          obtain ⟨g0, gs, hst0, hg0, -⟩ : ∃ g0 gs, (s.thr i).stack = g0 :: gs ∧ g0.key = g ∧ gs.map Frame.key = r' := by
            cases hst : (s.thr i).stack with
            | nil => simp [PoolState.keys, hst] at hl'
            | cons g0 gs =>
              simp only [PoolState.keys, hst, List.map_cons, List.cons.injEq] at hl'
              exact ⟨g0, gs, rfl, hl'.1, hl'.2⟩
          rcases h.held i v hi hk hik (by simp [hg]) g0 gs hst0 with ⟨x, hx, -⟩ | ⟨c, hc, hF⟩ | ⟨-, h2, -⟩
          · rw [hpast (by omega)] at hx; cases hx
          · refine ⟨c, hc, ?_, ?_⟩
            · rw [← hg0]; exact hF.keep hS
            · obtain ⟨mc, qc, c1, c2, c3, c4⟩ := hF
              have := h.young v c hc mc qc c1 c2 (by omega) j hjq q hq
              omega
          · rw [hl] at h2; simp at h2
        | cons y l' =>
          simp only [List.cons_append, List.cons.injEq] at hl'
          have hfm : f ∈ s.keys i := by rw [hl'.2]; simp
          obtain ⟨q0, h0⟩ := hP.keys_task hfm hm'
          have e0 := back h0 hq'
          obtain ⟨c, hc, hF, hle⟩ := h.chain i k hi hk hik l' f g r' hl'.2 m q0 hm' h0 (by omega) hh hhk (by omega)
          exact ⟨c, hc, hF.keep hS, hle⟩
      · have hka' : k = a := by omega
        subst hka'
        rw [hkb i hia] at hl'
        have hfm : f ∈ s.keys i := by rw [hl']; simp
        obtain ⟨q0, h0⟩ := hP.keys_task hfm hm'
        have e0 := back h0 hq'
        rw [hka] at hhk
        rcases List.mem_cons.1 hhk with rfl | hhk
        · have := (hP.bnd m q0 h0).2.2
          simp only at hht
          omega
        · obtain ⟨c, hc, hF, hle⟩ := h.chain i k hi hk hik l' f g r' hl' m q0 hm' h0 (by omega) hh hhk (by omega)
          exact ⟨c, by rw [hka]; exact List.mem_cons_of_mem _ hc, hF.keep hS, hle⟩
    · intro i k hi hk hik hgi g gs hgs
      have hia : i ≠ a := by rintro rfl; exact hgi hga
      rw [hgb i hia] at hgi hgs
      have hka' : k = a := by omega
      subst hka'
      rcases h.held i k hi hk hik hgi g gs hgs with ⟨x, hx, qx, h1, h2⟩ | ⟨c, hc, hF⟩ | ⟨h1, h2, -⟩
      · by_cases hxj : x = j
        · subst hxj
          rw [hq] at h1; simp only [Option.some.injEq] at h1; subst h1
          obtain ⟨q', e1, e2, e3⟩ := hS x q hq
          have hvi : v = i := by
            obtain ⟨q1, a1, -, a2⟩ := hP.queue i x hx
            rw [hq] at a1; simp only [Option.some.injEq] at a1; subst a1; omega
          exact .inr (.inl ⟨(some x, s.clock + 1), by rw [hka]; simp, x, q', rfl, e1, by omega, by omega⟩)
        · obtain ⟨q', e1, e2, e3⟩ := hS x qx h1
          refine .inl ⟨x, ?_, q', e1, by omega⟩
          rw [hQ]
          split
          · rename_i e; subst e
            rw [hr]; rw [hl] at hx
            rcases List.mem_append.1 hx with hx | hx
            · simp [hx]
            · rcases List.mem_cons.1 hx with hx | hx
              · exact absurd hx hxj
              · simp [hx]
          · exact hx
      · exact .inr (.inl ⟨c, by rw [hka]; exact List.mem_cons_of_mem _ hc, hF.keep hS⟩)
      · exfalso
        have : v = i ∨ v = k := by omega
        rcases this with rfl | rfl
        · rw [hl] at h1; simp at h1
        · rw [hl] at h2; simp at h2

theorem LeapInv.init (p : Prog) : LeapInv (PoolState.init p) := by
  have hg : ∀ i, ((PoolState.init p).thr i).get = none := by intro i; simp only [PoolState.init]; split <;> rfl
  have hq : (PoolState.init p).queue = fun _ => ⟨0, []⟩ := rfl
  refine ⟨?_, ?_, ?_, ?_⟩
  · intro i g h; rw [hg] at h; cases h
  · intro k c hc m q hm h; cases h
  · intro i k _ _ _ l f g r _ m q _ h; cases h
  · intro i k _ _ _ h; exact absurd (hg i) h

theorem Prog.One.fj {p : Prog} (hp : p.One none) : p.FJ [] := hp.joined.fj (by simp)

theorem PoolReach.duo {p : Prog} (hp : p.One none) {s : PoolState} (h : PoolReach 2 p s) (hc : ∀ j, s.children j < 65535) : DuoInv s :=
  ⟨h.all (by decide) hp.fj, h.nest (by decide) hp.fj, h.joined (by decide) hp.joined hc, h.one hp, hc⟩

theorem PoolReach.leap {p : Prog} (hp : p.One none) {s : PoolState} (h : PoolReach 2 p s) (hc : ∀ j, s.children j < 65535) : LeapInv s := by
  unfold PoolReach at h
  generalize hp0 : PoolState.init p = s0 at h
  induction h with
  | refl => subst hp0; exact LeapInv.init p
  | step i r a hr hs ih =>
    obtain ⟨-, hi, hs⟩ := step_cases hs
    have hc' := fun j => Nat.lt_of_le_of_lt (children_mono hs j) (hc j)
    subst hp0
    exact LeapInv.step hi (PoolReach.duo hp hr hc') (ih hc') hs

end CoEcs
