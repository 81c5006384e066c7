import Verif.Proofs.Termination

/-! # What a wait that returns means -/

namespace CoEcs
open PoolState

/-- A task that has decremented its own counter has returned. -/
theorem AllInv.returned {n : Nat} {s : PoolState} (h : AllInv n s) {t : Nat} {q : PTask} (hq : s.tasks[t]? = some q) (ho : q.own = false) :
    s.Returned t := by
  have hr := h.P.runs t q hq
  cases hs : q.st with
  | made => have := (h.F.fresh t q hq (.inl hs)).1; simp [ho] at this
  | queued => have := (h.F.fresh t q hq (.inr hs)).1; simp [ho] at this
  | finished => exact ⟨q, hq, by simpa [hs] using hr, .inl hs⟩
  | started =>
    refine ⟨q, hq, by simpa [hs] using hr, .inr ?_⟩
    rcases h.P.started t q hq hs with ⟨f, hf, hft⟩ | hu
    · refine ⟨_, f, hf, hft, ?_⟩
      have hfl := h.F.flags _ f t q hf hft hq
      cases hpc : f.pc with
      | run => rw [hpc] at hfl; simp [Flags, ho] at hfl
      | push j => rw [hpc] at hfl; simp [Flags, ho] at hfl
      | sub j => exact ⟨j, .inl rfl⟩
      | check j => exact ⟨j, .inr rfl⟩
    · simp [h.N.unwound] at hu

theorem pend_le (s : PoolState) (j : Nat) : pend s.tasks j ≤ s.children j := by
  unfold pend PoolState.children
  apply List.countP_mono_left
  intro q _ h
  simp at h ⊢
  exact h.1

/-- A counter that is 0: the task and its children have returned. -/
theorem AllInv.zero {n : Nat} {s : PoolState} (h : AllInv n s) {j : Nat} {q : PTask} (hq : s.tasks[j]? = some q) (h0 : q.counter = 0)
    (hc : s.children j < 65535) : q.own = false ∧ ∀ (t : Nat) (qt : PTask), s.tasks[t]? = some qt → qt.parent = some j → qt.own = false := by
  have hcnt := h.F.cnt j q hq
  have hle := pend_le s j
  rw [h0] at hcnt
  have hb : b2n q.own ≤ 1 := by cases q.own <;> simp [b2n]
  have hz : b2n q.own + pend s.tasks j = 0 := by omega
  have hown : q.own = false := by
    cases e : q.own with
    | false => rfl
    | true => simp [e, b2n] at hz
  refine ⟨hown, ?_⟩
  intro t qt hqt hp
  have hpz : pend s.tasks j = 0 := by omega
  unfold pend at hpz
  rw [List.countP_eq_zero] at hpz
  have hpar : qt.par = false := by
    have := hpz qt (List.mem_of_getElem? hqt)
    simp [hp] at this
    exact this
  cases hs : qt.st with
  | made => have := (h.F.fresh t qt hqt (.inl hs)).2; simp [hp, hpar] at this
  | queued => have := (h.F.fresh t qt hqt (.inr hs)).2; simp [hp, hpar] at this
  | finished => exact (h.F.fin t qt hqt hs).1
  | started =>
    rcases h.P.started t qt hqt hs with ⟨f, hf, hft⟩ | hu
    · have hfl := h.F.flags _ f t qt hf hft hqt
      cases hpc : f.pc <;> rw [hpc] at hfl <;> simp only [Flags] at hfl <;> simp [hp, hpar] at hfl
      exact hfl.2.2
    · simp [h.N.unwound] at hu

/-! ## Programs that join everything they fork -/

theorem Prog.Joined.fj {p : Prog} : ∀ {ps : List Nat} {Γ : List Kind}, p.Joined ps → (∀ v ∈ ps, Γ[v]? = some .root) → p.FJ Γ := by
  induction p with
  | ret => intros; trivial
  | throw => intro ps Γ h _; exact h
  | submit par c k ihc ihk =>
    intro ps Γ h hv
    cases par with
    | none =>
      refine ⟨ihc h.1 (by simp), ihk h.2 ?_⟩
      intro v hm
      rcases List.mem_cons.mp hm with rfl | hm
      · rfl
      · obtain ⟨w, hw, rfl⟩ := List.mem_map.mp hm
        simpa using hv w hw
    | some v =>
      refine ⟨hv v h.1, ihc h.2.1 (by simp), ihk h.2.2 ?_⟩
      intro v hm
      obtain ⟨w, hw, rfl⟩ := List.mem_map.mp hm
      simpa using hv w hw
  | wait v k ih =>
    intro ps Γ h hv
    exact ⟨.inl (hv v h.1), ih h.2 (fun w hw => hv w (List.mem_of_mem_erase hw))⟩

theorem Prog.Joined.parRest {k : Prog} : ∀ {bs : List Prog} {v : Nat} {ps : List Nat}, (∀ b ∈ bs, b.Joined []) → v ∈ ps →
    k.Joined ((ps.map (· + bs.length)).erase (v + bs.length)) → (Prog.parRest bs v k).Joined ps := by
  intro bs
  induction bs with
  | nil => intro v ps _ hv hk; exact ⟨hv, by simpa using hk⟩
  | cons b bs ih =>
    intro v ps hb hv hk
    refine ⟨hv, hb b (by simp), ih (fun b' hb' => hb b' (by simp [hb'])) (List.mem_map_of_mem hv) ?_⟩
    have e : (ps.map (· + 1)).map (· + bs.length) = ps.map (· + (b :: bs).length) := by
      simp only [List.map_map, List.length_cons]
      apply List.map_congr_left
      intro a _; simp; omega
    have e2 : v + 1 + bs.length = v + (b :: bs).length := by simp; omega
    rw [e, e2]; exact hk

/-- `parallel_for` in a program that joins everything. -/
theorem Prog.Joined.par {bs : List Prog} {k : Prog} {ps : List Nat} (hb : ∀ b ∈ bs, b.Joined []) (hk : k.Joined (ps.map (· + bs.length))) :
    (Prog.par bs k).Joined ps := by
  cases bs with
  | nil => simpa [Prog.par] using hk
  | cons b bs =>
    refine ⟨hb b (by simp), Prog.Joined.parRest (fun b' hb' => hb b' (by simp [hb'])) (by simp) ?_⟩
    have e : ((0 :: ps.map (· + 1)).map (· + bs.length)).erase (0 + bs.length) = ps.map (· + (b :: bs).length) := by
      simp only [List.map_cons, List.erase_cons_head, List.map_map, List.length_cons]
      apply List.map_congr_left
      intro a _; simp; omega
    rw [e]; exact hk

/-- Tasks that have not returned belong to a variable that the call which submitted them has yet to wait for. -/
structure JInv (s : PoolState) : Prop where
  frame : ∀ i f, f ∈ (s.thr i).stack → ∃ ps, f.code.Joined ps ∧
    ∀ (t : Nat) (q : PTask), s.tasks[t]? = some q → q.by_ = i → q.caller = f.time → q.own = true →
      ∃ v ∈ ps, ∃ r, f.env[v]? = some r ∧ (t = r ∨ q.parent = some r)
  pc : ∀ i f j, f ∈ (s.thr i).stack → (f.pc = .sub j ∨ f.pc = .check j) → f.code = .ret
  code : ∀ (j : Nat) (q : PTask), s.tasks[j]? = some q → q.code.Joined []
  live : ∀ (t : Nat) (q : PTask), s.tasks[t]? = some q → q.own = true → ∃ f ∈ (s.thr q.by_).stack, f.time = q.caller

/-- Tasks keep what never changes, and never go back to owing their own count. -/
def Keeps (s u : PoolState) : Prop :=
  ∀ (t : Nat) (q : PTask), u.tasks[t]? = some q → ∃ q', s.tasks[t]? = some q' ∧ q'.static = q.static ∧ (q.own = true → q'.own = true)

/-- Steps that replace the innermost call by one with the same variables. -/
theorem JInv.top {s u : PoolState} (h : JInv s) {i : Nat} {f f' : Frame} {fs : List Frame} (hst : (s.thr i).stack = f :: fs)
    (hs : ∀ k, (u.thr k).stack = if k = i then f' :: fs else (s.thr k).stack) (hk : Keeps s u)
    (htm : f'.time = f.time)
    (hpc : ∀ j, (f'.pc = .sub j ∨ f'.pc = .check j) → f'.code = .ret)
    (hf : ∃ ps, f'.code.Joined ps ∧ ∀ (t : Nat) (q : PTask), s.tasks[t]? = some q → q.by_ = i → q.caller = f.time → q.own = true →
      ∃ v ∈ ps, ∃ r, f'.env[v]? = some r ∧ (t = r ∨ q.parent = some r)) : JInv u := by
  have hkk : ∀ (t : Nat) (q : PTask), u.tasks[t]? = some q → ∃ q', s.tasks[t]? = some q' ∧ q'.parent = q.parent ∧ q'.code = q.code ∧
      q'.by_ = q.by_ ∧ q'.caller = q.caller ∧ (q.own = true → q'.own = true) := by
    intro t q hq
    obtain ⟨q', h1, h2, h3⟩ := hk t q hq
    simp only [PTask.static, Prod.mk.injEq] at h2
    exact ⟨q', h1, h2.1, h2.2.1, h2.2.2.2.1, h2.2.2.2.2, h3⟩
  have old : ∀ k g, g ∈ (u.thr k).stack → (k = i ∧ g = f') ∨ g ∈ (s.thr k).stack := by
    intro k g hg
    rw [hs] at hg
    split at hg
    · rename_i e; subst e
      rcases List.mem_cons.mp hg with rfl | hg
      · exact .inl ⟨rfl, rfl⟩
      · exact .inr (by rw [hst]; simp [hg])
    · exact .inr hg
  constructor
  · intro k g hg
    have hmain : ∃ ps, g.code.Joined ps ∧ ∀ (t : Nat) (q : PTask), s.tasks[t]? = some q → q.by_ = k → q.caller = g.time → q.own = true →
        ∃ v ∈ ps, ∃ r, g.env[v]? = some r ∧ (t = r ∨ q.parent = some r) := by
      rcases old k g hg with ⟨rfl, rfl⟩ | hg
      · rw [htm]; exact hf
      · exact h.frame k g hg
    obtain ⟨ps, h1, h2⟩ := hmain
    refine ⟨ps, h1, ?_⟩
    intro t q hq hb hc ho
    obtain ⟨q', a1, a2, a3, a4, a5, a6⟩ := hkk t q hq
    obtain ⟨v, hv, r, hr, hh⟩ := h2 t q' a1 (by rw [a4, hb]) (by rw [a5, hc]) (a6 ho)
    exact ⟨v, hv, r, hr, by rw [← a2]; exact hh⟩
  · intro k g j hg hp
    rcases old k g hg with ⟨rfl, rfl⟩ | hg
    · exact hpc j hp
    · exact h.pc k g j hg hp
  · intro j q hq
    obtain ⟨q', a1, -, a3, -⟩ := hkk j q hq
    rw [← a3]; exact h.code j q' a1
  · intro t q hq ho
    obtain ⟨q', a1, a2, a3, a4, a5, a6⟩ := hkk t q hq
    obtain ⟨g, hg, hgt⟩ := h.live t q' a1 (a6 ho)
    rw [a4] at hg; rw [a5] at hgt
    rw [hs]
    split
    · rename_i e
      rw [e, hst] at hg
      rcases List.mem_cons.mp hg with rfl | hg
      · exact ⟨f', by simp, by rw [htm, hgt]⟩
      · exact ⟨g, by simp [hg], hgt⟩
    · exact ⟨g, hg, hgt⟩

/-- Steps that change neither calls nor tasks. -/
theorem JInv.same {s u : PoolState} (h : JInv s) (ht : u.tasks = s.tasks) (hs : ∀ k, (u.thr k).stack = (s.thr k).stack) : JInv u := by
  constructor
  · intro i f; rw [hs, ht]; exact h.frame i f
  · intro i f j; rw [hs]; exact h.pc i f j
  · intro j q; rw [ht]; exact h.code j q
  · intro t q; rw [ht, hs]; exact h.live t q

/-- Steps that leave a call which has returned. -/
theorem JInv.pop {n : Nat} {s u : PoolState} (ha : AllInv n s) (h : JInv s) {i : Nat} {f : Frame} {fs : List Frame} (hst : (s.thr i).stack = f :: fs)
    (hret : f.code = .ret)
    (hs : ∀ k, (u.thr k).stack = if k = i then fs else (s.thr k).stack) (hk : Keeps s u) : JInv u := by
  have hkk : ∀ (t : Nat) (q : PTask), u.tasks[t]? = some q → ∃ q', s.tasks[t]? = some q' ∧ q'.parent = q.parent ∧ q'.code = q.code ∧
      q'.by_ = q.by_ ∧ q'.caller = q.caller ∧ (q.own = true → q'.own = true) := by
    intro t q hq
    obtain ⟨q', h1, h2, h3⟩ := hk t q hq
    simp only [PTask.static, Prod.mk.injEq] at h2
    exact ⟨q', h1, h2.1, h2.2.1, h2.2.2.2.1, h2.2.2.2.2, h3⟩
  have old : ∀ k g, g ∈ (u.thr k).stack → g ∈ (s.thr k).stack := by
    intro k g hg
    rw [hs] at hg
    split at hg
    · rename_i e; subst e; rw [hst]; simp [hg]
    · exact hg
  constructor
  · intro k g hg
    obtain ⟨ps, h1, h2⟩ := h.frame k g (old k g hg)
    refine ⟨ps, h1, ?_⟩
    intro t q hq hb hc ho
    obtain ⟨q', a1, a2, a3, a4, a5, a6⟩ := hkk t q hq
    obtain ⟨v, hv, r, hr, hh⟩ := h2 t q' a1 (by rw [a4, hb]) (by rw [a5, hc]) (a6 ho)
    exact ⟨v, hv, r, hr, by rw [← a2]; exact hh⟩
  · intro k g j hg hp
    exact h.pc k g j (old k g hg) hp
  · intro j q hq
    obtain ⟨q', a1, -, a3, -⟩ := hkk j q hq
    rw [← a3]; exact h.code j q' a1
  · intro t q hq ho
    obtain ⟨q', a1, a2, a3, a4, a5, a6⟩ := hkk t q hq
    obtain ⟨g, hg, hgt⟩ := h.live t q' a1 (a6 ho)
    rw [hs]
    split
    · rename_i e
      have hb : q'.by_ = i := by rw [a4, e]
      rw [hb, hst] at hg
      rcases List.mem_cons.mp hg with rfl | hg
      · -- the call has returned: nothing it submitted is left
        obtain ⟨ps, h1, h2⟩ := h.frame i g (by simp [hst])
        rw [hret] at h1
        obtain ⟨v, hv, -⟩ := h2 t q' a1 hb (by rw [hgt]) (a6 ho)
        simp only [Prog.Joined] at h1
        rw [h1] at hv; simp at hv
      · exact ⟨g, hg, by rw [hgt, a5]⟩
    · rw [a4] at hg; rw [a5] at hgt; exact ⟨g, hg, hgt⟩

theorem keeps_of_eq {s u : PoolState} (h : u.tasks = s.tasks) : Keeps s u := by
  intro t q hq; rw [h] at hq; exact ⟨q, hq, rfl, id⟩

theorem Keeps.modify {s : PoolState} {l : List PTask} (h : Keeps s { s with tasks := l }) {j : Nat} {F : PTask → PTask}
    (hF : ∀ q, (F q).static = q.static ∧ ((F q).own = true → q.own = true)) : Keeps s { s with tasks := l.modify j F } := by
  intro t q hq
  simp only [List.getElem?_modify] at hq
  cases e : l[t]? with
  | none => simp [e] at hq
  | some q' =>
    simp only [e, Option.map_eq_map, Option.map_some, Option.some.injEq] at hq
    obtain ⟨q'', a1, a2, a3⟩ := h t q' e
    refine ⟨q'', a1, ?_⟩
    split at hq
    · subst hq; exact ⟨by rw [a2, (hF q').1], fun ho => a3 ((hF q').2 ho)⟩
    · subst hq; exact ⟨a2, a3⟩

theorem Keeps.congr {s u u' : PoolState} (h : Keeps s u) (e : u'.tasks = u.tasks) : Keeps s u' := by
  intro t q hq; rw [e] at hq; exact h t q hq

/-- Submitting. -/
theorem JInv.submitted {n : Nat} {s u : PoolState} (ha : AllInv n s) (h : JInv s) {i : Nat} {f f' : Frame} {fs : List Frame} (hst : (s.thr i).stack = f :: fs)
    (hs : ∀ k, (u.thr k).stack = if k = i then f' :: fs else (s.thr k).stack)
    {q0 : PTask} (ht : ∀ (t : Nat) (q : PTask), u.tasks[t]? = some q → (t = s.tasks.length ∧ q = q0) ∨
      ∃ q', s.tasks[t]? = some q' ∧ q'.static = q.static ∧ (q.own = true → q'.own = true))
    (htm : f'.time = f.time) (henv : f'.env = s.tasks.length :: f.env) (hpc : ∀ j, f'.pc ≠ .sub j ∧ f'.pc ≠ .check j)
    (hq0 : q0.by_ = i ∧ q0.caller = f.time) (hcode : q0.code.Joined [])
    (hf : ∀ ps, f.code.Joined ps → ∃ ps', f'.code.Joined ps' ∧ (∀ v ∈ ps, v + 1 ∈ ps') ∧
      ((q0.parent = none ∧ 0 ∈ ps') ∨ ∃ v ∈ ps, ∃ r, f.env[v]? = some r ∧ q0.parent = some r)) : JInv u := by
  have hkk : ∀ (t : Nat) (q : PTask), u.tasks[t]? = some q → (t = s.tasks.length ∧ q = q0) ∨ ∃ q', s.tasks[t]? = some q' ∧ q'.parent = q.parent ∧ q'.code = q.code ∧
      q'.by_ = q.by_ ∧ q'.caller = q.caller ∧ (q.own = true → q'.own = true) := by
    intro t q hq
    rcases ht t q hq with h0 | ⟨q', h1, h2, h3⟩
    · exact .inl h0
    · simp only [PTask.static, Prod.mk.injEq] at h2
      exact .inr ⟨q', h1, h2.1, h2.2.1, h2.2.2.2.1, h2.2.2.2.2, h3⟩
  have hord := ha.P.ord i
  rw [hst, List.pairwise_cons] at hord
  have old : ∀ k g, g ∈ (u.thr k).stack → (k = i ∧ g = f') ∨ (g ∈ (s.thr k).stack ∧ (k = i → g.time ≠ f.time)) := by
    intro k g hg
    rw [hs] at hg
    split at hg
    · rename_i e; subst e
      rcases List.mem_cons.mp hg with rfl | hg
      · exact .inl ⟨rfl, rfl⟩
      · exact .inr ⟨by rw [hst]; simp [hg], fun _ => by have := hord.1 g hg; omega⟩
    · rename_i e; exact .inr ⟨hg, fun hc => absurd hc e⟩
  constructor
  · intro k g hg
    rcases old k g hg with ⟨rfl, rfl⟩ | ⟨hg, hne⟩
    · obtain ⟨ps, h1, h2⟩ := h.frame k f (by simp [hst])
      obtain ⟨ps', b1, b2, b3⟩ := hf ps h1
      refine ⟨ps', b1, ?_⟩
      intro t q hq hb hc ho
      rcases hkk t q hq with ⟨rfl, rfl⟩ | ⟨q', a1, a2, a3, a4, a5, a6⟩
      · rcases b3 with ⟨-, b3⟩ | ⟨v, hv, r, hr, hp⟩
        · exact ⟨0, b3, s.tasks.length, by simp [henv], .inl rfl⟩
        · exact ⟨v + 1, b2 v hv, r, by simp [henv, hr], .inr hp⟩
      · obtain ⟨v, hv, r, hr, hh⟩ := h2 t q' a1 (by rw [a4, hb]) (by rw [a5, hc, htm]) (a6 ho)
        exact ⟨v + 1, b2 v hv, r, by simp [henv, hr], by rw [← a2]; exact hh⟩
    · obtain ⟨ps, h1, h2⟩ := h.frame k g hg
      refine ⟨ps, h1, ?_⟩
      intro t q hq hb hc ho
      rcases hkk t q hq with ⟨rfl, rfl⟩ | ⟨q', a1, a2, a3, a4, a5, a6⟩
      · exact absurd (by rw [← hc, hq0.2]) (hne (by rw [← hb, hq0.1]))
      · obtain ⟨v, hv, r, hr, hh⟩ := h2 t q' a1 (by rw [a4, hb]) (by rw [a5, hc]) (a6 ho)
        exact ⟨v, hv, r, hr, by rw [← a2]; exact hh⟩
  · intro k g j hg hp
    rcases old k g hg with ⟨rfl, rfl⟩ | ⟨hg, -⟩
    · exact absurd hp (by have := hpc j; simp [this])
    · exact h.pc k g j hg hp
  · intro j q hq
    rcases hkk j q hq with ⟨rfl, rfl⟩ | ⟨q', a1, -, a3, -⟩
    · exact hcode
    · rw [← a3]; exact h.code j q' a1
  · intro t q hq ho
    rcases hkk t q hq with ⟨rfl, rfl⟩ | ⟨q', a1, a2, a3, a4, a5, a6⟩
    · rw [hq0.1, hs, if_pos rfl]; exact ⟨f', by simp, by rw [htm, hq0.2]⟩
    · obtain ⟨g, hg, hgt⟩ := h.live t q' a1 (a6 ho)
      rw [a4] at hg; rw [a5] at hgt
      rw [hs]
      split
      · rename_i e
        rw [e, hst] at hg
        rcases List.mem_cons.mp hg with rfl | hg
        · exact ⟨f', by simp, by rw [htm, hgt]⟩
        · exact ⟨g, by simp [hg], hgt⟩
      · exact ⟨g, hg, hgt⟩

theorem JInv.step {n : Nat} {s u : PoolState} {i : Nat} (ha : AllInv n s) (h : JInv s) (hc : ∀ j, s.children j < 65535) (hs : PoolStep n s i u) :
    JInv u := by
  have tp : ∀ f f' : Frame, ∀ fs, ∀ w : PoolState, w.thr = s.thr → ∀ k, ((w.setTop i f' fs).thr k).stack = if k = i then f' :: fs else (s.thr k).stack := by
    intro f f' fs w e k; simp only [setTop, setThr_stack]; rw [e]
  have sub0 : ∀ (f : Frame) fs, (s.thr i).stack = f :: fs → ∃ ps, f.code.Joined ps ∧
      ∀ (t : Nat) (q : PTask), s.tasks[t]? = some q → q.by_ = i → q.caller = f.time → q.own = true →
      ∃ v ∈ ps, ∃ r, f.env[v]? = some r ∧ (t = r ∨ q.parent = some r) := fun f fs hst => h.frame i f (by simp [hst])
  cases hs with
  | idle _ _ _ _ _ => exact h.same rfl (by intro k; simp; intro e; rw [e])
  | retry _ _ _ _ => exact h.same rfl (by intro k; simp; intro e; rw [e])
  | goOn _ _ _ => exact h.same rfl (by intro k; simp; intro e; rw [e])
  | look _ _ _ => exact h.same rfl (by intro k; simp; intro e; rw [e])
  | again _ _ _ _ => exact h.same rfl (by intro k; simp; intro e; rw [e])
  | exit _ _ _ _ => exact h.same rfl (by intro k; simp; intro e; rw [e])
  | stop _ _ _ _ => exact h.same rfl (fun _ => rfl)
  | stopped _ _ _ _ => exact h.same rfl (fun _ => rfl)
  | join _ _ _ _ _ => exact h.same rfl (fun _ => rfl)
  | joined _ _ _ _ => exact h.same rfl (fun _ => rfl)
  | terminate hst hpc hc _ =>
    rename_i f fs _
    have := ha.N.frame i f (by rw [hst]; simp)
    rw [hc] at this; exact this.elim
  | unwind hst hpc hc _ =>
    rename_i f fs _
    have := ha.N.frame i f (by rw [hst]; simp)
    rw [hc] at this; exact this.elim
  | leave hst hpc hcd hk =>
    rename_i f fs
    have hfs : fs = [] := by
      have h0 := (ha.P.main i f (by simp [hst]) hk).2
      have ho := ha.P.ord i
      rw [hst, List.pairwise_cons] at ho
      cases fs with
      | nil => rfl
      | cons g l => have := ho.1 g (by simp); omega
    subst hfs
    exact h.pop ha hst hcd (by intro k; simp) (keeps_of_eq rfl)
  | finish hst hpc hq hk hcc =>
    rename_i f fs j q k
    refine h.pop ha hst (h.pc i f j (by simp [hst]) (.inr hpc)) (by intro k; simp [modTask]) ?_
    exact (Keeps.modify (keeps_of_eq rfl) (F := PTask.setSt .finished) (fun q => ⟨rfl, id⟩)).congr rfl
  | start hm hg ht hq =>
    rename_i g v j qu q
    have hk : Keeps s { s with tasks := s.tasks.modify j (PTask.begin_ i (s.clock + 1)) } :=
      Keeps.modify (keeps_of_eq rfl) (fun q => ⟨rfl, id⟩)
    have hkk : ∀ (t : Nat) (q' : PTask), (s.tasks.modify j (PTask.begin_ i (s.clock + 1)))[t]? = some q' → ∃ q, s.tasks[t]? = some q ∧
        q.parent = q'.parent ∧ q.code = q'.code ∧ q.by_ = q'.by_ ∧ q.caller = q'.caller ∧ (q'.own = true → q.own = true) := by
      intro t q' hq'
      obtain ⟨q, h1, h2, h3⟩ := hk t q' hq'
      simp only [PTask.static, Prod.mk.injEq] at h2
      exact ⟨q, h1, h2.1, h2.2.1, h2.2.2.2.1, h2.2.2.2.2, h3⟩
    let f0 : Frame := ⟨some j, q.code, q.env, .run, s.clock + 1⟩
    have hstk : ∀ k, (((({ s with queue := upd s.queue v qu, clock := s.clock + 1 } : PoolState).setThr i
        { s.thr i with stack := f0 :: (s.thr i).stack, get := none }).modTask j
          (PTask.begin_ i (s.clock + 1))).thr k).stack = if k = i then f0 :: (s.thr i).stack else (s.thr k).stack := by
      intro k; simp [modTask]
    constructor
    · intro k g hg
      rw [hstk] at hg
      have hg' : (k = i ∧ g = f0) ∨ g ∈ (s.thr k).stack := by
        split at hg
        · rename_i e; subst e
          rcases List.mem_cons.mp hg with rfl | hg
          · exact .inl ⟨rfl, rfl⟩
          · exact .inr hg
        · exact .inr hg
      rcases hg' with ⟨rfl, rfl⟩ | hg'
      · refine ⟨[], h.code j q hq, ?_⟩
        intro t q' hq' hb hcl ho
        obtain ⟨q2, a1, -, -, -, a5, -⟩ := hkk t q' hq'
        have := (ha.P.bnd t q2 a1).2.2
        simp only [f0] at hcl
        omega
      · obtain ⟨ps, h1, h2⟩ := h.frame k g hg'
        refine ⟨ps, h1, ?_⟩
        intro t q' hq' hb hcl ho
        obtain ⟨q2, a1, a2, a3, a4, a5, a6⟩ := hkk t q' hq'
        obtain ⟨w, hw, r, hr, hh⟩ := h2 t q2 a1 (by rw [a4, hb]) (by rw [a5, hcl]) (a6 ho)
        exact ⟨w, hw, r, hr, by rw [← a2]; exact hh⟩
    · intro k g j' hg hp
      rw [hstk] at hg
      split at hg
      · rename_i e; subst e
        rcases List.mem_cons.mp hg with rfl | hg
        · simp [f0] at hp
        · exact h.pc k g j' hg hp
      · exact h.pc k g j' hg hp
    · intro t q' hq'
      obtain ⟨q2, a1, -, a3, -⟩ := hkk t q' hq'
      rw [← a3]; exact h.code t q2 a1
    · intro t q' hq' ho
      obtain ⟨q2, a1, a2, a3, a4, a5, a6⟩ := hkk t q' hq'
      obtain ⟨g, hg, hgt⟩ := h.live t q2 a1 (a6 ho)
      rw [a4] at hg; rw [a5] at hgt
      rw [hstk]
      split
      · rename_i e; rw [e] at hg; exact ⟨g, by simp [hg], hgt⟩
      · exact ⟨g, hg, hgt⟩
  | push hst hpc =>
    rename_i f fs j
    refine h.top hst (f' := { f with pc := .run }) (by intro k; simp [modTask, setTop]) ?_ rfl (by simp) (sub0 f fs hst)
    exact (Keeps.modify (keeps_of_eq rfl) (F := PTask.setSt .queued) (fun q => ⟨rfl, id⟩)).congr rfl
  | sub hst hpc hq hk =>
    rename_i f fs j q k
    refine h.top hst (f' := { f with pc := .check j }) (by intro k; simp [modTask, setTop]) ?_ rfl (by simp; exact h.pc i f j (by simp [hst]) (.inl hpc)) (sub0 f fs hst)
    refine (Keeps.modify (Keeps.modify (keeps_of_eq rfl) (F := PTask.dec) (j := j) ?_) (F := PTask.pay k j) (j := k) ?_).congr rfl
    · intro q; exact ⟨by simp only [PTask.static, PTask.dec], by simp only [PTask.dec]; exact id⟩
    · intro q; unfold PTask.pay; split <;> simp [PTask.static]
  | up hst hpc hq hk hcc hp =>
    rename_i f fs j q k p
    exact h.top hst (f' := { f with pc := .sub p }) (by intro k; simp [setTop]) (keeps_of_eq rfl) rfl
      (fun _ _ => h.pc i f j (by simp [hst]) (.inr hpc)) (sub0 f fs hst)
  | ret hst hpc hcd hk =>
    rename_i f fs j
    exact h.top hst (f' := { f with pc := .sub j }) (by intro k; simp [setTop]) (keeps_of_eq rfl) rfl (fun _ _ => hcd) (sub0 f fs hst)
  | waited hst hpc hcd hg hv hq h0 =>
    rename_i f fs v k j q
    refine h.top hst (f' := { f with code := k }) (by intro k; simp [setTop]) (keeps_of_eq rfl) rfl (by simp [hpc]) ?_
    obtain ⟨ps, h1, h2⟩ := sub0 f fs hst
    rw [hcd] at h1
    refine ⟨ps.erase v, h1.2, ?_⟩
    intro t qt hqt hb hcl ho
    obtain ⟨w, hw, r, hr, hh⟩ := h2 t qt hqt hb hcl ho
    by_cases e : w = v
    · subst e
      rw [hv] at hr; simp only [Option.some.injEq] at hr; subst hr
      obtain ⟨z1, z2⟩ := ha.zero hq h0 (hc j)
      rcases hh with rfl | hh
      · rw [hq] at hqt; simp only [Option.some.injEq] at hqt; subst hqt; rw [z1] at ho; simp at ho
      · rw [z2 t qt hqt hh] at ho; simp at ho
    · exact ⟨w, (List.mem_erase_of_ne e).mpr hw, r, hr, hh⟩
  | submitRoot hst hpc hcd =>
    rename_i f fs c k
    refine h.submitted ha hst (f' := { f with code := k, env := s.tasks.length :: f.env, pc := .push s.tasks.length })
      (q0 := { parent := none, counter := 1, code := c, env := f.env, by_ := i, caller := f.time, par := false })
      (by intro k; simp [setTop]) ?_ rfl rfl (by simp) ⟨rfl, rfl⟩ ?_ ?_
    · intro t q hq
      simp only [setTop, setThr, List.getElem?_append] at hq
      split at hq
      · exact .inr ⟨q, hq, rfl, id⟩
      · rw [List.getElem?_singleton] at hq
        split at hq
        · simp only [Option.some.injEq] at hq; exact .inl ⟨by omega, hq.symm⟩
        · simp at hq
    · obtain ⟨ps, h1, -⟩ := sub0 f fs hst
      rw [hcd] at h1; exact h1.1
    · intro ps h1
      rw [hcd] at h1
      exact ⟨_, h1.2, by intro v hv; simp [hv], .inl ⟨rfl, by simp⟩⟩
  | submitChild hst hpc hcd hv hq =>
    rename_i f fs v c k pj q
    refine h.submitted ha hst (f' := { f with code := k, env := s.tasks.length :: f.env, pc := .push s.tasks.length })
      (q0 := { parent := some pj, counter := 1, code := c, env := f.env, by_ := i, caller := f.time })
      (by intro k; simp [setTop]) ?_ rfl rfl (by simp) ⟨rfl, rfl⟩ ?_ ?_
    · intro t q hq
      simp only [setTop, setThr, List.getElem?_append, List.length_modify] at hq
      split at hq
      · right
        have hk : Keeps s { s with tasks := s.tasks.modify pj PTask.inc } :=
          Keeps.modify (keeps_of_eq rfl) (fun q => ⟨by simp only [PTask.static, PTask.inc], by simp only [PTask.inc]; exact id⟩)
        exact hk t q hq
      · rw [List.getElem?_singleton] at hq
        split at hq
        · simp only [Option.some.injEq] at hq; exact .inl ⟨by omega, hq.symm⟩
        · simp at hq
    · obtain ⟨ps, h1, -⟩ := sub0 f fs hst
      rw [hcd] at h1; exact h1.2.1
    · intro ps h1
      rw [hcd] at h1
      exact ⟨_, h1.2.2, by intro w hw; simp [hw], .inr ⟨v, h1.1, pj, hv, rfl⟩⟩

theorem children_mono {n : Nat} {s u : PoolState} {i : Nat} (hs : PoolStep n s i u) (j : Nat) : s.children j ≤ u.children j := by
  have hmod : ∀ (l : List PTask) (k : Nat) (F : PTask → PTask), (∀ q, (F q).parent = q.parent) →
      (l.modify k F).countP (fun q => q.parent == some j) = l.countP (fun q => q.parent == some j) := by
    intro l k F hF
    cases e : l[k]? with
    | none => rw [List.modify_eq_self (by simpa using e)]
    | some q => have := countP_modify (fun q => q.parent == some j) F l k q e; rw [hF] at this; omega
  cases hs
  all_goals simp only [PoolState.children, modTask, setTop, setThr]
  all_goals try exact Nat.le_refl _
  · rw [hmod _ _ (PTask.begin_ i (s.clock + 1)) (fun _ => rfl)]; exact Nat.le_refl _
  · rw [hmod _ _ (PTask.setSt .queued) (fun _ => rfl)]; exact Nat.le_refl _
  · rw [hmod _ _ _ (fun q => by unfold PTask.pay; split <;> rfl), hmod _ _ _ (fun q => by simp only [PTask.dec])]; exact Nat.le_refl _
  · rw [hmod _ _ (PTask.setSt .finished) (fun _ => rfl)]; exact Nat.le_refl _
  · rw [List.countP_append]; omega
  · rw [List.countP_append, hmod _ _ _ (fun q => by simp only [PTask.inc])]; omega

theorem PoolReach.joined {n : Nat} (hn : 0 < n) {p : Prog} (hp : p.Joined []) {s : PoolState} (h : PoolReach n p s)
    (hc : ∀ j, s.children j < 65535) : JInv s := by
  have hfj : p.FJ [] := hp.fj (by simp)
  unfold PoolReach at h
  generalize hp0 : PoolState.init p = s0 at h
  induction h with
  | refl =>
    subst hp0
    have hs : ∀ i, ((PoolState.init p).thr i).stack = if i = 0 then [⟨none, p, [], .run, 0⟩] else [] := by
      intro i; simp only [PoolState.init]; split <;> rfl
    have ht : (PoolState.init p).tasks = [] := rfl
    constructor
    · intro i f hf
      rw [hs] at hf
      split at hf
      · simp only [List.mem_singleton] at hf; subst hf
        exact ⟨[], hp, by simp [ht]⟩
      · simp at hf
    · intro i f j hf hpc
      rw [hs] at hf
      split at hf
      · simp only [List.mem_singleton] at hf; subst hf; simp at hpc
      · simp at hf
    · simp [ht]
    · simp [ht]
  | step i r a hreach hs ih =>
    obtain ⟨-, -, hs⟩ := step_cases hs
    have hc' := fun j => Nat.lt_of_le_of_lt (children_mono hs j) (hc j)
    subst hp0
    exact (ih hc').step (PoolReach.all hn hfj hreach) hc' hs

end CoEcs
