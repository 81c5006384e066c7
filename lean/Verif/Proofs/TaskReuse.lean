import Verif.Model.TaskReuse
import Verif.Proofs.Task

namespace CoEcs

/-- `u` is `k`, or its parent, or the parent of that, and so on. -/
inductive Above (par : Nat → Option Nat) (u : Nat) : Nat → Prop
  | self : Above par u u
  | up {k p : Nat} : par k = some p → Above par u p → Above par u k

namespace Rings

/-- The parents of the tasks submitted so far. -/
def parentOf (s : Rings) (k : Nat) : Option Nat := (s.sub k).bind Submitted.parent

/-- Where the tasks were put. -/
def slotOf (s : Rings) (k : Nat) : Option TaskPtr := (s.sub k).map Submitted.slot

/-- What a submission must observe for the reuse of storage to be harmless: `execute` of the task whose element is reused
and of all its descendants has returned, on whatever thread it ran, and the parent, if any, is a task whose `execute` has
not returned. -/
def Settled (n : Nat) (s : Rings) (t : Nat) (p : Option TaskPtr) : Prop :=
  (∀ q, s.mem (s.slot n t) = some q → ∀ k m, s.sub k = some m → Above s.parentOf q.uid k → m.pc = .done) ∧
  (∀ b, p = some b → ∃ q m, s.mem b = some q ∧ s.sub q.uid = some m ∧ m.pc ≠ .done)

/-- The task is still in its element. -/
def Here (s : Rings) (u : Nat) : Prop := ∃ m q, s.sub u = some m ∧ s.mem m.slot = some q ∧ q.uid = u

end Rings

/-- The same place in the execution of task `k`, with pointers and with numbers of tasks. -/
def PcSame (par : Nat → Option Nat) (slot : Nat → Option TaskPtr) (k : Nat) : ReusePc → TaskPc → Prop
  | .running, .running => True
  | .done, .done => True
  | .sub a, .sub j => Above par j k ∧ slot j = some a
  | .check a, .check j => Above par j k ∧ slot j = some a
  | _, _ => False

/-- The tasks in the rings behave like tasks with storage of their own. -/
structure RingSim (s : Rings) (ts : Tasks) : Prop where
  len : ts.length = s.next
  dom : ∀ k m, s.sub k = some m → k < s.next
  par : ∀ k p, s.parentOf k = some p → p < k
  task : ∀ k m, s.sub k = some m → ∃ r, ts[k]? = some r ∧ r.parent = m.parent ∧ PcSame s.parentOf s.slotOf k m.pc r.pc
  mem : ∀ a q, s.mem a = some q → ∃ m r, s.sub q.uid = some m ∧ m.slot = a ∧ ts[q.uid]? = some r ∧
    r.counter = q.counter ∧ q.parent = m.parent.bind s.slotOf
  live : ∀ k m, s.sub k = some m → m.pc ≠ .done → ∀ u, Above s.parentOf u k → s.Here u

theorem Above.ext {f g : Nat → Option Nat} {u k : Nat} (hp : ∀ i p, f i = some p → p < i)
    (h : ∀ i, i ≤ k → g i = f i) (ha : Above f u k) : Above g u k := by
  induction ha with
  | self => exact .self
  | up h1 _ ih =>
    refine .up (by rw [h _ (Nat.le_refl _)]; exact h1) (ih ?_)
    intro i hi
    exact h i (by have := hp _ _ h1; omega)

theorem Above.le {f : Nat → Option Nat} {u k : Nat} (hp : ∀ i p, f i = some p → p < i) (ha : Above f u k) : u ≤ k := by
  induction ha with
  | self => exact Nat.le_refl _
  | up h1 _ ih => have := hp _ _ h1; omega

theorem Above.parent {f : Nat → Option Nat} {u k p : Nat} (ha : Above f u k) (h : f u = some p) : Above f p k := by
  induction ha with
  | self => exact .up h .self
  | up h1 _ ih => exact .up h1 ih

namespace Rings

theorem setSub_parentOf {s : Rings} {k : Nat} {m : Submitted} (h : s.sub k = some m) (pc : ReusePc) :
    (s.setSub k { m with pc := pc }).parentOf = s.parentOf := by
  funext i
  unfold parentOf setSub
  by_cases hi : i = k
  · subst hi; simp [h]
  · simp [hi]

theorem setSub_slotOf {s : Rings} {k : Nat} {m : Submitted} (h : s.sub k = some m) (pc : ReusePc) :
    (s.setSub k { m with pc := pc }).slotOf = s.slotOf := by
  funext i
  unfold slotOf setSub
  by_cases hi : i = k
  · subst hi; simp [h]
  · simp [hi]

theorem setSub_here {s : Rings} {k : Nat} {m : Submitted} (h : s.sub k = some m) (pc : ReusePc) {u : Nat} (hu : s.Here u) :
    (s.setSub k { m with pc := pc }).Here u := by
  obtain ⟨x, q, h1, h2, h3⟩ := hu
  unfold Here setSub
  by_cases hi : u = k
  · subst hi
    rw [h] at h1; cases h1
    exact ⟨{ m with pc := pc }, q, by simp, h2, h3⟩
  · exact ⟨x, q, by simp [hi, h1], h2, h3⟩

theorem construct_setMem {s : Rings} {t : Nat} {a c : TaskPtr} (h : c ≠ a) (p : Option Nat) (b : Option TaskPtr) (q : SlotTask) :
    (s.construct t a p b).setMem c q = (s.setMem c q).construct t a p b := by
  unfold construct setMem
  congr 1
  funext d
  by_cases hd : d = c
  · subst hd; simp [h]
  · simp [hd]

end Rings

/-- A step of the execution of task `k`, which is not finished. -/
theorem RingSim.setSub {s : Rings} {ts : Tasks} (h : RingSim s ts) {k : Nat} {m : Submitted} {r : TaskRec} (hk : s.sub k = some m)
    (hr : ts[k]? = some r) (hd : m.pc ≠ .done) {pc : ReusePc} {pc' : TaskPc} (hp : PcSame s.parentOf s.slotOf k pc pc') :
    RingSim (s.setSub k { m with pc := pc }) (ts.set k (r.goto pc')) := by
  obtain ⟨r', hr', hpar, _⟩ := h.task k m hk
  rw [hr] at hr'; cases hr'
  have hkl : k < ts.length := (List.getElem?_eq_some_iff.1 hr).1
  constructor
  · rw [List.length_set]; exact h.len
  · intro i x hx
    simp only [Rings.setSub] at hx ⊢
    split at hx
    · rename_i e; subst e; exact h.dom _ _ hk
    · exact h.dom _ _ hx
  · rw [Rings.setSub_parentOf hk]; exact h.par
  · intro i x hx
    rw [Rings.setSub_parentOf hk, Rings.setSub_slotOf hk]
    by_cases hi : i = k
    · subst hi
      simp only [Rings.setSub, if_true, Option.some.injEq] at hx
      subst hx
      exact ⟨r.goto pc', by simp [hkl], hpar, hp⟩
    · simp only [Rings.setSub, hi, if_false] at hx
      obtain ⟨y, h1, h2, h3⟩ := h.task i x hx
      exact ⟨y, by rw [List.getElem?_set_ne (Ne.symm hi)]; exact h1, h2, h3⟩
  · intro a q hq
    rw [Rings.setSub_slotOf hk]
    obtain ⟨x, y, h1, h2, h3, h4, h5⟩ := h.mem a q hq
    by_cases hi : q.uid = k
    · rw [hi] at h1 h3
      rw [hk] at h1; cases h1
      rw [hr] at h3; cases h3
      exact ⟨{ m with pc := pc }, r.goto pc', by simp [Rings.setSub, hi], h2, by simp [hi, hkl], h4, h5⟩
    · exact ⟨x, y, by simp [Rings.setSub, hi, h1], h2, by rw [List.getElem?_set_ne (Ne.symm hi)]; exact h3, h4, h5⟩
  · intro i x hx hxd u hu
    rw [Rings.setSub_parentOf hk] at hu
    refine Rings.setSub_here hk _ ?_
    by_cases hi : i = k
    · subst hi; exact h.live i m hk hd u hu
    · simp only [Rings.setSub, hi, if_false] at hx
      exact h.live i x hx hxd u hu

/-- A change of a counter. -/
theorem RingSim.setCounter {s : Rings} {ts : Tasks} (h : RingSim s ts) {a : TaskPtr} {q : SlotTask} {r r' : TaskRec}
    (hq : s.mem a = some q) (hr : ts[q.uid]? = some r) (hp : r'.parent = r.parent) (hpc : r'.pc = r.pc) {c : Nat} (hc : r'.counter = c) :
    RingSim (s.setMem a { q with counter := c }) (ts.set q.uid r') := by
  have hkl : q.uid < ts.length := (List.getElem?_eq_some_iff.1 hr).1
  have e1 : (s.setMem a { q with counter := c }).parentOf = s.parentOf := rfl
  have e2 : (s.setMem a { q with counter := c }).slotOf = s.slotOf := rfl
  obtain ⟨m, _, hm, hma, hr', _, hmp⟩ := h.mem a q hq
  rw [hr] at hr'; cases hr'
  constructor
  · rw [List.length_set]; exact h.len
  · exact h.dom
  · exact h.par
  · intro i x hx
    obtain ⟨y, h1, h2, h3⟩ := h.task i x hx
    by_cases hi : i = q.uid
    · subst hi
      rw [hr] at h1; cases h1
      exact ⟨r', by simp [hkl], by rw [hp]; exact h2, by rw [hpc]; exact h3⟩
    · exact ⟨y, by rw [List.getElem?_set_ne (Ne.symm hi)]; exact h1, h2, h3⟩
  · intro b q' hq'
    simp only [Rings.setMem] at hq'
    split at hq'
    · rename_i e; subst e
      cases hq'
      exact ⟨m, r', hm, hma, by simp [hkl], hc, hmp⟩
    · rename_i hb
      obtain ⟨x, y, h1, h2, h3, h4, h5⟩ := h.mem b q' hq'
      have : q'.uid ≠ q.uid := by
        intro e
        rw [e, hm] at h1; cases h1
        exact hb (by rw [← h2, hma])
      exact ⟨x, y, h1, h2, by rw [List.getElem?_set_ne (Ne.symm this)]; exact h3, h4, h5⟩
  · intro i x hx hxd u hu
    obtain ⟨x', q', h1, h2, h3⟩ := h.live i x hx hxd u hu
    by_cases hb : x'.slot = a
    · rw [hb, hq] at h2; cases h2
      exact ⟨x', { q with counter := c }, h1, by simp [Rings.setMem, hb], h3⟩
    · exact ⟨x', q', h1, by simp [Rings.setMem, hb, h2], h3⟩

/-- A task put into an element that nobody uses any more. -/
theorem RingSim.append {s : Rings} {ts : Tasks} (h : RingSim s ts) {a : TaskPtr} {p : Option Nat} {b : Option TaskPtr}
    (hs : ∀ q, s.mem a = some q → ∀ k m, s.sub k = some m → Above s.parentOf q.uid k → m.pc = .done)
    (hp : ∀ u, p = some u → ∃ m, s.sub u = some m ∧ m.pc ≠ .done) (hb : b = p.bind s.slotOf) (t : Nat) :
    RingSim (s.construct t a p b) (ts ++ [⟨p, 1, .running⟩]) := by
  generalize hg : s.construct t a p b = g
  have gsub : ∀ i, g.sub i = if i = s.next then some ⟨a, p, .running⟩ else s.sub i := by intro i; rw [← hg]; rfl
  have gmem : ∀ c, g.mem c = if c = a then some ⟨s.next, b, 1⟩ else s.mem c := by intro c; rw [← hg]; rfl
  have gnext : g.next = s.next + 1 := by rw [← hg]; rfl
  have hlen := h.len
  have old : ∀ i m, s.sub i = some m → g.sub i = some m := by
    intro i m hi
    have := h.dom _ _ hi
    rw [gsub, if_neg (by omega)]; exact hi
  have gpar : ∀ i, i ≠ s.next → g.parentOf i = s.parentOf i := by
    intro i hi; unfold Rings.parentOf; rw [gsub, if_neg hi]
  have gparn : g.parentOf s.next = p := by unfold Rings.parentOf; rw [gsub, if_pos rfl]; rfl
  have gslot : ∀ i, i ≠ s.next → g.slotOf i = s.slotOf i := by
    intro i hi; unfold Rings.slotOf; rw [gsub, if_neg hi]
  have parlt : ∀ u, p = some u → u < s.next := by
    intro u hu; obtain ⟨m, h1, _⟩ := hp u hu; exact h.dom _ _ h1
  have hpar : ∀ k q, g.parentOf k = some q → q < k := by
    intro k q hk
    by_cases e : k = s.next
    · subst e; rw [gparn] at hk; exact parlt q hk
    · rw [gpar k e] at hk; exact h.par k q hk
  have back : ∀ u k, k < s.next → Above g.parentOf u k → Above s.parentOf u k := by
    intro u k hk ha
    exact ha.ext hpar (fun i hi => (gpar i (by omega)).symm)
  have forth : ∀ u k, k < s.next → Above s.parentOf u k → Above g.parentOf u k := by
    intro u k hk ha
    exact ha.ext h.par (fun i hi => gpar i (by omega))
  have keep : ∀ k m, s.sub k = some m → m.pc ≠ .done → ∀ u, Above s.parentOf u k → g.Here u := by
    intro k m hk hd u hu
    obtain ⟨m', q, h1, h2, h3⟩ := h.live k m hk hd u hu
    refine ⟨m', q, old _ _ h1, ?_, h3⟩
    rw [gmem, if_neg]
    · exact h2
    · intro e
      rw [e] at h2
      exact hd (hs q h2 k m hk (by rw [h3]; exact hu))
  constructor
  · rw [List.length_append, gnext, hlen]; rfl
  · intro k m hk
    rw [gnext]
    rw [gsub] at hk
    split at hk
    · omega
    · have := h.dom _ _ hk; omega
  · exact hpar
  · intro k m hk
    by_cases e : k = s.next
    · subst e
      rw [gsub, if_pos rfl] at hk; cases hk
      exact ⟨⟨p, 1, .running⟩, by rw [← hlen]; simp, rfl, trivial⟩
    · rw [gsub, if_neg e] at hk
      have hlt := h.dom _ _ hk
      obtain ⟨r, h1, h2, h3⟩ := h.task k m hk
      refine ⟨r, by rw [List.getElem?_append_left (by omega)]; exact h1, h2, ?_⟩
      revert h3
      unfold PcSame
      have aux : ∀ c j, Above s.parentOf j k ∧ s.slotOf j = some c → Above g.parentOf j k ∧ g.slotOf j = some c := by
        rintro c j ⟨h4, h5⟩
        have := h4.le h.par
        exact ⟨forth _ _ hlt h4, by rw [gslot _ (by omega)]; exact h5⟩
      split <;> first | exact id | exact aux _ _
  · intro c q hq
    rw [gmem] at hq
    split at hq
    · rename_i e; subst e
      cases hq
      refine ⟨⟨c, p, .running⟩, ⟨p, 1, .running⟩, by rw [gsub]; simp, rfl, by show (ts ++ _)[s.next]? = _; rw [← hlen]; simp, rfl, ?_⟩
      show b = p.bind g.slotOf
      rw [hb]
      cases p with
      | none => rfl
      | some u => exact (gslot u (by have := parlt u rfl; omega)).symm
    · obtain ⟨m, r, h1, h2, h3, h4, h5⟩ := h.mem c q hq
      have hlt := h.dom _ _ h1
      refine ⟨m, r, old _ _ h1, h2, by rw [List.getElem?_append_left (by omega)]; exact h3, h4, ?_⟩
      rw [h5]
      cases hmp : m.parent with
      | none => rfl
      | some u =>
        have : s.parentOf q.uid = some u := by unfold Rings.parentOf; rw [h1]; exact hmp
        have := h.par _ _ this
        exact (gslot u (by omega)).symm
  · intro k m hk hd u hu
    by_cases e : k = s.next
    · subst e
      cases hu with
      | self => exact ⟨⟨a, p, .running⟩, ⟨s.next, b, 1⟩, by rw [gsub]; simp, by rw [gmem]; simp, rfl⟩
      | up h1 h2 =>
        rw [gparn] at h1
        obtain ⟨m', h3, h4⟩ := hp _ h1
        exact keep _ m' h3 h4 u (back _ _ (h.dom _ _ h3) h2)
    · rw [gsub, if_neg e] at hk
      exact keep k m hk hd u (back _ _ (h.dom _ _ hk) hu)

theorem RingSim.here {s : Rings} {ts : Tasks} (h : RingSim s ts) {k j : Nat} {m : Submitted} {a : TaskPtr} (hk : s.sub k = some m)
    (hd : m.pc ≠ .done) (ha : Above s.parentOf j k) (hj : s.slotOf j = some a) : ∃ q, s.mem a = some q ∧ q.uid = j := by
  obtain ⟨m', q, h1, h2, h3⟩ := h.live k m hk hd j ha
  unfold Rings.slotOf at hj
  rw [h1] at hj
  cases hj
  exact ⟨q, h2, h3⟩

/-- With settled submissions every execution with reuse of storage is one without. -/
theorem RingsReach.sim {n : Nat} {s : Rings} (h : RingsReach n (Rings.Settled n) s) : ∃ ts, TaskReach ts ∧ RingSim s ts := by
  induction h with
  | init =>
    refine ⟨[], .init, rfl, ?_, ?_, ?_, ?_, ?_⟩
    · intro k m hk; cases hk
    · intro k m hk; cases hk
    · intro k m hk; cases hk
    · intro k m hk; cases hk
    · intro k m hk; cases hk
  | @submit s u t p _ hok he ih =>
    obtain ⟨ts, hts, hsim⟩ := ih
    unfold Rings.submit at he
    cases p with
    | none =>
      simp only [Option.some.injEq] at he
      subst he
      exact ⟨_, .step hts (.submitRoot ts), hsim.append (p := none) hok.1 (by intro u hu; cases hu) rfl t⟩
    | some b =>
      simp only at he
      split at he
      · cases he
      · rename_i hne
        obtain ⟨q, m, hq, hm, hd⟩ := hok.2 b rfl
        rw [hq] at he
        simp only [Option.some.injEq] at he
        subst he
        obtain ⟨m', r, h1, h2, h3, h4, h5⟩ := hsim.mem b q hq
        rw [hm] at h1; cases h1
        refine ⟨_, .step hts (.submitChild ts q.uid r h3), ?_⟩
        have h6 : r.inc.counter = oneMore q.counter := by unfold TaskRec.inc oneMore; rw [← h4]
        have h7 := hsim.setCounter hq h3 (r' := r.inc) (by simp) (by simp) h6
        have h8 : s.slot n t ≠ b := Ne.symm hne
        rw [Rings.construct_setMem hne]
        refine h7.append (a := s.slot n t) (p := some q.uid) (b := some b) ?_ ?_ ?_ t
        · intro q' hq'
          simp only [Rings.setMem, h8, if_false] at hq'
          exact hok.1 q' hq'
        · intro u hu; cases hu; exact ⟨m, hm, hd⟩
        · show some b = s.slotOf q.uid
          unfold Rings.slotOf; rw [hm, ← h2]; rfl
  | @ret s u k _ he ih =>
    obtain ⟨ts, hts, hsim⟩ := ih
    unfold Rings.ret at he
    split at he
    · rename_i m hm
      split at he
      · rename_i hpc
        cases he
        obtain ⟨r, h1, h2, h3⟩ := hsim.task k m hm
        have h4 : r.pc = .running := by
          rw [hpc] at h3
          revert h3
          cases r.pc <;> simp [PcSame]
        refine ⟨_, .step hts (.ret ts k r h1 h4), hsim.setSub hm h1 (by rw [hpc]; simp) ?_⟩
        exact ⟨.self, by unfold Rings.slotOf; rw [hm]; rfl⟩
      · cases he
    · cases he
  | @dec s u k _ he ih =>
    obtain ⟨ts, hts, hsim⟩ := ih
    unfold Rings.dec at he
    split at he
    · rename_i m hm
      split at he
      · rename_i a hpc
        split at he
        · rename_i q hq
          cases he
          obtain ⟨r, h1, h2, h3⟩ := hsim.task k m hm
          have h4 : ∃ j, r.pc = .sub j ∧ Above s.parentOf j k ∧ s.slotOf j = some a := by
            rw [hpc] at h3
            revert h3
            cases r.pc <;> simp [PcSame]
          obtain ⟨j, h4, h5, h6⟩ := h4
          have hd : m.pc ≠ .done := by rw [hpc]; simp
          obtain ⟨q', h7, h8⟩ := hsim.here hm hd h5 h6
          rw [hq] at h7; cases h7
          have h9 := hsim.setSub hm h1 hd (pc := .check a) (pc' := .check j) ⟨h5, h6⟩
          have hq' : (s.setSub k { m with pc := .check a }).mem a = some q := hq
          obtain ⟨_, y, _, _, h10, h11, _⟩ := h9.mem a q hq'
          have h12 : y.dec.counter = oneLess q.counter := by unfold TaskRec.dec oneLess; rw [← h11]
          have h13 := h9.setCounter hq' h10 (r' := y.dec) (by simp) (by simp) h12
          subst h8
          exact ⟨_, .step hts (.sub ts k q.uid r y h1 h4 h10), h13⟩
        · cases he
      · cases he
    · cases he
  | @check s u k _ he ih =>
    obtain ⟨ts, hts, hsim⟩ := ih
    unfold Rings.check at he
    split at he
    · rename_i m hm
      split at he
      · rename_i a hpc
        split at he
        · rename_i q hq
          obtain ⟨r, h1, h2, h3⟩ := hsim.task k m hm
          have h4 : ∃ j, r.pc = .check j ∧ Above s.parentOf j k ∧ s.slotOf j = some a := by
            rw [hpc] at h3
            revert h3
            cases r.pc <;> simp [PcSame]
          obtain ⟨j, h4, h5, h6⟩ := h4
          have hd : m.pc ≠ .done := by rw [hpc]; simp
          obtain ⟨q', h7, h8⟩ := hsim.here hm hd h5 h6
          rw [hq] at h7; cases h7
          obtain ⟨m', y, h9, h10, h11, h12, h13⟩ := hsim.mem a q hq
          have h14 := hsim.task q.uid m' h9
          obtain ⟨y', h15, h16, _⟩ := h14
          rw [h11] at h15; cases h15
          rw [h8] at h11 h9
          refine ⟨_, .step hts (.check ts k j r y h1 h4 h11), ?_⟩
          have hcomp : y.completed = (q.counter == 0) := by unfold TaskRec.completed; rw [h12]
          have hnext : ∃ pc, u = s.setSub k { m with pc := pc } ∧ PcSame s.parentOf s.slotOf k pc y.next := by
            unfold TaskRec.next
            rw [hcomp, h16]
            cases hmp : m'.parent with
            | none =>
              rw [hmp] at h13
              simp only [Option.bind_none] at h13
              rw [h13] at he
              refine ⟨.done, ?_, ?_⟩
              · cases hz : (q.counter == 0) <;> (rw [hz] at he; simpa using he.symm)
              · cases hz : (q.counter == 0) <;> trivial
            | some p =>
              rw [hmp] at h13
              simp only [Option.bind_some] at h13
              have hpj : s.parentOf j = some p := by unfold Rings.parentOf; rw [h9]; exact hmp
              have hap := h5.parent hpj
              obtain ⟨mp, qp, h17, h18, h19⟩ := hsim.live k m hm hd p hap
              have h20 : s.slotOf p = some mp.slot := by unfold Rings.slotOf; rw [h17]; rfl
              rw [h20] at h13
              rw [h13] at he
              cases hz : (q.counter == 0)
              · rw [hz] at he
                exact ⟨.done, by simpa using he.symm, trivial⟩
              · rw [hz] at he
                exact ⟨.sub mp.slot, by simpa using he.symm, hap, h20⟩
          obtain ⟨pc, rfl, h15⟩ := hnext
          exact hsim.setSub hm h1 hd h15
        · cases he
      · cases he
    · cases he

end CoEcs

/-! ## Performing steps -/

@[simp] theorem CoEcs.oneMore_one : CoEcs.oneMore 1 = 2 := by decide
@[simp] theorem CoEcs.oneLess_one : CoEcs.oneLess 1 = 0 := by decide
@[simp] theorem CoEcs.oneLess_two : CoEcs.oneLess 2 = 1 := by decide
@[simp] theorem CoEcs.oneLess_zero : CoEcs.oneLess 0 = 65535 := by decide

namespace CoEcs.Rings

@[simp] theorem mem_setMem (s : Rings) (a : TaskPtr) (q : SlotTask) (c : TaskPtr) :
    (s.setMem a q).mem c = if c = a then some q else s.mem c := rfl
@[simp] theorem sub_setMem (s : Rings) (a : TaskPtr) (q : SlotTask) (k : Nat) : (s.setMem a q).sub k = s.sub k := rfl
@[simp] theorem next_setMem (s : Rings) (a : TaskPtr) (q : SlotTask) : (s.setMem a q).next = s.next := rfl
@[simp] theorem count_setMem (s : Rings) (a : TaskPtr) (q : SlotTask) (t : Nat) : (s.setMem a q).count t = s.count t := rfl
@[simp] theorem mem_setSub (s : Rings) (k : Nat) (m : Submitted) (c : TaskPtr) : (s.setSub k m).mem c = s.mem c := rfl
@[simp] theorem sub_setSub (s : Rings) (k : Nat) (m : Submitted) (i : Nat) :
    (s.setSub k m).sub i = if i = k then some m else s.sub i := rfl
@[simp] theorem next_setSub (s : Rings) (k : Nat) (m : Submitted) : (s.setSub k m).next = s.next := rfl
@[simp] theorem count_setSub (s : Rings) (k : Nat) (m : Submitted) (t : Nat) : (s.setSub k m).count t = s.count t := rfl
@[simp] theorem mem_construct (s : Rings) (t : Nat) (a : TaskPtr) (p : Option Nat) (b : Option TaskPtr) (c : TaskPtr) :
    (s.construct t a p b).mem c = if c = a then some ⟨s.next, b, 1⟩ else s.mem c := rfl
@[simp] theorem sub_construct (s : Rings) (t : Nat) (a : TaskPtr) (p : Option Nat) (b : Option TaskPtr) (i : Nat) :
    (s.construct t a p b).sub i = if i = s.next then some ⟨a, p, .running⟩ else s.sub i := rfl
@[simp] theorem next_construct (s : Rings) (t : Nat) (a : TaskPtr) (p : Option Nat) (b : Option TaskPtr) :
    (s.construct t a p b).next = s.next + 1 := rfl
@[simp] theorem count_construct (s : Rings) (t : Nat) (a : TaskPtr) (p : Option Nat) (b : Option TaskPtr) (i : Nat) :
    (s.construct t a p b).count i = if i = t then s.count t + 1 else s.count i := rfl

theorem ret_eq {s : Rings} {k : Nat} {m : Submitted} (h : s.sub k = some m) (hp : m.pc = .running) :
    s.ret k = some (s.setSub k ⟨m.slot, m.parent, .sub m.slot⟩) := by
  unfold ret; simp only [h]; rw [if_pos hp]

theorem dec_eq {s : Rings} {k : Nat} {m : Submitted} {a : TaskPtr} {q : SlotTask} (h : s.sub k = some m) (hp : m.pc = .sub a)
    (hq : s.mem a = some q) :
    s.dec k = some ((s.setMem a ⟨q.uid, q.parent, oneLess q.counter⟩).setSub k ⟨m.slot, m.parent, .check a⟩) := by
  unfold dec; simp only [h, hp, hq]

theorem check_up {s : Rings} {k : Nat} {m : Submitted} {a b : TaskPtr} {q : SlotTask} (h : s.sub k = some m) (hp : m.pc = .check a)
    (hq : s.mem a = some q) (h0 : q.counter = 0) (hb : q.parent = some b) :
    s.check k = some (s.setSub k ⟨m.slot, m.parent, .sub b⟩) := by
  unfold check; simp only [h, hp, hq, h0, hb]; rfl

theorem check_done {s : Rings} {k : Nat} {m : Submitted} {a : TaskPtr} {q : SlotTask} (h : s.sub k = some m) (hp : m.pc = .check a)
    (hq : s.mem a = some q) (h0 : q.counter ≠ 0 ∨ q.parent = none) :
    s.check k = some (s.setSub k ⟨m.slot, m.parent, .done⟩) := by
  have : (q.counter == 0) = false ∨ q.parent = none := by
    rcases h0 with h0 | h0
    · exact Or.inl (by simpa using h0)
    · exact Or.inr h0
  unfold check; simp only [h, hp, hq]
  rcases this with h1 | h1
  · rw [h1]
  · rw [h1]; cases (q.counter == 0) <;> rfl

theorem submit_child {n : Nat} {s : Rings} {t : Nat} {b : TaskPtr} {q : SlotTask} (hb : b ≠ s.slot n t) (hq : s.mem b = some q) :
    s.submit n t (some b) = some ((s.construct t (s.slot n t) (some q.uid) (some b)).setMem b ⟨q.uid, q.parent, oneMore q.counter⟩) := by
  unfold submit; simp only [hq]; rw [if_neg hb]

end CoEcs.Rings
