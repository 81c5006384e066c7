import Verif.Props.Task
import Verif.Proofs.TaskReuse

/-!
# C102: the storage of a task is reused only after its last use

`finish` decrements the counter and then reads the task again (task.hpp:45-49).  A thread that waits for the task may go
on in between, and submit further tasks into the same element.
-/

namespace CoEcs.Props

open CoEcs

/-- How a careful program submits: at that time there is at most one task whose function has not returned; the task whose
element is reused is complete, so that `wait` for it returns; and a parent is a task whose function has not returned. -/
def Careful (n : Nat) (s : Rings) (t : Nat) (p : Option TaskPtr) : Prop :=
  (∃ c, ∀ k m, s.sub k = some m → m.pc = .running → k = c) ∧
  (∀ q, s.mem (s.slot n t) = some q → q.counter = 0) ∧
  (∀ b, p = some b → ∃ q m, s.mem b = some q ∧ s.sub q.uid = some m ∧ m.pc = .running)

/-- No parent has a parent. -/
def FlatRings (s : Rings) : Prop := ∀ k p, s.parentOf k = some p → s.parentOf p = none

/-- The number of children of task `p`. -/
def ringChildren (s : Rings) (p : Nat) : Nat := (List.range s.next).countP fun k => s.parentOf k == some p

/-- Task 0 has decremented its counter and is about to read it again; tasks 1 to `j` have been executed. -/
structure Stalled (n j : Nat) (s : Rings) : Prop where
  reach : RingsReach n (Careful n) s
  next : s.next = j + 1
  count : s.count 0 = j + 1
  mem0 : s.mem (0, 0) = some ⟨0, none, 0⟩
  sub0 : s.sub 0 = some ⟨(0, 0), none, .check (0, 0)⟩
  old : ∀ k m, s.sub k = some m → k ≠ 0 → k ≤ j ∧ m.pc = .done ∧ m.parent = none
  done : ∀ i q, s.mem (0, i) = some q → q.counter = 0

theorem Stalled.idle {n j : Nat} {s : Rings} (h : Stalled n j s) (k : Nat) (m : Submitted) (hk : s.sub k = some m) :
    m.pc ≠ .running ∧ m.parent = none := by
  by_cases e : k = 0
  · subst e; rw [h.sub0] at hk; cases hk; exact ⟨by simp, rfl⟩
  · have := h.old k m hk e
    exact ⟨by rw [this.2.1]; simp, this.2.2⟩

theorem Stalled.careful {n j : Nat} {s : Rings} (h : Stalled n j s) : Careful n s 0 none :=
  ⟨⟨0, fun k m hk hp => absurd hp (h.idle k m hk).1⟩, fun q hq => h.done _ q hq, fun b hb => by cases hb⟩

theorem stalled_zero (n : Nat) : ∃ s, Stalled n 0 s := by
  have h0 : Careful n Rings.init 0 none := ⟨⟨0, fun k m hk => nomatch hk⟩, fun q hq => (nomatch hq), fun b hb => (nomatch hb)⟩
  have r1 := RingsReach.submit (n := n) 0 none .init h0 rfl
  have r2 := RingsReach.ret 0 r1 (Rings.ret_eq (m := ⟨(0, 0), none, .running⟩) (by simp [Rings.init, Rings.slot]) rfl)
  have r3 := RingsReach.dec 0 r2 (Rings.dec_eq (m := ⟨(0, 0), none, .sub (0, 0)⟩) (a := (0, 0)) (q := ⟨0, none, 1⟩)
    (by simp) rfl (by simp [Rings.init, Rings.slot]))
  refine ⟨_, r3, ?_, ?_, ?_, ?_, ?_, ?_⟩
  · simp [Rings.init]
  · simp [Rings.init]
  · simp
  · simp
  · intro k m hk hne
    simp [Rings.init, hne] at hk
  · intro i q hq
    by_cases e : i = 0
    · subst e; simp at hq; subst hq; simp
    · simp [Rings.init, Rings.slot, e] at hq

theorem Stalled.succ {n j : Nat} {s : Rings} (h : Stalled n j s) (hj : j + 1 < n) : ∃ u, Stalled n (j + 1) u := by
  have hslot : s.slot n 0 = (0, j + 1) := by unfold Rings.slot; rw [h.count, Nat.mod_eq_of_lt hj]
  have r1 := RingsReach.submit 0 none h.reach h.careful rfl
  rw [hslot] at r1
  have r2 := RingsReach.ret (j + 1) r1 (Rings.ret_eq (m := ⟨(0, j + 1), none, .running⟩) (by simp [h.next]) rfl)
  have r3 := RingsReach.dec (j + 1) r2 (Rings.dec_eq (m := ⟨(0, j + 1), none, .sub (0, j + 1)⟩) (a := (0, j + 1))
    (q := ⟨j + 1, none, 1⟩) (by simp) rfl (by simp [h.next]))
  have r4 := RingsReach.check (j + 1) r3 (Rings.check_done (m := ⟨(0, j + 1), none, .check (0, j + 1)⟩) (a := (0, j + 1))
    (q := ⟨j + 1, none, 0⟩) (by simp) rfl (by simp) (Or.inr rfl))
  refine ⟨_, r4, ?_, ?_, ?_, ?_, ?_, ?_⟩
  · simp [h.next]
  · simp [h.count]
  · simp [h.mem0]
  · simp [h.next, h.sub0]
  · intro k m hk hne
    by_cases e : k = j + 1
    · subst e; simp at hk; subst hk; simp
    · simp [h.next, e] at hk
      have := h.old k m hk hne
      exact ⟨by omega, this.2⟩
  · intro i q hq
    by_cases e : i = j + 1
    · subst e; simp at hq; subst hq; simp
    · simp [e] at hq
      exact h.done i q hq

theorem stalled (n j : Nat) (hj : j < n) : ∃ s, Stalled n j s := by
  induction j with
  | zero => exact stalled_zero n
  | succ j ih =>
    obtain ⟨s, hs⟩ := ih (by omega)
    exact hs.succ hj

/-- Task `n - 1` is a parent, task `n`, its first child, is in the element of task 0 and has been executed, task `n + 1`, its
second child, has not been called; the parent's function has returned.  Task 0 continues and decrements the parent's
counter. -/
structure Confused (n : Nat) (s : Rings) : Prop where
  reach : RingsReach n (Careful n) s
  next : s.next = n + 2
  parent : s.mem (0, n - 1) = some ⟨n - 1, none, 0⟩
  child : s.mem (0, 1) = some ⟨n + 1, some (0, n - 1), 1⟩
  zero : s.sub 0 = some ⟨(0, 0), none, .check (0, n - 1)⟩
  top : s.sub (n - 1) = some ⟨(0, n - 1), none, .check (0, n - 1)⟩
  first : s.sub n = some ⟨(0, 0), some (n - 1), .done⟩
  second : s.sub (n + 1) = some ⟨(0, 1), some (n - 1), .running⟩
  old : ∀ k m, s.sub k = some m → k ≠ 0 → k < n - 1 → m.pc = .done ∧ m.parent = none
  dom : ∀ k m, s.sub k = some m → k < n + 2

theorem confused (n : Nat) (hn : 3 ≤ n) : ∃ s, Confused n s := by
  obtain ⟨j, rfl⟩ : ∃ j, n = j + 3 := ⟨n - 3, by omega⟩
  obtain ⟨s, h⟩ := stalled (j + 3) (j + 1) (by omega)
  have hslot : s.slot (j + 3) 0 = (0, j + 2) := by unfold Rings.slot; rw [h.count, Nat.mod_eq_of_lt (by omega)]
  -- the parent
  have r1 := RingsReach.submit 0 none h.reach h.careful rfl
  rw [hslot] at r1
  -- its first child, in the element of task 0
  have s2 : (s.construct 0 (0, j + 2) none none).slot (j + 3) 0 = (0, 0) := by
    unfold Rings.slot; simp [h.count]
  have m2 : (s.construct 0 (0, j + 2) none none).mem (0, j + 2) = some ⟨j + 2, none, 1⟩ := by simp [h.next]
  have c2 : Careful (j + 3) (s.construct 0 (0, j + 2) none none) 0 (some (0, j + 2)) := by
    refine ⟨⟨j + 2, ?_⟩, ?_, ?_⟩
    · intro k m hk hp
      by_cases e : k = j + 2
      · exact e
      · simp [h.next, e] at hk
        exact absurd hp (h.idle k m hk).1
    · intro q hq
      rw [s2] at hq
      simp [h.mem0] at hq
      subst hq; rfl
    · intro b hb; cases hb
      exact ⟨_, _, m2, by simp [h.next]; rfl, rfl⟩
  have r2 := RingsReach.submit 0 (some (0, j + 2)) r1 c2 (Rings.submit_child (by rw [s2]; simp) m2)
  rw [s2] at r2
  -- it is executed
  have r3 := RingsReach.ret (j + 3) r2 (Rings.ret_eq (m := ⟨(0, 0), some (j + 2), .running⟩) (by simp [h.next]) rfl)
  have r4 := RingsReach.dec (j + 3) r3 (Rings.dec_eq (m := ⟨(0, 0), some (j + 2), .sub (0, 0)⟩) (a := (0, 0))
    (q := ⟨j + 3, some (0, j + 2), 1⟩) (by simp) rfl (by simp [h.next]))
  have r5 := RingsReach.check (j + 3) r4 (Rings.check_up (m := ⟨(0, 0), some (j + 2), .check (0, 0)⟩) (a := (0, 0))
    (b := (0, j + 2)) (q := ⟨j + 3, some (0, j + 2), 0⟩) (by simp) rfl (by simp) rfl rfl)
  have r6 := RingsReach.dec (j + 3) r5 (Rings.dec_eq (m := ⟨(0, 0), some (j + 2), .sub (0, j + 2)⟩) (a := (0, j + 2))
    (q := ⟨j + 2, none, 2⟩) (by simp) rfl (by simp))
  have r7 := RingsReach.check (j + 3) r6 (Rings.check_done (m := ⟨(0, 0), some (j + 2), .check (0, j + 2)⟩) (a := (0, j + 2))
    (q := ⟨j + 2, none, 1⟩) (by simp) rfl (by simp) (Or.inr rfl))
  obtain ⟨u, hu, hnext, hcount, htop, hzero, hpar, hch, hrest, hmem⟩ : ∃ u, RingsReach (j + 3) (Careful (j + 3)) u ∧
      u.next = j + 4 ∧ u.count 0 = j + 4 ∧ u.mem (0, j + 2) = some ⟨j + 2, none, 1⟩ ∧
      u.mem (0, 0) = some ⟨j + 3, some (0, j + 2), 0⟩ ∧ u.sub (j + 2) = some ⟨(0, j + 2), none, .running⟩ ∧
      u.sub (j + 3) = some ⟨(0, 0), some (j + 2), .done⟩ ∧ (∀ k, k ≠ j + 2 → k ≠ j + 3 → u.sub k = s.sub k) ∧
      (∀ i, i ≠ j + 2 → i ≠ 0 → u.mem (0, i) = s.mem (0, i)) := by
    refine ⟨_, r7, ?_, ?_, ?_, ?_, ?_, ?_, ?_, ?_⟩
    · simp [h.next]
    · simp [h.count]
    · simp
    · simp
    · simp [h.next]
    · simp
    · intro k h1 h2
      simp [h.next, h1, h2]
    · intro i h1 h2
      simp [h1, h2]
  -- the second child
  have s3 : u.slot (j + 3) 0 = (0, 1) := by
    unfold Rings.slot
    rw [hcount, show j + 4 = 1 + (j + 3) from by omega, Nat.add_mod_right, Nat.mod_eq_of_lt (by omega)]
  have c3 : Careful (j + 3) u 0 (some (0, j + 2)) := by
    refine ⟨⟨j + 2, ?_⟩, ?_, ?_⟩
    · intro k m hk hp
      by_cases e : k = j + 2
      · exact e
      · by_cases e' : k = j + 3
        · subst e'; rw [hch] at hk; cases hk; cases hp
        · rw [hrest k e e'] at hk
          exact absurd hp (h.idle k m hk).1
    · intro q hq
      rw [s3, hmem 1 (by omega) (by omega)] at hq
      exact h.done 1 q hq
    · intro b hb; cases hb
      exact ⟨_, _, htop, hpar, rfl⟩
  have q1 := RingsReach.submit 0 (some (0, j + 2)) hu c3 (Rings.submit_child (by rw [s3]; simp) htop)
  rw [s3] at q1
  -- the parent returns
  have q2 := RingsReach.ret (j + 2) q1 (Rings.ret_eq (m := ⟨(0, j + 2), none, .running⟩) (by simp [hnext, hpar]) rfl)
  have q3 := RingsReach.dec (j + 2) q2 (Rings.dec_eq (m := ⟨(0, j + 2), none, .sub (0, j + 2)⟩) (a := (0, j + 2))
    (q := ⟨j + 2, none, 2⟩) (by simp) rfl (by simp))
  -- task 0 continues
  have q4 := RingsReach.check 0 q3 (Rings.check_up (m := ⟨(0, 0), none, .check (0, 0)⟩) (a := (0, 0)) (b := (0, j + 2))
    (q := ⟨j + 3, some (0, j + 2), 0⟩) (by simp [hnext, hrest 0, h.sub0]) rfl (by simp [hzero]) rfl rfl)
  have q5 := RingsReach.dec 0 q4 (Rings.dec_eq (m := ⟨(0, 0), none, .sub (0, j + 2)⟩) (a := (0, j + 2))
    (q := ⟨j + 2, none, 1⟩) (by simp) rfl (by simp))
  refine ⟨_, q5, ?_, ?_, ?_, ?_, ?_, ?_, ?_, ?_, ?_⟩
  · simp [hnext]
  · simp
  · simp [hnext]
  · simp
  · simp
  · simp [hnext, hch]
  · simp [hnext]
  · intro k m hk h0 hlt
    have e1 : k ≠ j + 2 := by omega
    have e2 : k ≠ j + 3 := by omega
    have e3 : k ≠ j + 4 := by omega
    simp [hnext, e1, e3, h0, hrest k e1 e2] at hk
    exact (h.old k m hk h0).2
  · intro k m hk
    apply Classical.byContradiction
    intro hge
    have e0 : k ≠ 0 := by omega
    have e1 : k ≠ j + 2 := by omega
    have e2 : k ≠ j + 3 := by omega
    have e3 : k ≠ j + 4 := by omega
    simp [hnext, e0, e1, e3, hrest k e1 e2] at hk
    have := (h.old k m hk e0).1
    omega

theorem family {n : Nat} {s : Rings} (hn : 3 ≤ n) (hnext : s.next = n + 2)
    (h : ∀ k p, s.parentOf k = some p → p = n - 1 ∧ (k = n ∨ k = n + 1)) : FlatRings s ∧ ∀ p, ringChildren s p ≤ 2 := by
  constructor
  · intro k p hk
    have h1 := (h k p hk).1
    cases hp : s.parentOf p with
    | none => rfl
    | some r => have := (h p r hp).2; omega
  · intro p
    unfold ringChildren
    rw [hnext, List.range_succ, List.range_succ, List.countP_append, List.countP_append]
    have h0 : (List.range n).countP (fun k => s.parentOf k == some p) = 0 := by
      rw [List.countP_eq_zero]
      intro k hk hp
      have := (h k p (by simpa using hp)).2
      have := List.mem_range.1 hk
      omega
    rw [h0]
    have h1 := List.countP_le_length (p := fun k => s.parentOf k == some p) (l := [n])
    have h2 := List.countP_le_length (p := fun k => s.parentOf k == some p) (l := [n + 1])
    simp only [List.length_singleton] at h1 h2
    omega

theorem Confused.parents {n : Nat} {s : Rings} (h : Confused n s) (hn : 3 ≤ n) (k p : Nat) (hk : s.parentOf k = some p) :
    p = n - 1 ∧ (k = n ∨ k = n + 1) := by
  unfold Rings.parentOf at hk
  simp only [Option.bind_eq_some_iff] at hk
  obtain ⟨m, h1, h2⟩ := hk
  have hd := h.dom k m h1
  by_cases e0 : k = 0
  · subst e0; rw [h.zero] at h1; cases h1; cases h2
  · by_cases e1 : k = n - 1
    · subst e1; rw [h.top] at h1; cases h1; cases h2
    · by_cases e2 : k = n
      · subst e2; rw [h.first] at h1; cases h1; cases h2; exact ⟨rfl, Or.inl rfl⟩
      · by_cases e3 : k = n + 1
        · subst e3; rw [h.second] at h1; cases h1; cases h2; exact ⟨rfl, Or.inr rfl⟩
        · have := (h.old k m h1 e0 (by omega)).2
          rw [this] at h2; cases h2

/-- The conclusion of C102 for the task in element `a`: if its counter is zero, so that `wait` returns, its function and those of
its children have returned. -/
def WaitSound (s : Rings) (a : TaskPtr) (q : SlotTask) : Prop :=
  s.mem a = some q → q.counter = 0 → ∀ k m, s.sub k = some m → (k = q.uid ∨ m.parent = some q.uid) → m.pc ≠ .running

/-- **C102, violated**: for every size `n ≥ 3` of the ring a careful program, with one level of children and at most two children per
task, reaches a state in which `wait` for a parent returns although one of its children has not been called.  The thread that
executed task 0 read its element after it had been reused. -/
theorem C102_violated (n : Nat) (hn : 3 ≤ n) : ∃ (s : Rings) (a : TaskPtr) (q : SlotTask), RingsReach n (Careful n) s ∧ FlatRings s ∧
    (∀ p, ringChildren s p ≤ 2) ∧ s.mem a = some q ∧ q.counter = 0 ∧ ¬ WaitSound s a q := by
  obtain ⟨s, h⟩ := confused n hn
  have hf := family hn h.next (h.parents hn)
  exact ⟨s, _, _, h.reach, hf.1, hf.2, h.parent, rfl, fun hw => hw h.parent rfl _ _ h.second (Or.inr rfl) rfl⟩

/-- **C102, violated: `wait` that never returns.**  From such a state the program can go on until no thread executes a task any more;
the counter of the parent is then 65535. -/
theorem C102_wait_forever_violated (n : Nat) (hn : 3 ≤ n) : ∃ (s : Rings) (a : TaskPtr) (q : SlotTask), RingsReach n (Careful n) s ∧
    FlatRings s ∧ (∀ p, ringChildren s p ≤ 2) ∧ (∀ k m, s.sub k = some m → m.pc = .done) ∧ s.mem a = some q ∧ q.counter ≠ 0 := by
  obtain ⟨s, h⟩ := confused n hn
  have n1 : n - 1 ≠ 1 := by omega
  have n2 : n - 1 ≠ 0 := by omega
  have n3 : n + 1 ≠ n - 1 := by omega
  have n4 : n ≠ 0 := by omega
  have r1 := RingsReach.check 0 h.reach (Rings.check_done h.zero rfl h.parent (Or.inr rfl))
  have r2 := RingsReach.check (n - 1) r1 (Rings.check_done (m := ⟨(0, n - 1), none, .check (0, n - 1)⟩) (by simp [n2, h.top]) rfl
    h.parent (Or.inr rfl))
  have r3 := RingsReach.ret (n + 1) r2 (Rings.ret_eq (m := ⟨(0, 1), some (n - 1), .running⟩) (by simp [n3, h.second]) rfl)
  have r4 := RingsReach.dec (n + 1) r3 (Rings.dec_eq (m := ⟨(0, 1), some (n - 1), .sub (0, 1)⟩) (by simp) rfl h.child)
  have r5 := RingsReach.check (n + 1) r4 (Rings.check_up (m := ⟨(0, 1), some (n - 1), .check (0, 1)⟩) (a := (0, 1)) (b := (0, n - 1))
    (q := ⟨n + 1, some (0, n - 1), 0⟩) (by simp) rfl (by simp) rfl rfl)
  have r6 := RingsReach.dec (n + 1) r5 (Rings.dec_eq (m := ⟨(0, 1), some (n - 1), .sub (0, n - 1)⟩) (a := (0, n - 1))
    (q := ⟨n - 1, none, 0⟩) (by simp) rfl (by simp [n1, h.parent]))
  have r7 := RingsReach.check (n + 1) r6 (Rings.check_done (m := ⟨(0, 1), some (n - 1), .check (0, n - 1)⟩) (a := (0, n - 1))
    (q := ⟨n - 1, none, 65535⟩) (by simp) rfl (by simp) (Or.inr rfl))
  have hsub : ∀ k m, s.sub k = some m → k ≠ 0 → k ≠ n - 1 → k ≠ n + 1 → m.pc = .done := by
    intro k m hk h0 h1 h3
    have := h.dom k m hk
    by_cases e : k = n
    · subst e; rw [h.first] at hk; cases hk; rfl
    · exact (h.old k m hk h0 (by omega)).1
  generalize hu : Rings.setSub _ _ _ = u at r7
  have hus : ∀ k, u.sub k = if k = n + 1 then some ⟨(0, 1), some (n - 1), .done⟩ else if k = n - 1 then some ⟨(0, n - 1), none, .done⟩
      else if k = 0 then some ⟨(0, 0), none, .done⟩ else s.sub k := by
    intro k
    rw [← hu]
    by_cases e : k = n + 1
    · simp [e]
    · simp [e]
  have hup : u.parentOf = s.parentOf := by
    funext k
    unfold Rings.parentOf
    rw [hus]
    split
    · rename_i e; subst e; rw [h.second]; rfl
    · split
      · rename_i e; subst e; rw [h.top]; rfl
      · split
        · rename_i e; subst e; rw [h.zero]; rfl
        · rfl
  have hf := family (s := u) hn (by rw [← hu]; simp [h.next]) (by rw [hup]; exact h.parents hn)
  refine ⟨u, (0, n - 1), ⟨n - 1, none, 65535⟩, r7, hf.1, hf.2, ?_, by rw [← hu]; simp, by simp⟩
  intro k m hk
  rw [hus] at hk
  split at hk
  · cases hk; rfl
  · split at hk
    · cases hk; rfl
    · split at hk
      · cases hk; rfl
      · exact hsub k m hk ‹_› ‹_› ‹_›

/-- The code's ring has 4096 elements. -/
example : ∃ (s : Rings) (a : TaskPtr) (q : SlotTask), RingsReach maxTasks (Careful maxTasks) s ∧ s.mem a = some q ∧ ¬ WaitSound s a q := by
  obtain ⟨s, a, q, h1, _, _, h2, _, h3⟩ := C102_violated maxTasks (by decide)
  exact ⟨s, a, q, h1, h2, h3⟩

/-! ## When the reuse is harmless -/

/-- **C102, refinement**: if storage is only reused when `execute` of the task in it and of all its descendants has returned
(`Settled`), every execution is one of the model in which each task has storage of its own (`Verif.Model.Task`): the same
tasks with the same parents, equally far, and equal counters for all tasks still stored. -/
theorem C102_refines_partial (n : Nat) (s : Rings) (h : RingsReach n (Rings.Settled n) s) : ∃ ts : Tasks, TaskReach ts ∧
    ts.length = s.next ∧
    (∀ k m, s.sub k = some m → ∃ r, ts[k]? = some r ∧ r.parent = m.parent ∧ (m.pc = .running ↔ r.pc = .running) ∧
      (m.pc = .done ↔ r.pc = .done)) ∧
    (∀ a q, s.mem a = some q → ∃ r, ts[q.uid]? = some r ∧ r.counter = q.counter) := by
  obtain ⟨ts, h1, h2⟩ := h.sim
  refine ⟨ts, h1, h2.len, ?_, ?_⟩
  · intro k m hk
    obtain ⟨r, h3, h4, h5⟩ := h2.task k m hk
    refine ⟨r, h3, h4, ?_⟩
    revert h5
    cases m.pc <;> cases r.pc <;> simp [PcSame]
  · intro a q hq
    obtain ⟨m, r, _, _, h3, h4, _⟩ := h2.mem a q hq
    exact ⟨r, h3, h4⟩

theorem children_count {s : Rings} {ts : Tasks} (h : RingSim s ts) (hd : ∀ k, k < s.next → ∃ m, s.sub k = some m) (p : Nat) :
    childCount ts p = ringChildren s p := by
  have : ts.map TaskRec.parent = (List.range s.next).map s.parentOf := by
    apply List.ext_getElem?
    intro i
    rw [List.getElem?_map, List.getElem?_map]
    by_cases hi : i < s.next
    · obtain ⟨m, hm⟩ := hd i hi
      obtain ⟨r, h1, h2, _⟩ := h.task i m hm
      rw [h1, List.getElem?_range hi]
      simp only [Option.map_some, Rings.parentOf, hm, Option.bind_some, h2]
    · rw [List.getElem?_eq_none (by rw [h.len]; omega), List.getElem?_eq_none (by rw [List.length_range]; omega)]
      rfl
  unfold childCount ringChildren
  have e := congrArg (List.countP (fun x => x == some p)) this
  rw [List.countP_map, List.countP_map] at e
  exact e

theorem reach_dom {n : Nat} {ok : Rings → Nat → Option TaskPtr → Prop} {s : Rings} (h : RingsReach n ok s) :
    ∀ k, k < s.next → ∃ m, s.sub k = some m := by
  induction h with
  | init => intro k hk; cases hk
  | @submit s u t p _ _ he ih =>
    unfold Rings.submit at he
    have aux : ∀ (a : TaskPtr) (x : Option Nat) (y : Option TaskPtr) (k : Nat), k < s.next + 1 → ∃ m, (s.construct t a x y).sub k = some m := by
      intro a x y k hk
      by_cases e : k = s.next
      · exact ⟨_, by simp [e]; rfl⟩
      · obtain ⟨m, hm⟩ := ih k (by omega)
        exact ⟨m, by simp [e, hm]⟩
    cases p with
    | none => cases he; exact aux _ _ _
    | some b =>
      simp only at he
      split at he
      · cases he
      · split at he
        · cases he
        · rename_i q _
          cases he
          exact aux (s.slot n t) (some q.uid) (some b)
  | @ret s u k _ he ih =>
    unfold Rings.ret at he
    split at he
    · split at he
      · cases he
        intro i hi
        by_cases e : i = k
        · exact ⟨_, by simp [e]; rfl⟩
        · obtain ⟨m, hm⟩ := ih i hi; exact ⟨m, by simp [e, hm]⟩
      · cases he
    · cases he
  | @dec s u k _ he ih =>
    unfold Rings.dec at he
    split at he
    · split at he
      · split at he
        · cases he
          intro i hi
          by_cases e : i = k
          · exact ⟨_, by simp [e]; rfl⟩
          · obtain ⟨m, hm⟩ := ih i hi; exact ⟨m, by simp [e, hm]⟩
        · cases he
      · cases he
    · cases he
  | @check s u k _ he ih =>
    have aux : ∀ (x : Submitted) (i : Nat), i < s.next → ∃ m, (s.setSub k x).sub i = some m := by
      intro x i hi
      by_cases e : i = k
      · exact ⟨_, by simp [e]; rfl⟩
      · obtain ⟨m, hm⟩ := ih i hi; exact ⟨m, by simp [e, hm]⟩
    unfold Rings.check at he
    split at he
    · split at he
      · split at he
        · split at he <;> (cases he; exact aux _)
        · cases he
      · cases he
    · cases he

/-- **C102, partial**: under `Settled`, with one level of children and fewer than 65535 children per task, `wait` for the task in any
element returns only after its function and those of its children have returned. -/
theorem C102_wait_partial (n : Nat) (s : Rings) (h : RingsReach n (Rings.Settled n) s) (hf : FlatRings s)
    (hw : ∀ p, ringChildren s p < 65535) (a : TaskPtr) (q : SlotTask) : WaitSound s a q := by
  intro hq hc k m hk hor hrun
  obtain ⟨ts, h1, h2⟩ := h.sim
  have hd := reach_dom h
  have hback : ∀ i r, ts[i]? = some r → ∃ m, s.sub i = some m ∧ r.parent = m.parent := by
    intro i r hi
    obtain ⟨m, hm⟩ := hd i (by rw [← h2.len]; exact (List.getElem?_eq_some_iff.1 hi).1)
    obtain ⟨r', h3, h4, _⟩ := h2.task i m hm
    rw [hi] at h3; cases h3
    exact ⟨m, hm, h4⟩
  have hflat : Flat ts := by
    intro i r p hi hp
    obtain ⟨m, h3, h4⟩ := hback i r hi
    have h5 : s.parentOf i = some p := by unfold Rings.parentOf; rw [h3]; simp only [Option.bind_some]; rw [← h4]; exact hp
    have h6 := hf i p h5
    have h7 := h2.par i p h5
    have h8 := h2.dom i m h3
    obtain ⟨m', hm'⟩ := hd p (by omega)
    obtain ⟨r', h9, h10, _⟩ := h2.task p m' hm'
    refine ⟨r', h9, ?_⟩
    unfold Rings.parentOf at h6
    rw [hm'] at h6
    rw [h10]; exact h6
  have hfew : Few ts := by
    intro p
    rw [children_count h2 hd]
    exact hw p
  obtain ⟨m0, r0, h3, _, h5, h6, _⟩ := h2.mem a q hq
  have hmain := C42_flat_partial ts h1 hflat hfew q.uid r0 h5 (by unfold TaskRec.completed; rw [h6, hc]; rfl)
  obtain ⟨r, h7, h8, h9⟩ := h2.task k m hk
  have hr : r.pc = .running := by
    rw [hrun] at h9
    revert h9
    cases r.pc <;> simp [PcSame]
  rcases hor with e | e
  · subst e
    rw [h5] at h7; cases h7
    exact hmain.1 hr
  · exact hmain.2 k r h7 (by rw [h8]; exact e) hr

/-- Storage that has not been used yet may always be used, for a task without parent: programs in which no thread submits more than
`n` tasks are settled. -/
theorem C102_fresh (n : Nat) (s : Rings) (t : Nat) (h : s.mem (s.slot n t) = none) : s.Settled n t none :=
  ⟨fun q hq => by rw [h] at hq; (nomatch hq), fun b hb => (nomatch hb)⟩

/-- Submitting leaves the rings of other threads alone, except for the counter of the parent; of its own ring it changes one
element. -/
theorem C102_own_ring (n : Nat) (s u : Rings) (t : Nat) (p : Option TaskPtr) (h : s.submit n t p = some u) (c : TaskPtr)
    (hc : c.1 ≠ t ∨ c.2 ≠ s.count t % n) (hp : p ≠ some c) : u.mem c = s.mem c := by
  have hne : c ≠ s.slot n t := by
    intro e
    rw [e] at hc
    simp [Rings.slot] at hc
  unfold Rings.submit at h
  cases p with
  | none => cases h; simp [hne]
  | some b =>
    have hb : c ≠ b := fun e => hp (by rw [e])
    simp only at h
    split at h
    · cases h
    · split at h
      · cases h
      · cases h; simp [hne, hb]

/-- The next `n - 1` submissions of a thread use other elements than this one. -/
theorem C102_ring_distance (n : Nat) (s s' : Rings) (t : Nat) (h1 : s.count t < s'.count t) (h2 : s'.count t < s.count t + n) :
    s.slot n t ≠ s'.slot n t := by
  intro e
  simp only [Rings.slot, Prod.mk.injEq, true_and] at e
  have h3 := Nat.div_add_mod (s.count t) n
  have h4 := Nat.div_add_mod (s'.count t) n
  have h5 : (s'.count t - s.count t) % n = 0 := Nat.sub_mod_eq_zero_of_mod_eq e.symm
  rw [Nat.mod_eq_of_lt (by omega)] at h5
  omega

example : ∃ u, Rings.init.submit 4 1 none = some u ∧ u.mem (0, 0) = none ∧ u.mem (1, 0) ≠ none ∧ u.count 1 = 1 := by
  exact ⟨_, rfl, rfl, by simp [Rings.slot, Rings.init], rfl⟩

/-- A ring of two elements: a parent and its child are executed, then their storage is reused for another parent and child. -/
example : ∃ s, RingsReach 2 (Rings.Settled 2) s ∧ FlatRings s ∧ (∀ p, ringChildren s p < 65535) ∧ s.next = 4 ∧
    s.mem (0, 0) = some ⟨2, none, 2⟩ ∧ s.mem (0, 1) = some ⟨3, some (0, 0), 1⟩ := by
  have r1 := RingsReach.submit (n := 2) (ok := Rings.Settled 2) 0 none .init (C102_fresh 2 _ 0 rfl) rfl
  have r2 := RingsReach.submit 0 (some (0, 0)) r1 ⟨(by intro q hq; cases hq),
    (by intro b hb; cases hb; exact ⟨_, _, rfl, rfl, by simp⟩)⟩ (Rings.submit_child (q := ⟨0, none, 1⟩) (by decide) rfl)
  have r3 := RingsReach.ret 0 r2 (Rings.ret_eq (m := ⟨(0, 0), none, .running⟩) (by rfl) rfl)
  have r4 := RingsReach.dec 0 r3 (Rings.dec_eq (m := ⟨(0, 0), none, .sub (0, 0)⟩) (a := (0, 0)) (q := ⟨0, none, 2⟩) rfl rfl (by simp))
  have r5 := RingsReach.check 0 r4 (Rings.check_done (m := ⟨(0, 0), none, .check (0, 0)⟩) (a := (0, 0)) (q := ⟨0, none, 1⟩)
    rfl rfl (by simp) (Or.inr rfl))
  have r6 := RingsReach.ret 1 r5 (Rings.ret_eq (m := ⟨(0, 1), some 0, .running⟩) (by rfl) rfl)
  have r7 := RingsReach.dec 1 r6 (Rings.dec_eq (m := ⟨(0, 1), some 0, .sub (0, 1)⟩) (a := (0, 1)) (q := ⟨1, some (0, 0), 1⟩) rfl rfl rfl)
  have r8 := RingsReach.check 1 r7 (Rings.check_up (m := ⟨(0, 1), some 0, .check (0, 1)⟩) (a := (0, 1)) (b := (0, 0))
    (q := ⟨1, some (0, 0), 0⟩) rfl rfl (by simp) rfl rfl)
  have r9 := RingsReach.dec 1 r8 (Rings.dec_eq (m := ⟨(0, 1), some 0, .sub (0, 0)⟩) (a := (0, 0)) (q := ⟨0, none, 1⟩) rfl rfl (by simp))
  have r10 := RingsReach.check 1 r9 (Rings.check_done (m := ⟨(0, 1), some 0, .check (0, 0)⟩) (a := (0, 0)) (q := ⟨0, none, 0⟩)
    rfl rfl (by simp) (Or.inr rfl))
  obtain ⟨u, hu, h1, h2, h3, h4, h5, h6, h7⟩ : ∃ u, RingsReach 2 (Rings.Settled 2) u ∧ u.next = 2 ∧ u.count 0 = 2 ∧
      u.sub 0 = some ⟨(0, 0), none, .done⟩ ∧ u.sub 1 = some ⟨(0, 1), some 0, .done⟩ ∧ (∀ k, 2 ≤ k → u.sub k = none) ∧
      u.mem (0, 0) = some ⟨0, none, 0⟩ ∧ u.mem (0, 1) = some ⟨1, some (0, 0), 0⟩ := by
    refine ⟨_, r10, rfl, rfl, rfl, rfl, ?_, by simp, by simp⟩
    intro k hk
    have e0 : k ≠ 0 := by omega
    have e1 : k ≠ 1 := by omega
    simp [Rings.init, e0, e1]
  have hs1 : u.slot 2 0 = (0, 0) := by unfold Rings.slot; rw [h2]
  have hall : ∀ k m, u.sub k = some m → m.pc = .done := by
    intro k m hk
    match k with
    | 0 => rw [h3] at hk; cases hk; rfl
    | 1 => rw [h4] at hk; cases hk; rfl
    | k + 2 => rw [h5 _ (by omega)] at hk; cases hk
  have q1 := RingsReach.submit 0 none hu ⟨fun q hq k m hk _ => hall k m hk, fun b hb => (nomatch hb)⟩ rfl
  rw [hs1] at q1
  have hs2 : (u.construct 0 (0, 0) none none).slot 2 0 = (0, 1) := by unfold Rings.slot; simp [h2]
  have hm2 : (u.construct 0 (0, 0) none none).mem (0, 0) = some ⟨2, none, 1⟩ := by simp [h1]
  have q2 := RingsReach.submit 0 (some (0, 0)) q1 ⟨?_, ?_⟩ (Rings.submit_child (by rw [hs2]; simp) hm2)
  · rw [hs2] at q2
    have hp : ∀ k p, Rings.parentOf (((u.construct 0 (0, 0) none none).construct 0 (0, 1) (some 2) (some (0, 0))).setMem (0, 0)
        ⟨2, none, oneMore 1⟩) k = some p → (k = 1 ∧ p = 0) ∨ (k = 3 ∧ p = 2) := by
      intro k p hk
      unfold Rings.parentOf at hk
      match k with
      | 0 => simp [h1, h3] at hk
      | 1 => simp [h1, h4] at hk; exact Or.inl ⟨rfl, hk.symm⟩
      | 2 => simp [h1] at hk
      | 3 => simp [h1] at hk; exact Or.inr ⟨rfl, hk.symm⟩
      | k + 4 => simp [h1, h5] at hk
    refine ⟨_, q2, ?_, ?_, by simp [h1], by simp, by simp [h1]⟩
    · intro k p hk
      cases hc : Rings.parentOf _ p with
      | none => rfl
      | some r =>
        have := hp k p hk
        have := hp p r hc
        omega
    · intro p
      unfold ringChildren
      refine Nat.lt_of_le_of_lt List.countP_le_length ?_
      simp [h1]
  · intro q hq k m hk ha
    rw [hs2] at hq
    simp [h7] at hq
    subst hq
    by_cases e : k = 2
    · subst e
      cases ha with
      | up h _ => simp [Rings.parentOf, h1] at h
    · simp [h1, e] at hk
      exact hall k m hk
  · intro b hb; cases hb
    exact ⟨_, _, hm2, by simp [h1]; rfl, by simp⟩

end CoEcs.Props
