import Verif.Proofs.Task

/-!
# C42, C43: completion of tasks and reuse of their storage

`Flat` and `Few` (`Verif.Proofs.Task`) are conditions on the tree of tasks alone: no task that has a parent is itself a
parent, and no task has 65535 or more children.
-/

namespace CoEcs.Props

open CoEcs

/-- A choice of the next step. -/
inductive Act where
  | root
  | child (p : Nat)
  | ret (i : Nat)
  | sub (i : Nat)
  | check (i : Nat)

/-- Perform the chosen step, if it is possible. -/
def act (s : Tasks) : Act → Option Tasks
  | .root => some (s ++ [⟨none, 1, .running⟩])
  | .child p => s[p]?.map fun r => s.set p r.inc ++ [⟨some p, 1, .running⟩]
  | .ret i => s[i]?.bind fun r => if r.pc = .running then some (s.set i (r.goto (.sub i))) else none
  | .sub i => s[i]?.bind fun r =>
    match r.pc with
    | .sub j => ((s.set i (r.goto (.check j)))[j]?).map fun q => (s.set i (r.goto (.check j))).set j q.dec
    | _ => none
  | .check i => s[i]?.bind fun r =>
    match r.pc with
    | .check j => s[j]?.map fun q => s.set i (r.goto q.next)
    | _ => none

def acts (s : Tasks) : List Act → Option Tasks
  | [] => some s
  | a :: l => (act s a).bind fun t => acts t l

theorem act_step {s t : Tasks} (a : Act) (h : act s a = some t) : TaskStep s t := by
  cases a with
  | root =>
    simp only [act, Option.some.injEq] at h
    subst h; exact .submitRoot s
  | child p =>
    simp only [act, Option.map_eq_some_iff] at h
    obtain ⟨r, h1, rfl⟩ := h
    exact .submitChild s p r h1
  | ret i =>
    simp only [act, Option.bind_eq_some_iff] at h
    obtain ⟨r, h1, h2⟩ := h
    split at h2
    · cases h2; exact .ret s i r h1 ‹_›
    · cases h2
  | sub i =>
    simp only [act, Option.bind_eq_some_iff] at h
    obtain ⟨r, h1, h2⟩ := h
    split at h2
    · simp only [Option.map_eq_some_iff] at h2
      obtain ⟨q, h3, rfl⟩ := h2
      exact .sub s i _ r q h1 ‹_› h3
    · cases h2
  | check i =>
    simp only [act, Option.bind_eq_some_iff] at h
    obtain ⟨r, h1, h2⟩ := h
    split at h2
    · simp only [Option.map_eq_some_iff] at h2
      obtain ⟨q, h3, rfl⟩ := h2
      exact .check s i _ r q h1 ‹_› h3
    · cases h2

theorem acts_reach {s t : Tasks} (l : List Act) (hs : TaskReach s) (h : acts s l = some t) : TaskReach t := by
  induction l generalizing s with
  | nil => simp only [acts, Option.some.injEq] at h; subst h; exact hs
  | cons a l ih =>
    simp only [acts, Option.bind_eq_some_iff] at h
    obtain ⟨u, h1, h2⟩ := h
    exact ih (hs.step (act_step a h1)) h2

/-- Task 1 is a child of task 0 and task 2 a child of task 1; 1 and 2 both see the counter of 1 at zero and both
decrement the counter of 0. -/
def doublePropagation : List Act :=
  [.root, .child 0, .child 1, .ret 1, .sub 1, .ret 2, .sub 2, .check 2, .sub 2, .check 1, .check 2, .sub 1, .sub 2]

/-- **C42, violated for trees of depth three**: `wait` on the root can return although the root's own function is still
running. -/
theorem C42_violated : ∃ (s : Tasks) (r : TaskRec), TaskReach s ∧ s.length = 3 ∧ Few s ∧ s[0]? = some r ∧
    r.completed = true ∧ r.pc = .running := by
  have h : (acts [] doublePropagation).isSome = true := by decide +kernel
  obtain ⟨s, hs⟩ := Option.isSome_iff_exists.1 h
  have h1 : ((acts [] doublePropagation).map fun s => s.length) = some 3 := by decide +kernel
  have h2 : (((acts [] doublePropagation).bind fun s => s[0]?).map fun r => (r.counter, r.pc)) = some (0, .running) := by
    decide +kernel
  rw [hs] at h1 h2
  simp only [Option.map_some, Option.some.injEq, Option.bind_some, Option.map_eq_some_iff, Prod.mk.injEq] at h1 h2
  obtain ⟨r, h3, h4, h5⟩ := h2
  refine ⟨s, r, acts_reach _ .init hs, h1, ?_, h3, ?_, h5⟩
  · intro p
    have : childCount s p ≤ s.length := List.countP_le_length
    omega
  · simp [TaskRec.completed, h4]

theorem children_reach : ∀ k : Nat, ∃ (r : TaskRec), r.parent = none ∧ r.pc = .running ∧ r.counter = (1 + k) % 65536 ∧
    TaskReach (r :: List.replicate k ⟨some 0, 1, .running⟩) := by
  intro k
  induction k with
  | zero => exact ⟨⟨none, 1, .running⟩, rfl, rfl, rfl, .step .init (.submitRoot [])⟩
  | succ k ih =>
    obtain ⟨r, h1, h2, h3, h4⟩ := ih
    refine ⟨r.inc, by rw [r.inc_parent, h1], by rw [r.inc_pc, h2], ?_, ?_⟩
    · have : r.inc.counter = (r.counter + 1) % 65536 := by unfold TaskRec.inc; rfl
      rw [this, h3]; omega
    · have := TaskReach.step h4 (.submitChild _ 0 r rfl)
      rw [List.replicate_succ']
      exact this

/-- **C42, violated for many children**: the counter has 16 bits, so with 65535 children it is zero while the parent and
all children are still running — even with a single level of children. -/
theorem C42_violated_many_children : ∃ (s : Tasks) (r : TaskRec), TaskReach s ∧ Flat s ∧ s[0]? = some r ∧
    r.completed = true ∧ ∀ (i : Nat) (c : TaskRec), s[i]? = some c → c.pc = .running := by
  obtain ⟨r, h1, h2, h3, h4⟩ := children_reach 65535
  generalize hk : (65535 : Nat) = k at h3 h4
  refine ⟨_, r, h4, ?_, rfl, ?_, ?_⟩
  · intro i c p hi hp
    refine ⟨r, ?_, h1⟩
    cases i with
    | zero => cases hi; rw [h1] at hp; cases hp
    | succ i =>
      simp only [List.getElem?_cons_succ, List.getElem?_replicate] at hi
      split at hi
      · cases hi; cases hp; rfl
      · cases hi
  · subst hk
    simp [TaskRec.completed, h3]
  · intro i c hi
    cases i with
    | zero => cases hi; exact h2
    | succ i =>
      simp only [List.getElem?_cons_succ, List.getElem?_replicate] at hi
      split at hi
      · cases hi; rfl
      · cases hi

/-- **C42, partial**: for trees with one level of children and fewer than 65535 children per task, under every
interleaving: whenever the counter of a task is zero, its own function and the functions of all its children have
returned.  Missing: deeper trees and 65535 or more children, for which the property is false (above). -/
theorem C42_flat_partial (s : Tasks) (hs : TaskReach s) (hf : Flat s) (hw : Few s) (p : Nat) (r : TaskRec)
    (hp : s[p]? = some r) (hc : r.completed = true) :
    r.pc ≠ .running ∧ ∀ (i : Nat) (c : TaskRec), s[i]? = some c → c.parent = some p → c.pc ≠ .running := by
  have inv := hs.inv hf hw
  have hc0 : r.counter = 0 := by simpa [TaskRec.completed] using hc
  cases hr : r.parent with
  | none =>
    have h0 := inv.root p r hp hr
    rw [hc0] at h0
    have hz := List.countP_eq_zero.1 h0.symm
    constructor
    · intro hpc
      exact hz (r, p) (List.mem_zipIdx_iff_getElem?.2 hp) (by simp [contrib, hpc])
    · intro i c hi hcp hpc
      refine hz (c, i) (List.mem_zipIdx_iff_getElem?.2 hi) ?_
      simp [contrib, hpc, hcp]
  | some q =>
    constructor
    · intro hpc
      have := inv.leaf p r q hp hr
      rw [if_pos (Or.inl hpc)] at this
      omega
    · intro i c hi hcp
      obtain ⟨x, h1, h2⟩ := hf i c p hi hcp
      rw [hp] at h1; cases h1
      rw [hr] at h2; cases h2

/-- The converse, so that `wait` does return: when all threads have left `execute`, all counters are zero. -/
theorem C42_completes_partial (s : Tasks) (hs : TaskReach s) (hf : Flat s) (hw : Few s)
    (hd : ∀ (i : Nat) (r : TaskRec), s[i]? = some r → r.pc = .done) (p : Nat) (r : TaskRec) (hp : s[p]? = some r) :
    r.completed = true := by
  have inv := hs.inv hf hw
  suffices h : r.counter = 0 by simp [TaskRec.completed, h]
  cases hr : r.parent with
  | none =>
    rw [inv.root p r hp hr]
    unfold load
    rw [List.countP_eq_zero]
    rintro ⟨x, k⟩ hx
    have hpc := hd k x (List.mem_zipIdx_iff_getElem?.1 hx)
    simp [contrib, hpc]
  | some q =>
    rw [inv.leaf p r q hp hr, hd p r hp]
    simp

/-- A parent with two children: a full execution, at the end of which all are complete. -/
def familyRun : List Act :=
  [.root, .child 0, .child 0, .ret 2, .ret 0, .sub 0, .check 0, .sub 2, .ret 1, .check 2, .sub 1, .check 1, .sub 1,
    .sub 2, .check 2, .check 1]

example : ∃ s : Tasks, TaskReach s ∧ Flat s ∧ Few s ∧ s.length = 3 ∧
    (∀ (i : Nat) (r : TaskRec), s[i]? = some r → r.pc = .done ∧ r.completed = true) := by
  have h : (acts [] familyRun).isSome = true := by decide +kernel
  obtain ⟨s, hs⟩ := Option.isSome_iff_exists.1 h
  have h1 : ((acts [] familyRun).map fun s => s.map fun r => (r.parent, r.counter, r.pc)) =
      some [(none, 0, .done), (some 0, 0, .done), (some 0, 0, .done)] := by decide +kernel
  rw [hs] at h1
  simp only [Option.map_some, Option.some.injEq] at h1
  have hl : s.length = 3 := by have := congrArg List.length h1; simpa using this
  have hall : ∀ (i : Nat) (r : TaskRec), s[i]? = some r →
      [(none, 0, TaskPc.done), (some 0, 0, .done), (some 0, 0, .done)][i]? = some (r.parent, r.counter, r.pc) := by
    intro i r hi
    rw [← h1, List.getElem?_map, hi]; rfl
  have h0 : ∃ q : TaskRec, s[0]? = some q ∧ q.parent = none := by
    refine ⟨s[0], List.getElem?_eq_getElem (by omega), ?_⟩
    have := hall 0 s[0] (List.getElem?_eq_getElem (by omega))
    simp only [List.getElem?_cons_zero, Option.some.injEq, Prod.mk.injEq] at this
    exact this.1.symm
  refine ⟨s, acts_reach _ .init hs, ?_, ?_, hl, ?_⟩
  · intro i r p hi hp
    have h2 := hall i r hi
    have : p = 0 := by
      rcases i with _ | _ | _ | i <;>
        simp only [List.getElem?_cons_zero, List.getElem?_cons_succ, Option.some.injEq, Prod.mk.injEq, hp,
          List.getElem?_nil] at h2
      · cases h2.1
      · cases h2.1; rfl
      · cases h2.1; rfl
      · cases h2
    subst this
    exact h0
  · intro p
    have : childCount s p ≤ s.length := List.countP_le_length
    omega
  · intro i r hi
    have h2 := hall i r hi
    rcases i with _ | _ | _ | i <;>
      simp only [List.getElem?_cons_zero, List.getElem?_cons_succ, Option.some.injEq, Prod.mk.injEq,
        List.getElem?_nil] at h2
    · exact ⟨h2.2.2.symm, by simp [TaskRec.completed, ← h2.2.1]⟩
    · exact ⟨h2.2.2.symm, by simp [TaskRec.completed, ← h2.2.1]⟩
    · exact ⟨h2.2.2.symm, by simp [TaskRec.completed, ← h2.2.1]⟩
    · cases h2

/-! ## C43 -/

/-- `n` allocations by one thread. -/
def allocations : Nat → TaskRing
  | 0 => TaskRing.init
  | n + 1 => (allocations n).allocate.2

theorem allocations_counter (n : Nat) : (allocations n).counter = n := by
  induction n with
  | zero => rfl
  | succ n ih => simp only [allocations, TaskRing.allocate, ih]

/-- Slot `i` holds the latest task whose number is `i` modulo 4096. -/
theorem allocations_slots (n i : Nat) (t : Nat) :
    (allocations n).slots i = some t ↔ t < n ∧ t % 4096 = i ∧ n ≤ t + 4096 := by
  induction n with
  | zero => simp [allocations, TaskRing.init]
  | succ n ih =>
    have hand : n &&& (maxTasks - 1) = n % 4096 := Nat.and_two_pow_sub_one_eq_mod n 12
    simp only [allocations, TaskRing.allocate, allocations_counter, hand]
    by_cases hi : i = n % 4096
    · rw [if_pos hi, Option.some.injEq]
      constructor
      · rintro rfl; exact ⟨by omega, hi.symm, by omega⟩
      · rintro ⟨h1, h2, h3⟩; omega
    · rw [if_neg hi, ih]
      constructor
      · rintro ⟨h1, h2, h3⟩
        refine ⟨by omega, h2, ?_⟩
        have : n ≠ t + 4096 := by intro he; subst he; omega
        omega
      · rintro ⟨h1, h2, h3⟩
        refine ⟨?_, h2, by omega⟩
        have : t ≠ n := by intro he; subst he; omega
        omega

/-- What allocation number `n` destroys: exactly task `n - 4096`, whether or not it has finished — the ring keeps no record
of that. -/
theorem C43_destroys (n t : Nat) : (allocations n).allocate.1 = some t ↔ n = t + 4096 := by
  have hand : n &&& (maxTasks - 1) = n % 4096 := Nat.and_two_pow_sub_one_eq_mod n 12
  simp only [TaskRing.allocate, allocations_counter, hand, allocations_slots]
  constructor
  · rintro ⟨h1, h2, h3⟩; omega
  · rintro rfl; exact ⟨by omega, by omega, by omega⟩

/-- **C43, violated**: with 4096 tasks of one thread outstanding, the next `submit` destroys the first of them. -/
theorem C43_violated : ∃ (finished : Nat → Prop) (n t : Nat), (∀ i, ¬ finished i) ∧
    (allocations n).allocate.1 = some t ∧ ¬ finished t :=
  ⟨fun _ => False, 4096, 0, fun _ h => h, (C43_destroys 4096 0).2 rfl, fun h => h⟩

/-- **C43, partial**: no unfinished task is destroyed as long as at most 4095 consecutive allocations of the thread follow an
unfinished task, that is: if task `n - 4096` is finished when allocation `n` happens.  Missing: without that condition the
property is false. -/
theorem C43_no_pending_destroyed_partial (finished : Nat → Prop) (n t : Nat)
    (hw : ∀ t, t + 4096 ≤ n → finished t) (h : (allocations n).allocate.1 = some t) : finished t :=
  hw t (by have := (C43_destroys n t).1 h; omega)

/-- The slot handed out then holds the new task, and the 4095 tasks allocated before it are still there. -/
theorem C43_window (n t : Nat) (h1 : t ≤ n) (h2 : n < t + 4096) :
    ∃ i, (allocations (n + 1)).slots i = some t :=
  ⟨t % 4096, (allocations_slots (n + 1) (t % 4096) t).2 ⟨by omega, rfl, by omega⟩⟩

/-- Non-vacuous: with the first 10 tasks finished, allocation 4100 destroys task 4. -/
example : (allocations 4100).allocate.1 = some 4 ∧ ∀ t, t + 4096 ≤ 4100 → t < 10 :=
  ⟨(C43_destroys 4100 4).2 rfl, fun t h => by omega⟩

end CoEcs.Props
