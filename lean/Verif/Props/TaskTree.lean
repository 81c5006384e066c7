import Verif.Proofs.TaskCalm
import Verif.Props.Task

/-!
# C42 for trees of tasks of any depth

`Calm` (`Verif.Spec.TaskTree`) is a condition on single steps: a completed task that has a parent is given no further
children, and when such a task becomes completed no second thread is between its decrement and its load.  Both halves are
needed.
-/

namespace CoEcs.Props

open CoEcs CoEcs.Spec

/-- A complete task of a calm history: its function has returned, and its children are complete. -/
theorem calm_complete {s : Tasks} (inv : CalmInv s) {p : Nat} {r : TaskRec} (hp : s[p]? = some r) (hc : r.counter = 0) :
    r.pc ≠ .running ∧ ∀ (i : Nat) (c : TaskRec), s[i]? = some c → c.parent = some p → c.counter = 0 := by
  have h0 := inv.counts p r hp
  rw [hc] at h0
  unfold due at h0
  constructor
  · intro hpc
    have h1 := tsum_pos (g := owes p) hp
    have h2 : 1 ≤ owes p p r := by unfold owes; simp [hpc]
    omega
  · intro i c hi hcp
    have h1 := tsum_pos (g := fun i r => pends p (checkers s i) r) hi
    by_cases hz : c.counter = 0
    · exact hz
    · exfalso
      have h2 : pends p (checkers s i) c = 1 := by unfold pends; rw [if_pos hcp, if_neg hz]
      have h3 : pends p (checkers s i) c ≤ tsum (fun i r => pends p (checkers s i) r) s := h1
      omega

/-- **C42, partial**: trees of any depth, any number of threads, under every interleaving of calm steps: whenever the
counter of a task is zero, its own function and the functions of all its descendants have returned, and all of them are
complete.  Missing: steps that are not calm and 65535 or more children, for which the property is false
(`C42_violated`, `C42_late_child_violated`, `C42_violated_many_children`). -/
theorem C42_calm_partial (s : Tasks) (hs : CalmReach s) (hf : Few s) (p : Nat) (r : TaskRec) (hp : s[p]? = some r)
    (hc : r.completed = true) (i : Nat) (hi : Descends s p i) :
    ∃ c : TaskRec, s[i]? = some c ∧ c.pc ≠ .running ∧ c.completed = true := by
  have inv := hs.inv hf
  suffices h : ∃ c : TaskRec, s[i]? = some c ∧ c.counter = 0 by
    obtain ⟨c, h1, h2⟩ := h
    exact ⟨c, h1, (calm_complete inv h1 h2).1, by simp [TaskRec.completed, h2]⟩
  induction hi with
  | self => exact ⟨r, hp, by simpa [TaskRec.completed] using hc⟩
  | child _ hk hpar ih =>
    obtain ⟨c, h1, h2⟩ := ih
    exact ⟨_, hk, (calm_complete inv h1 h2).2 _ _ hk hpar⟩

/-- The converse, so that `wait` does return: when all threads have left `execute`, all counters are zero. -/
theorem C42_calm_completes_partial (s : Tasks) (hs : CalmReach s) (hf : Few s)
    (hd : ∀ (i : Nat) (r : TaskRec), s[i]? = some r → r.pc = .done) (p : Nat) (r : TaskRec) (hp : s[p]? = some r) :
    r.completed = true := by
  have inv := hs.inv hf
  suffices h : ∀ (n p : Nat) (r : TaskRec), s.length ≤ p + n → s[p]? = some r → r.counter = 0 by
    simp [TaskRec.completed, h s.length p r (by omega) hp]
  intro n
  induction n with
  | zero =>
    intro p r h1 h2
    have := (List.getElem?_eq_some_iff.1 h2).1
    omega
  | succ n ih =>
    intro p r h1 h2
    rw [inv.counts p r h2]
    unfold due
    rw [tsum_zero, tsum_zero]
    · intro i c hi
      unfold pends
      split
      · rename_i hpar
        have hlt := inv.up i c p hi hpar
        rw [if_pos (ih i c (by omega) hi)]
        refine List.countP_eq_zero.2 ?_
        intro x hx
        obtain ⟨k, hk⟩ := List.getElem?_of_mem hx
        rw [hd k x hk]
        simp
      · rfl
    · intro i c hi
      unfold owes
      rw [hd i c hi]
      simp

/-- Histories of one worker in which children are created by tasks that are still running are calm. -/
theorem lone_calm {s : Tasks} (hs : LoneReach s) (hf : Few s) : CalmReach s := by
  induction hs with
  | init => exact .init
  | @step s t h1 h2 h3 h4 ih =>
    have hfs : Few s := fun p => Nat.lt_of_le_of_lt (h2.childCount_le p) (hf p)
    have hcr := ih hfs
    have inv := hcr.inv hfs
    refine .step hcr h2 ?_
    intro j q q' hq hq' hpar
    have hcheck : checkers t j ≤ 1 := by
      refine Nat.le_trans ?_ h3
      refine List.countP_mono_left ?_
      intro x _ hx
      simp only [beq_iff_eq] at hx
      simp [hx]
    refine ⟨?_, fun _ _ => hcheck⟩
    intro h0
    cases h2 with
    | submitRoot =>
      rw [get_append] at hq'
      rcases hq' with hq' | ⟨rfl, _⟩
      · rw [hq] at hq'; cases hq'; exact h0
      · have := (List.getElem?_eq_some_iff.1 hq).1
        omega
    | submitChild p x hx =>
      rw [get_append, get_set hx, List.length_set] at hq'
      rcases hq' with (⟨rfl, _⟩ | ⟨_, hq'⟩) | ⟨rfl, _⟩
      · exfalso
        rw [hq] at hx; cases hx
        obtain ⟨y, h5, h6⟩ := h4 ⟨some j, 1, .running⟩ j
          ((get_append _ _ _).2 (Or.inr ⟨by simp, rfl⟩)) rfl
        rw [hq] at h5; cases h5
        exact (calm_complete inv hq h0).1 h6
      · rw [hq] at hq'; cases hq'; exact h0
      · have := (List.getElem?_eq_some_iff.1 hq).1
        omega
    | ret i r hi hr =>
      rw [get_set hi] at hq'
      rcases hq' with ⟨rfl, rfl⟩ | ⟨_, hq'⟩
      · rw [hq] at hi; cases hi; exact h0
      · rw [hq] at hq'; cases hq'; exact h0
    | check i k r x hi hr hk =>
      rw [get_set hi] at hq'
      rcases hq' with ⟨rfl, rfl⟩ | ⟨_, hq'⟩
      · rw [hq] at hi; cases hi; exact h0
      · rw [hq] at hq'; cases hq'; exact h0
    | sub i k r x hi hr hk =>
      rw [get_set hk] at hq'
      rcases hq' with ⟨rfl, _⟩ | ⟨_, hq'⟩
      · exfalso
        have h5 := inv.counts _ _ hq
        have h6 := tsum_pos (g := owes j) hi
        have h7 : 1 ≤ owes j i r := by unfold owes; rw [hr]; simp
        unfold due at h5
        omega
      · rw [get_set hi] at hq'
        rcases hq' with ⟨rfl, rfl⟩ | ⟨_, hq'⟩
        · rw [hq] at hi; cases hi; exact h0
        · rw [hq] at hq'; cases hq'; exact h0

/-- **C42, partial**: in a pool with one worker, if tasks create children only for tasks that are still running, trees of
any depth are reported complete only when every function in them has returned.  Missing: two workers, for which the property
is false (`C42_violated`). -/
theorem C42_one_worker_partial (s : Tasks) (hs : LoneReach s) (hf : Few s) (p : Nat) (r : TaskRec) (hp : s[p]? = some r)
    (hc : r.completed = true) (i : Nat) (hi : Descends s p i) : ∃ c : TaskRec, s[i]? = some c ∧ c.pc ≠ .running := by
  obtain ⟨c, h1, h2, _⟩ := C42_calm_partial s (lone_calm hs hf) hf p r hp hc i hi
  exact ⟨c, h1, h2⟩

/-! ## Both halves of the condition are needed -/

/-- `Calm` as a program. -/
def calmB (s t : Tasks) : Bool := (List.range s.length).all fun j =>
  match s[j]?, t[j]? with
  | some q, some q' => q.parent == none ||
      ((q.counter != 0 || q'.counter == 0) && (q.counter == 0 || q'.counter != 0 || decide (checkers t j ≤ 1)))
  | _, _ => true

theorem calmB_calm {s t : Tasks} (h : calmB s t = true) : Calm s t := by
  intro j q q' hq hq' hpar
  have hl := (List.getElem?_eq_some_iff.1 hq).1
  have h1 := List.all_eq_true.1 h j (List.mem_range.2 hl)
  simp only [hq, hq'] at h1
  have h2 : (q.parent == none) = false := by cases hp : q.parent with
    | none => exact absurd hp hpar
    | some p => rfl
  simp only [h2, Bool.false_or, Bool.and_eq_true, Bool.or_eq_true, bne_iff_ne, beq_iff_eq, decide_eq_true_eq] at h1
  refine ⟨fun h0 => ?_, fun h0 h3 => ?_⟩
  · rcases h1.1 with h | h
    · exact absurd h0 h
    · exact h
  · rcases h1.2 with (h | h) | h
    · exact absurd h h0
    · exact absurd h3 h
    · exact h

/-- Perform the chosen steps, if they are possible and pass the test. -/
def actsIf (test : Tasks → Tasks → Bool) (s : Tasks) : List Act → Option Tasks
  | [] => some s
  | a :: l => (act s a).bind fun t => if test s t then actsIf test t l else none

theorem actsIf_calm {s t : Tasks} (l : List Act) (hs : CalmReach s) (h : actsIf calmB s l = some t) : CalmReach t := by
  induction l generalizing s with
  | nil => simp only [actsIf, Option.some.injEq] at h; subst h; exact hs
  | cons a l ih =>
    simp only [actsIf, Option.bind_eq_some_iff] at h
    obtain ⟨u, h1, h2⟩ := h
    split at h2
    · exact ih (hs.step (act_step a h1) (calmB_calm ‹_›)) h2
    · cases h2

/-- No two threads are ever between a decrement and the load of the same task. -/
def OneChecker (s : Tasks) : Prop := ∀ j, checkers s j ≤ 1

inductive OneCheckerReach : Tasks → Prop
  | init : OneCheckerReach []
  | step {s t} : OneCheckerReach s → TaskStep s t → OneChecker t → OneCheckerReach t

/-- Completed tasks stay completed. -/
inductive StayingReach : Tasks → Prop
  | init : StayingReach []
  | step {s t} : StayingReach s → TaskStep s t →
      (∀ (j : Nat) (q q' : TaskRec), s[j]? = some q → t[j]? = some q' → q.counter = 0 → q'.counter = 0) → StayingReach t

theorem actsIf_staying {s t : Tasks} (l : List Act) (hs : StayingReach s)
    (h : actsIf (fun s t => (List.range s.length).all fun j =>
      match s[j]?, t[j]? with
      | some q, some q' => q.counter != 0 || q'.counter == 0
      | _, _ => true) s l = some t) : StayingReach t := by
  induction l generalizing s with
  | nil => simp only [actsIf, Option.some.injEq] at h; subst h; exact hs
  | cons a l ih =>
    simp only [actsIf, Option.bind_eq_some_iff] at h
    obtain ⟨u, h1, h2⟩ := h
    split at h2
    · rename_i h3
      refine ih (hs.step (act_step a h1) ?_) h2
      intro j q q' hq hq' h0
      have hl := (List.getElem?_eq_some_iff.1 hq).1
      have h4 := List.all_eq_true.1 h3 j (List.mem_range.2 hl)
      simp only [hq, hq', h0] at h4
      simpa using h4
    · cases h2

theorem actsIf_oneChecker {s t : Tasks} (l : List Act) (hs : OneCheckerReach s)
    (h : actsIf (fun _ t => decide ((t.countP fun r => match r.pc with | .check _ => true | _ => false) ≤ 1)) s l = some t) :
    OneCheckerReach t := by
  induction l generalizing s with
  | nil => simp only [actsIf, Option.some.injEq] at h; subst h; exact hs
  | cons a l ih =>
    simp only [actsIf, Option.bind_eq_some_iff] at h
    obtain ⟨u, h1, h2⟩ := h
    split at h2
    · rename_i h3
      refine ih (hs.step (act_step a h1) ?_) h2
      intro j
      refine Nat.le_trans ?_ (of_decide_eq_true h3)
      refine List.countP_mono_left ?_
      intro x _ hx
      simp only [beq_iff_eq] at hx
      simp [hx]
    · cases h2

/-- Task 1, a child of task 0, completes; then task 2 is created as a child of 1, and completes as well. -/
def lateChild : List Act :=
  [.root, .child 0, .ret 1, .sub 1, .check 1, .sub 1, .check 1, .child 1, .ret 2, .sub 2, .check 2, .sub 2, .check 2, .sub 2]

/-- **C42, violated by one late child**: a task that has completed is given a child; when the child completes, the counter of
the grandparent is decremented a second time on behalf of the same task, and `wait` on the grandparent can return while its
function is running — although all threads take turns. -/
theorem C42_late_child_violated : ∃ (s : Tasks) (r : TaskRec), OneCheckerReach s ∧ Few s ∧ s[0]? = some r ∧
    r.completed = true ∧ r.pc = .running := by
  have h : (actsIf (fun _ t => decide ((t.countP fun r => match r.pc with | .check _ => true | _ => false) ≤ 1)) []
      lateChild).isSome = true := by decide +kernel
  have h2 : (((actsIf (fun _ t => decide ((t.countP fun r => match r.pc with | .check _ => true | _ => false) ≤ 1)) []
      lateChild).bind fun s => s[0]?).map fun r => (r.counter, r.pc)) = some (0, .running) := by decide +kernel
  have h1 : ((actsIf (fun _ t => decide ((t.countP fun r => match r.pc with | .check _ => true | _ => false) ≤ 1)) []
      lateChild).map fun s => s.length) = some 3 := by decide +kernel
  obtain ⟨s, hs⟩ := Option.isSome_iff_exists.1 h
  rw [hs] at h1 h2
  simp only [Option.map_some, Option.some.injEq, Option.bind_some, Option.map_eq_some_iff, Prod.mk.injEq] at h1 h2
  obtain ⟨r, h3, h4, h5⟩ := h2
  refine ⟨s, r, actsIf_oneChecker _ .init hs, ?_, h3, by simp [TaskRec.completed, h4], h5⟩
  intro p
  have : childCount s p ≤ s.length := List.countP_le_length
  omega

/-- **C42, violated by two threads**: the other half — no completed task is ever touched again, and still two threads that
are both between decrement and load break the property. -/
theorem C42_two_checkers_violated : ∃ (s : Tasks) (r : TaskRec), StayingReach s ∧ Few s ∧ s[0]? = some r ∧
    r.completed = true ∧ r.pc = .running := by
  have h : (actsIf (fun s t => (List.range s.length).all fun j =>
      match s[j]?, t[j]? with
      | some q, some q' => q.counter != 0 || q'.counter == 0
      | _, _ => true) [] doublePropagation).isSome = true := by decide +kernel
  have h2 : (((actsIf (fun s t => (List.range s.length).all fun j =>
      match s[j]?, t[j]? with
      | some q, some q' => q.counter != 0 || q'.counter == 0
      | _, _ => true) [] doublePropagation).bind fun s => s[0]?).map fun r => (r.counter, r.pc)) =
      some (0, .running) := by decide +kernel
  have h1 : ((actsIf (fun s t => (List.range s.length).all fun j =>
      match s[j]?, t[j]? with
      | some q, some q' => q.counter != 0 || q'.counter == 0
      | _, _ => true) [] doublePropagation).map fun s => s.length) = some 3 := by decide +kernel
  obtain ⟨s, hs⟩ := Option.isSome_iff_exists.1 h
  rw [hs] at h1 h2
  simp only [Option.map_some, Option.some.injEq, Option.bind_some, Option.map_eq_some_iff, Prod.mk.injEq] at h1 h2
  obtain ⟨r, h3, h4, h5⟩ := h2
  refine ⟨s, r, actsIf_staying _ .init hs, ?_, h3, by simp [TaskRec.completed, h4], h5⟩
  intro p
  have : childCount s p ≤ s.length := List.countP_le_length
  omega

/-- A tree of depth four, executed by several threads: tasks 1 and 2 are children of 0, 3 a child of 1, 4 a child of 3.
The finishing of 4 propagates up to 0. -/
def treeRun : List Act :=
  [.root, .child 0, .child 0, .child 1, .child 3, .ret 1, .ret 0, .sub 1, .ret 2, .sub 0, .check 1, .ret 3, .sub 2, .sub 3,
    .check 3, .ret 4, .check 0, .sub 4, .check 2, .check 4, .sub 2, .sub 4, .check 4, .check 2, .sub 4, .check 4, .sub 4,
    .check 4]

/-- Non-vacuous: the history is calm, and at its end every task is complete; the last is a descendant of the first at depth
three. -/
example : ∃ s : Tasks, CalmReach s ∧ Few s ∧ Descends s 0 4 ∧
    ((s.map fun r => (r.parent, r.counter, r.pc)) = [(none, 0, .done), (some 0, 0, .done), (some 0, 0, .done),
      (some 1, 0, .done), (some 3, 0, .done)]) := by
  have h1 : ((actsIf calmB [] treeRun).map fun s => s.map fun r => (r.parent, r.counter, r.pc)) =
      some [(none, 0, .done), (some 0, 0, .done), (some 0, 0, .done), (some 1, 0, .done), (some 3, 0, .done)] := by
    decide +kernel
  obtain ⟨s, hs, h2⟩ := Option.map_eq_some_iff.1 h1
  have hl : s.length = 5 := by have := congrArg List.length h2; simpa using this
  have hget : ∀ (i : Nat), (s[i]?).map (fun r : TaskRec => (r.parent, r.counter, r.pc)) =
      [(none, 0, TaskPc.done), (some 0, 0, .done), (some 0, 0, .done), (some 1, 0, .done), (some 3, 0, .done)][i]? := by
    intro i
    rw [← h2, List.getElem?_map]
  have hpar : ∀ (i p : Nat), ([(none, 0, TaskPc.done), (some 0, 0, .done), (some 0, 0, .done), (some 1, 0, .done),
      (some 3, 0, .done)][i]?).map (fun x : Option Nat × Nat × TaskPc => x.1) = some (some p) →
      ∃ r : TaskRec, s[i]? = some r ∧ r.parent = some p := by
    intro i p hi
    rw [← hget i] at hi
    simp only [Option.map_map, Option.map_eq_some_iff] at hi
    obtain ⟨r, h3, h4⟩ := hi
    exact ⟨r, h3, h4⟩
  obtain ⟨r1, a1, b1⟩ := hpar 1 0 rfl
  obtain ⟨r3, a3, b3⟩ := hpar 3 1 rfl
  obtain ⟨r4, a4, b4⟩ := hpar 4 3 rfl
  refine ⟨s, actsIf_calm _ .init hs, ?_, ((Descends.self.child a1 b1).child a3 b3).child a4 b4, h2⟩
  intro p
  have : childCount s p ≤ s.length := List.countP_le_length
  omega

/-- Steps of one worker as a program. -/
def loneB (s t : Tasks) : Bool := decide (finishers t ≤ 1) &&
  match t[s.length]? with
  | none => true
  | some c => match c.parent with
    | none => true
    | some p => match s[p]? with
      | none => false
      | some q => q.pc == .running

theorem actsIf_lone {s t : Tasks} (l : List Act) (hs : LoneReach s) (h : actsIf loneB s l = some t) : LoneReach t := by
  induction l generalizing s with
  | nil => simp only [actsIf, Option.some.injEq] at h; subst h; exact hs
  | cons a l ih =>
    simp only [actsIf, Option.bind_eq_some_iff] at h
    obtain ⟨u, h1, h2⟩ := h
    split at h2
    · rename_i h3
      simp only [loneB, Bool.and_eq_true, decide_eq_true_eq] at h3
      refine ih (hs.step (act_step a h1) h3.1 ?_) h2
      intro c p hc hp
      have h4 := h3.2
      simp only [hc, hp] at h4
      split at h4
      · cases h4
      · exact ⟨_, ‹_›, by simpa using h4⟩
    · cases h2

/-- One worker: the root creates a child, which creates a child, and waits for it inside its function. -/
def loneRun : List Act :=
  [.root, .child 0, .child 1, .ret 2, .sub 2, .check 2, .sub 2, .check 2, .ret 1, .sub 1, .check 1, .sub 1, .check 1, .ret 0,
    .sub 0, .check 0]

example : ∃ s : Tasks, LoneReach s ∧ Few s ∧ (s.map fun r => (r.parent, r.counter, r.pc)) =
    [(none, 0, .done), (some 0, 0, .done), (some 1, 0, .done)] := by
  have h1 : ((actsIf loneB [] loneRun).map fun s => s.map fun r => (r.parent, r.counter, r.pc)) =
      some [(none, 0, .done), (some 0, 0, .done), (some 1, 0, .done)] := by decide +kernel
  obtain ⟨s, hs, h2⟩ := Option.map_eq_some_iff.1 h1
  have hl : s.length = 3 := by have := congrArg List.length h2; simpa using this
  refine ⟨s, actsIf_lone _ .init hs, ?_, h2⟩
  intro p
  have : childCount s p ≤ s.length := List.countP_le_length
  omega

end CoEcs.Props
