import Verif.Proofs.Task

/-!
# Trees of tasks of any depth

What "descendant" means, and the condition on histories under which completion is reported correctly.
-/

namespace CoEcs.Spec

open CoEcs

/-- Task `i` is task `p` or a descendant of it. -/
inductive Descends (s : Tasks) (p : Nat) : Nat → Prop
  | self : Descends s p p
  | child {i k : Nat} {r : TaskRec} : Descends s p i → s[k]? = some r → r.parent = some i → Descends s p k

/-- How many threads have decremented the counter of task `j` (task.hpp:45) and have not yet loaded it again
(task.hpp:47). -/
def checkers (s : Tasks) (j : Nat) : Nat := s.countP fun r => r.pc == .check j

/-- A step is calm if, for every task that has a parent: the task stays completed once it is, and when it becomes
completed, no more than one thread is between its decrement and its load. -/
def Calm (s t : Tasks) : Prop := ∀ (j : Nat) (q q' : TaskRec), s[j]? = some q → t[j]? = some q' → q.parent ≠ none →
  (q.counter = 0 → q'.counter = 0) ∧ (q.counter ≠ 0 → q'.counter = 0 → checkers t j ≤ 1)

/-- Reachable by calm steps. -/
inductive CalmReach : Tasks → Prop
  | init : CalmReach []
  | step {s t} : CalmReach s → TaskStep s t → Calm s t → CalmReach t

/-- How many threads are inside `finish` (task.hpp:44-51). -/
def finishers (s : Tasks) : Nat := s.countP fun r => match r.pc with
  | .sub _ => true
  | .check _ => true
  | _ => false

/-- If the step creates a task with a parent, the function of the parent is still running. -/
def OwnChild (s t : Tasks) : Prop := ∀ (c : TaskRec) (p : Nat), t[s.length]? = some c → c.parent = some p →
  ∃ q : TaskRec, s[p]? = some q ∧ q.pc = .running

/-- Histories of a pool with one worker whose tasks create only children of tasks that are still running: no two threads
are inside `finish` at the same time. -/
inductive LoneReach : Tasks → Prop
  | init : LoneReach []
  | step {s t} : LoneReach s → TaskStep s t → finishers t ≤ 1 → OwnChild s t → LoneReach t

end CoEcs.Spec
