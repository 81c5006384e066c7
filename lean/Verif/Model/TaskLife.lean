import Verif.Model.Task

/-!
# How long the function of a task lives
(/repo/include/co_ecs/thread_pool/task.hpp:18-23, 26-29, 54, 60-78)

Every thread has a ring of 4096 task objects and a counter, both `thread_local` (task.hpp:76-77).  A task holds the function it
was given (`_func`, task.hpp:54), and with it everything the function has captured, until the task object is destroyed.
Tasks are named by their thread and their number.  Simplifications: parents are left out (they play no part here); threads have
numbers and a number is not used again.
-/

namespace CoEcs

/-- The rings of all threads. -/
structure Closures where
  ring : Nat → TaskRing
  /-- Slots whose object has been destroyed without another one taking its place. -/
  gone : Nat → Nat → Bool
  /-- The thread has ended, its ring has been destroyed. -/
  ended : Nat → Bool
  /-- Functions destroyed, the latest first. -/
  destroyed : List (Nat × Nat)
  /-- Functions that were called and returned, the latest first. -/
  called : List (Nat × Nat)

namespace Closures

def init : Closures := ⟨fun _ => TaskRing.init, fun _ _ => false, fun _ => false, [], []⟩

def slotOf (k : Nat) : Nat := k &&& (maxTasks - 1)

inductive Op where
  /-- Thread `t` submits a function. -/
  | submit (t : Nat)
  /-- Thread `t` submits a function, and storing it in the task throws (copying or moving it, or allocating memory for it). -/
  | submitThrows (t : Nat)
  /-- Some thread executes the task with number `k` of thread `t`. -/
  | execute (t k : Nat)
  /-- Thread `t` ends. -/
  | exit (t : Nat)
  deriving DecidableEq, Repr

inductive Out where
  | ok (s : Closures)
  | threw (s : Closures)
  | ub

/-- What a program can do: threads act before their end, tasks are executed after their submission. -/
def Op.Possible (s : Closures) : Op → Prop
  | .submit t => s.ended t = false
  | .submitThrows t => s.ended t = false
  | .execute t k => k < (s.ring t).counter
  | .exit t => s.ended t = false

/-- The functions in the ring of a thread, in the order of the slots. -/
def inRing (s : Closures) (t : Nat) : List (Nat × Nat) :=
  ((List.range maxTasks).filterMap (s.ring t).slots).map fun k => (t, k)

/-- One operation.  `submit` is `task_pool::allocate`, task.hpp:68-73: the object in the slot is destroyed (70), which is
undefined if it has been destroyed before, and a new one is constructed there (71).  If that throws the slot stays empty; the
counter has been incremented (69).  `execute` is task.hpp:26-29 with the object that is in the slot at that time: undefined if
there is none.  At the end of a thread its `thread_local` objects are destroyed. -/
def apply (s : Closures) : Op → Out
  | .submit t =>
    let i := slotOf (s.ring t).counter
    if s.gone t i then .ub
    else .ok { s with ring := fun u => if u = t then (s.ring t).allocate.2 else s.ring u
                      destroyed := ((s.ring t).slots i).toList.map (fun k => (t, k)) ++ s.destroyed }
  | .submitThrows t =>
    let i := slotOf (s.ring t).counter
    if s.gone t i then .ub
    else .threw { s with
      ring := fun u => if u = t then ⟨(s.ring t).counter + 1, fun j => if j = i then none else (s.ring t).slots j⟩ else s.ring u
      gone := fun u j => if u = t ∧ j = i then true else s.gone u j
      destroyed := ((s.ring t).slots i).toList.map (fun k => (t, k)) ++ s.destroyed }
  | .execute t k =>
    if s.ended t || s.gone t (slotOf k) then .ub
    else
      match (s.ring t).slots (slotOf k) with
      | some k' => .ok { s with called := (t, k') :: s.called }
      | none => .ub
  | .exit t =>
    if (List.range maxTasks).any (s.gone t) then .ub
    else .ok { s with ended := fun u => if u = t then true else s.ended u, destroyed := s.inRing t ++ s.destroyed }

/-- What programs reach.  `throws` says whether storing a function may throw. -/
inductive Reach (throws : Prop) : Closures → Prop
  | init : Reach throws Closures.init
  | ok {s s' : Closures} (op : Op) : Reach throws s → op.Possible s → s.apply op = .ok s' → Reach throws s'
  | threw {s s' : Closures} (op : Op) : Reach throws s → throws → op.Possible s → s.apply op = .threw s' → Reach throws s'

end Closures
end CoEcs
