import Verif.Model.Outcome

/-!
# Model of tasks and the task ring
(/repo/include/co_ecs/thread_pool/task.hpp)

Every task is executed by one thread (see `Verif.Model.WsQueue` for the queue that hands them out), so the state of
that thread is kept with the task.  Memory is sequentially consistent.
-/

namespace CoEcs

/-- Where the thread executing a task is. -/
inductive TaskPc where
  /-- the function has not returned -/
  | running
  /-- in `finish` of task `j`, before `fetch_sub` (task.hpp:45) -/
  | sub (j : Nat)
  /-- in `finish` of task `j`, before the load in `is_completed` (task.hpp:47) -/
  | check (j : Nat)
  /-- `execute` has returned -/
  | done
  deriving DecidableEq

/-- `task_t`, task.hpp:53-55.  The counter has 16 bits. -/
structure TaskRec where
  parent : Option Nat
  counter : Nat
  pc : TaskPc

/-- `fetch_add(1)` on a 16-bit counter, task.hpp:21. -/
def TaskRec.inc (r : TaskRec) : TaskRec := { r with counter := (r.counter + 1) % 65536 }

/-- `fetch_sub(1)` on a 16-bit counter, task.hpp:45. -/
def TaskRec.dec (r : TaskRec) : TaskRec := { r with counter := (r.counter + 65535) % 65536 }

/-- `is_completed`, task.hpp:33-35. -/
def TaskRec.completed (r : TaskRec) : Bool := r.counter == 0

/-- The executing thread proceeds. -/
def TaskRec.goto (r : TaskRec) (pc : TaskPc) : TaskRec := { r with pc := pc }

/-- What follows the load in `finish` of task `q`, task.hpp:47-49. -/
def TaskRec.next (q : TaskRec) : TaskPc :=
  match q.completed, q.parent with
  | true, some p => .sub p
  | _, _ => .done

/-- All tasks, in order of creation; indices are used as pointers (no reuse of storage here, see `TaskRing`). -/
abbrev Tasks := List TaskRec

/-- One atomic step of some thread. -/
inductive TaskStep : Tasks → Tasks → Prop
  /-- `task_t(func)`, task.hpp:18-23, without a parent -/
  | submitRoot (s) : TaskStep s (s ++ [⟨none, 1, .running⟩])
  /-- `task_t(func, parent)`, task.hpp:18-23 -/
  | submitChild (s) (p : Nat) (r : TaskRec) : s[p]? = some r → TaskStep s (s.set p r.inc ++ [⟨some p, 1, .running⟩])
  /-- the function returns, task.hpp:27 -/
  | ret (s) (i : Nat) (r : TaskRec) : s[i]? = some r → r.pc = .running → TaskStep s (s.set i (r.goto (.sub i)))
  /-- `fetch_sub`, task.hpp:45.  `r` is the executed task, `q` the one being finished (possibly the same). -/
  | sub (s) (i j : Nat) (r q : TaskRec) : s[i]? = some r → r.pc = .sub j →
      (s.set i (r.goto (.check j)))[j]? = some q → TaskStep s ((s.set i (r.goto (.check j))).set j q.dec)
  /-- the load and the call of `_parent->finish()`, task.hpp:47-49 -/
  | check (s) (i j : Nat) (r q : TaskRec) : s[i]? = some r → r.pc = .check j → s[j]? = some q →
      TaskStep s (s.set i (r.goto q.next))

/-- Reachable from no tasks. -/
inductive TaskReach : Tasks → Prop
  | init : TaskReach []
  | step {s t} : TaskReach s → TaskStep s t → TaskReach t

/-! ## The ring of task storage -/

/-- `task_pool` of one thread, task.hpp:60-78: the number of allocations so far, and for every slot the number of the task
that lives there. -/
structure TaskRing where
  counter : Nat
  slots : Nat → Option Nat

def maxTasks : Nat := 4096

def TaskRing.init : TaskRing := ⟨0, fun _ => none⟩

/-- `task_pool::allocate`, task.hpp:68-73: the task that lived in the slot is destroyed; returns its number.
(The counter has 64 bits; its wrap-around does not change the slot sequence.) -/
def TaskRing.allocate (r : TaskRing) : Option Nat × TaskRing :=
  let i := r.counter &&& (maxTasks - 1)
  (r.slots i, ⟨r.counter + 1, fun j => if j = i then some r.counter else r.slots j⟩)

end CoEcs
