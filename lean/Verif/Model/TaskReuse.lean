import Verif.Model.Task

/-!
# Tasks in the storage of `task_pool`
(/repo/include/co_ecs/thread_pool/task.hpp)

`Verif.Model.Task` gives every task storage of its own.  Here a task is a pointer into the ring of the thread that
submitted it (task.hpp:60-78), and `allocate` destroys the task that was there.  Memory is sequentially consistent; the
state of the thread that executes a task is kept with the task, as in `Verif.Model.Task`.
-/

namespace CoEcs

/-- `task_t*`: the thread that owns the ring, and the index in its `_tasks_array` (task.hpp:77). -/
abbrev TaskPtr := Nat × Nat

/-- What is stored in an element of `_tasks_array`: task.hpp:53-55.  `uid` (history) says which task it is: tasks are
numbered in order of submission.  The function is not stored. -/
structure SlotTask where
  uid : Nat
  parent : Option TaskPtr
  counter : Nat
  deriving DecidableEq, Repr

/-- Where the thread that executes a task is, cf. `TaskPc`.  `execute` and `finish` work with pointers. -/
inductive ReusePc where
  /-- the function has not returned (it may not have been called yet) -/
  | running
  /-- in `finish` of the task at `a`, before `fetch_sub` (task.hpp:45) -/
  | sub (a : TaskPtr)
  /-- in `finish` of the task at `a`, before the load in `is_completed` and the read of `_parent` (task.hpp:47) -/
  | check (a : TaskPtr)
  /-- `execute` has returned -/
  | done
  deriving DecidableEq, Repr

/-- A task that was submitted (history): where it was put, which task was its parent, and how far its execution is. -/
structure Submitted where
  slot : TaskPtr
  parent : Option Nat
  pc : ReusePc
  deriving DecidableEq, Repr

/-- The rings of all threads; `count t` is `_task_counter` of thread `t` (task.hpp:76).  `mem a = none`: the element
still holds the default-constructed task. -/
structure Rings where
  mem : TaskPtr → Option SlotTask
  count : Nat → Nat
  next : Nat
  sub : Nat → Option Submitted

/-- `fetch_add(1)` on a 16-bit counter, task.hpp:21. -/
def oneMore (c : Nat) : Nat := (c + 1) % 65536

/-- `fetch_sub(1)` on a 16-bit counter, task.hpp:45. -/
def oneLess (c : Nat) : Nat := (c + 65535) % 65536

namespace Rings

def init : Rings := ⟨fun _ => none, fun _ => 0, 0, fun _ => none⟩

def setMem (s : Rings) (a : TaskPtr) (q : SlotTask) : Rings :=
  { s with mem := fun b => if b = a then some q else s.mem b }

def setSub (s : Rings) (k : Nat) (m : Submitted) : Rings :=
  { s with sub := fun i => if i = k then some m else s.sub i }

/-- The element thread `t` uses for its next task, task.hpp:69, with `n` for `max_tasks`.  `_task_counter & (max_tasks - 1)`
is the remainder, since 4096 is a power of two. -/
def slot (n : Nat) (s : Rings) (t : Nat) : TaskPtr := (t, s.count t % n)

/-- Task number `s.next` is constructed in element `a` for thread `t`: task.hpp:69-71 with 18-19.  The old task is destroyed
whatever its state. -/
def construct (s : Rings) (t : Nat) (a : TaskPtr) (p : Option Nat) (b : Option TaskPtr) : Rings where
  mem := fun c => if c = a then some ⟨s.next, b, 1⟩ else s.mem c
  count := fun i => if i = t then s.count t + 1 else s.count i
  next := s.next + 1
  sub := fun i => if i = s.next then some ⟨a, p, .running⟩ else s.sub i

/-- `task_pool::allocate` on thread `t`, task.hpp:68-73, with the increment of the parent's counter (task.hpp:20-22).
`none`: the parent is the element being overwritten, or does not exist (undefined). -/
def submit (n : Nat) (s : Rings) (t : Nat) (p : Option TaskPtr) : Option Rings :=
  match p with
  | none => some (s.construct t (s.slot n t) none none)
  | some b =>
    if b = s.slot n t then none
    else
      match s.mem b with
      | none => none
      | some q => some ((s.construct t (s.slot n t) (some q.uid) (some b)).setMem b { q with counter := oneMore q.counter })

/-- The function of task `k` returns, task.hpp:27. -/
def ret (s : Rings) (k : Nat) : Option Rings :=
  match s.sub k with
  | some m => if m.pc = .running then some (s.setSub k { m with pc := .sub m.slot }) else none
  | none => none

/-- `fetch_sub`, task.hpp:45, in the execution of task `k`. -/
def dec (s : Rings) (k : Nat) : Option Rings :=
  match s.sub k with
  | some m =>
    match m.pc with
    | .sub a =>
      match s.mem a with
      | some q => some ((s.setMem a { q with counter := oneLess q.counter }).setSub k { m with pc := .check a })
      | none => none
    | _ => none
  | none => none

/-- The load, the read of `_parent` and the call of its `finish`, task.hpp:47-49, in the execution of task `k`.  (The load
and the read are one step here.) -/
def check (s : Rings) (k : Nat) : Option Rings :=
  match s.sub k with
  | some m =>
    match m.pc with
    | .check a =>
      match s.mem a with
      | some q =>
        match q.counter == 0, q.parent with
        | true, some b => some (s.setSub k { m with pc := .sub b })
        | _, _ => some (s.setSub k { m with pc := .done })
      | none => none
    | _ => none
  | none => none

end Rings

/-- Executions in which every submission satisfies `ok`; the threads are interleaved in any order. -/
inductive RingsReach (n : Nat) (ok : Rings → Nat → Option TaskPtr → Prop) : Rings → Prop
  | init : RingsReach n ok Rings.init
  | submit {s u} (t : Nat) (p : Option TaskPtr) : RingsReach n ok s → ok s t p → s.submit n t p = some u → RingsReach n ok u
  | ret {s u} (k : Nat) : RingsReach n ok s → s.ret k = some u → RingsReach n ok u
  | dec {s u} (k : Nat) : RingsReach n ok s → s.dec k = some u → RingsReach n ok u
  | check {s u} (k : Nat) : RingsReach n ok s → s.check k = some u → RingsReach n ok u

end CoEcs
