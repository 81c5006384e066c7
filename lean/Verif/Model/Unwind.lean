import Verif.Model.Schedule

/-!
# Runs of schedules in which systems throw
(/repo/include/co_ecs/system/stage.hpp:152-183, schedule.hpp:49-57, 76-97, thread_pool/thread_pool.hpp:66-93,
108-170, task.hpp:26-49)

A program creates executors, runs them and destroys them on the main thread, one call after the other; every system
may throw whenever it is executed.  `n` is the number of workers, number 0 is the main thread.  Simplifications: a
system is entered and left in one step each and submits no tasks of its own; taking a task from the queue of the main
worker is one step (C40); `wait` returns when all tasks of the batch have finished (C42 proves this of the counters
for batches of fewer than 65535 systems); the registers of a call and its exception are not modelled.
-/

namespace CoEcs

/-- What has become of a task. -/
inductive UStatus where
  | queued
  /-- a worker executes it -/
  | running (w : Nat)
  | done
  /-- its system threw; `finish` was skipped (task.hpp:26-29) -/
  | failed
  deriving DecidableEq, Repr

/-- A task submitted by `execute_batch`, stage.hpp:169-174: it refers to an element of the batch, which belongs to
executor `exec`.  `call` is the number of the call that submitted it (history). -/
structure UTask where
  sys : SysDesc
  exec : Nat
  call : Nat
  st : UStatus

/-- Where the main thread is. -/
inductive UMain where
  /-- outside of the schedules -/
  | idle
  /-- between two instructions of a call -/
  | code
  /-- in a main-thread system -/
  | system (d : SysDesc)
  /-- in `wait`, executing a task -/
  | task (j : Nat)

/-- What happens, as seen from outside; `k` is the number of a call.  `start` and `finish` are for the tasks the call
has submitted, whenever that is. -/
inductive UEvent where
  | enter (k : Nat)
  | start (k id : Nat)
  | finish (k id : Nat)
  | mainStart (k id : Nat)
  | mainFinish (k id : Nat)
  | flush (k : Nat)
  /-- the call returns, or ends with an exception -/
  | returned (k : Nat)
  | threw (k : Nat)
  deriving DecidableEq, Repr

/-- The state: code left of the current call, the executors of all calls (`true`: the call is the constructor), all
tasks in the order of submission, the number of tasks at the beginning of the current batch, the queue of the main
worker (oldest first), the executors that exist, the systems whose commands have not been flushed yet with their
calls, whether the program was terminated, and what happened. -/
structure UState where
  code : List Instr
  main : UMain
  calls : List (Nat × Bool)
  tasks : List UTask
  base : Nat
  queue : List Nat
  alive : Nat → Bool
  used : Nat → Bool
  pending : List (Nat × Nat)
  flushed : List (Nat × Nat)
  dead : Bool
  log : List UEvent

namespace UState

/-- The start of the program. -/
def init : UState := ⟨[], .idle, [], [], 0, [], fun _ => false, fun _ => false, [], [], false, []⟩

/-- The number of the current call, or of the last one. -/
def call (s : UState) : Nat := s.calls.length - 1

/-- Change the status of a task. -/
def setSt (s : UState) (j : Nat) (st : UStatus) : UState :=
  { s with tasks := s.tasks.modify j fun t => { t with st := st } }

def say (s : UState) (e : UEvent) : UState := { s with log := s.log ++ [e] }

end UState

/-- What may happen next. -/
inductive ULabel where
  /-- `schedule::create_executor` makes executor `e`, whose constructor runs the init stage -/
  | construct (e : Nat)
  /-- `run_once` -/
  | run (e : Nat)
  /-- the executor is destroyed -/
  | destroy (e : Nat)
  /-- the main thread proceeds; a system it executes returns -/
  | main
  /-- the system the main thread executes throws -/
  | throw
  /-- worker `w` takes a task; the system it executes returns; or throws -/
  | take (w : Nat)
  | finish (w : Nat)
  | throws (w : Nat)
  deriving DecidableEq, Repr

/-- Outcome of a step. -/
inductive UOut where
  | ok (s : UState)
  /-- not possible now -/
  | no
  /-- undefined behaviour -/
  | ub

/-- The instructions of a call, schedule.hpp:76-97. -/
def callCode (prog : Nat → ScheduleExec) : Nat × Bool → List Instr
  | (e, true) => (prog e).construct
  | (e, false) => (prog e).runOnce

namespace UState

/-- The beginning of a call. -/
def enter (prog : Nat → ScheduleExec) (s : UState) (e : Nat) (ctor : Bool) : UState :=
  ({ s with code := callCode prog (e, ctor), main := .code, calls := s.calls ++ [(e, ctor)], base := s.tasks.length } : UState).say
    (.enter s.calls.length)

/-- The system of task `j` is called by the main thread (`w = 0`) or a worker.  The reference to the batch is used
(stage.hpp:170), which is undefined behaviour if the executor is gone. -/
def startTask (s : UState) (j w : Nat) (queue : List Nat) : UOut :=
  match s.tasks[j]? with
  | none => .ub
  | some t =>
    if s.alive t.exec then
      .ok ((({ s with queue := queue, pending := s.pending ++ [(t.call, t.sys.id)] } : UState).setSt j (.running w)).say (.start t.call t.sys.id))
    else .ub

/-- The system of task `j` returns, and the task is counted (task.hpp:27-28).  Also undefined if the executor is
gone. -/
def finishTask (s : UState) (j : Nat) : UOut :=
  match s.tasks[j]? with
  | none => .ub
  | some t => if s.alive t.exec then .ok ((s.setSt j .done).say (.finish t.call t.sys.id)) else .ub

/-- All tasks of the current batch have finished. -/
def batchDone (s : UState) : Bool := (s.tasks.drop s.base).all fun t => t.st == .done

/-- A step of the main thread; a system it executes returns. -/
def mainStep (s : UState) : UOut :=
  match s.main with
  | .idle => .no
  | .system d => .ok (({ s with main := .code } : UState).say (.mainFinish s.call d.id))
  | .task j => ({ s with main := .code } : UState).finishTask j
  | .code =>
    match s.code with
    | [] => .ok (({ s with main := .idle } : UState).say (.returned s.call))
    | .submit d :: c =>
      match s.calls.getLast? with
      | none => .no
      | some (e, _) =>
        .ok { s with code := c, tasks := s.tasks ++ [⟨d, e, s.call, .queued⟩], queue := s.queue ++ [s.tasks.length] }
    | .runMain d :: c =>
      .ok (({ s with code := c, main := .system d, pending := s.pending ++ [(s.call, d.id)] } : UState).say (.mainStart s.call d.id))
    | .endMain _ :: c => .ok { s with code := c }
    | .wait :: c =>
      if s.batchDone then .ok { s with code := c, base := s.tasks.length }
      else
        -- thread_pool.hpp:82-86, 150: the newest task of its own queue
        match s.queue.getLast? with
        | none => .no
        | some j => ({ s with main := .task j } : UState).startTask j 0 s.queue.dropLast
    | .flush :: c => .ok (({ s with code := c, pending := [], flushed := s.flushed ++ s.pending } : UState).say (.flush s.call))

/-- An exception leaves the current call.  Nothing waits for the tasks (stage.hpp:164-183).  The members of an
executor whose constructor throws are destroyed. -/
def unwind (s : UState) : UState :=
  let s' : UState :=
    match s.calls.getLast? with
    | some (e, true) => { s with alive := fun x => if x = e then false else s.alive x }
    | _ => s
  ({ s' with main := .idle, code := [] } : UState).say (.threw s.call)

/-- The system the main thread executes throws. -/
def throwStep (s : UState) : UOut :=
  match s.main with
  | .system _ => .ok s.unwind
  | .task j => .ok (s.setSt j .failed).unwind
  | _ => .no

/-- The task worker `w` executes. -/
def taskOf (s : UState) (w : Nat) : Option Nat := s.tasks.findIdx? fun t => t.st == .running w

/-- One step; the workers are `1 … n - 1`. -/
def step (prog : Nat → ScheduleExec) (n : Nat) (s : UState) (l : ULabel) : UOut :=
  if s.dead then .no
  else
    match l with
    | .construct e =>
      match s.main with
      | .idle => if s.used e then .no else .ok (({ s with alive := fun x => if x = e then true else s.alive x,
                                                          used := fun x => if x = e then true else s.used x } : UState).enter prog e true)
      | _ => .no
    | .run e =>
      match s.main with
      | .idle => if s.alive e then .ok (s.enter prog e false) else .no
      | _ => .no
    | .destroy e =>
      match s.main with
      | .idle => if s.alive e then .ok { s with alive := fun x => if x = e then false else s.alive x } else .no
      | _ => .no
    | .main => s.mainStep
    | .throw => s.throwStep
    | .take w =>
      if 0 < w ∧ w < n ∧ s.taskOf w = none then
        match s.queue with
        | [] => .no
        | j :: q => s.startTask j w q
      else .no
    | .finish w =>
      if 0 < w then
        match s.taskOf w with
        | none => .no
        | some j => s.finishTask j
      else .no
    | .throws w =>
      -- out of the function of a thread: `std::terminate`
      if 0 < w then
        match s.taskOf w with
        | none => .no
        | some _ => .ok { s with dead := true }
      else .no

end UState

/-- The states a program can reach. -/
inductive UReach (prog : Nat → ScheduleExec) (n : Nat) : UState → Prop
  | init : UReach prog n UState.init
  | step {s t : UState} (l : ULabel) : UReach prog n s → s.step prog n l = .ok t → UReach prog n t

/-- Execute labels (for examples). -/
def UState.exec (prog : Nat → ScheduleExec) (n : Nat) : UState → List ULabel → UOut
  | s, [] => .ok s
  | s, l :: ls =>
    match s.step prog n l with
    | .ok t => t.exec prog n ls
    | o => o

end CoEcs
