import Verif.Model.WsQueue

/-!
# Model of the thread pool
(/repo/include/co_ecs/thread_pool/thread_pool.hpp, task.hpp)

Threads take turns in atomic steps, memory is sequentially consistent.  Worker 0 is the thread that
constructed the pool.  Tasks are never reused (see C43 for the ring they live in).  The statistics under
`CO_ECS_WORKER_STATS` are left out.
-/

namespace CoEcs

/-- What a function given to `submit`, or the function that uses the pool, does.  Variables (de Bruijn
indices, newest first) hold pointers to tasks: `submit` binds the new task, and its function sees the
variables bound before it.  Everything else a function does is invisible here. -/
inductive Prog where
  /-- return -/
  | ret
  /-- throw an exception -/
  | throw
  /-- `submit(child, parent)` -/
  | submit (parent : Option Nat) (child k : Prog)
  /-- `wait(v)` -/
  | wait (v : Nat) (k : Prog)
  deriving DecidableEq, Repr

/-- What has become of a task (not in the code). -/
inductive TaskSt where
  | made
  | queued
  | started
  | finished
  deriving DecidableEq, Repr

/-- `task_t`, task.hpp:52-54.  The code has only `parent`, `counter` and the function; the other fields
record history. -/
structure PTask where
  parent : Option Nat
  counter : Nat
  code : Prog
  env : List Nat
  /-- the worker that submitted it -/
  by_ : Nat
  /-- the call that submitted it, as the time it began -/
  caller : Nat
  st : TaskSt := .made
  /-- how many times its function was called -/
  runs : Nat := 0
  /-- the worker that executes it and the time the call began -/
  on : Nat := 0
  time : Nat := 0
  /-- has yet to decrement its own counter; its parent's counter -/
  own : Bool := true
  par : Bool := true
  deriving DecidableEq, Repr

namespace PTask
/-- `fetch_add(1)`, task.hpp:21, 16 bits. -/
def inc (q : PTask) : PTask := { q with counter := (q.counter + 1) % 65536 }
/-- `fetch_sub(1)`, task.hpp:45. -/
def dec (q : PTask) : PTask := { q with counter := (q.counter + 65535) % 65536 }
/-- `is_completed`, task.hpp:33-35. -/
def completed (q : PTask) : Bool := q.counter == 0
/-- Task `k` has decremented the counter of `j` (history). -/
def pay (k j : Nat) (q : PTask) : PTask := if k = j then { q with own := false } else { q with par := false }
/-- Its function is called by worker `i` at time `t` (history). -/
def begin_ (i t : Nat) (q : PTask) : PTask := { q with st := .started, runs := q.runs + 1, on := i, time := t }
/-- History. -/
def setSt (st : TaskSt) (q : PTask) : PTask := { q with st := st }
end PTask

/-- Where a function call is. -/
inductive FramePc where
  /-- at its code -/
  | run
  /-- in `submit`, before `push` of task `j` (thread_pool.hpp:75) -/
  | push (j : Nat)
  /-- in `finish` of task `j`, before `fetch_sub` (task.hpp:45) -/
  | sub (j : Nat)
  /-- in `finish` of task `j`, before the load (task.hpp:47) -/
  | check (j : Nat)
  deriving DecidableEq, Repr

/-- A function call on the stack of a thread; `task = none` is the function that uses the pool.  `time`
records when it began. -/
structure Frame where
  task : Option Nat
  code : Prog
  env : List Nat
  pc : FramePc
  time : Nat
  deriving DecidableEq, Repr

/-- Where `get_task` is (thread_pool.hpp:148-170). -/
inductive GetPc where
  /-- before `pop` of the own queue (line 150) -/
  | pop
  /-- before the load of `_top` of the main worker's queue (line 156) -/
  | main
  /-- the same, `_top` was `t` -/
  | mainTake (t : Nat)
  /-- before the choice of a random worker (line 163) -/
  | rnd
  /-- stealing from worker `v`, `_top` was `t` -/
  | rndTake (v t : Nat)
  deriving DecidableEq, Repr

/-- Where the loop of a background worker is (thread_pool.hpp:108-128). -/
inductive Mode where
  /-- fetching and executing tasks -/
  | loop
  /-- before the load of `_active` (line 124) -/
  | check
  /-- the thread has ended -/
  | exited
  deriving DecidableEq, Repr

structure Thread where
  /-- calls, innermost first; every call but the first is inside `wait` -/
  stack : List Frame
  /-- `get_task` in progress for the innermost call or the loop of the worker -/
  get : Option GetPc
  mode : Mode
  deriving DecidableEq, Repr

/-- `work_stealing_queue` (see `Model/WsQueue`): the number of times `_top` was advanced, and the items from
`_top` to `_bottom`. -/
structure TQueue where
  top : Nat
  items : List Nat
  deriving DecidableEq, Repr

namespace TQueue

/-- `push`, work_stealing_queue.hpp:61-76. -/
def push (q : TQueue) (j : Nat) : TQueue := { q with items := q.items ++ [j] }

/-- `pop`, work_stealing_queue.hpp:100-125, as one step: the newest item.  `_top` advances with the last one. -/
def pop (q : TQueue) : Option (Nat × TQueue) :=
  match q.items.getLast? with
  | none => none
  | some j => some (j, ⟨if q.items.length = 1 then q.top + 1 else q.top, q.items.dropLast⟩)

/-- `steal`, work_stealing_queue.hpp:80-96, after `_top` was loaded as `t`: nothing if the queue is empty or
the compare-exchange fails. -/
def take (q : TQueue) (t : Nat) : Option (Nat × TQueue) :=
  match q.items with
  | [] => none
  | j :: js => if q.top = t then some (j, ⟨q.top + 1, js⟩) else none

end TQueue

/-- Where the thread that owns the pool is. -/
inductive MainPc where
  /-- using it -/
  | run
  /-- in the destructor, before `stop` of worker `i` (thread_pool.hpp:244-246) -/
  | stop (i : Nat)
  /-- in the destructor, joining worker `i` (lines 249-251) -/
  | join (i : Nat)
  /-- the destructor has returned -/
  | gone
  deriving DecidableEq, Repr

/-- The pool and its threads; `dead` after `std::terminate`.  `clock` counts calls of tasks and `unwound` records
that an exception left the function that uses the pool. -/
structure PoolState where
  tasks : List PTask
  thr : Nat → Thread
  queue : Nat → TQueue
  active : Nat → Bool
  sem : Nat
  main : MainPc
  dead : Bool
  clock : Nat
  unwound : Bool

namespace PoolState

/-- The constructor (thread_pool.hpp:217-239) has returned, and the function `p` begins to use the pool. -/
def init (p : Prog) : PoolState :=
  ⟨[], fun i => if i = 0 then ⟨[⟨none, p, [], .run, 0⟩], none, .loop⟩ else ⟨[], none, .loop⟩,
    fun _ => ⟨0, []⟩, fun _ => true, 0, .run, false, 0, false⟩

def setThr (s : PoolState) (i : Nat) (t : Thread) : PoolState := { s with thr := upd s.thr i t }

/-- Replace the innermost call of a thread. -/
def setTop (s : PoolState) (i : Nat) (f : Frame) (fs : List Frame) : PoolState :=
  s.setThr i { s.thr i with stack := f :: fs }

/-- Change one task. -/
def modTask (s : PoolState) (j : Nat) (f : PTask → PTask) : PoolState := { s with tasks := s.tasks.modify j f }

/-- Outcome of a step of `get_task`. -/
inductive GetRes where
  | more (g : GetPc)
  | got (j : Nat) (queue : Nat → TQueue)
  | null

/-- One step of `get_task`, thread_pool.hpp:148-170, by worker `i` of `n`.  `rnd` is what the random number
generator yields (`random_worker`, lines 311-323). -/
def getStep (n : Nat) (s : PoolState) (i rnd : Nat) : GetPc → GetRes
  | .pop =>
    match (s.queue i).pop with
    | some (j, q) => .got j (upd s.queue i q)
    | none => .more (if i = 0 then .rnd else .main)
  | .main => .more (.mainTake (s.queue 0).top)
  | .mainTake t =>
    match (s.queue 0).take t with
    | some (j, q) => .got j (upd s.queue 0 q)
    | none => .more .rnd
  | .rnd =>
    if n = 1 then .null
    else if 1 + rnd % (n - 1) = i then .null
    else .more (.rndTake (1 + rnd % (n - 1)) (s.queue (1 + rnd % (n - 1))).top)
  | .rndTake v t =>
    match (s.queue v).take t with
    | some (j, q) => .got j (upd s.queue v q)
    | none => .null

/-- `execute(task)`, thread_pool.hpp:183-188 with task.hpp:26-29: the function of task `j` is called. -/
def startTask (s : PoolState) (i j : Nat) (queue : Nat → TQueue) : Option PoolState :=
  match s.tasks[j]? with
  | none => none
  | some q =>
    some ((({ s with queue := queue, clock := s.clock + 1 } : PoolState).setThr i
      { s.thr i with stack := ⟨some j, q.code, q.env, .run, s.clock + 1⟩ :: (s.thr i).stack, get := none }).modTask j
        (PTask.begin_ i (s.clock + 1)))

/-- The destructor, thread_pool.hpp:242-254, with `n` workers. -/
def stepDtor (n : Nat) (s : PoolState) : Option PoolState :=
  match s.main with
  | .run => none
  | .stop i => if i < n then some { s with active := upd s.active i false, main := .stop (i + 1) } else some { s with main := .join 1 }
  | .join i =>
    if i < n then
      if (s.thr i).mode = .exited then some { s with main := .join (i + 1) } else none
    else some { s with main := .gone }
  | .gone => none

/-- The loop of a background worker, thread_pool.hpp:108-128.  `idle` (lines 190-196, 329-332) takes from the
semaphore or times out, as `acq` says. -/
def stepLoop (n : Nat) (s : PoolState) (i rnd : Nat) (acq : Bool) : Option PoolState :=
  match (s.thr i).mode with
  | .loop =>
    match (s.thr i).get with
    | none => some (s.setThr i { s.thr i with get := some .pop })
    | some g =>
      match s.getStep n i rnd g with
      | .more g' => some (s.setThr i { s.thr i with get := some g' })
      | .got j queue => s.startTask i j queue
      | .null => some ({ s with sem := if acq then s.sem - 1 else s.sem }.setThr i { s.thr i with get := none, mode := .check })
  | .check =>
    if s.active i then some (s.setThr i { s.thr i with mode := .loop }) else some (s.setThr i { s.thr i with mode := .exited })
  | .exited => none

/-- The innermost call `f` of thread `i` makes a step; `fs` are the calls below it. -/
def stepFrame (n : Nat) (s : PoolState) (i rnd : Nat) (f : Frame) (fs : List Frame) : Option PoolState :=
  match f.pc with
  | .push j =>
    -- thread_pool.hpp:75-76
    some (({ s with queue := upd s.queue i ((s.queue i).push j), sem := s.sem + 1 }.setTop i { f with pc := .run } fs).modTask j
      (PTask.setSt .queued))
  | .sub j =>
    match s.tasks[j]?, f.task with
    | some _, some k => some (((s.modTask j PTask.dec).modTask k (PTask.pay k j)).setTop i { f with pc := .check j } fs)
    | _, _ => none
  | .check j =>
    match s.tasks[j]?, f.task with
    | some q, some k =>
      match q.completed, q.parent with
      | true, some p => some (s.setTop i { f with pc := .sub p } fs)
      | _, _ =>
        -- `execute` returns to the loop of the worker or to `wait`, which wakes a worker (thread_pool.hpp:91)
        some (({ s with sem := if fs.isEmpty then s.sem else s.sem + 1 }.setThr i { s.thr i with stack := fs }).modTask k
          (PTask.setSt .finished))
    | _, _ => none
  | .run =>
    match f.code with
    | .ret =>
      match f.task with
      | some j => some (s.setTop i { f with pc := .sub j } fs)
      -- the pool goes out of scope
      | none => some ({ s with main := .stop 1 }.setThr i { s.thr i with stack := [] })
    | .throw =>
      -- out of the function of a thread: `std::terminate`; in the owner's thread it leaves all calls, `finish` is skipped
      if i = 0 then some ({ s with main := .stop 1, unwound := true }.setThr i { s.thr i with stack := [], get := none }) else some { s with dead := true }
    | .submit p c k =>
      -- `task_pool::allocate`, thread_pool.hpp:67 with task.hpp:18-23
      match p with
      | none =>
        some (({ s with tasks := s.tasks ++ [{ parent := none, counter := 1, code := c, env := f.env, by_ := i, caller := f.time, par := false }] } : PoolState).setTop i
          { f with code := k, env := s.tasks.length :: f.env, pc := .push s.tasks.length } fs)
      | some v =>
        match f.env[v]? with
        | none => none
        | some pj =>
          match s.tasks[pj]? with
          | none => none
          | some _ =>
            some (({ s with tasks := s.tasks.modify pj PTask.inc ++
              [{ parent := some pj, counter := 1, code := c, env := f.env, by_ := i, caller := f.time }] } : PoolState).setTop i
              { f with code := k, env := s.tasks.length :: f.env, pc := .push s.tasks.length } fs)
    | .wait v k =>
      -- thread_pool.hpp:81-93
      match (s.thr i).get with
      | none =>
        match f.env[v]? with
        | none => none
        | some j =>
          match s.tasks[j]? with
          | none => none
          | some q =>
            if q.completed then some (s.setTop i { f with code := k } fs)
            else some (s.setThr i { s.thr i with get := some .pop })
      | some g =>
        match s.getStep n i rnd g with
        | .more g' => some (s.setThr i { s.thr i with get := some g' })
        | .got j queue => s.startTask i j queue
        | .null => some ({ s with sem := s.sem + 1 }.setThr i { s.thr i with get := none })

/-- One step of thread `i` of a pool with `n` workers; `rnd` and `acq` are the choices it may have.  `none`:
it has ended, has to wait for another thread, or its behaviour is undefined. -/
def step (n : Nat) (s : PoolState) (i rnd : Nat) (acq : Bool) : Option PoolState :=
  if s.dead ∨ n ≤ i then none
  else
    match (s.thr i).stack with
    | f :: fs => s.stepFrame n i rnd f fs
    | [] => if i = 0 then s.stepDtor n else s.stepLoop n i rnd acq

end PoolState

/-- Any number of steps of a pool with `n` workers. -/
inductive PoolSteps (n : Nat) : PoolState → PoolState → Prop
  | refl (s) : PoolSteps n s s
  | step {s t u} (i rnd : Nat) (acq : Bool) : PoolSteps n s t → t.step n i rnd acq = some u → PoolSteps n s u

/-- The states of a pool with `n` workers that is used by `p`. -/
def PoolReach (n : Nat) (p : Prog) (s : PoolState) : Prop := PoolSteps n (PoolState.init p) s

end CoEcs
