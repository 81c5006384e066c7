import Verif.Model.Weak

/-!
# Tasks and queues with their memory orders

`task_t` (/repo/include/co_ecs/thread_pool/task.hpp), `work_stealing_queue`
(/repo/include/co_ecs/detail/work_stealing_queue.hpp) and the parts of `thread_pool::worker`
(/repo/include/co_ecs/thread_pool/thread_pool.hpp) that submit, run and wait for tasks, as programs for the
machine of `Model/Weak.lean`.

Pointers to tasks and arrays are numbers; null is 0.  Memory is taken from a supply of numbers that is passed in, and
never reused.  Integers are unbounded except for the counter of a task.
-/

namespace CoEcs.Weak

/-- Objects of a `handle_pool` (/repo/include/co_ecs/detail/handle.hpp:136-140) and of the threads that use it. -/
inductive HLoc where
  /-- `_next_id`, `_free_cursor` -/
  | next | cursor
  /-- `_generations`: the vector object, whose value is the size, and its elements -/
  | gens | gen (i : Nat)
  /-- `_free_ids` -/
  | frees | free (k : Nat)
  /-- the handle number `k` that thread `t` got -/
  | noteId (t k : Nat) | noteGen (t k : Nat)
  /-- how many threads have ended; whether the synchronisation is over -/
  | signal | synced
  deriving DecidableEq

/-- Objects in memory. -/
inductive Loc where
  /-- `_top`, `_bottom`, `_array` of the queue of a worker -/
  | top (w : Nat) | bottom (w : Nat) | array (w : Nat)
  /-- `_data[k]` of an array: atomic -/
  | cell (a : Int) (k : Nat)
  /-- `_capacity`, `_mask`, `_data` of an array: not atomic -/
  | cap (a : Int) | mask (a : Int) | data (a : Int)
  /-- `_func`, `_parent` of a task: not atomic; `_unfinishedTasks` -/
  | func (t : Int) | parent (t : Int) | left (t : Int)
  /-- `_worker_wait_semaphore` -/
  | sem
  /-- the handles of a registry -/
  | pool (h : HLoc)
  /-- data of the user of the library -/
  | user (n : Nat)
  deriving DecidableEq

abbrev P := Prog Loc

def load (o : Order) (l : Loc) : P Int := .call (.load o l)
def store (o : Order) (l : Loc) (v : Int) : P Int := .call (.store o l v)
def rmw (o : Order) (l : Loc) (f : Int → Option Int) : P Int := .call (.rmw o l f)
def fence (o : Order) : P Int := .call (.fence o)
def read (l : Loc) : P Int := .call (.read l)
def write (l : Loc) (v : Int) : P Int := .call (.write l v)

/-! ### `work_stealing_queue` -/

/-- `array::push`, work_stealing_queue.hpp:154-156. -/
def arrPush (a i o : Int) : P Unit := do
  let _ ← read (.data a)
  let mask ← read (.mask a)
  let _ ← store .rlx (.cell a (i.toNat &&& mask.toNat)) o
  pure ()

/-- `array::pop`, lines 158-160. -/
def arrPop (a i : Int) : P Int := do
  let _ ← read (.data a)
  let mask ← read (.mask a)
  load .rlx (.cell a (i.toNat &&& mask.toNat))

/-- `array(c)`, lines 139-143, at address `a`.  The cells are value-initialised (null). -/
def arrNew (a c : Int) : P Unit := do
  let _ ← write (.cap a) c
  let _ ← write (.mask a) (c - 1)
  let _ ← write (.data a) a
  pure ()

/-- The loop of `grow`, lines 165-167: `n` iterations from index `i` on. -/
def copyLoop (a b : Int) : Nat → Int → P Unit
  | 0, _ => pure ()
  | n + 1, i => do
    let o ← arrPop a i
    arrPush b i o
    copyLoop a b n (i + 1)

/-- `grow`, lines 162-170; `fresh` is the address of the new array. -/
def grow (a fresh bottom top : Int) : P Int := do
  let c ← read (.cap a)
  arrNew fresh (2 * c)
  copyLoop a fresh (bottom - top).toNat top
  pure fresh

/-- `push`, lines 61-76.  `_garbage` is used by the owner only. -/
def push (w : Nat) (fresh o : Int) : P Unit := do
  let bottom ← load .rlx (.bottom w)
  let top ← load .acq (.top w)
  let array ← load .rlx (.array w)
  let c ← read (.cap array)
  let array ← if c - 1 < bottom - top then do
      let tmp ← grow array fresh bottom top
      let _ ← store .rlx (.array w) tmp
      pure tmp
    else pure array
  arrPush array bottom o
  let _ ← fence .rel
  let _ ← store .rlx (.bottom w) (bottom + 1)
  pure ()

/-- `steal`, lines 80-96; no value is `none`. -/
def steal (w : Nat) : P (Option Int) := do
  let top ← load .acq (.top w)
  let _ ← fence .sc
  let bottom ← load .acq (.bottom w)
  if top < bottom then do
    let array ← load .acq (.array w)
    let item ← arrPop array top
    let old ← rmw .sc (.top w) fun x => if x = top then some (top + 1) else none
    if old = top then pure (some item) else pure none
  else pure none

/-- `pop`, lines 100-125. -/
def pop (w : Nat) : P (Option Int) := do
  let b ← load .rlx (.bottom w)
  let bottom := b - 1
  let array ← load .rlx (.array w)
  let _ ← store .rlx (.bottom w) bottom
  let _ ← fence .sc
  let top ← load .rlx (.top w)
  if top ≤ bottom then do
    let item ← arrPop array bottom
    if top = bottom then do
      let old ← rmw .sc (.top w) fun x => if x = top then some (top + 1) else none
      let _ ← store .rlx (.bottom w) (bottom + 1)
      if old = top then pure (some item) else pure none
    else pure (some item)
  else do
    let _ ← store .rlx (.bottom w) (bottom + 1)
    pure none

/-! ### `task_t` -/

/-- `task_t(func, parent)`, task.hpp:18-23, at address `t`. -/
def taskNew (t func parent : Int) : P Unit := do
  let _ ← write (.func t) func
  let _ ← write (.parent t) parent
  let _ ← store .rlx (.left t) 1
  if parent ≠ 0 then do
    let _ ← rmw .rlx (.left parent) fun x => some ((x + 1) % 65536)
    pure ()
  else pure ()

/-- `is_completed`, lines 33-35. -/
def isCompleted (t : Int) : P Bool := do
  let n ← load .rlx (.left t)
  pure (decide (n = 0))

/-- `finish`, lines 44-50; parents are at most `n` levels up. -/
def finish : Nat → Int → P Unit
  | 0, _ => pure ()
  | n + 1, t => do
    let _ ← rmw .rlx (.left t) fun x => some ((x + 65535) % 65536)
    if ← isCompleted t then do
      let p ← read (.parent t)
      if p ≠ 0 then finish n p else pure ()
    else pure ()

/-- `execute`, lines 26-29; `body` says what the functions do. -/
def execute (body : Int → P Unit) (t : Int) : P Unit := do
  let f ← read (.func t)
  body f
  finish 2 t

/-! ### `thread_pool::worker` -/

/-- `submit`, thread_pool.hpp:66-77: the task at address `t`; `release` of the semaphore (lines 325-327) is taken to be
sequentially consistent, which is more than it promises. -/
def submit (w : Nat) (fresh t func parent : Int) : P Unit := do
  taskNew t func parent
  push w fresh t
  let _ ← rmw .sc .sem fun x => some (x + 1)
  pure ()

/-- `get_task`, lines 148-170: the queue of the worker itself, then those of `victims`, in order. -/
def getTask (w : Nat) : List Nat → P Int
  | [] => do
    match ← pop w with
    | some t => pure t
    | none => pure 0
  | v :: vs => do
    match ← pop w with
    | some t => pure t
    | none => stealFrom (v :: vs)
where
  /-- The first of the queues that has a task. -/
  stealFrom : List Nat → P Int
    | [] => pure 0
    | v :: vs => do
      match ← steal v with
      | some t => pure t
      | none => stealFrom vs

/-- `wait`, lines 81-93: at most `n` times round the loop; the result says whether it returned. -/
def wait (body : Int → P Unit) (w : Nat) (victims : List Nat) (t : Int) : Nat → P Bool
  | 0 => pure false
  | n + 1 => do
    if ← isCompleted t then pure true
    else do
      let next ← getTask w victims
      if next ≠ 0 then execute body next else pure ()
      let _ ← rmw .sc .sem fun x => some (x + 1)
      wait body w victims t n

/-- The inner loop of `run`, lines 115-122, once: a worker looks for a task and runs it. -/
def workOnce (body : Int → P Unit) (w : Nat) (victims : List Nat) : P Unit := do
  let t ← getTask w victims
  if t ≠ 0 then execute body t else pure ()

/-- Fresh queues (work_stealing_queue.hpp:19-25) with capacity `c`: the array of worker `w` is at address `w + 1`. -/
def initial (c : Int) : Loc → Int
  | .array w => (w : Int) + 1
  | .cap _ => c
  | .mask _ => c - 1
  | .data a => a
  | _ => 0

end CoEcs.Weak
