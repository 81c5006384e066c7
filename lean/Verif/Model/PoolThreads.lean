/-!
# Model of which worker a thread uses
(/repo/include/co_ecs/thread_pool/thread_pool.hpp: `_instance`, `current_worker`)

Every thread has its own pointer `current_worker`; pools are created and destroyed one after the other.  Pools and
threads are numbered in the order in which they come into being.
-/

namespace CoEcs

/-- A pool object: the thread that constructed it, its workers' threads by index from 1, and whether it lives. -/
structure PoolObj where
  owner : Nat
  workers : List Nat
  alive : Bool
  deriving DecidableEq, Repr

/-- `_instance` (thread_pool.hpp:335), every pool there was, and `current_worker` (line 106) of every thread: a
pool and the index of one of its workers.  Threads from `threads` on do not exist yet. -/
structure PoolWorld where
  inst : Option Nat
  pools : List PoolObj
  cur : Nat → Option (Nat × Nat)
  threads : Nat

namespace PoolWorld

/-- A program with `m` threads of its own, before any pool. -/
def init (m : Nat) : PoolWorld := ⟨none, [], fun _ => none, m⟩

/-- Outcome of an operation. -/
inductive Res where
  | ok (w : PoolWorld)
  /-- an exception -/
  | threw (w : PoolWorld)
  /-- `std::terminate` -/
  | terminated
  /-- undefined behaviour -/
  | ub

/-- `current_worker` of the threads of the workers `1 … n - 1` of pool `id`, which get the numbers from `base` on
(thread_pool.hpp:109, 132-134, 232-239). -/
def startAll (cur : Nat → Option (Nat × Nat)) (base id n : Nat) : Nat → Option (Nat × Nat) :=
  fun t => if base ≤ t ∧ t < base + (n - 1) then some (id, t - base + 1) else cur t

/-- `thread_pool(n)` by thread `t` (thread_pool.hpp:217-239), `n > 0`.  `fails = some k`: starting the thread of
worker `k` throws; then the workers are destroyed, which terminates the program if one of their threads was
started, and `_instance` is left. -/
def construct (w : PoolWorld) (t n : Nat) (fails : Option Nat) : Res :=
  match w.inst with
  | some _ => .threw w
  | none =>
    let id := w.pools.length
    let cur0 := fun s => if s = t then some (id, 0) else w.cur s
    match fails with
    | none => .ok ⟨some id, w.pools ++ [⟨t, (List.range (n - 1)).map (w.threads + ·), true⟩], startAll cur0 w.threads id n, w.threads + (n - 1)⟩
    | some k =>
      if k < 2 then .threw ⟨some id, w.pools ++ [⟨t, [], false⟩], cur0, w.threads⟩ else .terminated

/-- `~thread_pool()` of pool `id` (thread_pool.hpp:242-254); its threads end.  `ub` if it does not live. -/
def destroy (w : PoolWorld) (id : Nat) : Res :=
  match w.pools[id]? with
  | some o => if o.alive then .ok ⟨none, w.pools.modify id (fun o => { o with alive := false }), w.cur, w.threads⟩ else .ub
  | none => .ub

/-- `thread_pool::get()` (thread_pool.hpp:264-271) by thread `t`: the pool; `n` is the number of processors.  The static
pool is never destroyed while the program runs, so it is constructed at most once. -/
def get (w : PoolWorld) (t n : Nat) (fails : Option Nat) : Res :=
  match w.inst with
  | some _ => .ok w
  | none => w.construct t n fails

/-- `submit` or `wait` by thread `t` (thread_pool.hpp:277-285, 302-304, 59-61): the worker that serves it, `none` if the
behaviour is undefined. -/
def serve (w : PoolWorld) (t : Nat) : Option (Nat × Nat) :=
  match w.cur t with
  | none => none
  | some (id, k) =>
    match w.pools[id]? with
    | some o => if o.alive then some (id, k) else none
    | none => none

/-- A thread of the program. -/
inductive Op where
  | construct (t n : Nat) (fails : Option Nat)
  | destroy (id : Nat)
  | get (t n : Nat) (fails : Option Nat)
  deriving DecidableEq, Repr

def apply (w : PoolWorld) : Op → Res
  | .construct t n f => w.construct t n f
  | .destroy id => w.destroy id
  | .get t n f => w.get t n f

/-- The thread that does it exists. -/
def Op.Possible (w : PoolWorld) : Op → Prop
  | .construct t _ _ => t < w.threads
  | .destroy _ => True
  | .get t _ _ => t < w.threads

end PoolWorld

open PoolWorld in
/-- What a program with `m` threads of its own can reach. -/
inductive WorldReach (m : Nat) : PoolWorld → Prop
  | init : WorldReach m (PoolWorld.init m)
  | ok {w w' : PoolWorld} (op : Op) : WorldReach m w → op.Possible w → w.apply op = .ok w' → WorldReach m w'
  | threw {w w' : PoolWorld} (op : Op) : WorldReach m w → op.Possible w → w.apply op = .threw w' → WorldReach m w'

end CoEcs
