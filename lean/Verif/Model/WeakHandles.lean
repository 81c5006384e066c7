import Verif.Model.WeakPool

/-!
# `handle_pool` with its memory orders

/repo/include/co_ecs/detail/handle.hpp:68-141 as programs for the machine of `Model/Weak.lean`.  A vector is an object (its
pointers, here its size) that every access to it reads, and elements.  What lies outside of the vectors is not
guarded here; the theorems say that nothing outside is read.
-/

namespace CoEcs.Weak

def nextId : Loc := .pool .next
def cursor : Loc := .pool .cursor
def gens : Loc := .pool .gens
def gen (i : Nat) : Loc := .pool (.gen i)
def frees : Loc := .pool .frees
def freeId (k : Nat) : Loc := .pool (.free k)

/-- `reserve`, handle.hpp:110-118: id and generation. -/
def reserve : P (Int × Int) := do
  let n ← rmw .rlx cursor fun x => some (x - 1)
  if n > 0 then do
    let _ ← read frees
    let id ← read (freeId (n - 1).toNat)
    let _ ← read gens
    let g ← read (gen id.toNat)
    pure (id, g)
  else do
    let id ← rmw .rlx nextId fun x => some ((x + 1) % 4294967296)
    pure (id, 0)

/-- `_generations.emplace_back()`. -/
def addGen : P Unit := do
  let k ← read gens
  let _ ← write (gen k.toNat) 0
  let _ ← write gens (k + 1)
  pure ()

/-- The first loop of `flush`, handle.hpp:124-127: `n` iterations. -/
def addGens : Nat → P Unit
  | 0 => pure ()
  | n + 1 => do
    addGen
    addGens n

/-- The second loop of `flush`, handle.hpp:129-131: `n` iterations. -/
def dropFrees : Nat → P Unit
  | 0 => pure ()
  | n + 1 => do
    let k ← read frees
    let _ ← write frees (k - 1)
    dropFrees n

/-- `flush`, handle.hpp:121-134.  The second loop ends when the size has come down to the cursor; how often it is run is
determined by the size at its beginning, as nobody else may change it. -/
def flush : P Unit := do
  let c ← load .rlx cursor
  addGens (-c).toNat
  let k ← read frees
  dropFrees (k - max c 0).toNat
  let _ ← store .rlx cursor (max c 0)
  pure ()

/-- `create`, handle.hpp:74-84. -/
def create : P (Int × Int) := do
  let n ← read frees
  if n > 0 then do
    let id ← read (freeId (n - 1).toNat)
    let _ ← write frees (n - 1)
    let _ ← store .rlx cursor (n - 1)
    let _ ← read gens
    let g ← read (gen id.toNat)
    pure (id, g)
  else do
    let id ← rmw .rlx nextId fun x => some ((x + 1) % 4294967296)
    addGen
    pure (id, 0)

/-- `alive`, handle.hpp:89-94. -/
def alive (h : Int × Int) : P Bool := do
  let n ← read gens
  if h.1 < n then do
    let g ← read (gen h.1.toNat)
    pure (decide (g = h.2))
  else pure false

/-- `recycle`, handle.hpp:98-105. -/
def recycle (h : Int × Int) : P Unit := do
  if ← alive h then do
    let _ ← read gens
    let g ← read (gen h.1.toNat)
    let _ ← write (gen h.1.toNat) ((g + 1) % 4294967296)
    let k ← read frees
    let _ ← write (freeId k.toNat) h.1
    let _ ← write frees (k + 1)
    let _ ← rmw .rlx cursor fun x => some (x + 1)
    pure ()
  else pure ()

/-- A pool with the generations `G` and the free ids `F`, between two calls, and fresh queues of capacity `c`. -/
def pooled (c : Int) (F G : List Nat) : Loc → Int
  | .pool .next => G.length
  | .pool .cursor => F.length
  | .pool .gens => G.length
  | .pool (.gen i) => G.getD i 0
  | .pool .frees => F.length
  | .pool (.free k) => F.getD k 0
  | l => initial c l

end CoEcs.Weak
