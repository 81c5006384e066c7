import Verif.Spec.Registry

/-!
# Model of registry calls whose destructors call the registry
(/repo/include/co_ecs/base_registry.hpp, archetype.hpp, chunk.hpp, entity_ref.hpp)

The value of a component is released when its object is destroyed (chunk.hpp:294-298) or assigned to
(chunk.hpp:136-141, entity_ref.hpp:181, or through a reference).  User code that runs then, for example a
destructor that destroys the children of an entity, may call the registry again, in the middle of the
function that released the value.  In `Model/Registry.lean` such code does nothing; here `destroy`, `remove`
and `set` are split at the places where it runs.

Simplifications: what a release does depends on the type and the value of the component only; an exception
of an inner call is caught by the destructor; a move assignment first releases the old value and then takes
the new one; moved-from objects release nothing.
-/

namespace CoEcs
open Spec (RegOp Out noHandle)
variable {V : Type}

/-- What the release of value `v` of component type `c` calls. -/
abbrev Released (V : Type) := Nat → V → List (RegOp V)

/-- Result of code that runs destructors; `more`: the calls are nested deeper than the given depth. -/
inductive Ran (σ : Type) where
  | ok (s : σ)
  | ub
  | more

/-- A reference that a function on the stack holds while destructors run.  `chunks`: to a chunk in the vector
of archetype `ai`, which has `n` chunks.  `loc`: to position `p` of the dense vector of the location map,
which has `n` entries. -/
inductive Watch where
  | chunks (ai n : Nat)
  | loc (p n : Nat)
  deriving DecidableEq

/-- The reference is still valid.  Simplification: a vector that grows counts as reallocated; its spare
capacity is not modelled. -/
def Watch.valid (r : Reg V) : Watch → Bool
  | .chunks ai n => (r.archs.arches[ai]?).map (fun a => a.chunks.length) == some n
  | .loc p n => p < r.locs.dense.length && r.locs.dense.length ≤ n

namespace Arch

/-- The cell of a block; `none` is outside the storage. -/
def cell (a : Arch V) (ci idx : Nat) (b : BlockId) : Option (Cell V) :=
  match a.chunks[ci]? with
  | none => none
  | some c => if idx < a.cap then some (c.rows idx b) else none

/-- Put something into a cell. -/
def putCell (a : Arch V) (ci idx : Nat) (b : BlockId) (x : Cell V) : Arch V :=
  match a.chunks[ci]? with
  | none => a
  | some c => { a with chunks := a.chunks.set ci (c.setRow idx ((c.rows idx).set b x)) }

/-- Change `_size` of a chunk. -/
def putSize (a : Arch V) (ci n : Nat) : Arch V :=
  match a.chunks[ci]? with
  | none => a
  | some c => { a with chunks := a.chunks.set ci { c with size := n } }

end Arch

namespace Reg

/-- Change an archetype in place. -/
def modArch (r : Reg V) (ai : Nat) (f : Arch V → Arch V) : Reg V :=
  { r with archs := { r.archs with arches := r.archs.arches.modify ai f } }

/-- The release of the object in a cell: nothing happens for handles and for moved-from objects. -/
def releaseCell (rel : Reg V → Nat → V → Ran (Reg V)) (r : Reg V) (b : BlockId) : Cell V → Ran (Reg V)
  | .raw => .ub
  | .moved => .ok r
  | .live (.ent _) => .ok r
  | .live (.comp v) =>
    match b with
    | none => .ok r
    | some c => rel r c v

/-- `destroy_at`, chunk.hpp:294-298: the objects of entry `idx` of chunk `ci` are destroyed one after the
other; the storage of an object is dead when its destructor has ended. -/
def destroyCells (rel : Reg V → Nat → V → Ran (Reg V)) (ai ci idx : Nat) : List BlockId → Reg V → Ran (Reg V)
  | [], r => .ok r
  | b :: bs, r =>
    match (r.archs.arches[ai]?).bind fun a => a.cell ci idx b with
    | none => .ub
    | some x =>
      match releaseCell rel r b x with
      | .ub => .ub
      | .more => .more
      | .ok r =>
        destroyCells rel ai ci idx bs (r.modArch ai fun a => { a.putCell ci idx b .raw with tally := a.tally.free b })

/-- The loop of `swap_erase`, chunk.hpp:136-141: entry `oidx` of chunk `oi` is move-assigned to entry `idx` of
chunk `ci`. -/
def assignCells (rel : Reg V → Nat → V → Ran (Reg V)) (ai ci idx oi oidx : Nat) : List BlockId → Reg V → Ran (Reg V)
  | [], r => .ok r
  | b :: bs, r =>
    match (r.archs.arches[ai]?).bind fun a => a.cell ci idx b with
    | none => .ub
    | some x =>
      match releaseCell rel r b x with
      | .ub => .ub
      | .more => .more
      | .ok r =>
        match ((r.archs.arches[ai]?).bind fun a => a.cell oi oidx b).bind Cell.read with
        | none => .ub
        | some v =>
          assignCells rel ai ci idx oi oidx bs
            (r.modArch ai fun a => (a.putCell oi oidx b v.leave).putCell ci idx b (.live v))

/-- `pop_back`, chunk.hpp:114-118: the size is reduced before the objects are destroyed. -/
def popBackWith (rel : Reg V → Nat → V → Ran (Reg V)) (r : Reg V) (ai ci : Nat) : Ran (Reg V) :=
  match r.archs.arches[ai]? with
  | none => .ub
  | some a =>
    match a.chunks[ci]? with
    | none => .ub
    | some c =>
      if 0 < c.size ∧ c.size ≤ a.cap then
        destroyCells rel ai ci (c.size - 1) a.blocks (r.modArch ai fun a => a.putSize ci (c.size - 1))
      else .ub

/-- `chunk::swap_erase`, chunk.hpp:127-144, with chunks `ci` and `oi` of archetype `ai`. -/
def chunkSwapEraseWith (rel : Reg V → Nat → V → Ran (Reg V)) (r : Reg V) (ai ci idx oi : Nat) : Ran (Reg V × Option Handle) :=
  match r.archs.arches[ai]? with
  | none => .ub
  | some a =>
    match a.chunks[ci]? with
    | none => .ub
    | some c =>
      if idx < c.size then
        if c.size = 1 ∨ idx = c.size - 1 then
          match r.popBackWith rel ai ci with
          | .ub => .ub
          | .more => .more
          | .ok r => .ok (r, none)
        else
          match a.chunks[oi]? with
          | none => .ub
          | some o =>
            if o.size = 0 then .ub
            else
              match (o.rows (o.size - 1) none).read with
              | some (.ent h) =>
                match assignCells rel ai ci idx oi (o.size - 1) a.blocks r with
                | .ub => .ub
                | .more => .more
                | .ok r =>
                  match r.popBackWith rel ai oi with
                  | .ub => .ub
                  | .more => .more
                  | .ok r => .ok (r, some h)
              | _ => .ub
      else .ub

/-- `archetype::swap_erase`, archetype.hpp:77-85.  `chunk` and `last_chunk` are references held meanwhile. -/
def swapEraseWith (rel : List Watch → Reg V → Nat → V → Ran (Reg V)) (w : List Watch) (r : Reg V) (ai ci idx : Nat) :
    Ran (Reg V × Option Handle) :=
  match r.archs.arches[ai]? with
  | none => .ub
  | some a =>
    match r.chunkSwapEraseWith (rel (.chunks ai a.chunks.length :: w)) ai ci idx (a.chunks.length - 1) with
    | .ub => .ub
    | .more => .more
    | .ok (r, moved) =>
      match (r.archs.arches[ai]?).bind fun a => a.chunks.getLast? with
      | none => .ub
      | some last =>
        if last.size = 0 ∧ a.chunks.length > 1 then
          .ok (r.modArch ai fun a => { a with chunks := a.chunks.dropLast }, moved)
        else .ok (r, moved)

/-- `destroy`, base_registry.hpp:55-67: the location is copied first; the id is recycled last. -/
def destroyWith (rel : List Watch → Reg V → Nat → V → Ran (Reg V)) (w : List Watch) (r : Reg V) (h : Handle) : Ran (Reg V × Out) :=
  match r.location h with
  | .ub => .ub
  | .throw e => .ok (r, .throw e)
  | .ok l =>
    match l.arch with
    | none => .ub
    | some ai =>
      match r.swapEraseWith rel w ai l.chunk l.entry with
      | .ub => .ub
      | .more => .more
      | .ok (r, moved) =>
        match r.removeLoc h.id with
        | none => .ub
        | some r =>
          match r.setMoved moved l with
          | none => .ub
          | some r => .ok ({ r with pool := r.pool.recycle h }, .ok none)

/-- Position of the location of an entity in the dense vector: what `get_location` returns a reference to
(base_registry.hpp:274-277, sparse_table.hpp:229-236). -/
def locPos (r : Reg V) (h : Handle) : Option Nat := r.locs.sparse[h.id]?

/-- `chunk::move` within `archetype::move`, archetype.hpp:95-101 with chunk.hpp:151-165: the entity is
move-constructed in archetype `ni`.  Returns the entry it got there. -/
def moveOut (r : Reg V) (l : Loc) (ai ni : Nat) : Option (Reg V × Nat) :=
  match r.archs.arches[ai]?, r.archs.arches[ni]? with
  | some a, some n =>
    if ai = ni then none
    else
      match n.ensureFree with
      | none => none
      | some o =>
        match o.chunks[o.chunks.length - 1]?, a.chunks[l.chunk]? with
        | some oc, some c =>
          if l.entry < c.size ∧ oc.size < o.cap ∧ c.size ≤ a.cap then
            match Row.moveConstruct o.blocks a.blocks (c.rows l.entry) (oc.rows oc.size) o.tally with
            | none => none
            | some (s, d, t) =>
              let o' : Arch V :=
                { o with chunks := o.chunks.set (o.chunks.length - 1) { oc.setRow oc.size d with size := oc.size + 1 }, tally := t }
              some ((r.setArch ai { a with chunks := a.chunks.set l.chunk (c.setRow l.entry s) }).setArch ni o', oc.size)
          else none
        | _, _ => none
  | _, _ => none

/-- `remove`, base_registry.hpp:176-192, with `archetype::move`, archetype.hpp:94-109.  `location` and
`archetype` are references into the location map that are used after the destructors have run; the chunk
number of the new location is computed then, too (archetype.hpp:104). -/
def removeWith (ty : Types) (rel : List Watch → Reg V → Nat → V → Ran (Reg V)) (w : List Watch) (r : Reg V) (h : Handle) (c : Nat) :
    Ran (Reg V × Out) :=
  match r.location h with
  | .ub => .ub
  | .throw e => .ok (r, .throw e)
  | .ok l =>
    match r.archOf l, r.locPos h with
    | some (ai, a), some p =>
      if a.contains c then
        match r.archs.ensureRemoved ai (ty.info c) with
        | .ub => .ub
        | .throw s e => .ok ({ r with archs := s }, .throw e)
        | .ok s ni =>
          match ({ r with archs := s } : Reg V).moveOut l ai ni with
          | none => .ub
          | some (r, entry) =>
            match r.swapEraseWith rel (.loc p r.locs.dense.length :: w) ai l.chunk l.entry with
            | .ub => .ub
            | .more => .more
            | .ok (r, moved) =>
              match r.locs.dense[p]?, r.archs.arches[ni]? with
              | some x, some n =>
                match r.setMoved moved x.2 with
                | none => .ub
                | some r =>
                  match ({ r with locs := { r.locs with
                      dense := r.locs.dense.modify p fun y => (y.1, { y.2 with arch := some ni }) } } : Reg V).setLoc h.id
                      ⟨some ni, n.chunks.length - 1, entry⟩ with
                  | none => .ub
                  | some r => .ok (r, .ok none)
              | _, _ => .ub
      else .ok (r, .ok none)
    | _, _ => .ub

/-- Assignment to component `c` at a location, through a reference: the old value is released, then the new
one is stored. -/
def overwriteWith (rel : List Watch → Reg V → Nat → V → Ran (Reg V)) (w : List Watch) (r : Reg V) (l : Loc) (c : Nat) (v : V) :
    Ran (Reg V × Out) :=
  match r.archOf l with
  | none => .ub
  | some (ai, a) =>
    match a.cell l.chunk l.entry (some c) with
    | none => .ub
    | some x =>
      match releaseCell (rel (.chunks ai a.chunks.length :: w)) r (some c) x with
      | .ub => .ub
      | .more => .more
      | .ok r =>
        match r.writeAt l c false v with
        | none => .ub
        | some r => .ok (r, .ok none)

/-- `entity_ref::set`, entity_ref.hpp:176-185: a new component is constructed in place; an old one is assigned
a temporary, which is moved from. -/
def setWith (ty : Types) (rel : List Watch → Reg V → Nat → V → Ran (Reg V)) (w : List Watch) (r : Reg V) (h : Handle) (c : Nat) (v : V) :
    Ran (Reg V × Out) :=
  match r.setImpl ty h c with
  | .ub => .ub
  | .throw r e => .ok (r, .throw e)
  | .ok r (true, l) =>
    match r.writeAt l c true v with
    | none => .ub
    | some r => .ok (r, .ok none)
  | .ok r (false, l) => r.overwriteWith rel w l c v

/-- The statement `get<C>() = v`. -/
def assignWith (rel : List Watch → Reg V → Nat → V → Ran (Reg V)) (w : List Watch) (r : Reg V) (h : Handle) (c : Nat) (v : V) :
    Ran (Reg V × Out) :=
  match r.location h with
  | .ub => .ub
  | .throw e => .ok (r, .throw e)
  | .ok l =>
    match r.archOf l with
    | none => .ub
    | some (_, a) =>
      match a.row? l.chunk l.entry with
      | none => .ub
      | some _ =>
        if some c ∈ a.blocks then r.overwriteWith rel w l c v
        else .ok (r, .throw .componentNotFound)

end Reg

/-- A call that releases no value. -/
def Ran.ofRes : Res (Reg V) (Option Handle) → Ran (Reg V × Out)
  | .ub => .ub
  | .throw r e => .ok (r, .throw e)
  | .ok r h => .ok (r, .ok h)

/-- Calls one after the other, while the functions below on the stack hold the references `w`. -/
def callsWith (step : List Watch → Reg V → RegOp V → Ran (Reg V × Out)) (w : List Watch) : List (RegOp V) → Reg V → Ran (Reg V)
  | [], r => .ok r
  | k :: ks, r =>
    match step w r k with
    | .ub => .ub
    | .more => .more
    | .ok (r, _) => if w.all (Watch.valid r) then callsWith step w ks r else .ub

/-- One call, with calls of destructors nested at most `n` deep. -/
def stepWith (ty : Types) (hook : Released V) : Nat → List Watch → Reg V → RegOp V → Ran (Reg V × Out)
  | 0, _, _, _ => .more
  | n + 1, w, r, op =>
    let rel := fun (w : List Watch) (r : Reg V) (c : Nat) (v : V) => callsWith (stepWith ty hook n) w (hook c v) r
    match op with
    | .destroy h => r.destroyWith rel w h
    | .remove h c => r.removeWith ty rel w h c
    | .set h c v => r.setWith ty rel w h c v
    | .assign h c v => r.assignWith rel w h c v
    | op => Ran.ofRes (op.run ty r)

/-- Calls of a program, one after the other. -/
def runWith (ty : Types) (hook : Released V) (n : Nat) (ops : List (RegOp V)) (r : Reg V) : Ran (Reg V) :=
  callsWith (stepWith ty hook n) [] ops r

end CoEcs
