import Verif.Model.Chunk
import Verif.Model.Layout

/-!
# Model of `archetype` and `archetypes` (/repo/include/co_ecs/archetype.hpp)

An archetype is referred to by its index in a list (`archetype*` in the code: archetypes live behind
`std::unique_ptr` and are never destroyed before the registry).  Allocation failure is in Model/OutOfMemory.
-/

namespace CoEcs

/-- `archetype`, members at archetype.hpp:285-288, plus the ghost counters for its chunks.  `_blocks` is
determined by `_components` (see `Arch.blocks`). -/
structure Arch (V : Type) where
  comps : MetaSet
  cap : Nat
  chunks : List (Chunk V)
  tally : Tally

namespace Arch
variable {V : Type}

/-- The keys of `_blocks` in iteration order: the entity first, then the components in the order of
the metadata set (init_blocks, archetype.hpp:177-185; the dense vector of the sparse map keeps
insertion order and nothing is ever erased from it; C13 relates the sparse map to a finite map). -/
def blocks (a : Arch V) : List BlockId := none :: a.comps.metas.map fun m => some m.id

/-- The same with `std::is_copy_constructible_v` of each type. -/
def copyBlocks (a : Arch V) : List (BlockId × Bool) :=
  (none, true) :: a.comps.metas.map fun m => (some m.id, m.copyable)

/-- Constructor, archetype.hpp:26-30; `none` is `insufficient_chunk_size`. -/
def mk? (comps : MetaSet) : Option (Arch V) :=
  (Layout.maxSize comps.metas).map fun cap => ⟨comps, cap, [Chunk.fresh], Tally.zero⟩

/-- `contains`, archetype.hpp:171-173. -/
def contains (a : Arch V) (c : Nat) : Bool := a.comps.contains c

/-- `ensure_free_chunk`, archetype.hpp:275-282; `back()` of an empty vector is `none`. -/
def ensureFree (a : Arch V) : Option (Arch V) :=
  match a.chunks.getLast? with
  | none => none
  | some c => if c.size = a.cap then some { a with chunks := a.chunks ++ [Chunk.fresh] } else some a

/-- `emplace`, archetype.hpp:59-70. -/
def emplace (a : Arch V) (h : Handle) (args : List (Nat × V)) : Res (Arch V) (Nat × Nat) :=
  match a.ensureFree with
  | none => .ub
  | some a =>
    let ci := a.chunks.length - 1
    match a.chunks[ci]? with
    | none => .ub
    | some c =>
      match c.emplaceBack a.blocks a.cap a.tally h args with
      | .ok (c', t) _ => .ok { a with chunks := a.chunks.set ci c', tally := t } (ci, c.size)
      | .throw (c', t) e => .throw { a with chunks := a.chunks.set ci c', tally := t } e
      | .ub => .ub

/-- `chunk::swap_erase`, chunk.hpp:127-144, called as `chunk.swap_erase(index, other)` with chunks
number `ci` and `oi` of one archetype (they may be the same object).  A failed assertion (lines 128 and
133) is `none`. -/
def chunkSwapErase (a : Arch V) (ci idx oi : Nat) : Option (Arch V × Option Handle) :=
  match a.chunks[ci]? with
  | none => none
  | some c =>
    if idx < c.size then
      if c.size = 1 ∨ idx = c.size - 1 then
        match c.popBack a.blocks a.cap a.tally with
        | none => none
        | some (c', t) => some ({ a with chunks := a.chunks.set ci c', tally := t }, none)
      else
        match a.chunks[oi]? with
        | none => none
        | some o =>
          if o.size = 0 then none
          else
            match (o.rows (o.size - 1) none).read with
            | some (.ent h) =>
              match Row.moveAssign a.blocks (o.rows (o.size - 1)) (c.rows idx) with
              | none => none
              | some (s, d) =>
                let chunks1 := a.chunks.set ci (c.setRow idx d)
                match chunks1[oi]? with
                | none => none
                | some o1 =>
                  match (o1.setRow (o.size - 1) s).popBack a.blocks a.cap a.tally with
                  | none => none
                  | some (o2, t) => some ({ a with chunks := chunks1.set oi o2, tally := t }, some h)
            | _ => none
    else none

/-- `swap_erase`, archetype.hpp:77-85 with `get_chunk`, 260-265.  The chunk removed by
`_chunks.pop_back()` has size 0, so its destructor destroys no object. -/
def swapErase (a : Arch V) (ci idx : Nat) : Option (Arch V × Option Handle) :=
  match a.chunkSwapErase ci idx (a.chunks.length - 1) with
  | none => none
  | some (a', moved) =>
    match a'.chunks.getLast? with
    | none => none
    | some last =>
      if last.size = 0 ∧ a'.chunks.length > 1 then some ({ a' with chunks := a'.chunks.dropLast }, moved)
      else some (a', moved)

/-- `move`, archetype.hpp:94-109 with chunk.hpp:151-165.  `a` and `other` are different archetypes:
in base_registry.hpp:162, 186 their component sets differ, in 223 they belong to different
registries.  Returns the new location and the entity that filled the hole. -/
def move (a : Arch V) (ci idx : Nat) (other : Arch V) :
    Option (Arch V × Arch V × (Nat × Nat) × Option Handle) :=
  match other.ensureFree with
  | none => none
  | some o =>
    let oi := o.chunks.length - 1
    match o.chunks[oi]?, a.chunks[ci]? with
    | some oc, some c =>
      if idx < c.size ∧ oc.size < o.cap ∧ c.size ≤ a.cap then
        match Row.moveConstruct o.blocks a.blocks (c.rows idx) (oc.rows oc.size) o.tally with
        | none => none
        | some (s, d, t) =>
          let o' : Arch V :=
            { o with chunks := o.chunks.set oi { oc.setRow oc.size d with size := oc.size + 1 }, tally := t }
          match ({ a with chunks := a.chunks.set ci (c.setRow idx s) } : Arch V).swapErase ci idx with
          | none => none
          | some (a', moved) => some (a', o', (oi, oc.size), moved)
      else none
    | _, _ => none

/-- The row an entity location points to; `none` if there is none (failed assertions at
archetype.hpp:98, 120, 256, 261-263 and chunk.hpp:259). -/
def row? (a : Arch V) (ci idx : Nat) : Option (Row V) :=
  match a.chunks[ci]? with
  | none => none
  | some c => if idx < c.size ∧ c.size ≤ a.cap then some (c.rows idx) else none

/-- `copy`, archetype.hpp:116-130 with chunk.hpp:172-188, seen from the target: `src` is the row of the
source entity.  The target entry is the first free one, so it differs from the source even if both
archetypes are the same object. -/
def copyFrom (a : Arch V) (src : Row V) (srcBlocks : List (BlockId × Bool)) : Res (Arch V) (Nat × Nat) :=
  match a.ensureFree with
  | none => .ub
  | some a =>
    let ci := a.chunks.length - 1
    match a.chunks[ci]? with
    | none => .ub
    | some c =>
      if c.size < a.cap then
        match Row.copyConstruct a.blocks src srcBlocks (c.rows c.size) a.tally with
        | .ub => .ub
        | .throw (d, t) e => .throw { a with chunks := a.chunks.set ci (c.setRow c.size d), tally := t } e
        | .ok (d, t) _ =>
          .ok { a with chunks := a.chunks.set ci { c.setRow c.size d with size := c.size + 1 }, tally := t }
            (ci, c.size)
      else .ub

/-- Assignment to (or, with `construct`, construction of) the object in one cell. -/
def writeCell (a : Arch V) (ci idx : Nat) (b : BlockId) (construct : Bool) (v : Val V) : Option (Arch V) :=
  match a.row? ci idx, a.chunks[ci]? with
  | some r, some c =>
    if construct then
      some { a with chunks := a.chunks.set ci (c.setRow idx (r.construct a.tally b v).1)
                    tally := (r.construct a.tally b v).2 }
    else if (r b).occupied then some { a with chunks := a.chunks.set ci (c.setRow idx (r.set b (.live v))) }
    else none
  | _, _ => none

/-- The destructor of `_chunks`: every chunk is destroyed. -/
def destructChunks (a : Arch V) : List (Chunk V) → Tally → Option Tally
  | [], t => some t
  | c :: cs, t =>
    match c.destruct a.blocks a.cap t c.size with
    | none => none
    | some t => a.destructChunks cs t

end Arch

/-- `component_set_hasher`, component.hpp:259-267: the hash of the bit set, a `std::size_t`. -/
def setHash (b : Bitset) : Nat := b.hash.toNat

/-- `archetypes`: members at archetype.hpp:432-434.  The unique pointers of the map are indices into
`arches`, `none` being a null pointer. -/
structure Archs (V : Type) where
  search : Bitset
  map : HTable Bitset (Option Nat)
  arches : List (Arch V)

namespace Archs
variable {V : Type}

/-- Default member initialisers. -/
def empty : Archs V := ⟨Bitset.mk' 1, HTable.empty, []⟩

/-- Iterations granted to the probe loops of the hash table, which are `for (;;)` in the code; proved to
be enough in `Proofs/HashFuel.lean`. -/
def fuel (m : HTable Bitset (Option Nat)) : Nat :=
  2 * m.n + (m.slots.map fun s => match s with | some e => e.psl | none => 0).sum + 2

/-- The common part of the four `ensure_archetype` functions (archetype.hpp:307-310, 325-328, 344-347,
363-366): `_archetypes[key]`, and creation of the archetype if the pointer is null.  When the
constructor throws, the null pointer stays in the map. -/
def ensureKey (s : Archs V) (key : Bitset) (comps : MetaSet) : Res (Archs V) Nat :=
  match s.map.index setHash (fuel s.map) key none with
  | .ok (m, i) =>
    match m.deref i with
    | .ok e =>
      match e.val with
      | some a => .ok { s with map := m } a
      | none =>
        match Arch.mk? comps with
        | none => .throw { s with map := m } .insufficientChunkSize
        | some a =>
          .ok { s with map := { m with slots := m.slots.set i (some { e with val := some s.arches.length }) }
                       arches := s.arches ++ [a] } s.arches.length
    | _ => .ub
  | _ => .ub

/-- `ensure_archetype(components)`, archetype.hpp:306-314. -/
def ensureSet (s : Archs V) (comps : MetaSet) : Res (Archs V) Nat := s.ensureKey comps.set comps

/-- `ensure_archetype<Components...>()`, archetype.hpp:320-332. -/
def ensure (s : Archs V) (cs : List CompMeta) : Res (Archs V) Nat :=
  let search := cs.foldl (fun b m => b.set m.id true) s.search.clear
  ({ s with search := search } : Archs V).ensureKey search (MetaSet.create cs)

/-- `ensure_archetype_added<C>(anchor)`, archetype.hpp:339-351 with 412-417, for one component (the only
use, base_registry.hpp:161). -/
def ensureAdded (s : Archs V) (anchor : Nat) (m : CompMeta) : Res (Archs V) Nat :=
  match s.arches[anchor]? with
  | none => .ub
  | some a =>
    let search := a.comps.set.set m.id true
    ({ s with search := search } : Archs V).ensureKey search (a.comps.insert m)

/-- `ensure_archetype_removed<C>(anchor)`, archetype.hpp:358-370 with 419-424, for one component (the
only use, base_registry.hpp:185). -/
def ensureRemoved (s : Archs V) (anchor : Nat) (m : CompMeta) : Res (Archs V) Nat :=
  match s.arches[anchor]? with
  | none => .ub
  | some a =>
    let search := a.comps.set.set m.id false
    ({ s with search := search } : Archs V).ensureKey search (a.comps.erase m.id)

end Archs

end CoEcs
