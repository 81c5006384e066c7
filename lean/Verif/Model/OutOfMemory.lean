import Verif.Model.Registry
import Verif.Model.HashThrow

/-!
# Running out of memory in the registry
(/repo/include/co_ecs/base_registry.hpp, archetype.hpp, detail/handle.hpp)

The other models take every allocation to succeed.  Here the functions are given an allocation that throws
`std::bad_alloc`; the result is the state the exception leaves behind, `none` if the call does not get to that allocation.
The conditions for getting there are those of the code, except that a growth of a `std::vector` is taken to be possible
whenever an element is added (the code asks for memory only if the capacity is used up).

Simplifications: a vector whose growth fails is as before (`emplace_back`, `push_back`, `resize` and copy assignment give
that for elements that can be moved without exception: integers, chunks and unique pointers), the move of a pair of a
component set and a unique pointer does not allocate, so `reserve` of the map can fail only while the new bucket arrays
are allocated.  The components themselves do not throw.
-/

namespace CoEcs

/-- The allocations. -/
inductive MemPoint where
  /-- `_generations.emplace_back()` in `create`, handle.hpp:82 -/
  | gens
  /-- the growth of `_search_component_set`, archetype.hpp:321-323, 340-341, 359-360; `n` components are in already -/
  | search (n : Nat)
  /-- the new bucket arrays of the map, hash_table.hpp:615 -/
  | grow
  /-- the copy of the component set for the new element, hash_table.hpp:811 -/
  | key
  /-- the archetype with its first chunk, archetype.hpp:327, 346, 365 with 408-424 -/
  | arch
  /-- a new chunk, archetype.hpp:280 -/
  | chunk
  /-- `_free_ids.push_back` in `recycle`, handle.hpp:103 -/
  | free
  deriving DecidableEq, Repr

namespace Pool

/-- `create`, handle.hpp:74-84, when `_generations.emplace_back()` throws: `_next_id` has been incremented (81). -/
def createOom (p : Pool) : Option Pool :=
  match p.free.getLast? with
  | some _ => none
  | none => some p.bump

/-- `recycle`, handle.hpp:98-105, when `_free_ids.push_back` throws: the generation has been incremented (102). -/
def recycleOom (p : Pool) (h : Handle) : Option Pool :=
  if p.alive h then some { p with gens := p.gens.set h.id ((h.gen + 1) % U32) } else none

/-- `flush`, handle.hpp:121-134, when `_generations.emplace_back()` throws after `n` successful ones: the new value of the
cursor is stored only at the end (133). -/
def flushOom (p : Pool) (n : Nat) : Option Pool :=
  if n < (-p.cursor).toNat then some { p with gens := p.gens ++ List.replicate n 0 } else none

end Pool

namespace Archs
variable {V : Type}

/-- `_archetypes[key]` and the creation of the archetype (archetype.hpp:325-328 and the like, `Archs.ensureKey`) when an
allocation throws.  `operator[]` looks the key up before it grows the map (hash_table.hpp:742-751). -/
def ensureKeyOom (s : Archs V) (key : Bitset) : MemPoint → Option (Archs V)
  | .grow =>
    match s.map.find setHash (fuel s.map) key with
    | .ok none => if s.map.size > HTable.approx85 s.map.n then some s else none
    | _ => none
  | .key =>
    match s.map.find setHash (fuel s.map) key with
    | .ok none =>
      match s.map.emplaceTry setHash false (fuel s.map) key none (some 0) with
      | .threw t => some { s with map := t }
      | _ => none
    | _ => none
  | .arch =>
    match s.map.index setHash (fuel s.map) key none with
    | .ok (m, i) =>
      match m.deref i with
      | .ok e =>
        match e.val with
        | some _ => none
        | none => some { s with map := m }
      | _ => none
    | _ => none
  | _ => none

end Archs

namespace Arch
variable {V : Type}

/-- `ensure_free_chunk` asks for memory, archetype.hpp:275-282. -/
def needsChunk (a : Arch V) : Bool :=
  match a.chunks.getLast? with
  | none => false
  | some c => c.size == a.cap

end Arch

namespace Reg
variable {V : Type}

/-- `ensure_archetype...` and the request for a free chunk, seen from the registry: `search i` is the search set after the
first `i` steps if one is computed, `found` the one during the lookup, `key` what is looked up and `done` the call that
succeeds (archetype.hpp:306-370, 275-282). -/
def ensureOom (r : Reg V) (search : Nat → Option Bitset) (found key : Bitset) (done : Res (Archs V) Nat) : MemPoint → Option (Reg V)
  | .search n =>
    match search n with
    | none => none
    | some b => some { r with archs := { r.archs with search := b } }
  | .chunk =>
    match done with
    | .ok s ai =>
      match s.arches[ai]? with
      | none => none
      | some a => if a.needsChunk then some { r with archs := s } else none
    | _ => none
  | pt =>
    match ({ r.archs with search := found } : Archs V).ensureKeyOom key pt with
    | none => none
    | some s => some { r with archs := s }

/-- `create_impl`, base_registry.hpp:140-150, up to the chunk. -/
def createOom (ty : Types) (r : Reg V) (args : List (Nat × V)) (pt : MemPoint) : Option (Reg V) :=
  if pt = .gens then
    match r.pool.createOom with
    | none => none
    | some p => some { r with pool := p }
  else
    match r.pool.create with
    | none => none
    | some (p, h) =>
      let cs := args.map fun x => ty.info x.1
      let key := cs.foldl (fun b m => b.set m.id true) r.archs.search.clear
      ({ r with pool := p } : Reg V).ensureOom (fun n => some ((cs.take n).foldl (fun b m => b.set m.id true) r.archs.search.clear))
        key key (r.archs.ensure cs) pt

/-- `create_impl` gets to the insertion of the location, base_registry.hpp:147 with 284-286, and that asks for memory.
`operator[]` of the sparse map is `noexcept` (sparse_table.hpp:258), so `std::bad_alloc` ends the program. -/
def createEnds (ty : Types) (r : Reg V) (args : List (Nat × V)) (q : SparseThrow) : Bool :=
  match r.pool.create with
  | none => false
  | some (_, h) =>
    match r.archs.ensure (args.map fun x => ty.info x.1) with
    | .ok s ai =>
      match s.arches[ai]? with
      | none => false
      | some a =>
        match a.emplace h args with
        | .ok _ _ =>
          match r.locs.emplaceThrows h.id q with
          | .ok (some _) => true
          | _ => false
        | _ => false
    | _ => false

/-- `destroy`, base_registry.hpp:55-67: only `recycle` asks for memory (the location of the moved entity is in the map). -/
def destroyOom (r : Reg V) (h : Handle) : Option (Reg V) :=
  match r.location h with
  | .ok l =>
    match r.archOf l with
    | none => none
    | some (ai, a) =>
      match a.swapErase l.chunk l.entry with
      | none => none
      | some (a', moved) =>
        match (r.setArch ai a').removeLoc h.id with
        | none => none
        | some r1 =>
          match r1.setMoved moved l with
          | none => none
          | some r2 =>
            match r2.pool.recycleOom h with
            | none => none
            | some p => some { r2 with pool := p }
  | _ => none

/-- `set_impl`, base_registry.hpp:152-174 (`set`, entity_ref.hpp:176-185): `move` asks for the chunk before it moves
anything (archetype.hpp:94-109), the locations are in the map. -/
def setOom (ty : Types) (r : Reg V) (h : Handle) (c : Nat) (pt : MemPoint) : Option (Reg V) :=
  match r.location h with
  | .ok l =>
    match r.archOf l with
    | none => none
    | some (ai, a) =>
      if a.contains c then none
      else
        r.ensureOom (fun n => some (if n = 0 then r.archs.search else a.comps.set)) (a.comps.set.set (ty.info c).id true)
          (a.comps.set.set (ty.info c).id true)
          (r.archs.ensureAdded ai (ty.info c)) pt
  | _ => none

/-- `remove`, base_registry.hpp:176-192. -/
def removeOom (ty : Types) (r : Reg V) (h : Handle) (c : Nat) (pt : MemPoint) : Option (Reg V) :=
  match r.location h with
  | .ok l =>
    match r.archOf l with
    | none => none
    | some (ai, a) =>
      if a.contains c then
        r.ensureOom (fun n => some (if n = 0 then r.archs.search else a.comps.set)) (a.comps.set.set (ty.info c).id false)
          (a.comps.set.set (ty.info c).id false)
          (r.archs.ensureRemoved ai (ty.info c)) pt
      else none
  | _ => none

/-- The pool after `allocate`, base_registry.hpp:205-207, which is called if there is no placeholder. -/
def placed (d : Reg V) : Option Handle → Option Pool
  | some _ => some d.pool
  | none =>
    match d.pool.create with
    | none => none
    | some (p, _) => some p

/-- `copy(ent, dest)`, `copy(ent, dest, placeholder)` and `clone`, base_registry.hpp:214-216, 242-265, up to the chunk: what
is left of the destination.  Without a placeholder an id is allocated first.  The key is the component set of the
archetype of the source (archetype.hpp:306-314). -/
def copyOom (r : Reg V) (h : Handle) (d : Reg V) (ph : Option Handle) (pt : MemPoint) : Option (Reg V) :=
  if pt = .gens then
    match ph with
    | some _ => none
    | none =>
      match d.pool.createOom with
      | none => none
      | some p => some { d with pool := p }
  else
    match d.placed ph with
    | none => none
    | some p =>
      match r.location h with
      | .ok l =>
        match r.archOf l with
        | none => none
        | some (_, a) =>
          ({ d with pool := p } : Reg V).ensureOom (fun _ => none) d.archs.search a.comps.set (d.archs.ensureSet a.comps) pt
      | _ => none

/-- `set_location`, base_registry.hpp:284-286, asks for memory. -/
def locEnds (d : Reg V) (ph : Handle) (q : SparseThrow) : Bool :=
  match d.locs.emplaceThrows ph.id q with
  | .ok (some _) => true
  | _ => false

/-- `copy(ent, dest, placeholder)` gets to the insertion of the location, base_registry.hpp:254, and that asks for memory,
which ends the program as in `create`. -/
def copyEnds (r : Reg V) (h : Handle) (d : Reg V) (ph : Handle) (q : SparseThrow) : Bool :=
  match r.rowOf h with
  | .ok (a, row) =>
    match d.archs.ensureSet a.comps with
    | .ok s di =>
      match s.arches[di]? with
      | none => false
      | some da =>
        match da.copyFrom row a.copyBlocks with
        | .ok _ _ => d.locEnds ph q
        | _ => false
    | _ => false
  | _ => false

/-- The same for `move(ent, dest, placeholder)`, base_registry.hpp:237. -/
def moveEnds (r : Reg V) (h : Handle) (d : Reg V) (ph : Handle) (q : SparseThrow) : Bool :=
  match r.location h with
  | .ok l =>
    match r.archOf l with
    | none => false
    | some (ai, a) =>
      match d.archs.ensureSet a.comps with
      | .ok s di =>
        match s.arches[di]? with
        | none => false
        | some da =>
          match a.move l.chunk l.entry da with
          | none => false
          | some (a', _, _, moved) =>
            match (r.setArch ai a').removeLoc h.id with
            | none => false
            | some r1 =>
              match r1.setMoved (if moved = some h then none else moved) l with
              | none => false
              | some _ => d.locEnds ph q
      | _ => false
  | _ => false

/-- `move(ent, dest)` and `move(ent, dest, placeholder)`, base_registry.hpp:209-212, 218-240: what is left of the source and of
the destination.  The chunk is asked for before anything is moved; `recycle` (230) is called when the entity is in the
destination and before it has got its new handle there (232-237). -/
def moveOom (r : Reg V) (h : Handle) (d : Reg V) (ph : Option Handle) (pt : MemPoint) : Option (Reg V × Reg V) :=
  if pt = .free then
    match d.placed ph with
    | none => none
    | some p =>
      match r.location h with
      | .ok l =>
        match r.archOf l with
        | none => none
        | some (ai, a) =>
          match d.archs.ensureSet a.comps with
          | .ok s di =>
            match s.arches[di]? with
            | none => none
            | some da =>
              match a.move l.chunk l.entry da with
              | none => none
              | some (a', da', _, moved) =>
                match (r.setArch ai a').removeLoc h.id with
                | none => none
                | some r1 =>
                  match r1.setMoved (if moved = some h then none else moved) l with
                  | none => none
                  | some r2 =>
                    match r2.pool.recycleOom h with
                    | none => none
                    | some q => some ({ r2 with pool := q }, ({ d with pool := p, archs := s } : Reg V).setArch di da')
          | _ => none
      | _ => none
  else
    match r.copyOom h d ph pt with
    | none => none
    | some d' => some (r, d')

end Reg

end CoEcs
