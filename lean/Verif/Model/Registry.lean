import Verif.Model.Archetype

/-!
# Model of `base_registry`, `registry` and `entity_ref`
(/repo/include/co_ecs/base_registry.hpp, registry.hpp, entity_ref.hpp)

Component types are given by their ids; `Types` supplies the metadata, as `component_meta::of<C>()`
does.  References and pointers into chunks are locations; they are used immediately unless stated.
-/

namespace CoEcs

/-- `component_meta::of<C>()` for the component type with a given id, component.hpp:156-161. -/
structure Types where
  info : Nat → CompMeta
  id_eq : ∀ c, (info c).id = c

/-- `entity_location`, entity_location.hpp:11-21; `arch = none` is the null pointer. -/
structure Loc where
  arch : Option Nat
  chunk : Nat
  entry : Nat
  deriving DecidableEq, Repr

/-- A value-initialised `entity_location`. -/
def Loc.null : Loc := ⟨none, 0, 0⟩

/-- `base_registry`, members at base_registry.hpp:293-295. -/
structure Reg (V : Type) where
  pool : Pool
  archs : Archs V
  locs : SparseTable Loc

namespace Reg
variable {V : Type}

/-- A default-constructed registry. -/
def empty : Reg V := ⟨Pool.empty, Archs.empty, SparseTable.empty⟩

/-- `alive`, base_registry.hpp:45-47. -/
def alive (r : Reg V) (h : Handle) : Bool := r.pool.alive h

/-- `get_location` with `ensure_alive`, base_registry.hpp:268-282. -/
def location (r : Reg V) (h : Handle) : Obs Loc :=
  if r.alive h then r.locs.at_ h.id else .throw .entityNotFound

/-- `set_location`, base_registry.hpp:284-286.  `operator[]` does not throw. -/
def setLoc (r : Reg V) (id : Nat) (l : Loc) : Option (Reg V) :=
  match r.locs.assign 32 id Loc.null l with
  | .ok t _ => some { r with locs := t }
  | _ => none

/-- `remove_location`, base_registry.hpp:288-290. -/
def removeLoc (r : Reg V) (id : Nat) : Option (Reg V) :=
  match r.locs.erase id with
  | .ok t _ => some { r with locs := t }
  | _ => none

/-- Replace one archetype object (assignment in place). -/
def setArch (r : Reg V) (i : Nat) (a : Arch V) : Reg V :=
  { r with archs := { r.archs with arches := r.archs.arches.set i a } }

/-- The archetype a location points to; null or dangling is `none`. -/
def archOf (r : Reg V) (l : Loc) : Option (Nat × Arch V) :=
  match l.arch with
  | none => none
  | some i =>
    match r.archs.arches[i]? with
    | none => none
    | some a => some (i, a)

/-- `set_location(moved->id(), location)` if an entity was moved (base_registry.hpp:62-64, 166-168,
187-189). -/
def setMoved (r : Reg V) (moved : Option Handle) (l : Loc) : Option (Reg V) :=
  match moved with
  | none => some r
  | some m => r.setLoc m.id l

/-- `create_impl`, base_registry.hpp:140-150 (`create`, registry.hpp:38-41).  The component types in
`args` are pairwise different (compile-time check at line 143). -/
def create (ty : Types) (r : Reg V) (args : List (Nat × V)) : Res (Reg V) Handle :=
  match r.pool.create with
  | none => .ub
  | some (p, h) =>
    let r : Reg V := { r with pool := p }
    match r.archs.ensure (args.map fun x => ty.info x.1) with
    | .ub => .ub
    | .throw s e => .throw { r with archs := s } e
    | .ok s ai =>
      let r : Reg V := { r with archs := s }
      match r.archs.arches[ai]? with
      | none => .ub
      | some a =>
        match a.emplace h args with
        | .ub => .ub
        | .throw a' e => .throw (r.setArch ai a') e
        | .ok a' (ci, idx) =>
          match (r.setArch ai a').setLoc h.id ⟨some ai, ci, idx⟩ with
          | none => .ub
          | some r => .ok r h

/-- `destroy`, base_registry.hpp:55-67. -/
def destroy (r : Reg V) (h : Handle) : Res (Reg V) Unit :=
  match r.location h with
  | .ub => .ub
  | .throw e => .throw r e
  | .ok l =>
    match r.archOf l with
    | none => .ub
    | some (ai, a) =>
      match a.swapErase l.chunk l.entry with
      | none => .ub
      | some (a', moved) =>
        match (r.setArch ai a').removeLoc h.id with
        | none => .ub
        | some r1 =>
          match r1.setMoved moved l with
          | none => .ub
          | some r2 => .ok { r2 with pool := r2.pool.recycle h } ()

/-- The relocation shared by `set_impl` (base_registry.hpp:162-171) and `remove` (186-191): move the
entity to archetype `ni`.  `location` is a reference into the location map; the map is not resized in
between because both entities are in it, and it is overwritten only at the end. -/
def relocate (r : Reg V) (h : Handle) (l : Loc) (ai ni : Nat) : Option (Reg V × Loc) :=
  match r.archs.arches[ai]?, r.archs.arches[ni]? with
  | some a, some n =>
    if ai = ni then none
    else
      match a.move l.chunk l.entry n with
      | none => none
      | some (a', n', (ci, idx), moved) =>
        match ((r.setArch ai a').setArch ni n').setMoved moved l with
        | none => none
        | some r1 =>
          match r1.setLoc h.id ⟨some ni, ci, idx⟩ with
          | none => none
          | some r2 => some (r2, ⟨some ni, ci, idx⟩)
  | _, _ => none

/-- `set_impl`, base_registry.hpp:152-174: whether the component was added, and the location its
pointer refers to.  In the first case no object has been constructed there yet. -/
def setImpl (ty : Types) (r : Reg V) (h : Handle) (c : Nat) : Res (Reg V) (Bool × Loc) :=
  match r.location h with
  | .ub => .ub
  | .throw e => .throw r e
  | .ok l =>
    match r.archOf l with
    | none => .ub
    | some (ai, a) =>
      if a.contains c then .ok r (false, l)
      else
        match r.archs.ensureAdded ai (ty.info c) with
        | .ub => .ub
        | .throw s e => .throw { r with archs := s } e
        | .ok s ni =>
          match ({ r with archs := s } : Reg V).relocate h l ai ni with
          | none => .ub
          | some (r', l') => .ok r' (true, l')

/-- Construction of, or assignment to, the component `c` at a location. -/
def writeAt (r : Reg V) (l : Loc) (c : Nat) (construct : Bool) (v : V) : Option (Reg V) :=
  match r.archOf l with
  | none => none
  | some (ai, a) =>
    if some c ∈ a.blocks then
      match a.writeCell l.chunk l.entry (some c) construct (.comp v) with
      | none => none
      | some a' => some (r.setArch ai a')
    else none

/-- Reading the component `c` at a location through a pointer; `none` if there is no object. -/
def readAt (r : Reg V) (l : Loc) (c : Nat) : Option V :=
  match r.archOf l with
  | none => none
  | some (_, a) =>
    match a.row? l.chunk l.entry with
    | none => none
    | some row =>
      match (row (some c)).read with
      | some (.comp v) => some v
      | _ => none

/-- `entity_ref::set`, entity_ref.hpp:176-185: construction in place, or assignment of a temporary. -/
def set (ty : Types) (r : Reg V) (h : Handle) (c : Nat) (v : V) : Res (Reg V) Unit :=
  match r.setImpl ty h c with
  | .ub => .ub
  | .throw r e => .throw r e
  | .ok r' (inserted, l) =>
    match r'.writeAt l c inserted v with
    | none => .ub
    | some r'' => .ok r'' ()

/-- `e.set<C>(x)` where `x` is the reference returned by `get<D>()` of an entity before the call:
entity_ref.hpp:176-185 forwards the argument, so it is read after `set_impl` has moved things around.
The conversion from `D` to `C` is taken to keep the value. -/
def setFrom (ty : Types) (r : Reg V) (h : Handle) (c : Nat) (src : Handle) (sc : Nat) : Res (Reg V) Unit :=
  match r.location src with
  | .ub => .ub
  | .throw e => .throw r e
  | .ok ls =>
    match r.archOf ls with
    | none => .ub
    | some (_, a) =>
      if some sc ∈ a.blocks then
        match r.setImpl ty h c with
        | .ub => .ub
        | .throw r e => .throw r e
        | .ok r' (inserted, l) =>
          match r'.readAt ls sc with
          | none => .ub
          | some v =>
            match r'.writeAt l c inserted v with
            | none => .ub
            | some r'' => .ok r'' ()
      else .throw r .componentNotFound

/-- `remove`, base_registry.hpp:176-192 (entity_ref.hpp:201-205). -/
def remove (ty : Types) (r : Reg V) (h : Handle) (c : Nat) : Res (Reg V) Unit :=
  match r.location h with
  | .ub => .ub
  | .throw e => .throw r e
  | .ok l =>
    match r.archOf l with
    | none => .ub
    | some (ai, a) =>
      if a.contains c then
        match r.archs.ensureRemoved ai (ty.info c) with
        | .ub => .ub
        | .throw s e => .throw { r with archs := s } e
        | .ok s ni =>
          match ({ r with archs := s } : Reg V).relocate h l ai ni with
          | none => .ub
          | some (r', _) => .ok r' ()
      else .ok r ()

/-- `has<C...>`, base_registry.hpp:112-116. -/
def has (r : Reg V) (h : Handle) (cs : List Nat) : Obs Bool :=
  match r.location h with
  | .ub => .ub
  | .throw e => .throw e
  | .ok l =>
    match r.archOf l with
    | none => .ub
    | some (_, a) => .ok (cs.all a.contains)

/-- The row of an entity. -/
def rowOf (r : Reg V) (h : Handle) : Obs (Arch V × Row V) :=
  match r.location h with
  | .ub => .ub
  | .throw e => .throw e
  | .ok l =>
    match r.archOf l with
    | none => .ub
    | some (_, a) =>
      match a.row? l.chunk l.entry with
      | none => .ub
      | some row => .ok (a, row)

/-- `get<C>`, entity_ref.hpp:76-79 with base_registry.hpp:194-203, archetype.hpp:253-258 and
chunk.hpp:313-335: the value behind the returned reference. -/
def get (r : Reg V) (h : Handle) (c : Nat) : Obs V :=
  match r.rowOf h with
  | .ub => .ub
  | .throw e => .throw e
  | .ok (a, row) =>
    if some c ∈ a.blocks then
      match (row (some c)).read with
      | some (.comp v) => .ok v
      | _ => .ub
    else .throw .componentNotFound

/-- The statement `get<C>() = v`: assignment through the returned reference. -/
def assign (r : Reg V) (h : Handle) (c : Nat) (v : V) : Res (Reg V) Unit :=
  match r.location h with
  | .ub => .ub
  | .throw e => .throw r e
  | .ok l =>
    match r.archOf l with
    | none => .ub
    | some (_, a) =>
      match a.row? l.chunk l.entry with
      | none => .ub
      | some _ =>
        if some c ∈ a.blocks then
          match r.writeAt l c false v with
          | none => .ub
          | some r' => .ok r' ()
        else .throw r .componentNotFound

/-- `get_or_insert<C>`, entity_ref.hpp:149-156. -/
def getOrInsert (ty : Types) (r : Reg V) (h : Handle) (c : Nat) (v : V) : Res (Reg V) V :=
  match r.setImpl ty h c with
  | .ub => .ub
  | .throw r e => .throw r e
  | .ok r' (inserted, l) =>
    match (if inserted then r'.writeAt l c true v else some r') with
    | none => .ub
    | some r'' =>
      match r''.readAt l c with
      | none => .ub
      | some v => .ok r'' v

/-- The loop of `visit_impl`, chunk.hpp:264-270: the function is applied to every component block, the
first block (the entity) being dropped. -/
def visitRow (row : Row V) : List BlockId → Obs (List (Nat × V))
  | [] => .ok []
  | b :: bs =>
    match b, (row b).read with
    | some c, some (.comp v) =>
      match visitRow row bs with
      | .ok l => .ok ((c, v) :: l)
      | .throw e => .throw e
      | .ub => .ub
    | _, _ => .ub

/-- `visit`, base_registry.hpp:121-134 with archetype.hpp:135-144, chunk.hpp:190-202: the components the
function is called with. -/
def visit (r : Reg V) (h : Handle) : Obs (List (Nat × V)) :=
  match r.rowOf h with
  | .ub => .ub
  | .throw e => .throw e
  | .ok (a, row) => visitRow row (a.blocks.drop 1)

/-- The part of `copy` (base_registry.hpp:245-256) that changes the destination: `a` is the source
archetype and `row` the source row. -/
def receive (d : Reg V) (a : Arch V) (row : Row V) (ph : Handle) : Res (Reg V) Handle :=
  match d.archs.ensureSet a.comps with
  | .ub => .ub
  | .throw s e => .throw { d with archs := s } e
  | .ok s di =>
    match s.arches[di]? with
    | none => .ub
    | some da =>
      match da.copyFrom row a.copyBlocks with
      | .ub => .ub
      | .throw da' e => .throw (({ d with archs := s } : Reg V).setArch di da') e
      | .ok da' (ci, idx) =>
        match da'.writeCell ci idx none false (.ent ph) with
        | none => .ub
        | some da'' =>
          match (({ d with archs := s } : Reg V).setArch di da'').setLoc ph.id ⟨some di, ci, idx⟩ with
          | none => .ub
          | some d' => .ok d' ph

/-- `clone(ent, placeholder)`, base_registry.hpp:263-265 with `copy`, 242-257, source and destination
being this registry. -/
def cloneInto (r : Reg V) (h : Handle) (ph : Handle) : Res (Reg V) Handle :=
  match r.rowOf h with
  | .ub => .ub
  | .throw e => .throw r e
  | .ok (a, row) => r.receive a row ph

/-- `clone(ent)`, base_registry.hpp:259-261: the id is allocated before `copy` looks at the source. -/
def clone (r : Reg V) (h : Handle) : Res (Reg V) Handle :=
  match r.pool.create with
  | none => .ub
  | some (p, ph) => ({ r with pool := p } : Reg V).cloneInto h ph

/-- `copy(ent, dest, placeholder)` to another registry, base_registry.hpp:242-257.  The result is the
state of the destination; the source is const. -/
def copyInto (r : Reg V) (h : Handle) (d : Reg V) (ph : Handle) : Res (Reg V) Handle :=
  match r.rowOf h with
  | .ub => .ub
  | .throw e => .throw d e
  | .ok (a, row) => d.receive a row ph

/-- `copy(ent, dest)`, base_registry.hpp:214-216. -/
def copyTo (r : Reg V) (h : Handle) (d : Reg V) : Res (Reg V) Handle :=
  match d.pool.create with
  | none => .ub
  | some (p, ph) => r.copyInto h { d with pool := p } ph

/-- `move(ent, dest, placeholder)`, base_registry.hpp:218-240, for two different registries.  The state
is the pair (source, destination). -/
def moveInto (r : Reg V) (h : Handle) (d : Reg V) (ph : Handle) : Res (Reg V × Reg V) Handle :=
  match r.location h with
  | .ub => .ub
  | .throw e => .throw (r, d) e
  | .ok l =>
    match r.archOf l with
    | none => .ub
    | some (ai, a) =>
      match d.archs.ensureSet a.comps with
      | .ub => .ub
      | .throw s e => .throw (r, { d with archs := s }) e
      | .ok s di =>
        match s.arches[di]? with
        | none => .ub
        | some da =>
          match a.move l.chunk l.entry da with
          | none => .ub
          | some (a', da', (ci, idx), moved) =>
            match (r.setArch ai a').removeLoc h.id with
            | none => .ub
            | some r1 =>
              match r1.setMoved (if moved = some h then none else moved) l with
              | none => .ub
              | some r2 =>
                match da'.writeCell ci idx none false (.ent ph) with
                | none => .ub
                | some da'' =>
                  match (({ d with archs := s } : Reg V).setArch di da'').setLoc ph.id ⟨some di, ci, idx⟩ with
                  | none => .ub
                  | some d' => .ok ({ r2 with pool := r2.pool.recycle h }, d') ph

/-- `move(ent, dest)`, base_registry.hpp:209-212. -/
def moveTo (r : Reg V) (h : Handle) (d : Reg V) : Res (Reg V × Reg V) Handle :=
  match d.pool.create with
  | none => .ub
  | some (p, ph) => r.moveInto h { d with pool := p } ph

/-- `reserve`, base_registry.hpp:97-99. -/
def reserve (r : Reg V) : Res (Reg V) Handle :=
  match r.pool.reserve with
  | none => .ub
  | some (p, h) => .ok { r with pool := p } h

/-- `sync`, base_registry.hpp:103-105. -/
def sync (r : Reg V) : Reg V := { r with pool := r.pool.flush }

/-- `registry::size`, registry.hpp:173-175 with sparse_table.hpp (`size`). -/
def size (r : Reg V) : Nat := r.locs.size

/-- `registry::empty`, registry.hpp:179-181. -/
def isEmpty (r : Reg V) : Bool := r.locs.size == 0

/-- The destructor of the registry: the archetypes destroy their chunks (chunk.hpp:88-98); the result
lists the final counters of the archetypes. -/
def destruct (r : Reg V) : Option (List Tally) :=
  r.archs.arches.mapM fun a => a.destructChunks a.chunks a.tally

end Reg

/-- `entity_ref::has` is declared `noexcept` (entity_ref.hpp:54-57) around a function that throws:
`none` is `std::terminate`. -/
def Reg.refHas {V : Type} (r : Reg V) (h : Handle) (cs : List Nat) : Option (Obs Bool) :=
  match r.has h cs with
  | .throw _ => none
  | o => some o

end CoEcs
