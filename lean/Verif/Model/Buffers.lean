import Verif.Spec.Registry

/-!
# The buffers behind the chunks: where components are in memory
(/repo/include/co_ecs/chunk.hpp:45-98, archetype.hpp:26-30, 59-109, 275-282, base_registry.hpp:55-265)

`Model/Registry.lean` refers to a component by archetype, chunk number and entry.  A reference returned by
`get<C>()` is an address: a buffer from `new chunk_buffer` (chunk.hpp:55), the block of the component type and
the entry.  Here the operations are written once more with the buffers: every `emplace_back` on `_chunks`
takes a new one and every `pop_back` gives the last one up.  Buffers are numbered in the order of their
allocation; the number stands for the allocation, so it is not used again (the address may be).  When the
vector of chunks is reallocated, the chunks keep their buffers (move constructor, chunk.hpp:71-73), so nothing is
done then.  `Proofs/Buffers.lean` shows that forgetting the buffers gives back `Model/Registry.lean`.
-/

namespace CoEcs
open Spec (RegOp SysOp Sys Out)

/-- A pointer to a component: buffer, block and entry.  The address is
`buffer + block.offset + entry * size` (chunk.hpp:313-335); offset and size are fixed for the archetype the
buffer belongs to (C13). -/
structure Ptr where
  buf : Nat
  comp : Nat
  entry : Nat
  deriving DecidableEq, Repr

/-- A registry with its buffers: for every archetype those of its chunks, and the number of the next one. -/
structure BReg (V : Type) where
  reg : Reg V
  bufs : Nat → List Nat
  next : Nat

namespace BReg
variable {V : Type}

/-- A default-constructed registry. -/
def empty : BReg V := ⟨Reg.empty, fun _ => [], 0⟩

/-- `_archetypes` after one of the functions `ensure_archetype`.  If a new archetype has been added, its
constructor has allocated the first chunk (archetype.hpp:29). -/
def withArchs (b : BReg V) (s : Archs V) : BReg V :=
  if s.arches.length = b.reg.archs.arches.length then { b with reg := { b.reg with archs := s } }
  else
    { reg := { b.reg with archs := s }
      bufs := fun i => if i = b.reg.archs.arches.length then [b.next] else b.bufs i
      next := b.next + 1 }

/-- Archetype `i` after one call of `emplace`, `swap_erase`, `move`, `copy` or an access: such a call
appends at most one chunk (`ensure_free_chunk`, archetype.hpp:275-282, called once at 61, 95 and 117) or
removes at most the last (archetype.hpp:81-83). -/
def setArch (b : BReg V) (i : Nat) (a : Arch V) : BReg V :=
  if (b.bufs i).length < a.chunks.length then
    { reg := b.reg.setArch i a
      bufs := fun j => if j = i then b.bufs i ++ [b.next] else b.bufs j
      next := b.next + 1 }
  else if a.chunks.length < (b.bufs i).length then
    { b with reg := b.reg.setArch i a, bufs := fun j => if j = i then (b.bufs i).dropLast else b.bufs j }
  else { b with reg := b.reg.setArch i a }

/-- `set_location`, base_registry.hpp:284-286. -/
def setLoc (b : BReg V) (id : Nat) (l : Loc) : Option (BReg V) :=
  match b.reg.setLoc id l with
  | none => none
  | some r => some { b with reg := r }

/-- `remove_location`, base_registry.hpp:288-290. -/
def removeLoc (b : BReg V) (id : Nat) : Option (BReg V) :=
  match b.reg.removeLoc id with
  | none => none
  | some r => some { b with reg := r }

/-- `set_location` for the entity that filled the hole, base_registry.hpp:62-64, 166-168, 187-189. -/
def setMoved (b : BReg V) (moved : Option Handle) (l : Loc) : Option (BReg V) :=
  match b.reg.setMoved moved l with
  | none => none
  | some r => some { b with reg := r }

/-- A change of the handle pool. -/
def withPool (b : BReg V) (p : Pool) : BReg V := { b with reg := { b.reg with pool := p } }

/-- `create_impl`, base_registry.hpp:140-150. -/
def create (ty : Types) (b : BReg V) (args : List (Nat × V)) : Res (BReg V) Handle :=
  match b.reg.pool.create with
  | none => .ub
  | some (p, h) =>
    let b := b.withPool p
    match b.reg.archs.ensure (args.map fun x => ty.info x.1) with
    | .ub => .ub
    | .throw s e => .throw (b.withArchs s) e
    | .ok s ai =>
      let b := b.withArchs s
      match s.arches[ai]? with
      | none => .ub
      | some a =>
        match a.emplace h args with
        | .ub => .ub
        | .throw a' e => .throw (b.setArch ai a') e
        | .ok a' (ci, idx) =>
          match (b.setArch ai a').setLoc h.id ⟨some ai, ci, idx⟩ with
          | none => .ub
          | some b => .ok b h

/-- `destroy`, base_registry.hpp:55-67. -/
def destroy (b : BReg V) (h : Handle) : Res (BReg V) Unit :=
  match b.reg.location h with
  | .ub => .ub
  | .throw e => .throw b e
  | .ok l =>
    match b.reg.archOf l with
    | none => .ub
    | some (ai, a) =>
      match a.swapErase l.chunk l.entry with
      | none => .ub
      | some (a', moved) =>
        match (b.setArch ai a').removeLoc h.id with
        | none => .ub
        | some b1 =>
          match b1.setMoved moved l with
          | none => .ub
          | some b2 => .ok (b2.withPool (b2.reg.pool.recycle h)) ()

/-- The relocation in `set_impl` and `remove`, base_registry.hpp:162-171, 186-191. -/
def relocate (b : BReg V) (h : Handle) (l : Loc) (ai ni : Nat) : Option (BReg V × Loc) :=
  match b.reg.archs.arches[ai]?, b.reg.archs.arches[ni]? with
  | some a, some n =>
    if ai = ni then none
    else
      match a.move l.chunk l.entry n with
      | none => none
      | some (a', n', (ci, idx), moved) =>
        match ((b.setArch ai a').setArch ni n').setMoved moved l with
        | none => none
        | some b1 =>
          match b1.setLoc h.id ⟨some ni, ci, idx⟩ with
          | none => none
          | some b2 => some (b2, ⟨some ni, ci, idx⟩)
  | _, _ => none

/-- `set_impl`, base_registry.hpp:152-174. -/
def setImpl (ty : Types) (b : BReg V) (h : Handle) (c : Nat) : Res (BReg V) (Bool × Loc) :=
  match b.reg.location h with
  | .ub => .ub
  | .throw e => .throw b e
  | .ok l =>
    match b.reg.archOf l with
    | none => .ub
    | some (ai, a) =>
      if a.contains c then .ok b (false, l)
      else
        match b.reg.archs.ensureAdded ai (ty.info c) with
        | .ub => .ub
        | .throw s e => .throw (b.withArchs s) e
        | .ok s ni =>
          match (b.withArchs s).relocate h l ai ni with
          | none => .ub
          | some (b', l') => .ok b' (true, l')

/-- Construction of, or assignment to, the component `c` at a location. -/
def writeAt (b : BReg V) (l : Loc) (c : Nat) (construct : Bool) (v : V) : Option (BReg V) :=
  match b.reg.archOf l with
  | none => none
  | some (ai, a) =>
    if some c ∈ a.blocks then
      match a.writeCell l.chunk l.entry (some c) construct (.comp v) with
      | none => none
      | some a' => some (b.setArch ai a')
    else none

/-- `entity_ref::set`, entity_ref.hpp:176-185. -/
def set (ty : Types) (b : BReg V) (h : Handle) (c : Nat) (v : V) : Res (BReg V) Unit :=
  match b.setImpl ty h c with
  | .ub => .ub
  | .throw b e => .throw b e
  | .ok b' (inserted, l) =>
    match b'.writeAt l c inserted v with
    | none => .ub
    | some b'' => .ok b'' ()

/-- `remove`, base_registry.hpp:176-192. -/
def remove (ty : Types) (b : BReg V) (h : Handle) (c : Nat) : Res (BReg V) Unit :=
  match b.reg.location h with
  | .ub => .ub
  | .throw e => .throw b e
  | .ok l =>
    match b.reg.archOf l with
    | none => .ub
    | some (ai, a) =>
      if a.contains c then
        match b.reg.archs.ensureRemoved ai (ty.info c) with
        | .ub => .ub
        | .throw s e => .throw (b.withArchs s) e
        | .ok s ni =>
          match (b.withArchs s).relocate h l ai ni with
          | none => .ub
          | some (b', _) => .ok b' ()
      else .ok b ()

/-- The statement `get<C>() = v`. -/
def assign (b : BReg V) (h : Handle) (c : Nat) (v : V) : Res (BReg V) Unit :=
  match b.reg.location h with
  | .ub => .ub
  | .throw e => .throw b e
  | .ok l =>
    match b.reg.archOf l with
    | none => .ub
    | some (_, a) =>
      match a.row? l.chunk l.entry with
      | none => .ub
      | some _ =>
        if some c ∈ a.blocks then
          match b.writeAt l c false v with
          | none => .ub
          | some b' => .ok b' ()
        else .throw b .componentNotFound

/-- `get_or_insert<C>`, entity_ref.hpp:149-156. -/
def getOrInsert (ty : Types) (b : BReg V) (h : Handle) (c : Nat) (v : V) : Res (BReg V) V :=
  match b.setImpl ty h c with
  | .ub => .ub
  | .throw b e => .throw b e
  | .ok b' (inserted, l) =>
    match (if inserted then b'.writeAt l c true v else some b') with
    | none => .ub
    | some b'' =>
      match b''.reg.readAt l c with
      | none => .ub
      | some v => .ok b'' v

/-- The part of `copy` that changes the destination, base_registry.hpp:245-256. -/
def receive (b : BReg V) (a : Arch V) (row : Row V) (ph : Handle) : Res (BReg V) Handle :=
  match b.reg.archs.ensureSet a.comps with
  | .ub => .ub
  | .throw s e => .throw (b.withArchs s) e
  | .ok s di =>
    match s.arches[di]? with
    | none => .ub
    | some da =>
      match da.copyFrom row a.copyBlocks with
      | .ub => .ub
      | .throw da' e => .throw ((b.withArchs s).setArch di da') e
      | .ok da' (ci, idx) =>
        match da'.writeCell ci idx none false (.ent ph) with
        | none => .ub
        | some da'' =>
          match ((b.withArchs s).setArch di da'').setLoc ph.id ⟨some di, ci, idx⟩ with
          | none => .ub
          | some b' => .ok b' ph

/-- `clone(ent, placeholder)` and `copy(ent, dest, placeholder)`, base_registry.hpp:242-257, 263-265: `r` is the
source. -/
def copyInto (r : Reg V) (h : Handle) (b : BReg V) (ph : Handle) : Res (BReg V) Handle :=
  match r.rowOf h with
  | .ub => .ub
  | .throw e => .throw b e
  | .ok (a, row) => b.receive a row ph

/-- `clone(ent)`, base_registry.hpp:259-261. -/
def clone (b : BReg V) (h : Handle) : Res (BReg V) Handle :=
  match b.reg.pool.create with
  | none => .ub
  | some (p, ph) => copyInto (b.withPool p).reg h (b.withPool p) ph

/-- `copy(ent, dest)`, base_registry.hpp:214-216. -/
def copyTo (r : Reg V) (h : Handle) (b : BReg V) : Res (BReg V) Handle :=
  match b.reg.pool.create with
  | none => .ub
  | some (p, ph) => copyInto r h (b.withPool p) ph

/-- `move(ent, dest, placeholder)`, base_registry.hpp:218-240. -/
def moveInto (b : BReg V) (h : Handle) (d : BReg V) (ph : Handle) : Res (BReg V × BReg V) Handle :=
  match b.reg.location h with
  | .ub => .ub
  | .throw e => .throw (b, d) e
  | .ok l =>
    match b.reg.archOf l with
    | none => .ub
    | some (ai, a) =>
      match d.reg.archs.ensureSet a.comps with
      | .ub => .ub
      | .throw s e => .throw (b, d.withArchs s) e
      | .ok s di =>
        match s.arches[di]? with
        | none => .ub
        | some da =>
          match a.move l.chunk l.entry da with
          | none => .ub
          | some (a', da', (ci, idx), moved) =>
            match (b.setArch ai a').removeLoc h.id with
            | none => .ub
            | some b1 =>
              match b1.setMoved (if moved = some h then none else moved) l with
              | none => .ub
              | some b2 =>
                match da'.writeCell ci idx none false (.ent ph) with
                | none => .ub
                | some da'' =>
                  match ((d.withArchs s).setArch di da'').setLoc ph.id ⟨some di, ci, idx⟩ with
                  | none => .ub
                  | some d' => .ok (b2.withPool (b2.reg.pool.recycle h), d') ph

/-- `move(ent, dest)`, base_registry.hpp:209-212. -/
def moveTo (b : BReg V) (h : Handle) (d : BReg V) : Res (BReg V × BReg V) Handle :=
  match d.reg.pool.create with
  | none => .ub
  | some (p, ph) => b.moveInto h (d.withPool p) ph

/-- `reserve`, base_registry.hpp:97-99. -/
def reserve (b : BReg V) : Res (BReg V) Handle :=
  match b.reg.pool.reserve with
  | none => .ub
  | some (p, h) => .ok (b.withPool p) h

/-- `sync`, base_registry.hpp:103-105. -/
def sync (b : BReg V) : BReg V := b.withPool b.reg.pool.flush

/-- The pointer behind the reference returned by `get<C>()`, entity_ref.hpp:76-79 with
base_registry.hpp:194-203, archetype.hpp:253-258 and chunk.hpp:313-335; `none` if there is no such component. -/
def addr (b : BReg V) (h : Handle) (c : Nat) : Option Ptr :=
  match b.reg.location h with
  | .ok l =>
    match b.reg.archOf l with
    | none => none
    | some (ai, a) =>
      if some c ∈ a.blocks then
        match (b.bufs ai)[l.chunk]? with
        | none => none
        | some n => some ⟨n, c, l.entry⟩
      else none
  | _ => none

/-- What is behind a pointer: the buffer belongs to a chunk, the entry is one of its entries and the block is
one of the archetype; `v` is the component there. -/
def PointsTo (b : BReg V) (p : Ptr) (v : V) : Prop :=
  ∃ ai ci a row, (b.bufs ai)[ci]? = some p.buf ∧ b.reg.archs.arches[ai]? = some a ∧ a.row? ci p.entry = some row ∧
    some p.comp ∈ a.blocks ∧ (row (some p.comp)).read = some (.comp v)

end BReg

variable {V : Type}

/-- Execute an operation on one registry. -/
def BReg.run (ty : Types) (b : BReg V) : RegOp V → Res (BReg V) (Option Handle)
  | .create args => Spec.withHandle (b.create ty args)
  | .destroy h => Spec.noHandle (b.destroy h)
  | .set h c v => Spec.noHandle (b.set ty h c v)
  | .remove h c => Spec.noHandle (b.remove ty h c)
  | .assign h c v => Spec.noHandle (b.assign h c v)
  | .getOrInsert h c v => Spec.noHandle (b.getOrInsert ty h c v)
  | .clone h none => Spec.withHandle (b.clone h)
  | .clone h (some ph) => Spec.withHandle (BReg.copyInto b.reg h b ph)
  | .reserve => Spec.withHandle b.reserve
  | .sync => .ok b.sync none

/-- A family of registries with their buffers. -/
structure BSys (V : Type) where
  sys : Sys V
  bufs : Nat → Nat → List Nat
  next : Nat → Nat

namespace BSys

def init : BSys V := ⟨Sys.init, fun _ _ => [], fun _ => 0⟩

/-- Registry number `i` with its buffers. -/
def reg (s : BSys V) (i : Nat) : BReg V := ⟨s.sys.reg i, s.bufs i, s.next i⟩

def setReg (s : BSys V) (i : Nat) (b : BReg V) : BSys V :=
  ⟨s.sys.setReg i b.reg, fun j => if j = i then b.bufs else s.bufs j, fun j => if j = i then b.next else s.next j⟩

/-- Execute one operation; `none` is undefined behaviour. -/
def step (ty : Types) (s : BSys V) : SysOp V → Option (BSys V × Out)
  | .on i op =>
    match (s.reg i).run ty op with
    | .ub => none
    | .throw b e => some (s.setReg i b, .throw e)
    | .ok b h => some ({ s.setReg i b with sys := (s.setReg i b).sys.note i op h }, .ok h)
  | .copy i h j ph =>
    match (match ph with
      | none => BReg.copyTo (s.reg i).reg h (s.reg j)
      | some p => BReg.copyInto (s.reg i).reg h (s.reg j) p) with
    | .ub => none
    | .throw d e => some (s.setReg j d, .throw e)
    | .ok d h' => some ({ s.setReg j d with sys := (s.setReg j d).sys.use j ph }, .ok (some h'))
  | .move i h j ph =>
    match (match ph with
      | none => (s.reg i).moveTo h (s.reg j)
      | some p => (s.reg i).moveInto h (s.reg j) p) with
    | .ub => none
    | .throw (r, d) e => some ((s.setReg i r).setReg j d, .throw e)
    | .ok (r, d) h' =>
      some ({ (s.setReg i r).setReg j d with sys := ((s.setReg i r).setReg j d).sys.use j ph }, .ok (some h'))

end BSys

end CoEcs
