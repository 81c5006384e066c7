import Verif.Model.Registry

/-!
# Moving an entity to a reserved entity of its own registry

`entity_ref::move(destination, placeholder)` (entity_ref.hpp:321-323) calls `move` of base_registry.hpp:218-240,
which, unlike the overload without placeholder (209-212), does not assert that the registries differ.  The target
archetype is then the archetype of the entity itself.
-/

namespace CoEcs
variable {V : Type}

/-- `move`, archetype.hpp:94-109 with chunk.hpp:151-165, for `&other == this`: the entry is appended behind the
others, its old place is closed with `swap_erase` (whose last entry is now that of the entity itself), and the new
location is computed afterwards (`other._chunks.size() - 1`, line 104). -/
def Arch.moveSelf (a : Arch V) (ci idx : Nat) : Option (Arch V × (Nat × Nat) × Option Handle) :=
  match a.ensureFree with
  | none => none
  | some o =>
    let oi := o.chunks.length - 1
    match o.chunks[oi]?, o.chunks[ci]? with
    | some oc, some c =>
      if idx < c.size ∧ oc.size < o.cap ∧ c.size ≤ o.cap then
        match Row.moveConstruct o.blocks o.blocks (c.rows idx) (oc.rows oc.size) o.tally with
        | none => none
        | some (s, d, t) =>
          let o1 : Arch V :=
            { o with chunks := o.chunks.set oi { oc.setRow oc.size d with size := oc.size + 1 }, tally := t }
          match o1.chunks[ci]? with
          | none => none
          | some c1 =>
            match ({ o1 with chunks := o1.chunks.set ci (c1.setRow idx s) } : Arch V).swapErase ci idx with
            | none => none
            | some (a', moved) => some (a', (a'.chunks.length - 1, oc.size), moved)
      else none
    | _, _ => none

namespace Reg

/-- Lines 221-223 of `move(ent, *this, placeholder)`, base_registry.hpp:218-240, after the target archetype `di` has
been found: the registry, the new location, and the entity that filled the hole.  (The target is always `ai`,
`C91_same_archetype`.) -/
def moveEntry (r : Reg V) (ai : Nat) (a : Arch V) (di : Nat) (l : Loc) : Option (Reg V × Loc × Option Handle) :=
  if di = ai then
    match a.moveSelf l.chunk l.entry with
    | none => none
    | some (a', (ci, idx), moved) => some (r.setArch ai a', ⟨some di, ci, idx⟩, moved)
  else
    match r.archs.arches[di]? with
    | none => none
    | some da =>
      match a.move l.chunk l.entry da with
      | none => none
      | some (a', da', (ci, idx), moved) => some ((r.setArch ai a').setArch di da', ⟨some di, ci, idx⟩, moved)

/-- Lines 231-235 of base_registry.hpp:218-240: the handle in the chunk at the new location is overwritten. -/
def rename (r : Reg V) (l : Loc) (ph : Handle) : Option (Reg V) :=
  match r.archOf l with
  | none => none
  | some (ai, a) =>
    match a.writeCell l.chunk l.entry none false (.ent ph) with
    | none => none
    | some a' => some (r.setArch ai a')

/-- `move(ent, dest, placeholder)`, base_registry.hpp:218-240, where `dest` is the registry itself. -/
def moveWithin (r : Reg V) (h ph : Handle) : Res (Reg V) Handle :=
  match r.location h with
  | .ub => .ub
  | .throw e => .throw r e
  | .ok l =>
    match r.archOf l with
    | none => .ub
    | some (ai, a) =>
      match r.archs.ensureSet a.comps with
      | .ub => .ub
      | .throw s e => .throw { r with archs := s } e
      | .ok s di =>
        match ({ r with archs := s } : Reg V).moveEntry ai a di l with
        | none => .ub
        | some (r1, l', moved) =>
          match r1.removeLoc h.id with
          | none => .ub
          | some r2 =>
            match r2.setMoved (if moved = some h then none else moved) l with
            | none => .ub
            | some r3 =>
              match ({ r3 with pool := r3.pool.recycle h } : Reg V).rename l' ph with
              | none => .ub
              | some r4 =>
                match r4.setLoc ph.id l' with
                | none => .ub
                | some r5 => .ok r5 ph

end Reg
end CoEcs
