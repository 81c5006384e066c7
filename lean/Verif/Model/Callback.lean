import Verif.Model.View

/-!
# Model of functions of the user that throw
(/repo/include/co_ecs/view.hpp:104-128, chunk.hpp:190-202 and 258-271, entity_ref.hpp:31-33, 229-231)

`each` and `visit` call a function of the user.  `Model/View` and `Model/Registry` let it return always.
Here a call may write to the components it was given references to, in any order and more than once, and
may then throw.  The function does not call the registry (see `Model/ViewChange`), and what it does depends
only on its arguments.  Neither `each` nor the iterators below it catch anything, and they own nothing that
has to be undone; `chunk::visit` and `chunk::visit_impl` are `noexcept`.
-/

namespace CoEcs

/-- How a call of the library ends; `calls` are the calls of the function that were begun. -/
inductive Ended (σ α : Type) where
  | returned (s : σ) (calls : List α)
  | threw (s : σ) (calls : List α) (e : Exn)
  /-- `std::terminate` -/
  | terminated (calls : List α)
  | ub

/-- The same with one more call in front. -/
def Ended.after {σ α : Type} (t : α) : Ended σ α → Ended σ α
  | .returned s calls => .returned s (t :: calls)
  | .threw s calls e => .threw s (t :: calls) e
  | .terminated calls => .terminated (t :: calls)
  | .ub => .ub

/-- One call of a function given to `each`: what it assigns to components of its entity, one after another,
and whether it throws then. -/
structure Beh (V : Type) where
  writes : List (Nat × V)
  throws : Bool

namespace Reg
variable {V : Type}

/-- Assignments through references to components at a location. -/
def writeList (l : Loc) : Reg V → List (Nat × V) → Option (Reg V)
  | r, [] => some r
  | r, w :: ws =>
    match r.writeAt l w.1 false w.2 with
    | none => none
    | some r' => writeList l r' ws

/-- The loops of `each(func)`, view.hpp:109-113 and 122-126, from some entry on. -/
def tryLocs (args : List BlockId) (f : List (Val V) → Beh V) : Reg V → List Loc → Ended (Reg V) (List (Val V))
  | r, [] => .returned r []
  | r, l :: ls =>
    match r.tupleAt args l with
    | .ub => .ub
    | .throw e => .threw r [] e
    | .ok t =>
      match writeList l r (f t).writes with
      | none => .ub
      | some r' => if (f t).throws then .threw r' [t] .user else (tryLocs args f r' ls).after t

/-- `each(func)`, view.hpp:104-128. -/
def eachTry (r : Reg V) (args : List BlockId) (f : List (Val V) → Beh V) : Ended (Reg V) (List (Val V)) :=
  match r.viewChunks args with
  | none => .ub
  | some cs => tryLocs args f r cs.flatten

/-- What a function given to `visit` writes through its pointer. -/
def writeOpt (l : Loc) (c : Nat) (r : Reg V) : Option V → Option (Reg V)
  | none => some r
  | some v => r.writeAt l c false v

/-- The loop of `visit_impl`, chunk.hpp:264-270.  `f` gives, for a component and its value, the value the
function writes through the pointer, if any, and whether it throws.  The loop is in a `noexcept`
function. -/
def visitLoop (l : Loc) (f : Nat → V → Option V × Bool) : Reg V → List BlockId → Ended (Reg V) (Nat × V)
  | r, [] => .returned r []
  | _, none :: _ => .ub
  | r, some c :: bs =>
    match r.readAt l c with
    | none => .ub
    | some v =>
      match writeOpt l c r (f c v).1 with
      | none => .ub
      | some r' => if (f c v).2 then .terminated [(c, v)] else (visitLoop l f r' bs).after (c, v)

/-- `visit(ent, func)`, base_registry.hpp:121-134 with archetype.hpp:135-144: the entity is looked up before
the `noexcept` functions are entered. -/
def visitTry (r : Reg V) (h : Handle) (f : Nat → V → Option V × Bool) : Ended (Reg V) (Nat × V) :=
  match r.location h with
  | .ub => .ub
  | .throw e => .threw r [] e
  | .ok l =>
    match r.archOf l with
    | none => .ub
    | some (_, a) =>
      match a.row? l.chunk l.entry with
      | none => .ub
      | some _ => visitLoop l f r (a.blocks.drop 1)

/-- `entity_ref::archetype()`, entity_ref.hpp:31-33, and `const_entity_ref::archetype()`, entity_ref.hpp:371-373:
the components of the archetype.  Both are `noexcept` around `get_location`, which throws. -/
def refArchetype (r : Reg V) (h : Handle) : Ended (Reg V) (List Nat) :=
  match r.location h with
  | .ub => .ub
  | .throw _ => .terminated []
  | .ok l =>
    match r.archOf l with
    | none => .ub
    | some (_, a) => .returned r [a.comps.metas.map CompMeta.id]

end Reg
end CoEcs
