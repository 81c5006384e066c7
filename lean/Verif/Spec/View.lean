import Verif.Model.View
import Verif.Spec.Registry

/-!
# What a user may expect of views

A view is described through `get` and `has` of single entities.
-/

namespace CoEcs.Spec
open CoEcs
variable {V : Type}

/-- The components among the arguments of a view. -/
def compsOf (args : List BlockId) : List Nat := args.filterMap id

/-- What the callback of a view should receive for one argument. -/
def argOf (r : Reg V) (h : Handle) : BlockId → Option (Val V)
  | none => some (.ent h)
  | some c =>
    match r.get h c with
    | .ok v => some (.comp v)
    | _ => none

/-- What the callback should be called with for an entity. -/
def callOf (r : Reg V) (args : List BlockId) (h : Handle) : Option (List (Val V)) := args.mapM (argOf r h)

/-- The operation does not end with the exception that a component list does not fit into a chunk. -/
def NoFailedFit (ty : Types) (s : Sys V) (op : SysOp V) : Prop :=
  ∀ s', s.step ty op ≠ some (s', .throw .insufficientChunkSize)

/-- Destroying entities one after the other. -/
def destroyAll (r : Reg V) : List Handle → Res (Reg V) Unit
  | [] => .ok r ()
  | h :: hs =>
    match r.destroy h with
    | .ok r' _ => destroyAll r' hs
    | .throw r' e => .throw r' e
    | .ub => .ub

end CoEcs.Spec
