import Verif.Spec.Command
import Verif.Spec.View

/-!
# Iterations that record changes

A callback of a view that must not touch the registry records what it wants to be done through a
`command_writer` (command.hpp); the changes are made when the buffers are flushed.
-/

namespace CoEcs.Spec
open CoEcs
variable {V : Type}

/-- What the callback may decide about the entity it is called for. -/
inductive Change (V : Type) where
  | set (c : Nat) (v : V)
  | remove (c : Nat)
  | destroy

namespace Change

/-- The call that records the decision. -/
def call (h : Handle) : Change V → Rec V
  | .set c v => .set h c v
  | .remove c => .remove h c
  | .destroy => .destroy h

/-- What the decision means for the entity: its components, or that it is gone. -/
def effect (o : Option (Nat → Option V)) : Change V → Option (Nat → Option V)
  | .set c v => o.map fun d => World.withComp d c (some v)
  | .remove c => o.map fun d => World.withComp d c none
  | .destroy => none

end Change

/-- The callback `[&](const entity& e, ...)` that records its decisions about `e`. -/
def recording (dec : List (Val V) → List (Change V)) : List (Val V) → List (Rec V)
  | .ent h :: t => (dec (.ent h :: t)).map (Change.call h)
  | _ => []

namespace CSys

/-- The thread of buffer `b` records several commands for registry `i`. -/
def recordAll (ty : Types) (husk : V → V) (b i : Nat) : CSys V → List (Rec V) → Res (CSys V) Unit
  | c, [] => .ok c ()
  | c, rc :: rcs =>
    match c.step ty husk (.record b i rc) with
    | none => .ub
    | some (c', .throw e) => .throw c' e
    | some (c', .ok _) => recordAll ty husk b i c' rcs

/-- The protocol while several commands are recorded. -/
def AllowedAll (ty : Types) (husk : V → V) (b i : Nat) : CSys V → List (Rec V) → Prop
  | _, [] => True
  | c, rc :: rcs => c.Allowed (.record b i rc) ∧ ∀ c' o, c.step ty husk (.record b i rc) = some (c', .ok o) → AllowedAll ty husk b i c' rcs

/-- `each(func)`, view.hpp:106-128, over the entries found on entering, with a callback that records.  The entries
are read from the registry as the recordings left it. -/
def eachLocsRec (ty : Types) (husk : V → V) (b i : Nat) (args : List BlockId) (cb : List (Val V) → List (Rec V)) :
    CSys V → List Loc → Res (CSys V) (List (List (Val V)))
  | c, [] => .ok c []
  | c, l :: ls =>
    match (c.sys.reg i).tupleAt args l with
    | .ub => .ub
    | .throw e => .throw c e
    | .ok t =>
      match c.recordAll ty husk b i (cb t) with
      | .ub => .ub
      | .throw c' e => .throw c' e
      | .ok c' _ =>
        match eachLocsRec ty husk b i args cb c' ls with
        | .ub => .ub
        | .throw c' e => .throw c' e
        | .ok c' ts => .ok c' (t :: ts)

/-- The whole iteration.  No recording changes the archetypes (C29), so the entries are those found at the start. -/
def eachRec (ty : Types) (husk : V → V) (b i : Nat) (args : List BlockId) (cb : List (Val V) → List (Rec V)) (c : CSys V) :
    Res (CSys V) (List (List (Val V))) :=
  match (c.sys.reg i).viewChunks args with
  | none => .ub
  | some cs => eachLocsRec ty husk b i args cb c cs.flatten

end CSys
end CoEcs.Spec
