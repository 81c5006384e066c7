import Verif.Spec.Registry

/-!
# How much storage a registry holds
-/

namespace CoEcs

/-- `Q` holds of the state that a call leaves behind, unless its behaviour is undefined. -/
def Res.All {σ α : Type} (Q : σ → Prop) : Res σ α → Prop
  | .ok s _ => Q s
  | .throw s _ => Q s
  | .ub => True

/-- Number of entities stored in an archetype. -/
def Arch.entries {V : Type} (a : Arch V) : Nat := (a.chunks.map Chunk.size).sum

namespace Spec

/-- The operation may take an entity out of an archetype. -/
def RegOp.takesOut {V : Type} : RegOp V → Bool
  | .destroy _ => true
  | .set .. => true
  | .remove .. => true
  | .getOrInsert .. => true
  | _ => false

/-- The operation may take an entity out of an archetype of registry `i`. -/
def SysOp.takesOut {V : Type} (i : Nat) : SysOp V → Bool
  | .on j op => j == i && op.takesOut
  | .copy .. => false
  | .move j _ _ _ => j == i

/-- The operations, the last one first, run on empty registries without undefined behaviour. -/
inductive RunOf {V : Type} (ty : Types) : List (SysOp V) → Sys V → Prop
  | nil : RunOf ty [] Sys.init
  | cons {ops : List (SysOp V)} {s s' : Sys V} {op : SysOp V} {out : Out} :
      RunOf ty ops s → s.step ty op = some (s', out) → RunOf ty (op :: ops) s'

end Spec
end CoEcs
