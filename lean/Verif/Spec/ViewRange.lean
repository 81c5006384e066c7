import Verif.Spec.ViewOthers

/-!
# Operations between two uses of a range
-/

namespace CoEcs.Spec
variable {V : Type}

/-- The operations succeed one after the other, and none of them needs a new archetype. -/
inductive OldRun (ty : Types) : Reg V → List (CbOp V) → Reg V → Prop
  | nil (r) : OldRun ty r [] r
  | cons {r r1 r' : Reg V} {op : CbOp V} {ops : List (CbOp V)} {h : Handle} : op.Did ty r r1 h →
      r1.archs.arches.length = r.archs.arches.length → OldRun ty r1 ops r' → OldRun ty r (op :: ops) r'

end CoEcs.Spec
