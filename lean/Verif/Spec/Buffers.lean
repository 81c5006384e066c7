import Verif.Model.Buffers

/-!
# When references to components stay valid
-/

namespace CoEcs.Spec
open CoEcs
variable {V : Type}

/-- The call takes entity `x` of registry `i` out of its place: it is destroyed or moved to another registry, or
its set of components changes. -/
def Leaves (W : World V) : SysOp V → Nat → Handle → Prop
  | .on j (.destroy h), i, x => i = j ∧ x = h
  | .on j (.set h c _), i, x => i = j ∧ x = h ∧ ∃ d, W j h = some d ∧ d c = none
  | .on j (.getOrInsert h c _), i, x => i = j ∧ x = h ∧ ∃ d, W j h = some d ∧ d c = none
  | .on j (.remove h c), i, x => i = j ∧ x = h ∧ ∃ d, W j h = some d ∧ d c ≠ none
  | .move j h _ _, i, x => i = j ∧ x = h
  | _, _, _ => False

/-- Two entities of registry `i` have components of the same types. -/
def SameSet (W : World V) (i : Nat) (x y : Handle) : Prop :=
  ∃ d e : Nat → Option V, W i x = some d ∧ W i y = some e ∧ ∀ c, d c = none ↔ e c = none

/-- The call, which ended with `out`, took no entity of registry `i` with the same set of components as `x` out of
its place. -/
def SetStays (i : Nat) (x : Handle) (W : World V) (op : SysOp V) (out : Out) : Prop :=
  ∀ o, out = .ok o → ∀ y, Leaves W op i y → ¬ SameSet W i x y

/-- Histories from one state to another in which every step satisfies `P`. -/
inductive BRun (ty : Types) (P : World V → SysOp V → Out → Prop) : BSys V → World V → BSys V → World V → Prop
  | refl (s : BSys V) (W : World V) : BRun ty P s W s W
  | step {s t u : BSys V} {W X : World V} {op : SysOp V} {out : Out} :
      BRun ty P s W t X → t.sys.Allowed op → t.step ty op = some (u, out) → P X op out → BRun ty P s W u (X.step op out)

/-- States reachable from empty registries by allowed operations, with the contents they should have. -/
abbrev BReachable (ty : Types) (s : BSys V) (W : World V) : Prop :=
  BRun ty (fun _ _ _ => True) BSys.init (fun _ _ => none) s W

end CoEcs.Spec
