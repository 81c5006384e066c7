import Verif.Spec.Registry
import Verif.Model.Destructors

/-!
# What a user may expect when destructors call the registry

`Nest` describes the order in which the calls of a program and the calls made by destructors take effect,
using the plain operations of `Spec/Registry.lean` only, and says which calls a destructor may make.
-/

namespace CoEcs.Spec
open CoEcs
variable {V : Type}

/-- The component types of an entity. -/
def kinds (d : Nat → Option V) : Nat → Bool := fun c => (d c).isSome

/-- The sets of component types that entities of the call have before or after it.  Entities with the same
set of types are stored together. -/
def tables (W : Handle → Option (Nat → Option V)) : RegOp V → List (Nat → Bool)
  | .create args => [kinds (World.listed args)]
  | .destroy h => (W h).toList.map kinds
  | .assign h _ _ => (W h).toList.map kinds
  | .clone h _ => (W h).toList.map kinds
  | .set h c v => (W h).toList.flatMap fun d => [kinds d, kinds (World.withComp d c (some v))]
  | .getOrInsert h c v => (W h).toList.flatMap fun d => [kinds d, kinds (World.withComp d c (some v))]
  | .remove h c => (W h).toList.flatMap fun d => [kinds d, kinds (World.withComp d c none)]
  | .reserve => []
  | .sync => []

/-- The calls made by the destructors of the values that an operation releases, in order. -/
def releases (hook : Released V) (r : Reg V) : RegOp V → List (RegOp V)
  | .destroy h => match r.visit h with
    | .ok l => l.flatMap fun x => hook x.1 x.2
    | _ => []
  | .set h c _ => match r.get h c with
    | .ok v => hook c v
    | _ => []
  | .assign h c _ => match r.get h c with
    | .ok v => hook c v
    | _ => []
  | .remove h c => match r.get h c with
    | .ok v => hook c v
    | _ => []
  | _ => []

/-- Calls on registry `i`, with calls of destructors nested less than `d` deep.  `busy` are the tables used by
the functions that are running.  The calls of destructors take effect before the call whose destructors they
are.  No call may use a table that is in use, and the values dropped by `remove` must not call anything. -/
inductive Nest (ty : Types) (hook : Released V) (i : Nat) :
    Nat → List (Nat → Bool) → Sys V → World V → List (RegOp V) → Sys V → World V → Prop
  | nil {d : Nat} {busy : List (Nat → Bool)} {s : Sys V} {W : World V} : Nest ty hook i d busy s W [] s W
  | cons {d : Nat} {busy : List (Nat → Bool)} {s s1 s2 s3 : Sys V} {W W1 W3 : World V} {op : RegOp V} {ks : List (RegOp V)} {out : Out} :
      (∀ T ∈ tables (W i) op, T ∉ busy) →
      (∀ h c, op = .remove h c → releases hook (s.reg i) op = []) →
      Nest ty hook i d (tables (W i) op ++ busy) s W (releases hook (s.reg i) op) s1 W1 →
      s1.Allowed (.on i op) → s1.step ty (.on i op) = some (s2, out) →
      Nest ty hook i (d + 1) busy s2 (W1.step (.on i op) out) ks s3 W3 →
      Nest ty hook i (d + 1) busy s W (op :: ks) s3 W3

end CoEcs.Spec
