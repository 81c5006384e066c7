import Verif.Model.HashCopy
import Verif.Spec.KeyMap

/-!
# Specification: several finite maps as values

Copying gives a second map equal to the first; no later call on one of them shows in the other.  A move takes the
content and leaves an empty map, a move assignment exchanges.  A copy that throws leaves every map as it was.
-/

namespace CoEcs.Spec

/-- The maps constructed so far (`none`: destroyed). -/
abbrev KeyMaps (K V : Type) := List (Option (KeyMap K V))

namespace KeyMaps
variable {K V : Type} [DecidableEq K]

/-- Map `i`, if it is alive. -/
def get (S : KeyMaps K V) (i : Nat) : Option (KeyMap K V) := S[i]?.join

/-- Whether copying `m` throws if the copy of one more than `j` elements does. -/
def throws (m : KeyMap K V) : Option Nat → Bool
  | none => false
  | some j => j < m.count

/-- `none`: the call uses a map that is not alive. -/
def step (S : KeyMaps K V) : TabOp K V → Option (KeyMaps K V × TabAns K V)
  | .create _ => some (S ++ [some KeyMap.empty], .done)
  | .call i op => (S.get i).map fun m => (S.set i (some (m.step op).1), .ans (m.step op).2)
  | .copy i fail => (S.get i).map fun m => if throws m fail then (S, .threw) else (S ++ [some m], .done)
  | .copyAssign d s fail => (S.get d).bind fun _ => (S.get s).map fun m =>
      if throws m fail then (S, .threw) else (S.set d (some m), .done)
  | .move i => (S.get i).map fun m => (S.set i (some KeyMap.empty) ++ [some m], .done)
  | .moveAssign d s => (S.get d).bind fun a => (S.get s).map fun b => ((S.set d (some b)).set s (some a), .done)
  | .destroy i => (S.get i).map fun _ => (S.set i none, .done)

def run (S : KeyMaps K V) : List (TabOp K V) → Option (KeyMaps K V × List (TabAns K V))
  | [] => some (S, [])
  | op :: ops => (S.step op).bind fun r => (run r.1 ops).map fun r' => (r'.1, r.2 :: r'.2)

/-- How many elements the call copies in vain: those copied before the one that throws. -/
def wasted (S : KeyMaps K V) : TabOp K V → Nat
  | .copy i (some j) | .copyAssign _ i (some j) =>
    match S.get i with
    | some m => if j < m.count then j else 0
    | none => 0
  | _ => 0

/-- 1 if the call erases a key that is present. -/
def erases (S : KeyMaps K V) : TabOp K V → Nat
  | .call i (.erase k) =>
    match S.get i with
    | some m => if (m.get k).isSome then 1 else 0
    | none => 0
  | _ => 0

/-- How many of the calls erase a key that is present, and how many elements are copied in vain. -/
def leaks (S : KeyMaps K V) : List (TabOp K V) → Nat
  | [] => 0
  | op :: ops => S.erases op + S.wasted op +
    (match S.step op with
     | some r => leaks r.1 ops
     | none => 0)

end KeyMaps

/-- Bucket counts given by the caller are powers of two. -/
def TabOps.Ok {K V : Type} (ops : List (TabOp K V)) : Prop :=
  ∀ op ∈ ops, match op with
    | .create n => PowTwo n
    | .call _ (.reserve n) => PowTwo n
    | _ => True

end CoEcs.Spec
