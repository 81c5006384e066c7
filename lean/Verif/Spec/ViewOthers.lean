import Verif.Model.ViewChange
import Verif.Spec.View

/-!
# Callbacks that change other entities

What a callback of a view may do to entities the view does not show.
-/

namespace CoEcs.Spec
variable {V : Type}

/-- An operation of a callback on one entity. -/
inductive CbOp (V : Type) where
  | create (args : List (Nat × V))
  | destroy (h : Handle)
  | set (h : Handle) (c : Nat) (v : V)
  | remove (h : Handle) (c : Nat)

/-- The same result, without a value. -/
def noValue {σ α : Type} : Res σ α → Res σ Unit
  | .ok s _ => .ok s ()
  | .throw s e => .throw s e
  | .ub => .ub

/-- The call. -/
def CbOp.call (ty : Types) : CbOp V → Reg.Act V
  | .create args => fun r => noValue (r.create ty args)
  | .destroy h => fun r => r.destroy h
  | .set h c v => fun r => r.set ty h c v
  | .remove h c => fun r => r.remove ty h c

/-- The operation succeeds and concerns entity `h`.  For a creation: the component types are pairwise
different, as the compiler checks, and identifiers are left. -/
inductive CbOp.Did (ty : Types) (r r' : Reg V) : CbOp V → Handle → Prop
  | create {args h} : (args.map Prod.fst).Nodup → r.pool.nextId + 1 < U32 → r.create ty args = .ok r' h → Did ty r r' (.create args) h
  | destroy {h} : r.destroy h = .ok r' () → Did ty r r' (.destroy h) h
  | set {h c v} : r.set ty h c v = .ok r' () → Did ty r r' (.set h c v) h
  | remove {h c} : r.remove ty h c = .ok r' () → Did ty r r' (.remove h c) h

/-- The operations succeed one after the other.  Every one concerns an entity that a view with these
arguments shows neither before nor after, and needs no new archetype. -/
inductive OthersRun (ty : Types) (args : List BlockId) : Reg V → List (CbOp V) → Reg V → Prop
  | nil (r) : OthersRun ty args r [] r
  | cons {r r1 r' : Reg V} {op : CbOp V} {ops : List (CbOp V)} {h : Handle} : op.Did ty r r1 h →
      r.has h (Spec.compsOf args) ≠ .ok true → r1.has h (Spec.compsOf args) ≠ .ok true →
      r1.archs.arches.length = r.archs.arches.length →
      OthersRun ty args r1 ops r' → OthersRun ty args r (op :: ops) r'

end CoEcs.Spec
