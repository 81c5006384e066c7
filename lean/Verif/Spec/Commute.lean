import Verif.Spec.Registry

/-!
# Calls on different entities
-/

namespace CoEcs.Spec
variable {V : Type}

/-- The operations on an entity that concern no other one. -/
inductive EntOp (V : Type) where
  | destroy
  | set (c : Nat) (v : V)
  | remove (c : Nat)
  | assign (c : Nat) (v : V)
  | getOrInsert (c : Nat) (v : V)
  deriving DecidableEq

/-- The operation on entity `h` of registry `i`. -/
def EntOp.on (o : EntOp V) (i : Nat) (h : Handle) : SysOp V :=
  match o with
  | .destroy => .on i (.destroy h)
  | .set c v => .on i (.set h c v)
  | .remove c => .on i (.remove h c)
  | .assign c v => .on i (.assign h c v)
  | .getOrInsert c v => .on i (.getOrInsert h c v)

/-- How the call should end for an entity with components `d`. -/
def EntOp.answer (o : EntOp V) (d : Nat → Option V) : Out :=
  match o with
  | .assign c _ => if (d c).isSome then .ok none else .throw .componentNotFound
  | _ => .ok none

/-- What the entity should be afterwards. -/
def EntOp.after (o : EntOp V) (d : Nat → Option V) : Option (Nat → Option V) :=
  match o with
  | .destroy => none
  | .set c v => some fun x => if x = c then some v else d x
  | .remove c => some fun x => if x = c then none else d x
  | .assign c v => some fun x => if x = c ∧ (d c).isSome then some v else d x
  | .getOrInsert c v => some fun x => if x = c ∧ d c = none then some v else d x

/-- Calls, with registry and entity. -/
abbrev Calls (V : Type) := List ((Nat × Handle) × EntOp V)

/-- The calls one after the other, with their outcomes; `none` is undefined behaviour. -/
def Sys.runAll (ty : Types) (s : Sys V) : Calls V → Option (Sys V × List Out)
  | [] => some (s, [])
  | x :: xs =>
    match s.step ty (x.2.on x.1.1 x.1.2) with
    | none => none
    | some (s1, o) =>
      match s1.runAll ty xs with
      | none => none
      | some (s2, os) => some (s2, o :: os)

/-- The contents after calls on different entities, in whatever order. -/
def World.afterAll (W : World V) (xs : Calls V) : World V := fun i h =>
  match xs.find? fun x => x.1 == (i, h) with
  | none => W i h
  | some x => (W i h).bind x.2.after

end CoEcs.Spec
