import Verif.Spec.View

/-!
# What a user may expect of the order in which views show entities
-/

namespace CoEcs.Spec
open CoEcs
variable {V : Type}

/-- The entity has the components a view asks for. -/
def shown (r : Reg V) (args : List BlockId) (h : Handle) : Bool :=
  match r.has h (compsOf args) with
  | .ok b => b
  | _ => false

/-- All views of a registry go through its entities in one order: each of them calls its function for the
entities of `order` that it shows, one after the other, and `single()` gives the first of them. -/
def InOrder (r : Reg V) (order : List Handle) : Prop :=
  (∀ (args : List BlockId) (muts : List Nat) (f : List (Val V) → Nat → V), (∀ c ∈ muts, some c ∈ args) →
    ∃ r' calls, r.each args muts f = .ok r' calls ∧ (order.filter (shown r args)).map (callOf r args) = calls.map some) ∧
  ∀ args, r.single args = .ok ((order.find? (shown r args)).bind (callOf r args))

/-- The order of the entities of a registry. -/
structure IsOrder (r : Reg V) (order : List Handle) : Prop where
  nodup : order.Nodup
  mem : ∀ h, h ∈ order ↔ r.has h [] = .ok true
  views : InOrder r order

end CoEcs.Spec
