import Verif.Model.Reentrant
import Verif.Spec.Command

/-!
# What destructors that record commands during a flush may expect
-/

namespace CoEcs.Spec
open CoEcs
variable {V : Type}

/-- The command a call without creation records. -/
def Call.command : Call V → Option (ACmd V)
  | .set h c v => some (.set h c v)
  | .remove h c => some (.remove h c)
  | .destroy h => some (.destroy h)
  | _ => none

/-- The destructors create no entities. -/
def NoCreation (hook : Hook V) : Prop := ∀ c v, ∀ k ∈ hook c v, (Call.command k).isSome

/-- The commands `l` are those recorded by the destructors of the components that command `a` destroys, when
the contents are `C`: those of every component of the entity, in some order of the components. -/
def Recorded (hook : Hook V) (C : ACmd.Content V) : ACmd V → List (ACmd V) → Prop
  | .destroy h, l => ∃ (d : Nat → Option V) (vs : List (Nat × V)), C h = some d ∧ (vs.map Prod.fst).Nodup ∧ (∀ c v, (c, v) ∈ vs ↔ d c = some v) ∧
      l = vs.flatMap fun x => (hook x.1 x.2).filterMap Call.command
  | _, l => l = []

/-- The commands `l` are those recorded while `as` are applied one after the other. -/
inductive RecordedBy (hook : Hook V) : ACmd.Content V → List (ACmd V) → List (ACmd V) → Prop
  | nil {C} : RecordedBy hook C [] []
  | cons {C a as l l'} : Recorded hook C a l → RecordedBy hook (a.apply C) as l' → RecordedBy hook C (a :: as) (l ++ l')

/-- The contents after some commands. -/
def applied (C : ACmd.Content V) (as : List (ACmd V)) : ACmd.Content V := as.foldl ACmd.apply C

end CoEcs.Spec
