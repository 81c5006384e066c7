/-!
# Specification: first fit

Items are taken in their order; each goes to the first group that does not refuse it, or to a new group at the end.
-/

namespace CoEcs.Spec

/-- `Placed refuses s bs bs'`: putting `s` into the groups `bs` gives `bs'`. -/
inductive Placed {α : Type} (refuses : List α → α → Prop) (s : α) : List (List α) → List (List α) → Prop
  | new : Placed refuses s [] [[s]]
  | here {b : List α} {bs : List (List α)} : ¬ refuses b s → Placed refuses s (b :: bs) ((b ++ [s]) :: bs)
  | later {b : List α} {bs bs' : List (List α)} : refuses b s → Placed refuses s bs bs' → Placed refuses s (b :: bs) (b :: bs')

/-- `FirstFit refuses ss bs`: the items `ss` end up in the groups `bs`. -/
inductive FirstFit {α : Type} (refuses : List α → α → Prop) : List α → List (List α) → Prop
  | nil : FirstFit refuses [] []
  | snoc {ss : List α} {s : α} {bs bs' : List (List α)} : FirstFit refuses ss bs → Placed refuses s bs bs' →
      FirstFit refuses (ss ++ [s]) bs'

end CoEcs.Spec
