import Verif.Spec.Conflict

/-!
# Specification: bodies of systems and running them one after another

The contents of the registry are split by component: `Store V` gives for every component id the whole column of
its values (for all entities).  A body is a deterministic program that proceeds in atomic steps.  Structural
changes are outside of this picture: a system makes them with `registry&` (which is write access to
everything) or records them with a command writer (recorded commands are not part of the store).
-/

namespace CoEcs.Spec

abbrev Store (V : Type) := Nat → V

/-- A system's function: initial local state and one atomic step; `none` means it has returned. -/
structure Body (V L : Type) where
  init : L
  step : L → Store V → Option (L × Store V)

/-- The body touches only what is declared: it changes only components declared as written, and what it does
depends only on components declared as read. -/
structure Body.Respects {V L : Type} (b : Body V L) (fp : Footprint) : Prop where
  frame : ∀ x σ x' σ', b.step x σ = some (x', σ') → ∀ c, ¬ fp.writes c → σ' c = σ c
  done : ∀ x σ τ, (∀ c, fp.reads c → σ c = τ c) → b.step x σ = none → b.step x τ = none
  result : ∀ x σ τ x' σ', (∀ c, fp.reads c → σ c = τ c) → b.step x σ = some (x', σ') →
    ∃ τ', b.step x τ = some (x', τ') ∧ ∀ c, fp.writes c → σ' c = τ' c

/-- The body runs alone from local state `x` until it returns. -/
inductive Body.RunsTo {V L : Type} (b : Body V L) : L → Store V → Store V → Prop
  | done {x σ} : b.step x σ = none → b.RunsTo x σ σ
  | more {x σ x' σ' τ} : b.step x σ = some (x', σ') → b.RunsTo x' σ' τ → b.RunsTo x σ τ

/-- The bodies run one after another. -/
inductive SeqRun {V L : Type} : List (Body V L) → Store V → Store V → Prop
  | nil {σ} : SeqRun [] σ σ
  | cons {b bs σ τ ρ} : b.RunsTo b.init σ τ → SeqRun bs τ ρ → SeqRun (b :: bs) σ ρ

end CoEcs.Spec
