/-!
# Specification: what systems access and when two of them conflict

An access declaration is two sets of component ids: those it may read and those it may write (a write
includes reading).  Whole-registry access covers every component.
-/

namespace CoEcs.Spec

structure Footprint where
  reads : Nat → Prop
  writes : Nat → Prop

/-- Two declarations conflict if a component is written by one and accessed by the other. -/
def Footprint.Conflict (a b : Footprint) : Prop :=
  ∃ c, (a.writes c ∧ b.reads c) ∨ (b.writes c ∧ a.reads c)

theorem Footprint.Conflict.symm {a b : Footprint} (h : a.Conflict b) : b.Conflict a := by
  obtain ⟨c, h⟩ := h
  exact ⟨c, h.symm⟩

end CoEcs.Spec
