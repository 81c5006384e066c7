import Verif.Proofs.Access

/-!
# C32: the access-pattern check
-/

namespace CoEcs.Props
open Spec

/-- **C32, as stated, is false** for patterns with whole-registry read access (such a pattern is not produced
by system parameters, because `const registry&` is declared as write access, but by a user-defined
system): "reads the registry" is said to be compatible with "writes the registry". -/
theorem C32_violated : ∃ a b : Access, a.Ok ∧ b.Ok ∧ a.allows b = .ok true ∧
    a.footprint.Conflict b.footprint := by
  refine ⟨Access.ofRegistry .read, Access.ofRegistry .write, Access.ofRegistry_ok _, Access.ofRegistry_ok _, rfl, 0,
    Or.inr ⟨Or.inl rfl, Or.inl (by decide)⟩⟩

/-- The check is not symmetric: an empty pattern (a command writer) admits registry access, but not the other
way round. -/
theorem C32_violated_symmetry : ∃ a b : Access, a.Ok ∧ b.Ok ∧ a.allows b = .ok true ∧ b.allows a = .ok false :=
  ⟨Access.empty, Access.ofRegistry .write, Access.empty_ok, Access.ofRegistry_ok _, rfl, rfl⟩

/-- **C32 (partial): soundness.**  Missing: left patterns with whole-registry read access.  For all other
patterns, whatever the right one is, `allows` answers true only if there is no conflict. -/
theorem C32_allows_sound_partial (a b : Access) (ha : a.Ok) (hb : b.Ok) (hr : a.reg ≠ .read) :
    (a.allows b = .ok true → ¬ a.footprint.Conflict b.footprint) ∧
    (a.allows b = .ok true ∨ a.allows b = .ok false) :=
  ⟨Access.allows_sound hb hr, Access.allows_total hb⟩

/-- **C32 for component patterns**: exact and symmetric. -/
theorem C32_component_patterns_exact (a b : Access) (ha : a.Ok) (hb : b.Ok) (hra : a.reg = .none)
    (hrb : b.reg = .none) :
    (a.allows b = .ok true ↔ ¬ a.footprint.Conflict b.footprint) ∧
    (a.allows b = .ok true ↔ b.allows a = .ok true) := by
  have h1 : a.allows b = .ok true ↔ ¬ a.footprint.Conflict b.footprint :=
    ⟨Access.allows_sound hb (by rw [hra]; decide), Access.allows_complete hb hra⟩
  have h2 : b.allows a = .ok true ↔ ¬ b.footprint.Conflict a.footprint :=
    ⟨Access.allows_sound ha (by rw [hrb]; decide), Access.allows_complete ha hrb⟩
  refine ⟨h1, ?_⟩
  rw [h1, h2]
  exact ⟨fun h hc => h hc.symm, fun h hc => h hc.symm⟩

/-- `operator&=` declares exactly the union, and never fails. -/
theorem C32_merge_union (a b : Access) (ha : a.Ok) (hb : b.Ok) : ∃ r, a.merge b = .ok r ∧ r.Ok ∧
    (∀ c, r.footprint.reads c ↔ a.footprint.reads c ∨ b.footprint.reads c) ∧
    (∀ c, r.footprint.writes c ↔ a.footprint.writes c ∨ b.footprint.writes c) := by
  obtain ⟨r, h1, h2, _, h3, h4⟩ := Access.merge_ok ha hb
  exact ⟨r, h1, h2, h3, h4⟩

/-- The queries `reads` and `writes` answer what the pattern declares. -/
theorem C32_queries (a : Access) (ha : a.Ok) (c : Nat) :
    (a.reads c = .ok true ↔ a.footprint.reads c) ∧ (a.writes c = .ok true ↔ a.footprint.writes c) := by
  constructor
  · rcases Access.reads_iff ha c with ⟨h1, h2⟩ | ⟨h1, h2⟩ <;> simp [h1, h2]
  · rcases Access.writes_iff ha c with ⟨h1, h2⟩ | ⟨h1, h2⟩ <;> simp [h1, h2]

/-- The pattern of a system declares exactly what its parameters give access to. -/
theorem C32_system_pattern (args : List SysArg) (h : ∀ a ∈ args, a.Valid) : ∃ p, sysPattern args = .ok p ∧ p.Ok ∧
    p.reg ≠ .read ∧ (∀ c, p.footprint.reads c ↔ ∃ a ∈ args, a.reads c) ∧
    (∀ c, p.footprint.writes c ↔ ∃ a ∈ args, a.writes c) :=
  sysPattern_ok args h

/-! ### Examples -/

/-- A system with `view<A&, const B&>` and a command writer. -/
def sampleArgs : List SysArg := [.view [(true, ⟨3, 8, 8, true⟩), (false, ⟨5, 4, 4, true⟩)], .commandWriter]

example : ∀ a ∈ sampleArgs, a.Valid := by
  intro a ha
  simp only [sampleArgs, List.mem_cons, List.not_mem_nil, or_false] at ha
  rcases ha with rfl | rfl
  · refine ⟨by simp, fun a ha => ?_⟩
    simp only [List.mem_cons, List.not_mem_nil, or_false] at ha
    rcases ha with rfl | rfl <;> decide
  · trivial

example : ∃ p, sysPattern sampleArgs = .ok p ∧ p.reg = .none ∧ p.comps.dense = [(3, .write), (5, .read)] :=
  ⟨_, rfl, rfl, by decide⟩

end CoEcs.Props
