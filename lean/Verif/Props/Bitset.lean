import Verif.Proofs.Bitset

/-!
# Bit sets (C11)
-/

namespace CoEcs.Props
open CoEcs

/-- Specification: the positions in the set after a list of calls. -/
def inSet (s : Nat → Bool) : BitsetOp → Nat → Bool
  | .set p v => fun q => if q = p then v else s q
  | .clear => fun _ => false

def positions (ops : List BitsetOp) : Nat → Bool := ops.foldl inSet (fun _ => false)

/-- **C11**: `test` reports exactly the positions currently set. -/
theorem C11_test (ops : List BitsetOp) (p : Nat) :
    ((Bitset.mk' 1).run ops).test p = positions ops p := by
  suffices h : ∀ (b : Bitset) (s : Nat → Bool), Bitset.Canon b → (∀ q, b.test q = s q) →
      ∀ q, (b.run ops).test q = ops.foldl inSet s q by
    refine h _ _ Bitset.canon_mk (fun q => ?_) p
    rw [Bitset.test_blk]
    simp only [Bitset.blk, Bitset.mk', List.replicate_one]
    cases q / 64 <;> simp
  induction ops with
  | nil => intro b s _ h; exact h
  | cons op ops ih =>
    intro b s hc h
    refine ih (b.step op) (inSet s op) (Bitset.canon_run [op] b hc) (fun q => ?_)
    cases op with
    | set p v => simp only [Bitset.step, inSet, Bitset.test_set, h]
    | clear =>
      simp only [Bitset.step, inSet, Bitset.test_blk, Bitset.blk, Bitset.clear_blocks b hc]
      cases q / 64 <;> simp

/-- **C11**: two bit sets built by any two histories compare equal exactly when they contain the
same positions. -/
theorem C11_eq_iff (ops1 ops2 : List BitsetOp) :
    ((Bitset.mk' 1).run ops1).beq ((Bitset.mk' 1).run ops2) = true ↔
      ∀ p, positions ops1 p = positions ops2 p := by
  unfold Bitset.beq
  rw [beq_iff_eq]
  constructor
  · intro h p
    rw [← C11_test, ← C11_test, Bitset.test_blk, Bitset.test_blk]
    simp only [Bitset.blk, h]
  · intro h
    exact congrArg Bitset.blocks (Bitset.canon_ext (Bitset.canon_run ops1 _ Bitset.canon_mk)
      (Bitset.canon_run ops2 _ Bitset.canon_mk) (fun p => by rw [C11_test, C11_test, h p]))

/-- **C11**: sets with the same positions have the same hash. -/
theorem C11_hash (ops1 ops2 : List BitsetOp) (h : ∀ p, positions ops1 p = positions ops2 p) :
    ((Bitset.mk' 1).run ops1).hash = ((Bitset.mk' 1).run ops2).hash := by
  rw [Bitset.canon_ext (Bitset.canon_run ops1 _ Bitset.canon_mk)
      (Bitset.canon_run ops2 _ Bitset.canon_mk) (fun p => by rw [C11_test, C11_test, h p])]

/-- Two different histories of the set {3, 70}: one of them grows to four blocks and shrinks again. -/
example : ((Bitset.mk' 1).run [.set 3 true, .set 200 true, .set 70 true, .set 200 false]).beq
    ((Bitset.mk' 1).run [.set 70 true, .clear, .set 3 true, .set 70 true, .set 300 false]) = true := by
  rw [C11_eq_iff]
  intro p
  simp only [positions, List.foldl, inSet]
  grind

/-- Limit of the claim: the constructor argument is part of the representation, so sets built with
different numbers of initial blocks compare different although both are empty.  (co_ecs itself
always uses the default argument.) -/
theorem C11_limit_initial_blocks :
    (Bitset.mk' 2).beq (Bitset.mk' 1) = false ∧ ∀ p, (Bitset.mk' 2).test p = (Bitset.mk' 1).test p := by
  refine ⟨by decide, fun p => ?_⟩
  rw [Bitset.test_blk, Bitset.test_blk]
  simp only [Bitset.blk, Bitset.mk', List.getElem?_replicate]
  split <;> split <;> simp

end CoEcs.Props
