import Verif.Model.EntityRef
import Verif.Proofs.Observe
import Verif.Props.Handles
import Verif.Props.CapacityExact
import Verif.Proofs.Exec

/-!
# C109: references compare like the entities they refer to
-/

namespace CoEcs.Props
open CoEcs Spec Cmp

variable {V : Type} {ty : Types}

/-- The documentation of `operator entity`: a reference can be treated as its entity.  So this is what comparing should give. -/
def LikeEntities (x y : Operand) : Prop :=
  compare3 x y = some (x.handle.cmp y.handle) ∧ (eq x y = some true ↔ x.handle = y.handle)

/-- Which function is called, for all types of operands. -/
theorem C109_resolve (a b : Kind) : resolve a b =
    if a = .ent then some .member else if b = .ent then some .reversed else some (.builtin .int .int) := by
  cases a <;> cases b <;> decide +kernel

theorem cmp_swap (a b : Handle) : (a.cmp b).swap = b.cmp a := by
  cases h : a.cmp b with
  | lt => exact ((C51_cmp_gt b a).2 h).symm
  | eq => rw [C51_cmp_eq] at h; subst h; exact ((C51_cmp_eq a a).2 rfl).symm
  | gt => exact ((C51_cmp_gt a b).1 h).symm

/-- **C109** (partial; missing: both operands are references, where it is false): it holds if one operand is an `entity`. -/
theorem C109_entity_partial (x y : Operand) (h : x.kind = .ent ∨ y.kind = .ent) : LikeEntities x y := by
  have h1 : compare3 x y = some (x.handle.cmp y.handle) := by
    unfold compare3
    rw [C109_resolve]
    by_cases hx : x.kind = .ent
    · rw [if_pos hx]
    · rw [if_neg hx, if_pos (h.resolve_left hx)]
      simp only [cmp_swap]
  refine ⟨h1, ?_⟩
  unfold eq
  rw [h1, ← C51_cmp_eq]
  cases x.handle.cmp y.handle <;> simp

example : LikeEntities ⟨.ref, ⟨3, 1⟩⟩ ⟨.ent, ⟨3, 2⟩⟩ := C109_entity_partial _ _ (Or.inr rfl)

theorem compare_refs {x y : Operand} (hx : x.kind ≠ .ent) (hy : y.kind ≠ .ent) :
    compare3 x y = some (compare x.handle.valid.toNat y.handle.valid.toNat) := by
  unfold compare3 Operand.toBool
  rw [C109_resolve, if_neg hx, if_neg hy]

/-- **C109, what is compared instead**: of two references only whether they are valid. -/
theorem C109_references (x y : Operand) (hx : x.kind ≠ .ent) (hy : y.kind ≠ .ent) :
    (eq x y = some true ↔ (x.handle.valid = y.handle.valid)) ∧
    (less x y = some true ↔ x.handle.valid = false ∧ y.handle.valid = true) := by
  unfold eq less
  rw [compare_refs hx hy]
  cases x.handle.valid <;> cases y.handle.valid <;> decide

/-- **C109, exactly**: it holds for two operands if and only if one is an `entity`, or both references refer to the same entity,
or one is invalid and compares the right way. -/
theorem C109_iff (x y : Operand) : LikeEntities x y ↔ x.kind = .ent ∨ y.kind = .ent ∨ x.handle = y.handle ∨
    (x.handle.valid = false ∧ y.handle.valid = true ∧ x.handle.cmp y.handle = .lt) ∨
    (x.handle.valid = true ∧ y.handle.valid = false ∧ x.handle.cmp y.handle = .gt) := by
  by_cases hx : x.kind = .ent
  · exact ⟨fun _ => Or.inl hx, fun _ => C109_entity_partial x y (Or.inl hx)⟩
  by_cases hy : y.kind = .ent
  · exact ⟨fun _ => Or.inr (Or.inl hy), fun _ => C109_entity_partial x y (Or.inr hy)⟩
  have hc := compare_refs hx hy
  unfold LikeEntities eq
  rw [hc, ← C51_cmp_eq]
  have hsame : x.handle.valid ≠ y.handle.valid → x.handle.cmp y.handle ≠ .eq := by
    intro h1 h2
    rw [C51_cmp_eq] at h2
    exact h1 (by rw [h2])
  revert hsame
  cases x.handle.valid <;> cases y.handle.valid <;> cases x.handle.cmp y.handle <;> simp [hx, hy] <;> decide

/-- A live handle is valid. -/
theorem live_valid {s : Sys V} {W : World V} (hr : Reachable ty s W) {i : Nat} {h : Handle} (he : (s.reg i).alive h = true) :
    h.valid = true := by
  have R := (hr.inv i).rep
  have h1 := (List.getElem?_eq_some_iff.1 ((alive_iff _ _).1 he)).1
  have h2 := R.small
  have h3 := R.pool.nextId
  simp only [Handle.valid, bne_iff_ne, ne_eq, Handle.invalid]
  rintro rfl
  simp only at h1
  omega

/-- **C109, violated in every state**: references to any two live entities, of whatever registries, compare equal, and neither is
less than the other. -/
theorem C109_violated {s : Sys V} {W : World V} (hr : Reachable ty s W) {i j : Nat} {h k : Handle}
    (hh : (s.reg i).alive h = true) (hk : (s.reg j).alive k = true) (a b : Kind) (ha : a ≠ .ent) (hb : b ≠ .ent) :
    eq ⟨a, h⟩ ⟨b, k⟩ = some true ∧ less ⟨a, h⟩ ⟨b, k⟩ = some false ∧ less ⟨b, k⟩ ⟨a, h⟩ = some false := by
  have h1 := live_valid hr hh
  have h2 := live_valid hr hk
  unfold eq less
  rw [compare_refs (x := ⟨a, h⟩) (y := ⟨b, k⟩) ha hb, compare_refs (x := ⟨b, k⟩) (y := ⟨a, h⟩) hb ha]
  simp only [h1, h2]
  exact ⟨rfl, rfl, rfl⟩

/-- **C109, violated: searching.**  In a vector of references to live entities `std::find` stops at the first element, whatever
is searched. -/
theorem C109_find_violated {s : Sys V} {W : World V} (hr : Reachable ty s W) {i j : Nat} {h k : Handle}
    (hh : (s.reg i).alive h = true) (hk : (s.reg j).alive k = true) (l : List Operand) :
    find ⟨.ref, k⟩ (⟨.ref, h⟩ :: l) = 0 := by
  simp only [find, (C109_violated hr hh hk .ref .ref (by decide) (by decide)).1, if_true]

/-- **C109, violated: sets.**  However many references to live entities are put into a `std::set`, only the first stays. -/
theorem C109_set_violated {s : Sys V} {W : World V} (hr : Reachable ty s W) {i : Nat} {h : Handle}
    (hh : (s.reg i).alive h = true) (l : List Handle) (hl : ∀ k ∈ l, (s.reg i).alive k = true) :
    (l.map (Operand.mk .ref)).foldl (fun t x => setInsert x t) [⟨.ref, h⟩] = [⟨.ref, h⟩] := by
  induction l with
  | nil => rfl
  | cons k l ih =>
    have hk := hl k (List.mem_cons_self ..)
    have hv := C109_violated hr hh hk .ref .ref (by decide) (by decide)
    rw [List.map_cons, List.foldl_cons]
    have : setInsert ⟨.ref, k⟩ [⟨.ref, h⟩] = [⟨.ref, h⟩] := by
      simp only [setInsert, hv.2.1, hv.2.2]
      rfl
    rw [this]
    exact ih fun x hx => hl x (List.mem_cons_of_mem _ hx)

/-- Two entities are created. -/
def twoRefs : List (SysOp Nat) := [.on 0 (.create [(0, 5)]), .on 0 (.create [(0, 6)])]

theorem twoRefs_isSome : (exec mixedTy twoRefs).isSome = true := by decide +kernel

/-- The references to them compare equal, the entities do not. -/
example : ∃ (s : Sys Nat) (W : World Nat), Reachable mixedTy s W ∧ (s.reg 0).alive ⟨0, 0⟩ = true ∧ (s.reg 0).alive ⟨1, 0⟩ = true ∧
    eq ⟨.ref, ⟨0, 0⟩⟩ ⟨.ref, ⟨1, 0⟩⟩ = some true ∧ eq ⟨.ent, ⟨0, 0⟩⟩ ⟨.ent, ⟨1, 0⟩⟩ = some false :=
  ⟨_, _, exec_get twoRefs twoRefs_isSome, by decide +kernel, by decide +kernel, by decide +kernel, by decide +kernel⟩

end CoEcs.Props
