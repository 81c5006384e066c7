import Verif.Proofs.Throwing
import Verif.Props.RegistryStorage

/-!
# Constructors that throw (C74)
-/

namespace CoEcs.Props
open CoEcs Spec

variable {V : Type} {ty : Types} {s : Sys V} {W : Spec.World V}

/-- **C74 is violated**, whenever the component is new: after the exception the entity has the component, but
there is no object.  Reading it, setting it, assigning to it and destroying the entity are undefined, it cannot be
removed, and the destructor of the registry is undefined.  (Any history without a failed copy, any entity.) -/
theorem C74_new_component_violated (hr : Reach ty (NoFailedCopy ty) s W) {i : Nat} {h : Handle} {c : Nat} (v : V)
    (hc : (s.reg i).has h [c] = .ok false) {r' : Reg V} (ht : (s.reg i).setThrows ty h c = .throw r' .user) :
    r'.has h [c] = .ok true ∧ r'.get h c = .ub ∧ r'.set ty h c v = .ub ∧ r'.assign h c v = .ub ∧ r'.getOrInsert ty h c v = .ub ∧
    r'.destroy h = .ub ∧ (∀ r2, r'.remove ty h c ≠ .ok r2 ()) ∧ r'.destruct = none := by
  have R := (hr.inv i).rep
  cases hw : W i h with
  | none => rw [R.has_none hw] at hc; cases hc
  | some d =>
    have hd : d c = none := by
      rw [R.has_some hw] at hc
      simpa using hc
    unfold Reg.setThrows at ht
    cases hs : (s.reg i).setImpl ty h c with
    | ub => rw [hs] at ht; cases ht
    | throw r2 e =>
      rw [hs] at ht
      simp only [Res.throw.injEq] at ht
      rcases R.setImpl hw c v with ⟨_, _, _, h1, _⟩ | ⟨_, ⟨h2, _⟩ | ⟨_, _, _, h2, _⟩ | ⟨_, h2, _⟩⟩
      · rw [hd] at h1; cases h1
      · rw [hs] at h2; cases h2
      · rw [hs] at h2; cases h2
      · rw [hs] at h2; simp only [Res.throw.injEq] at h2; rw [h2.2] at ht; cases ht.2
    | ok r1 x =>
      obtain ⟨b, l⟩ := x
      rw [hs] at ht
      simp only [Res.throw.injEq, and_true] at ht
      subst ht
      obtain ⟨-, ⟨ai, a, row, H⟩, -⟩ := R.setThrows (reach_tight hr i) hw hd v hs
      exact ⟨H.has, H.get, H.set ty v, H.assign v, H.getOrInsert ty v, H.destroy, H.remove ty, H.destruct⟩

/-- The same for `get_or_insert`: it leaves what `set` leaves. -/
theorem C74_get_or_insert_violated (hr : Reachable ty s W) {i : Nat} {h : Handle} {c : Nat} (v : V)
    (hc : (s.reg i).has h [c] = .ok false) {r' : Reg V} (ht : (s.reg i).setThrows ty h c = .throw r' .user) :
    (s.reg i).getOrInsertThrows ty h c = .throw r' .user := by
  have R := (hr.inv i).rep
  unfold Reg.setThrows at ht
  unfold Reg.getOrInsertThrows
  cases hw : W i h with
  | none => rw [R.has_none hw] at hc; cases hc
  | some d =>
    have hd : d c = none := by
      rw [R.has_some hw] at hc
      simpa using hc
    rcases R.setImpl hw c v with ⟨_, _, _, h1, _⟩ | ⟨_, ⟨h2, _⟩ | ⟨_, _, _, h2, _⟩ | ⟨_, h2, _⟩⟩
    · rw [hd] at h1; cases h1
    · rw [h2] at ht; cases ht
    · rw [h2] at ht
      simpa [h2] using ht
    · rw [h2] at ht; simp at ht

/-- **C74** (partial; missing: the component itself, which is false): every other entity is as before, and so are the
other components of this one. -/
theorem C74_others_unchanged_partial (hr : Reach ty (NoFailedCopy ty) s W) {i : Nat} {h : Handle} {c : Nat} (v : V)
    (hc : (s.reg i).has h [c] = .ok false) {r' : Reg V} (ht : (s.reg i).setThrows ty h c = .throw r' .user) :
    (∀ h', h' ≠ h → Same (s.reg i) r' h') ∧ ∀ c', c' ≠ c → r'.get h c' = (s.reg i).get h c' := by
  have R := (hr.inv i).rep
  cases hw : W i h with
  | none => rw [R.has_none hw] at hc; cases hc
  | some d =>
    have hd : d c = none := by
      rw [R.has_some hw] at hc
      simpa using hc
    unfold Reg.setThrows at ht
    rcases R.setImpl hw c v with ⟨_, _, _, h1, _⟩ | ⟨_, ⟨h2, _⟩ | ⟨_, _, _, h2, _⟩ | ⟨_, h2, _⟩⟩
    · rw [hd] at h1; cases h1
    · rw [h2] at ht; cases ht
    · have h2' := h2
      rw [h2] at ht
      simp only [Res.throw.injEq, and_true] at ht
      subst ht
      exact (R.setThrows (reach_tight hr i) hw hd v h2').2.2
    · rw [h2] at ht; simp at ht

/-- **C74** (partial; missing: new components): if the entity has the component, a throwing constructor leaves the
registry exactly as it was, and `get_or_insert` does not construct. -/
theorem C74_present_partial (hr : Reachable ty s W) {i : Nat} {h : Handle} {c : Nat} {v : V} (hc : (s.reg i).get h c = .ok v) :
    (s.reg i).setThrows ty h c = .throw (s.reg i) .user ∧ (s.reg i).getOrInsertThrows ty h c = .ok (s.reg i) v := by
  have R := (hr.inv i).rep
  obtain ⟨d, hw, hd⟩ := (R.get_iff h c v).1 hc
  rcases R.setImpl hw c v with ⟨v0, l, _, h1, h2, h3, _⟩ | ⟨h1, _⟩
  · rw [hd] at h1; cases h1
    simp [Reg.setThrows, Reg.getOrInsertThrows, h2, h3]
  · rw [hd] at h1; cases h1

/-- Two entities with component 0, one of them also with component 1. -/
def oneAndTwo : List (RegOp Nat) := [.create [(0, 10)], .create [(0, 20), (1, 21)]]
theorem oneAndTwo_isSome : (exec0 smallTy Sys.init (fun _ _ => none) oneAndTwo).isSome = true := by decide +kernel

/-- A new component is added to an entity next to one that already has it. -/
example : ∃ (s : Sys Nat) (W : Spec.World Nat), Reach smallTy (NoFailedCopy smallTy) s W ∧
    (s.reg 0).has ⟨0, 0⟩ [1] = .ok false ∧ (s.reg 0).get ⟨1, 0⟩ 1 = .ok 21 ∧ ∃ r', (s.reg 0).setThrows smallTy ⟨0, 0⟩ 1 = .throw r' .user := by
  refine ⟨_, _, Reach.mono (fun _ _ h => h.2) (exec0_get oneAndTwo oneAndTwo_isSome), by decide +kernel, by decide +kernel, ?_⟩
  have h : (match (((exec0 smallTy Sys.init (fun _ _ => none) oneAndTwo).get oneAndTwo_isSome).1.reg 0).setThrows smallTy ⟨0, 0⟩ 1 with
    | .throw _ .user => true | _ => false) = true := by decide +kernel
  split at h
  · rename_i r' he; exact ⟨r', he⟩
  · cases h

end CoEcs.Props
