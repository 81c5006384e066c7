import Verif.Spec.View
import Verif.Proofs.View
import Verif.Proofs.Observe

/-!
# Views in terms of `get` and `has`
-/

namespace CoEcs
open Spec (compsOf argOf callOf NoFailedFit Sys SysOp Out Reach)
variable {V : Type}

theorem Rep.callOf {ty : Types} {r : Reg V} {k : Nat} {W : Handle → Option (Comps V)} (R : Rep ty r k W) {h : Handle} {d : Comps V}
    (hw : W h = some d) : ∀ args : List BlockId, Spec.callOf r args h = tupleOf h d args
  | [] => rfl
  | none :: bs => by
    have ih := R.callOf hw bs
    unfold Spec.callOf at ih ⊢
    rw [List.mapM_cons, ih]
    simp only [argOf, tupleOf]
    cases tupleOf h d bs <;> rfl
  | some c :: bs => by
    have ih := R.callOf hw bs
    unfold Spec.callOf at ih ⊢
    rw [List.mapM_cons, ih]
    simp only [argOf, tupleOf]
    cases hd : d c with
    | none => rw [R.get_absent hw hd]; rfl
    | some v =>
      rw [R.get_some hw hd]
      cases tupleOf h d bs <;> rfl

theorem Rep.matches_iff {ty : Types} {r : Reg V} {k : Nat} {W : Handle → Option (Comps V)} (R : Rep ty r k W) (h : Handle)
    (args : List BlockId) : r.has h (compsOf args) = .ok true ↔ ∃ d, W h = some d ∧ Matches args d := by
  rw [R.has_eq]
  cases hw : W h with
  | none => simp
  | some d =>
    simp only [Obs.ok.injEq, List.all_eq_true, Option.some.injEq, exists_eq_left']
    unfold Matches compsOf
    constructor
    · intro H c hc
      have := H c (List.mem_filterMap.2 ⟨some c, hc, rfl⟩)
      exact Option.isSome_iff_exists.1 this
    · intro H c hc
      obtain ⟨b, hb, e⟩ := List.mem_filterMap.1 hc
      simp only [id_eq] at e
      subst e
      exact Option.isSome_iff_exists.2 (H c hb)

/-- No null pointer after a history in which every component list fitted. -/
theorem Reach.noNull {ty : Types} {P : Sys V → SysOp V → Prop} {s : Sys V} {W : Spec.World V} (hr : Reach ty P s W)
    (hp : ∀ s op, P s op → NoFailedFit ty s op) : ∀ i, NoNull (s.reg i).archs := by
  induction hr with
  | init =>
    intro i m hm k
    rw [hrel_unique hm (ArchsRel.empty ty).rel]
    simp [Spec.KeyMap.empty]
  | @step s s' W op out hr ha hpp hs ih =>
    have := step_spec (Spec.Reach.inv hr) ha
    rw [hs] at this
    intro i
    refine this.2.2 ?_ i (ih i)
    rintro rfl
    exact hp s op hpp s' hs

/-- Assignments are steps of histories. -/
theorem Reach.assigns {ty : Types} {P : Sys V → SysOp V → Prop}
    (hP : ∀ (s : Sys V) i h c v, (∃ r, (s.reg i).assign h c v = .ok r ()) → P s (.on i (.assign h c v)))
    {i : Nat} {r r' : Reg V} (ha : Assigns r r') : ∀ {s : Sys V} {W : Spec.World V}, Reach ty P s W → s.reg i = r →
    ∃ W', Reach ty P (s.setReg i r') W' := by
  induction ha with
  | refl r =>
    intro s W hr he
    refine ⟨W, ?_⟩
    have : s.setReg i r = s := by
      cases s with
      | mk reg pend res =>
        simp only [Sys.setReg, Sys.mk.injEq, and_true]
        funext j
        split
        · rename_i hj; subst hj; exact he.symm
        · rfl
    rw [this]; exact hr
  | @step r r1 r' h c v e _ ih =>
    intro s W hr he
    have e0 : s.step ty (.on i (.assign h c v)) = some ((s.setReg i r1), .ok none) := by
      have : s.step ty (.on i (.assign h c v)) = match Spec.noHandle ((s.reg i).assign h c v) with
        | .ub => none
        | .throw r e => some (s.setReg i r, .throw e)
        | .ok r h' => some ((s.setReg i r).note i (.assign h c v) h', .ok h') := rfl
      rw [this, he, e]; rfl
    have h1 := Spec.Reach.step hr (op := .on i (.assign h c v)) trivial (hP s i h c v ⟨r1, he ▸ e⟩) e0
    obtain ⟨W', h2⟩ := ih h1 (by simp [Sys.setReg])
    refine ⟨W', ?_⟩
    have : (s.setReg i r1).setReg i r' = s.setReg i r' := by
      simp only [Sys.setReg, Sys.mk.injEq, and_true]
      funext j
      split <;> rfl
    rw [this] at h2; exact h2

end CoEcs
