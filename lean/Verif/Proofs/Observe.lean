import Verif.Proofs.Exec

/-!
# From the represented contents to the observers
-/

namespace CoEcs
open Spec
variable {V : Type} {ty : Types} {r r' : Reg V} {k k' : Nat} {W W' : Handle → Option (Comps V)}

theorem Rep.get_eq (R : Rep ty r k W) (h : Handle) (c : Nat) : r.get h c =
    match W h with
    | none => .throw (if r.alive h then .outOfRange else .entityNotFound)
    | some d => match d c with
      | none => .throw .componentNotFound
      | some v => .ok v := by
  cases hw : W h with
  | none => exact R.get_none hw c
  | some d =>
    cases hd : d c with
    | none => rw [R.get_absent hw hd]; simp only [hd]
    | some v => rw [R.get_some hw hd]; simp only [hd]

theorem Rep.has_eq (R : Rep ty r k W) (h : Handle) (cs : List Nat) : r.has h cs =
    match W h with
    | none => .throw (if r.alive h then .outOfRange else .entityNotFound)
    | some d => .ok (cs.all fun c => (d c).isSome) := by
  cases hw : W h with
  | none => exact R.has_none hw cs
  | some d => exact R.has_some hw cs

theorem Rep.same (R : Rep ty r k W) (R' : Rep ty r' k' W') {h : Handle} (hw : W' h = W h) (ha : r'.alive h = r.alive h) : Same r r' h :=
  ⟨fun c => by rw [R.get_eq, R'.get_eq, hw, ha], fun cs => by rw [R.has_eq, R'.has_eq, hw, ha], ha⟩

theorem Rep.entity_some (R : Rep ty r k W) {h : Handle} (he : r.has h [] = .ok true) : ∃ d, W h = some d := (R.has_iff h).1 he

theorem Rep.sameEntity (R : Rep ty r k W) (R' : Rep ty r' k' W') {h : Handle} (hw : W' h = W h) : SameEntity r r' h := by
  refine ⟨fun c v => ?_, fun cs b => ?_, fun he => ?_⟩
  · rw [R.get_iff, R'.get_iff, hw]
  · rw [R.has_eq, R'.has_eq, hw]
    cases W h with
    | none => simp
    | some d => simp
  · obtain ⟨d, hd⟩ := R.entity_some he
    exact R.same R' hw (by rw [R.alive hd, R'.alive (hw.trans hd)])

theorem put_ne {D : Type} {W : Handle → Option D} {h h' : Handle} {d : Option D} (hn : h' ≠ h) : World.put W h d h' = W h' := by
  unfold World.put; rw [if_neg hn]

theorem put_self {D : Type} {W : Handle → Option D} {h : Handle} {d : Option D} : World.put W h d h = d := by
  unfold World.put; rw [if_pos rfl]

theorem listed_mem {args : List (Nat × V)} (hnd : (args.map Prod.fst).Nodup) {x : Nat × V} (hx : x ∈ args) :
    Spec.World.listed args x.1 = some x.2 := by
  induction args with
  | nil => cases hx
  | cons y ys ih =>
    simp only [List.map_cons, List.nodup_cons] at hnd
    unfold Spec.World.listed
    rcases List.mem_cons.1 hx with rfl | hx
    · simp
    · have hne : y.1 ≠ x.1 := fun e => hnd.1 (e ▸ List.mem_map_of_mem hx)
      have := ih hnd.2 hx
      unfold Spec.World.listed at this
      simp [hne, this]

theorem listed_none {args : List (Nat × V)} {c : Nat} (hc : c ∉ args.map Prod.fst) : Spec.World.listed args c = none := by
  unfold Spec.World.listed
  rw [Option.map_eq_none_iff, List.find?_eq_none]
  intro x hx he
  exact hc (by rw [← beq_iff_eq.1 he]; exact List.mem_map_of_mem hx)

theorem listed_isSome {args : List (Nat × V)} (hnd : (args.map Prod.fst).Nodup) (c : Nat) :
    (Spec.World.listed args c).isSome = decide (c ∈ args.map Prod.fst) := by
  by_cases hc : c ∈ args.map Prod.fst
  · obtain ⟨x, hx, rfl⟩ := List.mem_map.1 hc
    rw [listed_mem hnd hx]
    simp [hc]
  · rw [listed_none hc]; simp [hc]

end CoEcs
