import Verif.Proofs.RepEnd
import Verif.Props.RegistryStorage

/-!
# Properties of observers, reserved entities and reference arguments (C27, C48, C49, C50)
-/

namespace CoEcs.Props
open CoEcs Spec

variable {V : Type} {ty : Types} {s : Sys V} {W : Spec.World V}

/-! ## C27 -/

/-- **C27** (partial; missing: use before a clone or move has filled the entity, where it is false): once
nothing is pending, every reserved entity is alive. -/
theorem C27_reserved_alive_partial (hr : Reachable ty s W) {i : Nat} (hp : s.pend i = 0) {h : Handle} (hh : h ∈ s.res i) :
    (s.reg i).alive h = true := by
  obtain ⟨R, res⟩ := hr.inv i
  rw [hp] at R res
  exact ((res h hh).1.held R.pool).alive

/-- **C27 is violated** for every reserved entity that has not been filled by a clone or move: after `sync`
it is alive, yet `get`, `has`, `set`, `remove`, `visit` and `destroy` throw `std::out_of_range`. -/
theorem C27_reserved_unusable_violated (hr : Reachable ty s W) {i : Nat} (hp : s.pend i = 0) {h : Handle} (hh : h ∈ s.res i) (c : Nat) (v : V) :
    (s.reg i).alive h = true ∧ (s.reg i).get h c = .throw .outOfRange ∧ (s.reg i).has h [c] = .throw .outOfRange ∧
    (s.reg i).set ty h c v = .throw (s.reg i) .outOfRange ∧ (s.reg i).remove ty h c = .throw (s.reg i) .outOfRange ∧
    (s.reg i).visit h = .throw .outOfRange ∧ (s.reg i).destroy h = .throw (s.reg i) .outOfRange := by
  have hal := C27_reserved_alive_partial hr hp hh
  obtain ⟨R, res⟩ := hr.inv i
  have hw := (res h hh).2
  refine ⟨hal, ?_, ?_, ?_, ?_, ?_, ?_⟩
  · rw [R.get_none hw, hal]; rfl
  · rw [R.has_none hw, hal]; rfl
  · rw [R.set_none hw, hal]; rfl
  · rw [R.remove_none hw, hal]; rfl
  · rw [R.visit_none hw, hal]; rfl
  · rw [R.destroy_none hw, hal]; rfl

/-- **C27** (partial): `sync` makes every entity reserved before alive, and leaves all answers about
entities unchanged. -/
theorem C27_sync_partial (hr : Reachable ty s W) {i : Nat} :
    (∀ h ∈ s.res i, (s.reg i).sync.alive h = true) ∧ ∀ h, SameEntity (s.reg i) (s.reg i).sync h := by
  obtain ⟨R, res⟩ := hr.inv i
  obtain ⟨Q, q1, q2⟩ := R.sync
  exact ⟨fun h hh => (q1 h (res h hh).1).alive, fun h => R.sameEntity Q rfl⟩

/-- **C27** (partial): cloning an entity into a reserved one makes the latter an entity like any other, with
the components of the original. -/
theorem C27_clone_into_reserved_partial (hr : Reachable ty s W) {i : Nat} {h ph : Handle} (ha : s.Allowed (.on i (.clone h (some ph))))
    {r' : Reg V} {h' : Handle} (hc : (s.reg i).cloneInto h ph = .ok r' h') :
    h' = ph ∧ r'.alive ph = true ∧ EqualEntity (s.reg i) h r' ph ∧ ∀ h2, h2 ≠ ph → Same (s.reg i) r' h2 := by
  obtain ⟨hp, hb⟩ := ha
  obtain ⟨R, res⟩ := hr.inv i
  rw [hp] at R res
  rw [cloneInto_eq] at hc
  have hwp := (res ph hb).2
  have hh := (res ph hb).1.held R.pool
  cases hw : W i h with
  | none => rw [R.copyInto_none hw] at hc; cases hc
  | some d =>
    rcases R.copyInto R hw hh hwp with ⟨q, q1, q2, q3, q4, _⟩ | ⟨q, q1, _⟩
    · rw [hc] at q1
      cases q1
      have hwh : World.put (W i) ph (some d) ph = some d := put_self
      exact ⟨rfl, q4.alive hwh, equal_of_rep R q4 hw hwh, fun h2 hne => R.same q4 (put_ne hne) (by unfold Reg.alive; rw [q3])⟩
    · rw [hc] at q1; cases q1

example : sampleSys.pend 1 = 0 ∧ ⟨0, 0⟩ ∈ sampleSys.res 1 := by decide +kernel

def sampleReserved : List (SysOp Nat) := sampleReg ++ [.on 0 .reserve, .on 0 .sync]
theorem sampleReserved_isSome : (exec smallTy sampleReserved).isSome = true := by decide +kernel

example : ∃ (s : Sys Nat) (W : Spec.World Nat), Reachable smallTy s W ∧ ∃ ph, s.Allowed (.on 0 (.clone ⟨0, 0⟩ (some ph))) ∧
    ∃ r' h', (s.reg 0).cloneInto ⟨0, 0⟩ ph = .ok r' h' :=
  ⟨_, _, exec_get sampleReserved sampleReserved_isSome, ⟨3, 0⟩, by decide +kernel, okOf_eq (by decide +kernel)⟩

/-! ## C48 -/

/-- **C48** (partial; missing: entities with the same components, where it is false): if the target already
has the component, or if the two entities do not have exactly the same components, `set` with a
reference into the registry does what `set` with the value does. -/
theorem C48_set_from_reference_partial (hr : Reachable ty s W) {i : Nat} {h src : Handle} {c sc : Nat} {v : V}
    (he : (s.reg i).has h [] = .ok true) (hv : (s.reg i).get src sc = .ok v)
    (hne : (s.reg i).has h [c] = .ok true ∨ ∃ x, (s.reg i).has h [x] ≠ (s.reg i).has src [x]) :
    (s.reg i).setFrom ty h c src sc = (s.reg i).set ty h c v := by
  have R := (hr.inv i).rep
  obtain ⟨d, hw⟩ := R.entity_some he
  obtain ⟨ds, hws, hds⟩ := (R.get_iff src sc v).1 hv
  refine setFrom_eq R hw hws hds ?_
  rcases hne with h1 | ⟨x, hx⟩
  · left
    rw [R.has_some hw] at h1
    simp only [List.all_cons, List.all_nil, Bool.and_true, Obs.ok.injEq] at h1
    exact Option.isSome_iff_ne_none.1 h1
  · right
    refine ⟨x, fun hd => hx ?_⟩
    rw [R.has_some hw, R.has_some hws]
    simp [hd]

/-- In particular a reference to the same component type of another entity is safe. -/
theorem C48_same_type_partial (hr : Reachable ty s W) {i : Nat} {h src : Handle} {c : Nat} {v : V}
    (he : (s.reg i).has h [] = .ok true) (hv : (s.reg i).get src c = .ok v) :
    (s.reg i).setFrom ty h c src c = (s.reg i).set ty h c v := by
  refine C48_set_from_reference_partial hr he hv ?_
  have R := (hr.inv i).rep
  obtain ⟨d, hw⟩ := R.entity_some he
  obtain ⟨ds, hws, hds⟩ := (R.get_iff src c v).1 hv
  cases hd : d c with
  | some x => left; rw [R.has_some hw]; simp [hd]
  | none => right; refine ⟨c, ?_⟩; rw [R.has_some hw, R.has_some hws]; simp [hd, hds]

example : (sampleSys.reg 0).has ⟨1, 0⟩ [] = .ok true ∧ (sampleSys.reg 0).get ⟨0, 0⟩ 2 = .ok 12 ∧
    (sampleSys.reg 0).has ⟨1, 0⟩ [2] ≠ (sampleSys.reg 0).has ⟨0, 0⟩ [2] := by decide +kernel

/-- Two entities with component 0. -/
def twoSame : List (SysOp Nat) := [.on 0 (.create [(0, 10)]), .on 0 (.create [(0, 20)])]
theorem twoSame_isSome : (exec smallTy twoSame).isSome = true := by decide +kernel
/-- One entity with component 0. -/
def oneOnly : List (SysOp Nat) := [.on 0 (.create [(0, 10)])]
theorem oneOnly_isSome : (exec smallTy oneOnly).isSome = true := by decide +kernel

/-- **C48 is violated**: adding component 1 to an entity with the value of its own component 0, which is 10,
stores 20, the component of the entity that was moved into its place. -/
theorem C48_other_value_violated :
    ∃ (ty : Types) (s : Sys Nat) (W : Spec.World Nat) (h : Handle), Reachable ty s W ∧ (s.reg 0).get h 0 = .ok 10 ∧
      ∃ r', (s.reg 0).setFrom ty h 1 h 0 = .ok r' () ∧ r'.get h 1 = .ok 20 := by
  refine ⟨smallTy, _, _, ⟨0, 0⟩, exec_get twoSame twoSame_isSome, by decide +kernel, ?_⟩
  have h1 : ((okOf ((((exec smallTy twoSame).get twoSame_isSome).1.reg 0).setFrom smallTy ⟨0, 0⟩ 1 ⟨0, 0⟩ 0)).any
      fun x => decide (x.1.get ⟨0, 0⟩ 1 = .ok 20)) = true := by decide +kernel
  cases hx : (((exec smallTy twoSame).get twoSame_isSome).1.reg 0).setFrom smallTy ⟨0, 0⟩ 1 ⟨0, 0⟩ 0 with
  | ok r' u => rw [hx] at h1; exact ⟨r', rfl, by simpa [okOf] using h1⟩
  | throw _ _ => rw [hx] at h1; cases h1
  | ub => rw [hx] at h1; cases h1

/-- **C48 is violated**: if the entity is the only one of its archetype the reference dangles. -/
theorem C48_dangling_violated :
    ∃ (ty : Types) (s : Sys Nat) (W : Spec.World Nat) (h : Handle), Reachable ty s W ∧ (s.reg 0).get h 0 = .ok 10 ∧
      (s.reg 0).setFrom ty h 1 h 0 = .ub := by
  refine ⟨smallTy, _, _, ⟨0, 0⟩, exec_get oneOnly oneOnly_isSome, by decide +kernel, ?_⟩
  have : (match (((exec smallTy oneOnly).get oneOnly_isSome).1.reg 0).setFrom smallTy ⟨0, 0⟩ 1 ⟨0, 0⟩ 0 with | .ub => true | _ => false) = true := by
    decide +kernel
  split at this
  · assumption
  · cases this

/-! ## C49 -/

/-- **C49** (has and get): for an entity `get<C>` succeeds exactly if `has<C>` holds and otherwise throws
`component_not_found`; `has` of a list is the conjunction. -/
theorem C49_get_has_agree (hr : Reachable ty s W) {i : Nat} {h : Handle} (he : (s.reg i).has h [] = .ok true) :
    (∀ c, (s.reg i).has h [c] = .ok true ↔ ∃ v, (s.reg i).get h c = .ok v) ∧
    (∀ c, (s.reg i).has h [c] = .ok false ↔ (s.reg i).get h c = .throw .componentNotFound) ∧
    (∀ cs, ∃ b, (s.reg i).has h cs = .ok b ∧ (b = true ↔ ∀ c ∈ cs, (s.reg i).has h [c] = .ok true)) := by
  have R := (hr.inv i).rep
  obtain ⟨d, hw⟩ := R.entity_some he
  refine ⟨fun c => ?_, fun c => ?_, fun cs => ⟨_, R.has_some hw cs, ?_⟩⟩
  · rw [R.has_some hw, R.get_eq, hw]
    cases hd : d c <;> simp [hd]
  · rw [R.has_some hw, R.get_eq, hw]
    cases hd : d c <;> simp [hd]
  · rw [List.all_eq_true]
    refine forall_congr' fun c => ?_
    rw [R.has_some hw]
    simp

/-- **C49** (dead handles): every access through a dead handle throws `entity_not_found` and leaves the
registry as it was. -/
theorem C49_dead_handles (hr : Reachable ty s W) {i : Nat} {h : Handle} (hd : (s.reg i).alive h = false) (c : Nat) (cs : List Nat) (v : V) :
    (s.reg i).get h c = .throw .entityNotFound ∧ (s.reg i).has h cs = .throw .entityNotFound ∧
    (s.reg i).visit h = .throw .entityNotFound ∧ (s.reg i).set ty h c v = .throw (s.reg i) .entityNotFound ∧
    (s.reg i).remove ty h c = .throw (s.reg i) .entityNotFound ∧ (s.reg i).assign h c v = .throw (s.reg i) .entityNotFound ∧
    (s.reg i).getOrInsert ty h c v = .throw (s.reg i) .entityNotFound ∧ (s.reg i).destroy h = .throw (s.reg i) .entityNotFound := by
  have R := (hr.inv i).rep
  have hw : W i h = none := by
    cases hw : W i h with
    | none => rfl
    | some d => rw [R.alive hw] at hd; cases hd
  refine ⟨?_, ?_, ?_, ?_, ?_, ?_, ?_, ?_⟩
  · rw [R.get_none hw, hd]; rfl
  · rw [R.has_none hw, hd]; rfl
  · rw [R.visit_none hw, hd]; rfl
  · rw [R.set_none hw, hd]; rfl
  · rw [R.remove_none hw, hd]; rfl
  · rw [R.assign_none hw, hd]; rfl
  · rw [R.getOrInsert_none hw, hd]; rfl
  · rw [R.destroy_none hw, hd]; rfl

/-- **C49** (visit): `visit` reports each component exactly once, with the value that `get` returns. -/
theorem C49_visit_agrees (hr : Reachable ty s W) {i : Nat} {h : Handle} (he : (s.reg i).has h [] = .ok true) :
    ∃ l, (s.reg i).visit h = .ok l ∧ (l.map Prod.fst).Nodup ∧ ∀ c v, (c, v) ∈ l ↔ (s.reg i).get h c = .ok v := by
  have R := (hr.inv i).rep
  obtain ⟨d, hw⟩ := R.entity_some he
  obtain ⟨l, h1, h2, h3⟩ := R.visit hw
  refine ⟨l, h1, h2, fun c v => ?_⟩
  rw [h3, R.get_iff]
  exact ⟨fun h => ⟨d, hw, h⟩, fun ⟨d', e1, e2⟩ => by rw [hw] at e1; cases e1; exact e2⟩

/-- **C49** (get_or_insert): it returns what `get` returns, without changing anything, if the component
is there; otherwise it returns the given value and acts as `set`. -/
theorem C49_get_or_insert_agrees (hr : Reachable ty s W) {i : Nat} {h : Handle} {c : Nat} {v : V} :
    (∀ v0, (s.reg i).get h c = .ok v0 → (s.reg i).getOrInsert ty h c v = .ok (s.reg i) v0) ∧
    (∀ r' w, (s.reg i).get h c = .throw .componentNotFound → (s.reg i).getOrInsert ty h c v = .ok r' w →
      w = v ∧ (s.reg i).set ty h c v = .ok r' ()) := by
  have R := (hr.inv i).rep
  constructor
  · intro v0 hv
    obtain ⟨d, hw, hd⟩ := (R.get_iff h c v0).1 hv
    rcases R.getOrInsert hw c v with ⟨v1, h1, h2⟩ | ⟨h1, _⟩
    · rw [hd] at h1; cases h1; exact h2
    · rw [hd] at h1; cases h1
  · intro r' w hg hi
    cases hw : W i h with
    | none => rw [R.get_none hw] at hg; split at hg <;> cases hg
    | some d =>
      have hd : d c = none := by
        rw [R.get_eq, hw] at hg
        cases hd : d c with
        | none => rfl
        | some x => simp only [hd] at hg; cases hg
      unfold Reg.getOrInsert at hi
      unfold Reg.set
      rcases R.setImpl hw c v with ⟨v0, l, r1, h1, _⟩ | ⟨h1, ⟨h2, h3⟩ | ⟨r1, r2, l, h2, h3, h4⟩ | ⟨r1, h2, h3⟩⟩
      · rw [hd] at h1; cases h1
      · rw [h2] at hi; cases hi
      · simp only [h2, h3, if_true, h4.1.1] at hi ⊢
        cases hi
        exact ⟨rfl, rfl⟩
      · rw [h2] at hi; cases hi

/-- **C49 is violated** by `entity_ref::has`, for every dead handle: it is `noexcept`, so instead of
`entity_not_found` the program is terminated. -/
theorem C49_ref_has_terminates_violated (hr : Reachable ty s W) {i : Nat} {h : Handle} (hd : (s.reg i).alive h = false) (cs : List Nat) :
    (s.reg i).refHas h cs = none := by
  have R := (hr.inv i).rep
  have hw : W i h = none := by
    cases hw : W i h with
    | none => rfl
    | some d => rw [R.alive hw] at hd; cases hd
  unfold Reg.refHas
  rw [R.has_none hw]

example : (sampleSys.reg 0).has ⟨0, 0⟩ [] = .ok true ∧ (sampleSys.reg 0).has ⟨0, 0⟩ [0, 1, 2] = .ok true ∧
    (sampleSys.reg 0).get ⟨1, 0⟩ 1 = .throw .componentNotFound ∧ (sampleSys.reg 0).alive ⟨2, 0⟩ = false := by decide +kernel

/-! ## C50 -/

/-- **C50**: `size()` is the number of handles that have been made entities and not been destroyed or moved
away, which are those for which `has<>()` returns; `empty()` says whether there is none. -/
theorem C50_size_counts (hr : Reachable ty s W) (i : Nat) :
    ∃ l : List Handle, l.Nodup ∧ (∀ h, h ∈ l ↔ W i h ≠ none) ∧ (∀ h, h ∈ l ↔ (s.reg i).has h [] = .ok true) ∧
      (s.reg i).size = l.length ∧ ((s.reg i).isEmpty = true ↔ l = []) := by
  have R := (hr.inv i).rep
  obtain ⟨l, h1, h2, h3⟩ := R.size
  refine ⟨l, h1, fun h => ?_, fun h => by rw [h2, R.has_iff], h3.symm, ?_⟩
  · rw [h2]
    cases W i h <;> simp
  · unfold Reg.isEmpty
    rw [← List.length_eq_zero_iff, h3]
    simp [Reg.size]

/-- **C50** (steps): creating or cloning adds one, destroying subtracts one, changing components leaves
the size unchanged. -/
theorem C50_size_step (hr : Reachable ty s W) {i : Nat} :
    (∀ args r' h, s.Allowed (.on i (.create args)) → (s.reg i).create ty args = .ok r' h → r'.size = (s.reg i).size + 1) ∧
    (∀ h r' h', s.Allowed (.on i (.clone h none)) → (s.reg i).clone h = .ok r' h' → r'.size = (s.reg i).size + 1) ∧
    (∀ h r', s.Allowed (.on i (.destroy h)) → (s.reg i).destroy h = .ok r' () → r'.size + 1 = (s.reg i).size) ∧
    (∀ h c v r', (s.reg i).set ty h c v = .ok r' () → r'.size = (s.reg i).size) ∧
    (∀ h c r', (s.reg i).remove ty h c = .ok r' () → r'.size = (s.reg i).size) := by
  have R := (hr.inv i).rep
  refine ⟨?_, ?_, ?_, ?_, ?_⟩
  · rintro args r' h ⟨hnd, hp, hb⟩ hc
    rw [hp] at R
    obtain ⟨p, h0, hcr, h3, hw, h4, h5, h6⟩ := R.create hb hnd
    rcases h6 with ⟨r1, q1, q2, q3, _⟩ | ⟨r1, q1, _⟩
    · rw [hc] at q1; cases q1; exact R.size_new q3 hw
    · rw [hc] at q1; cases q1
  · rintro h r' h' ⟨hp, hb⟩ hc
    rw [hp] at R
    obtain ⟨p, ph, hcr, R1, h3, hwp, h4, h5⟩ := R.create_pool hb
    unfold Reg.clone at hc
    simp only [hcr, cloneInto_eq] at hc
    cases hw : W i h with
    | none => rw [R1.copyInto_none hw] at hc; cases hc
    | some d =>
      rcases R1.copyInto R1 hw h3 hwp with ⟨q, q1, q2, q3, q4, _⟩ | ⟨q, q1, _⟩
      · rw [hc] at q1; cases q1; exact R.size_new q4 hwp
      · rw [hc] at q1; cases q1
  · rintro h r' hp hd
    rw [show s.pend i = 0 from hp] at R
    cases hw : W i h with
    | none => rw [R.destroy_none hw] at hd; cases hd
    | some d =>
      rcases R.destroy hw with ⟨q1, _⟩ | ⟨r1, q1, q2, q3, _⟩
      · rw [hd] at q1; cases q1
      · rw [hd] at q1
        cases q1
        exact (q3.size_new (by rw [put_put hw]; exact R) put_self).symm
  · intro h c v r' hs
    cases hw : W i h with
    | none => rw [R.set_none hw] at hs; cases hs
    | some d =>
      rcases R.set hw c v with ⟨q1, _⟩ | ⟨r1, q1, q2, q3, _⟩ | ⟨r1, q1, _⟩
      · rw [hs] at q1; cases q1
      · rw [hs] at q1
        cases q1
        refine R.size_dom q3 fun x => ?_
        by_cases hx : x = h
        · subst hx; simp [put_self, hw]
        · rw [put_ne hx]
      · rw [hs] at q1; cases q1
  · intro h c r' hs
    cases hw : W i h with
    | none => rw [R.remove_none hw] at hs; cases hs
    | some d =>
      rcases R.remove hw c with ⟨q0, q1⟩ | ⟨_, ⟨q1, _⟩ | ⟨r1, q1, q2, q3, _⟩ | ⟨r1, q1, _⟩⟩
      · rw [hs] at q1; cases q1; rfl
      · rw [hs] at q1; cases q1
      · rw [hs] at q1
        cases q1
        refine R.size_dom q3 fun x => ?_
        by_cases hx : x = h
        · subst hx; simp [put_self, hw]
        · rw [put_ne hx]
      · rw [hs] at q1; cases q1

example : (sampleSys.reg 0).size = 3 ∧ (sampleSys.reg 2).isEmpty = true := by decide +kernel

end CoEcs.Props
