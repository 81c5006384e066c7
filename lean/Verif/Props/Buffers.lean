import Verif.Proofs.BuffersAddr
import Verif.Props.StorageGrowth

/-!
# Validity of references to components (C96)
-/

namespace CoEcs.Props
open CoEcs CoEcs.Spec

variable {V : Type} {ty : Types} {s s' : BSys V} {W W' : World V}

/-! ## C96 -/

/-- Run operations, checking that they are allowed. -/
def bexec (ty : Types) : BSys V → World V → List (SysOp V) → Option (BSys V × World V)
  | s, W, [] => some (s, W)
  | s, W, op :: ops =>
    if s.sys.Allowed op then
      match s.step ty op with
      | none => none
      | some (s', out) => bexec ty s' (W.step op out) ops
    else none

theorem bexec_reach (ops : List (SysOp V)) (h : BReachable ty s W) (he : bexec ty s W ops = some (s', W')) : BReachable ty s' W' := by
  induction ops generalizing s W with
  | nil => simp [bexec] at he; obtain ⟨rfl, rfl⟩ := he; exact h
  | cons op ops ih =>
    unfold bexec at he
    split at he
    · rename_i ha
      cases hs : s.step ty op with
      | none => rw [hs] at he; cases he
      | some x =>
        obtain ⟨s1, out⟩ := x
        rw [hs] at he
        exact ih (.step h ha hs trivial) he
    · cases he

theorem bexec_get (ops : List (SysOp V)) (h : (bexec ty BSys.init (fun _ _ => none) ops).isSome = true) :
    BReachable ty ((bexec ty BSys.init (fun _ _ => none) ops).get h).1 ((bexec ty BSys.init (fun _ _ => none) ops).get h).2 :=
  bexec_reach ops (.refl _ _) (Option.some_get h).symm

/-- **C96 (the model with buffers)**: forgetting the buffers gives the registries of the other properties, so their
theorems hold here. -/
theorem C96_forget (h : BReachable ty s W) : Reachable ty s.sys W := by
  unfold BReachable at h
  generalize hi : (BSys.init : BSys V) = s0 at h
  generalize hw : (fun _ _ => none : World V) = W0 at h
  induction h with
  | refl => subst hi; subst hw; exact .init
  | step _ ha hst _ ih => exact .step (ih hw) ha trivial (BInv.step_sys hst)

/-- **C96 (what a reference refers to)**: `get` gives a value exactly if there is an address and that value is behind
it. -/
theorem C96_get_is_load (h : BReachable ty s W) (i : Nat) (x : Handle) (c : Nat) (v : V) :
    (s.reg i).reg.get x c = .ok v ↔ ∃ p, (s.reg i).addr x c = some p ∧ (s.reg i).PointsTo p v := by
  have I := h.inv
  have R := (I.sys i).rep
  constructor
  · intro hg
    obtain ⟨d, hw, hd⟩ := (R.get_iff x c v).1 hg
    exact Rep.addr_points (b := s.reg i) R (I.fits i) hw hd
  · rintro ⟨p, hp, hv⟩
    cases hw : W i x with
    | none => rw [Rep.addr_none (b := s.reg i) R (I.fits i) (fun d hd => by rw [hw] at hd; cases hd)] at hp; cases hp
    | some d =>
      cases hd : d c with
      | none => rw [Rep.addr_none (b := s.reg i) R (I.fits i) (fun d' hd' => by rw [hw] at hd'; cases hd'; exact hd)] at hp; cases hp
      | some u =>
        obtain ⟨p', hp', hu⟩ := Rep.addr_points (b := s.reg i) R (I.fits i) hw hd
        rw [hp] at hp'
        cases hp'
        rw [(I.fits i).pointsTo_unique hv hu]
        exact R.get_some hw hd

/-- **C96 (one value)**: behind an address is at most one value. -/
theorem C96_load_unique (h : BReachable ty s W) {i : Nat} {p : Ptr} {v w : V} (h1 : (s.reg i).PointsTo p v) (h2 : (s.reg i).PointsTo p w) : v = w :=
  (h.inv.fits i).pointsTo_unique h1 h2

/-- **C96 (no aliasing)**: different components have different addresses. -/
theorem C96_no_alias (h : BReachable ty s W) {i : Nat} {x y : Handle} {c c' : Nat} {p : Ptr} (h1 : (s.reg i).addr x c = some p)
    (h2 : (s.reg i).addr y c' = some p) : x = y ∧ c = c' :=
  Rep.addr_inj (b := s.reg i) (h.inv.sys i).rep (h.inv.fits i) h1 h2

/-- **C96 (one call)**: a call either leaves the addresses of all entities that do not leave their place, or it takes
one entity out of its place, at most one other entity, with the same component types, gets its addresses, and all
others keep theirs.  The second happens only if the call succeeds. -/
theorem C96_one_call (h : BReachable ty s W) {op : SysOp V} (ha : s.sys.Allowed op) {out : Out} (hst : s.step ty op = some (s', out)) (i : Nat) :
    (∀ x d, W i x = some d → (∀ o, out = .ok o → ¬ Leaves W op i x) → ∀ c, (s'.reg i).addr x c = (s.reg i).addr x c) ∨
    ((∃ o, out = .ok o) ∧ ∃ y m, Leaves W op i y ∧ (m ≠ y → SameSet W i m y ∧ ∀ c, (s'.reg i).addr m c = (s.reg i).addr y c) ∧
      ∀ x d, W i x = some d → x ≠ y → x ≠ m → ∀ c, (s'.reg i).addr x c = (s.reg i).addr x c) :=
  h.inv.addr_step ha hst i

/-- **C96 (calls that keep all references)**: a call that throws and a call that takes no entity out of its place,
such as the creation of an entity or the assignment to a component, keep every address of every entity. -/
theorem C96_no_leave (h : BReachable ty s W) {op : SysOp V} (ha : s.sys.Allowed op) {out : Out} (hst : s.step ty op = some (s', out)) {i : Nat}
    (hn : ∀ o, out = .ok o → ∀ y, ¬ Leaves W op i y) {x : Handle} {d : Nat → Option V} (hx : W i x = some d) (c : Nat) :
    (s'.reg i).addr x c = (s.reg i).addr x c := by
  rcases h.inv.addr_step ha hst i with h1 | ⟨⟨o, rfl⟩, y, _, hy, _⟩
  · exact h1 x d hx (fun o ho => hn o ho x) c
  · exact absurd hy (hn o rfl y)

/-- One step in which no entity with the same component types leaves. -/
theorem addr_setStays (I : BInv ty s W) {op : SysOp V} (ha : s.sys.Allowed op) {out : Out} (hst : s.step ty op = some (s', out)) {i : Nat}
    {x : Handle} {d : Nat → Option V} (hx : W i x = some d) (hP : SetStays i x W op out) :
    (∀ c, (s'.reg i).addr x c = (s.reg i).addr x c) ∧ ∃ d', W.step op out i x = some d' ∧ ∀ c, d' c = none ↔ d c = none := by
  have hself : ∀ o, out = .ok o → ¬ Leaves W op i x := fun o ho hl => hP o ho x hl ⟨d, d, hx, hx, fun _ => Iff.rfl⟩
  refine ⟨fun c => ?_, step_keeps I.sys ha (BInv.step_sys hst) hx hself⟩
  rcases I.addr_step ha hst i with h1 | ⟨⟨o, rfl⟩, y, m, hy, hm, hothers⟩
  · exact h1 x d hx hself c
  · have hns := hP o rfl y hy
    have hxy : x ≠ y := by rintro rfl; exact hself o rfl hy
    by_cases hxm : x = m
    · subst hxm; exact absurd (hm hxy).1 hns
    · exact hothers x d hx hxy hxm c

/-- **C96, partial**: a reference to component `c` of entity `x` stays valid in every history in which no entity of
the registry that has the same component types as `x`, including `x`, is destroyed, moved to another registry or
changes its component types: the address stays that of the component, and loading through it gives the value of
`get`.  Everything else may happen: entities are created, cloned and copied, values are written, entities with other
component types come and go.  Missing: entities with the same component types leave while `x` stays. -/
theorem C96_refs_stay_partial (h : BReachable ty s W) {i : Nat} {x : Handle} {c : Nat} {p : Ptr} (hp : (s.reg i).addr x c = some p)
    (hrun : BRun ty (SetStays i x) s W s' W') :
    (s'.reg i).addr x c = some p ∧ ∀ v, (s'.reg i).PointsTo p v ↔ (s'.reg i).reg.get x c = .ok v := by
  have I := h.inv
  have hx : ∃ d, W i x = some d := by
    cases hw : W i x with
    | some d => exact ⟨d, rfl⟩
    | none => rw [Rep.addr_none (b := s.reg i) (I.sys i).rep (I.fits i) (fun d hd => by rw [hw] at hd; cases hd)] at hp; cases hp
  have main : (s'.reg i).addr x c = some p ∧ (∃ d, W' i x = some d) ∧ BReachable ty s' W' := by
    induction hrun with
    | refl => exact ⟨hp, hx, h⟩
    | step _ ha hst hP ih =>
      obtain ⟨h1, ⟨d, h2⟩, h3⟩ := ih h I hx
      obtain ⟨q1, d', q2, _⟩ := addr_setStays h3.inv ha hst h2 hP
      exact ⟨(q1 c).trans h1, ⟨d', q2⟩, .step h3 ha hst trivial⟩
  obtain ⟨h1, _, h3⟩ := main
  refine ⟨h1, fun v => ?_⟩
  rw [C96_get_is_load h3]
  constructor
  · exact fun hv => ⟨p, h1, hv⟩
  · rintro ⟨q, hq, hv⟩
    rw [h1] at hq; cases hq; exact hv

/-- Three entities with component 0, and others. -/
def refsBefore : List (SysOp Nat) :=
  [.on 0 (.create [(0, 10)]), .on 0 (.create [(0, 20)]), .on 0 (.create [(0, 30)]), .on 0 (.create [(0, 40), (1, 41)])]

theorem refsBefore_isSome : (bexec smallTy BSys.init (fun _ _ => none) refsBefore).isSome = true := by decide +kernel

/-- The state after `refsBefore`. -/
def refsState : BSys Nat := ((bexec smallTy BSys.init (fun _ _ => none) refsBefore).get refsBefore_isSome).1
def refsWorld : World Nat := ((bexec smallTy BSys.init (fun _ _ => none) refsBefore).get refsBefore_isSome).2

theorem refs_reach : BReachable smallTy refsState refsWorld := bexec_get refsBefore refsBefore_isSome

theorem refsCreate_isSome : (refsState.step smallTy (.on 0 (.create [(0, 50)]))).isSome = true := by decide +kernel
theorem refsOther_isSome : (((refsState.step smallTy (.on 0 (.create [(0, 50)]))).get refsCreate_isSome).1.step smallTy (.on 0 (.destroy ⟨3, 0⟩))).isSome = true := by
  decide +kernel

/-- Entity 2 has an address; an entity with the same types is created and one with other types is destroyed. -/
example : ∃ (s s' : BSys Nat) (W W' : World Nat) (p : Ptr), BReachable smallTy s W ∧ (s.reg 0).addr ⟨2, 0⟩ 0 = some p ∧
    BRun smallTy (SetStays 0 ⟨2, 0⟩) s W s' W' ∧ (s.reg 0).reg.has ⟨3, 0⟩ [] = .ok true ∧ (s'.reg 0).reg.alive ⟨3, 0⟩ = false ∧
    (s'.reg 0).reg.get ⟨4, 0⟩ 0 = .ok 50 := by
  refine ⟨refsState, _, refsWorld, _, ⟨0, 0, 2⟩, refs_reach, by decide +kernel,
    .step (.step (.refl _ _) (by decide +kernel) (Option.some_get refsCreate_isSome).symm ?_) (by decide +kernel)
      (Option.some_get refsOther_isSome).symm ?_, by decide +kernel, by decide +kernel, by decide +kernel⟩
  · intro o _ y hy; exact hy.elim
  · rintro o _ y ⟨_, rfl⟩ ⟨d, e, h1, h2, h3⟩
    have h4 := h3 1
    have hd : (((refsWorld.step (.on 0 (.create [(0, 50)])) ((refsState.step smallTy (.on 0 (.create [(0, 50)]))).get refsCreate_isSome).2) 0 ⟨2, 0⟩).bind
      fun d => d 1) = none := by decide +kernel
    have he : (((refsWorld.step (.on 0 (.create [(0, 50)])) ((refsState.step smallTy (.on 0 (.create [(0, 50)]))).get refsCreate_isSome).2) 0 ⟨3, 0⟩).bind
      fun d => d 1) = some 41 := by decide +kernel
    have hd' : (some d).bind (fun d => d 1) = none := h1 ▸ hd
    have he' : (some e).bind (fun d => d 1) = some 41 := h2 ▸ he
    simp only [Option.bind_some] at hd' he'
    rw [h4.1 hd'] at he'
    cases he'

theorem refsDestroy_isSome : (refsState.step smallTy (.on 0 (.destroy ⟨0, 0⟩))).isSome = true := by decide +kernel

/-- The state after the first of the three entities has been destroyed. -/
def refsAfter : BSys Nat := ((refsState.step smallTy (.on 0 (.destroy ⟨0, 0⟩))).get refsDestroy_isSome).1

theorem refsAgain_isSome : (refsAfter.step smallTy (.on 0 (.create [(0, 99)]))).isSome = true := by decide +kernel

/-- The state after another entity has been created. -/
def refsAgain : BSys Nat := ((refsAfter.step smallTy (.on 0 (.create [(0, 99)]))).get refsAgain_isSome).1

theorem refsAfter_reach : BReachable smallTy refsAfter (refsWorld.step (.on 0 (.destroy ⟨0, 0⟩)) ((refsState.step smallTy (.on 0 (.destroy ⟨0, 0⟩))).get refsDestroy_isSome).2) :=
  .step refs_reach (by decide +kernel) (Option.some_get refsDestroy_isSome).symm trivial

/-- Addresses in a history: two components of one entity and one of another have three addresses, and the values are
those of `get`. -/
example : ∃ (s : BSys Nat) (W : World Nat), BReachable smallTy s W ∧ (s.reg 0).addr ⟨2, 0⟩ 0 = some ⟨0, 0, 2⟩ ∧
    (s.reg 0).addr ⟨3, 0⟩ 0 = some ⟨1, 0, 0⟩ ∧ (s.reg 0).addr ⟨3, 0⟩ 1 = some ⟨1, 1, 0⟩ ∧ (s.reg 0).reg.get ⟨3, 0⟩ 1 = .ok 41 ∧
    (s.reg 0).addr ⟨2, 0⟩ 1 = none :=
  ⟨refsState, refsWorld, refs_reach, by decide +kernel, by decide +kernel, by decide +kernel, by decide +kernel, by decide +kernel⟩

/-- A creation takes no entity out of its place, and one that throws neither: entity 3 is alive, entity 7 is not. -/
example : ∃ (s s1 s2 : BSys Nat) (W : World Nat) (o1 : Option Handle) (e : Exn), BReachable smallTy s W ∧
    s.sys.Allowed (.on 0 (.create [(0, 50)])) ∧ s.step smallTy (.on 0 (.create [(0, 50)])) = some (s1, .ok o1) ∧
    (∀ y, ¬ Leaves W (.on 0 (.create [(0, 50)])) 0 y) ∧
    s.sys.Allowed (.on 0 (.destroy ⟨7, 0⟩)) ∧ s.step smallTy (.on 0 (.destroy ⟨7, 0⟩)) = some (s2, .throw e) :=
  ⟨refsState, _, _, refsWorld, _, _, refs_reach, by decide +kernel, rfl, fun _ h => h.elim, by decide +kernel, rfl⟩

/-- A call with the second outcome: entity 0 leaves, entity 2 gets its address, entity 1 keeps its own. -/
example : ∃ (s s' : BSys Nat) (W : World Nat) (out : Out), BReachable smallTy s W ∧ s.sys.Allowed (.on 0 (.destroy ⟨0, 0⟩)) ∧
    s.step smallTy (.on 0 (.destroy ⟨0, 0⟩)) = some (s', out) ∧ (s'.reg 0).addr ⟨2, 0⟩ 0 = (s.reg 0).addr ⟨0, 0⟩ 0 ∧
    (s'.reg 0).addr ⟨1, 0⟩ 0 = (s.reg 0).addr ⟨1, 0⟩ 0 ∧ (s'.reg 0).addr ⟨0, 0⟩ 0 = none ∧ (s'.reg 0).addr ⟨3, 0⟩ 1 = (s.reg 0).addr ⟨3, 0⟩ 1 :=
  ⟨refsState, refsAfter, refsWorld, _, refs_reach, by decide +kernel, (Option.some_get refsDestroy_isSome).symm,
    by decide +kernel, by decide +kernel, by decide +kernel, by decide +kernel⟩

/-- **C96 is violated**: destroying an entity makes a reference to a component of another entity dangle, although that
entity exists and keeps its component: its address changes and there is no object at the old one. -/
theorem C96_violated_other_moves :
    ∃ (ty : Types) (s s' : BSys Nat) (W W' : World Nat) (x y : Handle) (p : Ptr), x ≠ y ∧ BReachable ty s W ∧ BReachable ty s' W' ∧
      (∃ out, s.sys.Allowed (.on 0 (.destroy y)) ∧ s.step ty (.on 0 (.destroy y)) = some (s', out)) ∧
      (s.reg 0).addr x 0 = some p ∧ (s.reg 0).reg.get x 0 = .ok 30 ∧ (s'.reg 0).reg.get x 0 = .ok 30 ∧
      (s'.reg 0).addr x 0 ≠ some p ∧ ∀ v, ¬ (s'.reg 0).PointsTo p v := by
  refine ⟨smallTy, refsState, refsAfter, _, _, ⟨2, 0⟩, ⟨0, 0⟩, ⟨0, 0, 2⟩, by decide, refs_reach, refsAfter_reach,
    ⟨_, by decide +kernel, (Option.some_get refsDestroy_isSome).symm⟩, by decide +kernel, by decide +kernel, by decide +kernel, by decide +kernel, ?_⟩
  rintro v ⟨ai, ci, a, row, h1, h2, h3, _⟩
  have h0 : ((refsAfter.reg 0).bufs 0)[0]? = some 0 := by decide +kernel
  obtain ⟨rfl, rfl⟩ := (refsAfter_reach.inv.fits 0).inj _ _ _ _ _ h1 h0
  have h4 : (((refsAfter.reg 0).reg.archs.arches[0]?).bind fun a => (a.row? 0 2).map fun _ => ()) = none := by decide +kernel
  rw [h2] at h4
  simp only [Option.bind_some] at h4
  rw [h3] at h4
  cases h4

/-- **C96 is violated**: after another entity has been created, the old reference silently refers to a component of that
entity; a write through it would change the wrong entity. -/
theorem C96_violated_refers_to_other :
    ∃ (ty : Types) (s s' : BSys Nat) (W W' : World Nat) (x z : Handle) (p : Ptr), x ≠ z ∧ BReachable ty s W ∧ BReachable ty s' W' ∧
      (∃ s1 W1 out1 out2 y, y ≠ x ∧ s.step ty (.on 0 (.destroy y)) = some (s1, out1) ∧ W1 = W.step (.on 0 (.destroy y)) out1 ∧
        s1.step ty (.on 0 (.create [(0, 99)])) = some (s', out2) ∧ W' = W1.step (.on 0 (.create [(0, 99)])) out2) ∧
      (s.reg 0).addr x 0 = some p ∧ (s'.reg 0).reg.get x 0 = .ok 30 ∧ (s'.reg 0).addr z 0 = some p ∧ (s'.reg 0).PointsTo p 99 := by
  have hr : BReachable smallTy refsAgain _ := .step refsAfter_reach (by decide +kernel) (Option.some_get refsAgain_isSome).symm trivial
  have hz : (refsAgain.reg 0).addr ⟨0, 1⟩ 0 = some ⟨0, 0, 2⟩ := by decide +kernel
  refine ⟨smallTy, refsState, refsAgain, _, _, ⟨2, 0⟩, ⟨0, 1⟩, ⟨0, 0, 2⟩, by decide, refs_reach, hr,
    ⟨refsAfter, _, _, _, ⟨0, 0⟩, by decide, (Option.some_get refsDestroy_isSome).symm, rfl, (Option.some_get refsAgain_isSome).symm, rfl⟩,
    by decide +kernel, by decide +kernel, hz, ?_⟩
  obtain ⟨p, hp, hv⟩ := (C96_get_is_load hr 0 ⟨0, 1⟩ 0 99).1 (by decide +kernel)
  rw [hz] at hp
  cases hp
  exact hv

/-- Three entities, two of them in the first chunk. -/
def refsWide : List (SysOp Nat) := [.on 0 (.create [(0, 10)]), .on 0 (.create [(0, 20)]), .on 0 (.create [(0, 30)])]
theorem refsWide_isSome : (bexec bigTy BSys.init (fun _ _ => none) refsWide).isSome = true := by decide +kernel
def wideState : BSys Nat := ((bexec bigTy BSys.init (fun _ _ => none) refsWide).get refsWide_isSome).1
def wideWorld : World Nat := ((bexec bigTy BSys.init (fun _ _ => none) refsWide).get refsWide_isSome).2
theorem wide_reach : BReachable bigTy wideState wideWorld := bexec_get refsWide refsWide_isSome
theorem wideDestroy_isSome : (wideState.step bigTy (.on 0 (.destroy ⟨0, 0⟩))).isSome = true := by decide +kernel
def wideAfter : BSys Nat := ((wideState.step bigTy (.on 0 (.destroy ⟨0, 0⟩))).get wideDestroy_isSome).1
theorem wideAfter_reach : BReachable bigTy wideAfter (wideWorld.step (.on 0 (.destroy ⟨0, 0⟩)) ((wideState.step bigTy (.on 0 (.destroy ⟨0, 0⟩))).get wideDestroy_isSome).2) :=
  .step wide_reach (by decide +kernel) (Option.some_get wideDestroy_isSome).symm trivial

/-- **C96 is violated**: destroying an entity can free the buffer that holds a component of another entity, so that a
use of the reference is a use of freed memory. -/
theorem C96_violated_buffer_freed :
    ∃ (ty : Types) (s s' : BSys Nat) (W W' : World Nat) (x y : Handle) (p : Ptr), x ≠ y ∧ BReachable ty s W ∧ BReachable ty s' W' ∧
      (∃ out, s.sys.Allowed (.on 0 (.destroy y)) ∧ s.step ty (.on 0 (.destroy y)) = some (s', out)) ∧
      (s.reg 0).addr x 0 = some p ∧ (s.reg 0).reg.get x 0 = .ok 30 ∧ (s'.reg 0).reg.get x 0 = .ok 30 ∧
      ∀ (ai : Nat), p.buf ∉ (s'.reg 0).bufs ai := by
  refine ⟨bigTy, wideState, wideAfter, _, _, ⟨2, 0⟩, ⟨0, 0⟩, ⟨1, 0, 0⟩, by decide, wide_reach, wideAfter_reach,
    ⟨_, by decide +kernel, (Option.some_get wideDestroy_isSome).symm⟩, by decide +kernel, by decide +kernel, by decide +kernel, ?_⟩
  intro ai
  by_cases hlt : ai < (wideAfter.reg 0).reg.archs.arches.length
  · have hn : (wideAfter.reg 0).reg.archs.arches.length = 1 := by decide +kernel
    have : ai = 0 := by omega
    subst this
    decide +kernel
  · rw [(wideAfter_reach.inv.fits 0).out ai (by omega)]
    exact List.not_mem_nil
end CoEcs.Props
