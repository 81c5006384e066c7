import Verif.Proofs.Observe

/-!
# Properties of registry operations (C16, C17, C18, C21, C58)

`Reachable ty s W` ranges over all histories of a family of registries that respect the protocol of
`Sys.Allowed` (`Verif.Spec.Registry`), including calls that throw; `s.reg i` is one of the registries.
The statements compare what `get`, `has` and `alive` answer before and after a call.
-/

namespace CoEcs.Props
open CoEcs Spec

/-! ## A concrete history used to show that the hypotheses can be met -/

/-- Component types 0, 1, 2 of size 4; type 3 is not copyable. -/
def smallTy : Types := ⟨fun c => ⟨c, 4, 4, c != 3⟩, fun _ => rfl⟩

/-- Two registries.  In the first: create a {0,1}, b {1,0}, c {0}; add 2 to a; remove 1 from b, which now
shares the archetype of c; destroy c; clone a.  In the second: a reserved entity. -/
def sampleReg : List (SysOp Nat) :=
  [.on 0 (.create [(0, 10), (1, 11)]), .on 0 (.create [(1, 21), (0, 20)]), .on 0 (.create [(0, 30)]),
   .on 0 (.set ⟨0, 0⟩ 2 12), .on 0 (.remove ⟨1, 0⟩ 1), .on 0 (.destroy ⟨2, 0⟩), .on 0 (.clone ⟨0, 0⟩ none),
   .on 1 .reserve, .on 1 .sync]

theorem sample_isSome : (exec smallTy sampleReg).isSome = true := by decide +kernel

def sampleSys : Sys Nat := ((exec smallTy sampleReg).get sample_isSome).1
def sampleWorld : Spec.World Nat := ((exec smallTy sampleReg).get sample_isSome).2

theorem sample_reachable : Reachable smallTy sampleSys sampleWorld := exec_get sampleReg sample_isSome

variable {V : Type} {ty : Types} {s : Sys V} {W : Spec.World V}

/-! ## C58: registries refine maps -/

/-- **C58**: along every history, whatever was called and whatever threw, each registry answers exactly
as the abstract contents computed from the operations and their outcomes alone. -/
theorem C58_registries_refine_maps (hr : Reachable ty s W) (i : Nat) (h : Handle) :
    (W i h = none → (∀ c, (s.reg i).get h c = .throw (if (s.reg i).alive h then .outOfRange else .entityNotFound)) ∧
      ∀ cs, (s.reg i).has h cs = .throw (if (s.reg i).alive h then .outOfRange else .entityNotFound)) ∧
    (∀ d, W i h = some d → (s.reg i).alive h = true ∧
      (∀ c v, d c = some v → (s.reg i).get h c = .ok v) ∧
      (∀ c, d c = none → (s.reg i).get h c = .throw .componentNotFound) ∧
      (∀ cs, (s.reg i).has h cs = .ok (cs.all fun c => (d c).isSome))) := by
  have R := (hr.inv i).rep
  exact ⟨fun hw => ⟨R.get_none hw, R.has_none hw⟩,
    fun d hw => ⟨R.alive hw, fun c v hc => R.get_some hw hc, fun c hc => R.get_absent hw hc, R.has_some hw⟩⟩

example : (∃ d, sampleWorld 0 ⟨0, 0⟩ = some d ∧ d 2 = some 12 ∧ d 0 = some 10) ∧ sampleWorld 0 ⟨2, 0⟩ = none := by
  constructor
  · exact ⟨(sampleWorld 0 ⟨0, 0⟩).get (by decide +kernel), by simp, by decide +kernel, by decide +kernel⟩
  · have : (sampleWorld 0 ⟨2, 0⟩).isNone = true := by decide +kernel
    simpa using this

/-! ## C16 -/

/-- **C16**: a successful `create` returns a handle that was no entity before; the new entity is alive
and has exactly the given components with the given values; nothing changes for any other handle. -/
theorem C16_create_get_round_trip (hr : Reachable ty s W) {i : Nat} {args : List (Nat × V)}
    (ha : s.Allowed (.on i (.create args))) {r' : Reg V} {h : Handle} (hc : (s.reg i).create ty args = .ok r' h) :
    (s.reg i).has h [] ≠ .ok true ∧ r'.alive h = true ∧
    (∀ c, r'.has h [c] = .ok (decide (c ∈ args.map Prod.fst))) ∧
    (∀ x ∈ args, r'.get h x.1 = .ok x.2) ∧
    (∀ c, c ∉ args.map Prod.fst → r'.get h c = .throw .componentNotFound) ∧
    ∀ h', h' ≠ h → Same (s.reg i) r' h' := by
  obtain ⟨hnd, hp, hb⟩ := ha
  have R := (hr.inv i).rep
  rw [hp] at R
  obtain ⟨p, h0, hcr, h3, hw, h4, h5, h6⟩ := R.create hb hnd
  rcases h6 with ⟨r1, q1, q2, q3, _⟩ | ⟨r1, q1, _⟩
  · rw [hc] at q1
    cases q1
    have hwh : World.put (W i) h (some (Row.argVal args)) h = some (Row.argVal args) := put_self
    refine ⟨?_, q3.alive hwh, ?_, ?_, ?_, ?_⟩
    · rw [R.has_none hw]; simp
    · intro c
      rw [q3.has_some hwh]
      simp only [List.all_cons, List.all_nil, Bool.and_true]
      rw [← listed_isSome hnd]; rfl
    · intro x hx
      exact q3.get_some hwh (listed_mem hnd hx)
    · intro c hc'
      exact q3.get_absent hwh (listed_none hc')
    · intro h' hne
      refine R.same q3 (put_ne hne) ?_
      unfold Reg.alive
      rw [q2]
      exact h5 h' hne
  · rw [hc] at q1; cases q1

/-- **C16** (outcomes): `create` has no other outcome than success or `insufficient_chunk_size`, the latter
only if not even one entity with these components fits a chunk. -/
theorem C16_create_outcome (hr : Reachable ty s W) {i : Nat} {args : List (Nat × V)}
    (ha : s.Allowed (.on i (.create args))) :
    (∃ r' h, (s.reg i).create ty args = .ok r' h) ∨
    (∃ r', (s.reg i).create ty args = .throw r' .insufficientChunkSize) ∧
      Layout.maxSize (MetaSet.create (args.map fun x => ty.info x.1)).metas = none := by
  obtain ⟨hnd, hp, hb⟩ := ha
  have R := (hr.inv i).rep
  rw [hp] at R
  obtain ⟨p, h0, hcr, h3, hw, h4, h5, h6⟩ := R.create hb hnd
  rcases h6 with ⟨r1, q1, _⟩ | ⟨r1, q1, _, _, _, q2⟩
  · exact .inl ⟨r1, h0, q1⟩
  · exact .inr ⟨⟨r1, q1⟩, q2.1⟩

/-- The state after a successful call. -/
def okOf {σ α : Type} : Res σ α → Option (σ × α)
  | .ok s a => some (s, a)
  | _ => none

theorem okOf_eq {σ α : Type} {x : Res σ α} (h : (okOf x).isSome = true) : ∃ s a, x = .ok s a := by
  cases x <;> simp [okOf] at h
  exact ⟨_, _, rfl⟩

example : sampleSys.Allowed (.on 0 (.create [(0, 1), (2, 3)])) ∧
    ∃ r' h, (sampleSys.reg 0).create smallTy [(0, 1), (2, 3)] = .ok r' h :=
  ⟨by decide +kernel, okOf_eq (by decide +kernel)⟩

/-! ## C17 -/

/-- **C17**: destroying an entity makes it dead, and every other handle keeps its answers: entities keep
liveness, components and values, and of the remaining handles only the next generation of the same id
may change (from "not found" to "out of range"). -/
theorem C17_destroy_only_that_entity (hr : Reachable ty s W) {i : Nat} {h : Handle}
    (ha : s.Allowed (.on i (.destroy h))) {r' : Reg V} (hd : (s.reg i).destroy h = .ok r' ()) :
    (s.reg i).has h [] = .ok true ∧ r'.alive h = false ∧ (∀ c, r'.get h c = .throw .entityNotFound) ∧
    (∀ cs, r'.has h cs = .throw .entityNotFound) ∧
    (∀ h', h' ≠ h → SameEntity (s.reg i) r' h') ∧
    (∀ h', h' ≠ h → h' ≠ ⟨h.id, (h.gen + 1) % U32⟩ → Same (s.reg i) r' h') := by
  have R := (hr.inv i).rep
  rw [show s.pend i = 0 from ha] at R
  cases hw : W i h with
  | none => rw [R.destroy_none hw] at hd; cases hd
  | some d =>
    rcases R.destroy hw with ⟨q1, _⟩ | ⟨r1, q1, q2, q3, _⟩
    · rw [hd] at q1; cases q1
    · rw [hd] at q1
      cases q1
      obtain ⟨z1, z2, z3, z4, z5⟩ := pool_recycle R.pool (R.held hw)
      have hal : r'.alive h = false := by unfold Reg.alive; rw [q2]; exact z3
      have hwn : World.put (W i) h none h = none := put_self
      refine ⟨(R.has_iff h).2 ⟨d, hw⟩, hal, ?_, ?_, ?_, ?_⟩
      · intro c; rw [q3.get_none hwn, hal]; rfl
      · intro c; rw [q3.has_none hwn, hal]; rfl
      · intro h' hne; exact R.sameEntity q3 (put_ne hne)
      · intro h' hne hne2
        refine R.same q3 (put_ne hne) ?_
        unfold Reg.alive
        rw [q2]
        exact z5 h' hne hne2

/-- **C17** (own data): in every reachable state the handle of an entity resolves to the row that stores
this handle, and different entities resolve to different places. -/
theorem C17_handle_resolves_to_own_row (hr : Reachable ty s W) {i : Nat} {h : Handle} (he : (s.reg i).has h [] = .ok true) :
    ∃ a row, (s.reg i).rowOf h = .ok (a, row) ∧ row none = .live (.ent h) ∧
      ∀ h', h' ≠ h → ∀ l, (s.reg i).location h = .ok l → (s.reg i).location h' ≠ .ok l := by
  have R := (hr.inv i).rep
  obtain ⟨d, hd⟩ := R.entity_some he
  obtain ⟨a, row, h1, h2, h3, h4, l, ai, c, t⟩ := R.rowOf hd
  refine ⟨a, row, h1, (Row.decode_some h3 h4).1, ?_⟩
  intro h' hne l' hl hl'
  cases hw' : W i h' with
  | none => rw [R.location_none hw'] at hl'; cases hl'
  | some d' =>
    obtain ⟨l2, ai2, a2, c2, row2, t2⟩ := R.at_ hw'
    rw [t.loc] at hl
    rw [t2.loc] at hl'
    simp only [Obs.ok.injEq] at hl hl'
    have e1 := t.slot
    have e2 := t2.slot
    rw [hl] at e1
    rw [hl', e1] at e2
    simp at e2
    exact hne e2.1.symm

example : sampleSys.Allowed (.on 0 (.destroy ⟨0, 0⟩)) ∧ ∃ r', (sampleSys.reg 0).destroy ⟨0, 0⟩ = .ok r' () :=
  ⟨by decide +kernel, by obtain ⟨a, b, h⟩ := okOf_eq (x := (sampleSys.reg 0).destroy ⟨0, 0⟩) (by decide +kernel); exact ⟨a, h⟩⟩

/-! ## C18 -/

/-- **C18** (set): `set<C>(v)` makes `C` present with value `v`; the entity's other components and all
other handles keep their answers. -/
theorem C18_set_one_component (hr : Reachable ty s W) {i : Nat} {h : Handle} {c : Nat} {v : V} {r' : Reg V}
    (hs : (s.reg i).set ty h c v = .ok r' ()) :
    r'.get h c = .ok v ∧ r'.has h [c] = .ok true ∧
    (∀ c', c' ≠ c → r'.get h c' = (s.reg i).get h c' ∧ r'.has h [c'] = (s.reg i).has h [c']) ∧
    (∀ h', r'.alive h' = (s.reg i).alive h') ∧ ∀ h', h' ≠ h → Same (s.reg i) r' h' := by
  have R := (hr.inv i).rep
  cases hw : W i h with
  | none => rw [R.set_none hw] at hs; cases hs
  | some d =>
    rcases R.set hw c v with ⟨q1, _⟩ | ⟨r1, q1, q2, q3, _⟩ | ⟨r1, q1, _⟩
    · rw [hs] at q1; cases q1
    · rw [hs] at q1
      cases q1
      have hwh : World.put (W i) h (some fun x => if x = c then some v else d x) h = _ := put_self
      have hal : ∀ h', r'.alive h' = (s.reg i).alive h' := by intro h'; unfold Reg.alive; rw [q2]
      refine ⟨q3.get_some hwh (by simp), by rw [q3.has_some hwh]; simp, ?_, hal, ?_⟩
      · intro c' hne
        rw [q3.get_eq, R.get_eq, hwh, hw, q3.has_some hwh, R.has_some hw]
        simp [hne]
      · intro h' hne
        exact R.same q3 (put_ne hne) (hal h')
    · rw [hs] at q1; cases q1

/-- **C18** (remove): `remove<C>()` makes `C` absent; the entity's other components and all other handles
keep their answers. -/
theorem C18_remove_one_component (hr : Reachable ty s W) {i : Nat} {h : Handle} {c : Nat} {r' : Reg V}
    (hs : (s.reg i).remove ty h c = .ok r' ()) :
    r'.get h c = .throw .componentNotFound ∧ r'.has h [c] = .ok false ∧
    (∀ c', c' ≠ c → r'.get h c' = (s.reg i).get h c' ∧ r'.has h [c'] = (s.reg i).has h [c']) ∧
    (∀ h', r'.alive h' = (s.reg i).alive h') ∧ ∀ h', h' ≠ h → Same (s.reg i) r' h' := by
  have R := (hr.inv i).rep
  cases hw : W i h with
  | none => rw [R.remove_none hw] at hs; cases hs
  | some d =>
    rcases R.remove hw c with ⟨q0, q1⟩ | ⟨_, ⟨q1, _⟩ | ⟨r1, q1, q2, q3, _⟩ | ⟨r1, q1, _⟩⟩
    · rw [hs] at q1
      cases q1
      refine ⟨R.get_absent hw q0, by rw [R.has_some hw]; simp [q0], fun _ _ => ⟨rfl, rfl⟩, fun _ => rfl,
        fun _ _ => ⟨fun _ => rfl, fun _ => rfl, rfl⟩⟩
    · rw [hs] at q1; cases q1
    · rw [hs] at q1
      cases q1
      have hwh : World.put (W i) h (some fun x => if x = c then none else d x) h = _ := put_self
      have hal : ∀ h', r'.alive h' = (s.reg i).alive h' := by intro h'; unfold Reg.alive; rw [q2]
      refine ⟨q3.get_absent hwh (by simp), by rw [q3.has_some hwh]; simp, ?_, hal, ?_⟩
      · intro c' hne
        rw [q3.get_eq, R.get_eq, hwh, hw, q3.has_some hwh, R.has_some hw]
        simp [hne]
      · intro h' hne
        exact R.same q3 (put_ne hne) (hal h')
    · rw [hs] at q1; cases q1

/-- **C18** (assignment through the reference returned by `get`). -/
theorem C18_assign_one_component (hr : Reachable ty s W) {i : Nat} {h : Handle} {c : Nat} {v : V} {r' : Reg V}
    (hs : (s.reg i).assign h c v = .ok r' ()) :
    (s.reg i).has h [c] = .ok true ∧ r'.get h c = .ok v ∧
    (∀ cs, r'.has h cs = (s.reg i).has h cs) ∧ (∀ c', c' ≠ c → r'.get h c' = (s.reg i).get h c') ∧
    (∀ h', r'.alive h' = (s.reg i).alive h') ∧ ∀ h', h' ≠ h → Same (s.reg i) r' h' := by
  have R := (hr.inv i).rep
  cases hw : W i h with
  | none => rw [R.assign_none hw] at hs; cases hs
  | some d =>
    rcases R.assign hw c v with ⟨_, q1⟩ | ⟨v0, r1, q0, q1, q2, q3, _⟩
    · rw [hs] at q1; cases q1
    · rw [hs] at q1
      cases q1
      have hwh : World.put (W i) h (some fun x => if x = c then some v else d x) h = _ := put_self
      have hal : ∀ h', r'.alive h' = (s.reg i).alive h' := by intro h'; unfold Reg.alive; rw [q2]
      refine ⟨by rw [R.has_some hw]; simp [q0], q3.get_some hwh (by simp), ?_, ?_, hal, ?_⟩
      · intro cs
        rw [q3.has_some hwh, R.has_some hw]
        congr 2
        funext x
        by_cases hx : x = c
        · subst hx; simp [q0]
        · simp [hx]
      · intro c' hne
        rw [q3.get_eq, R.get_eq, hwh, hw]
        simp [hne]
      · intro h' hne
        exact R.same q3 (put_ne hne) (hal h')

/-- **C18** (outcomes): on an entity, `set` and `remove` succeed, report `insufficient_chunk_size` without
changing any answer, or hit the undefined behaviour described by C19. -/
theorem C18_set_remove_outcome (hr : Reachable ty s W) {i : Nat} {h : Handle} (he : (s.reg i).has h [] = .ok true) (c : Nat) (v : V) :
    ((∃ r', (s.reg i).set ty h c v = .ok r' ()) ∨ (s.reg i).set ty h c v = .ub ∨
      ∃ r', (s.reg i).set ty h c v = .throw r' .insufficientChunkSize ∧ ∀ h', Same (s.reg i) r' h') ∧
    ((∃ r', (s.reg i).remove ty h c = .ok r' ()) ∨ (s.reg i).remove ty h c = .ub ∨
      ∃ r', (s.reg i).remove ty h c = .throw r' .insufficientChunkSize ∧ ∀ h', Same (s.reg i) r' h') := by
  have R := (hr.inv i).rep
  obtain ⟨d, hw⟩ := R.entity_some he
  constructor
  · rcases R.set hw c v with ⟨q1, _⟩ | ⟨r1, q1, _⟩ | ⟨r1, q1, _, q2, q3, _⟩
    · exact .inr (.inl q1)
    · exact .inl ⟨r1, q1⟩
    · exact .inr (.inr ⟨r1, q1, fun h' => R.same q3 rfl (by unfold Reg.alive; rw [q2])⟩)
  · rcases R.remove hw c with ⟨_, q1⟩ | ⟨_, ⟨q1, _⟩ | ⟨r1, q1, _⟩ | ⟨r1, q1, q2, q3, _⟩⟩
    · exact .inl ⟨_, q1⟩
    · exact .inr (.inl q1)
    · exact .inl ⟨r1, q1⟩
    · exact .inr (.inr ⟨r1, q1, fun h' => R.same q3 rfl (by unfold Reg.alive; rw [q2])⟩)

example : (∃ r', (sampleSys.reg 0).set smallTy ⟨1, 0⟩ 2 7 = .ok r' ()) ∧ (∃ r', (sampleSys.reg 0).remove smallTy ⟨0, 0⟩ 0 = .ok r' ()) ∧
    ∃ r', (sampleSys.reg 0).assign ⟨0, 0⟩ 0 5 = .ok r' () := by
  refine ⟨?_, ?_, ?_⟩
  · obtain ⟨a, b, h⟩ := okOf_eq (x := (sampleSys.reg 0).set smallTy ⟨1, 0⟩ 2 7) (by decide +kernel); exact ⟨a, h⟩
  · obtain ⟨a, b, h⟩ := okOf_eq (x := (sampleSys.reg 0).remove smallTy ⟨0, 0⟩ 0) (by decide +kernel); exact ⟨a, h⟩
  · obtain ⟨a, b, h⟩ := okOf_eq (x := (sampleSys.reg 0).assign ⟨0, 0⟩ 0 5) (by decide +kernel); exact ⟨a, h⟩

/-! ## C21 -/

/-- The copy has the components of the original. -/
def EqualEntity (r : Reg V) (h : Handle) (r' : Reg V) (h' : Handle) : Prop :=
  (∀ c, r'.get h' c = r.get h c) ∧ ∀ cs, r'.has h' cs = r.has h cs

theorem equal_of_rep {r r' : Reg V} {k k' : Nat} {W W' : Handle → Option (Comps V)} (R : Rep ty r k W) (R' : Rep ty r' k' W')
    {h h' : Handle} {d : Comps V} (hw : W h = some d) (hw' : W' h' = some d) : EqualEntity r h r' h' :=
  ⟨fun c => by rw [R.get_eq, R'.get_eq, hw, hw'], fun cs => by rw [R.has_some hw, R'.has_some hw']⟩

/-- **C21** (clone): the clone is a new live entity with the components and values of the original, all
of which are copyable; nothing changes for any other handle, the original included. -/
theorem C21_clone_copies (hr : Reachable ty s W) {i : Nat} {h : Handle} (ha : s.Allowed (.on i (.clone h none))) {r' : Reg V} {h' : Handle}
    (hc : (s.reg i).clone h = .ok r' h') :
    (s.reg i).has h [] = .ok true ∧ (s.reg i).has h' [] ≠ .ok true ∧ h' ≠ h ∧ r'.alive h' = true ∧
    EqualEntity (s.reg i) h r' h' ∧ (∀ c v, (s.reg i).get h c = .ok v → (ty.info c).copyable = true) ∧
    ∀ h2, h2 ≠ h' → Same (s.reg i) r' h2 := by
  obtain ⟨hp, hb⟩ := ha
  have R := (hr.inv i).rep
  rw [hp] at R
  obtain ⟨p, ph, hcr, R1, h3, hwp, h4, h5⟩ := R.create_pool hb
  unfold Reg.clone at hc
  simp only [hcr, cloneInto_eq] at hc
  cases hw : W i h with
  | none => rw [R1.copyInto_none hw] at hc; cases hc
  | some d =>
    rcases R1.copyInto R1 hw h3 hwp with ⟨q, q1, q2, q3, q4, _⟩ | ⟨q, q1, _⟩
    · rw [hc] at q1
      cases q1
      have hne : h' ≠ h := by
        rintro rfl
        rw [hwp] at hw; cases hw
      have hwh : World.put (W i) h' (some d) h' = some d := put_self
      refine ⟨(R.has_iff h).2 ⟨d, hw⟩, by rw [R.has_none hwp]; simp, hne, q4.alive hwh, equal_of_rep R q4 hw hwh, ?_, ?_⟩
      · intro c v hg
        rw [R.get_iff] at hg
        obtain ⟨d', hd', hv⟩ := hg
        rw [hw] at hd'; cases hd'
        exact q2 c v hv
      · intro h2 hne2
        refine R.same q4 (put_ne hne2) ?_
        unfold Reg.alive
        rw [q3]
        exact h5 h2 hne2
    · rw [hc] at q1; cases q1

/-- **C21** (clone, outcomes): cloning an entity whose components are all copyable succeeds. -/
theorem C21_clone_succeeds (hr : Reachable ty s W) {i : Nat} {h : Handle} (ha : s.Allowed (.on i (.clone h none)))
    (he : (s.reg i).has h [] = .ok true) (hcp : ∀ c v, (s.reg i).get h c = .ok v → (ty.info c).copyable = true) :
    ∃ r' h', (s.reg i).clone h = .ok r' h' := by
  obtain ⟨hp, hb⟩ := ha
  have R := (hr.inv i).rep
  rw [hp] at R
  obtain ⟨d, hw⟩ := R.entity_some he
  obtain ⟨p, ph, hcr, R1, h3, hwp, h4, h5⟩ := R.create_pool hb
  unfold Reg.clone
  simp only [hcr, cloneInto_eq]
  have hcd : Copyable ty d := fun c v hv => hcp c v (R.get_some hw hv)
  rcases R1.copyInto R1 hw h3 hwp with ⟨q, q1, _⟩ | ⟨q, q1, q2, _⟩
  · exact ⟨q, ph, q1⟩
  · exact absurd hcd q2

/-- **C21** (copy): copying an entity to another registry makes a new live entity with the same components
and values there; the source registry is not changed and neither is any other handle there. -/
theorem C21_copy_copies (hr : Reachable ty s W) {i j : Nat} {h : Handle} (ha : s.Allowed (.copy i h j none)) {d' : Reg V} {h' : Handle}
    (hc : (s.reg i).copyTo h (s.reg j) = .ok d' h') :
    (s.reg i).has h [] = .ok true ∧ (s.reg j).has h' [] ≠ .ok true ∧ d'.alive h' = true ∧
    EqualEntity (s.reg i) h d' h' ∧ ∀ h2, h2 ≠ h' → Same (s.reg j) d' h2 := by
  obtain ⟨hij, hp, hb⟩ := ha
  have R := (hr.inv i).rep
  have Q := (hr.inv j).rep
  rw [hp] at Q
  obtain ⟨p, ph, hcr, Q1, h3, hwp, h4, h5⟩ := Q.create_pool hb
  unfold Reg.copyTo at hc
  simp only [hcr] at hc
  cases hw : W i h with
  | none => rw [R.copyInto_none hw] at hc; cases hc
  | some d =>
    rcases R.copyInto Q1 hw h3 hwp with ⟨q, q1, q2, q3, q4, _⟩ | ⟨q, q1, _⟩
    · rw [hc] at q1
      cases q1
      have hwh : World.put (W j) h' (some d) h' = some d := put_self
      refine ⟨(R.has_iff h).2 ⟨d, hw⟩, by rw [Q.has_none hwp]; simp, q4.alive hwh, equal_of_rep R q4 hw hwh, ?_⟩
      intro h2 hne2
      refine Q.same q4 (put_ne hne2) ?_
      unfold Reg.alive
      rw [q3]
      exact h5 h2 hne2
    · rw [hc] at q1; cases q1

/-- **C21** (move): moving an entity to another registry makes a new live entity there with the components
and values it had here, makes it dead here, and changes no other entity in either registry. -/
theorem C21_move_transfers (hr : Reachable ty s W) {i j : Nat} {h : Handle} (ha : s.Allowed (.move i h j none)) {r' d' : Reg V} {h' : Handle}
    (hc : (s.reg i).moveTo h (s.reg j) = .ok (r', d') h') :
    (s.reg i).has h [] = .ok true ∧ (s.reg j).has h' [] ≠ .ok true ∧ d'.alive h' = true ∧
    EqualEntity (s.reg i) h d' h' ∧ (∀ h2, h2 ≠ h' → Same (s.reg j) d' h2) ∧
    r'.alive h = false ∧ (∀ c, r'.get h c = .throw .entityNotFound) ∧
    (∀ h2, h2 ≠ h → SameEntity (s.reg i) r' h2) ∧
    (∀ h2, h2 ≠ h → h2 ≠ ⟨h.id, (h.gen + 1) % U32⟩ → Same (s.reg i) r' h2) := by
  obtain ⟨hij, hpi, hp, hb⟩ := ha
  have R := (hr.inv i).rep
  have Q := (hr.inv j).rep
  rw [hp] at Q
  rw [hpi] at R
  obtain ⟨p, ph, hcr, Q1, h3, hwp, h4, h5⟩ := Q.create_pool hb
  unfold Reg.moveTo at hc
  simp only [hcr] at hc
  cases hw : W i h with
  | none => rw [R.moveInto_none hw] at hc; cases hc
  | some d =>
    rcases R.moveInto Q1 hw h3 hwp with ⟨q1, _⟩ | ⟨r1, q, q1, q2, q3, q4, q5, _⟩
    · rw [hc] at q1; cases q1
    · rw [hc] at q1
      cases q1
      obtain ⟨z1, z2, z3, z4, z5⟩ := pool_recycle R.pool (R.held hw)
      have hal : r'.alive h = false := by unfold Reg.alive; rw [q2]; exact z3
      have hwh : World.put (W j) h' (some d) h' = some d := put_self
      refine ⟨(R.has_iff h).2 ⟨d, hw⟩, by rw [Q.has_none hwp]; simp, q5.alive hwh, equal_of_rep R q5 hw hwh, ?_, hal, ?_, ?_, ?_⟩
      · intro h2 hne2
        refine Q.same q5 (put_ne hne2) ?_
        unfold Reg.alive
        rw [q3]
        exact h5 h2 hne2
      · intro c
        rw [q4.get_none (show World.put (W i) h none h = none from put_self), hal]; rfl
      · intro h2 hne; exact R.sameEntity q4 (put_ne hne)
      · intro h2 hne hne2
        refine R.same q4 (put_ne hne) ?_
        unfold Reg.alive
        rw [q2]
        exact z5 h2 hne hne2

/-- **C21** (copy and move, outcomes): copying an entity whose components are all copyable succeeds, and
moving an entity never throws: it succeeds or hits the undefined behaviour described by C19. -/
theorem C21_copy_move_outcome (hr : Reachable ty s W) {i j : Nat} {h : Handle} (he : (s.reg i).has h [] = .ok true) :
    (s.Allowed (.copy i h j none) → (∀ c v, (s.reg i).get h c = .ok v → (ty.info c).copyable = true) →
      ∃ d' h', (s.reg i).copyTo h (s.reg j) = .ok d' h') ∧
    (s.Allowed (.move i h j none) → (s.reg i).moveTo h (s.reg j) = .ub ∨
      ∃ r' d' h', (s.reg i).moveTo h (s.reg j) = .ok (r', d') h') := by
  have R := (hr.inv i).rep
  have Q := (hr.inv j).rep
  obtain ⟨d, hw⟩ := R.entity_some he
  constructor
  · rintro ⟨_, hp, hb⟩ hcp
    rw [hp] at Q
    obtain ⟨p, ph, hcr, Q1, h3, hwp, h4, h5⟩ := Q.create_pool hb
    unfold Reg.copyTo
    simp only [hcr]
    rcases R.copyInto Q1 hw h3 hwp with ⟨q, q1, _⟩ | ⟨q, q1, q2, _⟩
    · exact ⟨q, ph, q1⟩
    · exact absurd (fun c v hv => hcp c v (R.get_some hw hv)) q2
  · rintro ⟨_, hpi, hp, hb⟩
    rw [hp] at Q
    rw [hpi] at R
    obtain ⟨p, ph, hcr, Q1, h3, hwp, h4, h5⟩ := Q.create_pool hb
    unfold Reg.moveTo
    simp only [hcr]
    rcases R.moveInto Q1 hw h3 hwp with ⟨q1, _⟩ | ⟨r1, q, q1, _⟩
    · exact .inl q1
    · exact .inr ⟨r1, q, ph, q1⟩

example : sampleSys.Allowed (.on 0 (.clone ⟨0, 0⟩ none)) ∧ (∃ r' h', (sampleSys.reg 0).clone ⟨0, 0⟩ = .ok r' h') ∧
    sampleSys.Allowed (.copy 0 ⟨0, 0⟩ 1 none) ∧ (∃ d' h', (sampleSys.reg 0).copyTo ⟨0, 0⟩ (sampleSys.reg 1) = .ok d' h') ∧
    sampleSys.Allowed (.move 0 ⟨0, 0⟩ 1 none) ∧ ∃ r' d' h', (sampleSys.reg 0).moveTo ⟨0, 0⟩ (sampleSys.reg 1) = .ok (r', d') h' := by
  refine ⟨by decide +kernel, okOf_eq (by decide +kernel), by decide +kernel, okOf_eq (by decide +kernel), by decide +kernel, ?_⟩
  obtain ⟨a, b, h⟩ := okOf_eq (x := (sampleSys.reg 0).moveTo ⟨0, 0⟩ (sampleSys.reg 1)) (by decide +kernel)
  exact ⟨a.1, a.2, b, h⟩

end CoEcs.Props
