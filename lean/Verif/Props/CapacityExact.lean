import Verif.Proofs.CapacityExact
import Verif.Props.Capacity

/-!
# C61, C65: exactly for which component types they hold

`Layout.alignedSize` is `aligned_components_size` (archetype.hpp:235-251); there is room if it is at most 16384.
-/

namespace CoEcs.Props
open CoEcs Spec

variable {V : Type} {ty : Types}

/-- Room for one entity with these components, listed in this order. -/
def Room (ty : Types) (ids : List Nat) : Prop := Layout.alignedSize (ids.map ty.info) ≤ 16384

/-- The first creation in a fresh registry succeeds exactly if there is room. -/
theorem create_fresh_iff {args : List (Nat × V)} (hn : (args.map Prod.fst).Nodup) :
    (∃ r' h, (Reg.empty : Reg V).create ty args = .ok r' h) ↔ Room ty (args.map Prod.fst) := by
  have hargs : (args.map fun x => ty.info x.1) = (args.map Prod.fst).map ty.info := by simp
  obtain ⟨p, h, hc, _, hw, _, _, h6⟩ := (Rep.empty (V := V) ty).create (by show (0 : Nat) + 1 < U32; decide) hn
  rcases h6 with ⟨r', q1, _, q3, _⟩ | ⟨r', q1, _, _, _, q5, _⟩
  · refine ⟨fun _ => ?_, fun _ => ⟨r', h, q1⟩⟩
    obtain ⟨a, h1, h2⟩ := create_first hn q1
    obtain ⟨m, hm⟩ := q3.archs
    have := hm.fits 0 a (by rw [h1]; rfl)
    rw [h2, create_metas hn, ne_eq, maxSize_none_iff] at this
    unfold Room
    omega
  · constructor
    · rintro ⟨r2, h2, q⟩; rw [q1] at q; cases q
    · intro hr
      rw [hargs, create_metas hn, maxSize_none_iff] at q5
      unfold Room at hr
      omega

/-- **C61, exactly**: removing a component never throws, in any state of any history, if and only if the component types are
such that whenever there is room for a list of different components there is room for the list without one of them. -/
theorem C61_iff [Inhabited V] (ty : Types) :
    (∀ (s : Sys V) (W : Spec.World V), Reachable ty s W → ∀ (i : Nat) (h : Handle) (c : Nat) (r' : Reg V) (e : Exn),
      (s.reg i).has h [] = .ok true → (s.reg i).remove ty h c ≠ .throw r' e) ↔
    ∀ ids : List Nat, ids.Nodup → ∀ c ∈ ids, Room ty ids → Room ty (ids.filter (· ≠ c)) := by
  constructor
  · intro hall ids hn c hc hroom
    apply Classical.byContradiction
    intro hno
    have hno' : 16384 < Layout.alignedSize ((ids.filter (· ≠ c)).map ty.info) := by unfold Room at hno; omega
    have hids : (ids.map fun x => (x, (default : V))).map Prod.fst = ids := by rw [List.map_map]; exact List.map_id ids
    have hn' : ((ids.map fun x => (x, (default : V))).map Prod.fst).Nodup := by rw [hids]; exact hn
    obtain ⟨r', h, hcr⟩ := (create_fresh_iff (V := V) (ty := ty) hn').2 (by rw [hids]; exact hroom)
    have hall' : (Sys.init : Sys V).Allowed (.on 0 (.create (ids.map fun x => (x, (default : V))))) :=
      ⟨hn', rfl, by show (0 : Nat) + 1 < U32; decide⟩
    have hcr' : ((Sys.init : Sys V).reg 0).create ty (ids.map fun x => (x, (default : V))) = .ok r' h := hcr
    obtain ⟨s', hst⟩ : ∃ s' : Sys V, (Sys.init : Sys V).step ty (.on 0 (.create (ids.map fun x => (x, (default : V))))) =
        some (s', .ok (some h)) ∧ s'.reg 0 = r' := by
      refine ⟨((Sys.init : Sys V).setReg 0 r').note 0 (.create (ids.map fun x => (x, (default : V)))) (some h), ?_, ?_⟩
      · simp only [Sys.step, RegOp.run, hcr', withHandle]
      · simp [Sys.setReg, Sys.note]
    have hreach := Reach.step (P := fun _ _ => True) Reach.init hall' trivial hst.1
    obtain ⟨p, h2, _, _, _, _, _, h6⟩ := (Rep.empty (V := V) ty).create (by show (0 : Nat) + 1 < U32; decide) hn'
    rcases h6 with ⟨r2, q1, _, q3, _⟩ | ⟨r2, q1, _⟩
    · rw [hcr] at q1
      cases q1
      obtain ⟨a, h1, h3⟩ := create_first hn' hcr
      rw [hids] at h3
      obtain ⟨r3, hrem⟩ := remove_first q3 put_self hn h1 h3 hc hno'
      refine hall s' _ hreach 0 h c r3 .insufficientChunkSize ?_ ?_
      · rw [hst.2, q3.has_some put_self []]; rfl
      · rw [hst.2]; exact hrem
    · rw [hcr] at q1; cases q1
  · intro hcond s W hr i h c r' e he ht
    have R := (hr.inv i).rep
    obtain ⟨d, hw⟩ := R.entity_some he
    obtain ⟨ids, h1, h2, h3, h4⟩ := R.remove_throw hw ht
    have := hcond ids h1 c h2 h3
    unfold Room at this
    omega

/-- **C61** (partial; missing: other alignments and sizes, where it is false): alignments 1, 2, 4 and 8 and sizes that are
multiples of 4, in any mixture — `int`, `float`, `double`, pointers, `std::string`. -/
theorem C61_remove_mixed_partial (hty : Mixed ty) {s : Sys V} {W : Spec.World V} (hr : Reachable ty s W) {i : Nat} {h : Handle}
    (he : (s.reg i).has h [] = .ok true) (c : Nat) (r' : Reg V) (e : Exn) : (s.reg i).remove ty h c ≠ .throw r' e := by
  intro ht
  have R := (hr.inv i).rep
  obtain ⟨d, hw⟩ := R.entity_some he
  obtain ⟨ids, h1, h2, h3, h4⟩ := R.remove_throw hw ht
  have := alignedSize_mixed hty ids c
  omega

/-- **C61** (partial; missing: other alignments and sizes, where it is false): alignments up to 16 and sizes that are
multiples of 8 — with vector types such as `__m128`. -/
theorem C61_remove_vectors_partial (hty : Vectors ty) {s : Sys V} {W : Spec.World V} (hr : Reachable ty s W) {i : Nat}
    {h : Handle} (he : (s.reg i).has h [] = .ok true) (c : Nat) (r' : Reg V) (e : Exn) :
    (s.reg i).remove ty h c ≠ .throw r' e := by
  intro ht
  have R := (hr.inv i).rep
  obtain ⟨d, hw⟩ := R.entity_some he
  obtain ⟨ids, h1, h2, h3, h4⟩ := R.remove_throw hw ht
  have := alignedSize_vectors hty ids c
  omega

/-- Type 0 like `int`, type 1 like `double`, the others of 12 bytes with alignment 4. -/
def mixedTy : Types := ⟨fun c => if c = 0 then ⟨c, 4, 4, true⟩ else if c = 1 then ⟨c, 8, 8, true⟩ else ⟨c, 12, 4, true⟩, fun c => by
  show (if c = 0 then (⟨c, 4, 4, true⟩ : CompMeta) else if c = 1 then ⟨c, 8, 8, true⟩ else ⟨c, 12, 4, true⟩).id = c
  split
  · rfl
  · split <;> rfl⟩

example : Mixed mixedTy := by
  intro c
  show (if c = 0 then (⟨c, 4, 4, true⟩ : CompMeta) else if c = 1 then ⟨c, 8, 8, true⟩ else ⟨c, 12, 4, true⟩).align ∣ 8 ∧
    4 ∣ (if c = 0 then (⟨c, 4, 4, true⟩ : CompMeta) else if c = 1 then ⟨c, 8, 8, true⟩ else ⟨c, 12, 4, true⟩).size
  split
  · exact ⟨(by decide : (4 : Nat) ∣ 8), (by decide : 4 ∣ 4)⟩
  · split
    · exact ⟨(by decide : (8 : Nat) ∣ 8), (by decide : 4 ∣ 8)⟩
    · exact ⟨(by decide : (4 : Nat) ∣ 8), (by decide : 4 ∣ 12)⟩

/-- Even types like `double`, odd types like `__m128`. -/
def vectorTy : Types := ⟨fun c => if c % 2 = 0 then ⟨c, 8, 8, true⟩ else ⟨c, 16, 16, true⟩, fun c => by
  show (if c % 2 = 0 then (⟨c, 8, 8, true⟩ : CompMeta) else ⟨c, 16, 16, true⟩).id = c
  split <;> rfl⟩

example : Vectors vectorTy := by
  intro c
  show (if c % 2 = 0 then (⟨c, 8, 8, true⟩ : CompMeta) else ⟨c, 16, 16, true⟩).align ∣ 16 ∧
    8 ∣ (if c % 2 = 0 then (⟨c, 8, 8, true⟩ : CompMeta) else ⟨c, 16, 16, true⟩).size ∧
    0 < (if c % 2 = 0 then (⟨c, 8, 8, true⟩ : CompMeta) else ⟨c, 16, 16, true⟩).size
  split
  · exact ⟨(by decide : (8 : Nat) ∣ 16), (by decide : 8 ∣ 8), (by decide : 0 < 8)⟩
  · exact ⟨(by decide : (16 : Nat) ∣ 16), (by decide : 8 ∣ 16), (by decide : 0 < 16)⟩

/-- Types 0 and 1 are arrays of three and of one `char`, the others have 16372 bytes and the alignment of `int`. -/
def charTy : Types := ⟨fun c => if c = 0 then ⟨c, 3, 1, true⟩ else if c = 1 then ⟨c, 1, 1, true⟩ else ⟨c, 16372, 4, true⟩, fun c => by
  show (if c = 0 then (⟨c, 3, 1, true⟩ : CompMeta) else if c = 1 then ⟨c, 1, 1, true⟩ else ⟨c, 16372, 4, true⟩).id = c
  split
  · rfl
  · split <;> rfl⟩

/-- **C61, violated with alignments 1 and 4**: one byte less, and there is no room. -/
theorem C61_chars_violated [Inhabited V] : ¬ ∀ (s : Sys V) (W : Spec.World V), Reachable charTy s W →
    ∀ (i : Nat) (h : Handle) (c : Nat) (r' : Reg V) (e : Exn),
      (s.reg i).has h [] = .ok true → (s.reg i).remove charTy h c ≠ .throw r' e := by
  rw [C61_iff]
  intro h
  have h1 := h [0, 1, 2] (by decide) 1 (by decide) (by unfold Room; decide +kernel)
  revert h1
  unfold Room
  decide +kernel

/-! ## C65 -/

/-- **C65, exactly**: whether an entity can be created depends only on its set of component types — not on their order, nor on
the history — if and only if the component types are such that the order of a list never decides whether there is room. -/
theorem C65_iff [Inhabited V] (ty : Types) :
    (∃ possible : (Nat → Prop) → Prop, ∀ (s : Sys V) (W : Spec.World V), Reachable ty s W →
      ∀ (i : Nat) (args : List (Nat × V)), s.Allowed (.on i (.create args)) →
        ((∃ r' h, (s.reg i).create ty args = .ok r' h) ↔ possible fun c => c ∈ args.map Prod.fst)) ↔
    ∀ ids ids' : List Nat, ids.Nodup → ids.Perm ids' → (Room ty ids ↔ Room ty ids') := by
  constructor
  · rintro ⟨possible, hp⟩ ids ids' hn hperm
    have key : ∀ ids : List Nat, ids.Nodup → (Room ty ids ↔ possible fun c => c ∈ ids) := by
      intro ids hn
      have hids : (ids.map fun x => (x, (default : V))).map Prod.fst = ids := by rw [List.map_map]; exact List.map_id ids
      have hn' : ((ids.map fun x => (x, (default : V))).map Prod.fst).Nodup := by rw [hids]; exact hn
      have h1 := hp Sys.init _ Reach.init 0 (ids.map fun x => (x, (default : V)))
        ⟨hn', rfl, by show (0 : Nat) + 1 < U32; decide⟩
      have h2 := create_fresh_iff (V := V) (ty := ty) hn'
      rw [hids] at h1 h2
      exact h2.symm.trans h1
    rw [key ids hn, key ids' (hperm.nodup_iff.1 hn)]
    have : (fun c => c ∈ ids) = fun c => c ∈ ids' := by funext c; exact propext hperm.mem_iff
    rw [this]
  · intro hcond
    refine ⟨fun P => ∃ ids : List Nat, ids.Nodup ∧ (∀ c, c ∈ ids ↔ P c) ∧ Room ty ids, ?_⟩
    intro s W hr i args ha
    obtain ⟨hnd, hpend, hb⟩ := ha
    have R := (hr.inv i).rep
    rw [hpend] at R
    have hargs : (args.map fun x => ty.info x.1) = (args.map Prod.fst).map ty.info := by simp
    obtain ⟨p, h, hc, _, hw, _, _, h6⟩ := R.create hb hnd
    rcases h6 with ⟨r', q1, q2, q3, _⟩ | ⟨r', q1, q2, _, _, q5, _⟩
    · refine ⟨fun _ => ?_, fun _ => ⟨r', h, q1⟩⟩
      obtain ⟨l, t, hl⟩ := q3.typesOf put_self
      refine ⟨l.map CompMeta.id, t.nodup, ?_, ?_⟩
      · intro c
        rw [t.mem, ← Option.isSome_iff_ne_none]
        have := listed_isSome hnd c
        rw [show Row.argVal args c = Spec.World.listed args c from rfl, this]
        simp
      · have hmap : (l.map CompMeta.id).map ty.info = l := by
          rw [List.map_map]
          refine (List.map_congr_left ?_).trans (List.map_id _)
          intro x hx
          exact (t.typed x hx).symm
        unfold Room
        rw [hmap]
        rw [ne_eq, maxSize_none_iff] at hl
        omega
    · constructor
      · rintro ⟨r2, h2, q⟩; rw [q1] at q; cases q
      · rintro ⟨ids, h1, h2, h3⟩
        exfalso
        have hperm : ids.Perm (args.map Prod.fst) := (List.perm_ext_iff_of_nodup h1 hnd).2 h2
        have h4 := (hcond _ _ h1 hperm).1 h3
        rw [hargs, create_metas hnd, maxSize_none_iff] at q5
        unfold Room at h4
        omega

/-- Types 0 and 1 like `int`, the others of 16368 bytes with the alignment of `double`. -/
def largeTy : Types := ⟨fun c => if c < 2 then ⟨c, 4, 4, true⟩ else ⟨c, 16368, 8, true⟩, fun c => by
  show (if c < 2 then (⟨c, 4, 4, true⟩ : CompMeta) else ⟨c, 16368, 8, true⟩).id = c
  split <;> rfl⟩

/-- **C65, violated with the alignments of `int` and `double`**, the sizes being multiples of the alignments. -/
theorem C65_common_violated [Inhabited V] :
    ¬ ∃ possible : (Nat → Prop) → Prop, ∀ (s : Sys V) (W : Spec.World V), Reachable largeTy s W →
      ∀ (i : Nat) (args : List (Nat × V)), s.Allowed (.on i (.create args)) →
        ((∃ r' h, (s.reg i).create largeTy args = .ok r' h) ↔ possible fun c => c ∈ args.map Prod.fst) := by
  rw [C65_iff]
  intro h
  have h1 := h [0, 2, 1] [2, 0, 1] (by decide) (by decide)
  have h2 : Room largeTy [0, 2, 1] := by unfold Room; decide +kernel
  have h3 : ¬ Room largeTy [2, 0, 1] := by unfold Room; decide +kernel
  exact h3 (h1.1 h2)

end CoEcs.Props
