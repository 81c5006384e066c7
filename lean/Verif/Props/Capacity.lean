import Verif.Proofs.Exec
import Verif.Proofs.Observe
import Verif.Proofs.RepEnd
import Verif.Proofs.Capacity
import Verif.Props.RegistryStorage

/-!
# When there is room for an entity (C61, C65)
-/

namespace CoEcs.Props
open CoEcs Spec

variable {V : Type} {ty : Types} {s : Sys V} {W : Spec.World V}

/-! ## C61 -/

/-- **C61** (partial; missing: other alignments and sizes, where it is false): if all component types have
alignment 1, 2 or 4 and a size that is a multiple of 4, removing a component from an entity does not throw. -/
theorem C61_remove_words_partial (hty : Words ty) (hr : Reachable ty s W) {i : Nat} {h : Handle}
    (he : (s.reg i).has h [] = .ok true) (c : Nat) (r' : Reg V) (e : Exn) : (s.reg i).remove ty h c ≠ .throw r' e := by
  have R := (hr.inv i).rep
  obtain ⟨d, hw⟩ := R.entity_some he
  intro ht
  rcases R.remove hw c with ⟨_, q1⟩ | ⟨_, ⟨q1, _⟩ | ⟨r1, q1, _⟩ | ⟨r1, q1, _, _, _, _, l, t, hl⟩⟩
  · rw [q1] at ht; cases ht
  · rw [q1] at ht; cases ht
  · rw [q1] at ht; cases ht
  · obtain ⟨l0, t0, hl0⟩ := R.typesOf hw
    have h0 := (maxSize_words (t0.words hty)).1 hl0
    have hle := t.sum_le t0 (d' := d) fun x hx => by
      intro hd
      apply hx
      split
      · rfl
      · exact hd
    exact (maxSize_words (t.words hty)).2 (by omega) hl

example : Words smallTy ∧ Words bigTy := by
  constructor <;> intro c
  · exact ⟨(by decide : (4 : Nat) ∣ 4), (by decide : 4 ∣ 4)⟩
  · exact ⟨(by decide : (4 : Nat) ∣ 4), (by decide : 4 ∣ 8100)⟩

/-- **C61** (partial; missing: other alignments and sizes, where it is false): likewise if all component types
have alignment 1, 2, 4 or 8 and a size that is a multiple of 8, as `double`, pointers, `std::string` and
`std::vector` have. -/
theorem C61_remove_doubles_partial (hty : Doubles ty) (hr : Reachable ty s W) {i : Nat} {h : Handle}
    (he : (s.reg i).has h [] = .ok true) (c : Nat) (r' : Reg V) (e : Exn) : (s.reg i).remove ty h c ≠ .throw r' e := by
  have R := (hr.inv i).rep
  obtain ⟨d, hw⟩ := R.entity_some he
  intro ht
  rcases R.remove hw c with ⟨_, q1⟩ | ⟨_, ⟨q1, _⟩ | ⟨r1, q1, _⟩ | ⟨r1, q1, _, _, _, _, l, t, hl⟩⟩
  · rw [q1] at ht; cases ht
  · rw [q1] at ht; cases ht
  · rw [q1] at ht; cases ht
  · obtain ⟨l0, t0, hl0⟩ := R.typesOf hw
    have h0 := (maxSize_doubles (t0.doubles hty)).1 hl0
    have hsub : ∀ x, (if x = c then none else d x) ≠ none → d x ≠ none := fun x hx => by
      intro hd
      apply hx
      split
      · rfl
      · exact hd
    have hle := t.sum_le t0 (d' := d) hsub
    have hpl := t.pad_le t0 (d' := d) hsub
    exact (maxSize_doubles (t.doubles hty)).2 (by omega) hl

/-- Component types with even numbers have size 8160 and alignment 8, those with odd numbers size 8 and
alignment 4. -/
def doubleTy : Types := ⟨fun c => if c % 2 = 0 then ⟨c, 8160, 8, true⟩ else ⟨c, 8, 4, true⟩, fun c => by
  show (if c % 2 = 0 then (⟨c, 8160, 8, true⟩ : CompMeta) else ⟨c, 8, 4, true⟩).id = c
  split <;> rfl⟩

theorem doubleTy_doubles : Doubles doubleTy := by
  intro c
  show (if c % 2 = 0 then (⟨c, 8160, 8, true⟩ : CompMeta) else ⟨c, 8, 4, true⟩).align ∣ 8 ∧
    8 ∣ (if c % 2 = 0 then (⟨c, 8160, 8, true⟩ : CompMeta) else ⟨c, 8, 4, true⟩).size
  split
  · exact ⟨(by decide : (8 : Nat) ∣ 8), (by decide : 8 ∣ 8160)⟩
  · exact ⟨(by decide : (4 : Nat) ∣ 8), (by decide : 8 ∣ 8)⟩

/-- Component type 0 has size and alignment 4, the others size 16368 and alignment 16. -/
def wideTy : Types := ⟨fun c => if c = 0 then ⟨0, 4, 4, true⟩ else ⟨c, 16368, 16, true⟩, fun c => by
  show (if c = 0 then (⟨0, 4, 4, true⟩ : CompMeta) else ⟨c, 16368, 16, true⟩).id = c
  split
  · rename_i h; exact h.symm
  · rfl⟩

/-- One entity with both components. -/
def wideOps : List (SysOp Nat) := [.on 0 (.create [(0, 1), (1, 2)])]

theorem wideOps_isSome : (exec wideTy wideOps).isSome = true := by decide +kernel

/-- **C61 is violated**: an entity has a component of size 4 and alignment 4 and one of size 16368 and
alignment 16; removing the small one throws `insufficient_chunk_size`, and so does it every time. -/
theorem C61_remove_throws_violated :
    ∃ (ty : Types) (s : Sys Nat) (W : Spec.World Nat) (h : Handle) (r' : Reg Nat), Reachable ty s W ∧
      (s.reg 0).has h [0, 1] = .ok true ∧ (ty.info 0).size = 4 ∧ (ty.info 0).align = 4 ∧ (ty.info 1).size = 16368 ∧
      (ty.info 1).align = 16 ∧ (s.reg 0).remove ty h 0 = .throw r' .insufficientChunkSize ∧ r'.has h [0] = .ok true := by
  have h1 : (match ((((exec wideTy wideOps).get wideOps_isSome).1).reg 0).remove wideTy ⟨0, 0⟩ 0 with
    | .throw r' e => decide (e = .insufficientChunkSize) && decide (r'.has ⟨0, 0⟩ [0] = .ok true)
    | _ => false) = true := by decide +kernel
  cases hx : ((((exec wideTy wideOps).get wideOps_isSome).1).reg 0).remove wideTy ⟨0, 0⟩ 0 with
  | ub => rw [hx] at h1; cases h1
  | ok r u => rw [hx] at h1; cases h1
  | throw r e =>
    rw [hx] at h1
    simp only [Bool.and_eq_true, decide_eq_true_eq] at h1
    obtain ⟨rfl, h2⟩ := h1
    exact ⟨wideTy, _, _, ⟨0, 0⟩, r, exec_get wideOps wideOps_isSome, by decide +kernel, rfl, rfl, rfl, rfl, hx, h2⟩

/-! ## C65 -/

/-- **C65** (partial; missing: other alignments and sizes, where it is false): if all component types have
alignment 1, 2 or 4 and a size that is a multiple of 4, then in every reachable state creating an entity
succeeds exactly if 8 and the sizes of its components add up to at most 16384, and otherwise throws
`insufficient_chunk_size`. -/
theorem C65_create_words_partial (hty : Words ty) (hr : Reachable ty s W) {i : Nat} {args : List (Nat × V)}
    (ha : s.Allowed (.on i (.create args))) :
    (8 + (args.map fun x => (ty.info x.1).size).sum ≤ 16384 → ∃ r' h, (s.reg i).create ty args = .ok r' h) ∧
    (16384 < 8 + (args.map fun x => (ty.info x.1).size).sum →
      ∃ r', (s.reg i).create ty args = .throw r' .insufficientChunkSize) := by
  obtain ⟨hnd, hp, hb⟩ := ha
  have R := (hr.inv i).rep
  rw [hp] at R
  have hsum : ∀ l, TypesOf ty (Spec.World.listed args) l → (l.map CompMeta.size).sum = (args.map fun x => (ty.info x.1).size).sum := by
    intro l t
    rw [t.sum_ids hnd fun c => ?_, List.map_map]
    · rfl
    · have := listed_isSome hnd c
      cases hx : Spec.World.listed args c <;> simp [hx] at this ⊢ <;> exact this
  obtain ⟨p, h, hc, _, hw, _, _, h6⟩ := R.create hb hnd
  rcases h6 with ⟨r', q1, q2, q3, _⟩ | ⟨r', q1, q2, _, _, q5, _⟩
  · refine ⟨fun _ => ⟨r', h, q1⟩, fun hlt => ?_⟩
    obtain ⟨l, t, hl⟩ := q3.typesOf put_self
    have := (maxSize_words (t.words hty)).1 hl
    rw [hsum l t] at this
    omega
  · refine ⟨fun hle => ?_, fun _ => ⟨r', q1⟩⟩
    have t := create_typesOf (ty := ty) hnd
    rw [← hsum _ t] at hle
    exact absurd q5 ((maxSize_words (t.words hty)).2 hle)

/-- **C65** (partial; missing: other alignments and sizes, where it is false): with such component types,
setting a component that an entity does not have throws only if 8 and the sizes of `ids` — that component
and those the entity has — add up to more than 16384, and returns only if they do not.  (It may also be
undefined, see C18.) -/
theorem C65_set_words_partial (hty : Words ty) (hr : Reachable ty s W) {i : Nat} {h : Handle} {c : Nat} {v : V} {ids : List Nat}
    (he : (s.reg i).has h [] = .ok true) (hn : ids.Nodup)
    (hids : ∀ x, x ∈ ids ↔ x = c ∨ (s.reg i).has h [x] = .ok true) :
    (∀ r' e, (s.reg i).set ty h c v = .throw r' e → 16384 < 8 + (ids.map fun x => (ty.info x).size).sum) ∧
    (∀ r', (s.reg i).set ty h c v = .ok r' () → 8 + (ids.map fun x => (ty.info x).size).sum ≤ 16384) := by
  have R := (hr.inv i).rep
  obtain ⟨d, hw⟩ := R.entity_some he
  have hmem : ∀ x, x ∈ ids ↔ (fun x => if x = c then some v else d x) x ≠ none := by
    intro x
    rw [hids, R.has_some hw]
    by_cases hx : x = c
    · simp [hx]
    · cases hd : d x <;> simp [hx, hd]
  rcases R.set hw c v with ⟨q, _⟩ | ⟨r1, q, _, R', _⟩ | ⟨r1, q, _, _, _, _, _, l, t, hl⟩
  · constructor
    · intro r' e ht; rw [q] at ht; cases ht
    · intro r' ht; rw [q] at ht; cases ht
  · constructor
    · intro r' e ht; rw [q] at ht; cases ht
    · intro r' _
      obtain ⟨l, t, hl⟩ := R'.typesOf put_self
      rw [← t.sum_ids hn hmem]
      exact (maxSize_words (t.words hty)).1 hl
  · constructor
    · intro r' e _
      rw [← t.sum_ids hn hmem]
      exact Nat.lt_of_not_le fun hle => (maxSize_words (t.words hty)).2 hle hl
    · intro r' ht; rw [q] at ht; cases ht

/-- **C65** (partial; missing: other alignments and sizes, where it is false): if all component types have
alignment 1, 2, 4 or 8 and a size that is a multiple of 8, the same holds with 12 in place of 8 as soon as one of
the components has alignment 8. -/
theorem C65_create_doubles_partial (hty : Doubles ty) (hr : Reachable ty s W) {i : Nat} {args : List (Nat × V)}
    (ha : s.Allowed (.on i (.create args))) {overhead : Nat}
    (ho : overhead = if 8 ∈ args.map (fun x => (ty.info x.1).align) then 12 else 8) :
    (overhead + (args.map fun x => (ty.info x.1).size).sum ≤ 16384 → ∃ r' h, (s.reg i).create ty args = .ok r' h) ∧
    (16384 < overhead + (args.map fun x => (ty.info x.1).size).sum →
      ∃ r', (s.reg i).create ty args = .throw r' .insufficientChunkSize) := by
  obtain ⟨hnd, hp, hb⟩ := ha
  have R := (hr.inv i).rep
  rw [hp] at R
  have hids : ∀ c, c ∈ args.map Prod.fst ↔ Spec.World.listed args c ≠ none := fun c => by
    have := listed_isSome hnd c
    cases hx : Spec.World.listed args c <;> simp [hx] at this ⊢ <;> exact this
  have hsum : ∀ l, TypesOf ty (Spec.World.listed args) l →
      8 + (l.map CompMeta.size).sum + padOf (l.map CompMeta.align) = overhead + (args.map fun x => (ty.info x.1).size).sum := by
    intro l t
    rw [t.sum_ids hnd hids, t.pad_ids hids, List.map_map, List.map_map, ho]
    show 8 + (args.map fun x => (ty.info x.1).size).sum + padOf (args.map fun x => (ty.info x.1).align) = _
    unfold padOf
    split <;> omega
  obtain ⟨p, h, hc, _, hw, _, _, h6⟩ := R.create hb hnd
  rcases h6 with ⟨r', q1, q2, q3, _⟩ | ⟨r', q1, q2, _, _, q5, _⟩
  · refine ⟨fun _ => ⟨r', h, q1⟩, fun hlt => ?_⟩
    obtain ⟨l, t, hl⟩ := q3.typesOf put_self
    have := (maxSize_doubles (t.doubles hty)).1 hl
    rw [hsum l t] at this
    omega
  · refine ⟨fun hle => ?_, fun _ => ⟨r', q1⟩⟩
    have t := create_typesOf (ty := ty) hnd
    rw [← hsum _ t] at hle
    exact absurd q5 ((maxSize_doubles (t.doubles hty)).2 hle)

/-- **C65** (partial; missing: other alignments and sizes, where it is false): likewise for setting a component
that an entity does not have. -/
theorem C65_set_doubles_partial (hty : Doubles ty) (hr : Reachable ty s W) {i : Nat} {h : Handle} {c : Nat} {v : V} {ids : List Nat}
    (he : (s.reg i).has h [] = .ok true) (hn : ids.Nodup)
    (hids : ∀ x, x ∈ ids ↔ x = c ∨ (s.reg i).has h [x] = .ok true) {overhead : Nat}
    (ho : overhead = if 8 ∈ ids.map (fun x => (ty.info x).align) then 12 else 8) :
    (∀ r' e, (s.reg i).set ty h c v = .throw r' e → 16384 < overhead + (ids.map fun x => (ty.info x).size).sum) ∧
    (∀ r', (s.reg i).set ty h c v = .ok r' () → overhead + (ids.map fun x => (ty.info x).size).sum ≤ 16384) := by
  have R := (hr.inv i).rep
  obtain ⟨d, hw⟩ := R.entity_some he
  have hmem : ∀ x, x ∈ ids ↔ (fun x => if x = c then some v else d x) x ≠ none := by
    intro x
    rw [hids, R.has_some hw]
    by_cases hx : x = c
    · simp [hx]
    · cases hd : d x <;> simp [hx, hd]
  have hsum : ∀ l, TypesOf ty (fun x => if x = c then some v else d x) l →
      8 + (l.map CompMeta.size).sum + padOf (l.map CompMeta.align) = overhead + (ids.map fun x => (ty.info x).size).sum := by
    intro l t
    rw [t.sum_ids hn hmem, t.pad_ids hmem, ho]
    unfold padOf
    split <;> omega
  rcases R.set hw c v with ⟨q, _⟩ | ⟨r1, q, _, R', _⟩ | ⟨r1, q, _, _, _, _, _, l, t, hl⟩
  · constructor
    · intro r' e ht; rw [q] at ht; cases ht
    · intro r' ht; rw [q] at ht; cases ht
  · constructor
    · intro r' e ht; rw [q] at ht; cases ht
    · intro r' _
      obtain ⟨l, t, hl⟩ := R'.typesOf put_self
      rw [← hsum l t]
      exact (maxSize_doubles (t.doubles hty)).1 hl
  · constructor
    · intro r' e _
      rw [← hsum l t]
      exact Nat.lt_of_not_le fun hle => (maxSize_doubles (t.doubles hty)).2 hle hl
    · intro r' ht; rw [q] at ht; cases ht

/-- Six components of size 8 fit beside two of size 8160. -/
def doubleArgs : List (Nat × Nat) := [(0, 1), (2, 2), (1, 0), (3, 0), (5, 0), (7, 0), (9, 0), (11, 0)]

/-- Both outcomes occur: with 12, the sizes of these components add up to 16380, and removing one does not throw; another
of size 8 does not fit, although 8 and the sizes add up to 16384. -/
example : ∃ (s : Sys Nat) (W : Spec.World Nat) (r1 r2 r3 : Reg Nat) (h : Handle), Doubles doubleTy ∧ Reachable doubleTy s W ∧
    s.Allowed (.on 0 (.create doubleArgs)) ∧
    (s.reg 0).create doubleTy doubleArgs = .ok r1 h ∧ r1.remove doubleTy h 1 = .ok r2 () ∧
    s.Allowed (.on 0 (.create (doubleArgs ++ [(13, 0)]))) ∧
    8 + ((doubleArgs ++ [(13, 0)]).map fun (x : Nat × Nat) => (doubleTy.info x.1).size).sum = 16384 ∧
    (s.reg 0).create doubleTy (doubleArgs ++ [(13, 0)]) = .throw r3 .insufficientChunkSize := by
  have e : (match (Reg.empty : Reg Nat).create doubleTy doubleArgs with
    | .ok r1 h => (match r1.remove doubleTy h 1 with | .ok _ _ => true | _ => false)
    | _ => false) = true := by decide +kernel
  have f : (match (Reg.empty : Reg Nat).create doubleTy (doubleArgs ++ [(13, 0)]) with
    | .throw _ e => decide (e = .insufficientChunkSize)
    | _ => false) = true := by decide +kernel
  split at e
  · rename_i r1 h1 e1
    split at e
    · rename_i r2 u e2
      split at f
      · rename_i r3 x e3
        rw [decide_eq_true_eq] at f
        subst f
        exact ⟨Sys.init, _, r1, r2, r3, h1, doubleTy_doubles, .init, by decide, e1, e2, by decide, by decide, e3⟩
      · cases f
    · cases e
  · cases e

/-- Both outcomes occur: with components of 8100 bytes there is room for two in an entity, not for three. -/
example : ∃ (s : Sys Nat) (W : Spec.World Nat) (r1 r2 : Reg Nat) (h : Handle), Reachable bigTy s W ∧
    (s.reg 0).create bigTy [(0, 1), (1, 2)] = .ok r1 h ∧ r1.has h [] = .ok true ∧
    r1.set bigTy h 2 3 = .throw r2 .insufficientChunkSize := by
  have h1 : (match (Reg.empty : Reg Nat).create bigTy [(0, 1), (1, 2)] with
    | .ok r1 h => decide (r1.has h [] = .ok true) && (match r1.set bigTy h 2 3 with
      | .throw _ e => decide (e = .insufficientChunkSize) | _ => false)
    | _ => false) = true := by decide +kernel
  split at h1
  · rename_i r1 h e1
    rw [Bool.and_eq_true, decide_eq_true_eq] at h1
    obtain ⟨h1, h2⟩ := h1
    split at h2
    · rename_i r2 e e2
      rw [decide_eq_true_eq] at h2
      subst h2
      exact ⟨_, _, r1, r2, h, .init, e1, h1, e2⟩
    · cases h2
  · cases h1

/-- **C65 is violated**: in a fresh registry an entity with the components 0 and 1 can be created, but creating
one with the components 1 and 0 throws; once the former was created, the latter succeeds. -/
theorem C65_order_violated :
    ∃ (ty : Types) (s : Sys Nat) (W : Spec.World Nat) (r1 r2 r3 : Reg Nat) (h1 h3 : Handle), Reachable ty s W ∧
      s.Allowed (.on 0 (.create [(0, 1), (1, 2)])) ∧ s.Allowed (.on 0 (.create [(1, 2), (0, 1)])) ∧
      (s.reg 0).create ty [(0, 1), (1, 2)] = .ok r1 h1 ∧
      (s.reg 0).create ty [(1, 2), (0, 1)] = .throw r2 .insufficientChunkSize ∧
      r1.create ty [(1, 2), (0, 1)] = .ok r3 h3 := by
  have e : (match (Reg.empty : Reg Nat).create wideTy [(0, 1), (1, 2)] with
    | .ok r1 _ => (match r1.create wideTy [(1, 2), (0, 1)] with | .ok _ _ => true | _ => false)
    | _ => false) = true := by decide +kernel
  have f : (match (Reg.empty : Reg Nat).create wideTy [(1, 2), (0, 1)] with
    | .throw _ e => decide (e = .insufficientChunkSize)
    | _ => false) = true := by decide +kernel
  split at e
  · rename_i r1 h1 e1
    split at e
    · rename_i r3 h3 e3
      split at f
      · rename_i r2 x e2
        rw [decide_eq_true_eq] at f
        subst f
        exact ⟨wideTy, Sys.init, _, r1, r2, r3, h1, h3, .init, by decide, by decide, e1, e2, e3⟩
      · cases f
    · cases e
  · cases e

end CoEcs.Props
