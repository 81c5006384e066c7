import Verif.Proofs.Capacity

/-! Which list of component types decides whether there is room. -/

namespace CoEcs
open Spec

variable {V : Type} {ty : Types}

theorem maxSize_none_iff (l : List CompMeta) : Layout.maxSize l = none ↔ 16384 < Layout.alignedSize l := by
  have hk : Layout.chunkBytes = 16384 := rfl
  unfold Layout.maxSize
  split
  · simp; omega
  · simp; omega

theorem insert_metas {s : MetaSet} (hs : s.Inv) {m : CompMeta} (h : m.id ∉ s.metas.map CompMeta.id) :
    (s.insert m).metas = s.metas ++ [m] := by
  unfold MetaSet.insert
  rw [if_neg]
  intro hc
  exact h ((hs.test m.id).1 hc)

theorem foldl_insert_metas : ∀ (ms : List CompMeta) (s : MetaSet), s.Inv → (ms.map CompMeta.id).Nodup →
    (∀ m ∈ ms, m.id ∉ s.metas.map CompMeta.id) → (ms.foldl MetaSet.insert s).metas = s.metas ++ ms := by
  intro ms
  induction ms with
  | nil => intro s _ _ _; simp
  | cons m ms ih =>
    intro s hs hn hd
    rw [List.foldl_cons]
    have hm := insert_metas hs (hd m List.mem_cons_self)
    rw [List.map_cons, List.nodup_cons] at hn
    rw [ih _ (hs.insert m) hn.2, hm]
    · simp
    · intro x hx
      rw [hm, List.map_append, List.mem_append]
      rintro (h | h)
      · exact hd x (List.mem_cons_of_mem _ hx) h
      · simp only [List.map_cons, List.map_nil, List.mem_singleton] at h
        exact hn.1 (h ▸ List.mem_map_of_mem hx)

/-- A list of different component types is kept in its order. -/
theorem create_metas {ids : List Nat} (hn : ids.Nodup) : (MetaSet.create (ids.map ty.info)).metas = ids.map ty.info := by
  unfold MetaSet.create
  rw [foldl_insert_metas _ _ MetaSet.inv_empty]
  · simp [MetaSet.empty]
  · rw [List.map_map]
    have : (CompMeta.id ∘ ty.info) = id := by funext c; simp [ty.id_eq]
    rw [this, List.map_id]; exact hn
  · intro m _; simp [MetaSet.empty]

/-- A removal that throws: the components that would be left, in the order of the archetype, take too much room. -/
theorem Rep.remove_throw {r : Reg V} {k : Nat} {W : Handle → Option (Comps V)} (R : Rep ty r k W) {h : Handle} {d : Comps V}
    (hw : W h = some d) {cid : Nat} {r' : Reg V} {e : Exn} (ht : r.remove ty h cid = .throw r' e) :
    ∃ (ids : List Nat), ids.Nodup ∧ cid ∈ ids ∧ Layout.alignedSize (ids.map ty.info) ≤ 16384 ∧
      16384 < Layout.alignedSize ((ids.filter (· ≠ cid)).map ty.info) := by
  obtain ⟨l, ai, a, c, row, t⟩ := R.at_ hw
  obtain ⟨m, hm⟩ := R.archs
  unfold Reg.remove at ht
  simp only [t.loc, t.archOf] at ht
  cases hcon : a.contains cid with
  | false => rw [hcon] at ht; simp at ht
  | true =>
    rw [hcon] at ht
    simp only [if_true] at ht
    rcases ensureRemoved_spec hm t.get hcon with ⟨s, m', ni, n, e1, e2⟩ | ⟨s, m', e1, e2⟩
    · rw [e1] at ht
      simp only at ht
      split at ht <;> cases ht
    · have hmap : a.comps.metas = (a.comps.metas.map CompMeta.id).map ty.info := by
        rw [List.map_map]
        refine (List.map_id _).symm.trans (List.map_congr_left ?_)
        intro x hx
        exact hm.typed ai a t.get x hx
      refine ⟨a.comps.metas.map CompMeta.id, t.ok.inv.nodup, ?_, ?_, ?_⟩
      · exact (t.ok.inv.test cid).1 hcon
      · rw [← hmap]
        have := hm.fits ai a t.get
        rw [ne_eq, maxSize_none_iff] at this
        omega
      · have h1 := (maxSize_none_iff _).1 e2.large
        unfold MetaSet.erase at h1
        rw [if_pos (show a.comps.contains cid = true from hcon)] at h1
        have h2 : (a.comps.metas.filter fun m => m.id ≠ cid) =
            ((a.comps.metas.map CompMeta.id).filter (· ≠ cid)).map ty.info := by
          rw [List.filter_map, List.map_map]
          refine (List.map_id _).symm.trans (List.map_congr_left ?_)
          intro x hx
          exact hm.typed ai a t.get x (List.mem_filter.1 hx).1
        rw [← h2]
        exact h1

/-- The registry after the first creation in a fresh one has one archetype, with the components in the order listed. -/
theorem create_first {args : List (Nat × V)} (hn : (args.map Prod.fst).Nodup) {r' : Reg V} {h : Handle}
    (hc : (Reg.empty : Reg V).create ty args = .ok r' h) :
    ∃ a : Arch V, r'.archs.arches = [a] ∧ a.comps = MetaSet.create ((args.map Prod.fst).map ty.info) := by
  have hargs : (args.map fun x => ty.info x.1) = (args.map Prod.fst).map ty.info := by simp
  unfold Reg.create at hc
  rw [hargs] at hc
  split at hc
  · cases hc
  · rename_i p h' hp
    simp only at hc
    rcases ensure_spec (ArchsRel.empty (V := V) ty) (args.map Prod.fst) with ⟨s, m', ai, a, e1, e2⟩ | ⟨s, m', e1, e2⟩
    · rw [show (Reg.empty : Reg V).archs = Archs.empty from rfl, e1] at hc
      simp only [e2.arch] at hc
      have haok := e2.rel.ok ai a e2.arch
      have hbl : ∀ c, some c ∈ a.blocks ↔ c ∈ args.map Prod.fst := by
        intro c
        rw [Arch.blocks_of_set haok.inv (MetaSet.inv_create _) e2.set, create_ids]
        simp [ty.id_eq]
      obtain ⟨a', ci, idx, row, q1, q2, q3, q4, q5, q6⟩ := Arch.emplace_spec haok h' hn hbl
      simp only [q1] at hc
      rcases e2.cases with h0 | ⟨h1, h2, h3, _⟩
      · have := e2.arch
        rw [h0] at this
        simp [Archs.empty] at this
      · have h1' : ai = 0 := h1
        have h2' : s.arches = [a] := h2
        split at hc
        · cases hc
        · rename_i r2 hr2
          cases hc
          unfold Reg.setLoc at hr2
          split at hr2
          · cases hr2
            refine ⟨a', ?_, q3.comps.trans h3⟩
            simp only [Reg.setArch, h1', h2', List.set_cons_zero]
          · cases hr2
    · rw [show (Reg.empty : Reg V).archs = Archs.empty from rfl, e1] at hc
      cases hc

/-- Removing a component of the first entity of a registry throws if what is left, in order, takes too much room. -/
theorem remove_first {r : Reg V} {k : Nat} {W : Handle → Option (Comps V)} (R : Rep ty r k W) {h : Handle} {d : Comps V}
    (hw : W h = some d) {ids : List Nat} (hn : ids.Nodup) {a : Arch V} (ha : r.archs.arches = [a])
    (hcomps : a.comps = MetaSet.create (ids.map ty.info)) {cid : Nat} (hc : cid ∈ ids)
    (hl : 16384 < Layout.alignedSize ((ids.filter (· ≠ cid)).map ty.info)) :
    ∃ r', r.remove ty h cid = .throw r' .insufficientChunkSize := by
  obtain ⟨l, ai, b, c, row, t⟩ := R.at_ hw
  obtain ⟨m, hm⟩ := R.archs
  have hb : b = a := by
    have := t.get
    rw [ha, List.getElem?_singleton] at this
    split at this
    · cases this; rfl
    · cases this
  subst hb
  have hmetas : b.comps.metas = ids.map ty.info := by rw [hcomps]; exact create_metas hn
  have hcon : b.contains cid = true := by
    refine (t.ok.inv.test cid).2 ?_
    rw [hmetas, List.map_map]
    exact List.mem_map.2 ⟨cid, hc, ty.id_eq cid⟩
  have herase : (b.comps.erase cid).metas = (ids.filter (· ≠ cid)).map ty.info := by
    unfold MetaSet.erase
    rw [if_pos (show b.comps.contains cid = true from hcon)]
    simp only
    rw [hmetas, List.filter_map]
    congr 1
    refine List.filter_congr ?_
    intro x _
    simp [ty.id_eq]
  unfold Reg.remove
  simp only [t.loc, t.archOf, hcon, if_true]
  rcases ensureRemoved_spec hm t.get hcon with ⟨s, m', ni, n, e1, e2⟩ | ⟨s, m', e1, e2⟩
  · exfalso
    have hn' := e2.arch
    rcases e2.cases with h0 | ⟨_, _, h3, _⟩
    · rw [h0, ha, List.getElem?_singleton] at hn'
      split at hn'
      · cases hn'
        have h1 := e2.set
        have h2 : (b.comps.erase cid).contains cid = true := by
          unfold MetaSet.contains
          rw [← h1]
          exact hcon
        have h3 := ((t.ok.inv.erase cid).test cid).1 h2
        exact ((erase_ids hcon cid).1 h3).1 rfl
      · cases hn'
    · have := e2.rel.fits ni n hn'
      rw [h3, herase, ne_eq, maxSize_none_iff] at this
      exact this hl
  · rw [e1]
    exact ⟨_, rfl⟩

/-! ### Removing an element of a list never lengthens the layout -/

/-- Every type has alignment 1, 2, 4 or 8 and a size that is a multiple of 4. -/
def Mixed (ty : Types) : Prop := ∀ c, (ty.info c).align ∣ 8 ∧ 4 ∣ (ty.info c).size

/-- Every type has alignment 1, 2, 4, 8 or 16 and a positive size that is a multiple of 8. -/
def Vectors (ty : Types) : Prop := ∀ c, (ty.info c).align ∣ 16 ∧ 8 ∣ (ty.info c).size ∧ 0 < (ty.info c).size

theorem dvd8 {a : Nat} (ha : a ∣ 8) : a = 1 ∨ a = 2 ∨ a = 4 ∨ a = 8 := by
  have hle : a ≤ 8 := Nat.le_of_dvd (by decide) ha
  have : a = 0 ∨ a = 1 ∨ a = 2 ∨ a = 3 ∨ a = 4 ∨ a = 5 ∨ a = 6 ∨ a = 7 ∨ a = 8 := by omega
  rcases this with rfl | rfl | rfl | rfl | rfl | rfl | rfl | rfl | rfl <;> first | (revert ha; decide) | simp

theorem dvd16 {a : Nat} (ha : a ∣ 16) : a = 1 ∨ a = 2 ∨ a = 4 ∨ a = 8 ∨ a = 16 := by
  have hle : a ≤ 16 := Nat.le_of_dvd (by decide) ha
  by_cases h : a = 16
  · simp [h]
  · have : a ∣ 8 := by
      have : a = 0 ∨ a = 1 ∨ a = 2 ∨ a = 3 ∨ a = 4 ∨ a = 5 ∨ a = 6 ∨ a = 7 ∨ a = 8 ∨ a = 9 ∨ a = 10 ∨ a = 11 ∨ a = 12 ∨
          a = 13 ∨ a = 14 ∨ a = 15 := by omega
      rcases this with rfl | rfl | rfl | rfl | rfl | rfl | rfl | rfl | rfl | rfl | rfl | rfl | rfl | rfl | rfl | rfl <;>
        revert ha <;> decide
    rcases dvd8 this with h | h | h | h <;> simp [h]

theorem mod2n_cases {x a : Nat} (ha : a = 1 ∨ a = 2 ∨ a = 4 ∨ a = 8 ∨ a = 16) : mod2n x a = x % a := by
  rcases ha with rfl | rfl | rfl | rfl | rfl
  · exact Layout.mod2n_pow x 0
  · exact Layout.mod2n_pow x 1
  · exact Layout.mod2n_pow x 2
  · exact Layout.mod2n_pow x 3
  · exact Layout.mod2n_pow x 4

theorem addElement_mixed {x y : Nat} (hx : 4 ∣ x) (hy : 4 ∣ y) (h : x ≤ y) {m : CompMeta} (hm : m.align ∣ 8 ∧ 4 ∣ m.size) :
    4 ∣ Layout.addElement x m ∧ 4 ∣ Layout.addElement y m ∧ Layout.addElement x m ≤ Layout.addElement y m := by
  have h8 := dvd8 hm.1
  have hs := hm.2
  unfold Layout.addElement
  rw [mod2n_cases (by omega), mod2n_cases (by omega)]
  rcases h8 with h | h | h | h <;> rw [h] <;> refine ⟨?_, ?_, ?_⟩ <;> omega

theorem fold_mixed : ∀ (l : List CompMeta) (x y : Nat), 4 ∣ x → 4 ∣ y → x ≤ y → (∀ m ∈ l, m.align ∣ 8 ∧ 4 ∣ m.size) →
    ∀ p : CompMeta → Bool, (l.filter p).foldl Layout.addElement x ≤ l.foldl Layout.addElement y := by
  intro l
  induction l with
  | nil => intro x y _ _ h _ p; exact h
  | cons m l ih =>
    intro x y hx hy h hl p
    have hm := hl m List.mem_cons_self
    have hl' := fun m hm => hl m (List.mem_cons_of_mem _ hm)
    obtain ⟨h1, h2, h3⟩ := addElement_mixed hx hy h hm
    rw [List.filter_cons, List.foldl_cons]
    split
    · rw [List.foldl_cons]
      exact ih _ _ h1 h2 h3 hl' p
    · refine ih _ _ hx h2 ?_ hl' p
      unfold Layout.addElement
      omega

/-- `x` is an offset in the layout of fewer components, `y` in that of all. -/
def Behind (x y : Nat) : Prop :=
  x ≤ y ∧ ((x % 8 = 0 ∧ y % 8 = 0) ∨ (x % 8 = 4 ∧ y % 8 = 4) ∨ (x % 8 = 4 ∧ y % 8 = 0 ∧ x + 12 ≤ y))

theorem Behind.both {x y : Nat} (h : Behind x y) {m : CompMeta} (hm : m.align ∣ 16 ∧ 8 ∣ m.size ∧ 0 < m.size) :
    Behind (Layout.addElement x m) (Layout.addElement y m) := by
  have h16 := dvd16 hm.1
  have hs := hm.2.1
  unfold Behind at *
  unfold Layout.addElement
  rw [mod2n_cases h16, mod2n_cases h16]
  rcases h16 with e | e | e | e | e <;> rw [e] <;> omega

theorem Behind.more {x y : Nat} (h : Behind x y) {m : CompMeta} (hm : m.align ∣ 16 ∧ 8 ∣ m.size ∧ 0 < m.size) :
    Behind x (Layout.addElement y m) := by
  have h16 := dvd16 hm.1
  have hs := hm.2
  unfold Behind at *
  unfold Layout.addElement
  rw [mod2n_cases h16]
  rcases h16 with e | e | e | e | e <;> rw [e] <;> omega

theorem fold_vectors : ∀ (l : List CompMeta) (x y : Nat), Behind x y → (∀ m ∈ l, m.align ∣ 16 ∧ 8 ∣ m.size ∧ 0 < m.size) →
    ∀ p : CompMeta → Bool, (l.filter p).foldl Layout.addElement x ≤ l.foldl Layout.addElement y := by
  intro l
  induction l with
  | nil => intro x y h _ p; exact h.1
  | cons m l ih =>
    intro x y h hl p
    have hm := hl m List.mem_cons_self
    have hl' := fun m hm => hl m (List.mem_cons_of_mem _ hm)
    rw [List.filter_cons, List.foldl_cons]
    split
    · rw [List.foldl_cons]
      exact ih _ _ (h.both hm) hl' p
    · exact ih _ _ (h.more hm) hl' p

theorem filter_map_info (ids : List Nat) (c : Nat) :
    (ids.filter (· ≠ c)).map ty.info = (ids.map ty.info).filter fun m => m.id ≠ c := by
  rw [List.filter_map]
  congr 1
  refine List.filter_congr ?_
  intro x _
  simp [ty.id_eq]

theorem alignedSize_mixed (hty : Mixed ty) (ids : List Nat) (c : Nat) :
    Layout.alignedSize ((ids.filter (· ≠ c)).map ty.info) ≤ Layout.alignedSize (ids.map ty.info) := by
  rw [filter_map_info]
  unfold Layout.alignedSize
  refine Nat.sub_le_sub_right (fold_mixed _ _ _ (by decide) (by decide) (Nat.le_refl _) ?_ _) _
  intro m hm
  obtain ⟨x, _, rfl⟩ := List.mem_map.1 hm
  exact hty x

theorem alignedSize_vectors (hty : Vectors ty) (ids : List Nat) (c : Nat) :
    Layout.alignedSize ((ids.filter (· ≠ c)).map ty.info) ≤ Layout.alignedSize (ids.map ty.info) := by
  rw [filter_map_info]
  unfold Layout.alignedSize
  refine Nat.sub_le_sub_right (fold_vectors _ _ _ ?_ ?_ _) _
  · exact ⟨Nat.le_refl _, .inr (.inl ⟨by decide, by decide⟩)⟩
  · intro m hm
    obtain ⟨x, _, rfl⟩ := List.mem_map.1 hm
    exact hty x

end CoEcs
