import Verif.Proofs.Layout
import Verif.Proofs.RepOps
import Verif.Proofs.Observe

/-! Total sizes of component types whose alignment never costs padding. -/

namespace CoEcs

variable {V : Type} {ty : Types}

/-- Every component type has alignment 1, 2 or 4 and a size that is a multiple of 4. -/
def Words (ty : Types) : Prop := ∀ c, (ty.info c).align ∣ 4 ∧ 4 ∣ (ty.info c).size

theorem mod2n_words {x a : Nat} (hx : 4 ∣ x) (ha : a ∣ 4) : mod2n x a = 0 := by
  have hle : a ≤ 4 := Nat.le_of_dvd (by decide) ha
  have : a = 1 ∨ a = 2 ∨ a = 4 := by
    have : a = 0 ∨ a = 1 ∨ a = 2 ∨ a = 3 ∨ a = 4 := by omega
    rcases this with rfl | rfl | rfl | rfl | rfl
    · revert ha; decide
    · exact .inl rfl
    · exact .inr (.inl rfl)
    · revert ha; decide
    · exact .inr (.inr rfl)
  rcases this with rfl | rfl | rfl
  · exact (Layout.mod2n_pow x 0).trans (Nat.mod_one x)
  · rw [show (2 : Nat) = 2 ^ 1 from rfl, Layout.mod2n_pow]; omega
  · rw [show (4 : Nat) = 2 ^ 2 from rfl, Layout.mod2n_pow]; omega

theorem fold_words : ∀ (l : List CompMeta) (x : Nat), 4 ∣ x → (∀ m ∈ l, m.align ∣ 4 ∧ 4 ∣ m.size) →
    l.foldl Layout.addElement x = x + (l.map CompMeta.size).sum
  | [], x, _, _ => by simp
  | m :: l, x, hx, hl => by
    obtain ⟨h1, h2⟩ := hl m List.mem_cons_self
    have e : Layout.addElement x m = x + m.size := by
      unfold Layout.addElement; rw [mod2n_words hx h1]; rfl
    rw [List.foldl_cons, e, fold_words l _ (Nat.dvd_add hx h2) fun m hm => hl m (List.mem_cons_of_mem _ hm)]
    simp [Nat.add_assoc]

theorem maxSize_words {l : List CompMeta} (hl : ∀ m ∈ l, m.align ∣ 4 ∧ 4 ∣ m.size) :
    Layout.maxSize l ≠ none ↔ 8 + (l.map CompMeta.size).sum ≤ 16384 := by
  have e : Layout.alignedSize l = 8 + (l.map CompMeta.size).sum := by
    unfold Layout.alignedSize
    rw [show Layout.addElement Layout.allocAlignment (Layout.entityMeta 0) = 12 from rfl, fold_words l 12 (by decide) hl]
    simp only [Layout.allocAlignment]
    omega
  unfold Layout.maxSize
  rw [e]
  have hk : Layout.chunkBytes = 16384 := rfl
  by_cases hc : 8 + (l.map CompMeta.size).sum > Layout.chunkBytes
  · rw [if_pos hc]; simp; omega
  · rw [if_neg hc]; simp; omega

theorem TypesOf.words (hty : Words ty) {d : Comps V} {l : List CompMeta} (t : TypesOf ty d l) : ∀ m ∈ l, m.align ∣ 4 ∧ 4 ∣ m.size := by
  intro m hm
  rw [t.typed m hm]
  exact hty _

/-- Component sizes in the order of ids. -/
theorem TypesOf.sizes {d : Comps V} {l : List CompMeta} (t : TypesOf ty d l) :
    l.map CompMeta.size = (l.map CompMeta.id).map fun c => (ty.info c).size := by
  rw [List.map_map]
  exact List.map_congr_left fun m hm => by
    show m.size = (ty.info m.id).size
    rw [← t.typed m hm]

theorem sum_perm {l l' : List Nat} (h : l.Perm l') : l.sum = l'.sum := by
  induction h with
  | nil => rfl
  | cons x _ ih => simp [ih]
  | swap x y l => simp; omega
  | trans _ _ h1 h2 => exact h1.trans h2

/-- Two lists of the types of the same components have the same total size. -/
theorem TypesOf.sum_eq {d : Comps V} {l l' : List CompMeta} (t : TypesOf ty d l) (t' : TypesOf ty d l') :
    (l.map CompMeta.size).sum = (l'.map CompMeta.size).sum := by
  rw [t.sizes, t'.sizes]
  exact sum_perm (((List.perm_ext_iff_of_nodup t.nodup t'.nodup).2 fun x => by rw [t.mem, t'.mem]).map _)

theorem sum_le_of_subset : ∀ {l l' : List Nat} (f : Nat → Nat), l.Nodup → (∀ x ∈ l, x ∈ l') → (l.map f).sum ≤ (l'.map f).sum
  | [], _, _, _, _ => by simp
  | x :: l, l', f, hn, hs => by
    obtain ⟨h1, h2⟩ := List.nodup_cons.1 hn
    have hx := hs x List.mem_cons_self
    have hp := List.perm_cons_erase hx
    have ih := sum_le_of_subset (l := l) (l' := l'.erase x) f h2 fun y hy =>
      (List.mem_erase_of_ne (fun e => h1 (by rw [← e]; exact hy))).2 (hs y (List.mem_cons_of_mem _ hy))
    rw [sum_perm (hp.map f)]
    simp only [List.map_cons, List.sum_cons]
    omega

theorem TypesOf.sum_le {d d' : Comps V} {l l' : List CompMeta} (t : TypesOf ty d l) (t' : TypesOf ty d' l')
    (h : ∀ c, d c ≠ none → d' c ≠ none) : (l.map CompMeta.size).sum ≤ (l'.map CompMeta.size).sum := by
  rw [t.sizes, t'.sizes]
  exact sum_le_of_subset _ t.nodup fun x hx => (t'.mem x).2 (h x ((t.mem x).1 hx))

theorem create_typesOf {args : List (Nat × V)} (hnd : (args.map Prod.fst).Nodup) :
    TypesOf ty (Spec.World.listed args) (MetaSet.create (args.map fun x => ty.info x.1)).metas := by
  refine ⟨(MetaSet.inv_create _).nodup, ?_, fun c => ?_⟩
  · intro mt hm
    rcases foldl_insert_mem _ _ _ hm with h | h
    · simp [MetaSet.empty] at h
    · obtain ⟨x, _, rfl⟩ := List.mem_map.1 h
      rw [ty.id_eq]
  · rw [create_ids]
    have hm : c ∈ (args.map fun x => ty.info x.1).map CompMeta.id ↔ c ∈ args.map Prod.fst := by simp [ty.id_eq]
    have := listed_isSome hnd c
    rw [hm]
    cases hx : Spec.World.listed args c <;> simp [hx] at this ⊢ <;> exact this

/-- The total size of components that are exactly those listed in `ids`. -/
theorem TypesOf.sum_ids {d : Comps V} {l : List CompMeta} (t : TypesOf ty d l) {ids : List Nat} (hn : ids.Nodup)
    (h : ∀ c, c ∈ ids ↔ d c ≠ none) : (l.map CompMeta.size).sum = (ids.map fun c => (ty.info c).size).sum := by
  rw [t.sizes]
  exact sum_perm (((List.perm_ext_iff_of_nodup t.nodup hn).2 fun x => by rw [t.mem, h]).map _)

/-! Types whose alignment costs padding at most once -/

/-- Every component type has alignment 1, 2, 4 or 8 and a size that is a multiple of 8. -/
def Doubles (ty : Types) : Prop := ∀ c, (ty.info c).align ∣ 8 ∧ 8 ∣ (ty.info c).size

/-- Four bytes of padding if one of the alignments is 8. -/
def padOf (aligns : List Nat) : Nat := if 8 ∈ aligns then 4 else 0

theorem mod2n_doubles {x a : Nat} (hx : x % 8 = 0 ∨ x % 8 = 4) (ha : a ∣ 8) : mod2n x a = if a = 8 then x % 8 else 0 := by
  have hle : a ≤ 8 := Nat.le_of_dvd (by decide) ha
  have : a = 1 ∨ a = 2 ∨ a = 4 ∨ a = 8 := by
    have : a = 0 ∨ a = 1 ∨ a = 2 ∨ a = 3 ∨ a = 4 ∨ a = 5 ∨ a = 6 ∨ a = 7 ∨ a = 8 := by omega
    rcases this with rfl | rfl | rfl | rfl | rfl | rfl | rfl | rfl | rfl <;> revert ha <;> decide
  rcases this with rfl | rfl | rfl | rfl
  · exact (Layout.mod2n_pow x 0).trans (Nat.mod_one x)
  · rw [show (2 : Nat) = 2 ^ 1 from rfl, Layout.mod2n_pow, if_neg (by decide)]; omega
  · rw [show (4 : Nat) = 2 ^ 2 from rfl, Layout.mod2n_pow, if_neg (by decide)]; omega
  · rw [show (8 : Nat) = 2 ^ 3 from rfl, Layout.mod2n_pow, if_pos rfl]

theorem fold_eights : ∀ (l : List CompMeta) (x : Nat), x % 8 = 0 → (∀ m ∈ l, m.align ∣ 8 ∧ 8 ∣ m.size) →
    l.foldl Layout.addElement x = x + (l.map CompMeta.size).sum
  | [], x, _, _ => by simp
  | m :: l, x, hx, hl => by
    obtain ⟨h1, h2⟩ := hl m List.mem_cons_self
    have e : Layout.addElement x m = x + m.size := by
      unfold Layout.addElement
      rw [mod2n_doubles (.inl hx) h1, hx]
      split <;> rfl
    rw [List.foldl_cons, e, fold_eights l _ (by omega) fun m hm => hl m (List.mem_cons_of_mem _ hm)]
    simp [Nat.add_assoc]

theorem fold_doubles : ∀ (l : List CompMeta) (x : Nat), x % 8 = 4 → (∀ m ∈ l, m.align ∣ 8 ∧ 8 ∣ m.size) →
    l.foldl Layout.addElement x = x + (l.map CompMeta.size).sum + padOf (l.map CompMeta.align)
  | [], x, _, _ => by simp [padOf]
  | m :: l, x, hx, hl => by
    obtain ⟨h1, h2⟩ := hl m List.mem_cons_self
    have hl' := fun m hm => hl m (List.mem_cons_of_mem _ hm)
    by_cases h8 : m.align = 8
    · have e : Layout.addElement x m = x + 4 + m.size := by
        unfold Layout.addElement
        rw [mod2n_doubles (.inr hx) h1, if_pos h8, hx]
      have hp : padOf ((m :: l).map CompMeta.align) = 4 := by
        unfold padOf
        rw [if_pos (by rw [List.map_cons, h8]; exact List.mem_cons_self)]
      rw [List.foldl_cons, e, fold_eights l _ (by omega) hl', hp]
      simp only [List.map_cons, List.sum_cons]
      omega
    · have e : Layout.addElement x m = x + m.size := by
        unfold Layout.addElement
        rw [mod2n_doubles (.inr hx) h1, if_neg h8]
        rfl
      have hp : padOf ((m :: l).map CompMeta.align) = padOf (l.map CompMeta.align) := by
        unfold padOf
        simp only [List.map_cons, List.mem_cons, Ne.symm h8, false_or]
      rw [List.foldl_cons, e, fold_doubles l _ (by omega) hl', hp]
      simp only [List.map_cons, List.sum_cons]
      omega

theorem maxSize_doubles {l : List CompMeta} (hl : ∀ m ∈ l, m.align ∣ 8 ∧ 8 ∣ m.size) :
    Layout.maxSize l ≠ none ↔ 8 + (l.map CompMeta.size).sum + padOf (l.map CompMeta.align) ≤ 16384 := by
  have e : Layout.alignedSize l = 8 + (l.map CompMeta.size).sum + padOf (l.map CompMeta.align) := by
    unfold Layout.alignedSize
    rw [show Layout.addElement Layout.allocAlignment (Layout.entityMeta 0) = 12 from rfl, fold_doubles l 12 (by decide) hl]
    simp only [Layout.allocAlignment]
    omega
  unfold Layout.maxSize
  rw [e]
  have hk : Layout.chunkBytes = 16384 := rfl
  by_cases hc : 8 + (l.map CompMeta.size).sum + padOf (l.map CompMeta.align) > Layout.chunkBytes
  · rw [if_pos hc]; simp; omega
  · rw [if_neg hc]; simp; omega

theorem TypesOf.doubles (hty : Doubles ty) {d : Comps V} {l : List CompMeta} (t : TypesOf ty d l) : ∀ m ∈ l, m.align ∣ 8 ∧ 8 ∣ m.size := by
  intro m hm
  rw [t.typed m hm]
  exact hty _

theorem TypesOf.aligns {d : Comps V} {l : List CompMeta} (t : TypesOf ty d l) :
    l.map CompMeta.align = (l.map CompMeta.id).map fun c => (ty.info c).align := by
  rw [List.map_map]
  exact List.map_congr_left fun m hm => by
    show m.align = (ty.info m.id).align
    rw [← t.typed m hm]

theorem TypesOf.pad_le {d d' : Comps V} {l l' : List CompMeta} (t : TypesOf ty d l) (t' : TypesOf ty d' l')
    (h : ∀ c, d c ≠ none → d' c ≠ none) : padOf (l.map CompMeta.align) ≤ padOf (l'.map CompMeta.align) := by
  rw [t.aligns, t'.aligns]
  unfold padOf
  split
  · rename_i h8
    obtain ⟨c, hc, e⟩ := List.mem_map.1 h8
    rw [if_pos (List.mem_map.2 ⟨c, (t'.mem c).2 (h c ((t.mem c).1 hc)), e⟩)]
    exact Nat.le_refl _
  · exact Nat.zero_le _

theorem TypesOf.pad_ids {d : Comps V} {l : List CompMeta} (t : TypesOf ty d l) {ids : List Nat}
    (h : ∀ c, c ∈ ids ↔ d c ≠ none) : padOf (l.map CompMeta.align) = padOf (ids.map fun c => (ty.info c).align) := by
  rw [t.aligns]
  unfold padOf
  have : 8 ∈ (l.map CompMeta.id).map (fun c => (ty.info c).align) ↔ 8 ∈ ids.map (fun c => (ty.info c).align) := by
    simp only [List.mem_map (f := fun c => (ty.info c).align), t.mem, h]
  simp only [this]

end CoEcs
