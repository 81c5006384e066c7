import Verif.Proofs.Layout

/-!
# Storage layout (C13, C14, C15)
-/

namespace CoEcs.Props
open CoEcs Layout

/-- What C++ and the library guarantee about a list of component types: distinct ids below `2^32`
(none being that of `entity`, which `ptr_mut` rejects statically, chunk.hpp:221), positive
sizes that are multiples of the power-of-two alignments, and less than `2^32` components. -/
structure ValidComps (eid : Nat) (comps : List CompMeta) : Prop where
  nodup : (eid :: comps.map CompMeta.id).Nodup
  range : eid < 2 ^ 32 ∧ ∀ m ∈ comps, m.id < 2 ^ 32
  few : comps.length + 1 < 2 ^ 32
  size : ∀ m ∈ comps, 0 < m.size ∧ m.align ∣ m.size ∧ ∃ k, m.align = 2 ^ k

/-- The byte ranges of two slots do not meet. -/
def Disjoint (base : Nat) (a : Block) (i : Nat) (b : Block) (j : Nat) : Prop :=
  slotAddr base a i + a.info.size ≤ slotAddr base b j ∨ slotAddr base b j + b.info.size ≤ slotAddr base a i

/-- The blocks of an archetype whose construction succeeds: one for the entity, one per component. -/
theorem blocks_of {eid : Nat} {comps : List CompMeta} (v : ValidComps eid comps) (max : Nat) :
    ∃ t o, initBlocks eid max comps = .ok t o ∧
      t.dense = (offsets max 0 (entityMeta eid :: comps)).map fun b => (b.info.id, b) := by
  obtain ⟨t, o, fm, h1, _, h3⟩ := addBlocks_spec max (entityMeta eid :: comps) SparseTable.empty _ 0
    (SparseTable.Rel.empty 32) (by simpa [entityMeta] using v.nodup) (fun m hm => by
      refine ⟨rfl, ?_⟩
      rcases List.mem_cons.1 hm with rfl | hm
      · have := v.range.1
        simp only [entityMeta, U64]; omega
      · have := v.range.2 m hm
        unfold U64; omega) (by
      have := v.few
      simp [Spec.FinMap.empty]; omega)
  exact ⟨t, o, h1, by simpa [SparseTable.empty] using h3⟩

/-- **C13**: in every archetype there is one block for the entity handles and one for each component,
and two slots that differ in component or in entry index never share a byte.  (This holds for every capacity `max`, so for the computed one.) -/
theorem C13_slots_disjoint (eid : Nat) (comps : List CompMeta) (v : ValidComps eid comps) (max : Nat)
    (base : Nat) :
    ∃ t o, initBlocks eid max comps = .ok t o ∧
      (t.dense.map fun e => e.2.info) = entityMeta eid :: comps ∧
      ∀ a ∈ t.dense, ∀ b ∈ t.dense, ∀ i j, i < max → j < max → (a.1, i) ≠ (b.1, j) →
        Disjoint base a.2 i b.2 j := by
  obtain ⟨t, o, h1, h2⟩ := blocks_of v max
  refine ⟨t, o, h1, ?_, ?_⟩
  · rw [h2, List.map_map]
    exact offsets_info max _ 0
  · intro a ha b hb i j hi hj hne
    rw [h2, List.mem_map] at ha hb
    obtain ⟨a, ha, rfl⟩ := ha
    obtain ⟨b, hb, rfl⟩ := hb
    simp only at hne ⊢
    have hp := offsets_pairwise max (entityMeta eid :: comps) 0
    have step : ∀ (x y : Block) (p q : Nat), p < max → x.offset + max * x.info.size ≤ y.offset →
        Disjoint base x p y q := by
      intro x y p q hp h
      left
      unfold slotAddr
      have : (p + 1) * x.info.size ≤ max * x.info.size := Nat.mul_le_mul_right _ (by omega)
      rw [Nat.add_mul, Nat.one_mul] at this
      omega
    obtain ⟨x, hx, rfl⟩ := List.mem_iff_getElem.1 ha
    obtain ⟨y, hy, rfl⟩ := List.mem_iff_getElem.1 hb
    rw [List.pairwise_iff_getElem] at hp
    rcases Nat.lt_trichotomy x y with h | h | h
    · exact step _ _ _ _ hi (hp x y hx hy h)
    · subst h
      have hij : i ≠ j := fun h => hne (by rw [h])
      have hcase : ∀ p q, p < q → Disjoint base (offsets max 0 (entityMeta eid :: comps))[x] p
          (offsets max 0 (entityMeta eid :: comps))[x] q := by
        intro p q hpq
        left
        unfold slotAddr
        have : (p + 1) * (offsets max 0 (entityMeta eid :: comps))[x].info.size ≤
            q * (offsets max 0 (entityMeta eid :: comps))[x].info.size := Nat.mul_le_mul_right _ (by omega)
        rw [Nat.add_mul, Nat.one_mul] at this
        omega
      rcases Nat.lt_or_gt_of_ne hij with h | h
      · exact hcase i j h
      · exact (hcase j i h).symm
    · exact (step _ _ _ _ hj (hp y x hy hx h)).symm

/-- Sample component types: int, double, and a byte array. -/
def tInt : CompMeta := ⟨1, 4, 4, true⟩
def tDouble : CompMeta := ⟨2, 8, 8, true⟩
def tBytes : CompMeta := ⟨3, 109, 1, true⟩

theorem sampleComps : ValidComps 0 [tInt, tDouble, tBytes] := by
  refine ⟨by decide, by decide, by decide, ?_⟩
  intro m hm
  simp only [List.mem_cons, List.not_mem_nil, or_false] at hm
  rcases hm with rfl | rfl | rfl
  · exact ⟨by decide, ⟨1, rfl⟩, 2, rfl⟩
  · exact ⟨by decide, ⟨1, rfl⟩, 3, rfl⟩
  · exact ⟨by decide, ⟨109, rfl⟩, 0, rfl⟩

example : ∃ t o, initBlocks 0 127 [tInt, tDouble, tBytes] = .ok t o ∧
    (t.dense.map fun e => e.2.info.size) = [8, 4, 8, 109] ∧
    ∀ a ∈ t.dense, ∀ b ∈ t.dense, ∀ i j, i < 127 → j < 127 → (a.1, i) ≠ (b.1, j) → Disjoint 4096 a.2 i b.2 j := by
  obtain ⟨t, o, h1, h2, h3⟩ := C13_slots_disjoint 0 _ sampleComps 127 4096
  refine ⟨t, o, h1, ?_, h3⟩
  have := congrArg (List.map CompMeta.size) h2
  simpa [List.map_map, Function.comp_def, entityMeta, tInt, tDouble, tBytes] using this

/-- All slots of an archetype lie in its chunk buffer. -/
def InBuffer (eid : Nat) (comps : List CompMeta) (base : Nat) : Prop :=
  ∃ max t o, maxSize comps = some max ∧ initBlocks eid max comps = .ok t o ∧
    ∀ e ∈ t.dense, ∀ i, i < max → base ≤ slotAddr base e.2 i ∧ slotAddr base e.2 i + e.2.info.size ≤ base + chunkBytes

/-- All slots of an archetype are suitably aligned. -/
def Aligned (eid : Nat) (comps : List CompMeta) (base : Nat) : Prop :=
  ∃ max t o, maxSize comps = some max ∧ initBlocks eid max comps = .ok t o ∧
    ∀ e ∈ t.dense, ∀ i, i < max → e.2.info.align ∣ slotAddr base e.2 i

/-- **C14 is violated**: for int, double and a 109-byte component the last entry of the byte array ends
three bytes behind the buffer, wherever the buffer is. -/
theorem C14_violated (base : Nat) : ∃ eid comps, ValidComps eid comps ∧ maxSize comps ≠ none ∧
    ¬ InBuffer eid comps base := by
  refine ⟨0, [tInt, tDouble, tBytes], sampleComps, by decide, ?_⟩
  rintro ⟨max, t, o, h1, h2, h3⟩
  have hm : maxSize [tInt, tDouble, tBytes] = some 127 := by decide
  rw [hm] at h1; cases h1
  obtain ⟨t', o', h4, h5⟩ := blocks_of sampleComps 127
  rw [h2] at h4; cases h4
  have h6 := h3 (3, ⟨2544, tBytes⟩) (by rw [h5]; decide) 126 (by omega)
  simp only [slotAddr, tBytes, chunkBytes] at h6
  omega

/-- **C15 is violated**: with int and double, the doubles start at offset 9828, so none of them is
aligned to 8, wherever the (8-byte aligned) buffer is. -/
theorem C15_violated (base : Nat) (hb : 8 ∣ base) : ∃ eid comps, ValidComps eid comps ∧ maxSize comps ≠ none ∧
    ¬ Aligned eid comps base := by
  have v : ValidComps 0 [tInt, tDouble] := by
    refine ⟨by decide, by decide, by decide, ?_⟩
    intro m hm
    exact sampleComps.size m (by simp only [List.mem_cons, List.not_mem_nil, or_false] at hm ⊢; grind)
  refine ⟨0, [tInt, tDouble], v, by decide, ?_⟩
  rintro ⟨max, t, o, h1, h2, h3⟩
  have hm : maxSize [tInt, tDouble] = some 819 := by decide
  rw [hm] at h1; cases h1
  obtain ⟨t', o', h4, h5⟩ := blocks_of v 819
  rw [h2] at h4; cases h4
  have h6 := h3 (2, ⟨9828, tDouble⟩) (by rw [h5]; decide) 0 (by omega)
  simp only [slotAddr, tDouble] at h6
  omega

/-- The condition under which the layout is right: every alignment divides 8 and the size of every
component listed before. -/
def AlignmentsDescend (comps : List CompMeta) : Prop :=
  (∀ m ∈ comps, m.align ∣ 8) ∧ comps.Pairwise (fun a b => b.align ∣ a.size)

/-- Under the condition the blocks lie without gaps. -/
theorem blocks_nogap {eid : Nat} {comps : List CompMeta} (v : ValidComps eid comps) (hd : AlignmentsDescend comps)
    (max : Nat) : ∃ t o, initBlocks eid max comps = .ok t o ∧ ∀ e ∈ t.dense, ∃ l1 l2,
      entityMeta eid :: comps = l1 ++ e.2.info :: l2 ∧ e.2.offset = max * (l1.map CompMeta.size).sum ∧
      e.2.info.align ∣ (l1.map CompMeta.size).sum := by
  obtain ⟨t, o, h1, h2⟩ := blocks_of v max
  have hdiv : ∀ (l1 l2 : List CompMeta) (m : CompMeta), entityMeta eid :: comps = l1 ++ m :: l2 →
      m.align ∣ (l1.map CompMeta.size).sum := by
    intro l1 l2 m he
    cases l1 with
    | nil => simp
    | cons a l1 =>
      simp only [List.cons_append, List.cons.injEq] at he
      obtain ⟨rfl, he⟩ := he
      have hmem : m ∈ comps := by rw [he]; simp
      rw [List.map_cons, List.sum_cons]
      refine Nat.dvd_add (hd.1 m hmem) ?_
      have hp := hd.2
      rw [he, List.pairwise_append] at hp
      have hall : ∀ x ∈ l1, m.align ∣ x.size := fun x hx => hp.2.2 x hx m (List.mem_cons_self ..)
      clear he hp hmem
      induction l1 with
      | nil => simp
      | cons x l1 ih =>
        rw [List.map_cons, List.sum_cons]
        exact Nat.dvd_add (hall x (List.mem_cons_self ..)) (ih (fun y hy => hall y (List.mem_cons_of_mem _ hy)))
  have hpow : ∀ m ∈ entityMeta eid :: comps, ∃ k, m.align = 2 ^ k := by
    intro m hm
    rcases List.mem_cons.1 hm with rfl | hm
    · exact ⟨2, rfl⟩
    · exact (v.size m hm).2.2
  refine ⟨t, o, h1, ?_⟩
  intro e he
  rw [h2, List.mem_map] at he
  obtain ⟨b, hb, rfl⟩ := he
  obtain ⟨l1, l2, h3, h4⟩ := offsets_nopad max (entityMeta eid :: comps) 0 (fun l1 l2 m he => by
    obtain ⟨k, hk⟩ := hpow m (by rw [he]; simp)
    have := hdiv l1 l2 m he
    rw [hk] at this ⊢
    rw [mod2n_pow, Nat.zero_add]
    exact Nat.mod_eq_zero_of_dvd (Nat.dvd_trans this (Nat.dvd_mul_left _ _))) b hb
  exact ⟨l1, l2, h3, by simpa using h4, hdiv l1 l2 _ h3⟩

/-- **C14**, the part that holds: all slots lie inside the chunk buffer if every alignment divides 8 and
the sizes of the components before it.  Missing: other lists (`C14_violated`). -/
theorem C14_in_buffer_partial (eid : Nat) (comps : List CompMeta) (v : ValidComps eid comps)
    (hd : AlignmentsDescend comps) (hs : maxSize comps ≠ none) (base : Nat) : InBuffer eid comps base := by
  obtain ⟨max, hm⟩ := Option.ne_none_iff_exists'.1 hs
  obtain ⟨t, o, h1, h2⟩ := blocks_nogap v hd max
  refine ⟨max, t, o, hm, h1, ?_⟩
  intro e he i hi
  obtain ⟨l1, l2, h3, h4, _⟩ := h2 e he
  obtain ⟨_, h5⟩ := maxSize_mul hm
  have h6 : packedSize comps = (l1.map CompMeta.size).sum + e.2.info.size + (l2.map CompMeta.size).sum := by
    have := congrArg (fun l => (l.map CompMeta.size).sum) h3
    simp only [List.map_cons, List.sum_cons, List.map_append, List.sum_append, entityMeta] at this
    rw [packedSize_eq]; omega
  have h7 : (i + 1) * e.2.info.size ≤ max * e.2.info.size := Nat.mul_le_mul_right _ (by omega)
  rw [Nat.add_mul, Nat.one_mul] at h7
  rw [h6, Nat.mul_add, Nat.mul_add] at h5
  unfold slotAddr
  omega

/-- **C15**, the part that holds: under the same condition all slots are aligned, in a buffer aligned to
8 bytes.  Missing: other lists (`C15_violated`). -/
theorem C15_aligned_partial (eid : Nat) (comps : List CompMeta) (v : ValidComps eid comps)
    (hd : AlignmentsDescend comps) (hs : maxSize comps ≠ none) (base : Nat) (hb : 8 ∣ base) :
    Aligned eid comps base := by
  obtain ⟨max, hm⟩ := Option.ne_none_iff_exists'.1 hs
  obtain ⟨t, o, h1, h2⟩ := blocks_nogap v hd max
  refine ⟨max, t, o, hm, h1, ?_⟩
  intro e he i hi
  obtain ⟨l1, l2, h3, h4, h5⟩ := h2 e he
  have hmem : e.2.info ∈ entityMeta eid :: comps := by rw [h3]; simp
  have h8 : e.2.info.align ∣ 8 ∧ e.2.info.align ∣ e.2.info.size := by
    rcases List.mem_cons.1 hmem with h | h
    · rw [h]; exact ⟨⟨2, rfl⟩, ⟨2, rfl⟩⟩
    · exact ⟨hd.1 _ h, (v.size _ h).2.1⟩
  unfold slotAddr
  rw [h4]
  exact Nat.dvd_add (Nat.dvd_add (Nat.dvd_trans h8.1 hb) (Nat.dvd_trans h5 (Nat.dvd_mul_left _ _)))
    (Nat.dvd_trans h8.2 (Nat.dvd_mul_left _ _))

/-- The blocks of an aligned archetype, in a buffer that is aligned for each of its types. -/
theorem aligned_blocks {eid : Nat} {comps : List CompMeta} (v : ValidComps eid comps) {max : Nat} (hm : maxSize comps = some max)
    {base : Nat} (hb : 4 ∣ base ∧ ∀ m ∈ comps, m.align ∣ base) :
    Aligned eid comps base ↔ ∀ b ∈ offsets max 0 (entityMeta eid :: comps), b.info.align ∣ b.offset := by
  obtain ⟨t, o, h1, h2⟩ := blocks_of v max
  have hinfo : ∀ b ∈ offsets max 0 (entityMeta eid :: comps), b.info.align ∣ base ∧ b.info.align ∣ b.info.size := by
    intro b hmem
    have : b.info ∈ entityMeta eid :: comps := by
      rw [← offsets_info max (entityMeta eid :: comps) 0]
      exact List.mem_map_of_mem hmem
    rcases List.mem_cons.1 this with h | h
    · rw [h]; exact ⟨hb.1, ⟨2, rfl⟩⟩
    · exact ⟨hb.2 _ h, (v.size _ h).2.1⟩
  constructor
  · rintro ⟨max', t', o', h1', h2', h3'⟩ b hmem
    rw [hm] at h1'; cases h1'
    rw [h1] at h2'; cases h2'
    have := h3' (b.info.id, b) (by rw [h2]; exact List.mem_map_of_mem (f := fun b : Block => (b.info.id, b)) hmem) 0 (maxSize_mul hm).1
    unfold slotAddr at this
    simp only [Nat.zero_mul, Nat.add_zero] at this
    exact (Nat.dvd_add_right (hinfo b hmem).1).1 this
  · intro h
    refine ⟨max, t, o, hm, h1, fun e he i _ => ?_⟩
    rw [h2, List.mem_map] at he
    obtain ⟨b, hmem, rfl⟩ := he
    unfold slotAddr
    exact Nat.dvd_add (Nat.dvd_add (hinfo b hmem).1 (h b hmem)) (Nat.dvd_trans (hinfo b hmem).2 (Nat.dvd_mul_left _ _))

theorem valid_pow {eid : Nat} {comps : List CompMeta} (v : ValidComps eid comps) :
    ∀ m ∈ entityMeta eid :: comps, ∃ k, m.align = 2 ^ k := by
  intro m hm
  rcases List.mem_cons.1 hm with rfl | hm
  · exact ⟨2, rfl⟩
  · exact (v.size m hm).2.2

/-- **C15** (partial; this is the exact condition): in a buffer that is aligned for each of the types, all slots are
aligned if and only if the alignment of each component divides the number of entries of a chunk times 8 and the sizes of
the components listed before it. -/
theorem C15_aligned_iff_partial (eid : Nat) (comps : List CompMeta) (v : ValidComps eid comps) {max : Nat}
    (hm : maxSize comps = some max) (base : Nat) (hb : 4 ∣ base ∧ ∀ m ∈ comps, m.align ∣ base) :
    Aligned eid comps base ↔
      ∀ before m after, comps = before ++ m :: after → m.align ∣ max * (8 + (before.map CompMeta.size).sum) := by
  rw [aligned_blocks v hm hb, offsets_aligned max _ 0 (valid_pow v)]
  constructor
  · intro h l1 m l2 e
    have := h (entityMeta eid :: l1) m l2 (by rw [e]; rfl)
    rw [Nat.zero_add, List.map_cons, List.sum_cons] at this
    exact this
  · intro h l1 m l2 e
    cases l1 with
    | nil =>
      simp
    | cons x l1 =>
      simp only [List.cons_append, List.cons.injEq] at e
      obtain ⟨rfl, e⟩ := e
      rw [Nat.zero_add, List.map_cons, List.sum_cons]
      exact h l1 m l2 e

/-- **C14** (partial; missing: lists with a slot that is not aligned, where it may be false): whenever all slots are
aligned, they lie inside the chunk buffer. -/
theorem C14_of_aligned_partial (eid : Nat) (comps : List CompMeta) (v : ValidComps eid comps)
    (base : Nat) (hb : 4 ∣ base ∧ ∀ m ∈ comps, m.align ∣ base) (ha : Aligned eid comps base) : InBuffer eid comps base := by
  obtain ⟨max, _, _, hm, _⟩ := id ha
  obtain ⟨t, o, h1, h2⟩ := blocks_of v max
  have hal := (aligned_blocks v hm hb).1 ha
  refine ⟨max, t, o, hm, h1, fun e he i hi => ?_⟩
  rw [h2, List.mem_map] at he
  obtain ⟨b, hmem, rfl⟩ := he
  obtain ⟨l1, l2, h3, h4⟩ := offsets_tight max _ 0 (valid_pow v) hal b hmem
  obtain ⟨_, h5⟩ := maxSize_mul hm
  have h6 : packedSize comps = (l1.map CompMeta.size).sum + b.info.size + (l2.map CompMeta.size).sum := by
    have := congrArg (fun l => (l.map CompMeta.size).sum) h3
    simp only [List.map_cons, List.sum_cons, List.map_append, List.sum_append, entityMeta] at this
    rw [packedSize_eq]; omega
  have h7 : (i + 1) * b.info.size ≤ max * b.info.size := Nat.mul_le_mul_right _ (by omega)
  rw [Nat.add_mul, Nat.one_mul] at h7
  rw [h6, Nat.mul_add, Nat.mul_add] at h5
  unfold slotAddr
  simp only
  omega

/-- **C14** (partial; this is the exact condition): all slots lie inside the chunk buffer if and only if the entries of
a chunk and the padding between the blocks take up at most its 16384 bytes. -/
theorem C14_in_buffer_iff_partial (eid : Nat) (comps : List CompMeta) (v : ValidComps eid comps) {max : Nat}
    (hm : maxSize comps = some max) (base : Nat) :
    InBuffer eid comps base ↔
      max * (8 + (comps.map CompMeta.size).sum) + paddingOf max 0 (entityMeta eid :: comps) ≤ 16384 := by
  obtain ⟨t, o, h1, h2⟩ := blocks_of v max
  have hend := offsets_end max 16384 (entityMeta eid :: comps) 0 (by simp) (valid_pow v)
  rw [Nat.zero_add, List.map_cons, List.sum_cons, Nat.add_comm] at hend
  refine Iff.trans ?_ hend
  have hpos := (maxSize_mul hm).1
  constructor
  · rintro ⟨max', t', o', h1', h2', h3'⟩ b hmem
    rw [hm] at h1'; cases h1'
    rw [h1] at h2'; cases h2'
    have := (h3' (b.info.id, b) (by rw [h2]; exact List.mem_map_of_mem (f := fun b : Block => (b.info.id, b)) hmem) (max - 1) (by omega)).2
    unfold slotAddr at this
    simp only [chunkBytes] at this
    have e : max * b.info.size = (max - 1) * b.info.size + b.info.size := by
      rw [← Nat.succ_mul]
      congr 1
      omega
    omega
  · intro h
    refine ⟨max, t, o, hm, h1, fun e he i hi => ?_⟩
    rw [h2, List.mem_map] at he
    obtain ⟨b, hmem, rfl⟩ := he
    have := h b hmem
    have h7 : (i + 1) * b.info.size ≤ max * b.info.size := Nat.mul_le_mul_right _ (by omega)
    rw [Nat.add_mul, Nat.one_mul] at h7
    unfold slotAddr
    simp only [chunkBytes]
    omega

/-- The int, the double and the 109 bytes do not fit: 127 entries of 129 bytes and the padding behind the doubles are
16387 bytes. -/
example : maxSize [tInt, tDouble, tBytes] = some 127 ∧ ¬ InBuffer 0 [tInt, tDouble, tBytes] 4096 := by
  refine ⟨by decide, ?_⟩
  rw [C14_in_buffer_iff_partial 0 _ sampleComps (max := 127) (by decide) 4096]
  decide

/-- With an int before a double and a type of size 24 the condition holds although the alignments do not descend: a chunk has 372
entries, and 8 divides 372 times 12. -/
example : maxSize [tInt, tDouble, ⟨3, 24, 8, true⟩] = some 372 ∧ ¬ AlignmentsDescend [tInt, tDouble, ⟨3, 24, 8, true⟩] ∧
    Aligned 0 [tInt, tDouble, ⟨3, 24, 8, true⟩] 4096 ∧ InBuffer 0 [tInt, tDouble, ⟨3, 24, 8, true⟩] 4096 := by
  have v : ValidComps 0 [tInt, tDouble, ⟨3, 24, 8, true⟩] := by
    refine ⟨by decide, by decide, by decide, ?_⟩
    intro m hm
    simp only [List.mem_cons, List.not_mem_nil, or_false] at hm
    rcases hm with rfl | rfl | rfl
    · exact ⟨by decide, ⟨1, rfl⟩, 2, rfl⟩
    · exact ⟨by decide, ⟨1, rfl⟩, 3, rfl⟩
    · exact ⟨by decide, ⟨3, rfl⟩, 3, rfl⟩
  have hm : maxSize [tInt, tDouble, ⟨3, 24, 8, true⟩] = some 372 := by decide
  have hb : 4 ∣ 4096 ∧ ∀ m ∈ [tInt, tDouble, ⟨3, 24, 8, true⟩], m.align ∣ 4096 := by decide
  have ha : Aligned 0 [tInt, tDouble, ⟨3, 24, 8, true⟩] 4096 := by
    rw [C15_aligned_iff_partial 0 _ v hm 4096 hb]
    intro l1 m l2 e
    rcases l1 with _ | ⟨a, _ | ⟨b, _ | ⟨c, l1⟩⟩⟩
    · simp only [List.nil_append, List.cons.injEq] at e
      rw [← e.1]; decide
    · simp only [List.cons_append, List.nil_append, List.cons.injEq] at e
      rw [← e.1, ← e.2.1]; decide
    · simp only [List.cons_append, List.nil_append, List.cons.injEq] at e
      rw [← e.1, ← e.2.1, ← e.2.2.1]; decide
    · simp at e
  exact ⟨hm, fun h => by revert h; unfold AlignmentsDescend; decide, ha, C14_of_aligned_partial 0 _ v 4096 hb ha⟩

/-- Listing the components by descending alignment satisfies the condition. -/
theorem alignmentsDescend_of_sorted (eid : Nat) (comps : List CompMeta) (v : ValidComps eid comps)
    (h8 : ∀ m ∈ comps, m.align ≤ 8) (hs : comps.Pairwise (fun a b => b.align ≤ a.align)) :
    AlignmentsDescend comps := by
  refine ⟨fun m hm => ?_, ?_⟩
  · obtain ⟨k, hk⟩ := (v.size m hm).2.2
    have := h8 m hm
    rw [hk] at this ⊢
    exact Nat.pow_dvd_pow (m := k) (n := 3) 2 ((Nat.pow_le_pow_iff_right (a := 2) (by omega)).1 this)
  · refine List.Pairwise.imp_of_mem ?_ hs
    intro a b ha hb hle
    obtain ⟨k, hk⟩ := (v.size a ha).2.2
    obtain ⟨j, hj⟩ := (v.size b hb).2.2
    refine Nat.dvd_trans ?_ (v.size a ha).2.1
    rw [hk, hj] at hle ⊢
    exact Nat.pow_dvd_pow 2 ((Nat.pow_le_pow_iff_right (a := 2) (by omega)).1 hle)

/-- Listed by descending alignment, the sample types are stored in bounds and aligned. -/
example : InBuffer 0 [tDouble, tInt, tBytes] 4096 ∧ Aligned 0 [tDouble, tInt, tBytes] 4096 := by
  have v : ValidComps 0 [tDouble, tInt, tBytes] := by
    refine ⟨by decide, by decide, by decide, ?_⟩
    intro m hm
    exact sampleComps.size m (by simp only [List.mem_cons, List.not_mem_nil, or_false] at hm ⊢; grind)
  have hd := alignmentsDescend_of_sorted 0 _ v (by decide) (by decide)
  exact ⟨C14_in_buffer_partial 0 _ v hd (by decide) 4096, C15_aligned_partial 0 _ v hd (by decide) 4096 ⟨512, rfl⟩⟩

end CoEcs.Props
