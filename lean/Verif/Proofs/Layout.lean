import Verif.Model.Layout
import Verif.Proofs.SparseTable
import Verif.Proofs.HashTable

namespace CoEcs.Layout
open Spec

/-- The blocks in order, as a list. -/
def offsets (max : Nat) : Nat → List CompMeta → List Block
  | _, [] => []
  | o, m :: ms => ⟨o, m⟩ :: offsets max (o + (mod2n o m.align + max * m.size)) ms

theorem offsets_info (max : Nat) (ms : List CompMeta) : ∀ o, (offsets max o ms).map Block.info = ms := by
  induction ms with
  | nil => intro o; rfl
  | cons m ms ih => intro o; simp [offsets, ih]

theorem offsets_ge (max : Nat) (ms : List CompMeta) : ∀ o, ∀ b ∈ offsets max o ms, o ≤ b.offset := by
  induction ms with
  | nil => intro o b hb; cases hb
  | cons m ms ih =>
    intro o b hb
    rcases List.mem_cons.1 hb with rfl | hb
    · exact Nat.le_refl _
    · have := ih _ b hb; omega

theorem offsets_pairwise (max : Nat) (ms : List CompMeta) : ∀ o,
    (offsets max o ms).Pairwise (fun a b => a.offset + max * a.info.size ≤ b.offset) := by
  induction ms with
  | nil => intro o; exact List.Pairwise.nil
  | cons m ms ih =>
    intro o
    refine List.Pairwise.cons (fun b hb => ?_) (ih _)
    have := offsets_ge max ms _ b hb
    simp only; omega

theorem addBlocks_spec (max : Nat) (ms : List CompMeta) : ∀ (t : SparseTable Block) (fm : FinMap Block) (o : Nat),
    SparseTable.Rel 32 t fm → (ms.map CompMeta.id).Nodup → (∀ m ∈ ms, fm.get m.id = none ∧ m.id + 1 < U64) →
    fm.count + ms.length < 2 ^ 32 →
    ∃ t' o' fm', addBlocks max t o ms = .ok t' o' ∧ SparseTable.Rel 32 t' fm' ∧
      t'.dense = t.dense ++ (offsets max o ms).map fun b => (b.info.id, b) := by
  induction ms with
  | nil => intro t fm o r _ _ _; exact ⟨t, o, fm, rfl, r, by simp [offsets]⟩
  | cons m ms ih =>
    intro t fm o r hnd hno hc
    rw [List.map_cons, List.nodup_cons] at hnd
    simp only [List.length_cons] at hc
    obtain ⟨hg, hid⟩ := hno m (List.mem_cons_self ..)
    obtain ⟨t1, h1, h2, h3⟩ := r.emplace_none (v := ⟨o, m⟩) hid hg (by omega)
    have hcount : (fm.put m.id ⟨o, m⟩).count = fm.count + 1 := by simp [FinMap.put, hg]
    obtain ⟨t2, o2, fm2, h4, h5, h6⟩ := ih t1 _ (o + (mod2n o m.align + max * m.size)) h3 hnd.2 (fun m' hm' => by
      obtain ⟨a, b⟩ := hno m' (List.mem_cons_of_mem _ hm')
      refine ⟨?_, b⟩
      simp only [FinMap.put]
      rw [if_neg, a]
      intro hc
      exact hnd.1 (hc ▸ List.mem_map_of_mem hm')) (by omega)
    refine ⟨t2, o2, fm2, ?_, h5, ?_⟩
    · simp only [addBlocks, addBlock, h1, h4]
    · rw [h6, h2]; simp [offsets]

theorem mod2n_pow (v k : Nat) : mod2n v (2 ^ k) = v % 2 ^ k := by
  have hp : 0 < 2 ^ k := Nat.pow_pos (by omega)
  rw [mod2n, if_neg (by omega), Nat.and_two_pow_sub_one_eq_mod]

theorem packedSize_eq (comps : List CompMeta) : packedSize comps = 8 + (comps.map CompMeta.size).sum := by
  unfold packedSize
  generalize (8 : Nat) = a
  induction comps generalizing a with
  | nil => simp
  | cons m ms ih => rw [List.foldl_cons, ih]; simp; omega

theorem foldl_addElement_ge (comps : List CompMeta) : ∀ a,
    a + (comps.map CompMeta.size).sum ≤ comps.foldl addElement a := by
  induction comps with
  | nil => intro a; simp
  | cons m ms ih =>
    intro a
    rw [List.foldl_cons]
    have h1 := ih (addElement a m)
    have h2 : addElement a m = a + mod2n a m.align + m.size := rfl
    simp only [List.map_cons, List.sum_cons]
    omega

theorem packed_le_aligned (comps : List CompMeta) : packedSize comps ≤ alignedSize comps := by
  have h1 := foldl_addElement_ge comps (addElement allocAlignment (entityMeta 0))
  have h2 : addElement allocAlignment (entityMeta 0) = 12 := by decide
  rw [packedSize_eq]
  unfold alignedSize
  rw [h2] at h1 ⊢
  simp only [allocAlignment]
  omega

theorem maxSize_mul {comps : List CompMeta} {max : Nat} (h : maxSize comps = some max) :
    1 ≤ max ∧ max * packedSize comps ≤ chunkBytes := by
  unfold maxSize at h
  split at h
  · cases h
  · rename_i hle
    simp only [Option.some.injEq] at h
    have h1 := packed_le_aligned comps
    have hp : 0 < packedSize comps := by rw [packedSize_eq]; omega
    have h2 : (chunkBytes - alignedSize comps) / packedSize comps ≤ (chunkBytes - packedSize comps) / packedSize comps :=
      Nat.div_le_div_right (by omega)
    have h3 : (chunkBytes - packedSize comps) / packedSize comps * packedSize comps ≤ chunkBytes - packedSize comps :=
      Nat.div_mul_le_self _ _
    refine ⟨by rw [← h]; exact Nat.le_add_left 1 _, ?_⟩
    subst h
    rw [Nat.add_mul, Nat.one_mul]
    have h4 := Nat.mul_le_mul_right (packedSize comps) h2
    omega

/-- When every padding is zero: offsets are `max` times the sizes before. -/
theorem offsets_nopad (max : Nat) (ms : List CompMeta) : ∀ (o : Nat),
    (∀ (l1 l2 : List CompMeta) (m : CompMeta), ms = l1 ++ m :: l2 →
      mod2n (o + max * (l1.map CompMeta.size).sum) m.align = 0) →
    ∀ b ∈ offsets max o ms, ∃ l1 l2, ms = l1 ++ b.info :: l2 ∧ b.offset = o + max * (l1.map CompMeta.size).sum := by
  induction ms with
  | nil => intro o _ b hb; cases hb
  | cons m ms ih =>
    intro o h b hb
    have h0 := h [] ms m rfl
    simp only [List.map_nil, List.sum_nil, Nat.mul_zero, Nat.add_zero] at h0
    rcases List.mem_cons.1 hb with rfl | hb
    · exact ⟨[], ms, rfl, by simp⟩
    · rw [h0, Nat.zero_add] at hb
      obtain ⟨l1, l2, h1, h2⟩ := ih (o + max * m.size) (fun l1 l2 m' he => by
        have := h (m :: l1) l2 m' (by rw [he]; rfl)
        rw [List.map_cons, List.sum_cons, Nat.mul_add, ← Nat.add_assoc] at this
        exact this) b hb
      refine ⟨m :: l1, l2, by rw [h1]; rfl, ?_⟩
      rw [h2, List.map_cons, List.sum_cons, Nat.mul_add, Nat.add_assoc]

/-- All blocks start at a multiple of their alignment exactly if the sizes alone put them there: then there is
no padding. -/
theorem offsets_aligned (max : Nat) (ms : List CompMeta) : ∀ (o : Nat), (∀ m ∈ ms, ∃ k, m.align = 2 ^ k) →
    ((∀ b ∈ offsets max o ms, b.info.align ∣ b.offset) ↔
      ∀ l1 m l2, ms = l1 ++ m :: l2 → m.align ∣ o + max * (l1.map CompMeta.size).sum) := by
  induction ms with
  | nil =>
    intro o _
    exact ⟨fun _ l1 m l2 h => by simp at h, fun _ b hb => by cases hb⟩
  | cons m ms ih =>
    intro o hp
    obtain ⟨k, hk⟩ := hp m List.mem_cons_self
    have hp' : ∀ x ∈ ms, ∃ k, x.align = 2 ^ k := fun x hx => hp x (List.mem_cons_of_mem _ hx)
    have pad : m.align ∣ o → o + (mod2n o m.align + max * m.size) = o + max * m.size := by
      intro h
      rw [hk] at h
      rw [hk, mod2n_pow, Nat.mod_eq_zero_of_dvd h, Nat.zero_add]
    constructor
    · intro h l1 x l2 e
      have h0 : m.align ∣ o := h ⟨o, m⟩ List.mem_cons_self
      cases l1 with
      | nil =>
        simp only [List.nil_append, List.cons.injEq] at e
        rw [← e.1]
        simpa using h0
      | cons y l1 =>
        simp only [List.cons_append, List.cons.injEq] at e
        obtain ⟨rfl, e⟩ := e
        have := (ih _ hp').1 (fun b hb => h b (List.mem_cons_of_mem _ hb)) l1 x l2 e
        rw [pad h0] at this
        rw [List.map_cons, List.sum_cons, Nat.mul_add, ← Nat.add_assoc]
        exact this
    · intro h b hb
      have h0 : m.align ∣ o := by simpa using h [] m ms rfl
      rcases List.mem_cons.1 hb with rfl | hb
      · exact h0
      · refine (ih _ hp').2 (fun l1 x l2 e => ?_) b hb
        have := h (m :: l1) x l2 (by rw [e]; rfl)
        rw [List.map_cons, List.sum_cons, Nat.mul_add, ← Nat.add_assoc] at this
        rw [pad h0]
        exact this

/-- Then each block starts behind those before it without a gap. -/
theorem offsets_tight (max : Nat) (ms : List CompMeta) (o : Nat) (hp : ∀ m ∈ ms, ∃ k, m.align = 2 ^ k)
    (h : ∀ b ∈ offsets max o ms, b.info.align ∣ b.offset) :
    ∀ b ∈ offsets max o ms, ∃ l1 l2, ms = l1 ++ b.info :: l2 ∧ b.offset = o + max * (l1.map CompMeta.size).sum :=
  offsets_nopad max ms o fun l1 l2 m e => by
    have hd := (offsets_aligned max ms o hp).1 h l1 m l2 e
    obtain ⟨k, hk⟩ := hp m (by rw [e]; simp)
    rw [hk] at hd ⊢
    rw [mod2n_pow]
    exact Nat.mod_eq_zero_of_dvd hd

/-- The bytes between the blocks: in front of each block but the first, what the block before it adds. -/
def paddingOf (max : Nat) : Nat → List CompMeta → Nat
  | _, [] => 0
  | _, [_] => 0
  | o, m :: m' :: ms => o % m.align + paddingOf max (o + o % m.align + max * m.size) (m' :: ms)

theorem offsets_end (max N : Nat) (ms : List CompMeta) : ∀ (o : Nat), ms ≠ [] → (∀ m ∈ ms, ∃ k, m.align = 2 ^ k) →
    ((∀ b ∈ offsets max o ms, b.offset + max * b.info.size ≤ N) ↔
      o + paddingOf max o ms + max * (ms.map CompMeta.size).sum ≤ N) := by
  induction ms with
  | nil => intro o h; exact absurd rfl h
  | cons m ms ih =>
    intro o _ hp
    obtain ⟨k, hk⟩ := hp m List.mem_cons_self
    have hmod : mod2n o m.align = o % m.align := by rw [hk, mod2n_pow]
    cases ms with
    | nil => simp [offsets, paddingOf]
    | cons m' ms =>
      have ih := ih (o + (mod2n o m.align + max * m.size)) (by simp) fun x hx => hp x (List.mem_cons_of_mem _ hx)
      have e : offsets max o (m :: m' :: ms) = ⟨o, m⟩ :: offsets max (o + (mod2n o m.align + max * m.size)) (m' :: ms) := rfl
      rw [e, List.forall_mem_cons, ih, hmod]
      show o + max * m.size ≤ N ∧ _ ↔ o + (o % m.align + paddingOf max (o + o % m.align + max * m.size) (m' :: ms)) + _ ≤ N
      rw [List.map_cons (l := m' :: ms), List.sum_cons, Nat.mul_add, ← Nat.add_assoc o (o % m.align) (max * m.size)]
      omega

end CoEcs.Layout
