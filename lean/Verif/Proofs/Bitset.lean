import Verif.Model.Bitset

set_option linter.unusedSimpArgs false

namespace CoEcs
namespace Bitset

theorem mask_getLsbD (i j : Nat) (hi : i < 64) : (mask i).getLsbD j = decide (j = i) := by
  unfold mask
  rw [BitVec.getLsbD_shiftLeft]
  by_cases h : j = i
  · subst h; simp [hi]
  · rcases Nat.lt_or_ge j i with h1 | h1
    · simp [h, h1]
    · have : j - i ≠ 0 := by omega
      simp [h, this]

theorem and_mask_ne_zero (b : BitVec 64) (i : Nat) (hi : i < 64) :
    ((b &&& mask i) != 0) = b.getLsbD i := by
  cases hb : b.getLsbD i with
  | true =>
    rw [bne_iff_ne]
    intro h
    have : (b &&& mask i).getLsbD i = true := by simp [BitVec.getLsbD_and, hb, mask_getLsbD i i hi]
    rw [h] at this; simp at this
  | false =>
    rw [bne_eq_false_iff_eq]
    apply BitVec.eq_of_getLsbD_eq
    intro j hj
    rw [BitVec.getLsbD_and, mask_getLsbD i j hi]
    by_cases hji : j = i
    · subst hji; simp [hb]
    · simp [hji]

theorem test_eq (b : Bitset) (pos : Nat) :
    b.test pos = match b.blocks[pos / 64]? with | none => false | some blk => blk.getLsbD (pos % 64) := by
  unfold test
  split
  · rename_i h; simp [h]
  · rename_i blk h
    rw [and_mask_ne_zero _ _ (by omega)]
    simp [h]

/-- Canonical form: at least one block, and the last block is nonzero unless it is the only one. -/
def Canon (b : Bitset) : Prop :=
  b.blocks ≠ [] ∧ (b.blocks.length = 1 ∨ b.blocks.getLast? ≠ some 0)

theorem canon_mk : Canon (mk' 1) := by simp [Canon, mk']

theorem resize_length (l : List (BitVec 64)) (n : Nat) : (resize l n).length = n := by
  simp [resize]; omega

theorem resize_get (l : List (BitVec 64)) (n i : Nat) :
    (resize l n)[i]? = if i < n then some (l[i]?.getD 0) else none := by
  unfold resize
  rw [List.getElem?_append]
  simp only [List.length_take]
  split
  · rename_i h
    rw [List.getElem?_take, if_pos (by omega), if_pos (by omega),
      List.getElem?_eq_getElem (by omega : i < l.length)]
    simp
  · rename_i h
    rw [List.getElem?_replicate]
    split
    · rw [if_pos (by omega), List.getElem?_eq_none (by omega)]; simp
    · rw [if_neg (by omega)]

theorem trimPos_le (l : List (BitVec 64)) (i : Nat) : trimPos l i ≤ i := by
  induction i with
  | zero => simp [trimPos]
  | succ i ih =>
    unfold trimPos
    split
    · split <;> omega
    · omega

theorem trimPos_zero (l : List (BitVec 64)) (i : Nat) :
    ∀ j, trimPos l i < j → j ≤ i → l[j]? = some 0 := by
  induction i with
  | zero => intro j h1 h2; omega
  | succ i ih =>
    intro j h1 h2
    unfold trimPos at h1
    split at h1
    · split at h1
      · rename_i h3 h4
        by_cases hj : j = i + 1
        · subst hj; rw [h3, h4]
        · exact ih j h1 (by omega)
      · omega
    · omega

theorem trimPos_ne (l : List (BitVec 64)) (i : Nat) (hi : i < l.length) (hp : trimPos l i ≠ 0) :
    l[trimPos l i]? ≠ some 0 := by
  induction i with
  | zero => simp [trimPos] at hp
  | succ i ih =>
    unfold trimPos at hp ⊢
    split
    · rename_i blk h3
      split
      · rename_i h4
        subst h4
        rw [h3] at hp
        simp only [if_true] at hp
        exact ih (by omega) hp
      · rename_i h4
        rw [h3]; simpa using h4
    · rename_i h3
      rw [List.getElem?_eq_getElem hi] at h3; cases h3

/-- The block a position reads, zero past the end. -/
def blk (b : Bitset) (i : Nat) : BitVec 64 := b.blocks[i]?.getD 0

theorem test_blk (b : Bitset) (pos : Nat) : b.test pos = (b.blk (pos / 64)).getLsbD (pos % 64) := by
  rw [test_eq, blk]
  cases b.blocks[pos / 64]? <;> simp

theorem set_blk (b : Bitset) (pos : Nat) (v : Bool) (j : Nat) :
    (b.set pos v).blk j =
      if j = pos / 64 then
        (if v then b.blk j ||| mask (pos % 64) else b.blk j &&& ~~~ mask (pos % 64))
      else b.blk j := by
  have hl : ∀ j, (if pos / 64 ≥ b.blocks.length then resize b.blocks (pos / 64 + 1) else b.blocks)[j]?.getD 0
      = b.blk j := by
    intro j
    split
    · rename_i h
      rw [resize_get]
      split
      · simp [blk]
      · rw [blk, List.getElem?_eq_none (by omega)]
    · rfl
  have hlen : pos / 64 <
      (if pos / 64 ≥ b.blocks.length then resize b.blocks (pos / 64 + 1) else b.blocks).length := by
    split
    · rw [resize_length]; omega
    · omega
  unfold Bitset.set
  simp only
  generalize (if pos / 64 ≥ b.blocks.length then resize b.blocks (pos / 64 + 1) else b.blocks) = l at hl hlen
  have hmod : ∀ f : BitVec 64 → BitVec 64, (l.modify (pos / 64) f)[j]?.getD 0 =
      if j = pos / 64 then f (b.blk j) else b.blk j := by
    intro f
    rw [List.getElem?_modify]
    rw [← hl j]
    by_cases h : j = pos / 64
    · subst h
      simp [hlen]
    · have : ¬ (pos / 64 = j) := fun h' => h h'.symm
      simp only [this, h, if_false]
      cases l[j]? <;> rfl
  cases v with
  | true =>
    simp only [if_true]
    show (l.modify _ _)[j]?.getD 0 = _
    exact hmod _
  | false =>
    simp only [Bool.false_eq_true, if_false]
    show (resize _ _)[j]?.getD 0 = _
    rw [resize_get, ← hmod (· &&& ~~~ mask (pos % 64))]
    generalize hL : l.modify (pos / 64) (· &&& ~~~ mask (pos % 64)) = l'
    split
    · simp
    · rename_i h
      simp only [Option.getD_none]
      rcases Nat.lt_or_ge j l'.length with h1 | h1
      · rw [trimPos_zero l' (l'.length - 1) j (by omega) (by omega)]; rfl
      · rw [List.getElem?_eq_none h1]; rfl

theorem canon_set (b : Bitset) (pos : Nat) (v : Bool) (hc : Canon b) : Canon (b.set pos v) := by
  obtain ⟨h1, h2⟩ := hc
  unfold Bitset.set
  simp only
  cases v with
  | true =>
    simp only [if_true]
    have hpos : 0 < b.blocks.length := List.length_pos_iff.2 h1
    refine ⟨?_, ?_⟩
    · simp only [ne_eq]
      intro h
      have := congrArg List.length h
      simp only [List.length_modify, List.length_nil] at this
      split at this
      · rw [resize_length] at this; omega
      · omega
    · have hor : ∀ x : BitVec 64, x ||| mask (pos % 64) ≠ 0 := by
        intro x hx
        have : (x ||| mask (pos % 64)).getLsbD (pos % 64) = true := by
          rw [BitVec.getLsbD_or, mask_getLsbD _ _ (by omega)]; simp
        rw [hx] at this; simp at this
      split
      · rename_i hge
        right
        rw [List.getLast?_eq_getElem?]
        simp only [List.length_modify, resize_length, Nat.add_sub_cancel]
        rw [List.getElem?_modify, resize_get]
        simp only [Nat.lt_succ_self, if_true, Option.map_some, Option.map_eq_map, ne_eq, Option.some.injEq]
        exact hor _
      · rename_i hge
        rcases h2 with h2 | h2
        · left; simp [h2]
        · right
          rw [List.getLast?_eq_getElem?] at h2 ⊢
          simp only [List.length_modify]
          rw [List.getElem?_modify]
          rw [List.getElem?_eq_getElem (by omega)] at h2 ⊢
          split
          · simp only [Option.map_some, Option.map_eq_map, ne_eq, Option.some.injEq]
            exact hor _
          · simpa using h2
  | false =>
    simp only [Bool.false_eq_true, if_false]
    generalize hl : (List.modify (if pos / 64 ≥ b.blocks.length then resize b.blocks (pos / 64 + 1) else b.blocks) (pos / 64)
      (· &&& ~~~ mask (pos % 64))) = l
    have hpos : 0 < l.length := by
      rw [← hl, List.length_modify]
      have : 0 < b.blocks.length := List.length_pos_iff.2 h1
      split
      · rw [resize_length]; omega
      · omega
    refine ⟨?_, ?_⟩
    · intro h
      have := congrArg List.length h
      rw [resize_length] at this; simp at this
    · rw [List.getLast?_eq_getElem?, resize_length]
      simp only [Nat.add_sub_cancel]
      by_cases h0 : trimPos l (l.length - 1) = 0
      · left; rw [h0]
      · right
        rw [resize_get, if_pos (by omega)]
        have := trimPos_ne l (l.length - 1) (by omega) h0
        have hle := trimPos_le l (l.length - 1)
        rw [List.getElem?_eq_getElem (by omega)] at this ⊢
        simpa using this

theorem clear_blocks (b : Bitset) (hc : Canon b) : b.clear.blocks = [0] := by
  unfold clear
  simp only
  apply List.ext_getElem?
  intro i
  rw [List.getElem?_set, resize_length, resize_get]
  rcases i with _ | i
  · simp
  · simp

theorem canon_run (ops : List BitsetOp) : ∀ b : Bitset, Canon b → Canon (b.run ops) := by
  induction ops with
  | nil => intro b h; exact h
  | cons op ops ih =>
    intro b h
    apply ih
    cases op with
    | set p v => exact canon_set b p v h
    | clear =>
      have := clear_blocks b h
      simp [Bitset.step, Canon, this]

/-- In canonical form the blocks are determined by the bits. -/
theorem canon_ext {a b : Bitset} (ha : Canon a) (hb : Canon b) (h : ∀ p, a.test p = b.test p) : a = b := by
  have hblk : ∀ i, a.blk i = b.blk i := by
    intro i
    apply BitVec.eq_of_getLsbD_eq
    intro j hj
    have := h (64 * i + j)
    rw [test_blk, test_blk] at this
    rw [show (64 * i + j) / 64 = i by omega, show (64 * i + j) % 64 = j by omega] at this
    exact this
  have hle : ∀ {a b : Bitset}, Canon a → Canon b → (∀ i, a.blk i = b.blk i) → a.blocks.length ≤ b.blocks.length := by
    intro a b ha hb hblk
    have hbpos : 0 < b.blocks.length := List.length_pos_iff.2 hb.1
    rcases ha.2 with h1 | h1
    · omega
    · rcases Nat.lt_or_ge b.blocks.length a.blocks.length with hlt | hge
      · exfalso
        apply h1
        have := hblk (a.blocks.length - 1)
        unfold blk at this
        rw [List.getElem?_eq_none (by omega : b.blocks.length ≤ a.blocks.length - 1)] at this
        rw [List.getLast?_eq_getElem?, List.getElem?_eq_getElem (by omega)]
        rw [List.getElem?_eq_getElem (by omega)] at this
        simp at this; simp [this]
      · exact hge
  have hlen : a.blocks.length = b.blocks.length :=
    Nat.le_antisymm (hle ha hb hblk) (hle hb ha (fun i => (hblk i).symm))
  have : a.blocks = b.blocks := by
    apply List.ext_getElem hlen
    intro i h1 h2
    have := hblk i
    unfold blk at this
    rw [List.getElem?_eq_getElem h1, List.getElem?_eq_getElem h2] at this
    simpa using this
  cases a; cases b; simp_all

theorem test_set (b : Bitset) (p q : Nat) (v : Bool) :
    (b.set p v).test q = if q = p then v else b.test q := by
  rw [test_blk, test_blk, set_blk]
  by_cases hq : q = p
  · subst hq
    cases v <;> simp [mask_getLsbD _ _ (Nat.mod_lt q (by omega : 64 > 0)), Nat.mod_lt]
  · rw [if_neg hq]
    split
    · rename_i hd
      have hne : q % 64 ≠ p % 64 := by omega
      have hm := mask_getLsbD (p % 64) (q % 64) (Nat.mod_lt p (by omega : 64 > 0))
      cases v
      · simp only [Bool.false_eq_true, if_false, BitVec.getLsbD_and, BitVec.getLsbD_not, hm]
        simp [hne, Nat.mod_lt]
      · simp [mask_getLsbD _ _ (Nat.mod_lt p (by omega : 64 > 0)), hne]
    · rfl

end Bitset
end CoEcs
