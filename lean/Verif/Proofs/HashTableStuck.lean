import Verif.Proofs.HashTableRefine

/-! Bucket counts that are not powers of two: probing visits only a few buckets. -/

namespace CoEcs
open Spec

theorem odd_part : ∀ n : Nat, 0 < n → ∃ k m, n = 2 ^ k * m ∧ m % 2 = 1 := by
  intro n
  induction n using Nat.strongRecOn with
  | _ n ih =>
    intro hn
    by_cases hodd : n % 2 = 1
    · exact ⟨0, n, by simp, hodd⟩
    · obtain ⟨k, m, h1, h2⟩ := ih (n / 2) (by omega) (by omega)
      refine ⟨k + 1, m, ?_, h2⟩
      have : n = 2 * (n / 2) := by omega
      rw [this, h1, Nat.pow_succ]
      simp only [Nat.mul_assoc, Nat.mul_comm, Nat.mul_left_comm]

/-- The probe sequence that starts in bucket 0 stays in the first `c` buckets. -/
theorem short_cycle {n : Nat} (hn : 0 < n) (he : n % 2 = 0) (hp : ¬ PowTwo n) :
    ∃ c, 0 < c ∧ 3 * c ≤ n ∧ ∀ i, i < c → mod2n (i + 1) n < c := by
  obtain ⟨k, m, h1, h2⟩ := odd_part n hn
  have hc : 0 < 2 ^ k := Nat.pow_pos (by omega)
  have hm : 3 ≤ m := by
    rcases Nat.lt_or_ge m 3 with h | h
    · have hm1 : m = 1 := by omega
      subst hm1
      rw [Nat.mul_one] at h1
      refine absurd ⟨k, ?_, h1⟩ hp
      rcases Nat.eq_zero_or_pos k with h0 | h0
      · subst h0; simp at h1; omega
      · exact h0
    · exact h
  refine ⟨2 ^ k, hc, ?_, ?_⟩
  · rw [h1, Nat.mul_comm]; exact Nat.mul_le_mul_left _ hm
  · intro i hi
    rw [mod2n, if_neg (by omega)]
    rcases Nat.lt_or_ge (i + 1) (2 ^ k) with h | h
    · exact Nat.lt_of_le_of_lt Nat.and_le_left h
    · have hi1 : i + 1 = 2 ^ k := by omega
      have hz : (i + 1) &&& (n - 1) = 0 := by
        apply Nat.eq_of_testBit_eq
        intro j
        rw [Nat.testBit_and, hi1, Nat.testBit_two_pow, Nat.zero_testBit]
        by_cases hkj : k = j
        · subst hkj
          have hd : (n - 1) / 2 ^ k = m - 1 := by
            obtain ⟨m', rfl⟩ : ∃ m', m = m' + 1 := ⟨m - 1, by omega⟩
            have : n - 1 = (2 ^ k - 1) + 2 ^ k * m' := by
              rw [h1, Nat.mul_add, Nat.mul_one]; omega
            rw [this, Nat.add_mul_div_left _ _ hc, Nat.div_eq_of_lt (by omega)]
            omega
          have : (n - 1).testBit k = false := by
            rw [Nat.testBit_eq_decide_div_mod_eq, hd]
            simp; omega
          rw [this]; simp
        · simp [hkj]
      rw [hz]; exact hc

namespace HTable
variable {K V : Type} [DecidableEq K]

/-- Only the first `c` buckets are in use. -/
def Within (c n : Nat) (slots : List (Option (HEntry K V))) : Prop :=
  slots.length = n ∧ ∀ i, c ≤ i → at' slots i = none

theorem Within.set {c n i : Nat} {slots : List (Option (HEntry K V))} (w : Within c n slots) (hi : i < c)
    (hin : i < n) (x : Option (HEntry K V)) : Within c n (slots.set i x) := by
  refine ⟨by simp [w.1], fun j hj => ?_⟩
  rw [at'_set (by rw [w.1]; exact hin), if_neg (by omega), w.2 j hj]

theorem Within.count_le {c n : Nat} {slots : List (Option (HEntry K V))} (w : Within c n slots) :
    slots.countP Option.isSome ≤ c := by
  have hsplit : slots = slots.take c ++ slots.drop c := (List.take_append_drop c slots).symm
  have hd : (slots.drop c).countP Option.isSome = 0 := by
    rw [List.countP_eq_zero]
    intro a ha
    obtain ⟨i, hi, rfl⟩ := List.mem_iff_getElem.1 ha
    have hl : i + c < slots.length := by simp at hi; omega
    have := w.2 (c + i) (by omega)
    rw [List.getElem_drop]
    simp only [at', List.getElem?_eq_getElem (show c + i < slots.length by omega), Option.join_some] at this
    rw [this]; simp
  rw [hsplit, List.countP_append, hd]
  have := List.countP_le_length (p := Option.isSome) (l := slots.take c)
  rw [List.length_take] at this
  omega

theorem emplaceLoop_within {c n : Nat} (hcn : c ≤ n) (hstep : ∀ i, i < c → mod2n (i + 1) n < c)
    (asg : Bool) (hash : Nat) : ∀ (f : Nat) (slots : List (Option (HEntry K V))) (temp : HEntry K V) (x : Nat)
    (ret : Option Nat) (slots' : List (Option (HEntry K V))) (r : Nat), Within c n slots → x < c →
    emplaceLoop asg n hash f slots temp x ret = .ok (slots', r, true) →
    Within c n slots' ∧ slots'.countP Option.isSome = slots.countP Option.isSome + 1 := by
  intro f
  induction f with
  | zero => intro slots temp x ret slots' r _ _ h; simp [emplaceLoop] at h
  | succ f ih =>
    intro slots temp x ret slots' r w hx h
    have hxl : x < slots.length := by rw [w.1]; omega
    simp only [emplaceLoop, if_pos (show x < n by omega), List.getElem?_eq_getElem hxl] at h
    split at h
    · cases h
    · rename_i e heq
      simp only [Option.some.injEq] at heq
      split at h
      · simp at h
      · split at h
        · obtain ⟨h1, h2⟩ := ih _ _ _ _ _ _ (w.set hx (by omega) _) (hstep x hx) h
          refine ⟨h1, h2.trans ?_⟩
          rw [List.countP_set hxl, heq]
          have : 0 < slots.countP Option.isSome :=
            List.countP_pos_iff.2 ⟨some e, heq ▸ List.getElem_mem hxl, rfl⟩
          simp; omega
        · exact ih _ _ _ _ _ _ w (hstep x hx) h
    · rename_i heq
      simp only [Option.some.injEq] at heq
      simp only [Run.ok.injEq, Prod.mk.injEq] at h
      obtain ⟨rfl, _, _⟩ := h
      refine ⟨w.set hx (by omega) _, ?_⟩
      rw [List.countP_set hxl, heq]
      simp

end HTable

/-- Insert the keys `a, a+1, ..., a+j-1`. -/
def insertOps (a j : Nat) : List (HashOp Nat Nat) := (List.range' a j).map fun k => .emplace k k

theorem insertOps_spec (j : Nat) : ∀ (a : Nat) (m : KeyMap Nat Nat), (∀ k, a ≤ k → m.get k = none) →
    (m.run (insertOps a j)).2 = (List.range' a j).map fun k => HashAns.entry k k true := by
  induction j with
  | zero => intro a m _; rfl
  | succ j ih =>
    intro a m hm
    simp only [insertOps, List.range'_succ, List.map_cons, KeyMap.run, KeyMap.step, hm a (Nat.le_refl a)]
    congr 1
    refine ih (a + 1) _ (fun k hk => ?_)
    simp only [KeyMap.put]
    rw [if_neg (by omega)]
    exact hm k (by omega)

theorem Run.bind_ok {α β : Type _} {x : Run α} {g : α → Run β} {b : β} (h : x.bind g = .ok b) :
    ∃ a, x = .ok a ∧ g a = .ok b := by
  cases x with
  | ok a => exact ⟨a, rfl, h⟩
  | ub => cases h
  | stuck => cases h

/-- With a constant hash function, insertions that all succeed can fill at most `c` buckets. -/
theorem insert_run_within {c n : Nat} (hc0 : 0 < c) (hcn : 3 * c ≤ n) (hstep : ∀ i, i < c → mod2n (i + 1) n < c)
    (f : Nat) : ∀ (j a : Nat) (t t' : HTable Nat Nat), t.n = n → HTable.Within c n t.slots → t.size ≤ c →
    t.slots.countP Option.isSome = t.size →
    t.run (fun _ => 0) f (insertOps a j) = .ok (t', (List.range' a j).map fun k => HashAns.entry k k true) →
    t.size + j ≤ c := by
  intro j
  induction j with
  | zero => intro a t t' _ _ h _ _; simpa using h
  | succ j ih =>
    intro a t t' hn w hs hcnt h
    simp only [insertOps, List.range'_succ, List.map_cons, HTable.run] at h
    obtain ⟨r1, h1, h⟩ := Run.bind_ok h
    obtain ⟨r2, h2, h⟩ := Run.bind_ok h
    simp only [Run.ok.injEq, Prod.mk.injEq, List.cons.injEq] at h
    obtain ⟨rfl, ha, hrest⟩ := h
    simp only [HTable.step] at h1
    obtain ⟨r3, h3, h1⟩ := Run.bind_ok h1
    obtain ⟨e, h4, h1⟩ := Run.bind_ok h1
    simp only [Run.ok.injEq] at h1
    subst h1
    simp only [HashAns.entry.injEq] at ha
    have hng : ¬ (t.size > HTable.approx85 t.n) := by
      have h5 := hn
      unfold HTable.approx85
      rw [Nat.shiftRight_eq_div_pow]
      have : 2 ^ 10 = 1024 := rfl
      omega
    simp only [HTable.emplace, if_neg hng, Run.bind, HTable.emplaceRaw] at h3
    have h0 : mod2n 0 t.n = 0 := by
      rw [mod2n, if_neg (by omega), Nat.zero_and]
    rw [h0] at h3
    obtain ⟨r4, h5, h3⟩ := Run.bind_ok (x := HTable.emplaceLoop ..) h3
    simp only [Run.ok.injEq] at h3
    subst h3
    obtain ⟨slots', i, b⟩ := r4
    simp only at ha
    obtain ⟨_, _, rfl⟩ := ha
    rw [hn] at h5
    obtain ⟨w', hc'⟩ := HTable.emplaceLoop_within (by omega) hstep _ _ _ _ _ _ _ _ _ w hc0 h5
    have := w'.count_le
    have h6 := ih (a + 1) ⟨t.n, slots', t.size + 1⟩ r2.1 hn w' (by simp only; omega) (by simp only; omega) (by
      simp only [if_true] at h2
      rw [← hrest]
      exact h2)
    simp only at h6
    omega

end CoEcs
