import Verif.Proofs.HashTable

set_option linter.unusedSimpArgs false

namespace CoEcs
open Spec
namespace HTable
variable {K V : Type} [DecidableEq K]

def weight (o : Option (HEntry K V)) : Nat := (o.map HEntry.psl).getD 0

/-- Sum of all probe lengths. -/
def pslSum (l : List (Option (HEntry K V))) : Nat := (l.map weight).sum

theorem pslSum_set (l : List (Option (HEntry K V))) : ∀ (i : Nat) (hi : i < l.length) (x : Option (HEntry K V)),
    pslSum (l.set i x) + weight l[i] = pslSum l + weight x := by
  induction l with
  | nil => intro i hi; simp at hi
  | cons a l ih =>
    intro i hi x
    cases i with
    | zero => simp [pslSum]; omega
    | succ i =>
      have := ih i (by simpa using hi) x
      simp [pslSum] at this ⊢; omega

theorem weight_le_pslSum (l : List (Option (HEntry K V))) : ∀ (i : Nat) (hi : i < l.length), weight l[i] ≤ pslSum l := by
  induction l with
  | nil => intro i hi; simp at hi
  | cons a l ih =>
    intro i hi
    cases i with
    | zero => simp [pslSum]
    | succ i =>
      have := ih i (by simpa using hi)
      simp [pslSum] at this ⊢; omega

theorem psl_le_pslSum {l : List (Option (HEntry K V))} {i : Nat} {e : HEntry K V} (he : at' l i = some e) :
    e.psl ≤ pslSum l := by
  have hi : i < l.length := by
    rcases Nat.lt_or_ge i l.length with h | h
    · exact h
    · simp [at', List.getElem?_eq_none h] at he
  have h1 := weight_le_pslSum l i hi
  have h2 := getElem?_at' hi
  rw [he, List.getElem?_eq_getElem hi] at h2
  simp only [Option.some.injEq] at h2
  rw [h2] at h1
  simpa [weight] using h1

/-- The slots with a hole at `i` that behaves, for the probe-length invariant, as if it still held
an entry of probe length `q`. -/
structure HoleInv (h : K → Nat) (n : Nat) (S : Nat → Option (HEntry K V)) (i q : Nat) : Prop where
  hole : S i = none
  pos : ∀ j, j < n → ∀ e, S j = some e → e.hash = h e.key ∧ j = (e.hash + e.psl) % n
  uniq : ∀ a b, a < n → b < n → ∀ e e', S a = some e → S b = some e' → e.key = e'.key → a = b
  rh : ∀ j, j < n → ∀ p, (if (j + 1) % n = i then some q else psls S ((j + 1) % n)) = some p → 0 < p →
    ∃ p', (if j = i then some q else psls S j) = some p' ∧ p ≤ p' + 1

theorem HoleInv.good {h : K → Nat} {n : Nat} {S : Nat → Option (HEntry K V)} {i q : Nat}
    (inv : HoleInv h n S i q) (hn : 2 ≤ n)
    (hz : ∀ e, S ((i + 1) % n) = some e → e.psl = 0) : Good h n S := by
  refine ⟨inv.pos, ?_, inv.uniq⟩
  intro j hj p hp hp0
  have hji : j ≠ i := by
    rintro rfl
    simp only [psls, Option.map_eq_some_iff] at hp
    obtain ⟨e, h1, rfl⟩ := hp
    have := hz e h1; omega
  have hsi : (j + 1) % n ≠ i := by
    intro hc
    rw [hc] at hp
    simp [psls, inv.hole] at hp
  obtain ⟨p', h1, h2⟩ := inv.rh j hj p (by rw [if_neg hsi]; exact hp) hp0
  rw [if_neg hji] at h1
  exact ⟨p', h1, h2⟩

theorem shiftLoop_ok {h : K → Nat} {n : Nat} (hn : PowTwo n) :
    ∀ (fuel : Nat) (slots : List (Option (HEntry K V))) (i q : Nat), slots.length = n → i < n →
      HoleInv h n (at' (slots.set i none)) i q → pslSum (slots.set i none) < fuel →
      ∃ slots', shiftLoop n fuel slots i = .ok slots' ∧ slots'.length = n ∧ Good h n (at' slots') ∧
        (∀ k v, Has n (at' slots') k v ↔ Has n (at' (slots.set i none)) k v) ∧
        slots'.countP Option.isSome = (slots.set i none).countP Option.isSome := by
  have hn2 := hn.ge
  intro fuel
  induction fuel with
  | zero => intro slots i q _ _ _ hf; omega
  | succ fuel ih =>
    intro slots i q hl hi inv hf
    have hil : i < slots.length := Nat.lt_of_lt_of_eq hi hl.symm
    generalize hs1 : slots.set i none = s1 at inv hf
    have hl1 : s1.length = n := by rw [← hs1]; simp [hl]
    have hi1 : i < s1.length := Nat.lt_of_lt_of_eq hi hl1.symm
    have hj : (i + 1) % n < n := Nat.mod_lt _ (by omega)
    have hj1 : (i + 1) % n < s1.length := Nat.lt_of_lt_of_eq hj hl1.symm
    have hji : (i + 1) % n ≠ i := succ_mod_ne hn2 hi
    have hdone : (∀ e, at' s1 ((i + 1) % n) = some e → e.psl = 0) →
        ∃ slots', Run.ok s1 = Run.ok slots' ∧ slots'.length = n ∧ Good h n (at' slots') ∧
        (∀ k v, Has n (at' slots') k v ↔ Has n (at' s1) k v) ∧
        slots'.countP Option.isSome = s1.countP Option.isSome :=
      fun hz => ⟨s1, rfl, hl1, inv.good hn2 hz, fun _ _ => Iff.rfl, rfl⟩
    simp only [shiftLoop, hs1, mod2n_eq hn, hj, if_true, getElem?_at' hj1]
    cases hsj : at' s1 ((i + 1) % n) with
    | none => exact hdone (fun e he => by rw [hsj] at he; cases he)
    | some e =>
      simp only
      by_cases hp : e.psl = 0
      · rw [if_pos hp]
        exact hdone (fun e' he' => by rw [hsj] at he'; cases he'; exact hp)
      · rw [if_neg hp]
        generalize hs2 : s1.set i (some { e with psl := e.psl - 1 }) = s2
        have hl2 : s2.length = n := by rw [← hs2]; simp [hl1]
        have hj2 : (i + 1) % n < s2.length := Nat.lt_of_lt_of_eq hj hl2.symm
        have hat2 : ∀ j, at' s2 j = if j = i then some { e with psl := e.psl - 1 } else at' s1 j := by
          intro j; rw [← hs2]; exact at'_set hi1 _ j
        have hat3 : ∀ j, at' (s2.set ((i + 1) % n) none) j =
            if j = (i + 1) % n then none else at' s2 j := fun j => at'_set hj2 _ j
        obtain ⟨he1, he2⟩ := inv.pos _ hj e hsj
        have hpq : e.psl ≤ q + 1 := by
          have := inv.rh i hi e.psl (by rw [if_neg hji]; simp [psls, hsj]) (by omega)
          rw [if_pos rfl] at this
          obtain ⟨p', h1, h2⟩ := this
          cases h1; exact h2
        have inv3 : HoleInv h n (at' (s2.set ((i + 1) % n) none)) ((i + 1) % n) e.psl := by
          refine ⟨by rw [hat3]; simp, ?_, ?_, ?_⟩
          · intro j hjn e' he'
            rw [hat3] at he'
            split at he'
            · cases he'
            · rw [hat2] at he'
              split at he'
              · rename_i hji'; subst hji'
                simp only [Option.some.injEq] at he'; subst he'
                refine ⟨he1, ?_⟩
                simp only
                -- j+1 ≡ hash + psl
                have : (j + 1) % n = ((e.hash + (e.psl - 1)) % n + 1) % n := by
                  rw [Nat.mod_add_mod, he2]; congr 1; omega
                exact succ_mod_inj hjn (Nat.mod_lt _ (by omega)) this
              · exact inv.pos j hjn e' he'
          · intro a b ha hb x y hx hy hk
            rw [hat3] at hx hy
            split at hx
            · cases hx
            split at hy
            · cases hy
            rename_i hax hbx
            rw [hat2] at hx hy
            split at hx <;> split at hy
            · omega
            · rename_i h1 h2
              simp only [Option.some.injEq] at hx; subst hx
              exact absurd (inv.uniq _ _ hb hj y e hy hsj hk.symm) hbx
            · rename_i h1 h2
              simp only [Option.some.injEq] at hy; subst hy
              exact absurd (inv.uniq _ _ ha hj x e hx hsj hk) hax
            · exact inv.uniq a b ha hb x y hx hy hk
          · intro j hjn p hpj hp0
            -- value of the psl function of the new state at any index
            have hval : ∀ x, x ≠ (i + 1) % n → x ≠ i →
                psls (at' (s2.set ((i + 1) % n) none)) x = psls (at' s1) x := by
              intro x hx1 hx2
              simp only [psls, hat3, hat2, if_neg hx1, if_neg hx2]
            have hvali : psls (at' (s2.set ((i + 1) % n) none)) i = some (e.psl - 1) := by
              simp only [psls, hat3, hat2, if_neg (Ne.symm hji), if_true, Option.map_some]
            -- old value at (i+1)%n
            have holdj : (if (i + 1) % n = i then some q else psls (at' s1) ((i + 1) % n)) = some e.psl := by
              rw [if_neg hji]; simp [psls, hsj]
            by_cases hcase1 : (j + 1) % n = (i + 1) % n
            · have : j = i := succ_mod_inj hjn hi hcase1
              subst this
              rw [if_pos rfl] at hpj
              cases hpj
              refine ⟨e.psl - 1, by rw [if_neg (Ne.symm hji)]; exact hvali, by omega⟩
            · rw [if_neg hcase1] at hpj
              by_cases hcase2 : (j + 1) % n = i
              · rw [hcase2, hvali] at hpj
                cases hpj
                -- predecessor of i
                by_cases hjj : j = (i + 1) % n
                · exact ⟨e.psl, by rw [if_pos hjj], by omega⟩
                · have hjne : j ≠ i := by
                    rintro rfl; exact hji hcase2
                  obtain ⟨p', h1, h2⟩ := inv.rh j hjn q (by rw [if_pos hcase2]) (by omega)
                  rw [if_neg hjne] at h1
                  refine ⟨p', ?_, by omega⟩
                  rw [if_neg hjj, hval j hjj hjne]; exact h1
              · rw [hval _ hcase1 hcase2] at hpj
                obtain ⟨p', h1, h2⟩ := inv.rh j hjn p (by rw [if_neg hcase2]; exact hpj) hp0
                by_cases hjj : j = (i + 1) % n
                · rw [hjj, holdj] at h1
                  cases h1
                  exact ⟨e.psl, by rw [if_pos hjj], h2⟩
                · have hjne : j ≠ i := by
                    rintro rfl; exact hcase1 rfl
                  rw [if_neg hjne] at h1
                  exact ⟨p', by rw [if_neg hjj, hval j hjj hjne]; exact h1, h2⟩
        have hsum : pslSum (s2.set ((i + 1) % n) none) < fuel := by
          have h1 := pslSum_set s1 i hi1 (some { e with psl := e.psl - 1 })
          rw [hs2] at h1
          have h2 := pslSum_set s2 ((i + 1) % n) hj2 none
          have h3 : s1[i] = none := by
            have := getElem?_at' hi1
            rw [inv.hole, List.getElem?_eq_getElem hi1] at this
            simpa using this
          have h4 : s2[(i + 1) % n] = some e := by
            have := getElem?_at' hj2
            rw [hat2, if_neg hji, hsj, List.getElem?_eq_getElem hj2] at this
            simpa using this
          rw [h3] at h1; rw [h4] at h2
          simp only [weight, Option.map_none, Option.map_some, Option.getD_none, Option.getD_some] at h1 h2
          omega
        obtain ⟨slots', r1, r2, r3, r4, r5⟩ := ih s2 ((i + 1) % n) e.psl hl2 hj inv3 hsum
        refine ⟨slots', r1, r2, r3, ?_, ?_⟩
        · intro k v
          rw [r4]
          constructor
          · rintro ⟨a, x, ha, hx, hk, hv⟩
            rw [hat3] at hx
            split at hx
            · cases hx
            rw [hat2] at hx
            split at hx
            · simp only [Option.some.injEq] at hx; subst hx
              exact ⟨_, e, hj, hsj, hk, hv⟩
            · exact ⟨a, x, ha, hx, hk, hv⟩
          · rintro ⟨a, x, ha, hx, hk, hv⟩
            by_cases hai : a = (i + 1) % n
            · subst hai
              rw [hsj] at hx; cases hx
              exact ⟨i, { e with psl := e.psl - 1 }, hi, by rw [hat3, if_neg (Ne.symm hji), hat2, if_pos rfl], hk, hv⟩
            · have hane : a ≠ i := by rintro rfl; rw [inv.hole] at hx; cases hx
              exact ⟨a, x, ha, by rw [hat3, if_neg hai, hat2, if_neg hane]; exact hx, hk, hv⟩
        · have h3 : s1[i] = none := by
            have := getElem?_at' hi1
            rw [inv.hole, List.getElem?_eq_getElem hi1] at this
            simpa using this
          have h4 : s2[(i + 1) % n] = some e := by
            have := getElem?_at' hj2
            rw [hat2, if_neg hji, hsj, List.getElem?_eq_getElem hj2] at this
            simpa using this
          have h5 : s2.countP Option.isSome = s1.countP Option.isSome + 1 := by
            rw [← hs2, List.countP_set hi1, h3]; simp
          rw [r5, List.countP_set hj2, h4, h5]
          simp

end HTable
end CoEcs
