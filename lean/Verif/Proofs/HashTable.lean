import Verif.Spec.KeyMap

set_option linter.unusedSimpArgs false

namespace CoEcs
open Spec
namespace HTable
variable {K V : Type} [DecidableEq K]

/-! ## Arithmetic of the cyclic index -/

theorem mod2n_eq {n : Nat} (hn : PowTwo n) (v : Nat) : mod2n v n = v % n := by
  obtain ⟨k, _, rfl⟩ := hn
  have : (2 : Nat) ^ k ≠ 0 := Nat.ne_of_gt (Nat.pow_pos (by omega))
  unfold mod2n
  rw [if_neg this, Nat.and_two_pow_sub_one_eq_mod]

theorem _root_.CoEcs.Spec.PowTwo.ge {n : Nat} (hn : PowTwo n) : 2 ≤ n := by
  obtain ⟨k, hk, rfl⟩ := hn
  calc 2 = 2 ^ 1 := rfl
    _ ≤ 2 ^ k := Nat.pow_le_pow_right (by omega) hk

theorem _root_.CoEcs.Spec.PowTwo.even {n : Nat} (hn : PowTwo n) : n % 2 = 0 := by
  obtain ⟨k, hk, rfl⟩ := hn
  obtain ⟨k, rfl⟩ : ∃ j, k = j + 1 := ⟨k - 1, by omega⟩
  rw [Nat.pow_succ]; omega

theorem succ_mod_inj {n i j : Nat} (hi : i < n) (hj : j < n) (h : (i + 1) % n = (j + 1) % n) : i = j := by
  rcases Nat.lt_or_ge (i + 1) n with h1 | h1 <;> rcases Nat.lt_or_ge (j + 1) n with h2 | h2
  · rw [Nat.mod_eq_of_lt h1, Nat.mod_eq_of_lt h2] at h; omega
  · rw [Nat.mod_eq_of_lt h1, show j + 1 = n by omega, Nat.mod_self] at h; omega
  · rw [Nat.mod_eq_of_lt h2, show i + 1 = n by omega, Nat.mod_self] at h; omega
  · omega

theorem succ_mod_ne {n i : Nat} (hn : 2 ≤ n) (hi : i < n) : (i + 1) % n ≠ i := by
  rcases Nat.lt_or_ge (i + 1) n with h1 | h1
  · rw [Nat.mod_eq_of_lt h1]; omega
  · rw [show i + 1 = n by omega, Nat.mod_self]; omega

/-- Every index has a predecessor. -/
theorem exists_pred {n i : Nat} (hi : i < n) : ∃ j, j < n ∧ (j + 1) % n = i := by
  rcases i with _ | i
  · exact ⟨n - 1, by omega, by rw [show n - 1 + 1 = n by omega, Nat.mod_self]⟩
  · exact ⟨i, by omega, Nat.mod_eq_of_lt hi⟩

/-- Different offsets below `n` lead to different indices. -/
theorem add_mod_ne {n r s : Nat} (hr : r < n) (h0 : 0 < s) (hs : s < n) : (r + s) % n ≠ r := by
  rcases Nat.lt_or_ge (r + s) n with h1 | h1
  · rw [Nat.mod_eq_of_lt h1]; omega
  · rw [Nat.mod_eq_sub_mod h1, Nat.mod_eq_of_lt (by omega)]; omega

/-! ## The slot function -/

/-- Slots as a function. -/
def at' (l : List (Option (HEntry K V))) (i : Nat) : Option (HEntry K V) := (l[i]?).join

theorem getElem?_at' {l : List (Option (HEntry K V))} {i : Nat} (hi : i < l.length) :
    l[i]? = some (at' l i) := by
  simp [at', List.getElem?_eq_getElem hi]

theorem at'_set {l : List (Option (HEntry K V))} {i : Nat} (hi : i < l.length) (x : Option (HEntry K V))
    (j : Nat) : at' (l.set i x) j = if j = i then x else at' l j := by
  unfold at'
  rw [List.getElem?_set]
  by_cases h : i = j
  · subst h; simp [hi]
  · rw [if_neg h, if_neg (fun h' => h h'.symm)]

/-! ## The Robin-Hood invariant -/

/-- Probe lengths grow by at most one from a bucket to the next, and a bucket whose entry is not at
its home position follows an occupied bucket. -/
def RH (n : Nat) (P : Nat → Option Nat) : Prop :=
  ∀ i, i < n → ∀ p, P ((i + 1) % n) = some p → 0 < p → ∃ p', P i = some p' ∧ p ≤ p' + 1

def psls (S : Nat → Option (HEntry K V)) (i : Nat) : Option Nat := (S i).map HEntry.psl

structure Good (h : K → Nat) (n : Nat) (S : Nat → Option (HEntry K V)) : Prop where
  pos : ∀ i, i < n → ∀ e, S i = some e → e.hash = h e.key ∧ i = (e.hash + e.psl) % n
  rh : RH n (psls S)
  uniq : ∀ i j, i < n → j < n → ∀ e e', S i = some e → S j = some e' → e.key = e'.key → i = j

theorem RH.chain {n : Nat} {P : Nat → Option Nat} (hr : RH n P) (hn : 0 < n) (x p : Nat) (q : Nat)
    (hq : P ((x + p) % n) = some q) (hp : p ≤ q) :
    ∀ j, j ≤ p → ∃ q', P ((x + j) % n) = some q' ∧ j ≤ q' := by
  intro j hj
  obtain ⟨d, rfl⟩ : ∃ d, p = j + d := ⟨p - j, by omega⟩
  induction d generalizing q with
  | zero => exact ⟨q, hq, hp⟩
  | succ d ih =>
    have e : (x + (j + (d + 1))) % n = ((x + (j + d)) % n + 1) % n := by
      rw [Nat.mod_add_mod]; congr 1
    rw [e] at hq
    obtain ⟨q', h1, h2⟩ := hr _ (Nat.mod_lt _ hn) _ hq (by omega)
    exact ih q' h1 (by omega) (by omega)

/-- All buckets from the home position of a stored key up to its position are occupied by entries
with probe length at least the distance from there. -/
theorem Good.chain {h : K → Nat} {n : Nat} {S : Nat → Option (HEntry K V)} (g : Good h n S)
    {i : Nat} {e : HEntry K V} (hi : i < n) (he : S i = some e) :
    ∀ j, j ≤ e.psl → ∃ e', S ((h e.key + j) % n) = some e' ∧ j ≤ e'.psl := by
  intro j hj
  obtain ⟨h1, h2⟩ := g.pos i hi e he
  have : psls S ((h e.key + e.psl) % n) = some e.psl := by
    rw [← h1, ← h2]; simp [psls, he]
  obtain ⟨q, h3, h4⟩ := g.rh.chain (by omega) _ _ _ this (Nat.le_refl _) j hj
  simp only [psls, Option.map_eq_some_iff] at h3
  obtain ⟨e', h5, rfl⟩ := h3
  exact ⟨e', h5, h4⟩

/-! ## Lookup -/

theorem findLoop_found {h : K → Nat} {t : HTable K V} (hn : PowTwo t.n) (hl : t.slots.length = t.n)
    (g : Good h t.n (at' t.slots)) {i : Nat} {e : HEntry K V} (hi : i < t.n) (he : at' t.slots i = some e) :
    ∀ (d fuel j : Nat), e.psl = j + d → d < fuel →
      findLoop t (h e.key) e.key fuel ((h e.key + j) % t.n) j = .ok (some i) := by
  intro d
  induction d with
  | zero =>
    intro fuel j hj hf
    obtain ⟨fuel, rfl⟩ : ∃ f, fuel = f + 1 := ⟨fuel - 1, by omega⟩
    obtain ⟨h1, h2⟩ := g.pos i hi e he
    have hidx : (h e.key + j) % t.n = i := by rw [h2, h1, hj]; rfl
    rw [hidx]
    simp only [findLoop, slot?, hi, if_true, getElem?_at' (Nat.lt_of_lt_of_eq hi hl.symm), he]
    simp [h1]
  | succ d ih =>
    intro fuel j hj hf
    obtain ⟨fuel, rfl⟩ : ∃ f, fuel = f + 1 := ⟨fuel - 1, by omega⟩
    have hlt : (h e.key + j) % t.n < t.n := Nat.mod_lt _ (by omega)
    obtain ⟨e', h3, h4⟩ := g.chain hi he j (by omega)
    simp only [findLoop, slot?, hlt, if_true, getElem?_at' (Nat.lt_of_lt_of_eq hlt hl.symm), h3]
    by_cases hk : e'.hash = h e.key ∧ e'.key = e.key
    · rw [if_pos hk, g.uniq _ _ hlt hi e' e h3 he hk.2]
    · rw [if_neg hk, if_neg (by omega)]
      rw [mod2n_eq hn, Nat.mod_add_mod]
      exact ih fuel (j + 1) (by omega) (by omega)

theorem findLoop_absent {h : K → Nat} {t : HTable K V} (hn : PowTwo t.n) (hl : t.slots.length = t.n)
    (key : K) (M : Nat)
    (hM : ∀ i, i < t.n → ∀ e, at' t.slots i = some e → e.psl ≤ M)
    (hno : ∀ i, i < t.n → ∀ e, at' t.slots i = some e → e.key ≠ key) :
    ∀ (d fuel j : Nat), j + d = M + 1 → d < fuel →
      findLoop t (h key) key fuel ((h key + j) % t.n) j = .ok none := by
  have hn0 : 0 < t.n := by have := hn.ge; omega
  intro d
  induction d with
  | zero =>
    intro fuel j hj hf
    obtain ⟨fuel, rfl⟩ : ∃ f, fuel = f + 1 := ⟨fuel - 1, by omega⟩
    have hlt : (h key + j) % t.n < t.n := Nat.mod_lt _ hn0
    simp only [findLoop, slot?, hlt, if_true, getElem?_at' (Nat.lt_of_lt_of_eq hlt hl.symm)]
    cases hs : at' t.slots ((h key + j) % t.n) with
    | none => rfl
    | some e =>
      have := hM _ hlt e hs
      simp only
      rw [if_neg (fun hk => hno _ hlt e hs hk.2), if_pos (by omega)]
  | succ d ih =>
    intro fuel j hj hf
    obtain ⟨fuel, rfl⟩ : ∃ f, fuel = f + 1 := ⟨fuel - 1, by omega⟩
    have hlt : (h key + j) % t.n < t.n := Nat.mod_lt _ hn0
    simp only [findLoop, slot?, hlt, if_true, getElem?_at' (Nat.lt_of_lt_of_eq hlt hl.symm)]
    cases hs : at' t.slots ((h key + j) % t.n) with
    | none => rfl
    | some e =>
      simp only
      rw [if_neg (fun hk => hno _ hlt e hs hk.2)]
      split
      · rfl
      · rw [mod2n_eq hn, Nat.mod_add_mod]
        exact ih fuel (j + 1) (by omega) (by omega)

theorem eraseSearch_found {h : K → Nat} {t : HTable K V} (hn : PowTwo t.n) (hl : t.slots.length = t.n)
    (g : Good h t.n (at' t.slots)) {i : Nat} {e : HEntry K V} (hi : i < t.n) (he : at' t.slots i = some e) :
    ∀ (d fuel j : Nat), e.psl = j + d → d < fuel →
      eraseSearch t (h e.key) e.key fuel ((h e.key + j) % t.n) j = .ok (some i) := by
  intro d
  induction d with
  | zero =>
    intro fuel j hj hf
    obtain ⟨fuel, rfl⟩ : ∃ f, fuel = f + 1 := ⟨fuel - 1, by omega⟩
    obtain ⟨h1, h2⟩ := g.pos i hi e he
    have hidx : (h e.key + j) % t.n = i := by rw [h2, h1, hj]; rfl
    rw [hidx]
    simp only [eraseSearch, slot?, hi, if_true, getElem?_at' (Nat.lt_of_lt_of_eq hi hl.symm), he]
    rw [if_neg (by omega)]
    simp [h1]
  | succ d ih =>
    intro fuel j hj hf
    obtain ⟨fuel, rfl⟩ : ∃ f, fuel = f + 1 := ⟨fuel - 1, by omega⟩
    have hlt : (h e.key + j) % t.n < t.n := Nat.mod_lt _ (by omega)
    obtain ⟨e', h3, h4⟩ := g.chain hi he j (by omega)
    simp only [eraseSearch, slot?, hlt, if_true, getElem?_at' (Nat.lt_of_lt_of_eq hlt hl.symm), h3]
    rw [if_neg (by omega)]
    by_cases hk : e'.hash ≠ h e.key ∨ e'.key ≠ e.key
    · rw [if_pos hk, mod2n_eq hn, Nat.mod_add_mod]
      exact ih fuel (j + 1) (by omega) (by omega)
    · rw [if_neg hk]
      have hke : e'.key = e.key := by
        by_cases hc : e'.key = e.key
        · exact hc
        · exact absurd (.inr hc) hk
      rw [g.uniq _ _ hlt hi e' e h3 he hke]

theorem eraseSearch_absent {h : K → Nat} {t : HTable K V} (hn : PowTwo t.n) (hl : t.slots.length = t.n)
    (key : K) (M : Nat)
    (hM : ∀ i, i < t.n → ∀ e, at' t.slots i = some e → e.psl ≤ M)
    (hno : ∀ i, i < t.n → ∀ e, at' t.slots i = some e → e.key ≠ key) :
    ∀ (d fuel j : Nat), j + d = M + 1 → d < fuel →
      eraseSearch t (h key) key fuel ((h key + j) % t.n) j = .ok none := by
  have hn0 : 0 < t.n := by have := hn.ge; omega
  intro d
  induction d with
  | zero =>
    intro fuel j hj hf
    obtain ⟨fuel, rfl⟩ : ∃ f, fuel = f + 1 := ⟨fuel - 1, by omega⟩
    have hlt : (h key + j) % t.n < t.n := Nat.mod_lt _ hn0
    simp only [eraseSearch, slot?, hlt, if_true, getElem?_at' (Nat.lt_of_lt_of_eq hlt hl.symm)]
    cases hs : at' t.slots ((h key + j) % t.n) with
    | none => rfl
    | some e =>
      have := hM _ hlt e hs
      simp only
      rw [if_pos (by omega)]
  | succ d ih =>
    intro fuel j hj hf
    obtain ⟨fuel, rfl⟩ : ∃ f, fuel = f + 1 := ⟨fuel - 1, by omega⟩
    have hlt : (h key + j) % t.n < t.n := Nat.mod_lt _ hn0
    simp only [eraseSearch, slot?, hlt, if_true, getElem?_at' (Nat.lt_of_lt_of_eq hlt hl.symm)]
    cases hs : at' t.slots ((h key + j) % t.n) with
    | none => rfl
    | some e =>
      simp only
      split
      · rfl
      · rw [if_pos (.inr (hno _ hlt e hs)), mod2n_eq hn, Nat.mod_add_mod]
        exact ih fuel (j + 1) (by omega) (by omega)

/-! ## Insertion -/

/-- Writing an entry into a bucket whose old entry has no larger probe length. -/
theorem Good.put {h : K → Nat} {n : Nat} {S S' : Nat → Option (HEntry K V)} (g : Good h n S) (hn : 2 ≤ n)
    {x : Nat} (hx : x < n) {temp : HEntry K V}
    (hS' : ∀ j, S' j = if j = x then some temp else S j)
    (hpos : temp.hash = h temp.key ∧ x = (temp.hash + temp.psl) % n)
    (hpred : 0 < temp.psl → ∀ i, i < n → (i + 1) % n = x → ∃ e', S i = some e' ∧ temp.psl ≤ e'.psl + 1)
    (hfresh : ∀ i, i < n → i ≠ x → ∀ e, S i = some e → e.key ≠ temp.key)
    (hge : ∀ e, S x = some e → e.psl ≤ temp.psl) : Good h n S' := by
  constructor
  · intro i hi e he
    rw [hS'] at he
    split at he
    · rename_i hix; subst hix
      cases he; exact hpos
    · exact g.pos i hi e he
  · intro i hi p hp hp0
    simp only [psls, hS'] at hp ⊢
    by_cases hix : i = x
    · -- successor of x
      subst hix
      rw [if_pos rfl]
      rw [if_neg (succ_mod_ne hn hi)] at hp
      obtain ⟨p', h1, h2⟩ := g.rh i hi p hp hp0
      simp only [psls, Option.map_eq_some_iff] at h1
      obtain ⟨e, h3, rfl⟩ := h1
      have := hge e h3
      exact ⟨temp.psl, rfl, by omega⟩
    · rw [if_neg hix]
      by_cases hsx : (i + 1) % n = x
      · rw [if_pos hsx] at hp
        cases hp
        obtain ⟨e', h1, h2⟩ := hpred hp0 i hi hsx
        exact ⟨e'.psl, by simp [h1], h2⟩
      · rw [if_neg hsx] at hp
        exact g.rh i hi p hp hp0
  · intro i j hi hj e e' he he' hk
    rw [hS'] at he he'
    split at he <;> split at he'
    · omega
    · rename_i h1 h2; cases he
      exact absurd hk.symm (hfresh j hj h2 e' he')
    · rename_i h1 h2; cases he'
      exact absurd hk (hfresh i hi h1 e he)
    · exact g.uniq i j hi hj e e' he he' hk

/-- Content of the slots. -/
def Has (n : Nat) (S : Nat → Option (HEntry K V)) (k : K) (v : V) : Prop :=
  ∃ i e, i < n ∧ S i = some e ∧ e.key = k ∧ e.val = v

theorem emplaceLoop_found {h : K → Nat} {n : Nat} {slots : List (Option (HEntry K V))} (asg : Bool)
    (hn : PowTwo n) (hl : slots.length = n) (g : Good h n (at' slots)) {i : Nat} {e : HEntry K V}
    (hi : i < n) (he : at' slots i = some e) (v : V) :
    ∀ (d fuel j : Nat), e.psl = j + d → d < fuel →
      emplaceLoop asg n (h e.key) fuel slots ⟨h e.key, j, e.key, v⟩ ((h e.key + j) % n) none =
        .ok (if asg then slots.set i (some { e with val := v }) else slots, i, false) := by
  intro d
  induction d with
  | zero =>
    intro fuel j hj hf
    obtain ⟨fuel, rfl⟩ : ∃ f, fuel = f + 1 := ⟨fuel - 1, by omega⟩
    obtain ⟨h1, h2⟩ := g.pos i hi e he
    have hidx : (h e.key + j) % n = i := by rw [h2, h1, hj]; rfl
    rw [hidx]
    simp only [emplaceLoop, hi, if_true, getElem?_at' (Nat.lt_of_lt_of_eq hi hl.symm), he]
    rw [if_pos ⟨h1, trivial⟩]
  | succ d ih =>
    intro fuel j hj hf
    obtain ⟨fuel, rfl⟩ : ∃ f, fuel = f + 1 := ⟨fuel - 1, by omega⟩
    have hlt : (h e.key + j) % n < n := Nat.mod_lt _ (by omega)
    obtain ⟨e', h3, h4⟩ := g.chain hi he j (by omega)
    simp only [emplaceLoop, hlt, if_true, getElem?_at' (Nat.lt_of_lt_of_eq hlt hl.symm), h3]
    by_cases hk : e'.hash = h e.key ∧ e'.key = e.key
    · rw [if_pos hk]
      have := g.uniq _ _ hlt hi e' e h3 he hk.2
      rw [this] at h3 ⊢
      rw [he] at h3; cases h3
      rfl
    · rw [if_neg hk, if_neg (by omega)]
      rw [mod2n_eq hn, Nat.mod_add_mod]
      exact ih fuel (j + 1) (by omega) (by omega)

/-- Loop invariant of the insertion of a new key. -/
structure EInv (h : K → Nat) (n : Nat) (S : Nat → Option (HEntry K V)) (temp : HEntry K V) (x : Nat)
    (P : K → V → Prop) (k0 : K) (v0 : V) (ret : Option Nat) (d : Nat) : Prop where
  good : Good h n S
  tpos : temp.hash = h temp.key ∧ x = (temp.hash + temp.psl) % n
  pred : 0 < temp.psl → ∀ i, i < n → (i + 1) % n = x → ∃ e', S i = some e' ∧ temp.psl ≤ e'.psl + 1
  fresh : ∀ i, i < n → ∀ e, S i = some e → e.key ≠ temp.key
  mem : ∀ k v, P k v ↔ Has n S k v ∨ (temp.key = k ∧ temp.val = v)
  free : S ((x + d) % n) = none
  dlt : d < n
  ret : match ret with
    | none => temp.key = k0 ∧ temp.val = v0
    | some r => ∃ s e, 0 < s ∧ s + d < n ∧ r < n ∧ (r + s) % n = x ∧ S r = some e ∧ e.key = k0 ∧ e.val = v0

theorem emplaceLoop_fill {h : K → Nat} {n : Nat} (asg : Bool) (hash : Nat) (hn : PowTwo n)
    (P : K → V → Prop) (k0 : K) (v0 : V)
    (d fuel : Nat) (slots : List (Option (HEntry K V))) (temp : HEntry K V) (x : Nat) (ret : Option Nat)
    (hl : slots.length = n) (inv : EInv h n (at' slots) temp x P k0 v0 ret d)
    (hfree : at' slots x = none) :
    ∃ slots' r e, emplaceLoop asg n hash (fuel + 1) slots temp x ret = .ok (slots', r, true) ∧
      slots'.length = n ∧ Good h n (at' slots') ∧ (∀ k v, P k v ↔ Has n (at' slots') k v) ∧
      r < n ∧ at' slots' r = some e ∧ e.key = k0 ∧ e.val = v0 ∧
      slots'.countP Option.isSome = slots.countP Option.isSome + 1 := by
  have hn2 := PowTwo.ge hn
  have hx : x < n := by rw [inv.tpos.2]; exact Nat.mod_lt _ (by omega)
  have hx' : x < slots.length := Nat.lt_of_lt_of_eq hx hl.symm
  have hset := at'_set hx' (some temp)
  have hgood : Good h n (at' (slots.set x (some temp))) :=
    inv.good.put hn2 hx hset inv.tpos inv.pred (fun i hi _ e he => inv.fresh i hi e he)
      (fun e he => by rw [hfree] at he; cases he)
  have hret : ∃ e, at' (slots.set x (some temp)) (ret.getD x) = some e ∧
      e.key = k0 ∧ e.val = v0 ∧ ret.getD x < n := by
    have := inv.ret
    cases ret with
    | none => exact ⟨temp, by simp [hset], this.1, this.2, hx⟩
    | some r =>
      obtain ⟨s, e, hs0, hsn, hr, hrs, he, hk, hv⟩ := this
      have hne : r ≠ x := by rw [← hrs]; exact fun h => add_mod_ne hr hs0 (by omega) h.symm
      exact ⟨e, by simp [hset, hne, he], hk, hv, hr⟩
  obtain ⟨e, he1, he2, he3, he4⟩ := hret
  refine ⟨slots.set x (some temp), ret.getD x, e, ?_, by simp [hl], hgood,
    ?_, he4, he1, he2, he3, ?_⟩
  · simp only [emplaceLoop, hx, if_true, getElem?_at' hx', hfree]
  · intro k v
    rw [inv.mem]
    constructor
    · rintro (⟨i, e, hi, he, hk, hv⟩ | ⟨hk, hv⟩)
      · have hne : i ≠ x := by rintro rfl; rw [hfree] at he; cases he
        exact ⟨i, e, hi, by simp [hset, hne, he], hk, hv⟩
      · exact ⟨x, temp, hx, by simp [hset], hk, hv⟩
    · rintro ⟨i, e, hi, he, hk, hv⟩
      rw [hset] at he
      split at he
      · cases he; exact .inr ⟨hk, hv⟩
      · exact .inl ⟨i, e, hi, he, hk, hv⟩
  · have hge : slots[x] = none := by
      have := getElem?_at' hx'
      rw [hfree, List.getElem?_eq_getElem hx'] at this
      simpa using this
    rw [List.countP_set hx']
    simp [hge]

theorem emplaceLoop_new {h : K → Nat} {n : Nat} (asg : Bool) (hash : Nat) (hn : PowTwo n)
    (P : K → V → Prop) (k0 : K) (v0 : V) :
    ∀ (d fuel : Nat) (slots : List (Option (HEntry K V))) (temp : HEntry K V) (x : Nat) (ret : Option Nat),
      slots.length = n → EInv h n (at' slots) temp x P k0 v0 ret d → d < fuel →
      ∃ slots' r e, emplaceLoop asg n hash fuel slots temp x ret = .ok (slots', r, true) ∧
        slots'.length = n ∧ Good h n (at' slots') ∧ (∀ k v, P k v ↔ Has n (at' slots') k v) ∧
        r < n ∧ at' slots' r = some e ∧ e.key = k0 ∧ e.val = v0 ∧
        slots'.countP Option.isSome = slots.countP Option.isSome + 1 := by
  have hn2 := PowTwo.ge hn
  intro d
  induction d with
  | zero =>
    intro fuel slots temp x ret hl inv hf
    obtain ⟨fuel, rfl⟩ : ∃ f, fuel = f + 1 := ⟨fuel - 1, by omega⟩
    have hx : x < n := by rw [inv.tpos.2]; exact Nat.mod_lt _ (by omega)
    refine emplaceLoop_fill asg hash hn P k0 v0 0 fuel slots temp x ret hl inv ?_
    have := inv.free
    rwa [Nat.add_zero, Nat.mod_eq_of_lt hx] at this
  | succ d ih =>
    intro fuel slots temp x ret hl inv hf
    obtain ⟨fuel, rfl⟩ : ∃ f, fuel = f + 1 := ⟨fuel - 1, by omega⟩
    have hx : x < n := by rw [inv.tpos.2]; exact Nat.mod_lt _ (by omega)
    have hx' : x < slots.length := Nat.lt_of_lt_of_eq hx hl.symm
    have hidx : mod2n (x + 1) n = (x + 1) % n := mod2n_eq hn _
    have hxd : ((x + 1) % n + d) % n = (x + (d + 1)) % n := by
      rw [Nat.mod_add_mod]; congr 1; omega
    have hfin := inv.dlt
    cases hs : at' slots x with
    | none => exact emplaceLoop_fill asg hash hn P k0 v0 _ fuel slots temp x ret hl inv hs
    | some e =>
      have hne : ¬ (e.hash = hash ∧ e.key = temp.key) := fun hk => inv.fresh x hx e hs hk.2
      by_cases hp : temp.psl > e.psl
      · -- displace
        have hset := at'_set hx' (some temp)
        have inv' : EInv h n (at' (slots.set x (some temp))) { e with psl := e.psl + 1 } ((x + 1) % n) P k0 v0
            (some (ret.getD x)) d := by
          refine ⟨?_, ?_, ?_, ?_, ?_, ?_, by omega, ?_⟩
          · exact inv.good.put hn2 hx hset inv.tpos inv.pred (fun i hi _ e he => inv.fresh i hi e he)
              (fun e' he' => by rw [hs] at he'; cases he'; omega)
          · obtain ⟨h1, h2⟩ := inv.good.pos x hx e hs
            refine ⟨h1, ?_⟩
            conv => lhs; rw [h2]
            rw [Nat.mod_add_mod]; rfl
          · intro _ i hi hix
            have : i = x := succ_mod_inj hi hx hix
            subst this
            exact ⟨temp, by simp [hset], by simp; omega⟩
          · intro i hi e' he'
            rw [hset] at he'
            split at he'
            · cases he'
              exact fun hk => inv.fresh x hx e hs hk.symm
            · rename_i hix
              exact fun hk => hix (inv.good.uniq i x hi hx e' e he' hs hk)
          · intro k v
            rw [inv.mem]
            constructor
            · rintro (⟨i, e', hi, he', hk, hv⟩ | ⟨hk, hv⟩)
              · by_cases hix : i = x
                · subst hix; rw [hs] at he'; cases he'
                  exact .inr ⟨hk, hv⟩
                · exact .inl ⟨i, e', hi, by simp [hset, hix, he'], hk, hv⟩
              · exact .inl ⟨x, temp, hx, by simp [hset], hk, hv⟩
            · rintro (⟨i, e', hi, he', hk, hv⟩ | ⟨hk, hv⟩)
              · rw [hset] at he'
                split at he'
                · cases he'; exact .inr ⟨hk, hv⟩
                · exact .inl ⟨i, e', hi, he', hk, hv⟩
              · exact .inl ⟨x, e, hx, hs, hk, hv⟩
          · rw [hxd, hset]
            have hfr := inv.free
            rw [if_neg]
            · exact hfr
            · intro hc; rw [hc, hs] at hfr; cases hfr
          · have hr := inv.ret
            cases ret with
            | none =>
              exact ⟨1, temp, by omega, by omega, hx, rfl, by simp [hset], hr.1, hr.2⟩
            | some r =>
              obtain ⟨s, e', hs0, hsn, hr, hrs, he, hk, hv⟩ := hr
              have hne : r ≠ x := by rw [← hrs]; exact fun h => add_mod_ne hr hs0 (by omega) h.symm
              refine ⟨s + 1, e', by omega, by omega, hr, ?_, by simp [hset, hne, he], hk, hv⟩
              rw [← hrs, Nat.mod_add_mod]; rfl
        obtain ⟨slots', r, e', h1, h2, h3, h4, h5, h6, h7, h8, h9⟩ :=
          ih fuel (slots.set x (some temp)) _ _ _ (by simp [hl]) inv' (by omega)
        refine ⟨slots', r, e', ?_, h2, h3, h4, h5, h6, h7, h8, ?_⟩
        · simp only [emplaceLoop, hx, if_true, getElem?_at' hx', hs, if_neg hne, if_pos hp, hidx]
          exact h1
        · rw [h9, List.countP_set hx']
          have hge : slots[x] = some e := by
            have := getElem?_at' hx'
            rw [hs, List.getElem?_eq_getElem hx'] at this
            simpa using this
          have hpos : 0 < slots.countP Option.isSome :=
            List.countP_pos_iff.2 ⟨some e, hge ▸ List.getElem_mem hx', rfl⟩
          simp [hge]; omega
      · -- walk on
        have inv' : EInv h n (at' slots) { temp with psl := temp.psl + 1 } ((x + 1) % n) P k0 v0 ret d := by
          refine ⟨inv.good, ?_, ?_, inv.fresh, inv.mem, by rw [hxd]; exact inv.free, by omega, ?_⟩
          · obtain ⟨h1, h2⟩ := inv.tpos
            refine ⟨h1, ?_⟩
            conv => lhs; rw [h2]
            rw [Nat.mod_add_mod]; rfl
          · intro _ i hi hix
            have : i = x := succ_mod_inj hi hx hix
            subst this
            exact ⟨e, hs, by simp; omega⟩
          · have hr := inv.ret
            cases ret with
            | none => exact hr
            | some r =>
              obtain ⟨s, e', hs0, hsn, hr, hrs, he, hk, hv⟩ := hr
              refine ⟨s + 1, e', by omega, by omega, hr, ?_, he, hk, hv⟩
              rw [← hrs, Nat.mod_add_mod]; rfl
        obtain ⟨slots', r, e', h1, h2⟩ := ih fuel slots _ _ _ hl inv' (by omega)
        refine ⟨slots', r, e', ?_, h2⟩
        simp only [emplaceLoop, hx, if_true, getElem?_at' hx', hs, if_neg hne, if_neg hp, hidx]
        exact h1

end HTable
end CoEcs
