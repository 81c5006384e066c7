import Verif.Model.HashThrow
import Verif.Proofs.HashTableRefine
import Verif.Proofs.SparseTable

set_option linter.unusedSimpArgs false

namespace CoEcs
open Spec

/-- With enough fuel, always the outcome `a`. -/
def EvTry {α β : Type _} (x : Nat → Tried α β) (a : Tried α β) : Prop := ∃ F, ∀ f, F ≤ f → x f = a

namespace HTable
variable {K V : Type} [DecidableEq K]

theorem EInv.walk {h : K → Nat} {n : Nat} (hn : PowTwo n) {P : K → V → Prop} {k0 : K} {v0 : V} {d : Nat}
    {slots : List (Option (HEntry K V))} {temp e : HEntry K V} {x : Nat} {ret : Option Nat}
    (inv : EInv h n (at' slots) temp x P k0 v0 ret (d + 1)) (hs : at' slots x = some e) (hp : ¬ temp.psl > e.psl) :
    EInv h n (at' slots) { temp with psl := temp.psl + 1 } ((x + 1) % n) P k0 v0 ret d := by
  have hn2 := PowTwo.ge hn
  have hx : x < n := by rw [inv.tpos.2]; exact Nat.mod_lt _ (by omega)
  have hxd : ((x + 1) % n + d) % n = (x + (d + 1)) % n := by
    rw [Nat.mod_add_mod]; congr 1; omega
  have hfin := inv.dlt
  refine ⟨inv.good, ?_, ?_, inv.fresh, inv.mem, by rw [hxd]; exact inv.free, by omega, ?_⟩
  · obtain ⟨h1, h2⟩ := inv.tpos
    refine ⟨h1, ?_⟩
    conv => lhs; rw [h2]
    rw [Nat.mod_add_mod]; rfl
  · intro _ i hi hix
    have : i = x := succ_mod_inj hi hx hix
    subst this
    exact ⟨e, hs, by simp; omega⟩
  · have hr := inv.ret
    cases ret with
    | none => exact hr
    | some r =>
      obtain ⟨s, e', hs0, hsn, hr, hrs, he, hk, hv⟩ := hr
      refine ⟨s + 1, e', by omega, by omega, hr, ?_, he, hk, hv⟩
      rw [← hrs, Nat.mod_add_mod]; rfl

theorem EInv.displace {h : K → Nat} {n : Nat} (hn : PowTwo n) {P : K → V → Prop} {k0 : K} {v0 : V} {d : Nat}
    {slots : List (Option (HEntry K V))} {temp e : HEntry K V} {x : Nat} {ret : Option Nat} (hl : slots.length = n)
    (inv : EInv h n (at' slots) temp x P k0 v0 ret (d + 1)) (hs : at' slots x = some e) (hp : temp.psl > e.psl) :
    EInv h n (at' (slots.set x (some temp))) { e with psl := e.psl + 1 } ((x + 1) % n) P k0 v0
      (some (ret.getD x)) d := by
  have hn2 := PowTwo.ge hn
  have hx : x < n := by rw [inv.tpos.2]; exact Nat.mod_lt _ (by omega)
  have hx' : x < slots.length := Nat.lt_of_lt_of_eq hx hl.symm
  have hxd : ((x + 1) % n + d) % n = (x + (d + 1)) % n := by
    rw [Nat.mod_add_mod]; congr 1; omega
  have hfin := inv.dlt
  have hset := at'_set hx' (some temp)
  refine ⟨?_, ?_, ?_, ?_, ?_, ?_, by omega, ?_⟩
  · exact inv.good.put hn2 hx hset inv.tpos inv.pred (fun i hi _ e he => inv.fresh i hi e he)
      (fun e' he' => by rw [hs] at he'; cases he'; omega)
  · obtain ⟨h1, h2⟩ := inv.good.pos x hx e hs
    refine ⟨h1, ?_⟩
    conv => lhs; rw [h2]
    rw [Nat.mod_add_mod]; rfl
  · intro _ i hi hix
    have : i = x := succ_mod_inj hi hx hix
    subst this
    exact ⟨temp, by simp [hset], by simp; omega⟩
  · intro i hi e' he'
    rw [hset] at he'
    split at he'
    · cases he'
      exact fun hk => inv.fresh x hx e hs hk.symm
    · rename_i hix
      exact fun hk => hix (inv.good.uniq i x hi hx e' e he' hs hk)
  · intro k v
    rw [inv.mem]
    constructor
    · rintro (⟨i, e', hi, he', hk, hv⟩ | ⟨hk, hv⟩)
      · by_cases hix : i = x
        · subst hix; rw [hs] at he'; cases he'
          exact .inr ⟨hk, hv⟩
        · exact .inl ⟨i, e', hi, by simp [hset, hix, he'], hk, hv⟩
      · exact .inl ⟨x, temp, hx, by simp [hset], hk, hv⟩
    · rintro (⟨i, e', hi, he', hk, hv⟩ | ⟨hk, hv⟩)
      · rw [hset] at he'
        split at he'
        · cases he'; exact .inr ⟨hk, hv⟩
        · exact .inl ⟨i, e', hi, he', hk, hv⟩
      · exact .inl ⟨x, e, hx, hs, hk, hv⟩
  · rw [hxd, hset]
    have hfr := inv.free
    rw [if_neg]
    · exact hfr
    · intro hc; rw [hc, hs] at hfr; cases hfr
  · have hr := inv.ret
    cases ret with
    | none =>
      exact ⟨1, temp, by omega, by omega, hx, rfl, by simp [hset], hr.1, hr.2⟩
    | some r =>
      obtain ⟨s, e', hs0, hsn, hr, hrs, he, hk, hv⟩ := hr
      have hne : r ≠ x := by rw [← hrs]; exact fun h => add_mod_ne hr hs0 (by omega) h.symm
      refine ⟨s + 1, e', by omega, by omega, hr, ?_, by simp [hset, hne, he], hk, hv⟩
      rw [← hrs, Nat.mod_add_mod]; rfl

theorem count_set_some {slots : List (Option (HEntry K V))} {x : Nat} {e a : HEntry K V} (hx : x < slots.length)
    (hs : at' slots x = some e) : (slots.set x (some a)).countP Option.isSome = slots.countP Option.isSome := by
  have hge : slots[x] = some e := by
    have := getElem?_at' hx
    rw [hs, List.getElem?_eq_getElem hx] at this
    simpa using this
  have hpos : 0 < slots.countP Option.isSome :=
    List.countP_pos_iff.2 ⟨some e, hge ▸ List.getElem_mem hx, rfl⟩
  rw [List.countP_set hx]
  simp [hge]; omega

/-- What the loop leaves when it throws: a table without one element, `temp`. -/
structure Lacks (h : K → Nat) (n : Nat) (slots0 slots : List (Option (HEntry K V))) (P : K → V → Prop) (k0 : K) (v0 : V)
    (k1 : K) (v1 : V) : Prop where
  len : slots.length = n
  good : Good h n (at' slots)
  cnt : slots.countP Option.isSome = slots0.countP Option.isSome
  fresh : ∀ i, i < n → ∀ e, at' slots i = some e → e.key ≠ k1
  mem : ∀ k v, P k v ↔ Has n (at' slots) k v ∨ (k1 = k ∧ v1 = v)
  new : k1 = k0 ∧ v1 = v0 ∧ slots = slots0 ∨ Has n (at' slots) k0 v0

/-- The outcome of the loop for a key that is not there. -/
def LoopOut (h : K → Nat) (n hash : Nat) (asg : Bool) (d : Nat) (slots0 : List (Option (HEntry K V))) (temp : HEntry K V)
    (x : Nat) (ret : Option Nat) (P : K → V → Prop) (k0 : K) (v0 : V) (fail : Option Nat) :
    Tried (List (Option (HEntry K V)) × Nat × Bool) (List (Option (HEntry K V))) → Prop
  | .ok r => fail ≠ some 0 ∧ ∀ fuel, d < fuel → emplaceLoop asg n hash fuel slots0 temp x ret = .ok r
  | .threw slots => fail ≠ none ∧ (fail = some 0 → slots = slots0) ∧ ∃ k1 v1, Lacks h n slots0 slots P k0 v0 k1 v1
  | _ => False

theorem emplaceLoopTry_fill {h : K → Nat} {n : Nat} (asg : Bool) (hash : Nat) (hn : PowTwo n)
    (P : K → V → Prop) (k0 : K) (v0 : V)
    (d : Nat) (slots : List (Option (HEntry K V))) (temp : HEntry K V) (x : Nat) (ret : Option Nat) (fail : Option Nat)
    (hl : slots.length = n) (inv : EInv h n (at' slots) temp x P k0 v0 ret d)
    (hfree : at' slots x = none) :
    ∃ out, (∀ fuel, d < fuel → emplaceLoopTry asg n hash fuel slots temp x ret fail = out) ∧
      LoopOut h n hash asg d slots temp x ret P k0 v0 fail out := by
  have hn2 := PowTwo.ge hn
  have hx : x < n := by rw [inv.tpos.2]; exact Nat.mod_lt _ (by omega)
  have hx' : x < slots.length := Nat.lt_of_lt_of_eq hx hl.symm
  by_cases hf : fail = some 0
  · refine ⟨.threw slots, fun fuel hd => ?_, ?_⟩
    · obtain ⟨fuel, rfl⟩ : ∃ f, fuel = f + 1 := ⟨fuel - 1, by omega⟩
      simp only [emplaceLoopTry, hx, if_true, getElem?_at' hx', hfree, hf]
    · refine ⟨by rw [hf]; simp, fun _ => rfl, temp.key, temp.val, hl, inv.good, rfl, inv.fresh, inv.mem, ?_⟩
      have hr := inv.ret
      cases ret with
      | none => exact .inl ⟨hr.1, hr.2, rfl⟩
      | some r =>
        obtain ⟨s, e, _, _, hr, _, he, hk, hv⟩ := hr
        exact .inr ⟨r, e, hr, he, hk, hv⟩
  · refine ⟨.ok (slots.set x (some temp), ret.getD x, true), fun fuel hd => ?_, hf, fun fuel hd => ?_⟩
    · obtain ⟨fuel, rfl⟩ : ∃ f, fuel = f + 1 := ⟨fuel - 1, by omega⟩
      simp only [emplaceLoopTry, hx, if_true, getElem?_at' hx', hfree, if_neg hf]
    · obtain ⟨fuel, rfl⟩ : ∃ f, fuel = f + 1 := ⟨fuel - 1, by omega⟩
      simp only [emplaceLoop, hx, if_true, getElem?_at' hx', hfree]

theorem oneDone_ne {fail : Option Nat} (h : fail ≠ none) : oneDone fail ≠ none := by
  cases fail with
  | none => exact absurd rfl h
  | some j => simp [oneDone]

theorem ne_of_oneDone {fail : Option Nat} (h : oneDone fail ≠ none) : fail ≠ none := by
  rintro rfl; exact h rfl

theorem emplaceLoopTry_new {h : K → Nat} {n : Nat} (asg : Bool) (hash : Nat) (hn : PowTwo n)
    (P : K → V → Prop) (k0 : K) (v0 : V) :
    ∀ (d : Nat) (slots : List (Option (HEntry K V))) (temp : HEntry K V) (x : Nat) (ret : Option Nat) (fail : Option Nat),
      slots.length = n → EInv h n (at' slots) temp x P k0 v0 ret d →
      ∃ out, (∀ fuel, d < fuel → emplaceLoopTry asg n hash fuel slots temp x ret fail = out) ∧
        LoopOut h n hash asg d slots temp x ret P k0 v0 fail out := by
  have hn2 := PowTwo.ge hn
  intro d
  induction d with
  | zero =>
    intro slots temp x ret fail hl inv
    have hx : x < n := by rw [inv.tpos.2]; exact Nat.mod_lt _ (by omega)
    refine emplaceLoopTry_fill asg hash hn P k0 v0 0 slots temp x ret fail hl inv ?_
    have := inv.free
    rwa [Nat.add_zero, Nat.mod_eq_of_lt hx] at this
  | succ d ih =>
    intro slots temp x ret fail hl inv
    have hx : x < n := by rw [inv.tpos.2]; exact Nat.mod_lt _ (by omega)
    have hx' : x < slots.length := Nat.lt_of_lt_of_eq hx hl.symm
    have hidx : mod2n (x + 1) n = (x + 1) % n := mod2n_eq hn _
    cases hs : at' slots x with
    | none => exact emplaceLoopTry_fill asg hash hn P k0 v0 _ slots temp x ret fail hl inv hs
    | some e =>
      have hne : ¬ (e.hash = hash ∧ e.key = temp.key) := fun hk => inv.fresh x hx e hs hk.2
      by_cases hp : temp.psl > e.psl
      · by_cases hf : fail = some 0
        · refine ⟨.threw slots, fun fuel hd => ?_, ?_⟩
          · obtain ⟨fuel, rfl⟩ : ∃ f, fuel = f + 1 := ⟨fuel - 1, by omega⟩
            simp only [emplaceLoopTry, hx, if_true, getElem?_at' hx', hs, if_neg hne, if_pos hp, hf]
          · refine ⟨by rw [hf]; simp, fun _ => rfl, temp.key, temp.val, hl, inv.good, rfl, inv.fresh, inv.mem, ?_⟩
            have hr := inv.ret
            cases ret with
            | none => exact .inl ⟨hr.1, hr.2, rfl⟩
            | some r =>
              obtain ⟨s, e, _, _, hr, _, he, hk, hv⟩ := hr
              exact .inr ⟨r, e, hr, he, hk, hv⟩
        · have inv' := inv.displace hn hl hs hp
          obtain ⟨out, h1, h2⟩ := ih (slots.set x (some temp)) _ _ _ (oneDone fail) (by simp [hl]) inv'
          refine ⟨out, fun fuel hd => ?_, ?_⟩
          · obtain ⟨fuel, rfl⟩ : ∃ f, fuel = f + 1 := ⟨fuel - 1, by omega⟩
            simp only [emplaceLoopTry, hx, if_true, getElem?_at' hx', hs, if_neg hne, if_pos hp, if_neg hf, hidx]
            exact h1 fuel (by omega)
          · cases out with
            | ok r =>
              refine ⟨hf, fun fuel hd => ?_⟩
              obtain ⟨fuel, rfl⟩ : ∃ f, fuel = f + 1 := ⟨fuel - 1, by omega⟩
              simp only [emplaceLoop, hx, if_true, getElem?_at' hx', hs, if_neg hne, if_pos hp, hidx]
              exact h2.2 fuel (by omega)
            | threw s =>
              obtain ⟨h3, h4, k1, v1, l⟩ := h2
              refine ⟨ne_of_oneDone h3, fun hc => absurd hc hf, k1, v1, l.len, l.good, ?_, l.fresh, l.mem, ?_⟩
              · rw [l.cnt, count_set_some hx' hs]
              · rcases l.new with ⟨hk, hv, hsl⟩ | hh
                · have hr := inv'.ret
                  obtain ⟨s', e', _, _, hr, _, he, hk', hv'⟩ := hr
                  exact .inr ⟨_, e', hr, by rw [hsl]; exact he, hk', hv'⟩
                · exact .inr hh
            | ub => exact h2
            | stuck => exact h2
      · have inv' := inv.walk hn hs hp
        obtain ⟨out, h1, h2⟩ := ih slots _ _ _ fail hl inv'
        refine ⟨out, fun fuel hd => ?_, ?_⟩
        · obtain ⟨fuel, rfl⟩ : ∃ f, fuel = f + 1 := ⟨fuel - 1, by omega⟩
          simp only [emplaceLoopTry, hx, if_true, getElem?_at' hx', hs, if_neg hne, if_neg hp, hidx]
          exact h1 fuel (by omega)
        · cases out with
          | ok r =>
            refine ⟨h2.1, fun fuel hd => ?_⟩
            obtain ⟨fuel, rfl⟩ : ∃ f, fuel = f + 1 := ⟨fuel - 1, by omega⟩
            simp only [emplaceLoop, hx, if_true, getElem?_at' hx', hs, if_neg hne, if_neg hp, hidx]
            exact h2.2 fuel (by omega)
          | threw s => exact h2
          | ub => exact h2
          | stuck => exact h2

/-- The map without the last element that was displaced, or the map as it was. -/
def LostOne (m : KeyMap K V) (k : K) (v : V) (m' : KeyMap K V) : Prop :=
  ∃ k1, k1 ≠ k ∧ (m.get k1).isSome = true ∧ m' = (m.put k v).del k1

theorem HRel.emplaceRawTry_new {h : K → Nat} {t : HTable K V} {m : KeyMap K V} (r : HRel h t m) (asg : Bool)
    {k : K} (v : V) (hg : m.get k = none) (hsz : t.size < t.n) (fail : Option Nat) :
    ∃ out, (∀ fuel, t.n ≤ fuel → t.emplaceRawTry h asg fuel k v fail = out) ∧
      match out with
      | .ok x => fail ≠ some 0 ∧ fail ≠ some 1 ∧ ∀ fuel, t.n ≤ fuel → t.emplaceRaw h asg fuel k v = .ok x
      | .threw t' => fail ≠ none ∧ (t' = t ∨ fail ≠ some 0 ∧ fail ≠ some 1 ∧ ∃ m', LostOne m k v m' ∧ HRel h t' m')
      | _ => False := by
  by_cases hf : fail = some 0
  · exact ⟨.threw t, fun fuel _ => by simp [HTable.emplaceRawTry, hf], by rw [hf]; simp, .inl rfl⟩
  have hn2 := r.pow.ge
  have hx : h k % t.n < t.n := Nat.mod_lt _ (by omega)
  obtain ⟨i, hi, hif⟩ := exists_free (l := t.slots) (by rw [← r.size, r.len]; exact hsz)
  rw [r.len] at hi
  have hd : (h k % t.n + (i + t.n - h k % t.n) % t.n) % t.n = i := by
    rw [Nat.add_mod_mod, show h k % t.n + (i + t.n - h k % t.n) = i + t.n by omega, Nat.add_mod_right,
      Nat.mod_eq_of_lt hi]
  have inv : EInv h t.n (at' t.slots) ⟨h k, 0, k, v⟩ (h k % t.n)
      (fun k' v' => Has t.n (at' t.slots) k' v' ∨ (k = k' ∧ v = v')) k v none
      ((i + t.n - h k % t.n) % t.n) := by
    refine ⟨r.good, ⟨rfl, rfl⟩, fun h0 => absurd h0 (by simp), r.absent hg, fun _ _ => Iff.rfl, ?_, Nat.mod_lt _ (by omega),
      ⟨rfl, rfl⟩⟩
    rw [hd]; exact hif
  have hlt : (i + t.n - h k % t.n) % t.n < t.n := Nat.mod_lt _ (by omega)
  obtain ⟨out, h1, h2⟩ := emplaceLoopTry_new asg (h k) r.pow _ k v _ t.slots _ _ none (oneDone fail) r.len inv
  have h1' : ∀ fuel, t.n ≤ fuel → t.emplaceRawTry h asg fuel k v fail = afterLoop t out := by
    intro fuel hfu
    rw [HTable.emplaceRawTry, if_neg hf, mod2n_eq r.pow, h1 fuel (by omega)]
  refine ⟨_, h1', ?_⟩
  have hone : fail = some 1 → oneDone fail = some 0 := by rintro rfl; rfl
  cases out with
  | ok x =>
    refine ⟨hf, fun hc => h2.1 (hone hc), fun fuel hfu => ?_⟩
    simp only [HTable.emplaceRaw, mod2n_eq r.pow, h2.2 fuel (by omega), Run.bind]
  | threw s =>
    obtain ⟨h3, h4, k1, v1, l⟩ := h2
    refine ⟨ne_of_oneDone h3, ?_⟩
    rcases l.new with ⟨hk, hv, hs⟩ | hh
    · left; rw [hs]
    · by_cases h11 : fail = some 1
      · left; rw [h4 (hone h11)]
      right
      have hk1 : k1 ≠ k := by
        rintro rfl
        obtain ⟨i, e, hi, he, hk, _⟩ := hh
        exact l.fresh i hi e he hk
      have hin : m.get k1 = some v1 := by
        rw [r.mem]
        rcases (l.mem k1 v1).2 (.inr ⟨rfl, rfl⟩) with hh | ⟨hh, _⟩
        · exact hh
        · exact absurd hh.symm hk1
      refine ⟨hf, h11, _, ⟨k1, hk1, by rw [hin]; rfl, rfl⟩, r.pow, l.len, l.good, ?_, ?_, ?_⟩
      · intro k' v'
        simp only [KeyMap.del, KeyMap.put]
        have hm := l.mem k' v'
        by_cases e1 : k' = k1
        · subst e1
          rw [if_pos rfl]
          simp only [reduceCtorEq, false_iff]
          rintro ⟨i, e, hi, he, hk, _⟩
          exact l.fresh i hi e he hk
        · rw [if_neg e1]
          have e1' : ¬ (k1 = k' ∧ v1 = v') := fun hc => e1 hc.1.symm
          rw [or_iff_left e1'] at hm
          rw [← hm]
          by_cases e2 : k' = k
          · subst e2
            simp only [if_true, Option.some.injEq, true_and]
            constructor
            · exact .inr
            · rintro (hc | hc)
              · have := (r.mem k' v').2 hc
                rw [hg] at this; cases this
              · exact hc
          · rw [if_neg e2, r.mem]
            constructor
            · exact .inl
            · rintro (hc | ⟨hc, _⟩)
              · exact hc
              · exact absurd hc.symm e2
      · show t.size = _
        rw [l.cnt]; exact r.size
      · have := r.cnt
        simp [KeyMap.del, KeyMap.put, hg, hk1, hin, this]
  | ub => exact h2
  | stuck => exact h2

theorem HRel.emplaceRawTry_old {h : K → Nat} {t : HTable K V} {m : KeyMap K V} (r : HRel h t m) (asg : Bool)
    {k : K} (v v0 : V) (hg : m.get k = some v0) (fail : Option Nat) :
    ∃ out, EvTry (fun f => t.emplaceRawTry h asg f k v fail) out ∧
      match out with
      | .ok x => fail ≠ some 0 ∧ Ev (fun f => t.emplaceRaw h asg f k v) x
      | .threw t' => fail ≠ none ∧ t' = t
      | _ => False := by
  by_cases hf : fail = some 0
  · exact ⟨.threw t, ⟨0, fun fuel _ => by simp [HTable.emplaceRawTry, hf]⟩, by rw [hf]; simp, rfl⟩
  obtain ⟨i, e, hi, he, hk, hv⟩ := r.present hg
  subst hk
  have key : ∀ (d fuel j : Nat), e.psl = j + d → d < fuel →
      emplaceLoopTry asg t.n (h e.key) fuel t.slots ⟨h e.key, j, e.key, v⟩ ((h e.key + j) % t.n) none (oneDone fail) =
        if asg = true ∧ oneDone fail = some 0 then .threw t.slots
        else .ok (if asg then t.slots.set i (some { e with val := v }) else t.slots, i, false) := by
    have hn := r.pow
    have hn2 := r.pow.ge
    intro d
    induction d with
    | zero =>
      intro fuel j hj hfu
      obtain ⟨fuel, rfl⟩ : ∃ f, fuel = f + 1 := ⟨fuel - 1, by omega⟩
      obtain ⟨h1, h2⟩ := r.good.pos i hi e he
      have hidx : (h e.key + j) % t.n = i := by rw [h2, h1, hj]; rfl
      rw [hidx]
      simp only [emplaceLoopTry, hi, if_true, getElem?_at' (Nat.lt_of_lt_of_eq hi r.len.symm), he]
      rw [if_pos ⟨h1, trivial⟩]
      cases asg <;> simp
    | succ d ih =>
      intro fuel j hj hfu
      obtain ⟨fuel, rfl⟩ : ∃ f, fuel = f + 1 := ⟨fuel - 1, by omega⟩
      have hlt : (h e.key + j) % t.n < t.n := Nat.mod_lt _ (by omega)
      obtain ⟨e', h3, h4⟩ := r.good.chain hi he j (by omega)
      simp only [emplaceLoopTry, hlt, if_true, getElem?_at' (Nat.lt_of_lt_of_eq hlt r.len.symm), h3]
      by_cases hk : e'.hash = h e.key ∧ e'.key = e.key
      · rw [if_pos hk]
        have := r.good.uniq _ _ hlt hi e' e h3 he hk.2
        rw [this] at h3 ⊢
        rw [he] at h3; cases h3
        cases asg <;> simp
      · rw [if_neg hk, if_neg (by omega)]
        rw [mod2n_eq hn, Nat.mod_add_mod]
        exact ih fuel (j + 1) (by omega) (by omega)
  have h1 : ∀ f, e.psl + 1 ≤ f → t.emplaceRawTry h asg f e.key v fail =
      afterLoop t (if asg = true ∧ oneDone fail = some 0 then .threw t.slots
        else .ok (if asg then t.slots.set i (some { e with val := v }) else t.slots, i, false)) := by
    intro f hfu
    have := key e.psl f 0 (by omega) (by omega)
    rw [Nat.add_zero] at this
    rw [HTable.emplaceRawTry, if_neg hf, mod2n_eq r.pow, this]
  refine ⟨_, ⟨_, h1⟩, ?_⟩
  by_cases hc : asg = true ∧ oneDone fail = some 0
  · rw [if_pos hc]
    refine ⟨ne_of_oneDone (by rw [hc.2]; simp), rfl⟩
  · rw [if_neg hc]
    refine ⟨hf, e.psl + 1, fun f hfu => ?_⟩
    have := emplaceLoop_found asg r.pow r.len r.good hi he v e.psl f 0 (by omega) (by omega)
    rw [Nat.add_zero] at this
    simp [HTable.emplaceRaw, mod2n_eq r.pow, this, Run.bind]

/-- The table after the growth check. -/
theorem HRel.grown {h : K → Nat} {t : HTable K V} {m : KeyMap K V} (r : HRel h t m) :
    ∃ t1, Ev (fun f => if t.size > approx85 t.n then t.reserve h f (t.n <<< 1) else .ok t) t1 ∧
      HRel h t1 m ∧ t1.size < t1.n ∧ (t.size ≤ approx85 t.n → t1 = t) := by
  by_cases hc : t.size > approx85 t.n
  · obtain ⟨t1, h1, h2, h3⟩ := r.reserve (PowTwo.double r.pow)
    have hle := r.size_le
    have hn2 := r.pow.ge
    have hd : t.n <<< 1 = t.n * 2 := by rw [Nat.shiftLeft_eq]
    refine ⟨t1, h1.ev.congr (fun f => by simp [hc]), h2, ?_, by omega⟩
    have := h3 (by omega)
    have hs : t1.size = t.size := by rw [← h2.cnt, ← r.cnt]
    omega
  · refine ⟨t, (Ev.const t).congr (fun f => by simp [hc]), r, ?_, fun _ => rfl⟩
    have := approx85_lt (n := t.n) (by have := r.pow.ge; omega)
    omega

/-- `emplace` and `insert_or_assign` when an operation of the insertion throws. -/
theorem HRel.emplaceTry {h : K → Nat} {t : HTable K V} {m : KeyMap K V} (r : HRel h t m) (asg : Bool) (k : K) (v : V)
    (fail : Option Nat) :
    ∃ out, EvTry (fun f => t.emplaceTry h asg f k v fail) out ∧
      match out with
      | .ok x => fail ≠ some 0 ∧ Ev (fun f => t.emplace h asg f k v) x
      | .threw t' => fail ≠ none ∧ (HRel h t' m ∨ m.get k = none ∧ fail ≠ some 0 ∧ fail ≠ some 1 ∧
          ∃ m', LostOne m k v m' ∧ HRel h t' m')
      | _ => False := by
  obtain ⟨t1, h1, r1, hs1, _⟩ := r.grown
  obtain ⟨F1, hF1⟩ := h1
  cases hg : m.get k with
  | none =>
    obtain ⟨out, h2, h3⟩ := r1.emplaceRawTry_new asg v hg hs1 fail
    refine ⟨out, ⟨max F1 t1.n, fun f hf => ?_⟩, ?_⟩
    · show HTable.emplaceTry h asg f t k v fail = _
      have hb := hF1 f (by omega)
      simp only at hb
      rw [HTable.emplaceTry, hb]
      exact h2 f (by omega)
    · cases out with
      | ok x => exact ⟨h3.1, Ev.bind ⟨F1, hF1⟩ ⟨t1.n, h3.2.2⟩⟩
      | threw t' =>
        refine ⟨h3.1, ?_⟩
        rcases h3.2 with rfl | ⟨h4, h5, h6⟩
        · exact .inl r1
        · exact .inr ⟨rfl, h4, h5, h6⟩
      | ub => exact h3
      | stuck => exact h3
  | some v0 =>
    obtain ⟨out, ⟨F2, h2⟩, h3⟩ := r1.emplaceRawTry_old asg v v0 hg fail
    refine ⟨out, ⟨max F1 F2, fun f hf => ?_⟩, ?_⟩
    · show HTable.emplaceTry h asg f t k v fail = _
      have hb := hF1 f (by omega)
      simp only at hb
      rw [HTable.emplaceTry, hb]
      exact h2 f (by omega)
    · cases out with
      | ok x => exact ⟨h3.1, Ev.bind ⟨F1, hF1⟩ h3.2⟩
      | threw t' =>
        refine ⟨h3.1, ?_⟩
        rw [h3.2]
        exact .inl r1
      | ub => exact h3
      | stuck => exact h3

/-! ### Growth that throws -/

theorem emplaceLoopTry_run (asg : Bool) (n hash : Nat) : ∀ (fuel : Nat) (slots : List (Option (HEntry K V)))
    (temp : HEntry K V) (x : Nat) (ret fail : Option Nat),
    (∃ s, emplaceLoopTry asg n hash fuel slots temp x ret fail = .threw s) ∨
      emplaceLoopTry asg n hash fuel slots temp x ret fail = .ofRun (emplaceLoop asg n hash fuel slots temp x ret) := by
  intro fuel
  induction fuel with
  | zero => intro slots temp x ret fail; exact .inr rfl
  | succ fuel ih =>
    intro slots temp x ret fail
    simp only [emplaceLoopTry, emplaceLoop]
    generalize (if x < n then slots[x]? else none) = o
    rcases o with _ | _ | e
    rotate_left
    rotate_left
    · simp only
      split
      · cases asg
        · exact .inr rfl
        · by_cases hf : fail = some 0
          · left; exact ⟨slots, by simp [hf]⟩
          · right; simp [hf, Tried.ofRun]
      · split
        · by_cases hf : fail = some 0
          · left; exact ⟨slots, by simp [hf]⟩
          · rw [if_neg hf]; exact ih _ _ _ _ _
        · exact ih _ _ _ _ _
    · exact .inr rfl
    · by_cases hf : fail = some 0
      · left; exact ⟨slots, by simp [hf]⟩
      · right; simp [hf, Tried.ofRun]

theorem emplaceRawTry_run (h : K → Nat) (asg : Bool) (fuel : Nat) (t : HTable K V) (k : K) (v : V) (fail : Option Nat) :
    (∃ s, t.emplaceRawTry h asg fuel k v fail = .threw s) ∨
      t.emplaceRawTry h asg fuel k v fail = .ofRun (t.emplaceRaw h asg fuel k v) := by
  unfold HTable.emplaceRawTry HTable.emplaceRaw
  split
  · exact .inl ⟨t, rfl⟩
  · rcases emplaceLoopTry_run asg t.n (h k) fuel t.slots ⟨h k, 0, k, v⟩ (mod2n (h k) t.n) none (oneDone fail) with ⟨s, hs⟩ | hs
    · left; rw [hs]; exact ⟨_, rfl⟩
    · right; rw [hs]
      cases emplaceLoop asg t.n (h k) fuel t.slots ⟨h k, 0, k, v⟩ (mod2n (h k) t.n) none <;> rfl

theorem reinsertTry_run (h : K → Nat) (fuel : Nat) : ∀ (es : List (HEntry K V)) (t : HTable K V) (fail : Nat × Nat),
    (∃ c, c ≤ es.length ∧ fail.1 < es.length ∧ c = fail.1 + (if fail.2 = 0 then 0 else 1) ∧
      reinsertTry h fuel t es fail = .threw c) ∨
      reinsertTry h fuel t es fail = .ofRun (reinsert h fuel t es) := by
  intro es
  induction es with
  | nil => intro t fail; right; cases fail; simp [reinsertTry, reinsert, Tried.ofRun]
  | cons e es ih =>
    intro t fail
    obtain ⟨j, i⟩ := fail
    cases j with
    | zero =>
      rcases emplaceRawTry_run h false fuel t e.key e.val (some i) with ⟨s, hs⟩ | hs
      · left
        refine ⟨if i = 0 then 0 else 1, ?_, by simp, by simp, ?_⟩
        · split <;> simp
        · simp only [reinsertTry, hs]
      · right
        simp only [reinsertTry, hs, reinsert]
        cases t.emplaceRaw h false fuel e.key e.val <;> rfl
    | succ j =>
      simp only [reinsertTry, reinsert]
      cases hr : t.emplaceRaw h false fuel e.key e.val with
      | ub => exact .inr rfl
      | stuck => exact .inr rfl
      | ok r =>
        simp only [Run.bind]
        rcases ih r.1 (j, i) with ⟨c, h1, h2, h3, h4⟩ | h1
        · left
          refine ⟨c + 1, by simpa using h1, by simpa using h2, ?_, by rw [h4]⟩
          simp only at h3 ⊢; omega
        · right
          rw [h1]
          cases reinsert h fuel r.1 es <;> rfl

theorem reserveTry_run (h : K → Nat) (moved : K × V → K × V) (fuel : Nat) (t : HTable K V) (newSize : Nat)
    (fail : Nat × Nat) :
    (∃ c, reserveTry h moved fuel t newSize fail = .threw { t with slots := movedFirst moved c t.slots }) ∨
      reserveTry h moved fuel t newSize fail = .ofRun (t.reserve h fuel newSize) := by
  unfold HTable.reserveTry HTable.reserve
  split
  · exact .inr rfl
  · cases (mk' newSize : Run (HTable K V)) with
    | ub => exact .inr rfl
    | stuck => exact .inr rfl
    | ok fresh =>
      cases t.entries with
      | ub => exact .inr rfl
      | stuck => exact .inr rfl
      | ok es =>
        simp only [Run.bind]
        rcases reinsertTry_run h fuel es fresh fail with ⟨c, _, _, _, h1⟩ | h1
        · left; exact ⟨c, by rw [h1]⟩
        · right; rw [h1]
          cases reinsert h fuel fresh es <;> rfl

theorem emplaceGrowTry_run (h : K → Nat) (moved : K × V → K × V) (asg : Bool) (fuel : Nat) (t : HTable K V) (k : K) (v : V)
    (fail : Nat × Nat) :
    (∃ c, t.emplaceGrowTry h moved asg fuel k v fail = .threw { t with slots := movedFirst moved c t.slots }) ∨
      t.emplaceGrowTry h moved asg fuel k v fail = .ofRun (t.emplace h asg fuel k v) := by
  unfold HTable.emplaceGrowTry HTable.emplace
  split
  · rcases reserveTry_run h moved fuel t (t.n <<< 1) fail with ⟨c, h1⟩ | h1
    · left; exact ⟨c, by rw [h1]; rfl⟩
    · right; rw [h1]
      cases t.reserve h fuel (t.n <<< 1) <;> rfl
  · exact .inr rfl

theorem movedFirst_length (moved : K × V → K × V) (slots : List (Option (HEntry K V))) :
    ∀ c, (movedFirst moved c slots).length = slots.length := by
  induction slots with
  | nil => intro c; cases c <;> rfl
  | cons a slots ih =>
    intro c
    cases c with
    | zero => rfl
    | succ c => cases a <;> simp [movedFirst, ih]

theorem movedFirst_at (moved : K × V → K × V) (slots : List (Option (HEntry K V))) :
    ∀ c i, at' (movedFirst moved c slots) i = at' slots i ∨
      at' (movedFirst moved c slots) i = (at' slots i).map (HEntry.moved moved) := by
  induction slots with
  | nil => intro c i; left; cases c <;> rfl
  | cons a slots ih =>
    intro c i
    cases c with
    | zero => exact .inl rfl
    | succ c =>
      cases a with
      | none =>
        cases i with
        | zero => exact .inl rfl
        | succ i => simpa [movedFirst, at'] using ih (c + 1) i
      | some e =>
        cases i with
        | zero => right; simp [movedFirst, at']
        | succ i => simpa [movedFirst, at'] using ih c i

theorem movedFirst_count (moved : K × V → K × V) (slots : List (Option (HEntry K V))) :
    ∀ c, (movedFirst moved c slots).countP Option.isSome = slots.countP Option.isSome := by
  induction slots with
  | nil => intro c; cases c <;> rfl
  | cons a slots ih =>
    intro c
    cases c with
    | zero => rfl
    | succ c => cases a <;> simp [movedFirst, ih]

/-- The keys of a map survive, the values are as they were or moved from. -/
def SameKeys (moved : K × V → K × V) (m m' : KeyMap K V) : Prop :=
  m'.count = m.count ∧ ∀ k, m'.get k = m.get k ∨ m'.get k = (m.get k).map fun v => (moved (k, v)).2

open Classical in
theorem HRel.movedFirst {h : K → Nat} {t : HTable K V} {m : KeyMap K V} (r : HRel h t m) (moved : K × V → K × V)
    (hk : ∀ kv, (moved kv).1 = kv.1) (c : Nat) :
    ∃ m', SameKeys moved m m' ∧ HRel h { t with slots := movedFirst moved c t.slots } m' := by
  have hat : ∀ i e', at' (HTable.movedFirst moved c t.slots) i = some e' →
      ∃ e, at' t.slots i = some e ∧ e'.hash = e.hash ∧ e'.psl = e.psl ∧ e'.key = e.key ∧
        (e'.val = e.val ∨ e'.val = (moved (e.key, e.val)).2) := by
    intro i e' he'
    rcases movedFirst_at moved t.slots c i with h1 | h1
    · exact ⟨e', by rw [← h1]; exact he', rfl, rfl, rfl, .inl rfl⟩
    · rw [h1] at he'
      simp only [Option.map_eq_some_iff] at he'
      obtain ⟨e, he, rfl⟩ := he'
      exact ⟨e, he, rfl, rfl, hk _, .inr rfl⟩
  have hat2 : ∀ i e, at' t.slots i = some e → ∃ e', at' (HTable.movedFirst moved c t.slots) i = some e' := by
    intro i e he
    rcases movedFirst_at moved t.slots c i with h1 | h1
    · exact ⟨e, by rw [h1]; exact he⟩
    · exact ⟨HEntry.moved moved e, by rw [h1, he]; rfl⟩
  have hps : ∀ i, psls (at' (HTable.movedFirst moved c t.slots)) i = psls (at' t.slots) i := by
    intro i
    rcases movedFirst_at moved t.slots c i with h1 | h1
    · simp only [psls, h1]
    · simp only [psls, h1, Option.map_map]
      rfl
  have hg : Good h t.n (at' (HTable.movedFirst moved c t.slots)) := by
    refine ⟨?_, ?_, ?_⟩
    · intro i hi e' he'
      obtain ⟨e, he, h1, h2, h3, _⟩ := hat i e' he'
      rw [h1, h2, h3]
      exact r.good.pos i hi e he
    · intro i hi p hp hp0
      rw [hps] at hp ⊢
      exact r.good.rh i hi p hp hp0
    · intro i j hi hj e e' he he' hkk
      obtain ⟨a, ha, _, _, h3, _⟩ := hat i e he
      obtain ⟨b, hb, _, _, h4, _⟩ := hat j e' he'
      exact r.good.uniq i j hi hj a b ha hb (by rw [← h3, ← h4]; exact hkk)
  refine ⟨⟨fun k => if hx : ∃ v, Has t.n (at' (HTable.movedFirst moved c t.slots)) k v then some hx.choose else none, m.count⟩,
    ⟨rfl, fun k => ?_⟩, r.pow, ?_, hg, ?_, ?_, r.cnt⟩
  · simp only
    split
    · rename_i hx
      obtain ⟨i, e', hi, he', hk1, hv⟩ := hx.choose_spec
      obtain ⟨e, he, _, _, h3, h4⟩ := hat i e' he'
      have hm : m.get k = some e.val := (r.mem k e.val).2 ⟨i, e, hi, he, by rw [← h3]; exact hk1, rfl⟩
      rw [← hv]
      rcases h4 with h4 | h4
      · left; rw [hm, h4]
      · right; rw [hm, h4, ← h3, hk1]; rfl
    · rename_i hx
      have hm : m.get k = none := by
        cases hc : m.get k with
        | none => rfl
        | some v =>
          obtain ⟨i, e, hi, he, hk1, hv⟩ := (r.mem k v).1 hc
          obtain ⟨e', he'⟩ := hat2 i e he
          obtain ⟨a, ha, _, _, h3, _⟩ := hat i e' he'
          rw [he] at ha; cases ha
          exact absurd ⟨e'.val, i, e', hi, he', by rw [h3]; exact hk1, rfl⟩ hx
      left; rw [hm]
  · show (HTable.movedFirst moved c t.slots).length = t.n
    rw [movedFirst_length]; exact r.len
  · intro k v
    show (if hx : ∃ v, Has t.n (at' (HTable.movedFirst moved c t.slots)) k v then some hx.choose else none) = some v ↔
      Has t.n (at' (HTable.movedFirst moved c t.slots)) k v
    split
    · rename_i hx
      have hsp := hx.choose_spec
      constructor
      · intro he; simp only [Option.some.injEq] at he; rw [← he]; exact hsp
      · rintro ⟨i, e, hi, he, hk1, hv⟩
        obtain ⟨i', e', hi', he', hk2, hv'⟩ := hsp
        have := hg.uniq i i' hi hi' e e' he he' (by rw [hk1, hk2])
        subst this
        rw [he] at he'; cases he'
        rw [← hv', hv]
    · rename_i hx
      simp only [reduceCtorEq, false_iff]
      exact fun hc => hx ⟨v, hc⟩
  · show t.size = (HTable.movedFirst moved c t.slots).countP Option.isSome
    rw [movedFirst_count]; exact r.size

/-- `emplace` and `insert_or_assign` when an operation of the growth throws and moving leaves the key readable. -/
theorem HRel.emplaceGrowTry {h : K → Nat} {t : HTable K V} {m : KeyMap K V} (r : HRel h t m) (moved : K × V → K × V)
    (hk : ∀ kv, (moved kv).1 = kv.1) (asg : Bool) (k : K) (v : V) (fail : Nat × Nat) :
    ∃ F, ∀ f, F ≤ f → (∃ x, t.emplaceGrowTry h moved asg f k v fail = .ok x ∧ Ev (fun f => t.emplace h asg f k v) x) ∨
      ∃ t' m', t.emplaceGrowTry h moved asg f k v fail = .threw t' ∧ SameKeys moved m m' ∧ HRel h t' m' := by
  obtain ⟨t1, i, e, ⟨F, hF⟩, _⟩ := r.emplace asg k v
  refine ⟨F, fun f hf => ?_⟩
  rcases emplaceGrowTry_run h moved asg f t k v fail with ⟨c, h1⟩ | h1
  · right
    obtain ⟨m', h2, h3⟩ := r.movedFirst moved hk c
    exact ⟨_, m', h1, h2, h3⟩
  · left
    have := hF f hf
    simp only at this
    rw [this] at h1
    exact ⟨_, h1, F, hF⟩

/-! ### Erasures that throw -/

theorem shiftLoopTry_run (n : Nat) : ∀ (fuel : Nat) (slots : List (Option (HEntry K V))) (i : Nat) (fail : Option Nat),
    (fail ≠ none ∧ ∃ s, shiftLoopTry n fuel slots i fail = .threw s) ∨
      shiftLoopTry n fuel slots i fail = .ofRun (shiftLoop n fuel slots i) := by
  intro fuel
  induction fuel with
  | zero => intro slots i fail; exact .inr rfl
  | succ fuel ih =>
    intro slots i fail
    simp only [shiftLoopTry, shiftLoop]
    generalize (if mod2n (i + 1) n < n then (slots.set i none)[mod2n (i + 1) n]? else none) = o
    rcases o with _ | _ | e
    · exact .inr rfl
    · exact .inr rfl
    · simp only
      by_cases hp : e.psl = 0
      · simp only [if_pos hp]; exact .inr rfl
      · simp only [if_neg hp]
        by_cases hf : fail = some 0
        · left; exact ⟨by rw [hf]; simp, _, by rw [if_pos hf]⟩
        · rw [if_neg hf]
          rcases ih (((slots.set i none).set i (some { e with psl := e.psl - 1 }))) (mod2n (i + 1) n) (oneDone fail) with ⟨h1, h2⟩ | h1
          · exact .inl ⟨ne_of_oneDone h1, h2⟩
          · exact .inr h1

/-- Positions and uniqueness, and no element is a full round away from its home bucket. -/
structure WInv (h : K → Nat) (n : Nat) (S : Nat → Option (HEntry K V)) : Prop where
  pos : ∀ j, j < n → ∀ e, S j = some e → e.hash = h e.key ∧ j = (e.hash + e.psl) % n ∧ e.psl < n
  uniq : ∀ a b, a < n → b < n → ∀ e e', S a = some e → S b = some e' → e.key = e'.key → a = b

theorem mod_ne_of_lt {n x p q : Nat} (hpq : q < p) (hp : p < n) : (x + q) % n ≠ (x + p) % n := by
  intro hc
  have hx : (x + q) % n < n := Nat.mod_lt _ (by omega)
  have : ((x + q) % n + (p - q)) % n = (x + p) % n := by
    rw [Nat.mod_add_mod]; congr 1; omega
  exact add_mod_ne (n := n) (r := (x + q) % n) (s := p - q) hx (by omega) (by omega) (by rw [this]; exact hc.symm)

/-- A key whose element follows a free bucket, and does not belong there, is not found. -/
theorem find_after_hole {h : K → Nat} {n : Nat} (hn : PowTwo n) {s1 s' : List (Option (HEntry K V))} {i j : Nat}
    {e : HEntry K V} (hl : s'.length = n) (hj : j < n) (w : WInv h n (at' s1)) (hi : at' s1 i = none)
    (he : at' s1 j = some e) (hp : e.psl ≠ 0) (hij : j = (i + 1) % n) (hin : i < n)
    (hs' : ∀ x, x ≠ j → at' s' x = at' s1 x) (size : Nat) :
    ∀ fuel, n ≤ fuel → find h fuel (⟨n, s', size⟩ : HTable K V) e.key = .ok none := by
  have hn2 := hn.ge
  obtain ⟨h1, h2, h3⟩ := w.pos j hj e he
  have hii : i = (h e.key + (e.psl - 1)) % n := by
    apply succ_mod_inj hin (Nat.mod_lt _ (by omega))
    rw [← hij, Nat.mod_add_mod, h2, h1]
    congr 1; omega
  have hij' : i ≠ j := by rw [hij]; exact (succ_mod_ne hn2 hin).symm
  have key : ∀ (d fuel q : Nat), q + d = e.psl - 1 → d < fuel →
      findLoop (⟨n, s', size⟩ : HTable K V) (h e.key) e.key fuel ((h e.key + q) % n) q = .ok none := by
    intro d
    induction d with
    | zero =>
      intro fuel q hq hf
      obtain ⟨fuel, rfl⟩ : ∃ f, fuel = f + 1 := ⟨fuel - 1, by omega⟩
      have hq' : q = e.psl - 1 := by omega
      subst hq'
      rw [← hii]
      simp only [findLoop, slot?, hin, if_true, getElem?_at' (Nat.lt_of_lt_of_eq hin hl.symm), hs' i hij', hi]
    | succ d ih =>
      intro fuel q hq hf
      obtain ⟨fuel, rfl⟩ : ∃ f, fuel = f + 1 := ⟨fuel - 1, by omega⟩
      have hlt : (h e.key + q) % n < n := Nat.mod_lt _ (by omega)
      have hne : (h e.key + q) % n ≠ j := by
        rw [h2, h1]; exact mod_ne_of_lt (by omega) h3
      simp only [findLoop, slot?, hlt, if_true, getElem?_at' (Nat.lt_of_lt_of_eq hlt hl.symm), hs' _ hne]
      cases hs : at' s1 ((h e.key + q) % n) with
      | none => rfl
      | some e' =>
        simp only
        rw [if_neg (fun hc => hne (w.uniq _ _ hlt hj e' e hs he hc.2))]
        split
        · rfl
        · rw [mod2n_eq hn, Nat.mod_add_mod]
          exact ih fuel (q + 1) (by omega) (by omega)
  intro fuel hfu
  have := key (e.psl - 1) fuel 0 (by omega) (by omega)
  simp only [Nat.add_zero] at this
  simp only [HTable.find]
  rw [if_neg (by omega), mod2n_eq hn]
  exact this

theorem shiftLoopTry_lost {h : K → Nat} {n : Nat} (hn : PowTwo n) (size : Nat) :
    ∀ (fuel : Nat) (slots : List (Option (HEntry K V))) (i : Nat) (fail : Option Nat) (s' : List (Option (HEntry K V))),
      slots.length = n → i < n → WInv h n (at' (slots.set i none)) →
      shiftLoopTry n fuel slots i fail = .threw s' →
      s'.length = n ∧ ∃ k1 v1, Has n (at' (slots.set i none)) k1 v1 ∧ Has n (at' s') k1 v1 ∧
        ∀ f, n ≤ f → find h f (⟨n, s', size⟩ : HTable K V) k1 = .ok none := by
  have hn2 := hn.ge
  intro fuel
  induction fuel with
  | zero => intro slots i fail s' _ _ _ hr; cases hr
  | succ fuel ih =>
    intro slots i fail s' hl hi w hr
    have hil : i < slots.length := Nat.lt_of_lt_of_eq hi hl.symm
    have hi0 : at' (slots.set i none) i = none := by rw [at'_set hil]; simp
    generalize hs1 : slots.set i none = s1 at w hi0
    have hl1 : s1.length = n := by rw [← hs1]; simp [hl]
    have hi1 : i < s1.length := Nat.lt_of_lt_of_eq hi hl1.symm
    have hj : (i + 1) % n < n := Nat.mod_lt _ (by omega)
    have hj1 : (i + 1) % n < s1.length := Nat.lt_of_lt_of_eq hj hl1.symm
    have hji : (i + 1) % n ≠ i := succ_mod_ne hn2 hi
    simp only [shiftLoopTry, hs1, mod2n_eq hn, hj, if_true, getElem?_at' hj1] at hr
    cases hsj : at' s1 ((i + 1) % n) with
    | none => rw [hsj] at hr; cases hr
    | some e =>
      simp only [hsj] at hr
      by_cases hp : e.psl = 0
      · rw [if_pos hp] at hr; cases hr
      · rw [if_neg hp] at hr
        by_cases hf : fail = some 0
        · rw [if_pos hf] at hr
          cases hr
          have hset := at'_set hj1 (some { e with psl := e.psl - 1 })
          refine ⟨by simp [hl1], e.key, e.val, ⟨_, e, hj, hsj, rfl, rfl⟩,
            ⟨(i + 1) % n, { e with psl := e.psl - 1 }, hj, by rw [hset]; simp, rfl, rfl⟩, ?_⟩
          exact find_after_hole hn (by simp [hl1]) hj w hi0 hsj hp rfl hi (fun x hx => by rw [hset, if_neg hx]) size
        · rw [if_neg hf] at hr
          generalize hs2 : s1.set i (some { e with psl := e.psl - 1 }) = s2 at hr
          have hl2 : s2.length = n := by rw [← hs2]; simp [hl1]
          have hj2 : (i + 1) % n < s2.length := Nat.lt_of_lt_of_eq hj hl2.symm
          have hat2 : ∀ j, at' s2 j = if j = i then some { e with psl := e.psl - 1 } else at' s1 j := by
            intro j; rw [← hs2]; exact at'_set hi1 _ j
          have hat3 : ∀ j, at' (s2.set ((i + 1) % n) none) j =
              if j = (i + 1) % n then none else at' s2 j := fun j => at'_set hj2 _ j
          obtain ⟨he1, he2, he3⟩ := w.pos _ hj e hsj
          have w3 : WInv h n (at' (s2.set ((i + 1) % n) none)) := by
            refine ⟨?_, ?_⟩
            · intro j hjn e' he'
              rw [hat3] at he'
              split at he'
              · cases he'
              · rw [hat2] at he'
                split at he'
                · rename_i hji'; subst hji'
                  simp only [Option.some.injEq] at he'; subst he'
                  refine ⟨he1, ?_, by simp only; omega⟩
                  simp only
                  have : (j + 1) % n = ((e.hash + (e.psl - 1)) % n + 1) % n := by
                    rw [Nat.mod_add_mod, he2]; congr 1; omega
                  exact succ_mod_inj hjn (Nat.mod_lt _ (by omega)) this
                · exact w.pos j hjn e' he'
            · intro a b ha hb x y hx hy hk
              rw [hat3] at hx hy
              split at hx
              · cases hx
              split at hy
              · cases hy
              rename_i ha' hb'
              rw [hat2] at hx hy
              split at hx <;> split at hy
              · omega
              · simp only [Option.some.injEq] at hx; subst hx
                exact absurd (w.uniq b _ hb hj y e hy hsj hk.symm) hb'
              · simp only [Option.some.injEq] at hy; subst hy
                exact absurd (w.uniq a _ ha hj x e hx hsj hk) ha'
              · exact w.uniq a b ha hb x y hx hy hk
          obtain ⟨h1, k1, v1, h2, h3⟩ := ih s2 _ (oneDone fail) s' hl2 hj w3 hr
          refine ⟨h1, k1, v1, ?_, h3⟩
          obtain ⟨x, a, hx, ha, hk, hv⟩ := h2
          rw [hat3] at ha
          split at ha
          · cases ha
          rw [hat2] at ha
          split at ha
          · simp only [Option.some.injEq] at ha; subst ha
            exact ⟨_, e, hj, hsj, hk, hv⟩
          · exact ⟨x, a, hx, ha, hk, hv⟩

/-- In a table with a free bucket no element is a full round away from its home bucket. -/
theorem HRel.psl_lt {h : K → Nat} {t : HTable K V} {m : KeyMap K V} (r : HRel h t m) (hsz : t.size < t.n)
    {i : Nat} {e : HEntry K V} (hi : i < t.n) (he : at' t.slots i = some e) : e.psl < t.n := by
  have hn2 := r.pow.ge
  obtain ⟨x, hx, hxf⟩ := exists_free (l := t.slots) (by rw [← r.size, r.len]; exact hsz)
  rw [r.len] at hx
  rcases Nat.lt_or_ge e.psl t.n with hc | hc
  · exact hc
  · exfalso
    have hlt : (x + t.n - h e.key % t.n) % t.n < t.n := Nat.mod_lt _ (by omega)
    obtain ⟨e', h1, _⟩ := r.good.chain hi he ((x + t.n - h e.key % t.n) % t.n) (by omega)
    have hh : h e.key % t.n < t.n := Nat.mod_lt _ (by omega)
    have : (h e.key + (x + t.n - h e.key % t.n) % t.n) % t.n = x := by
      rw [Nat.add_mod_mod, ← Nat.mod_add_mod, show h e.key % t.n + (x + t.n - h e.key % t.n) = x + t.n by omega,
        Nat.add_mod_right, Nat.mod_eq_of_lt hx]
    rw [this, hxf] at h1
    cases h1

/-- `erase` when an operation throws. -/
theorem HRel.eraseTry {h : K → Nat} {t : HTable K V} {m : KeyMap K V} (r : HRel h t m) (hsz : t.size < t.n) (k : K)
    (fail : Option Nat) :
    ∃ F, ∀ f, F ≤ f → (∃ t', t.eraseTry h f k fail = .ok t' ∧ Ev (fun f => t.erase h f k) t') ∨
      (fail = some 0 ∧ (m.get k).isSome = true ∧ t.eraseTry h f k fail = .threw t) ∨
      (fail ≠ none ∧ fail ≠ some 0 ∧ ∃ t', t.eraseTry h f k fail = .threw t' ∧ t'.size + 1 = t.size ∧
        ∃ k1 v1 es, k1 ≠ k ∧ m.get k1 = some v1 ∧ t'.entries = .ok es ∧ (∃ e ∈ es, e.key = k1 ∧ e.val = v1) ∧
          Ev (fun f => t'.find h f k1) none) := by
  obtain ⟨t1, ⟨F, hF⟩, _⟩ := r.erase k
  have hn2 := r.pow.ge
  cases hg : m.get k with
  | none =>
    have hs : Ev (fun f => eraseSearch t (h k) k f (mod2n (h k) t.n) 0) none := by
      refine ⟨pslSum t.slots + 2, fun f hf => ?_⟩
      simp only [mod2n_eq r.pow]
      exact eraseSearch_absent r.pow r.len k (pslSum t.slots) (fun i _ e he => psl_le_pslSum he)
        (r.absent hg) (pslSum t.slots + 1) f 0 (by omega) (by omega)
    obtain ⟨G, hG⟩ := hs
    refine ⟨G, fun f hf => .inl ⟨t, ?_, G, fun f hf => ?_⟩⟩
    · have := hG f hf
      simp only at this
      simp only [HTable.eraseTry, this]
    · have := hG f hf
      simp only at this
      simp only [HTable.erase, this, Run.bind]
  | some v =>
    obtain ⟨i, e, hi, he, hk, hv⟩ := r.present hg
    subst hk
    have hil : i < t.slots.length := Nat.lt_of_lt_of_eq hi r.len.symm
    have hset := at'_set hil (none : Option (HEntry K V))
    have hs : ∀ f, e.psl + 1 ≤ f → eraseSearch t (h e.key) e.key f (mod2n (h e.key) t.n) 0 = .ok (some i) := by
      intro f hf
      rw [mod2n_eq r.pow]
      exact eraseSearch_found r.pow r.len r.good hi he e.psl f 0 (by omega) (by omega)
    have w : WInv h t.n (at' (t.slots.set i none)) := by
      refine ⟨?_, ?_⟩
      · intro j hj e' he'
        rw [hset] at he'
        split at he'
        · cases he'
        · obtain ⟨a, b⟩ := r.good.pos j hj e' he'
          exact ⟨a, b, r.psl_lt hsz hj he'⟩
      · intro a b ha hb x y hx hy hkk
        rw [hset] at hx hy
        split at hx
        · cases hx
        split at hy
        · cases hy
        exact r.good.uniq a b ha hb x y hx hy hkk
    have hpos : 0 < t.size := by
      rw [r.size]
      have := getElem?_at' hil
      rw [he] at this
      exact List.countP_pos_iff.2 ⟨some e, List.mem_of_getElem? this, rfl⟩
    refine ⟨max F (e.psl + 1), fun f hf => ?_⟩
    by_cases h0 : fail = some 0
    · right; left
      refine ⟨h0, rfl, ?_⟩
      simp only [HTable.eraseTry, hs f (by omega), if_pos h0]
    · rcases shiftLoopTry_run t.n f t.slots i (oneDone fail) with ⟨h1, s, h2⟩ | h1
      · right; right
        obtain ⟨h3, k1, v1, h4, h5, h6⟩ := shiftLoopTry_lost r.pow (t.size - 1) f t.slots i (oneDone fail) s r.len hi w h2
        refine ⟨ne_of_oneDone h1, h0, ⟨t.n, s, t.size - 1⟩, ?_, by simp only; omega, k1, v1, s.filterMap id, ?_, ?_, ?_, ?_, ?_⟩
        · simp only [HTable.eraseTry, hs f (by omega), if_neg h0, h2]
        · rintro rfl
          obtain ⟨x, a, hx, ha, hka, _⟩ := h4
          rw [hset] at ha
          split at ha
          · cases ha
          · rename_i hne
            exact hne (r.good.uniq x i hx hi a e ha he hka)
        · obtain ⟨x, a, hx, ha, hka, hva⟩ := h4
          rw [hset] at ha
          split at ha
          · cases ha
          · exact (r.mem k1 v1).2 ⟨x, a, hx, ha, hka, hva⟩
        · unfold HTable.entries
          simp only
          rw [if_pos (by rw [h3]; exact Nat.le_refl _), List.take_of_length_le (by rw [h3]; exact Nat.le_refl _)]
        · obtain ⟨x, a, hx, ha, hka, hva⟩ := h5
          refine ⟨a, ?_, hka, hva⟩
          rw [List.mem_filterMap]
          refine ⟨some a, ?_, rfl⟩
          have := getElem?_at' (Nat.lt_of_lt_of_eq hx h3.symm)
          rw [ha] at this
          exact List.mem_of_getElem? this
        · exact ⟨t.n, h6⟩
      · left
        have hF' := hF f (by omega)
        simp only [HTable.erase, hs f (by omega), Run.bind] at hF'
        refine ⟨t1, ?_, F, hF⟩
        simp only [HTable.eraseTry, hs f (by omega), if_neg h0, h1]
        cases hsl : shiftLoop t.n f t.slots i with
        | ub => rw [hsl] at hF'; cases hF'
        | stuck => rw [hsl] at hF'; cases hF'
        | ok s =>
          rw [hsl] at hF'
          simp only [Tried.ofRun] at hF' ⊢
          split at hF'
          · rename_i hc
            rw [if_pos hc, hF']
          · rename_i hc
            rw [if_neg hc]
            cases hF'; rfl

end HTable
end CoEcs
