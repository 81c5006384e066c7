import Verif.Proofs.HashTableErase

set_option linter.unusedSimpArgs false

namespace CoEcs
open Spec

/-- With enough fuel, always the result `a`. -/
def Ev {α : Type _} (x : Nat → Run α) (a : α) : Prop := ∃ F, ∀ f, F ≤ f → x f = .ok a

theorem Ev.const {α : Type _} (a : α) : Ev (fun _ => Run.ok a) a := ⟨0, fun _ _ => rfl⟩

theorem Ev.of {α : Type _} {x : Nat → Run α} {a : α} (h : ∀ f, x f = .ok a) : Ev x a := ⟨0, fun f _ => h f⟩

theorem Ev.bind {α β : Type _} {x : Nat → Run α} {a : α} {g : Nat → α → Run β} {b : β}
    (hx : Ev x a) (hg : Ev (fun f => g f a) b) : Ev (fun f => (x f).bind (g f)) b := by
  obtain ⟨F, hF⟩ := hx
  obtain ⟨G, hG⟩ := hg
  refine ⟨max F G, fun f hf => ?_⟩
  show (x f).bind (g f) = .ok b
  rw [hF f (by omega)]
  exact hG f (by omega)

theorem Ev.congr {α : Type _} {x y : Nat → Run α} {a : α} (h : Ev x a) (he : ∀ f, y f = x f) : Ev y a := by
  obtain ⟨F, hF⟩ := h
  exact ⟨F, fun f hf => by rw [he]; exact hF f hf⟩

/-- With fuel at least `F`, always the result `a`. -/
def EvFrom {α : Type _} (F : Nat) (x : Nat → Run α) (a : α) : Prop := ∀ f, F ≤ f → x f = .ok a

theorem EvFrom.ev {α : Type _} {F : Nat} {x : Nat → Run α} {a : α} (h : EvFrom F x a) : Ev x a := ⟨F, h⟩

theorem EvFrom.const {α : Type _} (F : Nat) (a : α) : EvFrom F (fun _ => Run.ok a) a := fun _ _ => rfl

theorem EvFrom.bind {α β : Type _} {F : Nat} {x : Nat → Run α} {a : α} {g : Nat → α → Run β} {b : β}
    (hx : EvFrom F x a) (hg : EvFrom F (fun f => g f a) b) : EvFrom F (fun f => (x f).bind (g f)) b := by
  intro f hf
  show (x f).bind (g f) = .ok b
  rw [hx f hf]
  exact hg f hf

theorem EvFrom.congr {α : Type _} {F : Nat} {x y : Nat → Run α} {a : α} (h : EvFrom F x a)
    (he : ∀ f, y f = x f) : EvFrom F y a := fun f hf => by rw [he]; exact h f hf

theorem EvFrom.le {α : Type _} {F G : Nat} {x : Nat → Run α} {a : α} (h : EvFrom F x a) (hl : F ≤ G) :
    EvFrom G x a := fun f hf => h f (by omega)

namespace HTable
variable {K V : Type} [DecidableEq K]

theorem emplaceLoop_mono (asg : Bool) (n hash : Nat) : ∀ (f : Nat) (slots : List (Option (HEntry K V)))
    (temp : HEntry K V) (x : Nat) (ret : Option Nat) (r), emplaceLoop asg n hash f slots temp x ret = .ok r →
    ∀ g, f ≤ g → emplaceLoop asg n hash g slots temp x ret = .ok r := by
  intro f
  induction f with
  | zero => intro slots temp x ret r h; simp [emplaceLoop] at h
  | succ f ih =>
    intro slots temp x ret r h g hg
    obtain ⟨g, rfl⟩ : ∃ g', g = g' + 1 := ⟨g - 1, by omega⟩
    simp only [emplaceLoop] at h ⊢
    split
    · rename_i h1; simp [h1] at h
    · rename_i e h1
      simp only [h1] at h
      split
      · rename_i h2; rw [if_pos h2] at h; exact h
      · rename_i h2
        rw [if_neg h2] at h
        split
        · rename_i h3; rw [if_pos h3] at h; exact ih _ _ _ _ _ h g (by omega)
        · rename_i h3; rw [if_neg h3] at h; exact ih _ _ _ _ _ h g (by omega)
    · rename_i h1; simp only [h1] at h; exact h

theorem shiftLoop_mono (n : Nat) : ∀ (f : Nat) (slots : List (Option (HEntry K V))) (i : Nat) (r),
    shiftLoop n f slots i = .ok r → ∀ g, f ≤ g → shiftLoop n g slots i = .ok r := by
  intro f
  induction f with
  | zero => intro slots i r h; simp [shiftLoop] at h
  | succ f ih =>
    intro slots i r h g hg
    obtain ⟨g, rfl⟩ : ∃ g', g = g' + 1 := ⟨g - 1, by omega⟩
    simp only [shiftLoop] at h ⊢
    split
    · rename_i h1; simp [h1] at h
    · rename_i h1; simp only [h1] at h; exact h
    · rename_i e h1
      simp only [h1] at h
      split
      · rename_i h2; rw [if_pos h2] at h; exact h
      · rename_i h2; rw [if_neg h2] at h; exact ih _ _ _ h g (by omega)

/-- The table represents the finite map `m`. -/
structure HRel (h : K → Nat) (t : HTable K V) (m : KeyMap K V) : Prop where
  pow : PowTwo t.n
  len : t.slots.length = t.n
  good : Good h t.n (at' t.slots)
  mem : ∀ k v, m.get k = some v ↔ Has t.n (at' t.slots) k v
  size : t.size = t.slots.countP Option.isSome
  cnt : m.count = t.size

theorem HRel.congr {h : K → Nat} {t : HTable K V} {m m' : KeyMap K V} (r : HRel h t m)
    (hg : ∀ k, m'.get k = m.get k) (hc : m'.count = m.count) : HRel h t m' :=
  ⟨r.pow, r.len, r.good, fun k v => by rw [hg]; exact r.mem k v, r.size, hc.trans r.cnt⟩

theorem at'_replicate (n i : Nat) : at' (List.replicate n (none : Option (HEntry K V))) i = none := by
  unfold at'
  rw [List.getElem?_replicate]
  split <;> rfl

theorem HRel.fresh (h : K → Nat) {n : Nat} (hn : PowTwo n) :
    HRel h (⟨n, List.replicate n none, 0⟩ : HTable K V) KeyMap.empty := by
  refine ⟨hn, by simp, ⟨?_, ?_, ?_⟩, ?_, ?_, rfl⟩
  · intro i _ e he; rw [at'_replicate] at he; cases he
  · intro i _ p hp; simp [psls, at'_replicate] at hp
  · intro i j _ _ e e' he; rw [at'_replicate] at he; cases he
  · intro k v
    simp only [KeyMap.empty, reduceCtorEq, false_iff]
    rintro ⟨i, e, _, he, _⟩
    rw [at'_replicate] at he; cases he
  · simp [List.countP_replicate]

theorem HRel.empty (h : K → Nat) : HRel h (HTable.empty : HTable K V) KeyMap.empty :=
  HRel.fresh h ⟨4, by omega, rfl⟩

/-! ### Lookup -/

theorem HRel.present {h : K → Nat} {t : HTable K V} {m : KeyMap K V} (r : HRel h t m) {k : K} {v : V}
    (hg : m.get k = some v) : ∃ i e, i < t.n ∧ at' t.slots i = some e ∧ e.key = k ∧ e.val = v :=
  (r.mem k v).1 hg

theorem HRel.absent {h : K → Nat} {t : HTable K V} {m : KeyMap K V} (r : HRel h t m) {k : K}
    (hg : m.get k = none) : ∀ i, i < t.n → ∀ e, at' t.slots i = some e → e.key ≠ k := by
  intro i hi e he hk
  have := (r.mem k e.val).2 ⟨i, e, hi, he, hk, rfl⟩
  rw [hg] at this; cases this

theorem HRel.n_ne {h : K → Nat} {t : HTable K V} {m : KeyMap K V} (r : HRel h t m) : t.n ≠ 0 := by
  have := r.pow.ge; omega

theorem HRel.find_some {h : K → Nat} {t : HTable K V} {m : KeyMap K V} (r : HRel h t m) {k : K}
    {i : Nat} {e : HEntry K V} (hi : i < t.n) (he : at' t.slots i = some e) (hk : e.key = k) :
    EvFrom (pslSum t.slots + 2) (fun f => t.find h f k) (some i) := by
  subst hk
  have hps := psl_le_pslSum he
  intro f hf
  simp only [find, if_neg r.n_ne, mod2n_eq r.pow]
  exact findLoop_found r.pow r.len r.good hi he e.psl f 0 (by omega) (by omega)

theorem HRel.find_none {h : K → Nat} {t : HTable K V} {m : KeyMap K V} (r : HRel h t m) {k : K}
    (hg : m.get k = none) : EvFrom (pslSum t.slots + 2) (fun f => t.find h f k) none := by
  intro f hf
  simp only [find, if_neg r.n_ne, mod2n_eq r.pow]
  exact findLoop_absent r.pow r.len k (pslSum t.slots) (fun i _ e he => psl_le_pslSum he) (r.absent hg)
    (pslSum t.slots + 1) f 0 (by omega) (by omega)

theorem HRel.deref {h : K → Nat} {t : HTable K V} {m : KeyMap K V} (r : HRel h t m) {i : Nat} {e : HEntry K V}
    (hi : i < t.n) (he : at' t.slots i = some e) : t.deref i = .ok e := by
  unfold HTable.deref slot?
  rw [if_pos hi, getElem?_at' (Nat.lt_of_lt_of_eq hi r.len.symm), he]

/-! ### Insertion -/

theorem exists_free {l : List (Option (HEntry K V))} (h : l.countP Option.isSome < l.length) :
    ∃ i, i < l.length ∧ at' l i = none := by
  have h1 : ¬ (∀ a ∈ l, a.isSome = true) := by
    rw [← List.countP_eq_length]; omega
  simp only [Classical.not_forall] at h1
  obtain ⟨a, ha, hn⟩ := h1
  obtain ⟨i, hi, rfl⟩ := List.mem_iff_getElem.1 ha
  refine ⟨i, hi, ?_⟩
  cases hc : l[i] with
  | none => simp [at', List.getElem?_eq_getElem hi, hc]
  | some e => rw [hc] at hn; simp at hn

theorem HRel.emplaceRaw_new {h : K → Nat} {t : HTable K V} {m : KeyMap K V} (r : HRel h t m) (asg : Bool)
    {k : K} (v : V) (hg : m.get k = none) (hsz : t.size < t.n) :
    ∃ t' i e, EvFrom t.n (fun f => t.emplaceRaw h asg f k v) (t', i, true) ∧ HRel h t' (m.put k v) ∧ t'.n = t.n ∧
      i < t'.n ∧ at' t'.slots i = some e ∧ e.key = k ∧ e.val = v := by
  have hn2 := r.pow.ge
  have hx : h k % t.n < t.n := Nat.mod_lt _ (by omega)
  obtain ⟨i, hi, hif⟩ := exists_free (l := t.slots) (by rw [← r.size, r.len]; exact hsz)
  rw [r.len] at hi
  have hd : (h k % t.n + (i + t.n - h k % t.n) % t.n) % t.n = i := by
    rw [Nat.add_mod_mod, show h k % t.n + (i + t.n - h k % t.n) = i + t.n by omega, Nat.add_mod_right,
      Nat.mod_eq_of_lt hi]
  have inv : EInv h t.n (at' t.slots) ⟨h k, 0, k, v⟩ (h k % t.n)
      (fun k' v' => Has t.n (at' t.slots) k' v' ∨ (k = k' ∧ v = v')) k v none
      ((i + t.n - h k % t.n) % t.n) := by
    refine ⟨r.good, ⟨rfl, rfl⟩, fun h0 => absurd h0 (by simp), r.absent hg, fun _ _ => Iff.rfl, ?_, Nat.mod_lt _ (by omega),
      ⟨rfl, rfl⟩⟩
    rw [hd]; exact hif
  obtain ⟨slots', i', e, h1, h2, h3, h4, h5, h6, h7, h8, h9⟩ :=
    emplaceLoop_new asg (h k) r.pow _ k v _ _ t.slots _ _ none r.len inv (Nat.lt_succ_self _)
  refine ⟨⟨t.n, slots', t.size + 1⟩, i', e, fun f hf => ?_, ⟨r.pow, h2, h3, ?_, ?_, ?_⟩, rfl, h5, h6, h7, h8⟩
  · have hlt : (i + t.n - h k % t.n) % t.n < t.n := Nat.mod_lt _ (by omega)
    have := emplaceLoop_mono _ _ _ _ _ _ _ _ _ h1 f (by omega)
    simp only [HTable.emplaceRaw, mod2n_eq r.pow, this, Run.bind, if_true]
  · intro k' v'
    rw [← h4]
    simp only [KeyMap.put]
    by_cases hk : k' = k
    · subst hk
      simp only [if_true, Option.some.injEq, true_and]
      constructor
      · exact fun hv => .inr hv
      · rintro (hh | hh)
        · have := (r.mem k' v').2 hh
          rw [hg] at this; cases this
        · exact hh
    · rw [if_neg hk, r.mem]
      constructor
      · exact fun hh => .inl hh
      · rintro (hh | ⟨hh, _⟩)
        · exact hh
        · exact absurd hh.symm hk
  · simp only [h9, r.size]
  · simp [KeyMap.put, hg, r.cnt]

/-- Overwriting the value of an entry in place. -/
theorem HRel.setVal {h : K → Nat} {t : HTable K V} {m : KeyMap K V} (r : HRel h t m)
    {i : Nat} {e : HEntry K V} (hi : i < t.n) (he : at' t.slots i = some e) (v : V) :
    HRel h { t with slots := t.slots.set i (some { e with val := v }) } (m.put e.key v) := by
  have hil : i < t.slots.length := Nat.lt_of_lt_of_eq hi r.len.symm
  have hset := at'_set hil (some { e with val := v })
  have hgi : t.slots[i] = some e := by
    have := getElem?_at' hil
    rw [he, List.getElem?_eq_getElem hil] at this
    simpa using this
  have hge : m.get e.key = some e.val := (r.mem _ _).2 ⟨i, e, hi, he, rfl, rfl⟩
  refine ⟨r.pow, by simp [r.len], ⟨?_, ?_, ?_⟩, ?_, ?_, ?_⟩
  · intro j hj e' he'
    rw [hset] at he'
    split at he'
    · rename_i hji; subst hji; cases he'; exact r.good.pos j hj e he
    · exact r.good.pos j hj e' he'
  · intro j hj p hp hp0
    have hps : ∀ x, psls (at' (t.slots.set i (some { e with val := v }))) x = psls (at' t.slots) x := by
      intro x
      simp only [psls, hset]
      split
      · rename_i hx; subst hx; rw [he]; rfl
      · rfl
    simp only [hps] at hp ⊢
    exact r.good.rh j hj p hp hp0
  · intro a b ha hb x y hx hy hk
    rw [hset] at hx hy
    split at hx <;> split at hy
    · omega
    · rename_i h1 h2; subst h1; cases hx
      exact r.good.uniq a b ha hb e y he hy hk
    · rename_i h1 h2; subst h2; cases hy
      exact r.good.uniq a b ha hb x e hx he hk
    · exact r.good.uniq a b ha hb x y hx hy hk
  · intro k' v'
    simp only [KeyMap.put]
    by_cases hk : k' = e.key
    · subst hk
      simp only [if_true, Option.some.injEq]
      constructor
      · rintro rfl
        exact ⟨i, { e with val := v }, hi, by rw [hset, if_pos rfl], rfl, rfl⟩
      · rintro ⟨a, x, ha, hx, hkx, hv⟩
        rw [hset] at hx
        split at hx
        · cases hx; exact hv
        · rename_i hai
          exact absurd (r.good.uniq a i ha hi x e hx he hkx) hai
    · rw [if_neg hk, r.mem]
      constructor
      · rintro ⟨a, x, ha, hx, hkx, hv⟩
        have hai : a ≠ i := by
          rintro rfl; rw [he] at hx; cases hx; exact hk hkx.symm
        exact ⟨a, x, ha, by rw [hset, if_neg hai]; exact hx, hkx, hv⟩
      · rintro ⟨a, x, ha, hx, hkx, hv⟩
        rw [hset] at hx
        split at hx
        · cases hx; exact absurd hkx.symm hk
        · exact ⟨a, x, ha, hx, hkx, hv⟩
  · show t.size = (t.slots.set i _).countP _
    rw [List.countP_set hil, hgi]
    have hpos : 0 < t.slots.countP Option.isSome :=
      List.countP_pos_iff.2 ⟨some e, hgi ▸ List.getElem_mem hil, rfl⟩
    have := r.size
    simp; omega
  · simp [KeyMap.put, hge, r.cnt]

theorem HRel.emplaceRaw_old {h : K → Nat} {t : HTable K V} {m : KeyMap K V} (r : HRel h t m) (asg : Bool)
    {k : K} (v v0 : V) (hg : m.get k = some v0) :
    ∃ t' i e, Ev (fun f => t.emplaceRaw h asg f k v) (t', i, false) ∧
      HRel h t' (if asg then m.put k v else m) ∧ t'.n = t.n ∧
      i < t'.n ∧ at' t'.slots i = some e ∧ e.key = k ∧ e.val = (if asg then v else v0) := by
  obtain ⟨i, e, hi, he, hk, hv⟩ := r.present hg
  subst hk
  have hil : i < t.slots.length := Nat.lt_of_lt_of_eq hi r.len.symm
  have hev : Ev (fun f => t.emplaceRaw h asg f e.key v)
      (⟨t.n, if asg then t.slots.set i (some { e with val := v }) else t.slots, t.size⟩, i, false) := by
    refine ⟨e.psl + 1, fun f hf => ?_⟩
    have := emplaceLoop_found asg r.pow r.len r.good hi he v e.psl f 0 (by omega) (by omega)
    simp only [Nat.add_zero] at this
    simp [HTable.emplaceRaw, mod2n_eq r.pow, this, Run.bind]
  cases asg with
  | true =>
    exact ⟨_, i, { e with val := v }, hev, r.setVal hi he v, rfl, hi, by simp [at'_set hil], rfl, rfl⟩
  | false =>
    exact ⟨_, i, e, hev, r, rfl, hi, he, rfl, hv⟩

/-! ### Iteration -/

theorem HRel.entries {h : K → Nat} {t : HTable K V} {m : KeyMap K V} (r : HRel h t m) :
    ∃ es, t.entries = .ok es ∧ (es.map HEntry.key).Nodup ∧ es.length = t.size ∧
      ∀ k v, m.get k = some v ↔ ∃ e ∈ es, e.key = k ∧ e.val = v := by
  refine ⟨t.slots.filterMap id, ?_, ?_, ?_, ?_⟩
  · unfold HTable.entries
    rw [if_pos (by rw [r.len]; exact Nat.le_refl _), List.take_of_length_le (by rw [r.len]; exact Nat.le_refl _)]
  · rw [List.Nodup, List.pairwise_map, List.pairwise_filterMap, List.pairwise_iff_getElem]
    intro i j hi hj hij e he e' he' hk
    have h1 : at' t.slots i = some e := by simpa [at', List.getElem?_eq_getElem hi] using he
    have h2 : at' t.slots j = some e' := by simpa [at', List.getElem?_eq_getElem hj] using he'
    have := r.good.uniq i j (r.len ▸ hi) (r.len ▸ hj) e e' h1 h2 hk
    omega
  · rw [List.length_filterMap_eq_countP, r.size]; rfl
  · intro k v
    rw [r.mem]
    constructor
    · rintro ⟨i, e, hi, he, hk, hv⟩
      refine ⟨e, ?_, hk, hv⟩
      rw [List.mem_filterMap]
      refine ⟨some e, ?_, rfl⟩
      have := getElem?_at' (Nat.lt_of_lt_of_eq hi r.len.symm)
      rw [he] at this
      exact List.mem_of_getElem? this
    · rintro ⟨e, he, hk, hv⟩
      rw [List.mem_filterMap] at he
      obtain ⟨a, ha, hae⟩ := he
      obtain ⟨i, hi, rfl⟩ := List.mem_iff_getElem.1 ha
      exact ⟨i, e, r.len ▸ hi, by simpa [at', List.getElem?_eq_getElem hi] using hae, hk, hv⟩

/-! ### Growing -/

def putAll (m : KeyMap K V) (es : List (HEntry K V)) : KeyMap K V :=
  es.foldl (fun m e => m.put e.key e.val) m

theorem putAll_spec (es : List (HEntry K V)) : ∀ (m : KeyMap K V), (es.map HEntry.key).Nodup →
    (∀ e ∈ es, m.get e.key = none) →
    (putAll m es).count = m.count + es.length ∧
    ∀ k v, (putAll m es).get k = some v ↔ m.get k = some v ∨ ∃ e ∈ es, e.key = k ∧ e.val = v := by
  induction es with
  | nil => intro m _ _; simp [putAll]
  | cons a es ih =>
    intro m hnd hno
    rw [List.map_cons, List.nodup_cons] at hnd
    have ha : m.get a.key = none := hno a (List.mem_cons_self ..)
    have hno' : ∀ e ∈ es, (m.put a.key a.val).get e.key = none := by
      intro e he
      simp only [KeyMap.put]
      rw [if_neg, hno e (List.mem_cons_of_mem _ he)]
      intro hk
      exact hnd.1 (hk ▸ List.mem_map_of_mem he)
    obtain ⟨h1, h2⟩ := ih (m.put a.key a.val) hnd.2 hno'
    refine ⟨?_, ?_⟩
    · show (putAll (m.put a.key a.val) es).count = _
      rw [h1]; simp [KeyMap.put, ha]; omega
    · intro k v
      show (putAll (m.put a.key a.val) es).get k = some v ↔ _
      rw [h2]
      simp only [KeyMap.put, List.mem_cons, exists_eq_or_imp]
      by_cases hk : k = a.key
      · subst hk
        simp only [if_true, Option.some.injEq, ha, reduceCtorEq, false_or, true_and]
      · rw [if_neg hk]
        have : ¬ (a.key = k) := fun h => hk h.symm
        simp [this]

theorem HRel.reinsert {h : K → Nat} (es : List (HEntry K V)) : ∀ {t : HTable K V} {m : KeyMap K V}, HRel h t m →
    (es.map HEntry.key).Nodup → (∀ e ∈ es, m.get e.key = none) → t.size + es.length ≤ t.n →
    ∃ t', EvFrom t.n (fun f => HTable.reinsert h f t es) t' ∧ HRel h t' (putAll m es) ∧ t'.n = t.n := by
  induction es with
  | nil => intro t m r _ _ _; exact ⟨t, EvFrom.const _ t, r, rfl⟩
  | cons a es ih =>
    intro t m r hnd hno hsz
    rw [List.map_cons, List.nodup_cons] at hnd
    have ha : m.get a.key = none := hno a (List.mem_cons_self ..)
    have hno' : ∀ e ∈ es, (m.put a.key a.val).get e.key = none := by
      intro e he
      simp only [KeyMap.put]
      rw [if_neg, hno e (List.mem_cons_of_mem _ he)]
      intro hk
      exact hnd.1 (hk ▸ List.mem_map_of_mem he)
    simp only [List.length_cons] at hsz
    obtain ⟨t1, i, e, h1, h2, h3, _⟩ := r.emplaceRaw_new false a.val ha (by omega)
    have hs1 : t1.size = t.size + 1 := by
      have := h2.cnt
      simp only [KeyMap.put, ha, Option.isSome_none, Bool.false_eq_true, if_false] at this
      rw [← this, r.cnt]
    obtain ⟨t2, h4, h5, h6⟩ := ih h2 hnd.2 hno' (by omega)
    exact ⟨t2, h1.bind (h4.le (by omega)), h5, h6.trans h3⟩

theorem HRel.size_le {h : K → Nat} {t : HTable K V} {m : KeyMap K V} (r : HRel h t m) : t.size ≤ t.n := by
  rw [r.size, ← r.len]; exact List.countP_le_length

theorem HRel.reserve {h : K → Nat} {t : HTable K V} {m : KeyMap K V} (r : HRel h t m) {n : Nat} (hn : PowTwo n) :
    ∃ t', EvFrom n (fun f => t.reserve h f n) t' ∧ HRel h t' m ∧ (t.size ≤ n → t'.n = n) := by
  by_cases hlt : n < t.size
  · refine ⟨t, ?_, r, fun h => by omega⟩
    exact (EvFrom.const n t).congr (fun f => by simp [HTable.reserve, hlt])
  · obtain ⟨es, he1, he2, he3, he4⟩ := r.entries
    obtain ⟨t', h1, h2, h3⟩ := HRel.reinsert es (HRel.fresh (V := V) h hn) he2 (fun e _ => rfl)
      (by simp only; omega)
    obtain ⟨h4, h5⟩ := putAll_spec es KeyMap.empty he2 (fun e _ => rfl)
    refine ⟨t', EvFrom.congr h1 (fun f => ?_), h2.congr ?_ ?_, fun _ => h3⟩
    · simp [HTable.reserve, hlt, mk', hn.even, Run.bind, he1]
    · intro k
      apply Option.ext
      intro v
      rw [h5, he4]
      simp [KeyMap.empty]
    · rw [h4, he3, ← r.cnt]; simp [KeyMap.empty]

theorem PowTwo.double {n : Nat} (hn : PowTwo n) : PowTwo (n <<< 1) := by
  obtain ⟨k, hk, rfl⟩ := hn
  exact ⟨k + 1, by omega, by rw [Nat.shiftLeft_eq, Nat.pow_one, ← Nat.pow_succ]⟩

theorem approx85_lt {n : Nat} (hn : 0 < n) : approx85 n < n := by
  unfold approx85
  rw [Nat.shiftRight_eq_div_pow]
  omega

/-- `emplace` and `insert_or_assign`. -/
theorem HRel.emplace {h : K → Nat} {t : HTable K V} {m : KeyMap K V} (r : HRel h t m) (asg : Bool) (k : K) (v : V) :
    ∃ t' i e, Ev (fun f => t.emplace h asg f k v) (t', i, (m.get k).isNone) ∧
      HRel h t' (if asg || (m.get k).isNone then m.put k v else m) ∧
      i < t'.n ∧ at' t'.slots i = some e ∧ e.key = k ∧
      some e.val = (if asg then some v else (m.get k).or (some v)) := by
  -- the table after the growth check
  have hgrow : ∃ t1, Ev (fun f => if t.size > approx85 t.n then t.reserve h f (t.n <<< 1) else .ok t) t1 ∧
      HRel h t1 m ∧ t1.size < t1.n := by
    by_cases hc : t.size > approx85 t.n
    · obtain ⟨t1, h1, h2, h3⟩ := r.reserve (PowTwo.double r.pow)
      have hle := r.size_le
      have hn2 := r.pow.ge
      have hd : t.n <<< 1 = t.n * 2 := by rw [Nat.shiftLeft_eq]
      refine ⟨t1, h1.ev.congr (fun f => by simp [hc]), h2, ?_⟩
      have := h3 (by omega)
      have hs : t1.size = t.size := by rw [← h2.cnt, ← r.cnt]
      omega
    · refine ⟨t, (Ev.const t).congr (fun f => by simp [hc]), r, ?_⟩
      have := approx85_lt (n := t.n) (by have := r.pow.ge; omega)
      omega
  obtain ⟨t1, h1, r1, hs1⟩ := hgrow
  cases hg : m.get k with
  | none =>
    obtain ⟨t2, i, e, h2, r2, _, hi, he, hk, hv⟩ := r1.emplaceRaw_new asg v hg hs1
    refine ⟨t2, i, e, h1.bind h2.ev, ?_, hi, he, hk, ?_⟩
    · simpa using r2
    · cases asg <;> simp [hv]
  | some v0 =>
    obtain ⟨t2, i, e, h2, r2, _, hi, he, hk, hv⟩ := r1.emplaceRaw_old asg v v0 hg
    refine ⟨t2, i, e, h1.bind h2, ?_, hi, he, hk, ?_⟩
    · simpa using r2
    · cases asg <;> simp_all

theorem HRel.index {h : K → Nat} {t : HTable K V} {m : KeyMap K V} (r : HRel h t m) (k : K) (d : V) :
    ∃ t' i e, Ev (fun f => t.index h f k d) (t', i) ∧
      HRel h t' (if (m.get k).isSome then m else m.put k d) ∧
      i < t'.n ∧ at' t'.slots i = some e ∧ e.key = k ∧ some e.val = (m.get k).or (some d) := by
  cases hg : m.get k with
  | some v0 =>
    obtain ⟨i, e, hi, he, hk, hv⟩ := r.present hg
    refine ⟨t, i, e, ?_, by simpa using r, hi, he, hk, by simp [hv]⟩
    exact (r.find_some hi he hk).ev.bind (Ev.const (t, i))
  | none =>
    obtain ⟨t', i, e, h1, r1, hi, he, hk, hv⟩ := r.emplace false k d
    rw [hg] at h1 r1 hv
    refine ⟨t', i, e, ?_, by simpa using r1, hi, he, hk, by simpa using hv⟩
    exact (r.find_none hg).ev.bind (h1.bind (Ev.const (t', i)))

theorem KeyMap.put_put (m : KeyMap K V) (k : K) (d v : V) : (m.put k d).put k v = m.put k v := by
  simp only [KeyMap.put, KeyMap.mk.injEq]
  refine ⟨?_, ?_⟩
  · funext k'; split <;> simp_all
  · simp

theorem HRel.assign {h : K → Nat} {t : HTable K V} {m : KeyMap K V} (r : HRel h t m) (k : K) (d v : V) :
    ∃ t', Ev (fun f => t.assign h f k d v) t' ∧ HRel h t' (m.put k v) := by
  obtain ⟨t', i, e, h1, r1, hi, he, hk, _⟩ := r.index k d
  refine ⟨_, h1.bind ((Ev.const e).congr (fun f => r1.deref hi he) |>.bind (Ev.const _)), ?_⟩
  have := r1.setVal hi he v
  subst hk
  split at this
  · exact this
  · rwa [KeyMap.put_put] at this

/-! ### Erasing -/

theorem PowTwo.half {n : Nat} (hn : PowTwo n) (hb : 4 ≤ n) : PowTwo (n >>> 1) := by
  obtain ⟨k, hk, rfl⟩ := hn
  have hk2 : 2 ≤ k := by
    rcases Nat.lt_or_ge k 2 with h | h
    · have : k = 1 := by omega
      subst this; omega
    · exact h
  obtain ⟨j, rfl⟩ : ∃ j, k = j + 1 := ⟨k - 1, by omega⟩
  exact ⟨j, by omega, by rw [Nat.shiftRight_eq_div_pow, Nat.pow_succ]; simp⟩

theorem HRel.erase {h : K → Nat} {t : HTable K V} {m : KeyMap K V} (r : HRel h t m) (k : K) :
    ∃ t', Ev (fun f => t.erase h f k) t' ∧ HRel h t' (m.del k) := by
  have hn2 := r.pow.ge
  cases hg : m.get k with
  | none =>
    refine ⟨t, ?_, r.congr ?_ ?_⟩
    · have hs : Ev (fun f => eraseSearch t (h k) k f (mod2n (h k) t.n) 0) none := by
        refine ⟨pslSum t.slots + 2, fun f hf => ?_⟩
        simp only [mod2n_eq r.pow]
        exact eraseSearch_absent r.pow r.len k (pslSum t.slots) (fun i _ e he => psl_le_pslSum he)
          (r.absent hg) (pslSum t.slots + 1) f 0 (by omega) (by omega)
      exact hs.bind (Ev.const t)
    · intro k'
      simp only [KeyMap.del]
      split
      · rename_i hk; subst hk; exact hg.symm
      · rfl
    · simp [KeyMap.del, hg]
  | some v =>
    obtain ⟨i, e, hi, he, hk, hv⟩ := r.present hg
    subst hk
    have hil : i < t.slots.length := Nat.lt_of_lt_of_eq hi r.len.symm
    have hset := at'_set hil (none : Option (HEntry K V))
    have hgi : t.slots[i] = some e := by
      have := getElem?_at' hil
      rw [he, List.getElem?_eq_getElem hil] at this
      simpa using this
    have hs : Ev (fun f => eraseSearch t (h e.key) e.key f (mod2n (h e.key) t.n) 0) (some i) := by
      refine ⟨e.psl + 1, fun f hf => ?_⟩
      simp only [mod2n_eq r.pow]
      exact eraseSearch_found r.pow r.len r.good hi he e.psl f 0 (by omega) (by omega)
    have hole : HoleInv h t.n (at' (t.slots.set i none)) i e.psl := by
      refine ⟨by rw [hset]; simp, ?_, ?_, ?_⟩
      · intro j hj e' he'
        rw [hset] at he'
        split at he'
        · cases he'
        · exact r.good.pos j hj e' he'
      · intro a b ha hb x y hx hy hkk
        rw [hset] at hx hy
        split at hx
        · cases hx
        split at hy
        · cases hy
        exact r.good.uniq a b ha hb x y hx hy hkk
      · have hps : ∀ x, (if x = i then some e.psl else psls (at' (t.slots.set i none)) x) = psls (at' t.slots) x := by
          intro x
          split
          · rename_i hx; subst hx; simp [psls, he]
          · rename_i hx; simp only [psls, hset, if_neg hx]
        intro j hj p hp hp0
        rw [hps] at hp ⊢
        exact r.good.rh j hj p hp hp0
    obtain ⟨slots', h1, h2, h3, h4, h5⟩ := shiftLoop_ok r.pow _ t.slots i e.psl r.len hi hole (Nat.lt_succ_self _)
    have hsh : Ev (fun f => shiftLoop t.n f t.slots i) slots' := ⟨_, fun f hf => shiftLoop_mono _ _ _ _ _ h1 f hf⟩
    have r1 : HRel h (⟨t.n, slots', t.size - 1⟩ : HTable K V) (m.del e.key) := by
      refine ⟨r.pow, h2, h3, ?_, ?_, ?_⟩
      · intro k' v'
        rw [h4]
        simp only [KeyMap.del]
        constructor
        · intro hh
          split at hh
          · cases hh
          · rename_i hk
            obtain ⟨a, x, ha, hx, hkx, hvx⟩ := (r.mem _ _).1 hh
            have hai : a ≠ i := by
              rintro rfl; rw [he] at hx; cases hx; exact hk hkx.symm
            exact ⟨a, x, ha, by rw [hset, if_neg hai]; exact hx, hkx, hvx⟩
        · rintro ⟨a, x, ha, hx, hkx, hvx⟩
          rw [hset] at hx
          split at hx
          · cases hx
          · rename_i hai
            have hk : k' ≠ e.key := by
              rintro rfl
              exact hai (r.good.uniq a i ha hi x e hx he hkx)
            rw [if_neg hk]
            exact (r.mem _ _).2 ⟨a, x, ha, hx, hkx, hvx⟩
      · simp only [h5]
        rw [List.countP_set hil, hgi, ← r.size]
        simp
      · simp [KeyMap.del, hg, r.cnt]
    have hlast : ∃ t', Ev (fun f => if (⟨t.n, slots', t.size - 1⟩ : HTable K V).size > defaultBucketCount ∧
        (⟨t.n, slots', t.size - 1⟩ : HTable K V).size < approx40 t.n then
          (⟨t.n, slots', t.size - 1⟩ : HTable K V).reserve h f (t.n >>> 1)
        else .ok ⟨t.n, slots', t.size - 1⟩) t' ∧ HRel h t' (m.del e.key) := by
      by_cases hc : (⟨t.n, slots', t.size - 1⟩ : HTable K V).size > defaultBucketCount ∧
        (⟨t.n, slots', t.size - 1⟩ : HTable K V).size < approx40 t.n
      · have hn4 : 4 ≤ t.n := by
          have h6 := r.size_le
          have h7 : t.size - 1 > 16 := hc.1
          omega
        obtain ⟨t', h6, h7, _⟩ := r1.reserve (PowTwo.half r.pow hn4)
        exact ⟨t', h6.ev.congr (fun f => by rw [if_pos hc]), h7⟩
      · exact ⟨_, (Ev.const _).congr (fun f => by rw [if_neg hc]), r1⟩
    obtain ⟨t', h6, h7⟩ := hlast
    exact ⟨t', hs.bind (hsh.bind h6), h7⟩

theorem HRel.clear {h : K → Nat} {t : HTable K V} {m : KeyMap K V} (r : HRel h t m) :
    HRel h t.clear KeyMap.empty := by
  have : t.slots.map (fun _ => (none : Option (HEntry K V))) = List.replicate t.n none := by
    rw [List.map_const', r.len]
  unfold HTable.clear
  rw [this]
  exact HRel.fresh h r.pow

/-! ### One call, all calls -/

theorem HRel.step {h : K → Nat} {t : HTable K V} {m : KeyMap K V} (r : HRel h t m) (op : HashOp K V)
    (hop : ∀ n, op = .reserve n → PowTwo n) :
    ∃ t', Ev (fun f => t.step h f op) (t', (m.step op).2) ∧ HRel h t' (m.step op).1 := by
  cases op with
  | emplace k v =>
    obtain ⟨t', i, e, h1, r1, hi, he, hk, hv⟩ := r.emplace false k v
    refine ⟨t', h1.bind (Ev.of fun f => ?_), ?_⟩
    · simp only [r1.deref hi he, Run.bind]
      cases hg : m.get k with
      | none => simp [KeyMap.step, hg, hk, (by simpa [hg] using hv : e.val = v)]
      | some v0 => simp [KeyMap.step, hg, hk, (by simpa [hg] using hv : e.val = v0)]
    · cases hg : m.get k with
      | none => simpa [KeyMap.step, hg] using r1
      | some v0 => simpa [KeyMap.step, hg] using r1
  | insertOrAssign k v =>
    obtain ⟨t', i, e, h1, r1, hi, he, hk, hv⟩ := r.emplace true k v
    refine ⟨t', h1.bind (Ev.of fun f => ?_), by simpa [KeyMap.step] using r1⟩
    simp [r1.deref hi he, Run.bind, KeyMap.step, hk, (by simpa using hv : e.val = v)]
  | index k d =>
    obtain ⟨t', i, e, h1, r1, hi, he, hk, hv⟩ := r.index k d
    refine ⟨t', h1.bind (Ev.of fun f => ?_), ?_⟩
    · simp only [r1.deref hi he, Run.bind]
      cases hg : m.get k with
      | none => simp [KeyMap.step, hg, (by simpa [hg] using hv : e.val = d)]
      | some v0 => simp [KeyMap.step, hg, (by simpa [hg] using hv : e.val = v0)]
    · cases hg : m.get k with
      | none => simpa [KeyMap.step, hg] using r1
      | some v0 => simpa [KeyMap.step, hg] using r1
  | assign k d v =>
    obtain ⟨t', h1, r1⟩ := r.assign k d v
    exact ⟨t', h1.bind (Ev.const _), r1⟩
  | at_ k =>
    cases hg : m.get k with
    | none =>
      have h1 : Ev (fun f => t.at_ h f k) none := (r.find_none hg).ev.bind (Ev.const none)
      exact ⟨t, h1.bind (Ev.of fun f => by simp [KeyMap.step, hg]), by simpa [KeyMap.step, hg] using r⟩
    | some v =>
      obtain ⟨i, e, hi, he, hk, hv⟩ := r.present hg
      have h1 : Ev (fun f => t.at_ h f k) (some e.val) := (r.find_some hi he hk).ev.bind
        (Ev.of fun f => by simp [r.deref hi he, Run.bind])
      exact ⟨t, h1.bind (Ev.of fun f => by simp [KeyMap.step, hg, hv]), by simpa [KeyMap.step, hg] using r⟩
  | contains k =>
    cases hg : m.get k with
    | none =>
      have h1 : Ev (fun f => t.contains h f k) false := (r.find_none hg).ev.bind (Ev.const _)
      exact ⟨t, h1.bind (Ev.of fun f => by simp [KeyMap.step, hg]), r⟩
    | some v =>
      obtain ⟨i, e, hi, he, hk, hv⟩ := r.present hg
      have h1 : Ev (fun f => t.contains h f k) true := (r.find_some hi he hk).ev.bind (Ev.const _)
      exact ⟨t, h1.bind (Ev.of fun f => by simp [KeyMap.step, hg]), r⟩
  | erase k =>
    obtain ⟨t', h1, r1⟩ := r.erase k
    exact ⟨t', h1.bind (Ev.const _), r1⟩
  | clear => exact ⟨_, Ev.const _, r.clear⟩
  | reserve n =>
    obtain ⟨t', h1, r1, _⟩ := r.reserve (hop n rfl)
    exact ⟨t', h1.ev.bind (Ev.const _), r1⟩
  | size => exact ⟨t, (Ev.const _).congr (fun f => by simp [HTable.step, KeyMap.step, r.cnt]), r⟩

theorem HRel.run {h : K → Nat} (ops : List (HashOp K V)) : ∀ {t : HTable K V} {m : KeyMap K V}, HRel h t m →
    HashOps.Ok ops → ∃ t', Ev (fun f => t.run h f ops) (t', (m.run ops).2) ∧ HRel h t' (m.run ops).1 := by
  induction ops with
  | nil => intro t m r _; exact ⟨t, Ev.const _, r⟩
  | cons op ops ih =>
    intro t m r hok
    obtain ⟨t1, h1, r1⟩ := r.step op (fun n hn => hok n (hn ▸ List.mem_cons_self ..))
    obtain ⟨t2, h2, r2⟩ := ih r1 (fun n hn => hok n (List.mem_cons_of_mem _ hn))
    exact ⟨t2, h1.bind (h2.bind (Ev.const _)), r2⟩

end HTable
end CoEcs
