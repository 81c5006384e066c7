import Verif.Spec.FinMap

set_option linter.unusedSimpArgs false

namespace CoEcs
open Spec
namespace SparseTable
variable {V : Type}

/-- Representation invariant of a sparse map whose size counter has not wrapped. -/
structure Inv (w : Nat) (t : SparseTable V) : Prop where
  cap : t.cap = t.sparse.length
  size : t.size = t.dense.length
  small : t.size < 2 ^ w
  link : ∀ (i : Nat) (e : Nat × V), t.dense[i]? = some e → t.sparse[e.1]? = some i

/-- The table represents the finite map `m`. -/
structure Rel (w : Nat) (t : SparseTable V) (m : FinMap V) : Prop where
  inv : t.Inv w
  mem : ∀ k v, m.get k = some v ↔ (k, v) ∈ t.dense
  count : m.count = t.dense.length

theorem Rel.empty (w : Nat) : Rel w (SparseTable.empty : SparseTable V) FinMap.empty := by
  constructor
  · constructor <;> simp [SparseTable.empty, Nat.pow_pos]
  · simp [FinMap.empty, SparseTable.empty]
  · simp [FinMap.empty, SparseTable.empty]

theorem Inv.key_inj {w : Nat} {t : SparseTable V} (h : t.Inv w) {i j : Nat} {e e' : Nat × V}
    (hi : t.dense[i]? = some e) (hj : t.dense[j]? = some e') (he : e.1 = e'.1) : i = j := by
  have h1 := h.link i e hi
  have h2 := h.link j e' hj
  rw [he, h2] at h1
  simpa using h1.symm

theorem Inv.find_some {w : Nat} {t : SparseTable V} (h : t.Inv w) {k i : Nat} {v : V}
    (hi : t.dense[i]? = some (k, v)) : t.find k = .ok (some i) := by
  have h1 : t.sparse[k]? = some i := h.link i _ hi
  have h2 := (List.getElem?_eq_some_iff.1 h1).1
  have h3 := (List.getElem?_eq_some_iff.1 hi).1
  have hc : k < t.cap := by rw [h.cap]; exact h2
  have hs : i < t.size := by rw [h.size]; exact h3
  simp [find, hc, h1, hs, hi]

theorem Inv.find_none {w : Nat} {t : SparseTable V} (h : t.Inv w) {k : Nat}
    (hi : ∀ v, (k, v) ∉ t.dense) : t.find k = .ok none := by
  unfold find
  split
  · rename_i hc
    rw [h.cap] at hc
    rw [List.getElem?_eq_getElem hc]
    simp only
    split
    · rename_i hs
      rw [h.size] at hs
      rw [List.getElem?_eq_getElem hs]
      simp only
      split
      · rename_i hk
        have hm := List.getElem_mem hs
        generalize t.dense[t.sparse[k]] = e at hm hk
        obtain ⟨k', v⟩ := e
        simp only at hk; subst hk
        exact absurd hm (hi v)
      · rfl
    · rfl
  · rfl

theorem Inv.contains_some {w : Nat} {t : SparseTable V} (h : t.Inv w) {k i : Nat} {v : V}
    (hi : t.dense[i]? = some (k, v)) : t.contains k = .ok true := by
  have h3 := (List.getElem?_eq_some_iff.1 hi).1
  simp only [contains, h.find_some hi]
  simp; omega

theorem Inv.contains_none {w : Nat} {t : SparseTable V} (h : t.Inv w) {k : Nat}
    (hi : ∀ v, (k, v) ∉ t.dense) : t.contains k = .ok false := by
  simp [contains, h.find_none hi]

theorem Rel.get_some {w : Nat} {t : SparseTable V} {m : FinMap V} (h : Rel w t m) {k : Nat} {v : V}
    (hg : m.get k = some v) : ∃ i : Nat, t.dense[i]? = some (k, v) :=
  List.mem_iff_getElem?.1 ((h.mem k v).1 hg)

theorem Rel.get_none {w : Nat} {t : SparseTable V} {m : FinMap V} (h : Rel w t m) {k : Nat}
    (hg : m.get k = none) : ∀ v, (k, v) ∉ t.dense := by
  intro v hv
  rw [← h.mem] at hv; rw [hv] at hg; cases hg

theorem Inv.reserveSparse {w : Nat} {t : SparseTable V} (h : t.Inv w) (n : Nat) :
    (t.reserveSparse n).Inv w ∧ (t.reserveSparse n).dense = t.dense ∧
      (t.reserveSparse n).size = t.size ∧ n ≤ (t.reserveSparse n).sparse.length := by
  unfold SparseTable.reserveSparse
  split
  · rename_i hn
    rw [h.cap] at hn
    have hlen : (growTo t.sparse n).length = n := by simp [growTo]; omega
    have htk : (growTo t.sparse n).take n = growTo t.sparse n := List.take_of_length_le (by omega)
    refine ⟨⟨?_, h.size, h.small, ?_⟩, rfl, rfl, ?_⟩
    · simp [htk, hlen]
    · intro i e he
      have h1 := h.link i e he
      have h2 := (List.getElem?_eq_some_iff.1 h1).1
      simp only [htk]
      rw [growTo, List.getElem?_append_left h2, h1]
    · simp [htk, hlen]
  · rename_i hn
    rw [h.cap] at hn
    exact ⟨h, rfl, rfl, by omega⟩

theorem Rel.emplace_some {w : Nat} {t : SparseTable V} {m : FinMap V} (h : Rel w t m) {k : Nat} {v v' : V}
    (hg : m.get k = some v') :
    ∃ i : Nat, t.dense[i]? = some (k, v') ∧ t.emplace w k v = .ok t (i, false) := by
  obtain ⟨i, hi⟩ := h.get_some hg
  refine ⟨i, hi, ?_⟩
  have : t.sparse[k]? = some i := h.inv.link i _ hi
  simp [emplace, h.inv.contains_some hi, this]

theorem Rel.emplace_none {w : Nat} {t : SparseTable V} {m : FinMap V} (h : Rel w t m) {k : Nat} {v : V}
    (hk : k + 1 < U64) (hg : m.get k = none) (hc : m.count + 1 < 2 ^ w) :
    ∃ t', t.emplace w k v = .ok t' (t.dense.length, true) ∧ t'.dense = t.dense ++ [(k, v)] ∧
      Rel w t' (m.put k v) := by
  have hno := h.get_none hg
  obtain ⟨hi, hd, hs, hl⟩ := h.inv.reserveSparse ((k + 1) % U64)
  rw [Nat.mod_eq_of_lt hk] at hi hd hs hl
  have hsz : (t.reserveSparse (k + 1)).size = t.dense.length := by rw [hs, h.inv.size]
  refine ⟨{ dense := t.dense ++ [(k, v)], sparse := (t.reserveSparse (k + 1)).sparse.set k t.dense.length,
            size := t.dense.length + 1, cap := (t.reserveSparse (k + 1)).cap }, ?_, rfl, ?_⟩
  · have hlt : k < (t.reserveSparse (k + 1)).sparse.length := by omega
    have hmod : (t.dense.length + 1) % 2 ^ w = t.dense.length + 1 :=
      Nat.mod_eq_of_lt (by rw [← h.count]; exact hc)
    simp [emplace, h.inv.contains_none hno, Nat.mod_eq_of_lt hk, hd, hsz, hlt, hmod]
  · constructor
    · constructor
      · simp [hi.cap]
      · simp
      · show t.dense.length + 1 < 2 ^ w
        rw [← h.count]; exact hc
      · intro i e he
        simp only at he ⊢
        rw [List.getElem?_append] at he
        split at he
        · have hne : e.1 ≠ k := by
            rintro rfl
            exact hno e.2 (List.mem_of_getElem? he)
          rw [List.getElem?_set_ne (Ne.symm hne)]
          exact hi.link i e (by rw [hd]; exact he)
        · rename_i hlt
          have h0 : i = t.dense.length := by
            have := (List.getElem?_eq_some_iff.1 he).1
            simp at this; omega
          subst h0
          simp at he
          subst he
          have hlt : k < (t.reserveSparse (k + 1)).sparse.length := by omega
          simp [hlt]
    · intro k' v'
      simp only [FinMap.put, List.mem_append, List.mem_singleton]
      by_cases hkk : k' = k
      · subst hkk
        simp only [if_true, Option.some.injEq]
        constructor
        · rintro rfl; right; rfl
        · rintro (h1 | h1)
          · exact absurd h1 (hno _)
          · simpa using h1.symm
      · simp only [hkk, if_false, h.mem, Prod.mk.injEq, false_and, or_false]
    · simp [FinMap.put, hg, h.count]

theorem Rel.at_ {w : Nat} {t : SparseTable V} {m : FinMap V} (h : Rel w t m) (k : Nat) :
    t.at_ k = match m.get k with | some v => .ok v | none => .throw .outOfRange := by
  cases hg : m.get k with
  | none => simp [SparseTable.at_, h.inv.contains_none (h.get_none hg)]
  | some v =>
    obtain ⟨i, hi⟩ := h.get_some hg
    have : t.sparse[k]? = some i := h.inv.link i _ hi
    simp [SparseTable.at_, h.inv.contains_some hi, this, hi]

theorem Rel.contains {w : Nat} {t : SparseTable V} {m : FinMap V} (h : Rel w t m) (k : Nat) :
    t.contains k = .ok (m.get k).isSome := by
  cases hg : m.get k with
  | none => simp [h.inv.contains_none (h.get_none hg)]
  | some v =>
    obtain ⟨i, hi⟩ := h.get_some hg
    simp [h.inv.contains_some hi]

theorem Rel.set {w : Nat} {t : SparseTable V} {m : FinMap V} (h : Rel w t m) {k i : Nat} {v v' : V}
    (hi : t.dense[i]? = some (k, v')) :
    Rel w { t with dense := t.dense.set i (k, v) } (m.put k v) := by
  have hil := (List.getElem?_eq_some_iff.1 hi).1
  have hg : m.get k = some v' := (h.mem k v').2 (List.mem_of_getElem? hi)
  constructor
  · constructor
    · exact h.inv.cap
    · simp [h.inv.size]
    · exact h.inv.small
    · intro j e he
      rw [List.getElem?_set] at he
      split at he
      · rename_i hij; subst hij
        simp [hil] at he; subst he
        exact h.inv.link i (k, v') hi
      · exact h.inv.link j e he
  · intro k' x
    simp only [FinMap.put]
    split
    · rename_i hk; subst hk
      simp only [Option.some.injEq]
      constructor
      · rintro rfl
        exact List.mem_iff_getElem?.2 ⟨i, by simp [hil]⟩
      · intro hm
        obtain ⟨j, hj⟩ := List.mem_iff_getElem?.1 hm
        rw [List.getElem?_set] at hj
        split at hj
        · simp [hil] at hj; exact hj
        · rename_i hne
          exact absurd (h.inv.key_inj hi hj rfl) hne
    · rename_i hk
      rw [h.mem, List.mem_iff_getElem?, List.mem_iff_getElem?]
      constructor
      · rintro ⟨j, hj⟩
        refine ⟨j, ?_⟩
        rw [List.getElem?_set_ne]
        · exact hj
        · rintro rfl; rw [hi] at hj; simp at hj; exact hk hj.1.symm
      · rintro ⟨j, hj⟩
        refine ⟨j, ?_⟩
        rw [List.getElem?_set] at hj
        split at hj
        · simp [hil] at hj; exact absurd hj.1.symm hk
        · exact hj
  · simp [FinMap.put, hg, h.count]

theorem Rel.index {w : Nat} {t : SparseTable V} {m : FinMap V} (h : Rel w t m) {k : Nat} {d : V}
    (hk : k + 1 < U64) (hc : (m.putNew k d).count < 2 ^ w) :
    ∃ (t' : SparseTable V) (i : Nat) (v : V), t.index w k d = .ok t' i ∧ t'.dense[i]? = some (k, v) ∧
      (m.putNew k d).get k = some v ∧ Rel w t' (m.putNew k d) := by
  cases hg : m.get k with
  | some v =>
    obtain ⟨i, hi, he⟩ := h.emplace_some (v := d) hg
    have hp : m.putNew k d = m := by simp [FinMap.putNew, hg]
    refine ⟨t, i, v, ?_, hi, ?_, ?_⟩
    · simp [SparseTable.index, he, hi]
    · rw [hp, hg]
    · rw [hp]; exact h
  | none =>
    have hp : m.putNew k d = m.put k d := by simp [FinMap.putNew, hg]
    rw [hp] at hc ⊢
    obtain ⟨t', he, hd, hr⟩ := h.emplace_none (v := d) hk hg (by simpa [FinMap.put, hg] using hc)
    have : t'.dense[t.dense.length]? = some (k, d) := by rw [hd]; simp
    refine ⟨t', t.dense.length, d, ?_, this, ?_, hr⟩
    · simp [SparseTable.index, he, this]
    · simp [FinMap.put]

theorem FinMap.put_putNew (m : FinMap V) (k : Nat) (d v : V) : (m.putNew k d).put k v = m.put k v := by
  unfold FinMap.putNew
  split
  · rfl
  · rename_i hg
    simp only [FinMap.put, FinMap.mk.injEq]
    refine ⟨?_, ?_⟩
    · funext k'; split <;> simp_all
    · simp [hg]

theorem Rel.assign {w : Nat} {t : SparseTable V} {m : FinMap V} (h : Rel w t m) {k : Nat} {d v : V}
    (hk : k + 1 < U64) (hc : (m.put k v).count < 2 ^ w) :
    ∃ t', t.assign w k d v = .ok t' () ∧ Rel w t' (m.put k v) := by
  have hc' : (m.putNew k d).count < 2 ^ w := by
    unfold FinMap.putNew
    split
    · rw [h.count, ← h.inv.size]; exact h.inv.small
    · exact hc
  obtain ⟨t', i, v', he, hi, _, hr⟩ := h.index hk hc'
  refine ⟨{ t' with dense := t'.dense.set i (k, v) }, ?_, ?_⟩
  · simp [SparseTable.assign, he, hi]
  · have := hr.set (v := v) hi
    rwa [FinMap.put_putNew] at this

theorem Rel.erase {w : Nat} {t : SparseTable V} {m : FinMap V} (h : Rel w t m) (k : Nat) :
    ∃ t', t.erase k = .ok t' (if (m.get k).isSome then 1 else 0) ∧ Rel w t' (m.del k) := by
  cases hg : m.get k with
  | none =>
    refine ⟨t, ?_, ?_⟩
    · simp [SparseTable.erase, h.inv.contains_none (h.get_none hg)]
    · have : m.del k = m := by
        simp only [FinMap.del, hg]
        cases m with
        | mk get count =>
          simp only [FinMap.mk.injEq, Option.isSome_none, Bool.false_eq_true, if_false, and_true]
          funext k'; split
          · rename_i hk; subst hk; exact hg.symm
          · rfl
      rw [this]; exact h
  | some v =>
    obtain ⟨i, hi⟩ := h.get_some hg
    have hil := (List.getElem?_eq_some_iff.1 hi).1
    have hsp : t.sparse[k]? = some i := h.inv.link i _ hi
    have hne : t.dense ≠ [] := by intro h0; simp [h0] at hil
    obtain ⟨back, hback⟩ : ∃ b, t.dense.getLast? = some b := by
      exact ⟨_, List.getLast?_eq_some_getLast hne⟩
    have hlast : t.dense[t.dense.length - 1]? = some back := by rw [← hback, List.getLast?_eq_getElem?]
    have hbk := h.inv.link _ _ hlast
    have hbl := (List.getElem?_eq_some_iff.1 hbk).1
    have hd1 : (t.dense.set i back)[t.dense.length - 1]? = some back := by
      rw [List.getElem?_set]; split
      · rename_i he; subst he; simp [hil]
      · exact hlast
    have hval : ∀ j, j < t.dense.length - 1 →
        (t.dense.set i back).dropLast[j]? = if i = j then some back else t.dense[j]? := by
      intro j hj
      rw [List.getElem?_dropLast, if_pos (by simpa using hj), List.getElem?_set]
      split
      · simp [hil]
      · rfl
    refine ⟨{ dense := (t.dense.set i back).dropLast, sparse := t.sparse.set back.1 i,
              size := t.size - 1, cap := t.cap }, ?_, ?_⟩
    · simp [SparseTable.erase, h.inv.contains_some hi, hsp, hback, hil, h.inv.size, hd1, hbl]
    · constructor
      · constructor
        · simp [h.inv.cap]
        · simp [h.inv.size]
        · show t.size - 1 < 2 ^ w
          have := h.inv.small; omega
        · intro j e he
          simp only at he ⊢
          have hj : j < t.dense.length - 1 := by
            have := (List.getElem?_eq_some_iff.1 he).1; simpa using this
          rw [hval j hj] at he
          split at he
          · rename_i hij; subst hij
            simp only [Option.some.injEq] at he; subst he
            simp [hbl]
          · rename_i hij
            have hne' : back.1 ≠ e.1 := by
              intro hc
              have := h.inv.key_inj hlast he hc
              omega
            rw [List.getElem?_set_ne hne']
            exact h.inv.link j e he
      · intro k' x
        have hmem : (k', x) ∈ (t.dense.set i back).dropLast ↔ k' ≠ k ∧ (k', x) ∈ t.dense := by
          rw [List.mem_iff_getElem?, List.mem_iff_getElem?]
          constructor
          · rintro ⟨j, hj⟩
            have hjl : j < t.dense.length - 1 := by
              have := (List.getElem?_eq_some_iff.1 hj).1; simpa using this
            rw [hval j hjl] at hj
            split at hj
            · rename_i hij; subst hij
              simp only [Option.some.injEq] at hj; subst hj
              refine ⟨?_, _, hlast⟩
              rintro rfl
              have := h.inv.key_inj hi hlast rfl; omega
            · rename_i hij
              refine ⟨?_, _, hj⟩
              rintro rfl
              exact hij (h.inv.key_inj hi hj rfl)
          · rintro ⟨hk, j, hj⟩
            have hjl := (List.getElem?_eq_some_iff.1 hj).1
            by_cases hje : j = t.dense.length - 1
            · subst hje
              rw [hlast] at hj; simp only [Option.some.injEq] at hj; subst hj
              have hne2 : i ≠ t.dense.length - 1 := by
                rintro rfl
                rw [hlast] at hi; simp only [Option.some.injEq, Prod.mk.injEq] at hi
                exact hk hi.1
              exact ⟨i, by rw [hval i (by omega)]; simp⟩
            · refine ⟨j, ?_⟩
              rw [hval j (by omega), if_neg, hj]
              rintro rfl
              rw [hi] at hj; simp only [Option.some.injEq, Prod.mk.injEq] at hj
              exact hk hj.1.symm
        simp only [FinMap.del]
        rw [hmem]
        split
        · rename_i hk; subst hk; simp
        · rename_i hk; rw [h.mem]; simp [hk]
      · simp [FinMap.del, hg, h.count]

theorem Rel.clear {w : Nat} {t : SparseTable V} {m : FinMap V} (h : Rel w t m) :
    Rel w t.clear FinMap.empty := by
  constructor
  · constructor
    · simp [SparseTable.clear, h.inv.cap]
    · simp [SparseTable.clear]
    · simp [SparseTable.clear, Nat.pow_pos]
    · simp [SparseTable.clear]
  · simp [SparseTable.clear, FinMap.empty]
  · simp [SparseTable.clear, FinMap.empty]

theorem Rel.reserveSparse {w : Nat} {t : SparseTable V} {m : FinMap V} (h : Rel w t m) (n : Nat) :
    Rel w (t.reserveSparse n) m := by
  obtain ⟨a, b, _⟩ := h.inv.reserveSparse n
  exact ⟨a, fun k v => by rw [b]; exact h.mem k v, by rw [b]; exact h.count⟩

theorem Rel.step {w : Nat} {t : SparseTable V} {m : FinMap V} (h : Rel w t m) (op : SparseOp V)
    (hk : SparseOp.keyOk w op) (hc : (m.step op).1.count < 2 ^ w) :
    ∃ t', t.step w op = some (t', (m.step op).2) ∧ Rel w t' (m.step op).1 := by
  cases op with
  | emplace k v =>
    cases hg : m.get k with
    | some v' =>
      obtain ⟨i, hi, he⟩ := h.emplace_some (v := v) hg
      exact ⟨t, by simp [SparseTable.step, he, deref, hi, FinMap.step, hg], by simpa [FinMap.step, hg] using h⟩
    | none =>
      simp only [FinMap.step, hg] at hc ⊢
      obtain ⟨t', he, hd, hr⟩ := h.emplace_none (v := v) hk.2 hg (by simpa [FinMap.put, hg] using hc)
      exact ⟨t', by simp [SparseTable.step, he, deref, hd], hr⟩
  | assign k d v =>
    obtain ⟨t', he, hr⟩ := h.assign (d := d) hk.2 hc
    exact ⟨t', by simp [SparseTable.step, he, FinMap.step], hr⟩
  | erase k =>
    obtain ⟨t', he, hr⟩ := h.erase k
    exact ⟨t', by simp [SparseTable.step, he, FinMap.step], hr⟩
  | clear => exact ⟨_, rfl, h.clear⟩
  | reserveSparse n => exact ⟨_, rfl, h.reserveSparse n⟩
  | contains k => exact ⟨t, by simp [SparseTable.step, h.contains, FinMap.step], h⟩
  | at_ k =>
    cases hg : m.get k with
    | some v => exact ⟨t, by simp [SparseTable.step, h.at_, hg, FinMap.step], by simpa [FinMap.step, hg] using h⟩
    | none => exact ⟨t, by simp [SparseTable.step, h.at_, hg, FinMap.step], by simpa [FinMap.step, hg] using h⟩
  | index k d =>
    have e : (m.step (.index k d)).1 = m.putNew k d := by
      cases hg : m.get k <;> simp [FinMap.step, FinMap.putNew, hg]
    rw [e] at hc ⊢
    obtain ⟨t', i, v, he, hi, hv, hr⟩ := h.index hk.2 hc
    refine ⟨t', ?_, hr⟩
    have : (m.step (.index k d)).2 = .value v := by
      cases hg : m.get k <;> simp_all [FinMap.step, FinMap.putNew, FinMap.put]
    simp [SparseTable.step, he, deref, hi, this]
  | size => exact ⟨t, by simp [SparseTable.step, FinMap.step, h.inv.size, h.count], h⟩

theorem Rel.run {w : Nat} (ops : List (SparseOp V)) : ∀ {t : SparseTable V} {m : FinMap V}, Rel w t m →
    SparseOps.Ok w m ops →
    ∃ t', t.run w ops = some (t', (m.run ops).2) ∧ Rel w t' (m.run ops).1 := by
  induction ops with
  | nil => intro t m h _; exact ⟨t, rfl, h⟩
  | cons op ops ih =>
    intro t m h hok
    obtain ⟨h1, h2, h3⟩ := hok
    obtain ⟨t1, e1, r1⟩ := h.step op h1 h2
    obtain ⟨t2, e2, r2⟩ := ih r1 h3
    exact ⟨t2, by simp [SparseTable.run, e1, e2, FinMap.run], r2⟩

/-- Keys in the dense vector are pairwise distinct. -/
theorem Inv.nodup {w : Nat} {t : SparseTable V} (h : t.Inv w) : (t.dense.map Prod.fst).Nodup := by
  rw [List.Nodup, List.pairwise_iff_getElem]
  intro i j hi hj hij heq
  simp only [List.length_map] at hi hj
  simp only [List.getElem_map] at heq
  have := h.key_inj (List.getElem?_eq_getElem hi) (List.getElem?_eq_getElem hj) heq
  omega

end SparseTable
end CoEcs
