import Verif.Model.SparseIter
import Verif.Props.SparseMap

/-!
# C118: writing through iterators of sparse maps
-/

namespace CoEcs.Props
open CoEcs Spec SparseTable

variable {V : Type}

theorem sparse_made {w : Nat} {ops : List (SparseOp V)} (ok : SparseOps.Ok w FinMap.empty ops) {t : SparseTable V} {as : List (SparseAns V)}
    (hm : (SparseTable.empty : SparseTable V).run w ops = some (t, as)) : SparseTable.Rel w t (FinMap.empty.run ops).1 := by
  obtain ⟨t', h1, r⟩ := (SparseTable.Rel.empty w).run ops ok
  rw [hm] at h1
  cases h1
  exact r

theorem sparse_write_eq {t : SparseTable V} {i : Nat} {e : Nat × V} (hi : t.dense[i]? = some e) (k : Nat) (v : V) :
    t.write i k v = .ok { t with dense := t.dense.set i (k, v) } := by
  unfold SparseTable.write
  rw [if_pos (List.getElem?_eq_some_iff.1 hi).1]

/-- **C118** for values: after writing only the value, all further calls are answered as by the map with that value. -/
theorem C118_value_partial (w : Nat) (ops : List (SparseOp V)) (ok : SparseOps.Ok w FinMap.empty ops) (t : SparseTable V)
    (as : List (SparseAns V)) (hm : (SparseTable.empty : SparseTable V).run w ops = some (t, as)) (i : Nat) (e : Nat × V)
    (hi : t.dense[i]? = some e) (v : V) (more : List (SparseOp V)) (ok' : SparseOps.Ok w ((FinMap.empty.run ops).1.put e.1 v) more) :
    ∃ t' t'', t.write i e.1 v = .ok t' ∧ t'.run w more = some (t'', (((FinMap.empty.run ops).1.put e.1 v).run more).2) := by
  have r := sparse_made ok hm
  obtain ⟨k, v0⟩ := e
  obtain ⟨t'', h1, _⟩ := (r.set (v := v) hi).run more ok'
  exact ⟨_, t'', sparse_write_eq hi k v, h1⟩

/-- The entries of the map and of the vector after the write. -/
theorem sparse_write_mem {w : Nat} {t : SparseTable V} {m : FinMap V} (r : SparseTable.Rel w t m) {i : Nat} {e : Nat × V}
    (hi : t.dense[i]? = some e) {k : Nat} (v : V) (hk : m.get k = none) :
    ∀ q x, ((m.del e.1).put k v).get q = some x ↔ (q, x) ∈ t.dense.set i (k, v) := by
  have hil := (List.getElem?_eq_some_iff.1 hi).1
  intro q x
  simp only [FinMap.put, FinMap.del]
  split
  · rename_i hq
    subst hq
    simp only [Option.some.injEq]
    constructor
    · rintro rfl
      exact List.mem_iff_getElem?.2 ⟨i, by simp [hil]⟩
    · intro hm
      obtain ⟨j, hj⟩ := List.mem_iff_getElem?.1 hm
      rw [List.getElem?_set] at hj
      split at hj
      · simp [hil] at hj; exact hj
      · exact absurd (List.mem_of_getElem? hj) (r.get_none hk x)
  · rename_i hq
    split
    · rename_i hqe
      simp only [reduceCtorEq, false_iff]
      intro hm
      obtain ⟨j, hj⟩ := List.mem_iff_getElem?.1 hm
      rw [List.getElem?_set] at hj
      split at hj
      · simp [hil] at hj; exact hq hj.1.symm
      · rename_i hne
        exact hne (r.inv.key_inj hi hj hqe.symm)
    · rename_i hqe
      rw [r.mem, List.mem_iff_getElem?, List.mem_iff_getElem?]
      constructor
      · rintro ⟨j, hj⟩
        refine ⟨j, ?_⟩
        rw [List.getElem?_set_ne]
        · exact hj
        · rintro rfl
          rw [hi] at hj
          cases hj
          exact hqe rfl
      · rintro ⟨j, hj⟩
        refine ⟨j, ?_⟩
        rw [List.getElem?_set] at hj
        split at hj
        · simp [hil] at hj; exact absurd hj.1.symm hq
        · exact hj

/-- **C118** for a new key: every other key is found with its value, and the new one exactly if the array of positions happens to hold the position
of the iterator for it. -/
theorem C118_key_exact (w : Nat) (ops : List (SparseOp V)) (ok : SparseOps.Ok w FinMap.empty ops) (t : SparseTable V)
    (as : List (SparseAns V)) (hm : (SparseTable.empty : SparseTable V).run w ops = some (t, as)) (i : Nat) (e : Nat × V)
    (hi : t.dense[i]? = some e) (k : Nat) (v : V) (hk : (FinMap.empty.run ops).1.get k = none) :
    ∃ t', t.write i k v = .ok t' ∧ (k, v) ∈ t'.dense ∧ t'.contains k = .ok (decide (t.sparse[k]? = some i)) ∧
      ∀ q, q ≠ k → t'.contains q = .ok (((FinMap.empty.run ops).1.del e.1).get q).isSome ∧
        ∀ x, ((FinMap.empty.run ops).1.del e.1).get q = some x → t'.at_ q = .ok x := by
  have r := sparse_made ok hm
  have hil := (List.getElem?_eq_some_iff.1 hi).1
  have mem := sparse_write_mem r hi v hk
  refine ⟨_, sparse_write_eq hi k v, (mem k v).1 (by simp [FinMap.put]), ?_, ?_⟩
  · unfold SparseTable.contains SparseTable.find
    simp only
    by_cases hc : k < t.cap
    · rw [if_pos hc]
      rw [r.inv.cap] at hc
      rw [List.getElem?_eq_getElem hc]
      simp only [Option.some.injEq]
      generalize t.sparse[k] = j
      by_cases hj : j = i
      · subst hj
        rw [r.inv.size, if_pos hil, List.getElem?_set_self hil]
        simp
        omega
      · simp only [hj, decide_false]
        by_cases hjs : j < t.size
        · rw [if_pos hjs, List.getElem?_set_ne (Ne.symm hj)]
          rw [r.inv.size] at hjs
          rw [List.getElem?_eq_getElem hjs]
          simp only
          rw [if_neg]
          intro hkk
          exact r.get_none hk t.dense[j].2 (by rw [← hkk]; exact List.getElem_mem hjs)
        · rw [if_neg hjs]
    · rw [if_neg hc]
      rw [r.inv.cap] at hc
      rw [List.getElem?_eq_none (by omega)]
      simp
  · intro q hq
    have hput : ((FinMap.empty.run ops).1.del e.1).get q = (((FinMap.empty.run ops).1.del e.1).put k v).get q := by
      simp [FinMap.put, hq]
    cases hg : ((FinMap.empty.run ops).1.del e.1).get q with
    | some x =>
      have hqe : q ≠ e.1 := by
        rintro rfl
        simp [FinMap.del] at hg
      have hg' : (FinMap.empty.run ops).1.get q = some x := by simpa [FinMap.del, hqe] using hg
      obtain ⟨l, hl⟩ := r.get_some hg'
      have hli : l ≠ i := by
        rintro rfl
        rw [hi] at hl
        cases hl
        exact hqe rfl
      have h1 : t.sparse[q]? = some l := r.inv.link l _ hl
      have h2 := (List.getElem?_eq_some_iff.1 h1).1
      have h3 := (List.getElem?_eq_some_iff.1 hl).1
      have hcon : ({ t with dense := t.dense.set i (k, v) } : SparseTable V).contains q = .ok true := by
        unfold SparseTable.contains SparseTable.find
        simp only
        rw [if_pos (by rw [r.inv.cap]; exact h2), h1]
        simp only
        rw [if_pos (by rw [r.inv.size]; exact h3), List.getElem?_set_ne (Ne.symm hli), hl]
        simp
        omega
      refine ⟨hcon, ?_⟩
      intro x' hx'
      cases hx'
      unfold SparseTable.at_
      rw [hcon]
      simp only
      rw [h1]
      simp only
      rw [List.getElem?_set_ne (Ne.symm hli), hl]
    | none =>
      refine ⟨?_, fun x hx => by cases hx⟩
      have hno : ∀ x, (q, x) ∉ t.dense.set i (k, v) := by
        intro x hx
        have := (mem q x).2 hx
        rw [← hput, hg] at this
        cases this
      unfold SparseTable.contains SparseTable.find
      simp only
      by_cases hc : q < t.cap
      · rw [if_pos hc]
        rw [r.inv.cap] at hc
        rw [List.getElem?_eq_getElem hc]
        simp only
        generalize t.sparse[q] = j
        by_cases hjs : j < t.size
        · rw [if_pos hjs]
          rw [r.inv.size] at hjs
          rw [List.getElem?_eq_getElem (by rw [List.length_set]; exact hjs)]
          simp only
          rw [if_neg]
          · rfl
          · intro hkk
            apply hno ((t.dense.set i (k, v))[j]'(by rw [List.length_set]; exact hjs)).2
            rw [← hkk]
            exact List.getElem_mem _
        · rw [if_neg hjs]
          rfl
      · rw [if_neg hc]
        rfl

/-- **C118** if the new key is found: all further calls are answered as by the map in which the key was replaced. -/
theorem C118_key_partial (w : Nat) (ops : List (SparseOp V)) (ok : SparseOps.Ok w FinMap.empty ops) (t : SparseTable V)
    (as : List (SparseAns V)) (hm : (SparseTable.empty : SparseTable V).run w ops = some (t, as)) (i : Nat) (e : Nat × V)
    (hi : t.dense[i]? = some e) (k : Nat) (v : V) (hk : (FinMap.empty.run ops).1.get k = none) (hs : t.sparse[k]? = some i)
    (more : List (SparseOp V)) (ok' : SparseOps.Ok w (((FinMap.empty.run ops).1.del e.1).put k v) more) :
    ∃ t' t'', t.write i k v = .ok t' ∧ t'.run w more = some (t'', ((((FinMap.empty.run ops).1.del e.1).put k v).run more).2) := by
  have r := sparse_made ok hm
  have hil := (List.getElem?_eq_some_iff.1 hi).1
  have hke : k ≠ e.1 := by
    rintro rfl
    have := (r.mem e.1 e.2).2 (List.mem_of_getElem? hi)
    rw [hk] at this
    cases this
  have r' : SparseTable.Rel w { t with dense := t.dense.set i (k, v) } (((FinMap.empty.run ops).1.del e.1).put k v) := by
    refine ⟨⟨r.inv.cap, by simp [r.inv.size], r.inv.small, ?_⟩, sparse_write_mem r hi v hk, ?_⟩
    · intro j e' he'
      simp only at he'
      rw [List.getElem?_set] at he'
      split at he'
      · rename_i hij
        subst hij
        simp [hil] at he'
        subst he'
        exact hs
      · exact r.inv.link j e' he'
    · have hme : (FinMap.empty.run ops).1.get e.1 = some e.2 := (r.mem e.1 e.2).2 (List.mem_of_getElem? hi)
      have := r.count
      simp only [FinMap.put, FinMap.del, if_neg hke, hk, hme, List.length_set, Option.isSome_none, Option.isSome_some, if_true]
      simp
      omega
  obtain ⟨t'', h1, _⟩ := r'.run more ok'
  exact ⟨_, t'', sparse_write_eq hi k v, h1⟩

/-- **C118 is violated** for every map and every key above the capacity: it is in the vector but not found; and if it was written over the last
entry, erasing any other key is undefined. -/
theorem C118_key_violated (w : Nat) (ops : List (SparseOp V)) (ok : SparseOps.Ok w FinMap.empty ops) (t : SparseTable V)
    (as : List (SparseAns V)) (hm : (SparseTable.empty : SparseTable V).run w ops = some (t, as)) (i : Nat) (e : Nat × V)
    (hi : t.dense[i]? = some e) (k : Nat) (v : V) (hk : t.cap ≤ k) :
    ∃ t', t.write i k v = .ok t' ∧ (k, v) ∈ t'.dense ∧ t'.contains k = .ok false ∧
      (i + 1 = t.dense.length → ∀ q x, (FinMap.empty.run ops).1.get q = some x → q ≠ e.1 → t'.erase q = .ub) := by
  have r := sparse_made ok hm
  have hil := (List.getElem?_eq_some_iff.1 hi).1
  have hks : t.sparse[k]? = none := List.getElem?_eq_none (by rw [← r.inv.cap]; exact hk)
  have hkn : (FinMap.empty.run ops).1.get k = none := by
    cases hg : (FinMap.empty.run ops).1.get k with
    | none => rfl
    | some x =>
      obtain ⟨l, hl⟩ := r.get_some hg
      have : t.sparse[k]? = some l := r.inv.link l _ hl
      rw [hks] at this
      cases this
  obtain ⟨t', h1, h2, h3, h4⟩ := C118_key_exact w ops ok t as hm i e hi k v hkn
  refine ⟨t', h1, h2, by rw [h3, hks]; rfl, ?_⟩
  intro hlast q x hq hqe
  rw [sparse_write_eq hi k v] at h1
  cases h1
  have hqk : q ≠ k := by
    rintro rfl
    rw [hkn] at hq
    cases hq
  have hc := (h4 q hqk).1
  have : ((FinMap.empty.run ops).1.del e.1).get q = some x := by simp [FinMap.del, hqe, hq]
  rw [this] at hc
  obtain ⟨l, hl⟩ := r.get_some hq
  have hll := (List.getElem?_eq_some_iff.1 hl).1
  have hli : l ≠ i := by
    rintro rfl
    rw [hi] at hl
    cases hl
    exact hqe rfl
  have hsq : t.sparse[q]? = some l := r.inv.link l _ hl
  unfold SparseTable.erase
  rw [hc]
  simp only [Option.isSome_some]
  rw [hsq]
  have hgl : (t.dense.set i (k, v)).getLast? = some (k, v) := by
    rw [List.getLast?_eq_getElem?, List.length_set, show t.dense.length - 1 = i by omega, List.getElem?_set_self hil]
  rw [hgl]
  simp only [List.length_set]
  rw [if_pos hll]
  have hd : ((t.dense.set i (k, v)).set l (k, v))[t.size - 1]? = some (k, v) := by
    rw [r.inv.size, show t.dense.length - 1 = i by omega, List.getElem?_set_ne hli, List.getElem?_set_self hil]
  rw [hd]
  simp only
  rw [if_neg]
  rw [← r.inv.cap]
  omega

/-- **C118 is violated** for every map and every key that another entry has: the value written is not found, the key keeps the value of the other
entry; the key that was written over is not found any more, though `size()` is as before. -/
theorem C118_taken_violated (w : Nat) (ops : List (SparseOp V)) (ok : SparseOps.Ok w FinMap.empty ops) (t : SparseTable V)
    (as : List (SparseAns V)) (hm : (SparseTable.empty : SparseTable V).run w ops = some (t, as)) (i : Nat) (e : Nat × V)
    (hi : t.dense[i]? = some e) (k : Nat) (v x : V) (hk : (FinMap.empty.run ops).1.get k = some x) (hke : k ≠ e.1) :
    ∃ t', t.write i k v = .ok t' ∧ (k, v) ∈ t'.dense ∧ t'.at_ k = .ok x ∧ t'.contains e.1 = .ok false ∧
      t'.size = (FinMap.empty.run ops).1.count := by
  have r := sparse_made ok hm
  have hil := (List.getElem?_eq_some_iff.1 hi).1
  obtain ⟨l, hl⟩ := r.get_some hk
  have hli : l ≠ i := by
    rintro rfl
    rw [hi] at hl
    cases hl
    exact hke rfl
  have h1 : t.sparse[k]? = some l := r.inv.link l _ hl
  have h2 := (List.getElem?_eq_some_iff.1 h1).1
  have h3 := (List.getElem?_eq_some_iff.1 hl).1
  have hcon : ({ t with dense := t.dense.set i (k, v) } : SparseTable V).contains k = .ok true := by
    unfold SparseTable.contains SparseTable.find
    simp only
    rw [if_pos (by rw [r.inv.cap]; exact h2), h1]
    simp only
    rw [if_pos (by rw [r.inv.size]; exact h3), List.getElem?_set_ne (Ne.symm hli), hl]
    simp
    omega
  refine ⟨_, sparse_write_eq hi k v, List.mem_iff_getElem?.2 ⟨i, by simp [hil]⟩, ?_, ?_, ?_⟩
  · unfold SparseTable.at_
    rw [hcon]
    simp only
    rw [h1]
    simp only
    rw [List.getElem?_set_ne (Ne.symm hli), hl]
  · have h4 : t.sparse[e.1]? = some i := r.inv.link i _ hi
    have h5 := (List.getElem?_eq_some_iff.1 h4).1
    unfold SparseTable.contains SparseTable.find
    simp only
    rw [if_pos (by rw [r.inv.cap]; exact h5), h4]
    simp only
    rw [if_pos (by rw [r.inv.size]; exact hil), List.getElem?_set_self hil]
    simp only
    rw [if_neg hke]
  · have := r.count
    simp only [r.inv.size]
    omega

/-- A map with the keys 0 and 3. -/
def pairSparse : List (SparseOp Nat) := [.emplace 0 10, .emplace 3 20]

theorem pairSparse_ok : SparseOps.Ok 8 FinMap.empty pairSparse := by
  simp [pairSparse, SparseOps.Ok, SparseOp.keyOk, U64, FinMap.step, FinMap.put, FinMap.empty]

/-- Key 100 over key 3: not found, and erasing key 0 is undefined. -/
example : ∃ t as t', (SparseTable.empty : SparseTable Nat).run 8 pairSparse = some (t, as) ∧ t.write 1 100 30 = .ok t' ∧
    t'.contains 100 = .ok false ∧ t'.erase 0 = .ub := by
  obtain ⟨t', h1, _, h2, h3⟩ := C118_key_violated 8 pairSparse pairSparse_ok ⟨[(0, 10), (3, 20)], [0, 0, 0, 1], 2, 4⟩ _ rfl 1 (3, 20) rfl 100 30 (by decide)
  exact ⟨_, _, t', rfl, h1, h2, h3 rfl 0 10 rfl (by decide)⟩

/-- Key 0 over key 3: key 0 has its old value, key 3 is gone. -/
example : ∃ t as t', (SparseTable.empty : SparseTable Nat).run 8 pairSparse = some (t, as) ∧ t.write 1 0 30 = .ok t' ∧
    t'.at_ 0 = .ok 10 ∧ t'.contains 3 = .ok false := by
  obtain ⟨t', h1, _, h2, h3, _⟩ := C118_taken_violated 8 pairSparse pairSparse_ok ⟨[(0, 10), (3, 20)], [0, 0, 0, 1], 2, 4⟩ _ rfl 1 (3, 20) rfl 0 30 10 rfl
    (by decide)
  exact ⟨_, _, t', rfl, h1, h2, h3⟩

/-- Key 2 over key 0: found, as the array of positions was filled with zeros. -/
example : ∃ t as t' t'', (SparseTable.empty : SparseTable Nat).run 8 pairSparse = some (t, as) ∧ t.write 0 2 30 = .ok t' ∧
    t'.run 8 [.at_ 2, .at_ 0] = some (t'', [.value 30, .notFound]) := by
  obtain ⟨t', t'', h1, h2⟩ := C118_key_partial 8 pairSparse pairSparse_ok ⟨[(0, 10), (3, 20)], [0, 0, 0, 1], 2, 4⟩ _ rfl 0 (0, 10) rfl 2 30 rfl rfl
    [.at_ 2, .at_ 0] (by simp [pairSparse, FinMap.run, SparseOps.Ok, SparseOp.keyOk, U64, FinMap.step, FinMap.put, FinMap.del, FinMap.empty])
  exact ⟨_, _, t', t'', rfl, h1, h2⟩

end CoEcs.Props
