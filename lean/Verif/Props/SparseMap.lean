import Verif.Proofs.SparseTable

/-!
# Properties of the sparse map (C06, C07)
-/

namespace CoEcs.Props
open CoEcs Spec

/-- **C06**, the part that holds: for every key width and every list of calls during which the map
never holds all `2^w` keys of its key type, the sparse map answers exactly like a finite map and
touches nothing outside its arrays (the run is not `none`).  Missing: the full map, where the answer
is wrong (`C06_violated_full`), and use after a move (`C06_violated_moved_from`). -/
theorem C06_sparse_map_refines_partial {V : Type} (w : Nat) (ops : List (SparseOp V))
    (ok : SparseOps.Ok w FinMap.empty ops) :
    ∃ t, (SparseTable.empty : SparseTable V).run w ops = some (t, (FinMap.empty.run ops).2) := by
  obtain ⟨t, h, _⟩ := (SparseTable.Rel.empty w).run ops ok
  exact ⟨t, h⟩

/-- Sample: 8-bit keys; erase in the middle, reinsertion, overwrite. -/
def sampleSparse : List (SparseOp Nat) :=
  [.emplace 7 70, .emplace 200 1, .assign 3 0 30, .erase 7, .contains 7, .emplace 3 99, .at_ 200,
   .index 9 5, .size, .at_ 7, .clear, .contains 3]

theorem sampleSparse_ok : SparseOps.Ok 8 FinMap.empty sampleSparse := by
  simp [sampleSparse, SparseOps.Ok, SparseOp.keyOk, U64, FinMap.step, FinMap.put, FinMap.del, FinMap.empty]

example : ∃ t, (SparseTable.empty : SparseTable Nat).run 8 sampleSparse = some (t,
    [.entry 7 70 true, .entry 200 1 true, .unit, .num 1, .bool false, .entry 3 30 false, .value 1,
     .value 5, .num 3, .notFound, .unit, .bool false]) :=
  C06_sparse_map_refines_partial 8 sampleSparse sampleSparse_ok

/-- **C07**, the part that holds: under the same condition, iterating the map (its dense vector) yields
each stored key once, with its current value, and nothing else.  Missing: see `C07_violated_full`. -/
theorem C07_sparse_iteration_partial {V : Type} (w : Nat) (ops : List (SparseOp V))
    (ok : SparseOps.Ok w FinMap.empty ops) :
    ∃ t, (SparseTable.empty : SparseTable V).run w ops = some (t, (FinMap.empty.run ops).2) ∧
      (t.dense.map Prod.fst).Nodup ∧
      (∀ k v, (k, v) ∈ t.dense ↔ (FinMap.empty.run ops).1.get k = some v) := by
  obtain ⟨t, h, r⟩ := (SparseTable.Rel.empty w).run ops ok
  exact ⟨t, h, r.inv.nodup, fun k v => (r.mem k v).symm⟩

/-- After the first eight calls of the sample the map holds the keys 3, 9 and 200. -/
example : ∃ t, (SparseTable.empty : SparseTable Nat).run 8 (sampleSparse.take 8) = some (t,
    ((FinMap.empty : FinMap Nat).run (sampleSparse.take 8)).2) ∧
    (t.dense.map Prod.fst).Nodup ∧ (3, 30) ∈ t.dense ∧ (200, 1) ∈ t.dense := by
  have ok : SparseOps.Ok 8 FinMap.empty (sampleSparse.take 8) := by
    simp [sampleSparse, SparseOps.Ok, SparseOp.keyOk, U64, FinMap.step, FinMap.put, FinMap.del, FinMap.empty]
  obtain ⟨t, h1, h2, h3⟩ := C07_sparse_iteration_partial 8 _ ok
  exact ⟨t, h1, h2, (h3 3 30).2 rfl, (h3 200 1).2 rfl⟩

/-! ### The full map -/

/-- Insert the keys 0, 1, ..., n-1. -/
def fillOps (n : Nat) : List (SparseOp Nat) := (List.range n).map fun k => .emplace k k

theorem SparseTable.run_append {V : Type} (w : Nat) (ops1 ops2 : List (SparseOp V)) :
    ∀ (t t1 : SparseTable V) (as : List (SparseAns V)), t.run w ops1 = some (t1, as) →
    t.run w (ops1 ++ ops2) = (t1.run w ops2).map fun r => (r.1, as ++ r.2) := by
  induction ops1 with
  | nil =>
    intro t t1 as h
    simp only [SparseTable.run, Option.some.injEq, Prod.mk.injEq] at h
    obtain ⟨rfl, rfl⟩ := h
    simp
  | cons op ops ih =>
    intro t t1 as h
    simp only [SparseTable.run, List.cons_append] at h ⊢
    cases hs : t.step w op with
    | none => simp [hs] at h
    | some r =>
      simp only [hs] at h ⊢
      cases hr : r.1.run w ops with
      | none => simp [hr] at h
      | some r' =>
        simp only [hr, Option.some.injEq, Prod.mk.injEq] at h
        obtain ⟨rfl, rfl⟩ := h
        rw [ih r.1 r'.1 r'.2 (by rw [hr])]
        cases r'.1.run w ops2 <;> simp

theorem fill_run (w : Nat) (n : Nat) (hw : w ≤ 63) (hn : n ≤ 2 ^ w) :
    ∃ as, (SparseTable.empty : SparseTable Nat).run w (fillOps n) =
      some (⟨(List.range n).map fun k => (k, k), List.range n, n % 2 ^ w, n⟩, as) := by
  induction n with
  | zero => exact ⟨[], by simp [fillOps, SparseTable.run, SparseTable.empty]⟩
  | succ n ih =>
    obtain ⟨as, h⟩ := ih (by omega)
    have h63 : 2 ^ w ≤ 2 ^ 63 := Nat.pow_le_pow_right (by omega) hw
    have hU : (n + 1) % U64 = n + 1 := Nat.mod_eq_of_lt (by unfold U64; omega)
    have hfill : fillOps (n + 1) = fillOps n ++ [.emplace n n] := by
      simp [fillOps, List.range_succ]
    rw [hfill, SparseTable.run_append w _ _ _ _ _ h]
    have hm : n % 2 ^ w = n := Nat.mod_eq_of_lt (by omega)
    have hset : ((List.range n ++ [0]).take (n + 1)).set n n = List.range n ++ [n] := by
      rw [List.take_of_length_le (by simp), List.set_append]; simp
    refine ⟨as ++ [.entry n n true], ?_⟩
    simp [SparseTable.run, SparseTable.step, SparseTable.emplace, SparseTable.contains, SparseTable.find,
      SparseTable.reserveSparse, SparseTable.growTo, hU, SparseTable.deref, hm,
      List.range_succ, hset]

/-- **C06 is violated**: for every key width, after inserting every key of the key type the map
reports size 0 and denies containing key 0, while a finite map holds 2^w entries. -/
theorem C06_violated_full (w : Nat) (hw : w ≤ 63) :
    ∃ t as, (SparseTable.empty : SparseTable Nat).run w (fillOps (2 ^ w) ++ [.contains 0, .size]) =
      some (t, as ++ [.bool false, .num 0]) := by
  obtain ⟨as, h⟩ := fill_run w (2 ^ w) hw (Nat.le_refl _)
  rw [SparseTable.run_append w _ _ _ _ _ h]
  have hp : 0 < 2 ^ w := Nat.pow_pos (by omega)
  refine ⟨⟨(List.range (2 ^ w)).map fun k => (k, k), List.range (2 ^ w), 2 ^ w % 2 ^ w, 2 ^ w⟩, as, ?_⟩
  simp [SparseTable.run, SparseTable.step, SparseTable.contains, SparseTable.find, hp]

/-- What a finite map answers to the same calls. -/
theorem fill_spec (n : Nat) : ((FinMap.empty : FinMap Nat).run (fillOps n)).1.count = n ∧
    ∀ k, ((FinMap.empty : FinMap Nat).run (fillOps n)).1.get k = if k < n then some k else none := by
  have app : ∀ (ops1 ops2 : List (SparseOp Nat)) (m : FinMap Nat),
      (m.run (ops1 ++ ops2)).1 = ((m.run ops1).1.run ops2).1 := by
    intro ops1
    induction ops1 with
    | nil => intro ops2 m; rfl
    | cons op ops ih => intro ops2 m; exact ih ops2 _
  induction n with
  | zero => simp [fillOps, FinMap.run, FinMap.empty]
  | succ n ih =>
    have hfill : fillOps (n + 1) = fillOps n ++ [.emplace n n] := by
      simp [fillOps, List.range_succ]
    rw [hfill, app]
    obtain ⟨h1, h2⟩ := ih
    have hg := h2 n
    rw [if_neg (by omega)] at hg
    simp only [FinMap.run, FinMap.step, hg, FinMap.put, h1, Option.isSome_none]
    refine ⟨rfl, fun k => ?_⟩
    rw [h2]
    by_cases hk : k = n
    · subst hk; simp
    · have : (k < n + 1) ↔ (k < n) := by omega
      simp [hk, this]

/-- **C07 is violated**: after the wrap a further `emplace` of a key that is already stored inserts
it a second time. -/
theorem C07_violated_full (w : Nat) (hw : w ≤ 63) :
    ∃ t as, (SparseTable.empty : SparseTable Nat).run w (fillOps (2 ^ w) ++ [.emplace 0 7]) = some (t, as) ∧
      ¬ (t.dense.map Prod.fst).Nodup := by
  obtain ⟨as, h⟩ := fill_run w (2 ^ w) hw (Nat.le_refl _)
  rw [SparseTable.run_append w _ _ _ _ _ h]
  have hp : 0 < 2 ^ w := Nat.pow_pos (by omega)
  have h1 : ¬ (1 > 2 ^ w) := by omega
  have hd : ∀ l : List (Nat × Nat), 0 < l.length →
      (l ++ [((0 : Nat), (7 : Nat))])[0]? = l[0]? := by
    intro l hl; rw [List.getElem?_append_left hl]
  have h0 : ((List.range (2 ^ w)).map fun k => (k, k))[0]? = some (0, 0) := by
    simp [hp]
  refine ⟨⟨((List.range (2 ^ w)).map fun k => (k, k)) ++ [(0, 7)], (List.range (2 ^ w)).set 0 0, 1 % 2 ^ w, 2 ^ w⟩,
    as ++ [.entry 0 0 true], ?_, ?_⟩
  · have hU : (0 + 1) % U64 = 1 := by decide
    simp only [SparseTable.run, SparseTable.step, SparseTable.emplace, SparseTable.contains, SparseTable.find,
      SparseTable.reserveSparse, hU, SparseTable.deref, Nat.mod_self, hp, if_true]
    have h2 : (List.range (2 ^ w))[0]? = some 0 := by simp [hp]
    have h3 := hd ((List.range (2 ^ w)).map fun k => (k, k)) (by simpa using hp)
    rw [h0] at h3
    simp only [h2, if_neg h1, Nat.lt_irrefl, if_false, List.length_range, hp, if_true, h3]
    simp
  · intro hn
    rw [List.map_append, List.nodup_append] at hn
    exact hn.2.2 0 (by simp [hp]) 0 (by simp) rfl

/-- **C06 is violated** for a moved-from map: looking up a key reads outside the (empty) vectors. -/
theorem C06_violated_moved_from :
    ∃ (t : SparseTable Nat) (as : List (SparseAns Nat)),
      SparseTable.empty.run 32 [.emplace 0 5] = some (t, as) ∧ t.movedFrom.find 0 = .ub :=
  ⟨_, _, rfl, rfl⟩

end CoEcs.Props
