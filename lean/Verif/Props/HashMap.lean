import Verif.Proofs.HashTableStuck

/-!
# Properties of the hash map (C08, C09, C10)

`HTable` is the Robin-Hood table; the specification is the finite map `Spec.KeyMap`.
-/

namespace CoEcs.Props
open CoEcs Spec

/-- **C08**: for every hash function, every bucket count that is a power of two and every list of
calls, all calls terminate (with any amount of fuel from some bound on), no call leaves the arrays,
and every answer is the one a finite map gives. -/
theorem C08_hash_map_refines {K V : Type} [DecidableEq K] (h : K → Nat) (n : Nat) (hn : PowTwo n)
    (ops : List (HashOp K V)) (ok : HashOps.Ok ops) :
    ∃ t0 t, HTable.mk' n = .ok t0 ∧ ∃ F, ∀ fuel, F ≤ fuel →
      t0.run h fuel ops = .ok (t, ((KeyMap.empty : KeyMap K V).run ops).2) := by
  obtain ⟨t, ⟨F, hF⟩, _⟩ := HTable.HRel.run ops (HTable.HRel.fresh h hn) ok
  exact ⟨_, t, by simp [HTable.mk', hn.even], F, hF⟩

/-- The same for a default constructed map. -/
theorem C08_default_hash_map_refines {K V : Type} [DecidableEq K] (h : K → Nat)
    (ops : List (HashOp K V)) (ok : HashOps.Ok ops) :
    ∃ t F, ∀ fuel, F ≤ fuel →
      (HTable.empty : HTable K V).run h fuel ops = .ok (t, ((KeyMap.empty : KeyMap K V).run ops).2) := by
  obtain ⟨t, ⟨F, hF⟩, _⟩ := HTable.HRel.run ops (HTable.HRel.empty h) ok
  exact ⟨t, F, hF⟩

/-- A history with a constant hash function, growth from two buckets, overwriting, erasing from the
middle of a probe sequence, and shrinking by `reserve`. -/
def sampleHash : List (HashOp Nat Nat) :=
  [.emplace 1 10, .emplace 2 20, .emplace 3 30, .emplace 2 99, .insertOrAssign 3 31, .erase 1, .at_ 2,
   .index 7 5, .assign 2 0 22, .reserve 4, .contains 1, .at_ 2, .size, .erase 50, .at_ 1, .clear, .contains 3]

theorem sampleHash_ok : HashOps.Ok sampleHash := by
  intro n hn
  simp [sampleHash] at hn
  exact ⟨2, by omega, hn⟩

example : ∃ t0 t, HTable.mk' 2 = .ok t0 ∧ ∃ F, ∀ fuel, F ≤ fuel →
    t0.run (fun _ => 5) fuel sampleHash = .ok (t,
      [.entry 1 10 true, .entry 2 20 true, .entry 3 30 true, .entry 2 20 false, .entry 3 31 false, .unit,
       .value 20, .value 5, .unit, .unit, .bool false, .value 22, .num 3, .unit, .notFound, .unit,
       .bool false]) :=
  C08_hash_map_refines (fun _ => 5) 2 ⟨1, by omega, rfl⟩ sampleHash sampleHash_ok

/-- **C09**: after every list of calls, iterating from `begin()` to `end()` visits every stored entry
exactly once with its current value, and `size()` is the number of entries visited. -/
theorem C09_hash_map_iteration {K V : Type} [DecidableEq K] (h : K → Nat) (n : Nat) (hn : PowTwo n)
    (ops : List (HashOp K V)) (ok : HashOps.Ok ops) :
    ∃ t0 t es, HTable.mk' n = .ok t0 ∧
      (∃ F, ∀ fuel, F ≤ fuel → ∃ as, t0.run h fuel ops = .ok (t, as)) ∧
      t.entries = .ok es ∧
      (es.map HEntry.key).Nodup ∧
      (∀ k v, (∃ e ∈ es, e.key = k ∧ e.val = v) ↔ ((KeyMap.empty : KeyMap K V).run ops).1.get k = some v) ∧
      es.length = t.size := by
  obtain ⟨t, ⟨F, hF⟩, r⟩ := HTable.HRel.run ops (HTable.HRel.fresh h hn) ok
  obtain ⟨es, h1, h2, h3, h4⟩ := r.entries
  exact ⟨_, t, es, by simp [HTable.mk', hn.even], ⟨F, fun f hf => ⟨_, hF f hf⟩⟩, h1, h2,
    fun k v => (h4 k v).symm, h3⟩

/-- After eight calls of the sample the map holds the keys 2, 3 and 7. -/
example : ∃ t0 t es, HTable.mk' 2 = .ok t0 ∧
    (∃ F, ∀ fuel, F ≤ fuel → ∃ as, t0.run (fun _ => 5) fuel (sampleHash.take 8) = .ok (t, as)) ∧
    t.entries = .ok es ∧ (es.map HEntry.key).Nodup ∧
    (∃ e ∈ es, e.key = 3 ∧ e.val = 31) ∧ ¬ (∃ e ∈ es, e.key = 1 ∧ e.val = 10) := by
  obtain ⟨t0, t, es, h1, h2, h3, h4, h5, _⟩ := C09_hash_map_iteration (fun _ => 5) 2 ⟨1, by omega, rfl⟩
    (sampleHash.take 8) (fun n hn => by simp [sampleHash] at hn)
  exact ⟨t0, t, es, h1, h2, h3, h4, (h5 3 31).2 rfl, fun hc => by have := (h5 1 10).1 hc; cases this⟩

/-- The bucket count `n` works: whatever the hash function and the calls (without a further `reserve`),
all calls terminate with the answers of a finite map. -/
def BucketCountWorks (n : Nat) : Prop :=
  ∀ (h : Nat → Nat) (ops : List (HashOp Nat Nat)), (∀ k, HashOp.reserve k ∉ ops) →
    ∃ t0, HTable.mk' n = .ok t0 ∧ ∃ F, ∀ fuel, F ≤ fuel →
      ∃ t, t0.run h fuel ops = .ok (t, ((KeyMap.empty : KeyMap Nat Nat).run ops).2)

/-- **C10 is violated** for every bucket count that is not a power of two (at least two), although the
constructor and `reserve` accept all even ones: exactly the powers of two work. -/
theorem C10_violated_unless_power_of_two (n : Nat) : BucketCountWorks n ↔ PowTwo n := by
  constructor
  · intro hw
    refine Classical.byContradiction fun hp => ?_
    by_cases he : n % 2 = 0
    · rcases Nat.eq_zero_or_pos n with h0 | h0
      · subst h0
        obtain ⟨t0, h1, F, h2⟩ := hw (fun _ => 0) [.emplace 0 0] (by simp)
        simp only [HTable.mk', Nat.zero_mod, if_true, Run.ok.injEq] at h1
        subst h1
        obtain ⟨t, h2⟩ := h2 (F + 1) (by omega)
        simp [HTable.run, HTable.step, HTable.emplace, HTable.emplaceRaw, HTable.emplaceLoop, Run.bind,
          HTable.approx85] at h2
      · obtain ⟨c, hc, hcn, hs⟩ := short_cycle h0 he hp
        obtain ⟨t0, h1, F, h2⟩ := hw (fun _ => 0) (insertOps 0 (c + 1)) (by simp [insertOps])
        simp only [HTable.mk', he, if_true, Run.ok.injEq] at h1
        subst h1
        obtain ⟨t, h2⟩ := h2 F (Nat.le_refl _)
        rw [insertOps_spec (c + 1) 0 _ (fun k _ => rfl)] at h2
        have := insert_run_within hc hcn hs F (c + 1) 0 _ _ rfl
          ⟨by simp, fun i _ => HTable.at'_replicate n i⟩ (by simp) (by simp [List.countP_replicate]) h2
        simp at this
        omega
    · obtain ⟨t0, h1, _⟩ := hw (fun _ => 0) [] (by simp)
      simp [HTable.mk', he] at h1
  · intro hn h ops hr
    obtain ⟨t0, t, h1, F, h2⟩ := C08_hash_map_refines h n hn ops (fun k hk => absurd hk (hr k))
    exact ⟨t0, h1, F, fun f hf => ⟨t, h2 f hf⟩⟩

/-- Twelve buckets are accepted and do not work; sixteen do. -/
example : ¬ BucketCountWorks 12 ∧ BucketCountWorks 16 := by
  refine ⟨fun h => ?_, (C10_violated_unless_power_of_two 16).2 ⟨4, by omega, rfl⟩⟩
  obtain ⟨k, _, hk⟩ := (C10_violated_unless_power_of_two 12).1 h
  have : k < 4 := (Nat.pow_lt_pow_iff_right (a := 2) (by omega)).1 (by rw [← hk]; omega)
  have h5 : k = 1 ∨ k = 2 ∨ k = 3 ∨ k = 0 := by omega
  rcases h5 with h | h | h | h <;> subst h <;> omega

/-- **C10 is violated** by `reserve(0)` on an empty map: the next insertion indexes an empty array. -/
theorem C10_violated_reserve_zero (h : Nat → Nat) (f : Nat) :
    (HTable.empty : HTable Nat Nat).run h (f + 1) [.reserve 0, .emplace 0 0] = .ub := by
  have he : (HTable.empty : HTable Nat Nat).reserve h (f + 1) 0 = .ok ⟨0, [], 0⟩ := by rfl
  simp only [HTable.run, HTable.step, he, Run.bind, HTable.emplace, HTable.emplaceRaw, HTable.emplaceLoop,
    HTable.approx85]
  simp

/-- **C10 is violated** by six buckets and three keys of hash 0: the third insertion never ends,
whatever the fuel. -/
theorem C10_violated_six_buckets (f : Nat) (h2 : 2 ≤ f) :
    ∃ t0, HTable.mk' 6 = .ok t0 ∧
      t0.run (fun _ => 0) f [.emplace 1 1, .emplace 2 2, .emplace 3 3] = Run.stuck := by
  refine ⟨_, rfl, ?_⟩
  -- two full buckets, three distinct keys: the loop goes round
  have loop : ∀ (f : Nat) (a b c : HEntry Nat Nat) (x : Nat) (ret : Option Nat), x < 2 →
      a.key ≠ b.key → a.key ≠ c.key → b.key ≠ c.key →
      HTable.emplaceLoop false 6 0 f [some a, some b, none, none, none, none] c x ret = .stuck := by
    intro f
    induction f with
    | zero => intros; rfl
    | succ f ih =>
      intro a b c x ret hx hab hac hbc
      have hx' : x = 0 ∨ x = 1 := by omega
      rcases hx' with rfl | rfl
      · have hm : mod2n (0 + 1) 6 = 1 := by decide
        simp only [HTable.emplaceLoop, hm, Nat.zero_lt_succ, if_true, List.getElem?_cons_zero, hac, and_false,
          if_false, List.set_cons_zero]
        split
        · exact ih _ _ _ _ _ (by omega) (by exact Ne.symm hbc) (by exact Ne.symm hac) (by exact Ne.symm hab)
        · exact ih _ _ _ _ _ (by omega) hab hac hbc
      · have hm : mod2n (1 + 1) 6 = 0 := by decide
        simp only [HTable.emplaceLoop, hm, show (1 < 6) by omega, if_true, List.getElem?_cons_succ,
          List.getElem?_cons_zero, hbc, and_false, if_false, List.set_cons_zero, List.set_cons_succ]
        split
        · exact ih _ _ _ _ _ (by omega) hac hab (by exact Ne.symm hbc)
        · exact ih _ _ _ _ _ (by omega) hab hac hbc
  obtain ⟨f, rfl⟩ : ∃ g, f = g + 2 := ⟨f - 2, by omega⟩
  have e1 : (⟨6, List.replicate 6 none, 0⟩ : HTable Nat Nat).step (fun _ => 0) (f + 2) (.emplace 1 1) =
      .ok (⟨6, [some ⟨0, 0, 1, 1⟩, none, none, none, none, none], 1⟩, .entry 1 1 true) := by rfl
  have e2 : (⟨6, [some ⟨0, 0, 1, 1⟩, none, none, none, none, none], 1⟩ : HTable Nat Nat).step (fun _ => 0)
      (f + 2) (.emplace 2 2) =
      .ok (⟨6, [some ⟨0, 0, 1, 1⟩, some ⟨0, 1, 2, 2⟩, none, none, none, none], 2⟩, .entry 2 2 true) := by rfl
  have e3 : (⟨6, [some ⟨0, 0, 1, 1⟩, some ⟨0, 1, 2, 2⟩, none, none, none, none], 2⟩ : HTable Nat Nat).step
      (fun _ => 0) (f + 2) (.emplace 3 3) = .stuck := by
    have hng : ¬ (2 > HTable.approx85 6) := by decide
    have := loop (f + 2) ⟨0, 0, 1, 1⟩ ⟨0, 1, 2, 2⟩ ⟨0, 0, 3, 3⟩ 0 none (by omega) (by decide) (by decide) (by decide)
    simp only [HTable.step, HTable.emplace, if_neg hng, Run.bind, HTable.emplaceRaw,
      show mod2n 0 6 = 0 by decide, this]
  simp only [HTable.run, e1, e2, e3, Run.bind]

/-- **C10 is violated** by the iterator-pair constructor with 32 buckets (a power of two): its info
array has 16 elements, so a key of hash 16 is looked up outside of it. -/
theorem C10_violated_range_constructor (f : Nat) :
    HTable.fromList (fun k => k) (f + 1) 32 [(16, 0)] = (.ub : Run (HTable Nat Nat)) := by
  rfl

/-- **C10**, the part that holds: powers of two in the constructor and in `reserve`.  Missing: all other
even counts, which are accepted. -/
theorem C10_power_of_two_partial {K V : Type} [DecidableEq K] (h : K → Nat) (n k : Nat) (hn : PowTwo n)
    (hk : PowTwo k) (ops ops' : List (HashOp K V)) (ok : HashOps.Ok ops) (ok' : HashOps.Ok ops') :
    ∃ t0 t, HTable.mk' n = .ok t0 ∧ ∃ F, ∀ fuel, F ≤ fuel →
      t0.run h fuel (ops ++ .reserve k :: ops') =
        .ok (t, ((KeyMap.empty : KeyMap K V).run (ops ++ .reserve k :: ops')).2) := by
  refine C08_hash_map_refines h n hn _ (fun j hj => ?_)
  rw [List.mem_append, List.mem_cons] at hj
  rcases hj with hj | hj | hj
  · exact ok j hj
  · cases hj; exact hk
  · exact ok' j hj

example : ∃ t0 t, HTable.mk' 4 = .ok t0 ∧ ∃ F, ∀ fuel, F ≤ fuel →
    t0.run (fun k => k * 4) fuel ([.emplace 1 1, .emplace 2 2] ++ .reserve 64 :: [.at_ 2]) =
      .ok (t, ([.entry 1 1 true, .entry 2 2 true, .unit, .value 2] : List (HashAns Nat Nat))) :=
  C10_power_of_two_partial (fun k => k * 4) 4 64 ⟨2, by omega, rfl⟩ ⟨6, by omega, rfl⟩ _ _
    (fun n hn => by simp at hn) (fun n hn => by simp at hn)

end CoEcs.Props
