import Verif.Proofs.HashLife

/-!
# Objects in the buckets of the hash map (C75, C76)
-/

namespace CoEcs.Props
open CoEcs Spec

/-- **C75 is violated** by every history in which a present key is erased: the number of objects whose destructor is
never called is exactly the number of such calls.  (No call, including the destructor, uses an object that does not
live, and the answers are those of a finite map: the model with lifetimes refines the same specification.) -/
theorem C75_violated_iff_erased {K V : Type} [DecidableEq K] (h : K → Nat) (n : Nat) (hn : PowTwo n)
    (ops : List (HashOp K V)) (ok : HashOps.Ok ops) :
    ∃ t0 F, LTable.mk' n = .ok t0 ∧ ∀ fuel, F ≤ fuel →
      ∃ t, t0.run h fuel ops = .ok (t, ((KeyMap.empty : KeyMap K V).run ops).2) ∧
        t.destruct = .ok ((KeyMap.empty : KeyMap K V).erased ops) := by
  obtain ⟨lt, h1, h2, h3, h4⟩ := LTable.mk'_of (K := K) (V := V) (n := n) (t' := ⟨n, List.replicate n none, 0⟩) (by simp [HTable.mk', hn.even])
  obtain ⟨F, hF⟩ := LTable.run_of ops (HTable.HRel.fresh h hn) ok
  refine ⟨lt, F, h1, fun f hf => ?_⟩
  obtain ⟨t, h5, -, h6, h7⟩ := hF f hf lt h2 h3
  exact ⟨t, h5, by rw [LTable.destruct_of h6, h7, h4, Nat.zero_add]⟩

/-- Insert two colliding keys, erase the first (the second moves into its bucket), insert again, erase a missing key. -/
def eraseHash : List (HashOp Nat Nat) := [.emplace 1 10, .emplace 5 50, .erase 1, .at_ 5, .emplace 9 90, .erase 7]

example : ∃ t0 F, LTable.mk' 4 = .ok t0 ∧ ∀ fuel, F ≤ fuel →
    ∃ t, t0.run (fun k => k) fuel eraseHash =
        .ok (t, [.entry 1 10 true, .entry 5 50 true, .unit, .value 50, .entry 9 90 true, .unit]) ∧
      t.destruct = .ok 1 :=
  C75_violated_iff_erased (fun k => k) 4 ⟨2, by omega, rfl⟩ eraseHash (fun n hn => by simp [eraseHash] at hn)

/-- **C75** (partial; missing: histories that erase present keys, where it is false): without such calls every object
constructed in the buckets is destroyed, through growth, `reserve`, `clear` and the destructor. -/
theorem C75_without_erase_partial {K V : Type} [DecidableEq K] (h : K → Nat) (n : Nat) (hn : PowTwo n)
    (ops : List (HashOp K V)) (ok : HashOps.Ok ops) (he : ∀ k, HashOp.erase k ∉ ops) :
    ∃ t0 F, LTable.mk' n = .ok t0 ∧ ∀ fuel, F ≤ fuel →
      ∃ t, t0.run h fuel ops = .ok (t, ((KeyMap.empty : KeyMap K V).run ops).2) ∧ t.destruct = .ok 0 := by
  have h0 : ∀ (ops : List (HashOp K V)) (m : KeyMap K V), (∀ k, HashOp.erase k ∉ ops) → m.erased ops = 0 := by
    intro ops
    induction ops with
    | nil => intro m _; rfl
    | cons op ops ih =>
      intro m hx
      have := ih (m.step op).1 (fun k hk => hx k (List.mem_cons_of_mem _ hk))
      cases op <;> simp [KeyMap.erased, this]
      exact absurd (List.mem_cons_self ..) (hx _)
  obtain ⟨t0, F, h1, h2⟩ := C75_violated_iff_erased h n hn ops ok
  rw [h0 _ _ he] at h2
  exact ⟨t0, F, h1, h2⟩

example : ∃ t0 F, LTable.mk' 2 = .ok t0 ∧ ∀ fuel, F ≤ fuel →
    ∃ t, t0.run (fun _ => 5) fuel [.emplace 1 10, .emplace 2 20, .emplace 3 30, .clear, .index 7 5, .insertOrAssign 7 8] =
        .ok (t, [.entry 1 10 true, .entry 2 20 true, .entry 3 30 true, .unit, .value 5, .entry 7 8 false]) ∧
      t.destruct = .ok 0 :=
  C75_without_erase_partial (fun _ => 5) 2 ⟨1, by omega, rfl⟩ _ (fun n hn => by simp at hn) (fun k hk => by simp at hk)

/-- **C76 is violated** exactly when the table grows: for every reachable table and every element of it, insertion with
arguments that refer to that element is undefined if the load is above 85 percent, and otherwise does what insertion of
copies does. -/
theorem C76_violated_iff_growing {K V : Type} [DecidableEq K] {h : K → Nat} {n : Nat} (hn : PowTwo n)
    (ops : List (HashOp K V)) (ok : HashOps.Ok ops) (assign : Bool) :
    ∃ t0 t F, HTable.mk' n = .ok t0 ∧ ∀ fuel, F ≤ fuel →
      t0.run h fuel ops = .ok (t, ((KeyMap.empty : KeyMap K V).run ops).2) ∧
      ∀ src e, t.deref src = .ok e → ∀ key : Option K,
        (t.size > HTable.approx85 t.n → t.emplaceRef h assign fuel key src = .ub) ∧
        (¬ t.size > HTable.approx85 t.n →
          t.emplaceRef h assign fuel key src = t.emplace h assign fuel (key.getD e.key) e.val) := by
  obtain ⟨t, ⟨F, hF⟩, r⟩ := HTable.HRel.run ops (HTable.HRel.fresh h hn) ok
  obtain ⟨t2, h2, -, -⟩ := r.reserve (HTable.PowTwo.double r.pow)
  obtain ⟨F2, hF2⟩ := h2.ev
  refine ⟨_, t, max F F2, by simp only [HTable.mk', hn.even, if_true], fun f hf => ⟨hF f (by omega), ?_⟩⟩
  intro src e he key
  refine ⟨fun hc => ?_, fun hc => ?_⟩
  · simp only [HTable.emplaceRef, he, Run.bind, if_pos hc, hF2 f (by omega)]
  · simp only [HTable.emplaceRef, HTable.emplace, he, Run.bind, if_neg hc]

/-- Fourteen keys in the default number of buckets: the next insertion grows the table; thirteen: it does not. -/
def fillHash (j : Nat) : List (HashOp Nat Nat) := (List.range j).map fun k => .emplace k (k * 10)

example : (match (HTable.empty : HTable Nat Nat).run (fun k => k) 20 (fillHash 14) with
    | .ok (t, _) => t.size > HTable.approx85 t.n && t.deref 3 == .ok ⟨3, 0, 3, 30⟩ && t.emplaceRef (fun k => k) false 20 (some 100) 3 == .ub
    | _ => false) = true := by decide +kernel

example : (match (HTable.empty : HTable Nat Nat).run (fun k => k) 20 (fillHash 13) with
    | .ok (t, _) => !(t.size > HTable.approx85 t.n) && t.deref 3 == .ok ⟨3, 0, 3, 30⟩ &&
        (match t.emplaceRef (fun k => k) false 20 (some 100) 3 with | .ok (t', i, b) => b && t'.deref i == .ok ⟨100, 1, 100, 30⟩ | _ => false)
    | _ => false) = true := by decide +kernel

end CoEcs.Props
