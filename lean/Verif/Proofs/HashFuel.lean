import Verif.Proofs.HashTableRefine
import Verif.Model.Archetype

/-!
# The probe loops of the hash table end within an explicit number of iterations
-/

namespace CoEcs
open Spec
namespace HTable
variable {K V : Type} [DecidableEq K]

/-- Insertion of a new key, growth included: `2 * n` iterations per loop are enough. -/
theorem HRel.emplace_fresh {h : K → Nat} {t : HTable K V} {m : KeyMap K V} (r : HRel h t m) (asg : Bool) {k : K} (v : V)
    (hg : m.get k = none) :
    ∃ t' i e, EvFrom (2 * t.n) (fun f => t.emplace h asg f k v) (t', i, true) ∧ HRel h t' (m.put k v) ∧
      i < t'.n ∧ at' t'.slots i = some e ∧ e.key = k ∧ e.val = v := by
  have hgrow : ∃ t1, EvFrom (2 * t.n) (fun f => if t.size > approx85 t.n then t.reserve h f (t.n <<< 1) else .ok t) t1 ∧
      HRel h t1 m ∧ t1.size < t1.n ∧ t1.n ≤ 2 * t.n := by
    by_cases hc : t.size > approx85 t.n
    · obtain ⟨t1, h1, h2, h3⟩ := r.reserve (PowTwo.double r.pow)
      have hle := r.size_le
      have hn2 := r.pow.ge
      have hd : t.n <<< 1 = t.n * 2 := by rw [Nat.shiftLeft_eq]
      have hn1 := h3 (by omega)
      have hs : t1.size = t.size := by rw [← h2.cnt, ← r.cnt]
      refine ⟨t1, EvFrom.congr (h1.le (by omega)) (fun f => by simp [hc]), h2, ?_, ?_⟩ <;> omega
    · refine ⟨t, (EvFrom.const _ t).congr (fun f => by simp [hc]), r, ?_, by omega⟩
      have := approx85_lt (n := t.n) (by have := r.pow.ge; omega)
      omega
  obtain ⟨t1, h1, r1, hs1, hn1⟩ := hgrow
  obtain ⟨t2, i, e, h2, r2, _, hi, he, hk, hv⟩ := r1.emplaceRaw_new asg v hg hs1
  exact ⟨t2, i, e, h1.bind (h2.le hn1), r2, hi, he, hk, hv⟩

theorem HRel.index_from {h : K → Nat} {t : HTable K V} {m : KeyMap K V} (r : HRel h t m) (k : K) (d : V) :
    ∃ t' i e, EvFrom (2 * t.n + pslSum t.slots + 2) (fun f => t.index h f k d) (t', i) ∧
      HRel h t' (if (m.get k).isSome then m else m.put k d) ∧
      i < t'.n ∧ at' t'.slots i = some e ∧ e.key = k ∧ some e.val = (m.get k).or (some d) := by
  cases hg : m.get k with
  | some v0 =>
    obtain ⟨i, e, hi, he, hk, hv⟩ := r.present hg
    refine ⟨t, i, e, ?_, by simpa using r, hi, he, hk, by simp [hv]⟩
    exact ((r.find_some hi he hk).le (by omega)).bind (EvFrom.const _ (t, i))
  | none =>
    obtain ⟨t', i, e, h1, r1, hi, he, hk, hv⟩ := r.emplace_fresh false d hg
    refine ⟨t', i, e, ?_, by simpa using r1, hi, he, hk, by simpa using hv⟩
    exact ((r.find_none hg).le (by omega)).bind ((h1.le (by omega)).bind (EvFrom.const _ (t', i)))

end HTable

theorem fuel_eq (t : HTable Bitset (Option Nat)) : Archs.fuel t = 2 * t.n + HTable.pslSum t.slots + 2 := by
  unfold Archs.fuel HTable.pslSum
  congr 3
  apply List.map_congr_left
  intro o _
  cases o <;> rfl

end CoEcs
