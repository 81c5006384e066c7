import Verif.Model.ViewRange
import Verif.Spec.ViewRange
import Verif.Proofs.ViewOthers

/-!
# Lemmas about kept ranges of views
-/

namespace CoEcs
open Spec

variable {V : Type}

/-- From any bucket on: the chunks of the pointers there. -/
theorem chunksBehind_eq {r : Reg V} {args : List BlockId} (hn : r.archs.map.n ≤ r.archs.map.slots.length) : ∀ (k p : Nat),
    p + k = r.archs.map.n → r.chunksBehind args k p =
      r.viewChunksOf args (((((r.archs.map.slots.take r.archs.map.n).drop p)).filterMap id).map HEntry.val)
  | 0, p, hp => by
    have : (r.archs.map.slots.take r.archs.map.n).drop p = [] := by
      rw [List.drop_eq_nil_iff]; simp; omega
    rw [this]
    rfl
  | k + 1, p, hp => by
    have hlt : p < (r.archs.map.slots.take r.archs.map.n).length := by simp; omega
    have hslot : r.archs.map.slot? p = some (r.archs.map.slots[p]'(by omega)) := by
      unfold HTable.slot?
      rw [if_pos (by omega), List.getElem?_eq_getElem]
    have ih := chunksBehind_eq (args := args) hn k (p + 1) (by omega)
    rw [List.drop_eq_getElem_cons hlt, List.getElem_take]
    unfold Reg.chunksBehind
    rw [hslot]
    cases hx : r.archs.map.slots[p]'(by omega) with
    | none => simpa only [List.filterMap_cons, id_eq] using ih
    | some e =>
      simp only [List.filterMap_cons, id_eq, List.map_cons]
      unfold Reg.archIn
      cases hv : e.val with
      | none => rfl
      | some ai =>
        unfold Reg.viewChunksOf
        cases ha : r.archs.arches[ai]? with
        | none => simp only [ha]
        | some a =>
          simp only [ha, ih]
          generalize r.viewChunksOf args _ = o
          cases o <;> rfl

/-- The search stops where the iteration begins. -/
theorem seekBucket_spec {r : Reg V} {args : List BlockId} : ∀ (k p : Nat),
    (r.seekBucket args k p = none ∧ r.chunksBehind args k p = none) ∨
    ∃ q, r.seekBucket args k p = some q ∧ p ≤ q ∧ q ≤ p + k ∧ r.chunksAt args (p + k - q) q = r.chunksBehind args k p
  | 0, p => by
    right
    exact ⟨p, rfl, by omega, by omega, by simp [Reg.chunksAt, Reg.chunksBehind]⟩
  | k + 1, p => by
    have ih := seekBucket_spec (r := r) (args := args) k (p + 1)
    unfold Reg.seekBucket Reg.chunksBehind
    cases hs : r.archs.map.slot? p with
    | none => left; exact ⟨rfl, rfl⟩
    | some o =>
      cases o with
      | none =>
        rcases ih with ⟨h1, h2⟩ | ⟨q, h1, h2, h3, h4⟩
        · left; exact ⟨h1, h2⟩
        · right
          refine ⟨q, h1, by omega, by omega, ?_⟩
          rw [← h4]; congr 1; omega
      | some e =>
        cases ha : r.archIn e with
        | none => left; exact ⟨by simp [ha], by simp [ha]⟩
        | some x =>
          obtain ⟨ai, a⟩ := x
          simp only [ha]
          by_cases hm : args.all (Reg.matchArg a) = true
          · right
            refine ⟨p, by simp [hm], by omega, by omega, ?_⟩
            have : p + (k + 1) - p = k + 1 := by omega
            rw [this]
            unfold Reg.chunksAt
            simp [hs, ha, hm]
          · rcases ih with ⟨h1, h2⟩ | ⟨q, h1, h2, h3, h4⟩
            · left; exact ⟨by simpa [hm] using h1, by simp [h2]⟩
            · right
              refine ⟨q, by simpa [hm] using h1, by omega, by omega, ?_⟩
              have : p + (k + 1) - q = p + 1 + k - q := by omega
              rw [this, h4]
              cases r.chunksBehind args k (p + 1) <;> simp [hm]

theorem Rep.map_n {ty : Types} {r : Reg V} {d : Nat} {W : Handle → Option (Comps V)} (R : Rep ty r d W) :
    r.archs.map.n ≤ r.archs.map.slots.length := by
  obtain ⟨m, hm⟩ := R.archs
  exact Nat.le_of_eq hm.rel.len.symm

theorem viewChunks_behind {r : Reg V} {args : List BlockId} (hn : r.archs.map.n ≤ r.archs.map.slots.length) :
    r.viewChunks args = r.chunksBehind args r.archs.map.n 0 := by
  rw [chunksBehind_eq hn _ 0 (by omega)]
  unfold Reg.viewChunks Reg.viewPtrs HTable.entries
  simp [hn]

/-- The first iteration over a range: what the view shows then. -/
theorem iterate_fresh {r : Reg V} {args : List BlockId} (hn : r.archs.map.n ≤ r.archs.map.slots.length) :
    ((ViewRange.fresh args).iterate r = none ∧ r.viewChunks args = none) ∨
    ∃ p cs, p ≤ r.archs.map.n ∧ r.seekBucket args r.archs.map.n 0 = some p ∧ r.viewChunks args = some cs ∧
      r.chunksAt args (r.archs.map.n - p) p = some cs ∧
      (ViewRange.fresh args).iterate r = some (⟨args, some ⟨r.archs.map.n, p⟩⟩, cs) := by
  rw [viewChunks_behind hn]
  unfold ViewRange.iterate ViewRange.begin_ ViewRange.fresh
  simp only
  rcases seekBucket_spec (r := r) (args := args) r.archs.map.n 0 with ⟨h1, h2⟩ | ⟨q, h1, h2, h3, h4⟩
  · left; simp [h1, h2]
  · rw [Nat.zero_add] at h3 h4
    simp only [h1, h4]
    cases hc : r.chunksBehind args r.archs.map.n 0 with
    | none => left; simp
    | some cs => right; exact ⟨q, cs, h3, rfl, rfl, h4.trans hc, rfl⟩

/-- The same map of the same archetypes, whatever rows they have. -/
structure SameArchs (r r' : Reg V) : Prop where
  map : r'.archs.map = r.archs.map
  arch : ∀ (ai : Nat) (a : Arch V), r.archs.arches[ai]? = some a → ∃ a' : Arch V, r'.archs.arches[ai]? = some a' ∧ a'.comps = a.comps

theorem SameArchs.refl (r : Reg V) : SameArchs r r := ⟨rfl, fun _ a h => ⟨a, h, rfl⟩⟩

theorem SameArchs.trans {r r1 r2 : Reg V} (h : SameArchs r r1) (h' : SameArchs r1 r2) : SameArchs r r2 := by
  refine ⟨h'.map.trans h.map, fun ai a ha => ?_⟩
  obtain ⟨b, e1, e2⟩ := h.arch ai a ha
  obtain ⟨c, f1, f2⟩ := h'.arch ai b e1
  exact ⟨c, f1, f2.trans e2⟩

theorem Still.same {args : List BlockId} {r r' : Reg V} (h : Still args r r') : SameArchs r r' :=
  ⟨h.map, fun ai a ha => by obtain ⟨a', e1, e2, _⟩ := h.arch ai a ha; exact ⟨a', e1, e2⟩⟩

/-- The search finds the same bucket. -/
theorem SameArchs.seek {r r' : Reg V} (h : SameArchs r r') {args : List BlockId} : ∀ {k p q : Nat},
    r.seekBucket args k p = some q → r'.seekBucket args k p = some q
  | 0, _, _, he => he
  | k + 1, p, q, he => by
    unfold Reg.seekBucket at he ⊢
    rw [h.map]
    cases hs : r.archs.map.slot? p with
    | none => rw [hs] at he; cases he
    | some o =>
      rw [hs] at he
      cases o with
      | none => exact h.seek he
      | some e =>
        simp only at he ⊢
        unfold Reg.archIn at he ⊢
        cases hv : e.val with
        | none => rw [hv] at he; cases he
        | some ai =>
          simp only [hv] at he ⊢
          cases ha : r.archs.arches[ai]? with
          | none => rw [ha] at he; cases he
          | some a =>
            obtain ⟨a', e1, e2⟩ := h.arch ai a ha
            simp only [ha, e1, matchArg_congr e2] at he ⊢
            split at he
            · rename_i hm; simpa [hm] using he
            · rename_i hm; simpa [hm] using h.seek he

/-- A component no archetype of either list has. -/
theorem fresh_comp (as : List (Arch V)) : ∃ n : Nat, ∀ a ∈ as, ∀ c, n ≤ c → a.contains c = false := by
  induction as with
  | nil => exact ⟨0, fun a h => by cases h⟩
  | cons b bs ih =>
    obtain ⟨n, hn⟩ := ih
    refine ⟨max n (64 * b.comps.set.blocks.length), fun a ha c hc => ?_⟩
    rcases List.mem_cons.1 ha with rfl | ha
    · show a.comps.set.test c = false
      unfold Bitset.test
      rw [List.getElem?_eq_none (by omega)]
    · exact hn a ha c (by omega)

theorem not_has {r : Reg V} {n c : Nat} (h : ∀ a ∈ r.archs.arches, ∀ c, n ≤ c → a.contains c = false) (hc : n ≤ c) (g : Handle) :
    r.has g (compsOf [some c]) ≠ .ok true := by
  unfold Reg.has
  split
  · exact fun h => by cases h
  · exact fun h => by cases h
  · split
    · exact fun h => by cases h
    · rename_i ai a ha
      have hm : a ∈ r.archs.arches := by
        unfold Reg.archOf at ha
        grind
      have := h a hm c hc
      simp [compsOf, this]

/-- Operations that need no new archetype leave the map and the archetypes. -/
theorem OldRun.same {ty : Types} : ∀ {ops : List (CbOp V)} {r r' : Reg V} {W : Handle → Option (Comps V)}, Rep ty r 0 W →
    OldRun ty r ops r' → SameArchs r r' ∧ ∃ W', Rep ty r' 0 W'
  | [], _, _, W, R, .nil _ => ⟨.refl _, W, R⟩
  | op :: ops, r, r', W, R, .cons (r1 := r1) (h := h) hd h3 h4 => by
    obtain ⟨n, hn⟩ := fresh_comp r.archs.arches
    obtain ⟨n1, hn1⟩ := fresh_comp r1.archs.arches
    have h1 : r.has h (compsOf [some (max n n1)]) ≠ .ok true := not_has hn (by omega) h
    have h2 : r1.has h (compsOf [some (max n n1)]) ≠ .ok true := not_has hn1 (by omega) h
    obtain ⟨g, W', R'⟩ : Still [some (max n n1)] r r1 ∧ ∃ W', Rep ty r1 0 W' := by
      cases hd with
      | create hnd hb hc => exact R.create_still hnd hb hc h3 h2
      | destroy hc =>
        obtain ⟨g, R1⟩ := R.destroy_still (args := [some (max n n1)]) hc fun d hw hm => h1 ((R.matches_iff h _).2 ⟨d, hw, hm⟩)
        exact ⟨g, _, R1⟩
      | set hc => exact R.set_still hc h3 h1 h2
      | remove hc => exact R.remove_still hc h3 h1
    obtain ⟨s, W'', R''⟩ := OldRun.same R' h4
    exact ⟨g.same.trans s, W'', R''⟩

end CoEcs
