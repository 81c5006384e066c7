import Verif.Model.Component
import Verif.Proofs.Bitset

namespace CoEcs.MetaSet

/-- The bit set and the list describe the same components, each listed once. -/
structure Inv (s : MetaSet) : Prop where
  canon : Bitset.Canon s.set
  nodup : (s.metas.map CompMeta.id).Nodup
  test : ∀ i, s.set.test i = true ↔ i ∈ s.metas.map CompMeta.id

theorem inv_empty : Inv empty := by
  refine ⟨Bitset.canon_mk, by simp [empty], fun i => ?_⟩
  simp only [empty, Bitset.test_blk, Bitset.blk, Bitset.mk', List.replicate_one]
  cases i / 64 <;> simp

theorem Inv.contains {s : MetaSet} (h : Inv s) (i : Nat) : s.contains i = true ↔ i ∈ s.metas.map CompMeta.id :=
  h.test i

theorem Inv.insert {s : MetaSet} (h : Inv s) (m : CompMeta) : Inv (s.insert m) := by
  unfold MetaSet.insert
  split
  · exact h
  · rename_i hc
    rw [h.contains] at hc
    refine ⟨Bitset.canon_set _ _ _ h.canon, ?_, fun i => ?_⟩
    · rw [List.map_append, List.nodup_append]
      exact ⟨h.nodup, by simp, fun a ha b hb => by simp at hb; subst hb; exact fun e => hc (e ▸ ha)⟩
    · rw [Bitset.test_set]
      split
      · rename_i he; subst he; simp
      · rename_i he; rw [h.test]; simp [he]

theorem Inv.erase {s : MetaSet} (h : Inv s) (id : Nat) : Inv (s.erase id) := by
  unfold MetaSet.erase
  split
  · refine ⟨Bitset.canon_set _ _ _ h.canon, ?_, fun i => ?_⟩
    · exact List.Sublist.nodup (List.Sublist.map _ List.filter_sublist) h.nodup
    · rw [Bitset.test_set]
      split
      · rename_i he; subst he; simp
      · rename_i he
        rw [h.test]
        simp only [List.mem_map, List.mem_filter, decide_not]
        constructor
        · rintro ⟨m, hm, rfl⟩; exact ⟨m, ⟨hm, by simpa using he⟩, rfl⟩
        · rintro ⟨m, ⟨hm, _⟩, rfl⟩; exact ⟨m, hm, rfl⟩
  · exact h

theorem inv_create_from (ms : List CompMeta) : ∀ s, Inv s → Inv (ms.foldl MetaSet.insert s) := by
  induction ms with
  | nil => intro s h; exact h
  | cons m ms ih => intro s h; exact ih _ (h.insert m)

theorem inv_create (ms : List CompMeta) : Inv (create ms) := inv_create_from ms _ inv_empty

end CoEcs.MetaSet
