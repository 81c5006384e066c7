import Verif.Proofs.Component

/-!
# Component lists (C52)
-/

namespace CoEcs.Props
open CoEcs

/-- Specification: a list of component metadata used as a set; a new component goes to the end. -/
def listStep (l : List CompMeta) : MetaSetOp → List CompMeta
  | .insert m => if m.id ∈ l.map CompMeta.id then l else l ++ [m]
  | .erase id => l.filter fun m => m.id ≠ id

/-- **C52**: after every sequence of insertions and erasures the component list is the specified list,
it holds no component twice, and `contains` reports exactly its members. -/
theorem C52_component_list (ops : List MetaSetOp) :
    (MetaSet.empty.run ops).metas = ops.foldl listStep [] ∧
    ((MetaSet.empty.run ops).metas.map CompMeta.id).Nodup ∧
    ∀ i, (MetaSet.empty.run ops).contains i = true ↔ i ∈ (MetaSet.empty.run ops).metas.map CompMeta.id := by
  suffices h : ∀ (s : MetaSet), MetaSet.Inv s →
      (s.run ops).metas = ops.foldl listStep s.metas ∧ MetaSet.Inv (s.run ops) by
    obtain ⟨h1, h2⟩ := h _ MetaSet.inv_empty
    exact ⟨h1, h2.nodup, h2.contains⟩
  induction ops with
  | nil => intro s h; exact ⟨rfl, h⟩
  | cons op ops ih =>
    intro s h
    have hstep : (s.step op).metas = listStep s.metas op ∧ MetaSet.Inv (s.step op) := by
      cases op with
      | insert m =>
        refine ⟨?_, h.insert m⟩
        simp only [MetaSet.step, MetaSet.insert, listStep, ← h.contains]
        split <;> rfl
      | erase id =>
        refine ⟨?_, h.erase id⟩
        simp only [MetaSet.step, MetaSet.erase, listStep]
        split
        · rfl
        · rename_i hc
          rw [h.contains] at hc
          symm
          rw [List.filter_eq_self]
          intro m hm
          have : m.id ≠ id := fun e => hc (e ▸ List.mem_map_of_mem hm)
          simpa using this
    obtain ⟨h1, h2⟩ := ih _ hstep.2
    exact ⟨by rw [List.foldl_cons, ← hstep.1]; exact h1, h2⟩

/-- Insert 5, 70, 5 again, 3, erase 70: the list is 5, 3. -/
example : ((MetaSet.empty.run [.insert ⟨5, 4, 4, true⟩, .insert ⟨70, 8, 8, true⟩, .insert ⟨5, 4, 4, true⟩,
    .insert ⟨3, 1, 1, true⟩, .erase 70]).metas.map CompMeta.id) = [5, 3] := by
  rw [(C52_component_list _).1]; decide

/-- **C52**: lists that hold the same components compare equal and hash equal, in whatever order the
components were added. -/
theorem C52_same_components_same_key (ops1 ops2 : List MetaSetOp)
    (h : ∀ i, i ∈ (MetaSet.empty.run ops1).metas.map CompMeta.id ↔
      i ∈ (MetaSet.empty.run ops2).metas.map CompMeta.id) :
    (MetaSet.empty.run ops1).set = (MetaSet.empty.run ops2).set := by
  have inv : ∀ (ops : List MetaSetOp) (s : MetaSet), MetaSet.Inv s → MetaSet.Inv (s.run ops) := by
    intro ops
    induction ops with
    | nil => intro s h; exact h
    | cons op ops ih =>
      intro s h
      refine ih _ ?_
      cases op with
      | insert m => exact h.insert m
      | erase id => exact h.erase id
  have i1 := inv ops1 _ MetaSet.inv_empty
  have i2 := inv ops2 _ MetaSet.inv_empty
  refine Bitset.canon_ext i1.canon i2.canon (fun p => ?_)
  rw [Bool.eq_iff_iff, i1.test, i2.test, h]

example : (MetaSet.empty.run [.insert ⟨5, 4, 4, true⟩, .insert ⟨70, 8, 8, true⟩, .insert ⟨200, 8, 8, true⟩,
      .erase 200]).set =
    (MetaSet.empty.run [.insert ⟨70, 8, 8, true⟩, .insert ⟨5, 4, 4, true⟩]).set := by
  apply C52_same_components_same_key
  intro i
  rw [(C52_component_list _).1, (C52_component_list _).1]
  have h1 : (List.foldl listStep [] [.insert ⟨5, 4, 4, true⟩, .insert ⟨70, 8, 8, true⟩, .insert ⟨200, 8, 8, true⟩,
      .erase 200]).map CompMeta.id = [5, 70] := by decide
  have h2 : (List.foldl listStep [] [.insert ⟨70, 8, 8, true⟩, .insert ⟨5, 4, 4, true⟩]).map CompMeta.id = [70, 5] := by
    decide
  rw [h1, h2]; simp [or_comm]

end CoEcs.Props
