import Verif.Proofs.HandlePool

/-!
# The handles of pending reservations

The `j`-th pending reservation holds the `j`-th free id from the end of the list, or a fresh one.
-/

namespace CoEcs
open Spec

/-- The handle that the `j`-th reservation since the last flush has returned. -/
def Pool.slot (p : Pool) (j : Nat) (h : Handle) : Prop :=
  if j < p.free.length then p.free[p.free.length - 1 - j]? = some h.id ∧ p.gens[h.id]? = some h.gen
  else h = ⟨p.gens.length + (j - p.free.length), 0⟩

theorem slot_unique {p : Pool} {j : Nat} {h h' : Handle} (h1 : p.slot j h) (h2 : p.slot j h') : h = h' := by
  unfold Pool.slot at h1 h2
  split at h1
  · rename_i hlt
    rw [if_pos hlt] at h2
    have e1 : h.id = h'.id := by have := h1.1.symm.trans h2.1; simpa using this
    have e2 : h.gen = h'.gen := by
      have a := h1.2
      rw [e1] at a
      have := a.symm.trans h2.2
      simpa using this
    cases h; cases h'; simp_all
  · rename_i hlt
    rw [if_neg hlt] at h2
    rw [h1, h2]

theorem PoolInv.slot_reserve {p p' : Pool} {k : Nat} {h : Handle} (hi : PoolInv p k) (hc : p.reserve = some (p', h)) :
    p.slot k h ∧ p'.free = p.free ∧ p'.gens = p.gens := by
  have hcur := hi.cursor
  rw [reserve_eq] at hc
  by_cases hpos : p.cursor > 0
  · rw [if_pos hpos] at hc
    have hk : k < p.free.length := by omega
    split at hc
    · cases hc
    · rename_i h0 hr
      cases hc
      refine ⟨?_, rfl, rfl⟩
      unfold Pool.slot
      rw [if_pos hk]
      unfold Pool.reserveFromFree at hr
      rw [show (p.cursor - 1).toNat = p.free.length - 1 - k by omega] at hr
      simp only at hr
      split at hr
      · cases hr
      · rename_i id hid
        split at hr
        · cases hr
        · rename_i g hg
          cases hr
          exact ⟨hid, hg⟩
  · rw [if_neg hpos] at hc
    have hk : ¬ k < p.free.length := by omega
    cases hc
    refine ⟨?_, rfl, rfl⟩
    unfold Pool.slot
    rw [if_neg hk]
    have := hi.nextId
    simp only [Handle.mk.injEq, and_true]
    omega

/-- `create` while the `k + 1`st reservation is pending. -/
theorem PoolInv.create_pending {p p' : Pool} {k : Nat} {h : Handle} (hi : PoolInv p (k + 1)) (hc : p.create = some (p', h)) :
    p.slot 0 h ∧ p.free ≠ [] ∨ p.free = [] ∧ p'.alive h = false := by
  unfold Pool.create at hc
  split at hc
  · rename_i id hl
    split at hc
    · cases hc
    · rename_i g hg
      cases hc
      left
      have hne : p.free ≠ [] := by rintro he; simp [he] at hl
      have hpos := List.length_pos_iff.2 hne
      refine ⟨?_, hne⟩
      unfold Pool.slot
      rw [if_pos hpos]
      rw [List.getLast?_eq_getElem?] at hl
      exact ⟨hl, hg⟩
  · rename_i hl
    cases hc
    right
    have he : p.free = [] := by simpa using hl
    refine ⟨he, ?_⟩
    have hn := hi.nextId
    rw [he] at hn
    unfold Pool.alive
    rw [List.getElem?_eq_none (by simp at hn ⊢; omega)]

/-- `recycle` while the `k + 1`st reservation is pending, then `flush`, then `create`. -/
theorem PoolInv.recycle_pending {p : Pool} {k : Nat} {h : Handle} (hi : PoolInv p (k + 1)) (ha : p.alive h = true)
    (hn : ∀ j, j ≤ k → ¬ p.slot j h) :
    ∃ p' h', (p.recycle h).flush.create = some (p', h') ∧ (p.slot k h' ∧ k < p.free.length ∨ p.free.length ≤ k ∧ p'.alive h' = false) := by
  have hcur := hi.cursor
  have hnx := hi.nextId
  have hal := (alive_iff p h).1 ha
  have hlt : h.id < p.gens.length := (List.getElem?_eq_some_iff.1 hal).1
  have e : (p.recycle h).flush = { p with
      gens := p.gens.set h.id ((h.gen + 1) % U32) ++ List.replicate (k - p.free.length) 0
      free := (p.free ++ [h.id]).take (p.free.length - k)
      cursor := ((p.free.length - k : Nat) : Int) } := by
    have e1 : (-(p.cursor + 1)).toNat = k - p.free.length := by omega
    have e2 : (p.cursor + 1).toNat = p.free.length - k := by omega
    simp only [Pool.recycle, ha, if_true, Pool.flush, e1, e2]
  rw [e]
  by_cases hk : k < p.free.length
  · have hidx : p.free.length - 1 - k < p.free.length := by omega
    have htake : (p.free ++ [h.id]).take (p.free.length - k) = p.free.take (p.free.length - k) := by
      rw [List.take_append_of_le_length (by omega)]
    have hlast : (p.free.take (p.free.length - k)).getLast? = some p.free[p.free.length - 1 - k] := by
      rw [List.getLast?_eq_getElem?, List.length_take, show min (p.free.length - k) p.free.length - 1 = p.free.length - 1 - k by omega,
        List.getElem?_take_of_lt (by omega), List.getElem?_eq_getElem hidx]
    have hb := hi.bound _ (List.getElem_mem hidx)
    have hs : p.slot k ⟨p.free[p.free.length - 1 - k], p.gens[p.free[p.free.length - 1 - k]]⟩ := by
      unfold Pool.slot
      rw [if_pos hk]
      exact ⟨List.getElem?_eq_getElem hidx, List.getElem?_eq_getElem hb⟩
    have hne : h.id ≠ p.free[p.free.length - 1 - k] := by
      intro he
      apply hn k (Nat.le_refl _)
      unfold Pool.slot
      rw [if_pos hk]
      exact ⟨by rw [List.getElem?_eq_getElem hidx, he], hal⟩
    have hg : (p.gens.set h.id ((h.gen + 1) % U32) ++ List.replicate (k - p.free.length) 0)[p.free[p.free.length - 1 - k]]? =
        some p.gens[p.free[p.free.length - 1 - k]] := by
      rw [List.getElem?_append_left (by simpa using hb), List.getElem?_set_ne hne, List.getElem?_eq_getElem hb]
    refine ⟨?q, ⟨p.free[p.free.length - 1 - k], p.gens[p.free[p.free.length - 1 - k]]⟩, ?_, .inl ⟨hs, hk⟩⟩
    rotate_left
    · simp only [Pool.create, htake, hlast, hg]
      rfl
  · have h0 : p.free.length - k = 0 := by omega
    refine ⟨{ p with
      nextId := (p.nextId + 1) % U32
      gens := p.gens.set h.id ((h.gen + 1) % U32) ++ List.replicate (k - p.free.length) 0 ++ [0]
      free := []
      cursor := ((p.free.length - k : Nat) : Int) }, ⟨p.nextId, 0⟩, ?_, .inr ⟨by omega, ?_⟩⟩
    · simp only [Pool.create, h0, List.take_zero, List.getLast?_nil, Pool.bump]
    · unfold Pool.alive
      rw [List.getElem?_eq_none (by simp; omega)]

end CoEcs
