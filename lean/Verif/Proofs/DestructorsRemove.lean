import Verif.Proofs.DestructorsCells

/-!
# `remove` of a component whose destructor calls nothing
-/

namespace CoEcs
open Spec (RegOp noHandle)
variable {V : Type}

/-! ### Positions in the location map -/

/-- The entry of a key is at position `p`. -/
structure Seated {α : Type} (t : SparseTable α) (k p : Nat) (v : α) : Prop where
  has : t.contains k = .ok true
  sparse : t.sparse[k]? = some p
  dense : t.dense[p]? = some (k, v)

theorem contains_seat {α : Type} {t : SparseTable α} {k : Nat} (h : t.contains k = .ok true) : ∃ p v, Seated t k p v := by
  have h0 := h
  unfold SparseTable.contains SparseTable.find at h
  split at h
  · cases h
  · rename_i i hi
    split at hi
    · cases hs : t.sparse[k]? with
      | none => rw [hs] at hi; cases hi
      | some j =>
        rw [hs] at hi
        simp only at hi
        split at hi
        · cases hd : t.dense[j]? with
          | none => rw [hd] at hi; cases hi
          | some e =>
            rw [hd] at hi
            simp only at hi
            split at hi
            · rename_i he
              cases hi
              exact ⟨i, e.2, h0, hs, by rw [hd, ← he]⟩
            · cases hi
        · cases hi
    · cases hi
  · cases h
  · cases h

theorem at_seat {α : Type} {t : SparseTable α} {k : Nat} {v : α} (h : t.at_ k = .ok v) : ∃ p, Seated t k p v := by
  unfold SparseTable.at_ at h
  split at h
  · cases h
  · cases h
  · cases h
  · rename_i hc
    obtain ⟨p, v', s⟩ := contains_seat hc
    rw [s.sparse] at h
    simp only [s.dense, Obs.ok.injEq] at h
    subst h
    exact ⟨p, s⟩

theorem Seated.assign {α : Type} {t : SparseTable α} {k p : Nat} {v : α} (s : Seated t k p v) (w : Nat) (d x : α) :
    t.assign w k d x = .ok { t with dense := t.dense.set p (k, x) } () := by
  unfold SparseTable.assign SparseTable.index SparseTable.emplace
  simp only [s.has, s.sparse, s.dense]

theorem seat_keep {α : Type} {t t' : SparseTable α} {k p : Nat} {v : α} (s : Seated t k p v) {w m : Nat} {d : α}
    (hm : t.contains m = .ok true) (h : t.assign w m d v = .ok t' ()) : Seated t' k p v := by
  have hp := (List.getElem?_eq_some_iff.1 s.dense).1
  obtain ⟨q, x, sm⟩ := contains_seat hm
  have hq := (List.getElem?_eq_some_iff.1 sm.dense).1
  rw [sm.assign] at h
  cases h
  have keys : ∀ j : Nat, ((t.dense.set q (m, v))[j]?).map Prod.fst = (t.dense[j]?).map Prod.fst := by
    intro j
    rw [List.getElem?_set]
    split
    · rename_i e; subst e; rw [sm.dense]; rfl
    · rfl
  refine ⟨?_, s.sparse, ?_⟩
  · have h1 := s.has
    unfold SparseTable.contains SparseTable.find at h1 ⊢
    rw [s.sparse] at h1 ⊢
    simp only [List.length_set] at h1 ⊢
    have := keys p
    rw [s.dense] at h1 this
    cases hx : (t.dense.set q (m, v))[p]? with
    | none => rw [hx] at this; cases this
    | some e =>
      rw [hx] at this
      simp only [Option.map_some, Option.some.injEq] at this
      simp only [this] at h1 ⊢
      exact h1
  · show (t.dense.set q (m, v))[p]? = _
    rw [List.getElem?_set]
    split
    · rename_i e
      subst e
      have := sm.dense
      rw [s.dense] at this
      cases this
      rfl
    · exact s.dense

/-- Changing the value of the entry first makes no difference for an assignment. -/
theorem Seated.modify {α : Type} {t : SparseTable α} {k p : Nat} {v : α} (s : Seated t k p v) (f : α → α) (w : Nat) (d x : α) :
    ({ t with dense := t.dense.modify p fun y => (y.1, f y.2) } : SparseTable α).assign w k d x = t.assign w k d x := by
  have hp := (List.getElem?_eq_some_iff.1 s.dense).1
  have s' : Seated ({ t with dense := t.dense.modify p fun y => (y.1, f y.2) } : SparseTable α) k p (f v) := by
    refine ⟨?_, s.sparse, by simp [s.dense]⟩
    have h1 := s.has
    unfold SparseTable.contains SparseTable.find at h1 ⊢
    rw [s.sparse] at h1 ⊢
    simp only [List.length_modify, List.getElem?_modify_eq, s.dense, Option.map_eq_map, Option.map_some] at h1 ⊢
    exact h1
  rw [s'.assign, s.assign]
  have : (t.dense.modify p fun y => (y.1, f y.2)).set p (k, x) = t.dense.set p (k, x) := by
    apply List.ext_getElem?
    intro j
    rw [List.getElem?_set, List.getElem?_set, List.length_modify, List.getElem?_modify]
    split
    · rfl
    · rename_i e; simp [e]
  rw [this]

/-! ### The call -/

theorem moveConstruct_left (hook : Released V) (dst : List BlockId) : ∀ (bs : List BlockId) (src d : Row V) (t : Tally) (src' d' : Row V)
    (t' : Tally), bs.Nodup → Row.moveConstruct dst bs src d t = some (src', d', t') →
    (∀ b, b ∉ bs → src' b = src b) ∧ (∀ b ∈ bs, b ∈ dst → cellOps hook b (src' b) = []) ∧ ∀ b ∈ bs, b ∉ dst → src' b = src b := by
  intro bs
  induction bs with
  | nil =>
    intro src d t src' d' t' _ h
    simp only [Row.moveConstruct, Option.some.injEq, Prod.mk.injEq] at h
    obtain ⟨rfl, rfl, rfl⟩ := h
    exact ⟨fun _ _ => rfl, fun _ _ _ => by contradiction, fun _ _ _ => rfl⟩
  | cons b bs ih =>
    intro src d t src' d' t' hn h
    rw [List.nodup_cons] at hn
    simp only [Row.moveConstruct] at h
    split at h
    · rename_i hd
      split at h
      · cases h
      · rename_i v hv
        obtain ⟨q1, q2, q3⟩ := ih _ _ _ _ _ _ hn.2 h
        refine ⟨fun b' hb' => ?_, fun b' hb' hd' => ?_, fun b' hb' hd' => ?_⟩
        · rw [List.mem_cons, not_or] at hb'
          rw [q1 b' hb'.2]; simp [Row.set, hb'.1]
        · rcases List.mem_cons.1 hb' with rfl | hb'
          · rw [q1 _ hn.1]
            simp only [Row.set, if_true]
            cases v <;> cases b' <;> rfl
          · exact q2 b' hb' hd'
        · rcases List.mem_cons.1 hb' with rfl | hb'
          · exact absurd hd hd'
          · rw [q3 b' hb' hd']
            have : b' ≠ b := fun e => hn.1 (e ▸ hb')
            simp [Row.set, this]
    · rename_i hd
      obtain ⟨q1, q2, q3⟩ := ih _ _ _ _ _ _ hn.2 h
      refine ⟨fun b' hb' => ?_, fun b' hb' hd' => ?_, fun b' hb' hd' => ?_⟩
      · rw [List.mem_cons, not_or] at hb'
        exact q1 b' hb'.2
      · rcases List.mem_cons.1 hb' with rfl | hb'
        · exact absurd hd' hd
        · exact q2 b' hb' hd'
      · rcases List.mem_cons.1 hb' with rfl | hb'
        · exact q1 _ hn.1
        · exact q3 b' hb' hd'

theorem Arch.ensureFree_comps' {a a' : Arch V} (h : a.ensureFree = some a') : a'.comps = a.comps := by
  unfold Arch.ensureFree at h
  split at h
  · cases h
  · split at h <;> cases h <;> rfl

/-- The part of `remove` after the entity has been constructed in archetype `ni`. -/
theorem removeWith_tail {calls : List Watch → List (RegOp V) → Reg V → Ran (Reg V)} (hcalls : ∀ w r, calls w [] r = .ok r)
    (hook : Released V) {w : List Watch} {r r2 : Reg V} {h : Handle} {l l2 : Loc} {ai ni p oi : Nat} {a a' o : Arch V} {c : Chunk V}
    {moved : Option Handle} {entry : Nat}
    (hail : ai < r.archs.arches.length) (hnil : ni < r.archs.arches.length) (hne : ¬ ai = ni) (hn : a.blocks.Nodup)
    (hcap : ∀ (k : Nat) (c : Chunk V), a.chunks[k]? = some c → c.size ≤ a.cap) (hc : a.chunks[l.chunk]? = some c)
    (hse : a.swapErase l.chunk l.entry = some (a', moved))
    (hq : (a.blocks.flatMap fun b => cellOps hook b (c.rows l.entry b)) = [])
    (seat : Seated r.locs h.id p l) (hmv : ∀ m, moved = some m → r.locs.contains m.id = .ok true)
    (hrel : (match ((r.setArch ai a').setArch ni o).setMoved moved l with
      | none => none
      | some r1 =>
        match r1.setLoc h.id ⟨some ni, oi, entry⟩ with
        | none => none
        | some r2 => some (r2, (⟨some ni, oi, entry⟩ : Loc))) = some (r2, l2)) (hoi : o.chunks.length - 1 = oi) :
    (match ((r.setArch ai a).setArch ni o).swapEraseWith (fun w r c v => calls w (hook c v) r)
        (.loc p ((r.setArch ai a).setArch ni o).locs.dense.length :: w) ai l.chunk l.entry with
      | .ub => .ub
      | .more => .more
      | .ok (r, moved) =>
        match r.locs.dense[p]?, r.archs.arches[ni]? with
        | some x, some n =>
          match r.setMoved moved x.2 with
          | none => .ub
          | some r =>
            match ({ r with locs := { r.locs with
                dense := r.locs.dense.modify p fun y => (y.1, { y.2 with arch := some ni }) } } : Reg V).setLoc h.id
                ⟨some ni, n.chunks.length - 1, entry⟩ with
            | none => .ub
            | some r => .ok (r, .ok none)
        | _, _ => .ub : Ran (Reg V × Spec.Out)) = .ok (r2, .ok none) := by
  have hne' : ¬ ni = ai := fun e => hne e.symm
  have C : Carries ai a.comps a.chunks.length (fun (_ : Unit) x => (r.setArch ai x).setArch ni o) (fun _ ks _ => ks = [])
      (calls (.chunks ai a.chunks.length :: .loc p ((r.setArch ai a).setArch ni o).locs.dense.length :: w)) := by
    refine ⟨?_, ?_, ?_, fun _ _ _ => rfl, fun _ => rfl, fun r => hcalls _ r, ?_⟩
    · intro _ x
      simp [Reg.setArch, List.getElem?_set, hne', hail]
    · intro _ x f
      simp only [Reg.modArch, Reg.setArch, Reg.mk.injEq, Archs.mk.injEq, true_and, and_true]
      apply List.ext_getElem?
      intro k
      simp only [List.getElem?_modify, List.getElem?_set, List.length_set]
      by_cases e1 : ai = k
      · subst e1
        simp [hne', hail]
      · simp [e1]
    · intro s k1 k2 s2 ht
      simp only [List.append_eq_nil_iff] at ht
      exact ⟨(), ht.1, ht.2⟩
    · rintro _ ks _ x rfl _ _
      exact hcalls _ _
  have := swapEraseWith_run hook C hn hcap hc hse (s := ()) (s1 := ()) hq
  rw [this]
  have hl : ((r.setArch ai a').setArch ni o).locs = r.locs := rfl
  have hg : ((r.setArch ai a').setArch ni o).archs.arches[ni]? = some o := by
    simp [Reg.setArch, hnil]
  simp only [hl, seat.dense, hg]
  cases hm : ((r.setArch ai a').setArch ni o).setMoved moved l with
  | none => rw [hm] at hrel; cases hrel
  | some r1 =>
    rw [hm] at hrel
    simp only at hrel ⊢
    have seat1 : Seated r1.locs h.id p l := by
      cases moved with
      | none => cases hm; exact seat
      | some m =>
        unfold Reg.setMoved Reg.setLoc at hm
        simp only at hm
        split at hm
        · rename_i t _ ht
          cases hm
          exact seat_keep seat (hmv m rfl) ht
        · cases hm
    have e : ({ r1 with locs := { r1.locs with
        dense := r1.locs.dense.modify p fun y => (y.1, { y.2 with arch := some ni }) } } : Reg V).setLoc h.id ⟨some ni, oi, entry⟩
        = r1.setLoc h.id ⟨some ni, oi, entry⟩ := by
      unfold Reg.setLoc
      simp only
      rw [seat1.modify (fun l => { l with arch := some ni })]
    rw [hoi, e]
    cases hs : r1.setLoc h.id ⟨some ni, oi, entry⟩ with
    | none => rw [hs] at hrel; cases hrel
    | some r3 =>
      rw [hs] at hrel
      cases hrel
      rfl

theorem removeWith_run {ty : Types} {hook : Released V} {calls : List Watch → List (RegOp V) → Reg V → Ran (Reg V)}
    (hcalls : ∀ w r, calls w [] r = .ok r) {w : List Watch} {r r' : Reg V} {h : Handle} {c : Nat} {l : Loc} {ai : Nat} {a : Arch V} {ch : Chunk V}
    (hloc : r.location h = .ok l) (harch : r.archOf l = some (ai, a)) (hch : a.chunks[l.chunk]? = some ch) (hn : a.blocks.Nodup)
    (hcap : ∀ (k : Nat) (c : Chunk V), a.chunks[k]? = some c → c.size ≤ a.cap)
    (hdrop : ∀ s ni n, r.archs.ensureRemoved ai (ty.info c) = .ok s ni → s.arches[ni]? = some n →
      s.arches[ai]? = some a ∧ ∀ b ∈ a.blocks, b ∉ n.blocks → cellOps hook b (ch.rows l.entry b) = [])
    (hmv : ∀ s ni n a' n' q m, r.archs.ensureRemoved ai (ty.info c) = .ok s ni → s.arches[ni]? = some n →
      a.move l.chunk l.entry n = some (a', n', q, some m) → r.locs.contains m.id = .ok true)
    {x : Unit} (hr : r.remove ty h c = .ok r' x) :
    r.removeWith ty (fun w r c v => calls w (hook c v) r) w h c = .ok (r', .ok none) := by
  unfold Reg.remove at hr
  simp only [hloc, harch] at hr
  obtain ⟨p, seat⟩ : ∃ p, Seated r.locs h.id p l := by
    unfold Reg.location at hloc
    split at hloc
    · exact at_seat hloc
    · cases hloc
  unfold Reg.removeWith
  have hpos : r.locPos h = some p := seat.sparse
  simp only [hloc, harch, hpos]
  split at hr
  · rename_i hcon
    rw [if_pos hcon]
    cases he : r.archs.ensureRemoved ai (ty.info c) with
    | ub => rw [he] at hr; cases hr
    | throw s e => rw [he] at hr; cases hr
    | ok s ni =>
      rw [he] at hr
      simp only at hr ⊢
      cases hrel : ({ r with archs := s } : Reg V).relocate h l ai ni with
      | none => rw [hrel] at hr; cases hr
      | some y =>
        obtain ⟨r2, l2⟩ := y
        rw [hrel] at hr
        cases hr
        unfold Reg.relocate at hrel
        simp only at hrel
        cases hni : s.arches[ni]? with
        | none => rw [hni] at hrel; split at hrel <;> simp_all
        | some n =>
          obtain ⟨hai, hdr⟩ := hdrop s ni n he hni
          rw [hni, hai] at hrel
          simp only at hrel
          by_cases hne : ai = ni
          · rw [if_pos hne] at hrel; cases hrel
          rw [if_neg hne] at hrel
          cases hmove : a.move l.chunk l.entry n with
          | none => rw [hmove] at hrel; cases hrel
          | some z =>
            obtain ⟨a', n', ⟨ci', idx'⟩, moved⟩ := z
            rw [hmove] at hrel
            simp only at hrel
            have hmv' := fun m (e : moved = some m) => hmv s ni n a' n' (ci', idx') m he hni (e ▸ hmove)
            unfold Arch.move at hmove
            unfold Reg.moveOut
            simp only [hai, hni, if_neg hne]
            cases hfree : n.ensureFree with
            | none => rw [hfree] at hmove; cases hmove
            | some o =>
              rw [hfree] at hmove
              simp only [hch] at hmove ⊢
              cases hoc : o.chunks[o.chunks.length - 1]? with
              | none => rw [hoc] at hmove; cases hmove
              | some oc =>
                rw [hoc] at hmove
                simp only at hmove ⊢
                split at hmove
                · rename_i hcond
                  rw [if_pos hcond]
                  cases hmc : Row.moveConstruct o.blocks a.blocks (ch.rows l.entry) (oc.rows oc.size) o.tally with
                  | none => rw [hmc] at hmove; cases hmove
                  | some q =>
                    obtain ⟨sr, dr, t⟩ := q
                    rw [hmc] at hmove
                    simp only at hmove ⊢
                    cases hse : ({ a with chunks := a.chunks.set l.chunk (ch.setRow l.entry sr) } : Arch V).swapErase l.chunk l.entry with
                    | none => rw [hse] at hmove; cases hmove
                    | some u =>
                      obtain ⟨a2, mv⟩ := u
                      rw [hse] at hmove
                      simp only [Option.some.injEq, Prod.mk.injEq] at hmove
                      obtain ⟨rfl, rfl, ⟨rfl, rfl⟩, rfl⟩ := hmove
                      have hail := (List.getElem?_eq_some_iff.1 hai).1
                      have hnil := (List.getElem?_eq_some_iff.1 hni).1
                      have hchl := (List.getElem?_eq_some_iff.1 hch).1
                      have hbl : o.blocks = n.blocks := by
                        unfold Arch.blocks; rw [Arch.ensureFree_comps' hfree]
                      refine removeWith_tail hcalls hook hail hnil hne (a := { a with chunks := a.chunks.set l.chunk (ch.setRow l.entry sr) })
                        (r := { r with archs := s }) (c := ch.setRow l.entry sr) hn ?_ ?_ hse ?_ seat hmv' hrel ?_
                      · intro k c' hk
                        simp only [List.getElem?_set] at hk
                        split at hk
                        · cases hk
                          exact hcap l.chunk ch hch
                        · exact hcap k c' hk
                      · simp [hchl]
                      · apply flatMap_nil
                        intro b hb
                        have e4 : (ch.setRow l.entry sr).rows l.entry = sr := by simp [Chunk.setRow]
                        rw [e4]
                        obtain ⟨q1, q2, q3⟩ := moveConstruct_left hook _ _ _ _ _ _ _ _ hn hmc
                        by_cases hd : b ∈ o.blocks
                        · exact q2 b hb hd
                        · rw [q3 b hb hd]
                          exact hdr b hb (hbl ▸ hd)
                      · simp
                · cases hmove
  · rename_i hcon
    rw [if_neg hcon]
    cases hr
    rfl

end CoEcs
