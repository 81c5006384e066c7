import Verif.Proofs.BuffersInv

/-!
# Which entries of the location table a call changes
-/

namespace CoEcs
open Spec (RegOp SysOp Sys Out noHandle withHandle)
variable {V : Type}

/-- The location table is sound and its ids are small. -/
def LocsOk (t : SparseTable Loc) : Prop := ∃ lm : Spec.FinMap Loc, SparseTable.Rel 32 t lm ∧ ∀ id l, lm.get id = some l → id < U32 - 1

theorem Rep.locsOk {ty : Types} {r : Reg V} {k : Nat} {W : Handle → Option (Comps V)} (R : Rep ty r k W) : LocsOk r.locs := by
  obtain ⟨lm, hlm, L⟩ := R.link
  refine ⟨lm, hlm, fun id l hl => ?_⟩
  have h1 := L.bound id l hl
  have h2 := R.pool.gens_le
  have h3 := R.small
  omega

namespace Reg

theorem setLoc_at {r r' : Reg V} {id : Nat} {l : Loc} (hb : LocsOk r.locs) (hid : id < U32 - 1) (h : r.setLoc id l = some r') :
    LocsOk r'.locs ∧ r'.locs.at_ id = .ok l ∧ ∀ id', id' ≠ id → r'.locs.at_ id' = r.locs.at_ id' := by
  obtain ⟨lm, h1, h2⟩ := hb
  obtain ⟨t, h3, h4⟩ := setLoc_spec (r := r) h1 h2 (by decide) hid l
  rw [h3] at h
  cases h
  refine ⟨⟨_, h4, fun x y hx => ?_⟩, ?_, fun id' hne => ?_⟩
  · rw [put_get] at hx
    split at hx
    · omega
    · exact h2 _ _ hx
  · rw [h4.at_, put_get, if_pos rfl]
  · rw [h4.at_, h1.at_, put_get, if_neg hne]

theorem removeLoc_at {r r' : Reg V} {id : Nat} (hb : LocsOk r.locs) (h : r.removeLoc id = some r') :
    LocsOk r'.locs ∧ ∀ id', id' ≠ id → r'.locs.at_ id' = r.locs.at_ id' := by
  obtain ⟨lm, h1, h2⟩ := hb
  obtain ⟨t, h3, h4⟩ := removeLoc_spec (r := r) h1 id
  rw [h3] at h
  cases h
  refine ⟨⟨_, h4, fun x y hx => ?_⟩, fun id' hne => ?_⟩
  · rw [del_get] at hx
    split at hx
    · cases hx
    · exact h2 _ _ hx
  · rw [h4.at_, h1.at_, del_get, if_neg hne]

end Reg

/-- The entity in the last entry of the last chunk, at the given position. -/
def Arch.LastIs (a : Arch V) (ci idx : Nat) (m : Handle) : Prop :=
  ∃ o, a.chunks[ci]? = some o ∧ ci = a.chunks.length - 1 ∧ o.size ≠ 0 ∧ idx = o.size - 1 ∧ (o.rows idx none).read = some (.ent m)

namespace Arch

theorem chunkSwapErase_lastIs {a b : Arch V} {ci idx oi : Nat} {m : Handle} (h : a.chunkSwapErase ci idx oi = some (b, some m))
    (hoi : oi = a.chunks.length - 1) : ∃ pc pj, a.LastIs pc pj m ∧ ¬ (pc = ci ∧ pj = idx) := by
  unfold chunkSwapErase at h
  split at h
  · cases h
  · rename_i c hc
    split at h
    · split at h
      · split at h
        · cases h
        · cases h
      · rename_i hlt hnot
        split at h
        · cases h
        · rename_i o ho
          split at h
          · cases h
          · rename_i hsz
            split at h
            · rename_i m0 hm0
              split at h
              · cases h
              · simp only at h
                split at h
                · cases h
                · split at h
                  · cases h
                  · cases h
                    refine ⟨oi, o.size - 1, ⟨o, ho, hoi, hsz, rfl, hm0⟩, ?_⟩
                    rintro ⟨rfl, e⟩
                    rw [hc] at ho
                    cases ho
                    exact hnot (.inr e.symm)
            · cases h
    · cases h

theorem swapErase_lastIs {a b : Arch V} {ci idx : Nat} {m : Handle} (h : a.swapErase ci idx = some (b, some m)) :
    ∃ pc pj, a.LastIs pc pj m ∧ ¬ (pc = ci ∧ pj = idx) := by
  unfold swapErase at h
  split at h
  · cases h
  · rename_i a1 m1 h0
    split at h
    · cases h
    · split at h <;> cases h <;> exact chunkSwapErase_lastIs h0 rfl

theorem move_lastIs {a o a' o' : Arch V} {ci idx : Nat} {l : Nat × Nat} {m : Handle} (h : a.move ci idx o = some (a', o', l, some m)) :
    ∃ pc pj, a.LastIs pc pj m ∧ ¬ (pc = ci ∧ pj = idx) := by
  unfold move at h
  split at h
  · cases h
  · simp only at h
    split at h
    · rename_i oc c hoc hc
      split at h
      · split at h
        · cases h
        · split at h
          · cases h
          · rename_i a1 m1 hs
            cases h
            obtain ⟨pc, pj, ⟨x, h1, h2, h3, h4, h5⟩, hne⟩ := swapErase_lastIs hs
            refine ⟨pc, pj, ?_, hne⟩
            simp only [List.length_set] at h1 h2
            have hci := (List.getElem?_eq_some_iff.1 hc).1
            rw [List.getElem?_set] at h1
            split at h1
            · rename_i e
              subst e
              cases h1
              have hj : pj ≠ idx := fun e => hne ⟨rfl, e⟩
              refine ⟨c, hc, h2, h3, h4, ?_⟩
              rw [Chunk.setRow] at h5
              simpa [hj] using h5
            · exact ⟨x, h1, h2, h3, h4, h5⟩
      · cases h
    · cases h

end Arch

/-- The last entity of an archetype is an entity, and it is there. -/
theorem Rep.lastIs {ty : Types} {r : Reg V} {k : Nat} {W : Handle → Option (Comps V)} (R : Rep ty r k W) {ai : Nat} {a : Arch V}
    (ha : r.archs.arches[ai]? = some a) {pc pj : Nat} {m : Handle} (h : a.LastIs pc pj m) :
    (∃ d, W m = some d ∧ slots r.archs.arches ⟨some ai, pc, pj⟩ = some (m, d)) ∧ m.id < U32 - 1 := by
  obtain ⟨o, h1, h2, h3, h4, h5⟩ := h
  obtain ⟨mm, hm⟩ := R.archs
  obtain ⟨lm, hlm, L⟩ := R.link
  have hok : a.Ok := hm.ok ai a ha
  have hrow : a.row? pc pj = some (o.rows pj) := (Arch.row?_eq_some hok.toShape).2 ⟨o, h1, by omega, rfl⟩
  obtain ⟨e, d, q1, q2, _⟩ := Row.decode_ok (hok.rows pc pj _ hrow)
  have he : e = m := by
    rw [q2] at h5
    simpa [Cell.read] using h5
  subst he
  have hs : slots r.archs.arches ⟨some ai, pc, pj⟩ = some (e, d) := by
    rw [slots_some ha, Arch.entry, hrow]; exact q1
  refine ⟨⟨d, (R.holds e d).1 ⟨_, hs⟩, hs⟩, ?_⟩
  have := (L.stored _ _ _ hs).1.lt
  have := R.pool.gens_le
  have := R.small
  omega

/-- What `r'` says about all ids, after the entity `h` has left its place in `r`. -/
def Reg.Moves (r r' : Reg V) (h : Handle) : Prop :=
  ∃ l ai a, r.location h = .ok l ∧ l.arch = some ai ∧ r.archs.arches[ai]? = some a ∧
    ((∀ id, id ≠ h.id → r'.locs.at_ id = r.locs.at_ id) ∨
      ∃ m pc pj, m.id ≠ h.id ∧ a.LastIs pc pj m ∧ r'.locs.at_ m.id = .ok l ∧
        ∀ id, id ≠ h.id → id ≠ m.id → r'.locs.at_ id = r.locs.at_ id)

/-- All ids but one are where they were. -/
def Reg.But (r r' : Reg V) (x : Nat) : Prop := ∀ id, id ≠ x → r'.locs.at_ id = r.locs.at_ id

section
variable {ty : Types} {r : Reg V} {k : Nat} {W : Handle → Option (Comps V)}

theorem Rep.some_of_location (R : Rep ty r k W) {h : Handle} {l : Loc} (hl : r.location h = .ok l) : ∃ d, W h = some d := by
  cases hw : W h with
  | none => rw [R.location_none hw] at hl; cases hl
  | some d => exact ⟨d, rfl⟩

/-- The place of an entity. -/
theorem Rep.at_location (R : Rep ty r k W) {h : Handle} {l : Loc} (hl : r.location h = .ok l) :
    ∃ d ai a c row, W h = some d ∧ At r h d l ai a c row := by
  obtain ⟨d, hw⟩ := R.some_of_location hl
  obtain ⟨l', ai, a, c, row, t⟩ := R.at_ hw
  have := t.loc
  rw [hl] at this
  cases this
  exact ⟨d, ai, a, c, row, hw, t⟩

/-- The blocks of the archetype are those of the components of the entity. -/
theorem At.mem_iff {h : Handle} {d : Comps V} {l : Loc} {ai : Nat} {a : Arch V} {c : Chunk V} {row : Row V}
    (t : At r h d l ai a c row) (x : Nat) : some x ∈ a.blocks ↔ d x ≠ none := by
  obtain ⟨_, h1, h2⟩ := Row.decode_some t.decode t.rowOk
  constructor
  · intro hx
    obtain ⟨v, hv, _⟩ := h1 x hx
    rw [hv]; simp
  · intro hx
    apply Classical.byContradiction
    intro hn
    exact hx (h2 x hn)

theorem At.contains_iff {h : Handle} {d : Comps V} {l : Loc} {ai : Nat} {a : Arch V} {c : Chunk V} {row : Row V}
    (t : At r h d l ai a c row) (x : Nat) : a.contains x = true ↔ d x ≠ none := by
  rw [t.ok.toShape.contains, t.mem_iff]

theorem archOf_eq {l : Loc} {ai : Nat} {a : Arch V} (h : r.archOf l = some (ai, a)) : l.arch = some ai ∧ r.archs.arches[ai]? = some a := by
  unfold Reg.archOf at h
  split at h
  · cases h
  · split at h
    · cases h
    · cases h
      exact ⟨by assumption, by assumption⟩

/-- Two entries of one archetype with different positions belong to entities with different ids. -/
theorem Rep.last_ne (R : Rep ty r k W) {h : Handle} {l : Loc} (hl : r.location h = .ok l) {ai : Nat} {a : Arch V} (hla : l.arch = some ai)
    (ha : r.archs.arches[ai]? = some a) {pc pj : Nat} {m : Handle} (hm : a.LastIs pc pj m) (hne : ¬ (pc = l.chunk ∧ pj = l.entry)) :
    m.id ≠ h.id := by
  obtain ⟨d, ai', a', c, row, hw, t⟩ := R.at_location hl
  obtain ⟨⟨dm, _, hs⟩, _⟩ := R.lastIs ha hm
  obtain ⟨lm, hlm, L⟩ := R.link
  intro hid
  have e := L.id_inj hs t.slot hid
  subst e
  have := (L.inj hs t.slot).1
  subst this
  exact hne ⟨rfl, rfl⟩

theorem destroy_moves (R : Rep ty r k W) {h : Handle} {r' : Reg V} (hd : r.destroy h = .ok r' ()) : r.Moves r' h := by
  unfold Reg.destroy at hd
  split at hd
  · cases hd
  · cases hd
  · rename_i l hl
    split at hd
    · cases hd
    · rename_i ai a ha
      obtain ⟨hla, ha⟩ := archOf_eq ha
      split at hd
      · cases hd
      · rename_i a' moved hs
        split at hd
        · cases hd
        · rename_i r1 h1
          obtain ⟨q1, q2⟩ := Reg.removeLoc_at (r := r.setArch ai a') R.locsOk h1
          split at hd
          · cases hd
          · rename_i r2 h2
            cases hd
            refine ⟨l, ai, a, hl, hla, ha, ?_⟩
            cases moved with
            | none =>
              cases h2
              exact .inl q2
            | some m =>
              obtain ⟨pc, pj, hlast, hne⟩ := Arch.swapErase_lastIs hs
              have hid := R.last_ne hl hla ha hlast hne
              obtain ⟨_, hsm⟩ := R.lastIs ha hlast
              obtain ⟨_, q3, q4⟩ := Reg.setLoc_at q1 hsm h2
              exact .inr ⟨m, pc, pj, hid, hlast, q3, fun id e1 e2 => (q4 id e2).trans (q2 id e1)⟩

/-- The relocation in `set_impl` and `remove`, after `ensure_archetype`. -/
theorem relocate_moves (R : Rep ty r k W) {h : Handle} {l : Loc} {ai ni : Nat} {a : Arch V} (hl : r.location h = .ok l) (hla : l.arch = some ai)
    (ha : r.archs.arches[ai]? = some a) {s : Archs V} (hs : s.arches[ai]? = some a) {r' : Reg V} {l' : Loc}
    (hr : ({ r with archs := s } : Reg V).relocate h l ai ni = some (r', l')) : r.Moves r' h := by
  have hh : h.id < U32 - 1 := by
    obtain ⟨d, ai', a', c, row, hw, t⟩ := R.at_location hl
    have := (R.held hw).lt
    have := R.pool.gens_le
    have := R.small
    omega
  refine ⟨l, ai, a, hl, hla, ha, ?_⟩
  unfold Reg.relocate at hr
  split at hr
  · rename_i a0 n ha0 hn
    have : a0 = a := by
      simp only at ha0
      rw [hs] at ha0
      cases ha0; rfl
    subst this
    split at hr
    · cases hr
    · split at hr
      · cases hr
      · rename_i a' n' ci idx moved hm
        split at hr
        · cases hr
        · rename_i r1 h1
          split at hr
          · cases hr
          · rename_i r2 h2
            cases hr
            cases moved with
            | none =>
              cases h1
              obtain ⟨_, _, q⟩ := Reg.setLoc_at (r := (({ r with archs := s } : Reg V).setArch ai a').setArch ni n') R.locsOk hh h2
              exact .inl q
            | some m =>
              obtain ⟨pc, pj, hlast, hne⟩ := Arch.move_lastIs hm
              have hid := R.last_ne hl hla ha hlast hne
              obtain ⟨_, hsm⟩ := R.lastIs ha hlast
              obtain ⟨q1, q2, q3⟩ := Reg.setLoc_at (r := (({ r with archs := s } : Reg V).setArch ai a').setArch ni n') R.locsOk hsm h1
              obtain ⟨_, _, q4⟩ := Reg.setLoc_at q1 hh h2
              exact .inr ⟨m, pc, pj, hid, hlast, (q4 _ hid).trans q2, fun id e1 e2 => (q4 id e1).trans (q3 id e2)⟩
  · cases hr

/-- `ensure_archetype` keeps the archetypes there are. -/
theorem Archs.OneMore.keep {s s' : Archs V} (h : s.OneMore s') {i : Nat} {a : Arch V} (ha : s.arches[i]? = some a) : s'.arches[i]? = some a := by
  rcases h with h | ⟨x, h, _⟩
  · rw [h]; exact ha
  · rw [h, List.getElem?_append_left (List.getElem?_eq_some_iff.1 ha).1]; exact ha

/-- `set_impl`. -/
theorem setImpl_moves (R : Rep ty r k W) {h : Handle} {c : Nat} {r' : Reg V} {ins : Bool} {l' : Loc} (hd : r.setImpl ty h c = .ok r' (ins, l')) :
    (ins = false ∧ r' = r ∧ ∃ d, W h = some d ∧ d c ≠ none) ∨ (ins = true ∧ r.Moves r' h ∧ ∃ d, W h = some d ∧ d c = none) := by
  unfold Reg.setImpl at hd
  split at hd
  · cases hd
  · cases hd
  · rename_i l hl
    obtain ⟨d, ai0, a0, c0, row, hw, t⟩ := R.at_location hl
    rw [t.archOf] at hd
    simp only at hd
    have hcon := t.contains_iff c
    split at hd
    · rename_i hc
      cases hd
      exact .inl ⟨rfl, rfl, d, hw, hcon.1 hc⟩
    · rename_i hc
      have he := Archs.ensureAdded_oneMore r.archs ai0 (ty.info c)
      split at hd
      · cases hd
      · cases hd
      · rename_i s ni heq
        rw [heq] at he
        split at hd
        · cases hd
        · rename_i r1 l1 hr
          cases hd
          refine .inr ⟨rfl, relocate_moves R hl t.arch t.get (he.keep t.get) hr, d, hw, ?_⟩
          cases hdc : d c with
          | none => rfl
          | some v => exact absurd (hcon.2 (by rw [hdc]; simp)) hc

theorem setImpl_throw {h : Handle} {c : Nat} {r' : Reg V} {e : Exn} (hd : r.setImpl ty h c = .throw r' e) : r'.locs = r.locs := by
  unfold Reg.setImpl at hd
  split at hd
  · cases hd
  · cases hd; rfl
  · split at hd
    · cases hd
    · split at hd
      · cases hd
      · split at hd
        · cases hd
        · cases hd; rfl
        · split at hd <;> cases hd

theorem remove_moves (R : Rep ty r k W) {h : Handle} {c : Nat} {r' : Reg V} (hd : r.remove ty h c = .ok r' ()) :
    (r' = r ∧ ∃ d, W h = some d ∧ d c = none) ∨ (r.Moves r' h ∧ ∃ d, W h = some d ∧ d c ≠ none) := by
  unfold Reg.remove at hd
  split at hd
  · cases hd
  · cases hd
  · rename_i l hl
    obtain ⟨d, ai0, a0, c0, row, hw, t⟩ := R.at_location hl
    rw [t.archOf] at hd
    simp only at hd
    have hcon := t.contains_iff c
    split at hd
    · rename_i hc
      have he := Archs.ensureRemoved_oneMore r.archs ai0 (ty.info c)
      split at hd
      · cases hd
      · cases hd
      · rename_i s ni heq
        rw [heq] at he
        split at hd
        · cases hd
        · rename_i r1 l1 hr
          cases hd
          exact .inr ⟨relocate_moves R hl t.arch t.get (he.keep t.get) hr, d, hw, hcon.1 hc⟩
    · rename_i hc
      cases hd
      refine .inl ⟨rfl, d, hw, ?_⟩
      cases hdc : d c with
      | none => rfl
      | some v => exact absurd (hcon.2 (by rw [hdc]; simp)) hc

theorem writeAt_locs {r r' : Reg V} {l : Loc} {c : Nat} {cn : Bool} {v : V} (h : r.writeAt l c cn v = some r') : r'.locs = r.locs := by
  unfold Reg.writeAt at h
  split at h
  · cases h
  · split at h
    · split at h
      · cases h
      · cases h; rfl
    · cases h

theorem Reg.Moves.congr {r r' r'' : Reg V} {h : Handle} (hm : r.Moves r' h) (he : r''.locs = r'.locs) : r.Moves r'' h := by
  unfold Reg.Moves at *
  rw [he]; exact hm

theorem set_moves (R : Rep ty r k W) {h : Handle} {c : Nat} {v : V} {r' : Reg V} (hd : r.set ty h c v = .ok r' ()) :
    (r'.locs = r.locs ∧ ∃ d, W h = some d ∧ d c ≠ none) ∨ (r.Moves r' h ∧ ∃ d, W h = some d ∧ d c = none) := by
  unfold Reg.set at hd
  split at hd
  · cases hd
  · cases hd
  · rename_i r1 ins l heq
    split at hd
    · cases hd
    · rename_i hw
      cases hd
      have e := writeAt_locs hw
      rcases setImpl_moves R heq with ⟨_, rfl, h1⟩ | ⟨_, h1, h2⟩
      · exact .inl ⟨e, h1⟩
      · exact .inr ⟨h1.congr e, h2⟩

theorem getOrInsert_moves (R : Rep ty r k W) {h : Handle} {c : Nat} {v u : V} {r' : Reg V} (hd : r.getOrInsert ty h c v = .ok r' u) :
    (r'.locs = r.locs ∧ ∃ d, W h = some d ∧ d c ≠ none) ∨ (r.Moves r' h ∧ ∃ d, W h = some d ∧ d c = none) := by
  unfold Reg.getOrInsert at hd
  split at hd
  · cases hd
  · cases hd
  · rename_i r1 ins l heq
    split at hd
    · cases hd
    · rename_i r2 hw
      split at hd
      · cases hd
      · cases hd
        have e : r'.locs = r1.locs := by
          cases ins with
          | true => simp only [if_true] at hw; exact writeAt_locs hw
          | false => simp only [Bool.false_eq_true, if_false] at hw; cases hw; rfl
        rcases setImpl_moves R heq with ⟨_, rfl, h1⟩ | ⟨_, h1, h2⟩
        · exact .inl ⟨e, h1⟩
        · exact .inr ⟨h1.congr e, h2⟩

end

theorem create_but {ty : Types} {r r' : Reg V} {args : List (Nat × V)} {h : Handle} (hb : LocsOk r.locs) (hh : h.id < U32 - 1)
    (hd : r.create ty args = .ok r' h) : r.But r' h.id := by
  unfold Reg.create at hd
  split at hd
  · cases hd
  · simp only at hd
    split at hd
    · cases hd
    · cases hd
    · split at hd
      · cases hd
      · split at hd
        · cases hd
        · cases hd
        · split at hd
          · cases hd
          · rename_i hs
            cases hd
            exact (Reg.setLoc_at (r := (Reg.mk _ _ r.locs).setArch _ _) hb hh hs).2.2

theorem create_throw {ty : Types} {r r' : Reg V} {args : List (Nat × V)} {e : Exn} (hd : r.create ty args = .throw r' e) : r'.locs = r.locs := by
  unfold Reg.create at hd
  split at hd
  · cases hd
  · simp only at hd
    split at hd
    · cases hd
    · cases hd; rfl
    · split at hd
      · cases hd
      · split at hd
        · cases hd
        · cases hd; rfl
        · split at hd <;> cases hd

theorem receive_but {d d' : Reg V} {a : Arch V} {row : Row V} {ph h' : Handle} (hb : LocsOk d.locs) (hh : ph.id < U32 - 1)
    (hd : d.receive a row ph = .ok d' h') : d.But d' ph.id ∧ h' = ph := by
  unfold Reg.receive at hd
  split at hd
  · cases hd
  · cases hd
  · split at hd
    · cases hd
    · split at hd
      · cases hd
      · cases hd
      · split at hd
        · cases hd
        · split at hd
          · cases hd
          · rename_i hs
            cases hd
            exact ⟨(Reg.setLoc_at (r := (Reg.mk _ _ d.locs).setArch _ _) hb hh hs).2.2, rfl⟩

theorem receive_handle {d d' : Reg V} {a : Arch V} {row : Row V} {ph h' : Handle} (hd : d.receive a row ph = .ok d' h') : h' = ph := by
  unfold Reg.receive at hd
  split at hd
  · cases hd
  · cases hd
  · split at hd
    · cases hd
    · split at hd
      · cases hd
      · cases hd
      · split at hd
        · cases hd
        · split at hd
          · cases hd
          · cases hd; rfl

theorem receive_throw {d d' : Reg V} {a : Arch V} {row : Row V} {ph : Handle} {e : Exn} (hd : d.receive a row ph = .throw d' e) :
    d'.locs = d.locs := by
  unfold Reg.receive at hd
  split at hd
  · cases hd
  · cases hd; rfl
  · split at hd
    · cases hd
    · split at hd
      · cases hd
      · cases hd; rfl
      · split at hd
        · cases hd
        · split at hd <;> cases hd

theorem copyInto_but {r d d' : Reg V} {h ph h' : Handle} (hb : LocsOk d.locs) (hh : h'.id < U32 - 1)
    (hd : r.copyInto h d ph = .ok d' h') : d.But d' h'.id := by
  unfold Reg.copyInto at hd
  split at hd
  · cases hd
  · cases hd
  · have := receive_handle hd
    subst this
    exact (receive_but hb hh hd).1

theorem copyInto_throw {r d d' : Reg V} {h ph : Handle} {e : Exn} (hd : r.copyInto h d ph = .throw d' e) : d'.locs = d.locs := by
  unfold Reg.copyInto at hd
  split at hd
  · cases hd
  · cases hd; rfl
  · exact receive_throw hd

theorem copyTo_but {r d d' : Reg V} {h h' : Handle} (hb : LocsOk d.locs) (hh : h'.id < U32 - 1)
    (hd : r.copyTo h d = .ok d' h') : d.But d' h'.id := by
  unfold Reg.copyTo at hd
  split at hd
  · cases hd
  · rename_i p ph _
    have := copyInto_but (d := Reg.mk p d.archs d.locs) hb hh hd
    exact this

theorem copyTo_throw {r d d' : Reg V} {h : Handle} {e : Exn} (hd : r.copyTo h d = .throw d' e) : d'.locs = d.locs := by
  unfold Reg.copyTo at hd
  split at hd
  · cases hd
  · rename_i p ph _
    have := copyInto_throw (d := Reg.mk p d.archs d.locs) hd
    exact this

theorem clone_but {r r' : Reg V} {h h' : Handle} (hb : LocsOk r.locs) (hh : h'.id < U32 - 1)
    (hd : r.clone h = .ok r' h') : r.But r' h'.id := by
  unfold Reg.clone at hd
  split at hd
  · cases hd
  · rename_i p ph _
    rw [cloneInto_eq] at hd
    have := copyInto_but (d := Reg.mk p r.archs r.locs) hb hh hd
    exact this

theorem clone_throw {r r' : Reg V} {h : Handle} {e : Exn} (hd : r.clone h = .throw r' e) : r'.locs = r.locs := by
  unfold Reg.clone at hd
  split at hd
  · cases hd
  · rename_i p ph _
    rw [cloneInto_eq] at hd
    have := copyInto_throw (d := Reg.mk p r.archs r.locs) hd
    exact this

theorem moveInto_moves {ty : Types} {r d r' d' : Reg V} {k : Nat} {W : Handle → Option (Comps V)} (R : Rep ty r k W) {h ph h' : Handle}
    (hb : LocsOk d.locs) (hh : h'.id < U32 - 1) (hd : r.moveInto h d ph = .ok (r', d') h') : r.Moves r' h ∧ d.But d' h'.id := by
  unfold Reg.moveInto at hd
  split at hd
  · cases hd
  · cases hd
  · rename_i l hl
    split at hd
    · cases hd
    · rename_i ai a ha
      obtain ⟨hla, ha⟩ := archOf_eq ha
      split at hd
      · cases hd
      · cases hd
      · split at hd
        · cases hd
        · split at hd
          · cases hd
          · rename_i a' da' ci idx moved hm
            split at hd
            · cases hd
            · rename_i r1 h1
              obtain ⟨q1, q2⟩ := Reg.removeLoc_at (r := r.setArch ai a') R.locsOk h1
              split at hd
              · cases hd
              · rename_i r2 h2
                split at hd
                · cases hd
                · split at hd
                  · cases hd
                  · rename_i hs
                    cases hd
                    refine ⟨⟨l, ai, a, hl, hla, ha, ?_⟩, (Reg.setLoc_at (r := (Reg.mk _ _ d.locs).setArch _ _) hb hh hs).2.2⟩
                    split at h2
                    · cases h2
                      exact .inl q2
                    · cases moved with
                      | none =>
                        cases h2
                        exact .inl q2
                      | some m =>
                        obtain ⟨pc, pj, hlast, hne⟩ := Arch.move_lastIs hm
                        have hid := R.last_ne hl hla ha hlast hne
                        obtain ⟨_, hsm⟩ := R.lastIs ha hlast
                        obtain ⟨_, q3, q4⟩ := Reg.setLoc_at q1 hsm h2
                        exact .inr ⟨m, pc, pj, hid, hlast, q3, fun id e1 e2 => (q4 id e2).trans (q2 id e1)⟩

theorem moveInto_throw {r d r' d' : Reg V} {h ph : Handle} {e : Exn} (hd : r.moveInto h d ph = .throw (r', d') e) :
    r'.locs = r.locs ∧ d'.locs = d.locs := by
  unfold Reg.moveInto at hd
  split at hd
  · cases hd
  · cases hd; exact ⟨rfl, rfl⟩
  · split at hd
    · cases hd
    · split at hd
      · cases hd
      · cases hd; exact ⟨rfl, rfl⟩
      · split at hd
        · cases hd
        · split at hd
          · cases hd
          · split at hd
            · cases hd
            · split at hd
              · cases hd
              · split at hd
                · cases hd
                · split at hd <;> cases hd

theorem moveTo_moves {ty : Types} {r d r' d' : Reg V} {k : Nat} {W : Handle → Option (Comps V)} (R : Rep ty r k W) {h h' : Handle}
    (hb : LocsOk d.locs) (hh : h'.id < U32 - 1) (hd : r.moveTo h d = .ok (r', d') h') : r.Moves r' h ∧ d.But d' h'.id := by
  unfold Reg.moveTo at hd
  split at hd
  · cases hd
  · rename_i p ph _
    have := moveInto_moves (d := Reg.mk p d.archs d.locs) R hb hh hd
    exact this

theorem moveTo_throw {r d r' d' : Reg V} {h : Handle} {e : Exn} (hd : r.moveTo h d = .throw (r', d') e) :
    r'.locs = r.locs ∧ d'.locs = d.locs := by
  unfold Reg.moveTo at hd
  split at hd
  · cases hd
  · rename_i p ph _
    have := moveInto_throw (d := Reg.mk p d.archs d.locs) hd
    exact this

end CoEcs
