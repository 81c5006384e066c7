import Verif.Model.Throwing
import Verif.Proofs.Observe
import Verif.Proofs.RepEnd

/-!
# A component whose constructor threw
-/

namespace CoEcs
open Spec
variable {V : Type}

/-! ### An entry with an empty cell -/

theorem Row.destroy_hole {b : BlockId} : ∀ (bs : List BlockId) (r : Row V) (t : Tally), b ∈ bs → r b = .raw → Row.destroy bs r t = none
  | [], _, _, hb, _ => by cases hb
  | x :: bs, r, t, hb, hr => by
    unfold Row.destroy
    by_cases hx : b = x
    · subst hx; simp [hr, Cell.occupied]
    · rcases List.mem_cons.1 hb with h | h
      · exact absurd h hx
      · split
        · exact destroy_hole bs _ _ h (by rw [Row.set_ne _ _ hx]; exact hr)
        · rfl

theorem Row.moveAssign_hole {b : BlockId} : ∀ (bs : List BlockId) (s d : Row V), b ∈ bs → d b = .raw → Row.moveAssign bs s d = none
  | [], _, _, hb, _ => by cases hb
  | x :: bs, s, d, hb, hr => by
    unfold Row.moveAssign
    split
    · rfl
    · by_cases hx : b = x
      · subst hx; simp [hr, Cell.occupied]
      · rcases List.mem_cons.1 hb with h | h
        · exact absurd h hx
        · split
          · exact moveAssign_hole bs _ _ h (by rw [Row.set_ne _ _ hx]; exact hr)
          · rfl

theorem Row.moveConstruct_hole {dst : List BlockId} {b : BlockId} : ∀ (bs : List BlockId) (s d : Row V) (t : Tally) {s' d' : Row V} {t' : Tally},
    s b = .raw → Row.moveConstruct dst bs s d t = some (s', d', t') → s' b = .raw
  | [], s, d, t, s', d', t', hr, h => by
    simp only [Row.moveConstruct, Option.some.injEq, Prod.mk.injEq] at h
    rw [← h.1]; exact hr
  | x :: bs, s, d, t, s', d', t', hr, h => by
    unfold Row.moveConstruct at h
    split at h
    · split at h
      · cases h
      · rename_i v hv
        refine moveConstruct_hole bs _ _ _ ?_ h
        rw [Row.set_ne _ _ ?_]; exact hr
        rintro rfl; rw [hr] at hv; cases hv
    · exact moveConstruct_hole bs _ _ _ hr h

namespace Arch

/-- One entry of the archetype has a cell without object. -/
def Hole (a : Arch V) (ci idx : Nat) (b : BlockId) : Prop := b ∈ a.blocks ∧ ∃ row, a.row? ci idx = some row ∧ row b = .raw

theorem row?_chunk {a : Arch V} {ci idx : Nat} {row : Row V} (h : a.row? ci idx = some row) :
    ∃ c, a.chunks[ci]? = some c ∧ idx < c.size ∧ c.size ≤ a.cap ∧ c.rows idx = row := by
  unfold row? at h
  split at h
  · cases h
  · rename_i c hc
    split at h
    · rename_i hi
      exact ⟨c, hc, hi.1, hi.2, by simpa using h⟩
    · cases h

theorem Hole.swapErase {a : Arch V} {ci idx : Nat} {b : BlockId} (h : a.Hole ci idx b) : a.swapErase ci idx = none := by
  obtain ⟨hb, row, hrow, hr⟩ := h
  obtain ⟨c, hc, hi, hcap, rfl⟩ := row?_chunk hrow
  have : a.chunkSwapErase ci idx (a.chunks.length - 1) = none := by
    unfold chunkSwapErase
    rw [hc]
    simp only [if_pos hi]
    split
    · rename_i hl
      have hl : idx = c.size - 1 := by omega
      unfold Chunk.popBack
      rw [if_pos (by omega), ← hl, Row.destroy_hole _ _ _ hb hr]
      rfl
    · split
      · rfl
      · split
        · rfl
        · split
          · rw [Row.moveAssign_hole _ _ _ hb hr]
          · rfl
  unfold Arch.swapErase
  rw [this]

theorem Hole.move {a o : Arch V} {ci idx : Nat} {b : BlockId} (h : a.Hole ci idx b) : a.move ci idx o = none := by
  obtain ⟨hb, row, hrow, hr⟩ := h
  obtain ⟨c, hc, hi, hcap, rfl⟩ := row?_chunk hrow
  unfold Arch.move
  split
  · rfl
  · rename_i o' _
    simp only
    split
    · rename_i oc c' hoc hc'
      rw [hc] at hc'; cases hc'
      split
      · split
        · rfl
        · rename_i s d t hm
          have hs := Row.moveConstruct_hole _ _ _ _ hr hm
          have hH : ({ a with chunks := a.chunks.set ci (c.setRow idx s) } : Arch V).Hole ci idx b := by
            refine ⟨hb, s, ?_, hs⟩
            have hlt := (List.getElem?_eq_some_iff.1 hc).1
            simp [Arch.row?, hlt, Chunk.setRow, hi, hcap]
          rw [hH.swapErase]
      · rfl
    · rfl

theorem Hole.destruct {a : Arch V} {ci idx : Nat} {b : BlockId} (h : a.Hole ci idx b) (t : Tally) : a.destructChunks a.chunks t = none := by
  obtain ⟨hb, row, hrow, hr⟩ := h
  obtain ⟨c, hc, hi, hcap, rfl⟩ := row?_chunk hrow
  have h1 : ∀ (n : Nat) (t : Tally), idx < n → c.destruct a.blocks a.cap t n = none := by
    intro n
    induction n with
    | zero => intro t h; omega
    | succ n ih =>
      intro t h
      unfold Chunk.destruct
      split
      · by_cases hn : idx = n
        · subst hn
          split
          · rfl
          · rw [Row.destroy_hole _ _ _ hb hr]; rfl
        · rw [ih t (by omega)]
      · rfl
  have h2 : ∀ (l : List (Chunk V)) (t : Tally), c ∈ l → a.destructChunks l t = none := by
    intro l
    induction l with
    | nil => intro t h; cases h
    | cons x l ih =>
      intro t h
      unfold destructChunks
      rcases List.mem_cons.1 h with rfl | h
      · rw [h1 _ _ hi]
      · split
        · rfl
        · exact ih _ h
  exact h2 _ _ (List.mem_of_getElem? hc)

end Arch

theorem Archs.ensureKey_keep {s s' : Archs V} {key : Bitset} {comps : MetaSet} {ni : Nat} (h : s.ensureKey key comps = .ok s' ni) {i : Nat}
    {a : Arch V} (ha : s.arches[i]? = some a) : s'.arches[i]? = some a := by
  unfold ensureKey at h
  split at h
  · split at h
    · split at h
      · simp only [Res.ok.injEq] at h; rw [← h.1]; exact ha
      · split at h
        · cases h
        · simp only [Res.ok.injEq] at h
          rw [← h.1]
          simp only
          rw [List.getElem?_append_left (List.getElem?_eq_some_iff.1 ha).1]; exact ha
    · cases h
  · cases h

theorem Archs.ensureRemoved_keep {s s' : Archs V} {ai ni : Nat} {m : CompMeta} (h : s.ensureRemoved ai m = .ok s' ni) {i : Nat} {a : Arch V}
    (ha : s.arches[i]? = some a) : s'.arches[i]? = some a := by
  unfold ensureRemoved at h
  split at h
  · cases h
  · exact ensureKey_keep h (by exact ha)

/-- Entity `h` has component `c` without object, at location `l`. -/
structure HoleAt (r : Reg V) (h : Handle) (c : Nat) (l : Loc) (ai : Nat) (a : Arch V) (row : Row V) : Prop where
  loc : r.location h = .ok l
  arch : r.archOf l = some (ai, a)
  contains : a.contains c = true
  mem : some c ∈ a.blocks
  at_ : a.row? l.chunk l.entry = some row
  raw : row (some c) = .raw

namespace HoleAt
variable {r : Reg V} {h : Handle} {c : Nat} {l : Loc} {ai : Nat} {a : Arch V} {row : Row V}

theorem hole (H : HoleAt r h c l ai a row) : a.Hole l.chunk l.entry (some c) := ⟨H.mem, row, H.at_, H.raw⟩

theorem get_arch (H : HoleAt r h c l ai a row) : r.archs.arches[ai]? = some a := by
  have h := H.arch
  unfold Reg.archOf at h
  split at h
  · cases h
  · split at h
    · cases h
    · simp only [Option.some.injEq, Prod.mk.injEq] at h
      obtain ⟨rfl, rfl⟩ := h
      assumption

theorem get (H : HoleAt r h c l ai a row) : r.get h c = .ub := by
  simp [Reg.get, Reg.rowOf, H.loc, H.arch, H.at_, H.mem, H.raw, Cell.read]

theorem has (H : HoleAt r h c l ai a row) : r.has h [c] = .ok true := by
  simp [Reg.has, H.loc, H.arch, H.contains]

theorem writeAt (H : HoleAt r h c l ai a row) (v : V) : r.writeAt l c false v = none := by
  have : a.writeCell l.chunk l.entry (some c) false (.comp v) = none := by
    unfold Arch.writeCell
    rw [H.at_]
    split
    · rename_i r' _ e _; cases e; simp [H.raw, Cell.occupied]
    · rfl
  unfold Reg.writeAt
  simp [H.arch, H.mem, this]

theorem set (H : HoleAt r h c l ai a row) (ty : Types) (v : V) : r.set ty h c v = .ub := by
  unfold Reg.set Reg.setImpl
  simp [H.loc, H.arch, H.contains, H.writeAt]

theorem assign (H : HoleAt r h c l ai a row) (v : V) : r.assign h c v = .ub := by
  unfold Reg.assign
  simp [H.loc, H.arch, H.at_, H.mem, H.writeAt]

theorem getOrInsert (H : HoleAt r h c l ai a row) (ty : Types) (v : V) : r.getOrInsert ty h c v = .ub := by
  unfold Reg.getOrInsert Reg.setImpl
  simp [H.loc, H.arch, H.contains, Reg.readAt, H.at_, H.raw, Cell.read]

theorem destroy (H : HoleAt r h c l ai a row) : r.destroy h = .ub := by
  unfold Reg.destroy
  simp [H.loc, H.arch, H.hole.swapErase]

theorem remove (H : HoleAt r h c l ai a row) (ty : Types) (r' : Reg V) : r.remove ty h c ≠ .ok r' () := by
  unfold Reg.remove
  simp only [H.loc, H.arch, H.contains, if_true]
  split
  · simp
  · simp
  · rename_i s ni he
    have : ({ r with archs := s } : Reg V).relocate h l ai ni = none := by
      unfold Reg.relocate
      split
      · rename_i a1 n h1 h2
        rw [Archs.ensureRemoved_keep he H.get_arch] at h1
        cases h1
        split
        · rfl
        · rw [H.hole.move]
      · rfl
    rw [this]; simp

theorem destruct (H : HoleAt r h c l ai a row) : r.destruct = none := by
  unfold Reg.destruct
  have h2 : ∀ (l : List (Arch V)), a ∈ l → (l.mapM fun a => a.destructChunks a.chunks a.tally) = none := by
    intro l
    induction l with
    | nil => intro h; cases h
    | cons x l ih =>
      intro h
      rw [List.mapM_cons]
      rcases List.mem_cons.1 h with rfl | h
      · rw [H.hole.destruct]; rfl
      · rw [ih h]
        cases x.destructChunks x.chunks x.tally <;> rfl
  exact h2 _ (List.mem_of_getElem? H.get_arch)

end HoleAt

/-- What construction at a location changes. -/
theorem Reg.writeAt_true {r r' : Reg V} {l : Loc} {c : Nat} {v : V} (h : r.writeAt l c true v = some r') :
    ∃ ai a row ch, r.archOf l = some (ai, a) ∧ some c ∈ a.blocks ∧ a.row? l.chunk l.entry = some row ∧ a.chunks[l.chunk]? = some ch ∧
      r' = r.setArch ai { a with chunks := a.chunks.set l.chunk (ch.setRow l.entry (row.construct a.tally (some c) (.comp v)).1)
                                 tally := (row.construct a.tally (some c) (.comp v)).2 } := by
  unfold Reg.writeAt at h
  split at h
  · cases h
  · rename_i ai a ha
    split at h
    · rename_i hm
      split at h
      · cases h
      · rename_i a' hw
        unfold Arch.writeCell at hw
        split at hw
        · rename_i row ch hrow hch
          simp only [if_true, Option.some.injEq] at hw h
          subst hw
          exact ⟨ai, a, row, ch, ha, hm, hrow, hch, h.symm⟩
        · cases hw
    · cases h

theorem Reg.archOf_get {r : Reg V} {l : Loc} {ai : Nat} {a : Arch V} (h : r.archOf l = some (ai, a)) :
    l.arch = some ai ∧ r.archs.arches[ai]? = some a := by
  unfold Reg.archOf at h
  split at h
  · cases h
  · rename_i i hi
    split at h
    · cases h
    · rename_i b hb
      simp only [Option.some.injEq, Prod.mk.injEq] at h
      obtain ⟨rfl, rfl⟩ := h
      exact ⟨hi, hb⟩

/-- Only one component of the entity at the location is changed by construction. -/
theorem Reg.writeAt_true_other {r r' : Reg V} {l : Loc} {c : Nat} {v : V} {ai : Nat} {a : Arch V} {row : Row V} {ch : Chunk V}
    (h1 : r.archOf l = some (ai, a)) (h3 : a.row? l.chunk l.entry = some row) (h4 : a.chunks[l.chunk]? = some ch)
    (h5 : r' = r.setArch ai { a with chunks := a.chunks.set l.chunk (ch.setRow l.entry (row.construct a.tally (some c) (.comp v)).1)
                                     tally := (row.construct a.tally (some c) (.comp v)).2 }) :
    (∀ h, r'.location h = r.location h) ∧ (∀ h cs, r'.has h cs = r.has h cs) ∧
    ∀ h c', (r.location h = .ok l → c' ≠ c) → r'.get h c' = r.get h c' := by
  obtain ⟨f1, f2⟩ := Reg.archOf_get h1
  have f3 := (List.getElem?_eq_some_iff.1 f2).1
  obtain ⟨ch', g1, g2, g3, g4⟩ := Arch.row?_chunk h3
  rw [h4] at g1; cases g1
  have hloc : ∀ h, r'.location h = r.location h := by intro h; rw [h5]; rfl
  generalize hA : ({ a with chunks := a.chunks.set l.chunk (ch.setRow l.entry (row.construct a.tally (some c) (.comp v)).1)
                            tally := (row.construct a.tally (some c) (.comp v)).2 } : Arch V) = A at h5
  have harch : ∀ l', r'.archOf l' = if l'.arch = some ai then some (ai, A) else r.archOf l' := by
    intro l'
    rw [h5]
    unfold Reg.archOf Reg.setArch
    cases hl : l'.arch with
    | none => simp
    | some j =>
      simp only [Option.some.injEq]
      by_cases hj : j = ai
      · subst hj; simp [f3]
      · rw [if_neg hj, List.getElem?_set_ne (fun h => hj h.symm)]
  have hold : ∀ l', l'.arch = some ai → r.archOf l' = some (ai, a) := by
    intro l' hl; unfold Reg.archOf; simp [hl, f2]
  have hb : A.blocks = a.blocks := by rw [← hA]; rfl
  have hrow : ∀ ci idx, A.row? ci idx = if ci = l.chunk ∧ idx = l.entry then some (row.set (some c) (.live (.comp v))) else a.row? ci idx := by
    intro ci idx
    rw [← hA]
    rw [Arch.row?_setRow h4]
    by_cases he : ci = l.chunk ∧ idx = l.entry
    · obtain ⟨rfl, rfl⟩ := he
      simp [g2, g3, Row.construct]
    · simp [he]
  refine ⟨hloc, fun h cs => ?_, fun h c' hne => ?_⟩
  · unfold Reg.has
    rw [hloc]
    cases hl : r.location h with
    | ub => rfl
    | throw e => rfl
    | ok l' =>
      simp only [harch]
      by_cases ha : l'.arch = some ai
      · simp only [ha, if_true, hold l' ha]
        congr 2
        rw [← hA]; rfl
      · simp only [ha, if_false]
  · unfold Reg.get Reg.rowOf
    rw [hloc]
    cases hl : r.location h with
    | ub => rfl
    | throw e => rfl
    | ok l' =>
      simp only [harch]
      by_cases ha : l'.arch = some ai
      · simp only [ha, if_true, hold l' ha, hrow]
        by_cases he : l'.chunk = l.chunk ∧ l'.entry = l.entry
        · have hll : l' = l := by
            cases l; cases l'; simp only at ha f1 he; simp [ha, f1, he]
          subst hll
          simp only [and_self, if_true, h3, hb]
          rw [Row.set_ne _ _ (by simpa using hne hl)]
        · simp only [he, if_false]
          cases a.row? l'.chunk l'.entry with
          | none => rfl
          | some R => simp only [hb]
      · simp only [ha, if_false]

/-- After `set` of a new component whose constructor throws. -/
theorem Rep.setThrows {ty : Types} {r : Reg V} {k : Nat} {W : Handle → Option (Comps V)} (R : Rep ty r k W) (ht : AllTight r.archs)
    {h : Handle} {d : Comps V} (hw : W h = some d) {c : Nat} (hd : d c = none) (v : V) {r1 : Reg V} {b : Bool} {l : Loc}
    (hs : r.setImpl ty h c = .ok r1 (b, l)) :
    b = true ∧ (∃ ai a row, HoleAt r1 h c l ai a row) ∧ (∀ h', h' ≠ h → Same r r1 h') ∧
      ∀ c', c' ≠ c → r1.get h c' = r.get h c' := by
  rcases R.setImpl hw c v with ⟨v0, l0, r', h1, _⟩ | ⟨_, ⟨h2, _⟩ | ⟨r1', r', l', h2, h3, ⟨h4, h5⟩, h6, h7, h8, h9⟩ | ⟨r', h2, _⟩⟩
  · rw [hd] at h1; cases h1
  · rw [hs] at h2; cases h2
  · rw [hs] at h2
    simp only [Res.ok.injEq, Prod.mk.injEq] at h2
    obtain ⟨rfl, rfl, rfl⟩ := h2
    obtain ⟨ai, a, row, ch, e1, e2, e3, e4, e5⟩ := Reg.writeAt_true h3
    obtain ⟨f1, f2⟩ := Reg.archOf_get e1
    have f3 := (List.getElem?_eq_some_iff.1 f2).1
    have f4 := (List.getElem?_eq_some_iff.1 e4).1
    have ht' := h8.tight ht
    have g1 : r'.archs.arches[ai]? = some { a with chunks := a.chunks.set l.chunk (ch.setRow l.entry (row.construct a.tally (some c) (.comp v)).1)
                                                   tally := (row.construct a.tally (some c) (.comp v)).2 } := by
      rw [e5]; simp [Reg.setArch, f3]
    have hraw : row (some c) = .raw := by
      have := (ht' ai _ g1).dup
      simp only [Row.construct, Tally.build] at this
      cases hr : row (some c) with
      | raw => rfl
      | live x => rw [hr] at this; simp [Cell.occupied] at this
      | moved => rw [hr] at this; simp [Cell.occupied] at this
    obtain ⟨q1, q2, q3⟩ := Reg.writeAt_true_other e1 e3 e4 e5
    have hloc : r1.location h = .ok l := by rw [← q1]; exact h5
    refine ⟨rfl, ⟨ai, a, row, hloc, e1, ?_, e2, e3, hraw⟩, fun h' hne => ?_, fun c' hc' => ?_⟩
    · have := h7.has_some (h := h) (d := _) put_self [c]
      rw [q2] at this
      simpa [Reg.has, hloc, e1] using this
    · have h10 : Same r r' h' := R.same h7 (put_ne hne) (by unfold Reg.alive; rw [h6])
      refine ⟨fun c' => ?_, fun cs => ?_, ?_⟩
      · rw [← h10.get, q3]
        intro hl'
        exfalso
        rw [← q1] at hl'
        cases hw' : World.put W h (some fun x => if x = c then some v else d x) h' with
        | none => rw [h7.location_none hw'] at hl'; cases hl'
        | some d' =>
          obtain ⟨_, _, _, _, _, t1⟩ := h7.at_ hw'
          obtain ⟨_, _, _, _, _, t2⟩ := h7.at_ (h := h) put_self
          have w1 := t1.loc
          rw [hl'] at w1; cases w1
          have w2 := t2.loc
          rw [h5] at w2; cases w2
          have := t1.slot
          rw [t2.slot] at this
          simp only [Option.some.injEq, Prod.mk.injEq] at this
          exact hne this.1.symm
      · rw [← h10.has, q2]
      · rw [← h10.alive, e5]; rfl
    · rw [← q3 h c' (fun _ => hc'), h7.get_eq, R.get_eq, put_self, hw]
      simp [hc']
  · rw [hs] at h2; cases h2

end CoEcs
