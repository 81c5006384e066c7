import Verif.Proofs.RepEnd
import Verif.Proofs.View

/-!
# The places of an archetype after one of its entities has been given another component

`setImpl` moves the entity `h` out of its archetype.  What a pointer taken before the call reads
afterwards depends on which entity, if any, has been moved into the place of `h`.
-/

namespace CoEcs

variable {V : Type}

/-- Which entity fills the hole left by `move`: none if the entity was the last of its chunk, otherwise
the last entity of the last chunk. -/
theorem Arch.move_moved {a n a' n' : Arch V} {ci idx : Nat} {p : Nat × Nat} {moved : Option Handle} {c : Chunk V}
    (hc : a.chunks[ci]? = some c) (hm : a.move ci idx n = some (a', n', p, moved)) :
    (moved = none ↔ idx + 1 = c.size) ∧
    ∀ m, moved = some m → ∃ last row, a.chunks.getLast? = some last ∧ row = last.rows (last.size - 1) ∧ last.size ≠ 0 ∧
      (row none).read = some (.ent m) := by
  have hci : ci < a.chunks.length := (List.getElem?_eq_some_iff.1 hc).1
  unfold Arch.move at hm
  split at hm
  · cases hm
  · rename_i o ho
    simp only at hm
    rw [hc] at hm
    split at hm
    · rename_i oc c' hoc hc'
      cases hc'
      split at hm
      · rename_i hcond
        split at hm
        · cases hm
        · rename_i s d t hcons
          split at hm
          · cases hm
          · rename_i a1 mv hsw
            simp only [Option.some.injEq, Prod.mk.injEq] at hm
            obtain ⟨rfl, rfl, rfl, rfl⟩ := hm
            unfold Arch.swapErase at hsw
            split at hsw
            · cases hsw
            · rename_i a2 mv2 hcs
              have hmv : mv2 = mv := by
                split at hsw
                · cases hsw
                · split at hsw <;> · simp only [Option.some.injEq, Prod.mk.injEq] at hsw; exact hsw.2
              subst hmv
              unfold Arch.chunkSwapErase at hcs
              simp only [List.getElem?_set_self hci, List.length_set] at hcs
              have hsz : (c.setRow idx s).size = c.size := rfl
              rw [hsz, if_pos hcond.1] at hcs
              split at hcs
              · rename_i hlast
                split at hcs
                · cases hcs
                · simp only [Option.some.injEq, Prod.mk.injEq] at hcs
                  obtain ⟨_, rfl⟩ := hcs
                  refine ⟨by simp; omega, by intro m hm; cases hm⟩
              · rename_i hlast
                split at hcs
                · cases hcs
                · rename_i lst hl
                  split at hcs
                  · cases hcs
                  · rename_i h0
                    split at hcs
                    · rename_i g hg
                      split at hcs
                      · cases hcs
                      · split at hcs
                        · cases hcs
                        · split at hcs
                          · cases hcs
                          · simp only [Option.some.injEq, Prod.mk.injEq] at hcs
                            obtain ⟨_, rfl⟩ := hcs
                            refine ⟨by simp; omega, ?_⟩
                            intro m hm
                            cases hm
                            rw [List.getElem?_set] at hl
                            split at hl
                            · rename_i hk
                              simp only [if_pos hci, Option.some.injEq] at hl
                              subst hl
                              refine ⟨c, _, ?_, rfl, ?_, ?_⟩
                              · rw [List.getLast?_eq_getElem?, ← hk]; exact hc
                              · rw [hsz] at h0; exact h0
                              · rw [hsz] at hg
                                have hne : c.size - 1 ≠ idx := by omega
                                simpa [Chunk.setRow, hne] using hg
                            · exact ⟨lst, _, by rw [List.getLast?_eq_getElem?]; exact hl, rfl, h0, hg⟩
                    · cases hcs
      · cases hm
    · cases hm

/-- What `relocate` leaves of the archetype the entity was in. -/
theorem relocate_arches {r r2 : Reg V} {h : Handle} {l l2 : Loc} {ai ni : Nat} {a n : Arch V} (ha : r.archs.arches[ai]? = some a)
    (hn : r.archs.arches[ni]? = some n) (hr : r.relocate h l ai ni = some (r2, l2)) :
    ∃ a' n' p moved, ai ≠ ni ∧ a.move l.chunk l.entry n = some (a', n', p, moved) ∧ r2.archs.arches = (r.archs.arches.set ai a').set ni n' := by
  unfold Reg.relocate at hr
  rw [ha, hn] at hr
  simp only at hr
  split at hr
  · cases hr
  · rename_i hne
    split at hr
    · cases hr
    · rename_i a' n' ci idx moved hm
      split at hr
      · cases hr
      · rename_i r1 h1
        split at hr
        · cases hr
        · rename_i r3 h3
          simp only [Option.some.injEq, Prod.mk.injEq] at hr
          obtain ⟨rfl, _⟩ := hr
          refine ⟨a', n', (ci, idx), moved, hne, hm, ?_⟩
          have e3 : r3.archs = r1.archs := by
            unfold Reg.setLoc at h3
            split at h3
            · cases h3; rfl
            · cases h3
          have e1 : r1.archs = ((r.setArch ai a').setArch ni n').archs := by
            unfold Reg.setMoved at h1
            split at h1
            · cases h1; rfl
            · unfold Reg.setLoc at h1
              split at h1
              · cases h1; rfl
              · cases h1
          rw [e3, e1]
          rfl

/-- The places of the archetype of `h` after `setImpl` has added a component to `h`. -/
theorem setImpl_places {ty : Types} {r : Reg V} {k : Nat} {W : Handle → Option (Comps V)} (R : Rep ty r k W) {h : Handle} {d : Comps V}
    {l0 : Loc} {ai : Nat} {a : Arch V} {c : Chunk V} {row : Row V} (t : At r h d l0 ai a c row) {cid : Nat} (hd : d cid = none)
    {r1 : Reg V} {b : Bool} {l : Loc} (hs : r.setImpl ty h cid = .ok r1 (b, l)) :
    ∃ a' moved, a.Erased l0.chunk l0.entry a' moved ∧ r1.archs.arches[ai]? = some a' ∧ (moved = none ↔ l0.entry + 1 = c.size) ∧
      ∀ m, moved = some m → ∃ last row, a.chunks.getLast? = some last ∧ row = last.rows (last.size - 1) ∧ last.size ≠ 0 ∧
        (row none).read = some (.ent m) := by
  obtain ⟨d1, d2, d3⟩ := Row.decode_some t.decode t.rowOk
  have hcon : a.contains cid = false := by
    cases hcon : a.contains cid with
    | false => rfl
    | true =>
      obtain ⟨v, h1, _⟩ := d2 cid ((t.ok.toShape.contains cid).1 hcon)
      rw [hd] at h1; cases h1
  obtain ⟨m, hm⟩ := R.archs
  unfold Reg.setImpl at hs
  simp only [t.loc, t.archOf, hcon, Bool.false_eq_true, if_false] at hs
  rcases ensureAdded_spec hm t.get hcon with ⟨s, m', ni, n, e1, e2⟩ | ⟨s, m', e1, e2⟩
  · simp only [e1] at hs
    split at hs
    · cases hs
    · rename_i r2 l2 hrel
      simp only [Res.ok.injEq, Prod.mk.injEq] at hs
      obtain ⟨rfl, _, rfl⟩ := hs
      obtain ⟨a', n', p, moved, hne, hmv, harch⟩ := relocate_arches (r := { r with archs := s }) (e2.keep t.get) e2.arch hrel
      have hnok := e2.rel.ok ni n e2.arch
      by_cases hsafe : a.Safe l0.chunk l0.entry
      · obtain ⟨b', o', ci', idx', moved', o1, oc, Rr, tl, q1, q2, q3, q4, q5, _⟩ :=
          Arch.move_spec t.ok hnok t.chunk t.lt (hsafe c t.chunk)
        rw [q1] at hmv
        simp only [Option.some.injEq, Prod.mk.injEq] at hmv
        obtain ⟨rfl, rfl, rfl, rfl⟩ := hmv
        obtain ⟨w1, w2⟩ := Arch.move_moved t.chunk q1
        refine ⟨b', moved', q5, ?_, w1, w2⟩
        have hlt : ai < s.arches.length := (List.getElem?_eq_some_iff.1 (e2.keep t.get)).1
        rw [harch, set_getElem?_ne _ _ (Ne.symm hne), List.getElem?_set_self hlt]
      · rw [relocate_ub (r := { r with archs := s }) (e2.keep t.get) hsafe] at hrel
        cases hrel
  · simp only [e1] at hs
    cases hs

/-- The entity in a row of an archetype. -/
theorem Rep.at_row {ty : Types} {r : Reg V} {k : Nat} {W : Handle → Option (Comps V)} (R : Rep ty r k W) {ai : Nat} {a : Arch V}
    (ha : r.archs.arches[ai]? = some a) {ci idx : Nat} {row : Row V} (hrow : a.row? ci idx = some row) {m : Handle}
    (hm : row none = .live (.ent m)) : ∃ dm c, W m = some dm ∧ At r m dm ⟨some ai, ci, idx⟩ ai a c row := by
  obtain ⟨mm, hmm⟩ := R.archs
  have hok := hmm.ok ai a ha
  obtain ⟨e, dm, h1, h2, h3⟩ := Row.decode_ok (hok.rows _ _ _ hrow)
  rw [hm] at h2
  simp only [Cell.live.injEq, Val.ent.injEq] at h2
  subst h2
  have hs : slots r.archs.arches ⟨some ai, ci, idx⟩ = some (m, dm) := by
    rw [slots_some ha]
    simp [Arch.entry, hrow, h1]
  obtain ⟨aj, a2, c, row2, t⟩ := R.at_slot hs
  have e1 : ai = aj := by have := t.arch; simpa using this
  subst e1
  have e2 : a2 = a := by have := t.get; rw [ha] at this; simpa using this.symm
  subst e2
  have e3 : row2 = row := by have := t.row?; simp only [hrow, Option.some.injEq] at this; exact this.symm
  subst e3
  exact ⟨dm, c, (R.holds m dm).1 ⟨_, hs⟩, t⟩

/-- What pointers taken before `setImpl` adds a component to `h` read after it. -/
theorem setImpl_reads {ty : Types} {r : Reg V} {k : Nat} {W : Handle → Option (Comps V)} (R : Rep ty r k W) {h : Handle} {d : Comps V}
    {l0 : Loc} {ai : Nat} {a : Arch V} {c : Chunk V} {row : Row V} (t : At r h d l0 ai a c row) {cid : Nat} (hd : d cid = none)
    {r1 : Reg V} {b : Bool} {l : Loc} (hs : r.setImpl ty h cid = .ok r1 (b, l)) :
    ∃ mv : Option Handle, (mv = none ↔ l0.entry + 1 = c.size) ∧
      (∀ m, mv = some m → m ≠ h ∧ ∃ last, a.chunks.getLast? = some last ∧
        r.location m = .ok ⟨some ai, a.chunks.length - 1, last.size - 1⟩ ∧ last.size ≠ 0) ∧
      ∀ src ds ls sc v, W src = some ds → ds sc = some v → r.location src = .ok ls →
        (src ≠ h → mv ≠ some src → r1.readAt ls sc = some v) ∧
        (mv = some src → r1.readAt ls sc = none) ∧
        (src = h → mv = none → r1.readAt ls sc = none) ∧
        ∀ m, src = h → mv = some m → ∃ dm v', W m = some dm ∧ dm sc = some v' ∧ r1.readAt ls sc = some v' := by
  obtain ⟨a', mv, he, harch, hn, hl⟩ := setImpl_places R t hd hs
  have hread0 : ∀ (l : Loc) sc, l.arch = some ai → a'.row? l.chunk l.entry = none → r1.readAt l sc = none := by
    intro l sc hla hrow
    unfold Reg.readAt Reg.archOf
    simp only [hla, harch, hrow]
  have hread1 : ∀ (l : Loc) sc row v, l.arch = some ai → a'.row? l.chunk l.entry = some row → row (some sc) = .live (.comp v) →
      r1.readAt l sc = some v := by
    intro l sc row v hla hrow hv
    unfold Reg.readAt Reg.archOf
    simp only [hla, harch, hrow, hv, Cell.read]
  -- two entities in one place are one
  have hplace : ∀ {x y : Handle} {dx dy : Comps V} {lx ly : Loc} {ax : Arch V} {cx cy : Chunk V} {rx ry : Row V} {ay : Arch V},
      At r x dx lx ai ax cx rx → At r y dy ly ai ay cy ry → lx.chunk = ly.chunk → lx.entry = ly.entry → x = y := by
    intro x y dx dy lx ly ax cx cy rx ry ay tx ty' h1 h2
    have e : lx = ly := by rw [tx.loc_eq, ty'.loc_eq, h1, h2]
    have := tx.slot
    rw [e, ty'.slot] at this
    simp only [Option.some.injEq, Prod.mk.injEq] at this
    exact this.1.symm
  -- the value read from an unchanged row
  have hkeep : ∀ {src : Handle} {ds : Comps V} {ls : Loc} {sa : Arch V} {scn : Chunk V} {srow : Row V} {sc : Nat} {v : V},
      At r src ds ls ai sa scn srow → ds sc = some v → a'.row? ls.chunk ls.entry = a.row? ls.chunk ls.entry → r1.readAt ls sc = some v := by
    intro src ds ls sa scn srow sc v ts hv hrow
    have e2 : sa = a := by have := ts.get; rw [t.get] at this; simpa using this.symm
    subst e2
    obtain ⟨d1, d2, d3⟩ := Row.decode_some ts.decode ts.rowOk
    obtain ⟨_, hmem⟩ := ts.readAt hv
    obtain ⟨v', h1, h2⟩ := d2 sc hmem
    rw [hv] at h1; cases h1
    exact hread1 ls sc srow v ts.arch (hrow.trans ts.row?) h2
  refine ⟨mv, hn, ?_, ?_⟩
  · intro m hm
    obtain ⟨last, lrow, g1, g2, g3, g4⟩ := hl m hm
    have hg := g1
    rw [List.getLast?_eq_getElem?] at hg
    have hlr : a.row? (a.chunks.length - 1) (last.size - 1) = some lrow :=
      (Arch.row?_eq_some t.ok.toShape).2 ⟨last, hg, by omega, g2⟩
    have hlive : lrow none = .live (.ent m) := by
      cases hx : lrow none with
      | live v => rw [hx] at g4; simp only [Cell.read, Option.some.injEq] at g4; rw [g4]
      | _ => rw [hx] at g4; simp [Cell.read] at g4
    obtain ⟨dm, cm, w1, tm⟩ := R.at_row t.get hlr hlive
    refine ⟨?_, last, g1, tm.loc, g3⟩
    rintro rfl
    have := t.loc
    rw [tm.loc] at this
    simp only [Obs.ok.injEq] at this
    have hc1 : c = last := by
      have h1 := t.chunk
      rw [← this] at h1
      rw [hg] at h1
      simpa using h1.symm
    have : mv = none := hn.2 (by rw [← this, hc1]; show last.size - 1 + 1 = last.size; omega)
    rw [hm] at this; cases this
  · intro src ds ls sc v hws hv hls
    obtain ⟨l1, si, sa, scn, srow, ts⟩ := R.at_ hws
    have : l1 = ls := by have := ts.loc; rw [hls] at this; simpa using this.symm
    subst this
    by_cases hai : ai = si
    · subst hai
      rcases he with ⟨rfl, he⟩ | ⟨m, pc, pj, Rm, R', rfl, hne, hRm, hm, hR', he⟩
      · refine ⟨?_, by simp, ?_, by simp⟩
        · intro hsrc _
          refine hkeep ts hv ?_
          rw [he, if_neg]
          rintro ⟨q1, q2⟩
          exact hsrc (hplace ts t q1 q2)
        · rintro rfl _
          have : l1 = l0 := by have := t.loc; rw [hls] at this; simpa using this
          subst this
          exact hread0 _ sc t.arch (by rw [he, if_pos ⟨rfl, rfl⟩])
      · obtain ⟨dm, cm, w1, tm⟩ := R.at_row t.get hRm hm
        refine ⟨?_, ?_, by simp, ?_⟩
        · intro hsrc hsm
          refine hkeep ts hv ?_
          rw [he, if_neg, if_neg]
          · rintro ⟨q1, q2⟩
            exact hsm (by rw [hplace ts tm q1 q2])
          · rintro ⟨q1, q2⟩
            exact hsrc (hplace ts t q1 q2)
        · intro hsm
          simp only [Option.some.injEq] at hsm
          subst hsm
          have : l1 = ⟨some ai, pc, pj⟩ := by have := tm.loc; rw [hls] at this; simpa using this
          subst this
          exact hread0 _ sc rfl (by rw [he, if_neg hne, if_pos ⟨rfl, rfl⟩])
        · rintro m' rfl hmm
          simp only [Option.some.injEq] at hmm
          subst hmm
          have : l1 = l0 := by have := t.loc; rw [hls] at this; simpa using this
          subst this
          have e2 : sa = a := by have := ts.get; rw [t.get] at this; simpa using this.symm
          subst e2
          obtain ⟨_, hmem⟩ := ts.readAt hv
          obtain ⟨d1, d2, d3⟩ := Row.decode_some tm.decode tm.rowOk
          obtain ⟨v', h1, h2⟩ := d2 sc hmem
          refine ⟨dm, v', w1, h1, ?_⟩
          exact hread1 _ sc R' v' t.arch (by rw [he, if_pos ⟨rfl, rfl⟩]) (by rw [hR' _ hmem, h2])
    · have hr1 := setImpl_readAt_apart R t ts hv (.inr hai) hs
      have hsrc : src ≠ h := by
        rintro rfl
        have := t.loc
        rw [hls] at this
        simp only [Obs.ok.injEq] at this
        have h1 := ts.arch
        rw [this, t.arch] at h1
        exact hai (by simpa using h1)
      refine ⟨fun _ _ => hr1, ?_, fun h => absurd h hsrc, fun _ h => absurd h hsrc⟩
      intro hm
      obtain ⟨last, lrow, g1, g2, g3, g4⟩ := hl src hm
      rw [List.getLast?_eq_getElem?] at g1
      have hlr : a.row? (a.chunks.length - 1) (last.size - 1) = some lrow :=
        (Arch.row?_eq_some t.ok.toShape).2 ⟨last, g1, by omega, g2⟩
      have hlive : lrow none = .live (.ent src) := by
        cases hx : lrow none with
        | live v => rw [hx] at g4; simp only [Cell.read, Option.some.injEq] at g4; rw [g4]
        | _ => rw [hx] at g4; simp [Cell.read] at g4
      obtain ⟨dm, cm, w1, tm⟩ := R.at_row t.get hlr hlive
      have := tm.loc
      rw [hls] at this
      simp only [Obs.ok.injEq] at this
      have h1 := ts.arch
      rw [this] at h1
      exact absurd (by simpa using h1) hai

end CoEcs
