import Verif.Model.MoveWithin
import Verif.Proofs.RepCopy

/-!
# Moving an entity within its registry
-/

namespace CoEcs
open Spec
variable {V : Type}
namespace Arch

theorem swapErase_none {a a' : Arch V} {ci idx : Nat} {c : Chunk V} {moved : Option Handle} (hc : a.chunks[ci]? = some c)
    (hi : idx + 1 = c.size) (he : a.swapErase ci idx = some (a', moved)) : moved = none := by
  have h1 : ∀ x m, a.chunkSwapErase ci idx (a.chunks.length - 1) = some (x, m) → m = none := by
    intro x m hx
    unfold chunkSwapErase at hx
    rw [hc] at hx
    simp only [show idx < c.size by omega, if_true] at hx
    rw [if_pos (by omega)] at hx
    split at hx
    · cases hx
    · simp only [Option.some.injEq, Prod.mk.injEq] at hx
      exact hx.2.symm
  unfold swapErase at he
  split at he
  · cases he
  · rename_i x m hx
    have := h1 _ _ hx
    split at he
    · cases he
    · split at he <;> simp only [Option.some.injEq, Prod.mk.injEq] at he <;> exact he.2 ▸ this

/-- What `move` of an archetype to itself does. -/
structure SelfMoved (a : Arch V) (ci idx : Nat) (c : Chunk V) (a' : Arch V) (nci nidx : Nat) (moved : Option Handle)
    (a1 : Arch V) (oc : Chunk V) (R : Row V) : Prop where
  free : a.Free a1 oc
  nci_eq : nci = a'.chunks.length - 1
  nidx_eq : nidx = oc.size
  comps : a'.comps = a.comps
  cap : a'.cap = a.cap
  ok : a'.Ok
  tight : a.Tight → a'.Tight
  row : ∀ b ∈ a.blocks, R b = c.rows idx b
  cases :
    (idx + 1 = c.size ∧ ci ≠ a1.chunks.length - 1 ∧ moved = none ∧ a'.chunks.length = a1.chunks.length ∧
      ∀ cj j, a'.row? cj j = if cj = a1.chunks.length - 1 ∧ j = oc.size then some R
        else if cj = ci ∧ j = idx then none else a.row? cj j) ∨
    (¬ (idx + 1 = c.size ∧ ci ≠ a1.chunks.length - 1) ∧ (∃ m, moved = some m ∧ c.rows idx none = .live (.ent m)) ∧
      a'.chunks.length = (if oc.size = 0 then a1.chunks.length - 1 else a1.chunks.length) ∧
      a'.chunks.map Chunk.size = (if oc.size = 0 then (a1.chunks.map Chunk.size).dropLast else a1.chunks.map Chunk.size) ∧
      ∀ cj j, a'.row? cj j = if cj = ci ∧ j = idx then some R else a.row? cj j)

theorem moveSelf_spec {a : Arch V} {ci idx : Nat} {c : Chunk V} (h : a.Ok) (hc : a.chunks[ci]? = some c) (hi : idx < c.size) :
    ∃ a' nci nidx moved a1 oc R, a.moveSelf ci idx = some (a', (nci, nidx), moved) ∧
      SelfMoved a ci idx c a' nci nidx moved a1 oc R := by
  obtain ⟨a1, oc, f⟩ := h.free
  have hci : ci < a.chunks.length := (List.getElem?_eq_some_iff.1 hc).1
  have hrow : a.row? ci idx = some (c.rows idx) := (row?_eq_some h.toShape).2 ⟨c, hc, hi, rfl⟩
  have hR := h.rows _ _ _ hrow
  have hc1 : a1.chunks[ci]? = some c := by
    rcases f.chunks with e | ⟨e, _⟩
    · rw [e]; exact hc
    · rw [e, List.getElem?_append_left hci]; exact hc
  have hci1 : ci < a1.chunks.length := (List.getElem?_eq_some_iff.1 hc1).1
  have hsz := f.ok.sizes _ _ hc1
  obtain ⟨s, d, t, h1, h2, h3, h4, h5, h6⟩ := Row.moveConstruct_spec a1.blocks a1.blocks (c.rows idx) (oc.rows oc.size)
    a1.tally (nodup_blocks f.ok.inv) (fun b hb _ => hR.live (f.blocks ▸ hb))
  have M : MovedTo a a (a1.push (a1.chunks.length - 1) oc d t) (c.rows idx) (a1.chunks.length - 1) oc.size a1 oc d t := by
    refine ⟨f, rfl, rfl, rfl, ?_, ?_, ?_, ?_⟩
    · intro b; rw [h3, f.blocks]
    · intro b; rw [h4, f.tally, f.blocks]
    · intro b; rw [h5, f.tally]
    · intro hr; rw [h6 (f.blocks ▸ hr), f.tally]
  obtain ⟨o1, o2, o3, o4⟩ := M.sub hR (fun b hb => hb)
  generalize ha2 : a1.push (a1.chunks.length - 1) oc d t = a2 at o1 o2 o4
  have hoi : a1.chunks.length - 1 < a1.chunks.length := by omega
  have ha2c : a2.chunks = a1.chunks.set (a1.chunks.length - 1) { oc.setRow oc.size d with size := oc.size + 1 } := by
    rw [← ha2]; rfl
  have hlen2 : a2.chunks.length = a1.chunks.length := by rw [ha2c]; simp
  -- the chunk of the entity after the entry has been appended
  obtain ⟨c1, q1, q2, q3⟩ : ∃ c1, a2.chunks[ci]? = some c1 ∧ c1.rows idx = c.rows idx ∧
      c1.size = if ci = a1.chunks.length - 1 then c.size + 1 else c.size := by
    rw [ha2c, List.getElem?_set]
    by_cases e : a1.chunks.length - 1 = ci
    · have hoc : oc = c := by
        have := f.chunk
        rw [e, hc1] at this
        exact (Option.some.inj this).symm
      subst hoc
      rw [if_pos e, if_pos hoi]
      refine ⟨_, rfl, ?_, ?_⟩
      · simp only [Chunk.setRow]; rw [if_neg (by omega)]
      · rw [if_pos e.symm]
    · rw [if_neg e]
      exact ⟨c, hc1, rfl, by rw [if_neg (fun hh => e hh.symm)]⟩
  have hi1 : idx < c1.size := by rw [q3]; split <;> omega
  have hsocc : RowOcc a2.blocks s := by
    intro b hb
    have hb' : b ∈ a.blocks := by rwa [blocks_congr o2.comps] at hb
    rw [h2]
    have := hR.occ b hb'
    split
    · exact Cell.leave_occupied this
    · exact this
  have hsrow := row?_setRow (idx := idx) q1 s a2.tally
  have hsh := shape_setRow o1.toShape q1 idx s a2.tally
  have hsz1 := o1.sizes _ _ q1
  have hbut : ({ a2 with chunks := a2.chunks.set ci (c1.setRow idx s), tally := a2.tally } : Arch V).OkBut ci idx := by
    refine ⟨hsh, ?_, ?_⟩
    · intro cj j r hr hne
      rw [hsrow, if_neg hne] at hr
      exact o1.rows cj j r hr
    · intro r hr
      rw [hsrow] at hr
      simp only [and_self, if_true, hi1, hsz1, Option.some.injEq] at hr
      subst hr; exact hsocc
  have hci2 : ci < a2.chunks.length := (List.getElem?_eq_some_iff.1 q1).1
  have hchunk : ({ a2 with chunks := a2.chunks.set ci (c1.setRow idx s), tally := a2.tally } : Arch V).chunks[ci]? =
      some (c1.setRow idx s) := by simp [List.getElem?_set, hci2]
  have hsizes : (a2.chunks.set ci (c1.setRow idx s)).map Chunk.size = (a1.chunks.map Chunk.size).set (a1.chunks.length - 1) (oc.size + 1) := by
    have : (a2.chunks.set ci (c1.setRow idx s)).map Chunk.size = a2.chunks.map Chunk.size := by
      simp only [List.map_set]
      apply List.ext_getElem?
      intro k
      simp only [List.getElem?_set, List.length_map, List.getElem?_map]
      split
      · rename_i hk; subst hk; rw [q1]; simp [hci2, Chunk.setRow]
      · rfl
    rw [this, ha2c, List.map_set]
  have hlast : ∀ last, (a2.chunks.set ci (c1.setRow idx s)).getLast? = some last → last.size = oc.size + 1 := by
    intro last hl
    have := congrArg List.getLast? hsizes
    rw [List.getLast?_map, hl, List.getLast?_eq_getElem?] at this
    simp [List.getElem?_set, hoi] at this
    exact this
  obtain ⟨a', moved, e1, e2, e3, e4, e5, e6, e7⟩ := swapErase_spec hbut hchunk hi1 (by
    intro _ last hl
    have := hlast last hl
    omega)
  rw [hsizes] at e7
  refine ⟨a', a'.chunks.length - 1, oc.size, moved, a1, oc, ?_⟩
  have hms : a.moveSelf ci idx = some (a', (a'.chunks.length - 1, oc.size), moved) := by
    simp only [moveSelf, f.eq, f.chunk, hc1]
    rw [if_pos ⟨hi, f.room, hsz⟩]
    simp only [h1]
    have hq : (a1.chunks.set (a1.chunks.length - 1) { oc.setRow oc.size d with size := oc.size + 1 })[ci]? = some c1 := by
      rw [← ha2c]; exact q1
    simp only [hq]
    have : ({ a2 with chunks := a2.chunks.set ci (c1.setRow idx s) } : Arch V).swapErase ci idx = some (a', moved) := e1
    rw [← ha2] at this
    simp only [push] at this
    simp only [this]
  have htight : a.Tight → a'.Tight := by
    intro ht
    refine e6 (tight_setRow o1.toShape (o4 ht) q1 hi1 ?_)
    intro b hb
    rw [blocks_congr o2.comps, ← f.blocks] at hb
    rw [h2, if_neg (fun hh => hb hh.1), q2]
  have hgd : ((a1.chunks.map Chunk.size).set (a1.chunks.length - 1) (oc.size + 1)).getD ci 0 = c1.size := by
    rw [← hsizes]
    simp [List.getD_eq_getElem?_getD, hci2, Chunk.setRow]
  have hgl : ((a1.chunks.map Chunk.size).set (a1.chunks.length - 1) (oc.size + 1)).getD (a1.chunks.length - 1) 0 = oc.size + 1 := by
    simp [List.getD_eq_getElem?_getD, hoi]
  have hszs : (a1.chunks.map Chunk.size).set (a1.chunks.length - 1) oc.size = a1.chunks.map Chunk.size := by
    apply List.ext_getElem?
    intro k
    simp only [List.getElem?_set, List.length_map, List.getElem?_map]
    split
    · rename_i hk; subst hk; rw [f.chunk]; simp [hoi]
    · rfl
  by_cases hA : idx + 1 = c.size ∧ ci ≠ a1.chunks.length - 1
  · have hc1s : c1.size = c.size := by rw [q3, if_neg hA.2]
    have hm : moved = none := swapErase_none hchunk (by simp only [Chunk.setRow]; omega) e1
    refine ⟨d, hms, ⟨f, rfl, rfl, e2.trans o2.comps, e3.trans o2.cap, e4, htight, o3, .inl ⟨hA.1, hA.2, hm, ?_, ?_⟩⟩⟩
    · have := congrArg List.length e7
      unfold eraseSizes at this
      rw [hgd] at this
      simp only [List.length_set, List.length_map] at this
      have hcl : idx + 1 = c1.size := by omega
      simp only [if_pos hcl] at this
      rw [if_neg] at this
      · simpa using this
      · intro hh
        have := hh.1
        rw [List.getLast?_eq_getElem?] at this
        simp only [List.length_set, List.length_map] at this
        rw [List.getElem?_set, if_neg hA.2] at this
        simp [List.getElem?_set, hoi] at this
    · intro cj j
      rcases e5 with ⟨_, p2⟩ | ⟨m, pc, pj, _, _, p1, _⟩
      · rw [p2, hsrow, o2.row?]
        by_cases hx : cj = ci ∧ j = idx
        · rw [if_pos hx, if_neg (fun hh => hA.2 (hx.1.symm.trans hh.1)), if_pos hx]
        · rw [if_neg hx, if_neg hx]
          by_cases hy : cj = a1.chunks.length - 1 ∧ j = oc.size
          · rw [if_pos hy, if_pos hy]
          · rw [if_neg hy, if_neg hy, if_neg hx]
      · rw [hm] at p1; cases p1
  · have hc1s : idx + 1 ≠ c1.size := by
      rw [q3]
      split
      · omega
      · rename_i hne; exact fun hh => hA ⟨hh, hne⟩
    -- sizes
    have hes : a'.chunks.map Chunk.size = if oc.size = 0 then (a1.chunks.map Chunk.size).dropLast else a1.chunks.map Chunk.size := by
      rw [e7]
      unfold eraseSizes
      simp only [hgd, List.length_set, List.length_map, hgl]
      rw [if_neg hc1s, Nat.add_sub_cancel, List.set_set, hszs]
      have hl : (a1.chunks.map Chunk.size).getLast? = some oc.size := by
        rw [List.getLast?_map, List.getLast?_eq_getElem?, f.chunk]; rfl
      rw [hl]
      simp only [List.length_map, Option.some.injEq]
      by_cases h0 : oc.size = 0
      · rw [if_pos h0, if_pos]
        refine ⟨h0, ?_⟩
        apply Classical.byContradiction
        intro hlt
        have e : a1.chunks.length - 1 = ci := by omega
        have := f.chunk
        rw [e, hc1] at this
        simp only [Option.some.injEq] at this
        subst this
        omega
      · rw [if_neg h0, if_neg (fun hh => h0 hh.1)]
    have hel : a'.chunks.length = if oc.size = 0 then a1.chunks.length - 1 else a1.chunks.length := by
      have := congrArg List.length hes
      rw [List.length_map] at this
      rw [this]
      split <;> simp
    have hgone : a'.row? (a1.chunks.length - 1) oc.size = none := by
      cases hg : a'.chunks[a1.chunks.length - 1]? with
      | none => simp [Arch.row?, hg]
      | some x =>
        have hx := congrArg (fun l => l[a1.chunks.length - 1]?) hes
        simp only [List.getElem?_map, hg, Option.map_some] at hx
        have : x.size = oc.size := by
          split at hx
          · rename_i h0
            exfalso
            rw [if_pos h0] at hel
            have := (List.getElem?_eq_some_iff.1 hg).1
            omega
          · rw [List.getElem?_map, f.chunk] at hx
            simpa using hx
        simp [Arch.row?, hg, this]
    have hnew : a2.row? (a1.chunks.length - 1) oc.size = some d := by rw [o2.row?]; simp
    have hne : ¬ (a1.chunks.length - 1 = ci ∧ oc.size = idx) := by
      rintro ⟨x1, x2⟩
      have := f.chunk
      rw [x1, hc1] at this
      simp only [Option.some.injEq] at this
      subst this
      omega
    rcases e5 with ⟨_, p2⟩ | ⟨m, pc, pj, Q, Q', p1, p2, p3, p4, p5, p6⟩
    · exfalso
      rw [p2, if_neg hne, hsrow, if_neg hne, hnew] at hgone
      cases hgone
    · have hp : a1.chunks.length - 1 = pc ∧ oc.size = pj := by
        apply Classical.byContradiction
        intro hn
        rw [p6, if_neg hne, if_neg hn, hsrow, if_neg hne, hnew] at hgone
        cases hgone
      obtain ⟨rfl, rfl⟩ := hp
      rw [hsrow, if_neg hne, hnew] at p3
      simp only [Option.some.injEq] at p3
      subst p3
      have hQ : ∀ b ∈ a.blocks, Q' b = c.rows idx b := by
        intro b hb
        rw [p5 b (by show b ∈ a2.blocks; rw [blocks_congr o2.comps]; exact hb), o3 b hb]
      refine ⟨Q', hms, ⟨f, rfl, rfl, e2.trans o2.comps, e3.trans o2.cap, e4, htight, hQ,
        .inr ⟨hA, ⟨m, p1, by rw [← o3 _ a.none_mem_blocks]; exact p4⟩, hel, hes, ?_⟩⟩⟩
      intro cj j
      rw [p6, hsrow, o2.row?]
      by_cases hx : cj = ci ∧ j = idx
      · simp only [if_pos hx]
      · simp only [if_neg hx]
        by_cases hy : cj = a1.chunks.length - 1 ∧ j = oc.size
        · rw [if_pos hy]
          obtain ⟨rfl, rfl⟩ := hy
          exact o2.free.symm
        · rw [if_neg hy, if_neg hy]

end Arch

section
variable {ty : Types} {r : Reg V} {W : Handle → Option (Comps V)} {h ph : Handle} {d : Comps V} {l : Loc} {ai : Nat} {a a' : Arch V}
  {c : Chunk V} {row : Row V} {nci nidx : Nat} {moved : Option Handle} {a1 : Arch V} {oc : Chunk V} {Q : Row V}

/-- The steps of `moveWithin` after the entry has been moved. -/
theorem Rep.moveWithin_eq (R : Rep ty r 0 W) (t : At r h d l ai a c row)
    (hm : a.moveSelf l.chunk l.entry = some (a', (nci, nidx), moved)) (S : a.SelfMoved l.chunk l.entry c a' nci nidx moved a1 oc Q) :
    ∃ s m lm t1, ArchsRel ty s m ∧ s.arches = r.archs.arches ∧ SparseTable.Rel 32 r.locs lm ∧
      SparseTable.Rel 32 t1 (lm.del h.id) ∧ Link r.pool 0 (slots r.archs.arches) lm.get ∧
      r.moveWithin h ph =
        match a'.writeCell nci nidx none false (.ent ph) with
        | none => .ub
        | some a'' =>
          match (⟨r.pool.recycle h, { s with arches := s.arches.set ai a'' }, t1⟩ : Reg V).setLoc ph.id ⟨some ai, nci, nidx⟩ with
          | none => .ub
          | some r5 => .ok r5 ph := by
  obtain ⟨m0, hm0⟩ := R.archs
  obtain ⟨lm, hlm, L⟩ := R.link
  have hai : ai < r.archs.arches.length := (List.getElem?_eq_some_iff.1 t.get).1
  rcases ensureSet_spec hm0 t.ok.inv (hm0.typed ai a t.get) with ⟨s, m', di, da, e1, e2⟩ | ⟨s, m', e1, e2⟩
  · have hs : s.arches = r.archs.arches := by
      rcases e2.cases with e | ⟨_, _, _, _, _, e⟩
      · exact e
      · exact absurd (hm0.bwd ai a t.get) (e ai)
    have hdi : di = ai := e2.rel.inj e2.arch (by rw [hs]; exact t.get) e2.set
    subst hdi
    obtain ⟨t1, h1, h2⟩ := removeLoc_spec (r := ({ r with archs := s } : Reg V).setArch di a') (lm := lm) hlm h.id
    have hmv : (if moved = some h then none else moved) = none := by
      rcases S.cases with ⟨_, _, e, _⟩ | ⟨_, ⟨m, e, e'⟩, _⟩
      · simp [e]
      · have := (Row.decode_some t.decode t.rowOk).1
        rw [t.row_eq, e'] at this
        simp only [Cell.live.injEq, Val.ent.injEq] at this
        simp [e, this]
    refine ⟨s, m', lm, t1, e2.rel, hs, hlm, h2, L, ?_⟩
    unfold Reg.moveWithin
    simp only [t.loc, t.archOf, e1]
    unfold Reg.moveEntry
    simp only [if_true, hm, h1, hmv]
    simp only [Reg.setMoved, Reg.rename, Reg.archOf, Reg.setArch, List.getElem?_set, hs, hai, if_true]
    cases a'.writeCell nci nidx none false (.ent ph) with
    | none => rfl
    | some a'' => simp only [List.set_set]; rfl
  · exact absurd e2.large (hm0.fits ai a t.get)

/-- There is no entry at the computed location. -/
theorem Rep.moveWithin_ub (R : Rep ty r 0 W) (t : At r h d l ai a c row)
    (hm : a.moveSelf l.chunk l.entry = some (a', (nci, nidx), moved)) (S : a.SelfMoved l.chunk l.entry c a' nci nidx moved a1 oc Q)
    (hn : a'.row? nci nidx = none) : r.moveWithin h ph = .ub := by
  obtain ⟨s, m, lm, t1, -, -, -, -, -, e⟩ := R.moveWithin_eq (ph := ph) t hm S
  rw [e]
  have : a'.writeCell nci nidx none false (.ent ph) = none := by
    unfold Arch.writeCell
    rw [hn]
  rw [this]

/-- The entry at the computed location is that of the entity. -/
theorem Rep.moveWithin_ok (R : Rep ty r 0 W) (t : At r h d l ai a c row) (hw : W h = some d)
    (hm : a.moveSelf l.chunk l.entry = some (a', (nci, nidx), moved)) (S : a.SelfMoved l.chunk l.entry c a' nci nidx moved a1 oc Q)
    (hh : Held r.pool 0 ph) (hp : W ph = none)
    (hrow : ∀ cj j, a'.row? cj j = if cj = nci ∧ j = nidx then some Q else if cj = l.chunk ∧ j = l.entry then none else a.row? cj j)
    (hfree : a.row? nci nidx = none ∨ nci = l.chunk ∧ nidx = l.entry) :
    ∃ r', r.moveWithin h ph = .ok r' ph ∧ r'.pool = r.pool.recycle h ∧
      Rep ty r' 0 (World.put (World.put W h none) ph (some d)) := by
  obtain ⟨s, m, lm, t1, A, hs, hlm, hlm1, L, e⟩ := R.moveWithin_eq (ph := ph) t hm S
  have hai : ai < r.archs.arches.length := (List.getElem?_eq_some_iff.1 t.get).1
  have hr' : a'.row? nci nidx = some Q := by rw [hrow]; simp
  obtain ⟨a'', w1, w2, w3, w4, w5, w6, w7⟩ := Arch.writeCell_assign S.ok hr' a'.none_mem_blocks (.ent ph) (.inl ⟨rfl, ph, rfl⟩)
  rw [e, w1]
  simp only
  have hne : ph ≠ h := by rintro rfl; rw [hw] at hp; cases hp
  obtain ⟨z1, z2, z3, z4, z5⟩ := pool_recycle R.pool (R.held hw)
  have hph := z4 ph hh hne
  have hb : a''.blocks = a.blocks := Arch.blocks_congr (w2.trans S.comps)
  have hdec : (Q.set none (.live (.ent ph))).decode a.blocks = some (ph, d) :=
    decode_rename (ph := ph) t.decode t.rowOk (fun _ => Iff.rfl) (by intro b hb; rw [S.row b hb, t.row_eq])
  have hent : ∀ cj j, a''.entry cj j = if cj = nci ∧ j = nidx then some (ph, d)
      else if cj = l.chunk ∧ j = l.entry then none else a.entry cj j := by
    intro cj j
    unfold Arch.entry
    rw [hb, w5, hrow]
    by_cases hx : cj = nci ∧ j = nidx
    · simp only [if_pos hx, Option.bind_some]; exact hdec
    · simp only [if_neg hx]
      by_cases hy : cj = l.chunk ∧ j = l.entry
      · simp [if_pos hy]
      · simp [if_neg hy]
  -- the map of entities without the old entry
  obtain ⟨L1, H1, N1⟩ := L.erase R.holds (ent' := fun x => if x = l then none else slots r.archs.arches x)
    (lm' := (lm.del h.id).get) t.slot (fun _ => rfl) (fun _ => rfl)
  have L2 := L1.mono (p' := r.pool.recycle h) (k' := 0) fun x h' d' hx hh' => z4 h' hh' (N1 x h' d' hx)
  have hnone : (lm.del h.id).get ph.id = none := by
    cases hl : (lm.del h.id).get ph.id with
    | none => rfl
    | some x =>
      exfalso
      obtain ⟨h', d', q1, q2⟩ := L2.located _ _ hl
      have := held_inj (L2.stored _ _ _ q1).1 hph q2
      subst this
      have := (H1 h' d').1 ⟨x, q1⟩
      simp only [World.put, if_neg hne, hp] at this
      cases this
  have hslots : ∀ x, slots (s.arches.set ai a'') x = if x = ⟨some ai, nci, nidx⟩ then some (ph, d)
      else if x = l then none else slots r.archs.arches x := by
    intro x
    rw [hs, slots_set hai, hent, t.loc_eq]
    cases x with
    | mk xa xc xe =>
      simp only [Loc.mk.injEq]
      by_cases hx : xa = some ai
      · subst hx
        simp only [if_true, true_and]
        rw [slots_some t.get]
      · simp [hx]
  have hfr : (fun x => if x = l then none else slots r.archs.arches x) ⟨some ai, nci, nidx⟩ = none := by
    simp only
    rcases hfree with q | ⟨q1, q2⟩
    · split
      · rfl
      · rw [slots_some t.get]
        simp [Arch.entry, q]
    · rw [if_pos]
      rw [t.loc_eq, q1, q2]
  obtain ⟨L3, H3⟩ := L2.push H1 (ent' := slots (s.arches.set ai a'')) (d := d) (s := ⟨some ai, nci, nidx⟩) hph hnone hfr hslots
    (lm' := ((lm.del h.id).put ph.id ⟨some ai, nci, nidx⟩).get) (fun _ => rfl)
  have hgl := z1.gens_le
  have hsm := R.small
  obtain ⟨t2, h1, h2⟩ := setLoc_spec (r := (⟨r.pool.recycle h, { s with arches := s.arches.set ai a'' }, t1⟩ : Reg V))
    (n := (r.pool.recycle h).gens.length) hlm1 L2.bound (by omega) hph.lt ⟨some ai, nci, nidx⟩
  rw [h1]
  exact ⟨_, rfl, rfl, ⟨z1, by rw [z2]; exact R.small, ⟨m, A.setArch (by rw [hs]; exact t.get) (w2.trans S.comps) w4⟩, ⟨_, h2, L3⟩, H3⟩⟩

/-- The entry at the computed location is that of another entity. -/
theorem Rep.moveWithin_other (R : Rep ty r 0 W) (t : At r h d l ai a c row) (hw : W h = some d)
    (hm : a.moveSelf l.chunk l.entry = some (a', (nci, nidx), moved)) (S : a.SelfMoved l.chunk l.entry c a' nci nidx moved a1 oc Q)
    (hh : Held r.pool 0 ph) (hp : W ph = none)
    (hrow : ∀ cj j, a'.row? cj j = if cj = l.chunk ∧ j = l.entry then some Q else a.row? cj j)
    (hne : ¬ (nci = l.chunk ∧ nidx = l.entry)) {rw0 : Row V} (h0 : a.row? nci nidx = some rw0) :
    ∃ r' e, r.moveWithin h ph = .ok r' ph ∧ e ≠ h ∧ e ≠ ph ∧ W e ≠ none ∧ r'.pool = r.pool.recycle h ∧
      r'.location e = r'.location ph ∧ (∀ x, r'.get ph x = r.get e x) ∧ (∀ x, r'.get e x = r.get e x) := by
  obtain ⟨s, m, lm, t1, A, hs, hlm, hlm1, L, e⟩ := R.moveWithin_eq (ph := ph) t hm S
  have hai : ai < r.archs.arches.length := (List.getElem?_eq_some_iff.1 t.get).1
  have hr' : a'.row? nci nidx = some rw0 := by rw [hrow, if_neg hne, h0]
  obtain ⟨a'', w1, w2, w3, w4, w5, w6, w7⟩ := Arch.writeCell_assign S.ok hr' a'.none_mem_blocks (.ent ph) (.inl ⟨rfl, ph, rfl⟩)
  rw [e, w1]
  simp only
  have hneh : ph ≠ h := by rintro rfl; rw [hw] at hp; cases hp
  obtain ⟨z1, z2, z3, z4, z5⟩ := pool_recycle R.pool (R.held hw)
  have hph := z4 ph hh hneh
  have hgl := z1.gens_le
  have hsm := R.small
  obtain ⟨e0, d0, q1, q2, q3, q4⟩ := Row.decode_ok (t.ok.rows _ _ _ h0)
  have hslot : slots r.archs.arches ⟨some ai, nci, nidx⟩ = some (e0, d0) := by
    rw [slots_some t.get]
    simp [Arch.entry, h0, q1]
  have hwe : W e0 = some d0 := (R.holds e0 d0).1 ⟨_, hslot⟩
  have heh : e0 ≠ h := by
    rintro rfl
    have := (L.inj hslot t.slot).1
    rw [t.loc_eq] at this
    simp only [Loc.mk.injEq, true_and] at this
    exact hne this
  have hep : e0 ≠ ph := by rintro rfl; rw [hwe] at hp; cases hp
  obtain ⟨L1, H1, N1⟩ := L.erase R.holds (ent' := fun x => if x = l then none else slots r.archs.arches x)
    (lm' := (lm.del h.id).get) t.slot (fun _ => rfl) (fun _ => rfl)
  have L2 := L1.mono (p' := r.pool.recycle h) (k' := 0) fun x h' d' hx hh' => z4 h' hh' (N1 x h' d' hx)
  obtain ⟨t2, h1, h2⟩ := setLoc_spec (r := (⟨r.pool.recycle h, { s with arches := s.arches.set ai a'' }, t1⟩ : Reg V))
    (n := (r.pool.recycle h).gens.length) hlm1 L2.bound (by omega) hph.lt ⟨some ai, nci, nidx⟩
  rw [h1]
  have hhe := R.held hwe
  have hidn : e0.id ≠ ph.id := fun hid => hep (held_inj hhe hh hid)
  have hidh : e0.id ≠ h.id := fun hid => heh (held_inj hhe (R.held hw) hid)
  have hl1 : (⟨r.pool.recycle h, { s with arches := s.arches.set ai a'' }, t2⟩ : Reg V).location ph = .ok ⟨some ai, nci, nidx⟩ := by
    unfold Reg.location Reg.alive
    simp only [hph.alive, if_true, h2.at_, put_get]
  have hl2 : (⟨r.pool.recycle h, { s with arches := s.arches.set ai a'' }, t2⟩ : Reg V).location e0 = .ok ⟨some ai, nci, nidx⟩ := by
    unfold Reg.location Reg.alive
    simp only [(z4 e0 hhe heh).alive, if_true, h2.at_, put_get, del_get, if_neg hidn, if_neg hidh, (L.stored _ _ _ hslot).2]
  have hl3 : r.location e0 = .ok ⟨some ai, nci, nidx⟩ := by
    unfold Reg.location Reg.alive
    simp only [hhe.alive, if_true, hlm.at_, (L.stored _ _ _ hslot).2]
  have hbl : a''.blocks = a.blocks := Arch.blocks_congr (w2.trans S.comps)
  have hget : ∀ x, (⟨r.pool.recycle h, { s with arches := s.arches.set ai a'' }, t2⟩ : Reg V).get ph x = r.get e0 x ∧
      (⟨r.pool.recycle h, { s with arches := s.arches.set ai a'' }, t2⟩ : Reg V).get e0 x = r.get e0 x := by
    intro x
    unfold Reg.get Reg.rowOf
    rw [hl1, hl2, hl3]
    have hg : (s.arches.set ai a'')[ai]? = some a'' := by rw [hs]; simp [hai]
    simp only [Reg.archOf, hg, t.get, w5, if_true, and_self, h0, hbl]
    simp [Row.set_ne]
  exact ⟨_, e0, rfl, heh, hep, by rw [hwe]; simp, rfl, by rw [hl1, hl2], fun x => (hget x).1, fun x => (hget x).2⟩

end
end CoEcs
