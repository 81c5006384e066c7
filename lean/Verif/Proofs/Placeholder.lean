import Verif.Proofs.RepCopy
import Verif.Model.View

/-!
# Copies into handles that are not reserved
-/

namespace CoEcs
open Spec
variable {V : Type}

/-- An entry with components `d` has been stored at the free place `ln` under the handle `ph`, and the id of `ph` leads
there, whatever it led to before. -/
structure FilledAny (ty : Types) (q q' : Reg V) (W : Handle → Option (Comps V)) (ph : Handle) (d : Comps V) (ln : Loc) : Prop where
  pool : q'.pool = q.pool
  free : slots q.archs.arches ln = none
  slots : ∀ l, slots q'.archs.arches l = if l = ln then some (ph, d) else slots q.archs.arches l
  here : ∀ e, q.alive e = true → e.id = ph.id → q'.location e = .ok ln
  there : ∀ e, e.id ≠ ph.id → q'.location e = q.location e
  archs : ∃ m, ArchsRel ty q'.archs m
  used : (∃ e, e.id = ph.id ∧ W e ≠ none) → q'.size = q.size
  unused : (∀ e, e.id = ph.id → W e = none) → q'.size = q.size + 1

theorem Rep.pushAny {ty : Types} {q : Reg V} {k : Nat} {W : Handle → Option (Comps V)} (Q : Rep ty q k W) {ph : Handle}
    (hid : ph.id + 1 < U32) {di : Nat} {da da' : Arch V} (ha : q.archs.arches[di]? = some da) {ci idx : Nat} {row : Row V}
    (hp : da.Pushed ci idx row da') (hok : da'.Ok) {d : Comps V} (hd : row.decode da.blocks = some (ph, d)) :
    ∃ q', (q.setArch di da').setLoc ph.id ⟨some di, ci, idx⟩ = some q' ∧ FilledAny ty q q' W ph d ⟨some di, ci, idx⟩ := by
  obtain ⟨lm, hlm, L⟩ := Q.link
  obtain ⟨m, hm⟩ := Q.archs
  have hgl := Q.pool.gens_le
  have hsm := Q.small
  obtain ⟨tt, g1, g2⟩ := setLoc_spec (r := q.setArch di da') (n := max q.pool.gens.length (ph.id + 1)) (id := ph.id) hlm
    (fun id l h => Nat.lt_of_lt_of_le (L.bound id l h) (Nat.le_max_left ..)) (by omega) (by omega) ⟨some di, ci, idx⟩
  have hsize : tt.size = if (lm.get ph.id).isSome then q.locs.size else q.locs.size + 1 := by
    have e1 := g2.inv.size
    have e2 := hlm.inv.size
    have c1 := g2.count
    have c2 := hlm.count
    simp only [FinMap.put] at c1
    split at c1 <;> rename_i hs <;> simp only [hs, if_true, if_false, Bool.false_eq_true] <;> omega
  refine ⟨_, g1, rfl, slots_push_free ha hp, fun l => ?_, fun e he heid => ?_, fun e heid => ?_, ⟨m, hm.setArch ha hp.comps hok⟩, ?_, ?_⟩
  · simp only [Reg.setArch]
    rw [slots_set_push ha hp, hd]
  · unfold Reg.location Reg.alive
    have : q.pool.alive e = true := he
    simp only [Reg.setArch, this, if_true, g2.at_, put_get, heid]
  · unfold Reg.location Reg.alive
    simp only [Reg.setArch, g2.at_, put_get, if_neg heid, hlm.at_]
  · rintro ⟨e, he1, he2⟩
    cases hw : W e with
    | none => exact absurd hw he2
    | some d0 =>
      obtain ⟨l, hl⟩ := (Q.holds e d0).2 hw
      have := (L.stored _ _ _ hl).2
      rw [he1] at this
      show tt.size = q.locs.size
      rw [hsize, this]; simp
  · intro hn
    show tt.size = q.locs.size + 1
    have : lm.get ph.id = none := by
      cases hg : lm.get ph.id with
      | none => rfl
      | some l =>
        obtain ⟨e, d0, h1, h2⟩ := L.located _ _ hg
        have := (Q.holds e d0).1 ⟨l, h1⟩
        rw [hn e h2] at this
        cases this
    rw [hsize, this]; simp

theorem FilledAny.withArchs {ty : Types} {q q' : Reg V} {s : Archs V} {W : Handle → Option (Comps V)} {ph : Handle} {d : Comps V} {ln : Loc}
    (F : FilledAny ty { q with archs := s } q' W ph d ln) (hs : ∀ l, CoEcs.slots s.arches l = CoEcs.slots q.archs.arches l) :
    FilledAny ty q q' W ph d ln :=
  ⟨F.pool, by rw [← hs]; exact F.free, fun l => by rw [F.slots l]; simp only [hs], F.here, F.there, F.archs, F.used, F.unused⟩

/-- The copy of an entity into any handle, except those with the largest id. -/
theorem Rep.copyInto_any {ty : Types} {r q : Reg V} {k k' : Nat} {W W' : Handle → Option (Comps V)} (R : Rep ty r k W) (Q : Rep ty q k' W')
    {h : Handle} {d : Comps V} (hw : W h = some d) (hc : Copyable ty d) {ph : Handle} (hid : ph.id + 1 < U32) :
    ∃ q' ln, r.copyInto h q ph = .ok q' ph ∧ FilledAny ty q q' W' ph d ln := by
  obtain ⟨a, row, h1, hok, h3, hrow, l, ai, c, t⟩ := R.rowOf hw
  obtain ⟨m, hm⟩ := R.archs
  obtain ⟨mq, hmq⟩ := Q.archs
  obtain ⟨d1, d2, d3⟩ := Row.decode_some h3 hrow
  unfold Reg.copyInto Reg.receive
  simp only [h1]
  rcases ensureSet_spec hmq hok.inv (hm.typed ai a t.get) with ⟨s, m', di, da, e1, e2⟩ | ⟨s, m', e1, e2⟩
  · simp only [e1, e2.arch]
    have hdok := e2.rel.ok di da e2.arch
    have hbl : ∀ b, b ∈ da.blocks ↔ b ∈ a.blocks := by
      intro b
      cases b with
      | none => simp [Arch.none_mem_blocks]
      | some x => rw [Arch.blocks_of_set hdok.inv hok.inv e2.set, Arch.some_mem_blocks]
    have hcp : ∀ mt ∈ a.comps.metas, mt.copyable = true := by
      intro mt hmt
      have hmem : some mt.id ∈ a.blocks := (a.some_mem_blocks _).2 (List.mem_map_of_mem hmt)
      obtain ⟨v, hv, _⟩ := d2 _ hmem
      rw [hm.typed ai a t.get mt hmt]
      exact hc _ v hv
    obtain ⟨da', ci, idx, R', q1, q2, q3, q4, q5⟩ := Arch.copyFrom_ok hdok hok hrow (fun b => (hbl b).symm) hcp
    obtain ⟨da'', p1, p2, p3, p4⟩ := q3.rename q2 ph
    obtain ⟨q', y1, F⟩ := (Q.withArchs e2.rel e2.slots).pushAny (ph := ph) hid e2.arch p3 p2 (decode_rename h3 hrow hbl q4)
    simp only [q1, p1, y1]
    exact ⟨q', _, rfl, F.withArchs e2.slots⟩
  · exact absurd e2.large (hm.fits ai a t.get)

/-- The same for the move of an entity to another registry. -/
theorem Rep.moveInto_any {ty : Types} {r q : Reg V} {k' : Nat} {W W' : Handle → Option (Comps V)} (R : Rep ty r 0 W) (Q : Rep ty q k' W')
    {h : Handle} {d : Comps V} (hw : W h = some d) {ph : Handle} (hid : ph.id + 1 < U32) :
    (r.moveInto h q ph = .ub ∧ ∃ (i : Nat) (a : Arch V), r.archs.arches[i]? = some a ∧ ¬ a.LastOk) ∨
    (∃ r' q' ln, r.moveInto h q ph = .ok (r', q') ph ∧ FilledAny ty q q' W' ph d ln) := by
  obtain ⟨l, ai, a, c, row, t⟩ := R.at_ hw
  obtain ⟨m, hm⟩ := R.archs
  obtain ⟨mq, hmq⟩ := Q.archs
  unfold Reg.moveInto
  simp only [t.loc, t.archOf]
  rcases ensureSet_spec hmq t.ok.inv (hm.typed ai a t.get) with ⟨s, m', di, da, e1, e2⟩ | ⟨s, m', e1, e2⟩
  · simp only [e1, e2.arch]
    by_cases hsafe : a.Safe l.chunk l.entry
    · right
      have hdok := e2.rel.ok di da e2.arch
      have hbl : ∀ b, b ∈ da.blocks ↔ b ∈ a.blocks := by
        intro b
        cases b with
        | none => simp [Arch.none_mem_blocks]
        | some x => rw [Arch.blocks_of_set hdok.inv t.ok.inv e2.set, Arch.some_mem_blocks]
      obtain ⟨a', da', ci, idx, moved, o1, oc, Rr, tl, h1, h2, h3, h4, h5, h6, h7, h8⟩ :=
        Arch.move_spec t.ok hdok t.chunk t.lt (hsafe c t.chunk)
      rw [← t.row_eq] at h8
      obtain ⟨w1, w2, w3, w4⟩ := h8.sub t.rowOk (fun b hb => (hbl b).1 hb)
      obtain ⟨da'', p1, p2, p3, p4⟩ := w2.rename w1 ph
      obtain ⟨q', y1, F⟩ := (Q.withArchs e2.rel e2.slots).pushAny (ph := ph) hid e2.arch p3 p2 (decode_rename t.decode t.rowOk hbl w3)
      obtain ⟨lm, hlm, L⟩ := R.link
      obtain ⟨r1, t2, lm2, x1, x2, x0, x3, x4, x5, x6⟩ := erase_locs R.pool R.small hlm L R.holds t h5 h2
      simp only [h1, x1, x0, if_false, x2, p1, y1]
      exact ⟨_, q', _, rfl, F.withArchs e2.slots⟩
    · left
      rw [Arch.Safe.move_ub hsafe]
      exact ⟨rfl, ai, a, t.get, fun hl => hsafe (hl.safe' _ _)⟩
  · exact absurd e2.large (hm.fits ai a t.get)

/-- What is behind a location that holds an entry, whatever handle the entry names. -/
theorem slot_row {ty : Types} {q : Reg V} {m : KeyMap Bitset (Option Nat)} (hm : ArchsRel ty q.archs m) {l : Loc} {h : Handle} {d : Comps V}
    (hs : slots q.archs.arches l = some (h, d)) :
    ∃ ai a row, q.archOf l = some (ai, a) ∧ a.row? l.chunk l.entry = some row ∧ row.decode a.blocks = some (h, d) ∧
      RowOk a.blocks row ∧ none ∈ a.blocks := by
  unfold slots at hs
  split at hs
  · cases hs
  · rename_i ai hai
    split at hs
    · cases hs
    · rename_i a ha
      unfold Arch.entry at hs
      rw [Option.bind_eq_some_iff] at hs
      obtain ⟨row, q1, q2⟩ := hs
      exact ⟨ai, a, row, by simp [Reg.archOf, hai, ha], q1, q2, (hm.ok ai a ha).rows _ _ _ q1, a.none_mem_blocks⟩

theorem get_slot {ty : Types} {q : Reg V} {m : KeyMap Bitset (Option Nat)} (hm : ArchsRel ty q.archs m) {l : Loc} {e h : Handle} {d : Comps V}
    (hl : q.location e = .ok l) (hs : slots q.archs.arches l = some (h, d)) (x : Nat) : q.get e x =
      match d x with
      | none => .throw .componentNotFound
      | some v => .ok v := by
  obtain ⟨ai, a, row, h1, h2, h3, h4, _⟩ := slot_row hm hs
  obtain ⟨d1, d2, d3⟩ := Row.decode_some h3 h4
  simp only [Reg.get, Reg.rowOf, hl, h1, h2]
  by_cases hb : some x ∈ a.blocks
  · obtain ⟨v, p1, p2⟩ := d2 x hb
    simp [hb, p1, p2, Cell.read]
  · simp [hb, d3 x hb]

theorem tupleAt_slot {ty : Types} {q : Reg V} {m : KeyMap Bitset (Option Nat)} (hm : ArchsRel ty q.archs m) {l : Loc} {h : Handle} {d : Comps V}
    (hs : slots q.archs.arches l = some (h, d)) : q.tupleAt [none] l = .ok [.ent h] := by
  obtain ⟨ai, a, row, h1, h2, h3, h4, h5⟩ := slot_row hm hs
  obtain ⟨d1, _⟩ := Row.decode_some h3 h4
  simp [Reg.tupleAt, h1, h2, Reg.fetch, h5, d1, Cell.read]

end CoEcs
