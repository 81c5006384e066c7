import Verif.Model.ViewChange
import Verif.Proofs.ViewSpec
import Verif.Proofs.Growth

/-!
# Iterating while the callback changes the registry
-/

namespace CoEcs
open Spec
variable {V : Type}

/-! ### Changes a view does not see -/

/-- The registry `r'` differs from `r` only outside the archetypes the view looks at. -/
structure Still (args : List BlockId) (r r' : Reg V) : Prop where
  map : r'.archs.map = r.archs.map
  arch : ∀ (ai : Nat) (a : Arch V), r.archs.arches[ai]? = some a →
    ∃ a' : Arch V, r'.archs.arches[ai]? = some a' ∧ a'.comps = a.comps ∧ (args.all (Reg.matchArg a) = true → a' = a)

theorem Still.refl (args : List BlockId) (r : Reg V) : Still args r r := ⟨rfl, fun _ a h => ⟨a, h, rfl, fun _ => rfl⟩⟩

theorem matchArg_congr {a a' : Arch V} (h : a'.comps = a.comps) : Reg.matchArg a' = Reg.matchArg a := by
  funext b
  cases b with
  | none => rfl
  | some c => simp [Reg.matchArg, Arch.contains, h]

theorem Still.trans {args : List BlockId} {r r1 r2 : Reg V} (h : Still args r r1) (h' : Still args r1 r2) : Still args r r2 := by
  refine ⟨h'.map.trans h.map, fun ai a ha => ?_⟩
  obtain ⟨a1, e1, e2, e3⟩ := h.arch ai a ha
  obtain ⟨a2, f1, f2, f3⟩ := h'.arch ai a1 e1
  refine ⟨a2, f1, f2.trans e2, fun hm => ?_⟩
  rw [f3 (by rw [matchArg_congr e2]; exact hm), e3 hm]

/-- The operations succeed one after the other and stay outside what the view of `r0` looks at. -/
inductive StillRun (args : List BlockId) (r0 : Reg V) : Reg V → List (Reg.Act V) → Reg V → Prop
  | nil (r) : StillRun args r0 r [] r
  | cons {r r1 r' : Reg V} {s : Reg.Act V} {ss : List (Reg.Act V)} :
      s r = .ok r1 () → Still args r0 r1 → StillRun args r0 r1 ss r' → StillRun args r0 r (s :: ss) r'

theorem StillRun.still {args : List BlockId} {r0 r r' : Reg V} {ss : List (Reg.Act V)} (h : StillRun args r0 r ss r')
    (hs : Still args r0 r) : Still args r0 r' := by
  induction h with
  | nil => exact hs
  | cons _ h1 _ ih => exact ih h1

theorem StillRun.split {args : List BlockId} {r0 : Reg V} : ∀ {l1 l2 : List (Reg.Act V)} {r r' : Reg V},
    StillRun args r0 r (l1 ++ l2) r' → ∃ rm, StillRun args r0 r l1 rm ∧ StillRun args r0 rm l2 r'
  | [], _, r, _, h => ⟨r, .nil r, h⟩
  | _ :: _, _, _, _, .cons e h1 h2 => by
    obtain ⟨rm, g1, g2⟩ := h2.split
    exact ⟨rm, .cons e h1 g1, g2⟩

theorem Still.chunkCount {args : List BlockId} {r0 r : Reg V} (h : Still args r0 r) {ai : Nat} {a : Arch V}
    (ha : r0.archs.arches[ai]? = some a) (hm : args.all (Reg.matchArg a) = true) : r.chunkCount ai = a.chunks.length := by
  obtain ⟨a', e1, _, e3⟩ := h.arch ai a ha
  simp [Reg.chunkCount, e1, e3 hm]

theorem acts_still {args : List BlockId} {r0 : Reg V} {ai : Nat} {a : Arch V} (ha : r0.archs.arches[ai]? = some a)
    (hm : args.all (Reg.matchArg a) = true) {r r' : Reg V} {ss : List (Reg.Act V)} (h : StillRun args r0 r ss r')
    (hs : Still args r0 r) : Reg.acts ai r true ss = .ok (r', true) () := by
  induction h with
  | nil => rfl
  | cons e h1 _ ih =>
    simp only [Reg.acts, e, h1.chunkCount ha hm, hs.chunkCount ha hm, Nat.le_refl, decide_true, Bool.and_true]
    exact ih h1

theorem Still.tupleAt {args : List BlockId} {r0 r : Reg V} (h : Still args r0 r) {ai : Nat} {a : Arch V}
    (ha : r0.archs.arches[ai]? = some a) (hm : args.all (Reg.matchArg a) = true) (ci i : Nat) :
    r.tupleAt args ⟨some ai, ci, i⟩ = r0.tupleAt args ⟨some ai, ci, i⟩ := by
  obtain ⟨a', e1, _, e3⟩ := h.arch ai a ha
  rw [e3 hm] at e1
  simp [Reg.tupleAt, Reg.archOf, e1, ha]

theorem rowsFrom_still {args : List BlockId} {cb : List (Val V) → List (Reg.Act V)} {r0 : Reg V} {ai : Nat} {a : Arch V}
    (ha : r0.archs.arches[ai]? = some a) (hm : args.all (Reg.matchArg a) = true) (ci : Nat) :
    ∀ (k i : Nat) {r r' : Reg V} {ts : List (List (Val V))},
    ((List.range' i k).map fun j => r0.tupleAt args ⟨some ai, ci, j⟩) = ts.map Obs.ok →
    Still args r0 r → StillRun args r0 r (ts.flatMap cb) r' → Reg.rowsFrom args cb ai ci k i r true = .ok (r', true) ts
  | 0, i, r, r', ts, ht, _, hr => by
    cases ts with
    | nil => cases hr; rfl
    | cons t ts => simp at ht
  | k + 1, i, r, r', ts, ht, hs, hr => by
    cases ts with
    | nil => simp [List.range'_succ] at ht
    | cons t ts =>
      simp only [List.range'_succ, List.map_cons, List.cons.injEq] at ht
      rw [List.flatMap_cons] at hr
      obtain ⟨rm, g1, g2⟩ := hr.split
      have g3 := g1.still hs
      simp only [Reg.rowsFrom, hs.tupleAt ha hm, ht.1, acts_still ha hm g1 hs, rowsFrom_still ha hm ci k (i + 1) ht.2 g3 g2]

theorem Still.bucketIs {args : List BlockId} {r0 r : Reg V} (h : Still args r0 r) {p ai : Nat} {e : HEntry Bitset (Option Nat)}
    (hp : r0.archs.map.slot? p = some (some e)) (he : e.val = some ai) : r.bucketIs r0.archs.map.n p ai = true := by
  simp [Reg.bucketIs, h.map, hp, he]

/-- The tuples of the chunks of an archetype from chunk `ci` on. -/
theorem chunksFrom_still {args : List BlockId} {cb : List (Val V) → List (Reg.Act V)} {r0 : Reg V} {ai p : Nat} {a : Arch V}
    {e : HEntry Bitset (Option Nat)} (ha : r0.archs.arches[ai]? = some a) (hm : args.all (Reg.matchArg a) = true)
    (hp : r0.archs.map.slot? p = some (some e)) (he : e.val = some ai) :
    ∀ (k ci : Nat) {r r' : Reg V} {ts : List (List (Val V))}, ci + k + 1 = a.chunks.length →
    (((Reg.chunkLocs ai a).drop ci).flatten.map (r0.tupleAt args)) = ts.map Obs.ok →
    Still args r0 r → StillRun args r0 r (ts.flatMap cb) r' →
    Reg.chunksFrom args cb r0.archs.map.n p ai (k + 1) ci r true = .ok r' ts := by
  have hdrop : ∀ ci (c : Chunk V), a.chunks[ci]? = some c → (Reg.chunkLocs ai a).drop ci =
      ((List.range c.size).map fun i => (⟨some ai, ci, i⟩ : Loc)) :: (Reg.chunkLocs ai a).drop (ci + 1) := by
    intro ci c hc
    obtain ⟨hlt, hc⟩ := List.getElem?_eq_some_iff.1 hc
    rw [List.drop_eq_getElem_cons (by simpa [Reg.chunkLocs] using hlt)]
    congr 1
    simp [Reg.chunkLocs, hc]
  have split : ∀ (l1 l2 : List Loc) (ts : List (List (Val V))), (l1 ++ l2).map (r0.tupleAt args) = ts.map Obs.ok →
      ∃ t1 t2, ts = t1 ++ t2 ∧ l1.map (r0.tupleAt args) = t1.map Obs.ok ∧ l2.map (r0.tupleAt args) = t2.map Obs.ok := by
    intro l1 l2 ts h
    refine ⟨ts.take l1.length, ts.drop l1.length, (List.take_append_drop _ _).symm, ?_, ?_⟩
    · rw [List.map_take, ← h]; simp
    · rw [List.map_drop, ← h]; simp
  intro k
  induction k with
  | zero =>
    intro ci r r' ts hci ht hs hr
    obtain ⟨c, hc⟩ : ∃ c, a.chunks[ci]? = some c := ⟨_, List.getElem?_eq_getElem (by omega)⟩
    obtain ⟨a', e1, e2, e3⟩ := hs.arch ai a ha
    rw [e3 hm] at e1
    rw [hdrop ci c hc, List.flatten_cons] at ht
    obtain ⟨t1, t2, rfl, h1, h2⟩ := split _ _ _ ht
    rw [List.flatMap_append] at hr
    obtain ⟨rm, g1, g2⟩ := hr.split
    have hnil : t2 = [] := by
      have : (Reg.chunkLocs ai a).drop (ci + 1) = [] := by
        rw [List.drop_eq_nil_iff]; simp [Reg.chunkLocs]; omega
      rw [this] at h2
      simpa using h2.symm
    subst hnil
    cases g2
    have g3 := g1.still hs
    have hrow := rowsFrom_still ha hm ci c.size 0 (by rw [← h1, List.map_map, ← List.range_eq_range']; rfl) hs g1
    unfold Reg.chunksFrom
    simp only [e1, hc, hrow, g3.bucketIs hp he, g3.chunkCount ha hm, Bool.true_and]
    rw [if_pos (by simp; omega), if_pos (by omega)]
    simp
  | succ k ih =>
    intro ci r r' ts hci ht hs hr
    obtain ⟨c, hc⟩ : ∃ c, a.chunks[ci]? = some c := ⟨_, List.getElem?_eq_getElem (by omega)⟩
    obtain ⟨a', e1, e2, e3⟩ := hs.arch ai a ha
    rw [e3 hm] at e1
    rw [hdrop ci c hc, List.flatten_cons] at ht
    obtain ⟨t1, t2, rfl, h1, h2⟩ := split _ _ _ ht
    rw [List.flatMap_append] at hr
    obtain ⟨rm, g1, g2⟩ := hr.split
    have g3 := g1.still hs
    have hrow := rowsFrom_still ha hm ci c.size 0 (by rw [← h1, List.map_map, ← List.range_eq_range']; rfl) hs g1
    unfold Reg.chunksFrom
    simp only [e1, hc, hrow, g3.bucketIs hp he, g3.chunkCount ha hm, Bool.true_and]
    rw [if_pos (by simp; omega), if_neg (by omega), ih (ci + 1) (by omega) h2 g3 g2]

theorem bucketsFrom_still {args : List BlockId} {cb : List (Val V) → List (Reg.Act V)} {r0 : Reg V}
    (hn : r0.archs.map.n ≤ r0.archs.map.slots.length) :
    ∀ (k p : Nat) {r r' : Reg V} {cs : List (List Loc)} {ts : List (List (Val V))}, p + k = r0.archs.map.n →
    r0.viewChunksOf args (((((r0.archs.map.slots.take r0.archs.map.n).drop p)).filterMap id).map HEntry.val) = some cs →
    cs.flatten.map (r0.tupleAt args) = ts.map Obs.ok →
    Still args r0 r → StillRun args r0 r (ts.flatMap cb) r' →
    Reg.bucketsFrom args cb r0.archs.map.n k p r = .ok r' ts := by
  intro k
  induction k with
  | zero =>
    intro p r r' cs ts hp hv ht hs hr
    have : (r0.archs.map.slots.take r0.archs.map.n).drop p = [] := by
      rw [List.drop_eq_nil_iff]; simp; omega
    rw [this] at hv
    cases hv
    have : ts = [] := by simpa using ht.symm
    subst this
    cases hr
    rfl
  | succ k ih =>
    intro p r r' cs ts hp hv ht hs hr
    have hlt : p < (r0.archs.map.slots.take r0.archs.map.n).length := by simp; omega
    have hslot : r0.archs.map.slot? p = some (r0.archs.map.slots[p]'(by omega)) := by
      unfold HTable.slot?
      rw [if_pos (by omega), List.getElem?_eq_getElem]
    rw [List.drop_eq_getElem_cons hlt, List.getElem_take] at hv
    unfold Reg.bucketsFrom
    rw [hs.map, hslot]
    cases hx : r0.archs.map.slots[p]'(by omega) with
    | none =>
      rw [hx] at hv
      simp only [List.filterMap_cons, id_eq] at hv
      exact ih (p + 1) (by omega) hv ht hs hr
    | some e =>
      rw [hx] at hv hslot
      simp only [List.filterMap_cons, id_eq, List.map_cons] at hv
      cases hval : e.val with
      | none => rw [hval] at hv; cases hv
      | some ai =>
        rw [hval] at hv
        unfold Reg.viewChunksOf at hv
        cases ha : r0.archs.arches[ai]? with
        | none => simp [ha] at hv
        | some a =>
          obtain ⟨a', e1, e2, e3⟩ := hs.arch ai a ha
          simp only [ha] at hv
          simp only [hval, e1, matchArg_congr e2]
          split at hv
          · cases hv
          rename_i rest hrest
          cases hv
          by_cases hm : args.all (Reg.matchArg a) = true
          · have := e3 hm
            subst this
            rw [if_pos hm, List.flatten_append] at ht
            by_cases hl : a'.chunks.length = 0
            · have hnil : a'.chunks = [] := List.length_eq_zero_iff.1 hl
              simp only [Reg.chunkLocs, hnil, List.mapIdx_nil, List.flatten_nil, List.nil_append] at ht
              simp only [hm, hl, ne_eq, not_true, decide_false, Bool.and_false, Bool.false_eq_true, if_false]
              exact ih (p + 1) (by omega) hrest ht hs hr
            · obtain ⟨t1, t2, rfl, h1, h2⟩ : ∃ t1 t2, ts = t1 ++ t2 ∧ (Reg.chunkLocs ai a').flatten.map (r0.tupleAt args) = t1.map Obs.ok ∧
                  rest.flatten.map (r0.tupleAt args) = t2.map Obs.ok := by
                refine ⟨ts.take (Reg.chunkLocs ai a').flatten.length, ts.drop (Reg.chunkLocs ai a').flatten.length,
                  (List.take_append_drop _ _).symm, ?_, ?_⟩
                · rw [List.map_take, ← ht]; simp only [List.map_append]; rw [List.take_left' (List.length_map _)]
                · rw [List.map_drop, ← ht]; simp only [List.map_append]; rw [List.drop_left' (List.length_map _)]
              rw [List.flatMap_append] at hr
              obtain ⟨rm, g1, g2⟩ := hr.split
              have g3 := g1.still hs
              have hc := chunksFrom_still ha hm hslot hval (a'.chunks.length - 1) 0 (by omega) (by simpa using h1) hs g1
              rw [Nat.sub_add_cancel (by omega)] at hc
              simp only [hm, hl, ne_eq, not_false_eq_true, decide_true, Bool.and_true, if_true, hc]
              rw [ih (p + 1) (by omega) hrest h2 g3 g2]
          · rw [if_neg hm] at ht
            simp only [hm, Bool.false_and, Bool.false_eq_true, if_false]
            exact ih (p + 1) (by omega) hrest ht hs hr

/-- If what the callbacks do one after the other succeeds and is not seen by the view, the iteration visits
what it would have visited anyway and leaves the registry as those operations do. -/
theorem eachActing_still {args : List BlockId} {cb : List (Val V) → List (Reg.Act V)} {r r' : Reg V} {cs : List (List Loc)}
    {ts : List (List (Val V))} (hv : r.viewChunks args = some cs) (ht : cs.flatten.map (r.tupleAt args) = ts.map Obs.ok)
    (hr : StillRun args r r (ts.flatMap cb) r') : r.eachActing args cb = .ok r' ts := by
  unfold Reg.viewChunks Reg.viewPtrs HTable.entries at hv
  split at hv
  · cases hv
  rename_i ps hps
  split at hps
  · rename_i es hes
    split at hes
    · rename_i hn
      cases hes
      cases hps
      exact bucketsFrom_still hn _ 0 (by omega) (by simpa using hv) ht (.refl _ _) hr
    · cases hes
  · cases hps

/-! ### Destroying entities from the callback -/

/-- What `destroy` does to the archetypes. -/
theorem destroy_archs {r r' : Reg V} {h : Handle} (hc : r.destroy h = .ok r' ()) {d : Comps V} {l : Loc} {ai : Nat} {a : Arch V} {c : Chunk V}
    {row : Row V} (t : At r h d l ai a c row) :
    ∃ a' m, a.swapErase l.chunk l.entry = some (a', m) ∧ r'.archs.map = r.archs.map ∧ r'.archs.arches = r.archs.arches.set ai a' := by
  unfold Reg.destroy at hc
  simp only [t.loc, t.archOf] at hc
  split at hc
  · cases hc
  · rename_i a' m hs
    split at hc
    · cases hc
    · rename_i r1 h1
      split at hc
      · cases hc
      · rename_i r2 h2
        cases hc
        refine ⟨a', m, hs, ?_, ?_⟩ <;> (simp only; rw [Reg.setMoved_archs h2, Reg.removeLoc_archs h1]; rfl)

/-- A destruction that succeeds: which entity, which archetype, which sizes are left. -/
theorem Rep.destroyed {ty : Types} {r r' : Reg V} {W : Handle → Option (Comps V)} (R : Rep ty r 0 W) {h : Handle}
    (hd : r.destroy h = .ok r' ()) : ∃ d l ai a c row a', W h = some d ∧ At r h d l ai a c row ∧ Rep ty r' 0 (World.put W h none) ∧
      r'.archs.map = r.archs.map ∧ r'.archs.arches = r.archs.arches.set ai a' ∧ a'.comps = a.comps ∧
      a'.chunks.map Chunk.size = Arch.eraseSizes (a.chunks.map Chunk.size) l.chunk l.entry := by
  cases hw : W h with
  | none => rw [R.destroy_none hw] at hd; cases hd
  | some d =>
    obtain ⟨l, ai, a, c, row, t⟩ := R.at_ hw
    obtain ⟨a', m, e1, e2, e3⟩ := destroy_archs hd t
    rcases R.destroy hw with ⟨hu, _⟩ | ⟨r1, h1, _, R1, _, _⟩
    · rw [hd] at hu; cases hu
    · rw [hd] at h1; cases h1
      by_cases hsafe : a.Safe l.chunk l.entry
      · obtain ⟨a2, m2, u1, u2, u3, u4, u5, u6, u7⟩ := Arch.swapErase_spec (t.ok.but _ _) t.chunk t.lt (hsafe c t.chunk)
        rw [e1] at u1
        cases u1
        exact ⟨d, l, ai, a, c, row, a', rfl, t, R1, e2, e3, u2, u7⟩
      · exfalso
        rw [Arch.Safe.swapErase_ub hsafe] at e1
        cases e1

/-- Destroying an entity that does not match is not seen by the view. -/
theorem Rep.destroy_still {ty : Types} {r r' : Reg V} {W : Handle → Option (Comps V)} (R : Rep ty r 0 W) {h : Handle} {args : List BlockId}
    (hd : r.destroy h = .ok r' ()) (hn : ∀ d, W h = some d → ¬ Matches args d) : Still args r r' ∧ Rep ty r' 0 (World.put W h none) := by
  obtain ⟨d, l, ai, a, c, row, a', hw, t, R1, e1, e2, e3, _⟩ := R.destroyed hd
  refine ⟨⟨e1, fun aj b hb => ?_⟩, R1⟩
  rw [e2, List.getElem?_set]
  have hlt := (List.getElem?_eq_some_iff.1 t.get).1
  by_cases hj : ai = aj
  · subst hj
    rw [t.get] at hb; cases hb
    rw [if_pos rfl, if_pos hlt]
    refine ⟨a', rfl, e3, fun hm => absurd ((matchArg_all t.ok t.decode t.rowOk args).1 hm) (hn d hw)⟩
  · rw [if_neg hj]
    exact ⟨b, hb, rfl, fun _ => rfl⟩

/-- The entry of an archetype a view looks at. -/
theorem Rep.entry {ty : Types} {r : Reg V} {k : Nat} {W : Handle → Option (Comps V)} (R : Rep ty r k W) {ai : Nat} {a : Arch V}
    (ha : r.archs.arches[ai]? = some a) {ci i : Nat} {c : Chunk V} (hc : a.chunks[ci]? = some c) (hi : i < c.size) :
    ∃ h d, W h = some d ∧ At r h d ⟨some ai, ci, i⟩ ai a c (c.rows i) := by
  obtain ⟨m, hm⟩ := R.archs
  have hok := hm.ok ai a ha
  have hrow : a.row? ci i = some (c.rows i) := (Arch.row?_eq_some hok.toShape).2 ⟨c, hc, hi, rfl⟩
  have hrok := hok.rows _ _ _ hrow
  obtain ⟨h, d, hd, _⟩ := Row.decode_ok hrok
  have hl : slots r.archs.arches ⟨some ai, ci, i⟩ = some (h, d) := by
    rw [slots_some ha]; simp [Arch.entry, hrow, hd]
  obtain ⟨ai', a', c', row', t⟩ := R.at_slot hl
  have := t.arch
  cases this
  have := t.get
  rw [ha] at this; cases this
  have := t.chunk
  simp only at this
  rw [hc] at this; cases this
  have := t.row_eq
  simp only at this
  subst this
  exact ⟨h, d, (R.holds h d).1 ⟨_, hl⟩, t⟩

/-- The arguments of the call for an entry of a matching archetype. -/
theorem Rep.tupleAt_ent {ty : Types} {r : Reg V} {k : Nat} {W : Handle → Option (Comps V)} (R : Rep ty r k W) {ai : Nat} {a : Arch V}
    {bs : List BlockId} (ha : r.archs.arches[ai]? = some a) (hm : (none :: bs : List BlockId).all (Reg.matchArg a) = true) (ci i : Nat) :
    (r.tupleAt (none :: bs) ⟨some ai, ci, i⟩ = .ub) ∨
    ∃ h d c t, r.tupleAt (none :: bs) ⟨some ai, ci, i⟩ = .ok (.ent h :: t) ∧ W h = some d ∧ a.chunks[ci]? = some c ∧ i < c.size ∧
      At r h d ⟨some ai, ci, i⟩ ai a c (c.rows i) := by
  cases hc : a.chunks[ci]? with
  | none => left; simp [Reg.tupleAt, Reg.archOf, ha, Arch.row?, hc]
  | some c =>
    by_cases hi : i < c.size
    · right
      obtain ⟨h, d, hw, t⟩ := R.entry ha hc hi
      have hmt := (matchArg_all t.ok t.decode t.rowOk _).1 hm
      obtain ⟨x, hx⟩ := hmt.tuple (h := h)
      have hx' := hx
      simp only [tupleOf, Option.map_eq_some_iff] at hx'
      obtain ⟨x', _, rfl⟩ := hx'
      exact ⟨h, d, c, x', t.tupleAt hx, hw, rfl, hi, t⟩
    · left
      simp [Reg.tupleAt, Reg.archOf, ha, Arch.row?, hc, hi]

/-- Only archetype `ai` has changed. -/
structure OnlyArch (ai : Nat) (r r' : Reg V) : Prop where
  map : r'.archs.map = r.archs.map
  other : ∀ j, j ≠ ai → r'.archs.arches[j]? = r.archs.arches[j]?
  comps : ∀ a : Arch V, r.archs.arches[ai]? = some a → ∃ a' : Arch V, r'.archs.arches[ai]? = some a' ∧ a'.comps = a.comps

theorem OnlyArch.refl (ai : Nat) (r : Reg V) : OnlyArch ai r r := ⟨rfl, fun _ _ => rfl, fun a h => ⟨a, h, rfl⟩⟩

theorem OnlyArch.trans {ai : Nat} {r r1 r2 : Reg V} (h : OnlyArch ai r r1) (h' : OnlyArch ai r1 r2) : OnlyArch ai r r2 := by
  refine ⟨h'.map.trans h.map, fun j hj => (h'.other j hj).trans (h.other j hj), fun a ha => ?_⟩
  obtain ⟨a1, e1, e2⟩ := h.comps a ha
  obtain ⟨a2, f1, f2⟩ := h'.comps a1 e1
  exact ⟨a2, f1, f2.trans e2⟩

/-- Destroying the visited entity succeeds or is undefined. -/
theorem Rep.visit_destroy {ty : Types} {r : Reg V} {W : Handle → Option (Comps V)} (R : Rep ty r 0 W) {h : Handle} {d : Comps V} {l : Loc}
    {ai : Nat} {a : Arch V} {c : Chunk V} {row : Row V} (hw : W h = some d) (t : At r h d l ai a c row) :
    r.destroy h = .ub ∨ ∃ r' W' a', r.destroy h = .ok r' () ∧ Rep ty r' 0 W' ∧ OnlyArch ai r r' ∧ r'.archs.arches[ai]? = some a' ∧
      a'.comps = a.comps ∧ a'.chunks.map Chunk.size = Arch.eraseSizes (a.chunks.map Chunk.size) l.chunk l.entry := by
  rcases R.destroy hw with ⟨hu, _⟩ | ⟨r1, h1, _, _, _, _⟩
  · exact .inl hu
  · right
    obtain ⟨d', l', ai', b, c', row', a', hw', t', R1, e1, e2, e3, e4⟩ := R.destroyed h1
    have := t.loc
    rw [t'.loc] at this
    cases this
    have := t.arch
    rw [t'.arch] at this
    cases this
    have hg := t.get
    rw [t'.get] at hg
    cases hg
    have hlt := (List.getElem?_eq_some_iff.1 t.get).1
    have hget : r1.archs.arches[ai]? = some a' := by rw [e2, List.getElem?_set, if_pos rfl, if_pos hlt]
    refine ⟨r1, _, a', h1, R1, ⟨e1, fun j hj => ?_, fun b hb => ?_⟩, hget, e3, e4⟩
    · rw [e2, List.getElem?_set, if_neg (Ne.symm hj)]
    · rw [t.get] at hb; cases hb
      exact ⟨a', hget, e3⟩

/-- The inner loop, the callback destroying the visited entity. -/
theorem rowsFrom_destroy {ty : Types} {bs : List BlockId} {ai ci : Nat} : ∀ (k i : Nat) {r : Reg V} {W : Handle → Option (Comps V)} {v : Bool}
    {a : Arch V}, Rep ty r 0 W → r.archs.arches[ai]? = some a → (none :: bs : List BlockId).all (Reg.matchArg a) = true →
    match Reg.rowsFrom (none :: bs) Reg.destroyVisited ai ci k i r v with
    | .ub => True
    | .throw _ _ => False
    | .ok (r', _) _ => (∃ W', Rep ty r' 0 W') ∧ OnlyArch ai r r'
  | 0, i, r, W, v, a, R, ha, hm => ⟨⟨W, R⟩, .refl _ _⟩
  | k + 1, i, r, W, v, a, R, ha, hm => by
    unfold Reg.rowsFrom
    rcases R.tupleAt_ent ha hm ci i with hu | ⟨h, d, c, t, ht, hw, hc, hi, hat⟩
    · simp [hu]
    · rw [ht]
      simp only [Reg.destroyVisited, Reg.acts]
      rcases R.visit_destroy hw hat with hu | ⟨r', W', a', h1, R', o, ha', hcm, _⟩
      · simp [hu]
      · rw [h1]
        simp only
        have ih := rowsFrom_destroy k (i + 1) (ci := ci) (bs := bs) (v := v && decide (r'.chunkCount ai ≤ r.chunkCount ai)) R' ha'
          (by rw [matchArg_congr hcm]; exact hm)
        revert ih
        cases Reg.rowsFrom (none :: bs) Reg.destroyVisited ai ci k (i + 1) r' (v && decide (r'.chunkCount ai ≤ r.chunkCount ai)) with
        | ub => simp
        | throw s e => simp
        | ok s ts => exact fun ih => ⟨ih.1, o.trans ih.2⟩

theorem chunksFrom_destroy {ty : Types} {bs : List BlockId} {n p ai : Nat} : ∀ (k ci : Nat) {r : Reg V} {W : Handle → Option (Comps V)} {v : Bool}
    {a : Arch V}, Rep ty r 0 W → r.archs.arches[ai]? = some a → (none :: bs : List BlockId).all (Reg.matchArg a) = true →
    match Reg.chunksFrom (none :: bs) Reg.destroyVisited n p ai k ci r v with
    | .ub => True
    | .throw _ _ => False
    | .ok r' _ => (∃ W', Rep ty r' 0 W') ∧ OnlyArch ai r r' := by
  intro k
  induction k with
  | zero => intros; trivial
  | succ k ih =>
    intro ci r W v a R ha hm
    unfold Reg.chunksFrom
    simp only [ha]
    cases hc : a.chunks[ci]? with
    | none => simp
    | some c =>
      simp only
      have h1 := rowsFrom_destroy c.size 0 (ci := ci) (bs := bs) (v := v) R ha hm
      revert h1
      cases Reg.rowsFrom (none :: bs) Reg.destroyVisited ai ci c.size 0 r v with
      | ub => simp
      | throw s e => simp
      | ok s ts =>
        rintro ⟨⟨W1, R1⟩, o⟩
        simp only
        by_cases hq : (s.2 && s.1.bucketIs n p ai && decide (ci < s.1.chunkCount ai)) = true
        · rw [if_pos hq]
          by_cases hq' : ci + 1 = s.1.chunkCount ai
          · rw [if_pos hq']; exact ⟨⟨W1, R1⟩, o⟩
          · rw [if_neg hq']
            obtain ⟨a1, ha1, hcm⟩ := o.comps a ha
            have h2 := ih (ci + 1) (v := s.2) R1 ha1 (by rw [matchArg_congr hcm]; exact hm)
            revert h2
            cases Reg.chunksFrom (none :: bs) Reg.destroyVisited n p ai k (ci + 1) s.1 s.2 with
            | ub => simp
            | throw s e => simp
            | ok s ts => exact fun h2 => ⟨h2.1, o.trans h2.2⟩
        · rw [if_neg hq]; trivial

/-- In the only chunk of an archetype the loop runs past the entries that are left. -/
theorem rowsFrom_destroy_ub {ty : Types} {bs : List BlockId} {ai : Nat} : ∀ (k i : Nat) {r : Reg V} {W : Handle → Option (Comps V)} {v : Bool}
    {a : Arch V}, Rep ty r 0 W → r.archs.arches[ai]? = some a → (none :: bs : List BlockId).all (Reg.matchArg a) = true →
    a.chunks.map Chunk.size = [k] → 1 ≤ k → 2 ≤ k ∨ 1 ≤ i → Reg.rowsFrom (none :: bs) Reg.destroyVisited ai 0 k i r v = .ub
  | 0, _, _, _, _, _, _, _, _, _, h, _ => by omega
  | k + 1, i, r, W, v, a, R, ha, hm, hk, _, hki => by
    unfold Reg.rowsFrom
    rcases R.tupleAt_ent ha hm 0 i with hu | ⟨h, d, c, t, ht, hw, hc, hi, hat⟩
    · simp [hu]
    · rw [ht]
      simp only [Reg.destroyVisited, Reg.acts]
      rcases R.visit_destroy hw hat with hu | ⟨r', W', a', h1, R', o, ha', hcm, hsz⟩
      · simp [hu]
      · have hcs : c.size = k + 1 := by
          have := congrArg (fun l : List Nat => l[0]?) hk
          simpa [hc] using this
        have hsz' : a'.chunks.map Chunk.size = [k] := by
          rw [hsz, hk]
          unfold Arch.eraseSizes
          by_cases he : i + 1 = k + 1
          · simp [he]
          · simp
        rw [h1]
        simp only
        rw [rowsFrom_destroy_ub k (i + 1) R' ha' (by rw [matchArg_congr hcm]; exact hm) hsz' (by omega) (by omega)]

/-- Reaching a bucket with such an archetype. -/
theorem bucketsFrom_destroy_ub {ty : Types} {bs : List BlockId} {n ai k0 : Nat} : ∀ (k p : Nat) {r : Reg V} {W : Handle → Option (Comps V)}
    {a : Arch V}, Rep ty r 0 W → r.archs.arches[ai]? = some a → (none :: bs : List BlockId).all (Reg.matchArg a) = true →
    a.chunks.map Chunk.size = [k0] → 2 ≤ k0 →
    (∃ q e, p ≤ q ∧ q < p + k ∧ r.archs.map.slot? q = some (some e) ∧ e.val = some ai) →
    Reg.bucketsFrom (none :: bs) Reg.destroyVisited n k p r = .ub
  | 0, p, _, _, _, _, _, _, _, _, ⟨q, e, h1, h2, _⟩ => by omega
  | k + 1, p, r, W, a, R, ha, hm, hk, h2, ⟨q, e, q1, q2, q3, q4⟩ => by
    unfold Reg.bucketsFrom
    have hlen : a.chunks.length = 1 := by simpa using congrArg List.length hk
    have next : ∀ x, r.archs.map.slot? p = some x → (∀ e', x = some e' → e'.val ≠ some ai) →
        ∃ q e, p + 1 ≤ q ∧ q < p + 1 + k ∧ r.archs.map.slot? q = some (some e) ∧ e.val = some ai := by
      intro x hx hne
      refine ⟨q, e, ?_, by omega, q3, q4⟩
      apply Classical.byContradiction
      intro hlt
      have : q = p := by omega
      subst this
      rw [hx] at q3
      cases q3
      exact hne e rfl q4
    cases hs : r.archs.map.slot? p with
    | none => rfl
    | some x =>
      cases x with
      | none => exact bucketsFrom_destroy_ub k (p + 1) R ha hm hk h2 (next _ hs (by simp))
      | some e' =>
        simp only
        cases hv : e'.val with
        | none => rfl
        | some aj =>
          simp only
          by_cases hj : aj = ai
          · subst hj
            simp only [ha, hm, hlen, ne_eq, Nat.succ_ne_self, not_false_eq_true, decide_true, Bool.and_true, if_true]
            unfold Reg.chunksFrom
            simp only [ha]
            obtain ⟨c, hc⟩ : ∃ c, a.chunks[0]? = some c := ⟨_, List.getElem?_eq_getElem (by omega)⟩
            have hcs : c.size = k0 := by
              have := congrArg (fun l : List Nat => l[0]?) hk
              simpa [hc] using this
            rw [hc]
            simp only
            rw [hcs, rowsFrom_destroy_ub k0 0 R ha hm hk (by omega) (.inl h2)]
          · cases hb : r.archs.arches[aj]? with
            | none => rfl
            | some b =>
              simp only
              split
              · rename_i hbm
                have hbm' : (none :: bs : List BlockId).all (Reg.matchArg b) = true := by
                  rw [Bool.and_eq_true] at hbm; exact hbm.1
                have h1 := chunksFrom_destroy (n := n) (p := p) b.chunks.length 0 (v := true) R hb hbm'
                revert h1
                cases Reg.chunksFrom (none :: bs) Reg.destroyVisited n p aj b.chunks.length 0 r true with
                | ub => simp
                | throw s e => simp
                | ok s ts =>
                  rintro ⟨⟨W1, R1⟩, o⟩
                  simp only
                  have := bucketsFrom_destroy_ub (n := n) k (p + 1) R1 ((o.other ai (Ne.symm hj)).trans ha) hm hk h2 (by
                    rw [o.map]
                    exact next _ hs (fun e'' he => by cases he; rw [hv]; simpa using hj))
                  rw [this]
              · exact bucketsFrom_destroy_ub k (p + 1) R ha hm hk h2 (next _ hs (fun e'' he => by cases he; rw [hv]; simpa using hj))

/-- Every archetype is in a bucket. -/
theorem Rep.bucket {ty : Types} {r : Reg V} {k : Nat} {W : Handle → Option (Comps V)} (R : Rep ty r k W) {ai : Nat} {a : Arch V}
    (ha : r.archs.arches[ai]? = some a) : ∃ q e, q < r.archs.map.n ∧ r.archs.map.slot? q = some (some e) ∧ e.val = some ai := by
  obtain ⟨m, hm⟩ := R.archs
  obtain ⟨es, e1, e2, e3, e4⟩ := hm.rel.entries
  obtain ⟨e, he, _, hv⟩ := (e4 _ _).1 (hm.bwd ai a ha)
  unfold HTable.entries at e1
  split at e1
  · cases e1
    rw [List.mem_filterMap] at he
    obtain ⟨x, hx, rfl⟩ := he
    obtain ⟨q, hq, hxe⟩ := List.mem_iff_getElem.1 hx
    rw [List.getElem_take] at hxe
    simp only [List.length_take] at hq
    refine ⟨q, e, by omega, ?_, hv⟩
    unfold HTable.slot?
    rw [if_pos (by omega), List.getElem?_eq_getElem (by omega), hxe]
  · cases e1

theorem Rep.eachActing_destroy_ub {ty : Types} {r : Reg V} {W : Handle → Option (Comps V)} (R : Rep ty r 0 W) {ai : Nat} {a : Arch V}
    {bs : List BlockId} {k : Nat} (ha : r.archs.arches[ai]? = some a) (hm : (none :: bs : List BlockId).all (Reg.matchArg a) = true)
    (hk : a.chunks.map Chunk.size = [k]) (h2 : 2 ≤ k) : r.eachActing (none :: bs) Reg.destroyVisited = .ub := by
  obtain ⟨q, e, q1, q2, q3⟩ := R.bucket ha
  exact bucketsFrom_destroy_ub _ 0 R ha hm hk h2 ⟨q, e, by omega, by omega, q2, q3⟩

/-! ### Survivors -/

namespace Arch

/-- The entities in the entries an iteration has passed. -/
def passed (l : List Nat) (ci i : Nat) : Nat := (l.take ci).sum + min i (l.getD ci 0)

/-- An entry has been passed that holds an entity, or a chunk with two entities lies ahead. -/
def Leaves (l : List Nat) (ci i : Nat) : Prop := 1 ≤ passed l ci i ∨ ∃ cj, (ci < cj ∨ ci = cj ∧ i = 0) ∧ 2 ≤ l.getD cj 0

theorem getD_dropLast {l : List Nat} {j : Nat} (h : l.getD j 0 ≠ 0) (hl : l.getLast? = some 0) : l.dropLast.getD j 0 = l.getD j 0 := by
  simp only [List.getD_eq_getElem?_getD] at h ⊢
  rw [List.getElem?_dropLast]
  split
  · rfl
  · exfalso
    rename_i hj
    apply h
    by_cases hj' : j = l.length - 1
    · subst hj'
      rw [← List.getLast?_eq_getElem?, hl]; rfl
    · rw [List.getElem?_eq_none (by omega)]; rfl

theorem passed_dropLast {l : List Nat} {ci i : Nat} (hl : l.getLast? = some 0) (hci : ci < l.length) : passed l.dropLast ci i = passed l ci i := by
  unfold passed
  rw [List.dropLast_eq_take, List.take_take, Nat.min_eq_left (by omega)]
  by_cases h : l.getD ci 0 = 0
  · rw [h]
    congr 2
    simp only [List.getD_eq_getElem?_getD] at h ⊢
    rw [List.getElem?_take]
    split
    · exact h
    · rfl
  · rw [← List.dropLast_eq_take, getD_dropLast h hl]

theorem Leaves.dropLast {l : List Nat} {ci i : Nat} (h : Leaves l ci i) (hl : l.getLast? = some 0) (hci : ci < l.length) :
    Leaves l.dropLast ci i := by
  rcases h with h | ⟨cj, h1, h2⟩
  · left; rw [passed_dropLast hl hci]; exact h
  · right; exact ⟨cj, h1, by rw [getD_dropLast (by omega) hl]; exact h2⟩

theorem Leaves.erase {l : List Nat} {ci i : Nat} (h : Leaves l ci i) (hi : i < l.getD ci 0) : Leaves (eraseSizes l ci i) ci (i + 1) := by
  have hci : ci < l.length := by
    apply Classical.byContradiction
    intro hn
    rw [List.getD_eq_getElem?_getD, List.getElem?_eq_none (by omega)] at hi
    simp at hi
  have key : ∀ l1 : List Nat, l1.length = l.length → Leaves l1 ci (i + 1) →
      Leaves (if l1.getLast? = some 0 ∧ l1.length > 1 then l1.dropLast else l1) ci (i + 1) := by
    intro l1 hl1 hq
    split
    · rename_i hc
      exact hq.dropLast hc.1 (by omega)
    · exact hq
  unfold eraseSizes
  apply key
  · split <;> simp
  · split
    · rename_i he
      rcases h with h | ⟨cj, h1, h2⟩
      · left
        unfold passed at h ⊢
        rw [List.take_set_of_le (Nat.le_refl _)]
        simp only [List.getD_eq_getElem?_getD, List.getElem?_set_self hci] at *
        simp only [Option.getD_some]
        omega
      · right
        refine ⟨cj, .inl ?_, ?_⟩
        · rcases h1 with h1 | ⟨rfl, rfl⟩
          · exact h1
          · omega
        · have : ci ≠ cj := by
            rcases h1 with h1 | ⟨rfl, rfl⟩ <;> omega
          rw [List.getD_eq_getElem?_getD, List.getElem?_set_ne this, ← List.getD_eq_getElem?_getD]; exact h2
    · rename_i he
      left
      unfold passed
      have : 2 ≤ l.getD ci 0 := by omega
      have hg : i + 1 ≤ (l.set (l.length - 1) (l.getD (l.length - 1) 0 - 1)).getD ci 0 := by
        by_cases hlast : l.length - 1 = ci
        · subst hlast
          simp only [List.getD_eq_getElem?_getD, List.getElem?_set_self hci] at *
          simp only [Option.getD_some]
          omega
        · rw [List.getD_eq_getElem?_getD, List.getElem?_set_ne hlast, ← List.getD_eq_getElem?_getD]; omega
      omega

theorem Leaves.next {l : List Nat} {ci i : Nat} (h : Leaves l ci i) (hi : i = 0 → l.getD ci 0 = 0) : Leaves l (ci + 1) 0 := by
  rcases h with h | ⟨cj, h1, h2⟩
  · left
    unfold passed at h ⊢
    rw [List.take_add_one, List.sum_append]
    rw [List.getD_eq_getElem?_getD] at h
    cases hc : l[ci]? with
    | none => rw [hc] at h; simp at h ⊢; omega
    | some x => rw [hc] at h; simp at h ⊢; omega
  · right
    refine ⟨cj, ?_, h2⟩
    rcases h1 with h1 | ⟨rfl, rfl⟩
    · omega
    · have := hi rfl; omega

theorem Leaves.sum {l : List Nat} {ci : Nat} (h : Leaves l ci 0) (hci : ci = l.length) : 1 ≤ l.sum := by
  rcases h with h | ⟨cj, h1, h2⟩
  · subst hci
    unfold passed at h
    rw [List.take_length] at h
    omega
  · exfalso
    rw [List.getD_eq_getElem?_getD, List.getElem?_eq_none (by omega)] at h2
    simp at h2

end Arch

theorem getD_sizes {a : Arch V} {ci : Nat} {c : Chunk V} (hc : a.chunks[ci]? = some c) : (a.chunks.map Chunk.size).getD ci 0 = c.size := by
  simp [List.getD_eq_getElem?_getD, hc]

theorem rowsFrom_leaves {ty : Types} {bs : List BlockId} {ai ci : Nat} : ∀ (k i : Nat) {r : Reg V} {W : Handle → Option (Comps V)} {v : Bool}
    {a : Arch V}, Rep ty r 0 W → r.archs.arches[ai]? = some a → (none :: bs : List BlockId).all (Reg.matchArg a) = true →
    Arch.Leaves (a.chunks.map Chunk.size) ci i →
    match Reg.rowsFrom (none :: bs) Reg.destroyVisited ai ci k i r v with
    | .ub => True
    | .throw _ _ => False
    | .ok (r', _) _ => (∃ W', Rep ty r' 0 W') ∧ OnlyArch ai r r' ∧
      ∃ a' : Arch V, r'.archs.arches[ai]? = some a' ∧ a'.comps = a.comps ∧ Arch.Leaves (a'.chunks.map Chunk.size) ci (i + k) ∧ (k = 0 → a' = a)
  | 0, i, r, W, v, a, R, ha, hm, hl => ⟨⟨W, R⟩, .refl _ _, a, ha, rfl, hl, fun _ => rfl⟩
  | k + 1, i, r, W, v, a, R, ha, hm, hl => by
    unfold Reg.rowsFrom
    rcases R.tupleAt_ent ha hm ci i with hu | ⟨h, d, c, t, ht, hw, hc, hi, hat⟩
    · simp [hu]
    · rw [ht]
      simp only [Reg.destroyVisited, Reg.acts]
      rcases R.visit_destroy hw hat with hu | ⟨r', W', a', h1, R', o, ha', hcm, hsz⟩
      · simp [hu]
      · rw [h1]
        simp only
        have hl' : Arch.Leaves (a'.chunks.map Chunk.size) ci (i + 1) := by
          rw [hsz]; exact hl.erase (by rw [getD_sizes hc]; exact hi)
        have ih := rowsFrom_leaves k (i + 1) (ci := ci) (bs := bs) (v := v && decide (r'.chunkCount ai ≤ r.chunkCount ai)) R' ha'
          (by rw [matchArg_congr hcm]; exact hm) hl'
        revert ih
        cases Reg.rowsFrom (none :: bs) Reg.destroyVisited ai ci k (i + 1) r' (v && decide (r'.chunkCount ai ≤ r.chunkCount ai)) with
        | ub => simp
        | throw s e => simp
        | ok s ts =>
          rintro ⟨i1, i2, a2, i3, i4, i5, _⟩
          exact ⟨i1, o.trans i2, a2, i3, i4.trans hcm, by rw [show i + (k + 1) = i + 1 + k by omega]; exact i5, by omega⟩

theorem chunksFrom_leaves {ty : Types} {bs : List BlockId} {n p ai : Nat} : ∀ (k ci : Nat) {r : Reg V} {W : Handle → Option (Comps V)} {v : Bool}
    {a : Arch V}, Rep ty r 0 W → r.archs.arches[ai]? = some a → (none :: bs : List BlockId).all (Reg.matchArg a) = true →
    Arch.Leaves (a.chunks.map Chunk.size) ci 0 →
    match Reg.chunksFrom (none :: bs) Reg.destroyVisited n p ai k ci r v with
    | .ub => True
    | .throw _ _ => False
    | .ok r' _ => (∃ W', Rep ty r' 0 W') ∧ OnlyArch ai r r' ∧
      ∃ a' : Arch V, r'.archs.arches[ai]? = some a' ∧ a'.comps = a.comps ∧ 1 ≤ a'.total := by
  intro k
  induction k with
  | zero => intros; trivial
  | succ k ih =>
    intro ci r W v a R ha hm hl
    unfold Reg.chunksFrom
    simp only [ha]
    cases hc : a.chunks[ci]? with
    | none => simp
    | some c =>
      simp only
      have h1 := rowsFrom_leaves c.size 0 (ci := ci) (bs := bs) (v := v) R ha hm hl
      revert h1
      cases Reg.rowsFrom (none :: bs) Reg.destroyVisited ai ci c.size 0 r v with
      | ub => simp
      | throw s e => simp
      | ok s ts =>
        rintro ⟨⟨W1, R1⟩, o, a1, ha1, hcm, hl1, hz⟩
        have hl2 : Arch.Leaves (a1.chunks.map Chunk.size) (ci + 1) 0 := by
          refine hl1.next fun h0 => ?_
          have h0 : c.size = 0 := by omega
          rw [hz h0, getD_sizes hc, h0]
        simp only
        have hcnt : s.1.chunkCount ai = a1.chunks.length := by simp only [Reg.chunkCount, ha1]
        by_cases hq : (s.2 && s.1.bucketIs n p ai && decide (ci < s.1.chunkCount ai)) = true
        · rw [if_pos hq]
          by_cases hq' : ci + 1 = s.1.chunkCount ai
          · rw [if_pos hq']
            exact ⟨⟨W1, R1⟩, o, a1, ha1, hcm, hl2.sum (by rw [hq', hcnt, List.length_map])⟩
          · rw [if_neg hq']
            have h2 := ih (ci + 1) (v := s.2) R1 ha1 (by rw [matchArg_congr hcm]; exact hm) hl2
            revert h2
            cases Reg.chunksFrom (none :: bs) Reg.destroyVisited n p ai k (ci + 1) s.1 s.2 with
            | ub => simp
            | throw s e => simp
            | ok s ts =>
              rintro ⟨i1, i2, a2, i3, i4, i5⟩
              exact ⟨i1, o.trans i2, a2, i3, i4.trans hcm, i5⟩
        · rw [if_neg hq]; trivial

/-- The rest of the iteration, archetype `ai` having been passed. -/
theorem bucketsFrom_keeps {ty : Types} {bs : List BlockId} {n : Nat} : ∀ (k p : Nat) {r : Reg V} {W : Handle → Option (Comps V)} {ai : Nat}
    {a : Arch V}, Rep ty r 0 W → r.archs.arches[ai]? = some a →
    (∀ q e, p ≤ q → q < p + k → r.archs.map.slot? q = some (some e) → e.val ≠ some ai) →
    match Reg.bucketsFrom (none :: bs) Reg.destroyVisited n k p r with
    | .ub => True
    | .throw _ _ => False
    | .ok r' _ => (∃ W', Rep ty r' 0 W') ∧ r'.archs.arches[ai]? = some a
  | 0, p, r, W, ai, a, R, ha, _ => ⟨⟨W, R⟩, ha⟩
  | k + 1, p, r, W, ai, a, R, ha, hno => by
    unfold Reg.bucketsFrom
    have hno' : ∀ q e, p + 1 ≤ q → q < p + 1 + k → r.archs.map.slot? q = some (some e) → e.val ≠ some ai :=
      fun q e h1 h2 => hno q e (by omega) (by omega)
    cases hs : r.archs.map.slot? p with
    | none => trivial
    | some x =>
      cases x with
      | none => exact bucketsFrom_keeps k (p + 1) R ha hno'
      | some e' =>
        simp only
        cases hv : e'.val with
        | none => trivial
        | some aj =>
          simp only
          have hj : aj ≠ ai := fun h => hno p e' (by omega) (by omega) hs (by rw [hv, h])
          cases hb : r.archs.arches[aj]? with
          | none => trivial
          | some b =>
            simp only
            by_cases hbm : ((none :: bs : List BlockId).all (Reg.matchArg b) && decide (b.chunks.length ≠ 0)) = true
            · rw [if_pos hbm]
              have hbm' : (none :: bs : List BlockId).all (Reg.matchArg b) = true := by
                rw [Bool.and_eq_true] at hbm; exact hbm.1
              have h1 := chunksFrom_destroy (n := n) (p := p) b.chunks.length 0 (v := true) R hb hbm'
              revert h1
              cases Reg.chunksFrom (none :: bs) Reg.destroyVisited n p aj b.chunks.length 0 r true with
              | ub => simp
              | throw s e => simp
              | ok s ts =>
                rintro ⟨⟨W1, R1⟩, o⟩
                simp only
                have := bucketsFrom_keeps (bs := bs) (n := n) k (p + 1) R1 ((o.other ai (Ne.symm hj)).trans ha) (by rw [o.map]; exact hno')
                revert this
                cases Reg.bucketsFrom (none :: bs) Reg.destroyVisited n k (p + 1) s with
                | ub => simp
                | throw s e => simp
                | ok s ts => exact id
            · rw [if_neg hbm]; exact bucketsFrom_keeps k (p + 1) R ha hno'

theorem bucketsFrom_leaves {ty : Types} {bs : List BlockId} {n ai : Nat} : ∀ (k p : Nat) {r : Reg V} {W : Handle → Option (Comps V)}
    {a : Arch V}, Rep ty r 0 W → r.archs.arches[ai]? = some a → (none :: bs : List BlockId).all (Reg.matchArg a) = true →
    Arch.Leaves (a.chunks.map Chunk.size) 0 0 →
    (∀ q q' e e', r.archs.map.slot? q = some (some e) → r.archs.map.slot? q' = some (some e') → e.val = some ai → e'.val = some ai → q = q') →
    (∃ q e, p ≤ q ∧ q < p + k ∧ r.archs.map.slot? q = some (some e) ∧ e.val = some ai) →
    match Reg.bucketsFrom (none :: bs) Reg.destroyVisited n k p r with
    | .ub => True
    | .throw _ _ => False
    | .ok r' _ => (∃ W', Rep ty r' 0 W') ∧ ∃ a' : Arch V, r'.archs.arches[ai]? = some a' ∧ a'.comps = a.comps ∧ 1 ≤ a'.total
  | 0, p, _, _, _, _, _, _, _, _, ⟨q, e, h1, h2, _⟩ => by omega
  | k + 1, p, r, W, a, R, ha, hm, hl, hu, ⟨q, e, q1, q2, q3, q4⟩ => by
    unfold Reg.bucketsFrom
    have next : ∀ x, r.archs.map.slot? p = some x → (∀ e', x = some e' → e'.val ≠ some ai) →
        ∃ q e, p + 1 ≤ q ∧ q < p + 1 + k ∧ r.archs.map.slot? q = some (some e) ∧ e.val = some ai := by
      intro x hx hne
      refine ⟨q, e, ?_, by omega, q3, q4⟩
      apply Classical.byContradiction
      intro hlt
      have : q = p := by omega
      subst this
      rw [hx] at q3
      cases q3
      exact hne e rfl q4
    cases hs : r.archs.map.slot? p with
    | none => trivial
    | some x =>
      cases x with
      | none => exact bucketsFrom_leaves k (p + 1) R ha hm hl hu (next _ hs (by simp))
      | some e' =>
        simp only
        cases hv : e'.val with
        | none => trivial
        | some aj =>
          simp only
          by_cases hj : aj = ai
          · subst hj
            have hlen : a.chunks.length ≠ 0 := by
              intro h0
              have := hl.sum (by simp [h0])
              simp [List.length_eq_zero_iff.1 h0] at this
            simp only [ha, hm, hlen, ne_eq, not_false_eq_true, decide_true, Bool.and_true, if_true]
            · have h1 := chunksFrom_leaves (n := n) (p := p) a.chunks.length 0 (v := true) R ha hm hl
              revert h1
              cases Reg.chunksFrom (none :: bs) Reg.destroyVisited n p aj a.chunks.length 0 r true with
              | ub => simp
              | throw s e => simp
              | ok s ts =>
                rintro ⟨⟨W1, R1⟩, o, a1, ha1, hcm, ht⟩
                simp only
                have := bucketsFrom_keeps (bs := bs) (n := n) k (p + 1) R1 ha1 (by
                  rw [o.map]
                  intro q' e'' g1 g2 g3 g4
                  have := hu p q' e' e'' hs g3 hv g4
                  omega)
                revert this
                cases Reg.bucketsFrom (none :: bs) Reg.destroyVisited n k (p + 1) s with
                | ub => simp
                | throw s e => simp
                | ok s ts => exact fun h => ⟨h.1, a1, h.2, hcm, ht⟩
          · cases hb : r.archs.arches[aj]? with
            | none => trivial
            | some b =>
              simp only
              have nx := next _ hs (fun e'' he => by cases he; rw [hv]; simpa using hj)
              by_cases hbm : ((none :: bs : List BlockId).all (Reg.matchArg b) && decide (b.chunks.length ≠ 0)) = true
              · rw [if_pos hbm]
                have hbm' : (none :: bs : List BlockId).all (Reg.matchArg b) = true := by
                  rw [Bool.and_eq_true] at hbm; exact hbm.1
                have h1 := chunksFrom_destroy (n := n) (p := p) b.chunks.length 0 (v := true) R hb hbm'
                revert h1
                cases Reg.chunksFrom (none :: bs) Reg.destroyVisited n p aj b.chunks.length 0 r true with
                | ub => simp
                | throw s e => simp
                | ok s ts =>
                  rintro ⟨⟨W1, R1⟩, o⟩
                  simp only
                  have := bucketsFrom_leaves (bs := bs) (n := n) k (p + 1) R1 ((o.other ai (Ne.symm hj)).trans ha) hm hl (by rw [o.map]; exact hu) (by rw [o.map]; exact nx)
                  revert this
                  cases Reg.bucketsFrom (none :: bs) Reg.destroyVisited n k (p + 1) s with
                  | ub => simp
                  | throw s e => simp
                  | ok s ts => exact id
              · rw [if_neg hbm]; exact bucketsFrom_leaves k (p + 1) R ha hm hl hu nx

/-- Only one bucket holds an archetype. -/
theorem Rep.bucket_unique {ty : Types} {r : Reg V} {k : Nat} {W : Handle → Option (Comps V)} (R : Rep ty r k W) {ai : Nat} :
    ∀ q q' e e', r.archs.map.slot? q = some (some e) → r.archs.map.slot? q' = some (some e') → e.val = some ai → e'.val = some ai → q = q' := by
  obtain ⟨m, hm⟩ := R.archs
  obtain ⟨es, e1, e2, e3, e4⟩ := hm.rel.entries
  have slot : ∀ q e, r.archs.map.slot? q = some (some e) → q < r.archs.map.slots.length ∧ HTable.at' r.archs.map.slots q = some e ∧ e ∈ es := by
    intro q e h
    unfold HTable.slot? at h
    split at h
    · rename_i hq
      obtain ⟨hlt, hx⟩ := List.getElem?_eq_some_iff.1 h
      refine ⟨hlt, by simp [HTable.at', h], ?_⟩
      unfold HTable.entries at e1
      split at e1
      · cases e1
        rw [List.mem_filterMap]
        exact ⟨some e, List.mem_of_getElem? (i := q) (by rw [List.getElem?_take, if_pos hq, h]), rfl⟩
      · cases e1
    · cases h
  intro q q' e e' h1 h2 v1 v2
  obtain ⟨l1, a1, m1⟩ := slot q e h1
  obtain ⟨l2, a2, m2⟩ := slot q' e' h2
  obtain ⟨b1, g1, k1⟩ := hm.fwd _ _ ((e4 e.key (some ai)).2 ⟨e, m1, rfl, v1⟩)
  obtain ⟨b2, g2, k2⟩ := hm.fwd _ _ ((e4 e'.key (some ai)).2 ⟨e', m2, rfl, v2⟩)
  rw [g1] at g2; cases g2
  exact hm.rel.good.uniq q q' (hm.rel.len ▸ l1) (hm.rel.len ▸ l2) e e' a1 a2 (k1.symm.trans k2)

theorem Rep.eachActing_leaves {ty : Types} {r r' : Reg V} {W : Handle → Option (Comps V)} (R : Rep ty r 0 W) {ai : Nat} {a : Arch V} {c : Chunk V}
    {bs : List BlockId} {calls : List (List (Val V))} (ha : r.archs.arches[ai]? = some a)
    (hm : (none :: bs : List BlockId).all (Reg.matchArg a) = true) (hc : c ∈ a.chunks) (h2 : 2 ≤ c.size)
    (he : r.eachActing (none :: bs) Reg.destroyVisited = .ok r' calls) : ∃ h, r'.has h (compsOf (none :: bs)) = .ok true := by
  obtain ⟨q, e, q1, q2, q3⟩ := R.bucket ha
  obtain ⟨cj, hcj⟩ := List.mem_iff_getElem?.1 hc
  have := bucketsFrom_leaves (bs := bs) (n := r.archs.map.n) r.archs.map.n 0 R ha hm
    (.inr ⟨cj, by omega, by rw [getD_sizes hcj]; exact h2⟩) R.bucket_unique ⟨q, e, by omega, by omega, q2, q3⟩
  unfold Reg.eachActing at he
  rw [he] at this
  obtain ⟨⟨W', R'⟩, a', ha', hcm, ht⟩ := this
  obtain ⟨c', hc', h1⟩ : ∃ c' ∈ a'.chunks, 1 ≤ c'.size := by
    apply Classical.byContradiction
    intro hn
    have : ∀ l : List (Chunk V), (∀ c' ∈ l, c'.size = 0) → (l.map Chunk.size).sum = 0 := by
      intro l
      induction l with
      | nil => intro _; rfl
      | cons x l ih => intro h; simp [h x (by simp), ih fun c' hc' => h c' (by simp [hc'])]
    have := this a'.chunks fun c' hc' => by
      apply Classical.byContradiction
      intro h0
      exact hn ⟨c', hc', by omega⟩
    unfold Arch.total at ht
    omega
  obtain ⟨ci, hci⟩ := List.mem_iff_getElem?.1 hc'
  obtain ⟨h, d, hw, t⟩ := R'.entry ha' hci (i := 0) h1
  exact ⟨h, (R'.matches_iff h _).2 ⟨d, hw, (matchArg_all t.ok t.decode t.rowOk _).1 (by rw [matchArg_congr hcm]; exact hm)⟩⟩

/-! ### Plain iterations -/

theorem eachLocs_plain {args : List BlockId} {f : List (Val V) → Nat → V} : ∀ {ls : List Loc} {r r' : Reg V} {ts : List (List (Val V))},
    Reg.eachLocs args [] f r ls = .ok r' ts → r' = r ∧ ls.map (r.tupleAt args) = ts.map Obs.ok
  | [], r, r', ts, h => by cases h; exact ⟨rfl, rfl⟩
  | l :: ls, r, r', ts, h => by
    unfold Reg.eachLocs at h
    cases ht : r.tupleAt args l with
    | ub => simp [ht] at h
    | throw e => simp [ht] at h
    | ok t =>
      simp only [ht, Reg.writeAll] at h
      cases he : Reg.eachLocs args [] f r ls with
      | ub => simp [he] at h
      | throw s e => simp [he] at h
      | ok r2 ts2 =>
        simp only [he, Res.ok.injEq] at h
        obtain ⟨h1, h2⟩ := eachLocs_plain he
        obtain ⟨rfl, rfl⟩ := h
        exact ⟨h1, by simp [ht, h2]⟩

/-- Destructions that succeed one after the other, none of a matching entity. -/
theorem destroyAll_still {ty : Types} {args : List BlockId} {r0 : Reg V} {W0 : Handle → Option (Comps V)} : ∀ {hs : List Handle} {r r' : Reg V}
    {W : Handle → Option (Comps V)}, Rep ty r 0 W → Still args r0 r → (∀ h d, W h = some d → W0 h = some d) →
    (∀ h ∈ hs, ∀ d, W0 h = some d → ¬ Matches args d) → Spec.destroyAll r hs = .ok r' () →
    StillRun args r0 r (hs.map fun h r => r.destroy h) r'
  | [], r, r', W, _, _, _, _, h => by cases h; exact .nil _
  | h :: hs, r, r', W, R, hs0, hsub, hn, hd => by
    unfold Spec.destroyAll at hd
    cases h1 : r.destroy h with
    | ub => simp [h1] at hd
    | throw s e => simp [h1] at hd
    | ok r1 u =>
      simp only [h1] at hd
      obtain ⟨g1, R1⟩ := R.destroy_still (args := args) h1 (fun d hw => hn h (by simp) d (hsub h d hw))
      refine .cons h1 (hs0.trans g1) (destroyAll_still R1 (hs0.trans g1) ?_ (fun h' hh' => hn h' (by simp [hh'])) hd)
      intro h' d' hw'
      simp only [World.put] at hw'
      split at hw'
      · cases hw'
      · exact hsub h' d' hw'

end CoEcs
