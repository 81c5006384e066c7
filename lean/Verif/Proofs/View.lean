import Verif.Model.View
import Verif.Proofs.RepEnd

/-!
# What views visit
-/

namespace CoEcs
open Spec
variable {V : Type}

/-- The entity has all components among the arguments. -/
def Matches (args : List BlockId) (d : Comps V) : Prop := ∀ c, some c ∈ args → ∃ v, d c = some v

/-- The values of the arguments for an entity. -/
def tupleOf (h : Handle) (d : Comps V) : List BlockId → Option (List (Val V))
  | [] => some []
  | none :: bs => (tupleOf h d bs).map (.ent h :: ·)
  | some c :: bs =>
    match d c with
    | none => none
    | some v => (tupleOf h d bs).map (.comp v :: ·)

theorem Matches.tail {b : BlockId} {args : List BlockId} {d : Comps V} (h : Matches (b :: args) d) : Matches args d :=
  fun c hc => h c (List.mem_cons_of_mem _ hc)

theorem Matches.tuple {h : Handle} {d : Comps V} : ∀ {args : List BlockId}, Matches args d → ∃ t, tupleOf h d args = some t
  | [], _ => ⟨[], rfl⟩
  | none :: bs, hm => by
    obtain ⟨t, ht⟩ := Matches.tuple (h := h) hm.tail
    exact ⟨_, by simp [tupleOf, ht]; rfl⟩
  | some c :: bs, hm => by
    obtain ⟨t, ht⟩ := Matches.tuple (h := h) hm.tail
    obtain ⟨v, hv⟩ := hm c (by simp)
    exact ⟨_, by simp [tupleOf, ht, hv]; rfl⟩

theorem fetch_spec {a : Arch V} {row : Row V} {h : Handle} {d : Comps V} (hn : none ∈ a.blocks) (h1 : row none = .live (.ent h))
    (h2 : ∀ c, some c ∈ a.blocks → ∃ v, d c = some v ∧ row (some c) = .live (.comp v)) (h3 : ∀ c, some c ∉ a.blocks → d c = none) :
    ∀ (args : List BlockId) (t : List (Val V)), tupleOf h d args = some t → Reg.fetch a row args = .ok t := by
  intro args
  induction args with
  | nil => intro t ht; simp [tupleOf] at ht; simp [Reg.fetch, ht]
  | cons b bs ih =>
    intro t ht
    cases b with
    | none =>
      simp only [tupleOf, Option.map_eq_some_iff] at ht
      obtain ⟨t', ht', rfl⟩ := ht
      simp [Reg.fetch, hn, h1, Cell.read, ih t' ht']
    | some c =>
      by_cases hc : some c ∈ a.blocks
      · obtain ⟨v, hv, hr⟩ := h2 c hc
        simp only [tupleOf, hv, Option.map_eq_some_iff] at ht
        obtain ⟨t', ht', rfl⟩ := ht
        simp [Reg.fetch, hc, hr, Cell.read, ih t' ht']
      · simp [tupleOf, h3 c hc] at ht

/-! ### The entries of an archetype -/

theorem mem_chunkLocs {ai : Nat} {a : Arch V} {l : Loc} :
    l ∈ (Reg.chunkLocs ai a).flatten ↔ l.arch = some ai ∧ ∃ c, a.chunks[l.chunk]? = some c ∧ l.entry < c.size := by
  unfold Reg.chunkLocs
  rw [List.mem_flatten]
  constructor
  · rintro ⟨ls, h1, h2⟩
    obtain ⟨ci, hci, rfl⟩ := List.mem_mapIdx.1 h1
    rw [List.mem_map] at h2
    obtain ⟨i, hi, rfl⟩ := h2
    exact ⟨rfl, _, List.getElem?_eq_getElem hci, List.mem_range.1 hi⟩
  · rintro ⟨h1, c, h2, h3⟩
    obtain ⟨hlt, h4⟩ := List.getElem?_eq_some_iff.1 h2
    refine ⟨_, List.mem_mapIdx.2 ⟨l.chunk, hlt, rfl⟩, ?_⟩
    rw [List.mem_map]
    refine ⟨l.entry, by rw [List.mem_range, h4]; exact h3, ?_⟩
    cases l; simp_all

theorem chunkLocs_nodup (ai : Nat) (a : Arch V) : (Reg.chunkLocs ai a).flatten.Nodup := by
  unfold Reg.chunkLocs List.Nodup
  rw [List.pairwise_flatten]
  constructor
  · intro ls h1
    obtain ⟨ci, hci, rfl⟩ := List.mem_mapIdx.1 h1
    rw [List.pairwise_map]
    refine List.Pairwise.imp ?_ List.nodup_range
    intro x y hxy he
    simp only [Loc.mk.injEq, true_and] at he
    exact hxy he
  · rw [List.pairwise_iff_getElem]
    intro i j hi hj hij x hx y hy he
    simp only [List.getElem_mapIdx, List.mem_map] at hx hy
    obtain ⟨p, _, rfl⟩ := hx
    obtain ⟨q, _, rfl⟩ := hy
    simp only [Loc.mk.injEq, true_and] at he
    omega

theorem viewChunksOf_spec {r : Reg V} (args : List BlockId) : ∀ (ps : List (Option Nat)),
    (∀ p ∈ ps, ∃ (ai : Nat) (a : Arch V), p = some ai ∧ r.archs.arches[ai]? = some a) → ps.Nodup →
    ∃ cs, r.viewChunksOf args ps = some cs ∧ cs.flatten.Nodup ∧
      (∀ l, l ∈ cs.flatten ↔ l.arch ∈ ps ∧ ∃ (ai : Nat) (a : Arch V) (c : Chunk V), l.arch = some ai ∧ r.archs.arches[ai]? = some a ∧
        args.all (Reg.matchArg a) = true ∧ a.chunks[l.chunk]? = some c ∧ l.entry < c.size)
  | [], _, _ => ⟨[], rfl, by simp, by simp⟩
  | p :: ps, hp, hnd => by
    obtain ⟨ai, a, rfl, ha⟩ := hp p (by simp)
    rw [List.nodup_cons] at hnd
    obtain ⟨cs, h1, h2, h3⟩ := viewChunksOf_spec args ps (fun q hq => hp q (by simp [hq])) hnd.2
    unfold Reg.viewChunksOf
    simp only [ha, h1]
    refine ⟨_, rfl, ?_, ?_⟩
    · split
      · rw [List.flatten_append, List.nodup_append]
        refine ⟨chunkLocs_nodup _ _, h2, ?_⟩
        rintro x hx y hy rfl
        rw [h3] at hy
        rw [mem_chunkLocs] at hx
        exact hnd.1 (hx.1 ▸ hy.1)
      · exact h2
    · intro l
      constructor
      · intro hl
        split at hl
        · rename_i hall
          rw [List.flatten_append, List.mem_append] at hl
          rcases hl with hl | hl
          · rw [mem_chunkLocs] at hl
            obtain ⟨q1, c, q2, q3⟩ := hl
            exact ⟨by simp [q1], ai, a, c, q1, ha, hall, q2, q3⟩
          · rw [h3] at hl
            exact ⟨by simp [hl.1], hl.2⟩
        · rw [h3] at hl
          exact ⟨by simp [hl.1], hl.2⟩
      · rintro ⟨q1, aj, b, c, q2, q3, q4, q5, q6⟩
        by_cases hj : aj = ai
        · subst hj
          rw [ha] at q3; cases q3
          rw [if_pos q4, List.flatten_append, List.mem_append]
          exact .inl (mem_chunkLocs.2 ⟨q2, c, q5, q6⟩)
        · have : l ∈ cs.flatten := by
            rw [h3]
            refine ⟨?_, aj, b, c, q2, q3, q4, q5, q6⟩
            rw [List.mem_cons] at q1
            rcases q1 with q1 | q1
            · rw [q2] at q1; cases q1; exact absurd rfl hj
            · exact q1
          split
          · rw [List.flatten_append, List.mem_append]; exact .inr this
          · exact this

/-! ### Locations of a view -/

theorem Rep.at_slot {ty : Types} {r : Reg V} {k : Nat} {W : Handle → Option (Comps V)} (R : Rep ty r k W) {h : Handle} {d : Comps V} {l : Loc}
    (hl : slots r.archs.arches l = some (h, d)) : ∃ ai a c row, At r h d l ai a c row := by
  obtain ⟨l', ai, a, c, row, t⟩ := R.at_ ((R.holds h d).1 ⟨l, hl⟩)
  obtain ⟨lm, hlm, L⟩ := R.link
  have h1 := (L.stored _ _ _ hl).2
  have h2 := (L.stored _ _ _ t.slot).2
  rw [h1] at h2
  cases h2
  exact ⟨ai, a, c, row, t⟩

theorem Rep.slot_loc {ty : Types} {r : Reg V} {k : Nat} {W : Handle → Option (Comps V)} (R : Rep ty r k W) {h : Handle} {d : Comps V} {l : Loc} :
    slots r.archs.arches l = some (h, d) ↔ W h = some d ∧ r.location h = .ok l := by
  constructor
  · intro hl
    obtain ⟨ai, a, c, row, t⟩ := R.at_slot hl
    exact ⟨(R.holds h d).1 ⟨l, hl⟩, t.loc⟩
  · rintro ⟨h1, h2⟩
    obtain ⟨l', ai, a, c, row, t⟩ := R.at_ h1
    have := t.loc
    rw [h2] at this
    cases this
    exact t.slot

theorem matchArg_all {a : Arch V} (ha : a.Ok) {row : Row V} {h : Handle} {d : Comps V} (hd : row.decode a.blocks = some (h, d))
    (hr : RowOk a.blocks row) (args : List BlockId) : args.all (Reg.matchArg a) = true ↔ Matches args d := by
  obtain ⟨d1, d2, d3⟩ := Row.decode_some hd hr
  rw [List.all_eq_true]
  constructor
  · intro H c hc
    have := H _ hc
    simp only [Reg.matchArg] at this
    rw [ha.toShape.contains] at this
    obtain ⟨v, hv, _⟩ := d2 c this
    exact ⟨v, hv⟩
  · intro H b hb
    cases b with
    | none => rfl
    | some c =>
      obtain ⟨v, hv⟩ := H c hb
      simp only [Reg.matchArg]
      rw [ha.toShape.contains]
      apply Classical.byContradiction
      intro hn
      rw [d3 c hn] at hv; cases hv

/-- The pointers in the map: all archetypes, each once. -/
theorem Rep.viewPtrs {ty : Types} {r : Reg V} {k : Nat} {W : Handle → Option (Comps V)} (R : Rep ty r k W) :
    ∃ ps, r.viewPtrs = some ps ∧ (∀ (ai : Nat) (a : Arch V), r.archs.arches[ai]? = some a → some ai ∈ ps) ∧
      (∀ ai, some ai ∈ ps → ∃ a : Arch V, r.archs.arches[ai]? = some a) ∧ (NoNull r.archs → none ∉ ps) ∧ (none ∉ ps → ps.Nodup) ∧
      (none ∉ ps → NoNull r.archs) := by
  obtain ⟨m, hm⟩ := R.archs
  obtain ⟨es, e1, e2, e3, e4⟩ := hm.rel.entries
  refine ⟨es.map HEntry.val, by simp [Reg.viewPtrs, e1], ?_, ?_, ?_, ?_, ?_⟩
  · intro ai a ha
    obtain ⟨e, he, _, hv⟩ := (e4 _ _).1 (hm.bwd ai a ha)
    exact List.mem_map.2 ⟨e, he, hv⟩
  · intro ai hai
    obtain ⟨e, he, hv⟩ := List.mem_map.1 hai
    obtain ⟨a, ha, _⟩ := hm.fwd _ _ ((e4 e.key (some ai)).2 ⟨e, he, rfl, hv⟩)
    exact ⟨a, ha⟩
  · intro hn hmem
    obtain ⟨e, he, hv⟩ := List.mem_map.1 hmem
    exact hn m hm.rel e.key ((e4 e.key none).2 ⟨e, he, rfl, hv⟩)
  · intro hn
    unfold List.Nodup at e2 ⊢
    rw [List.pairwise_map] at e2 ⊢
    refine e2.imp_of_mem ?_
    intro e e' he he' hne hv
    cases hve : e.val with
    | none => exact hn (List.mem_map.2 ⟨e, he, hve⟩)
    | some ai =>
      obtain ⟨a, ha, hk⟩ := hm.fwd _ _ ((e4 e.key (some ai)).2 ⟨e, he, rfl, hve⟩)
      obtain ⟨a', ha', hk'⟩ := hm.fwd _ _ ((e4 e'.key (some ai)).2 ⟨e', he', rfl, hv ▸ hve⟩)
      rw [ha] at ha'; cases ha'
      exact hne (hk.symm.trans hk')
  · intro hn m' hm' key hk
    rw [hrel_unique hm' hm.rel] at hk
    obtain ⟨e, he, _, hv⟩ := (e4 key none).1 hk
    exact hn (List.mem_map.2 ⟨e, he, hv⟩)

theorem Rep.view {ty : Types} {r : Reg V} {k : Nat} {W : Handle → Option (Comps V)} (R : Rep ty r k W) (hn : NoNull r.archs)
    (args : List BlockId) : ∃ cs, r.viewChunks args = some cs ∧ cs.flatten.Nodup ∧
      ∀ l, l ∈ cs.flatten ↔ ∃ h d, slots r.archs.arches l = some (h, d) ∧ Matches args d := by
  obtain ⟨ps, p1, p2, p3, p4, p5, _⟩ := R.viewPtrs
  obtain ⟨m, hm⟩ := R.archs
  have hps : ∀ p ∈ ps, ∃ (ai : Nat) (a : Arch V), p = some ai ∧ r.archs.arches[ai]? = some a := by
    intro p hp
    cases p with
    | none => exact absurd hp (p4 hn)
    | some ai => obtain ⟨a, ha⟩ := p3 ai hp; exact ⟨ai, a, rfl, ha⟩
  obtain ⟨cs, h1, h2, h3⟩ := viewChunksOf_spec args ps hps (p5 (p4 hn))
  refine ⟨cs, by simp [Reg.viewChunks, p1, h1], h2, fun l => ?_⟩
  rw [h3]
  constructor
  · rintro ⟨_, ai, a, c, q1, q2, q3, q4, q5⟩
    have ha := hm.ok ai a q2
    have hrow : a.row? l.chunk l.entry = some (c.rows l.entry) := (Arch.row?_eq_some ha.toShape).2 ⟨c, q4, q5, rfl⟩
    have hrok := ha.rows _ _ _ hrow
    obtain ⟨h, d, hd, _⟩ := Row.decode_ok hrok
    refine ⟨h, d, ?_, (matchArg_all ha hd hrok args).1 q3⟩
    have : l = ⟨some ai, l.chunk, l.entry⟩ := by cases l; simp_all
    rw [this, slots_some q2]
    simp [Arch.entry, hrow, hd]
  · rintro ⟨h, d, hl, hmt⟩
    obtain ⟨ai, a, c, row, t⟩ := R.at_slot hl
    exact ⟨by rw [t.arch]; exact p2 ai a t.get, ai, a, c, t.arch, t.get, (matchArg_all t.ok t.decode t.rowOk args).2 hmt, t.chunk, t.lt⟩

theorem viewChunksOf_null {r : Reg V} {args : List BlockId} : ∀ {ps : List (Option Nat)}, none ∈ ps → r.viewChunksOf args ps = none
  | none :: _, _ => rfl
  | some ai :: ps, h => by
    have : none ∈ ps := by simpa using h
    unfold Reg.viewChunksOf
    split
    · rfl
    · rw [viewChunksOf_null this]

/-- A null pointer in the map makes every complete iteration undefined. -/
theorem Rep.view_null {ty : Types} {r : Reg V} {k : Nat} {W : Handle → Option (Comps V)} (R : Rep ty r k W) (hn : ¬ NoNull r.archs)
    (args : List BlockId) : r.viewChunks args = none := by
  obtain ⟨ps, p1, _, _, _, _, p6⟩ := R.viewPtrs
  have : none ∈ ps := Classical.byContradiction fun h => hn (p6 h)
  simp [Reg.viewChunks, p1, viewChunksOf_null this]

theorem At.tupleAt {r : Reg V} {h : Handle} {d : Comps V} {l : Loc} {ai : Nat} {a : Arch V} {c : Chunk V} {row : Row V}
    (t : At r h d l ai a c row) {args : List BlockId} {x : List (Val V)} (hx : tupleOf h d args = some x) : r.tupleAt args l = .ok x := by
  obtain ⟨d1, d2, d3⟩ := Row.decode_some t.decode t.rowOk
  unfold Reg.tupleAt
  simp only [t.archOf, t.row?]
  exact fetch_spec (by simp [Arch.blocks]) d1 d2 d3 args x hx

/-! ### Calling the function -/

/-- The components after the function has written `muts`. -/
def written (muts : List Nat) (g : Nat → V) (d : Comps V) : Comps V := fun x => if x ∈ muts then some (g x) else d x

/-- The second registry results from the first by assignments to components. -/
inductive Assigns : Reg V → Reg V → Prop
  | refl (r) : Assigns r r
  | step {r r1 r' : Reg V} (h : Handle) (c : Nat) (v : V) : r.assign h c v = .ok r1 () → Assigns r1 r' → Assigns r r'

theorem Assigns.trans {r r1 r2 : Reg V} (h : Assigns r r1) (h' : Assigns r1 r2) : Assigns r r2 := by
  induction h with
  | refl => exact h'
  | step h c v e _ ih => exact .step h c v e (ih h')

theorem writeAll_spec {ty : Types} {k : Nat} {h : Handle} {l : Loc} (g : Nat → V) : ∀ (muts : List Nat) {r : Reg V}
    {W : Handle → Option (Comps V)} {d : Comps V}, Rep ty r k W → W h = some d → r.location h = .ok l → (∀ c ∈ muts, ∃ v, d c = some v) →
    ∃ r', Reg.writeAll l g r muts = some r' ∧ r'.pool = r.pool ∧ r'.locs = r.locs ∧
      Rep ty r' k (World.put W h (some (written muts g d))) ∧ (NoNull r.archs → NoNull r'.archs) ∧ Assigns r r'
  | [], r, W, d, R, hw, _, _ => by
    refine ⟨r, rfl, rfl, rfl, ?_, fun h => h, .refl _⟩
    have : written [] g d = d := by funext x; simp [written]
    rw [this, ← hw, World.put_self]
    exact R
  | c :: cs, r, W, d, R, hw, hl, hm => by
    obtain ⟨ai, a, ch, row, t⟩ := R.at_slot (R.slot_loc.2 ⟨hw, hl⟩)
    have hb : some c ∈ a.blocks := by
      obtain ⟨d1, d2, d3⟩ := Row.decode_some t.decode t.rowOk
      apply Classical.byContradiction
      intro hn
      obtain ⟨v, hv⟩ := hm c (by simp)
      rw [d3 c hn] at hv; cases hv
    obtain ⟨r1, q1, q2, q3, q4, _, q6⟩ := R.writeAt_false t hb (g c)
    have hl1 : r1.location h = .ok l := by
      rw [← hl]; unfold Reg.location Reg.alive; rw [q2, q3]
    obtain ⟨r', w1, w2, w3, w4, w5, w6⟩ := writeAll_spec g cs (d := fun x => if x = c then some (g c) else d x) q4
      (by simp [World.put]) hl1 (by
        intro c' hc'
        by_cases he : c' = c
        · exact ⟨g c, by simp [he]⟩
        · simp only [he, if_false]; exact hm c' (by simp [hc']))
    refine ⟨r', by simp [Reg.writeAll, q1, w1], w2.trans q2, w3.trans q3, ?_, fun hn => w5 (q6 hn), .step h c (g c) ?_ w6⟩
    rotate_left
    · simp [Reg.assign, hl, t.archOf, t.row?, hb, q1]
    rw [World.put_put] at w4
    have : written cs g (fun x => if x = c then some (g c) else d x) = written (c :: cs) g d := by
      funext x
      simp only [written, List.mem_cons]
      by_cases hx : x = c
      · subst hx; simp
      · simp [hx]
    rw [this] at w4
    exact w4

/-- The components of an entity after its call. -/
def called (args : List BlockId) (muts : List Nat) (f : List (Val V) → Nat → V) (h : Handle) (d : Comps V) : Comps V :=
  match tupleOf h d args with
  | none => d
  | some t => written muts (f t) d

theorem eachLocs_spec {ty : Types} {k : Nat} (args : List BlockId) (muts : List Nat) (hmut : ∀ c ∈ muts, some c ∈ args)
    (f : List (Val V) → Nat → V) (loc : Handle → Loc) : ∀ (hs : List Handle) {r : Reg V} {W : Handle → Option (Comps V)},
    Rep ty r k W → hs.Nodup → (∀ h ∈ hs, r.location h = .ok (loc h) ∧ ∃ d, W h = some d ∧ Matches args d) →
    ∃ r' ts, Reg.eachLocs args muts f r (hs.map loc) = .ok r' ts ∧ hs.map (fun h => (W h).bind fun d => tupleOf h d args) = ts.map some ∧
      Rep ty r' k (fun h => if h ∈ hs then (W h).map (called args muts f h) else W h) ∧ r'.pool = r.pool ∧ r'.locs = r.locs ∧
      (NoNull r.archs → NoNull r'.archs) ∧ Assigns r r'
  | [], r, W, R, _, _ => ⟨r, [], rfl, rfl, by simpa using R, rfl, rfl, fun h => h, .refl _⟩
  | h :: hs, r, W, R, hnd, hall => by
    rw [List.nodup_cons] at hnd
    obtain ⟨hl, d, hw, hm⟩ := hall h (by simp)
    obtain ⟨ai, a, c, row, t⟩ := R.at_slot (R.slot_loc.2 ⟨hw, hl⟩)
    obtain ⟨x, hx⟩ := hm.tuple (h := h)
    obtain ⟨r1, q1, q2, q3, q4, q5, q6⟩ := writeAll_spec (f x) muts R hw hl (fun c hc => hm c (hmut c hc))
    obtain ⟨r', ts, w1, w2, w3, w4, w5, w6, w7⟩ := eachLocs_spec args muts hmut f loc hs q4 hnd.2 (by
      intro h' hh'
      obtain ⟨e1, d', e2, e3⟩ := hall h' (by simp [hh'])
      have hne : h' ≠ h := by rintro rfl; exact hnd.1 hh'
      refine ⟨?_, d', by simpa [World.put, hne] using e2, e3⟩
      rw [← e1]; unfold Reg.location Reg.alive; rw [q2, q3])
    refine ⟨r', x :: ts, ?_, ?_, ?_, w4.trans q2, w5.trans q3, fun hn => w6 (q5 hn), q6.trans w7⟩
    · simp [Reg.eachLocs, t.tupleAt hx, q1, w1]
    · simp only [List.map_cons, hw, Option.bind_some, hx]
      congr 1
      rw [← w2]
      apply List.map_congr_left
      intro h' hh'
      have hne : h' ≠ h := by rintro rfl; exact hnd.1 hh'
      simp [World.put, hne]
    · have : (fun h' => if h' ∈ hs then (World.put W h (some (written muts (f x) d)) h').map (called args muts f h')
          else World.put W h (some (written muts (f x) d)) h') =
          fun h' => if h' ∈ h :: hs then (W h').map (called args muts f h') else W h' := by
        funext h'
        by_cases he : h' = h
        · subst he
          simp [World.put, hnd.1, hw, called, hx]
        · simp [World.put, he]
      rw [this] at w3
      exact w3

/-! ### Whole iterations -/

/-- The locations of a list of visited entries in terms of their entities. -/
theorem Rep.handles {ty : Types} {r : Reg V} {k : Nat} {W : Handle → Option (Comps V)} (R : Rep ty r k W) {args : List BlockId} :
    ∀ {ls : List Loc}, ls.Nodup → (∀ l ∈ ls, ∃ h d, slots r.archs.arches l = some (h, d) ∧ Matches args d) →
    ∃ (hs : List Handle) (loc : Handle → Loc), hs.map loc = ls ∧ hs.Nodup ∧
      (∀ h, h ∈ hs ↔ ∃ l ∈ ls, r.location h = .ok l ∧ ∃ d, W h = some d) ∧
      ∀ h ∈ hs, r.location h = .ok (loc h) ∧ ∃ d, W h = some d ∧ Matches args d := by
  intro ls hnd hall
  let loc : Handle → Loc := fun h => match r.location h with | .ok l => l | _ => Loc.null
  have key : ∀ {ls : List Loc}, ls.Nodup → (∀ l ∈ ls, ∃ h d, slots r.archs.arches l = some (h, d) ∧ Matches args d) →
      ∃ hs : List Handle, hs.map loc = ls ∧ hs.Nodup ∧ (∀ h, h ∈ hs ↔ ∃ l ∈ ls, r.location h = .ok l ∧ ∃ d, W h = some d) ∧
      ∀ h ∈ hs, r.location h = .ok (loc h) ∧ ∃ d, W h = some d ∧ Matches args d := by
    intro ls
    induction ls with
    | nil => intro _ _; exact ⟨[], rfl, by simp, by simp, by simp⟩
    | cons l ls ih =>
      intro hnd hall
      rw [List.nodup_cons] at hnd
      obtain ⟨hs, h1, h2, h3, h4⟩ := ih hnd.2 (fun l' hl' => hall l' (by simp [hl']))
      obtain ⟨h, d, q1, q2⟩ := hall l (by simp)
      obtain ⟨q3, q4⟩ := R.slot_loc.1 q1
      have hlo : loc h = l := by simp [loc, q4]
      refine ⟨h :: hs, by simp [hlo, h1], ?_, ?_, ?_⟩
      · rw [List.nodup_cons]
        refine ⟨fun hh => ?_, h2⟩
        obtain ⟨l', hl', e, _⟩ := (h3 h).1 hh
        rw [q4] at e; cases e
        exact hnd.1 hl'
      · intro h'
        rw [List.mem_cons, h3]
        constructor
        · rintro (rfl | ⟨l', e1, e2⟩)
          · exact ⟨l, by simp, q4, d, q3⟩
          · exact ⟨l', by simp [e1], e2⟩
        · rintro ⟨l', e1, e2, d', e3⟩
          rw [List.mem_cons] at e1
          rcases e1 with rfl | e1
          · left
            have := R.slot_loc.2 ⟨e3, e2⟩
            rw [q1] at this; cases this; rfl
          · exact .inr ⟨l', e1, e2, d', e3⟩
      · intro h' hh'
        rw [List.mem_cons] at hh'
        rcases hh' with rfl | hh'
        · exact ⟨by rw [hlo]; exact q4, d, q3, q2⟩
        · exact h4 h' hh'
  obtain ⟨hs, h1⟩ := key hnd hall
  exact ⟨hs, loc, h1⟩

/-- Iteration over any arrangement of the entries of a view. -/
theorem Rep.eachPerm {ty : Types} {r : Reg V} {k : Nat} {W : Handle → Option (Comps V)} (R : Rep ty r k W) (hn : NoNull r.archs)
    (args : List BlockId) (muts : List Nat) (hmut : ∀ c ∈ muts, some c ∈ args) (f : List (Val V) → Nat → V) {cs : List (List Loc)}
    (hcs : r.viewChunks args = some cs) {ls : List Loc} (hp : ls.Perm cs.flatten) :
    ∃ (r' : Reg V) (ts : List (List (Val V))) (hs : List Handle), Reg.eachLocs args muts f r ls = .ok r' ts ∧ hs.Nodup ∧ (∀ h, h ∈ hs ↔ ∃ d, W h = some d ∧ Matches args d) ∧
      hs.map (fun h => (W h).bind fun d => tupleOf h d args) = ts.map some ∧
      Rep ty r' k (fun h => if h ∈ hs then (W h).map (called args muts f h) else W h) ∧ r'.pool = r.pool ∧ NoNull r'.archs ∧ Assigns r r' := by
  obtain ⟨cs', c1, c2, c3⟩ := R.view hn args
  rw [hcs] at c1; cases c1
  obtain ⟨hs, loc, h1, h2, h3, h4⟩ := R.handles (args := args) (hp.nodup_iff.2 c2) (fun l hl => (c3 l).1 (hp.mem_iff.1 hl))
  obtain ⟨r', ts, w1, w2, w3, w4, _, w6, w7⟩ := eachLocs_spec args muts hmut f loc hs R h2 h4
  rw [h1] at w1
  refine ⟨r', ts, hs, w1, h2, fun h => ⟨fun hh => (h4 h hh).2, ?_⟩, w2, w3, w4, w6 hn, w7⟩
  rintro ⟨d, hd, hm⟩
  obtain ⟨l, ai, a, c, row, t⟩ := R.at_ hd
  exact (h3 h).2 ⟨l, hp.mem_iff.2 ((c3 l).2 ⟨h, d, t.slot, hm⟩), t.loc, d, hd⟩

theorem Rep.each {ty : Types} {r : Reg V} {k : Nat} {W : Handle → Option (Comps V)} (R : Rep ty r k W) (hn : NoNull r.archs)
    (args : List BlockId) (muts : List Nat) (hmut : ∀ c ∈ muts, some c ∈ args) (f : List (Val V) → Nat → V) :
    ∃ (r' : Reg V) (ts : List (List (Val V))) (hs : List Handle), r.each args muts f = .ok r' ts ∧ hs.Nodup ∧ (∀ h, h ∈ hs ↔ ∃ d, W h = some d ∧ Matches args d) ∧
      hs.map (fun h => (W h).bind fun d => tupleOf h d args) = ts.map some ∧
      Rep ty r' k (fun h => if h ∈ hs then (W h).map (called args muts f h) else W h) ∧ r'.pool = r.pool ∧ NoNull r'.archs ∧ Assigns r r' := by
  obtain ⟨cs, c1, _, _⟩ := R.view hn args
  obtain ⟨r', ts, hs, w⟩ := R.eachPerm hn args muts hmut f c1 (List.Perm.refl _)
  exact ⟨r', ts, hs, by simp [Reg.each, c1, w.1], w.2⟩

theorem firstOf_spec {r : Reg V} {args : List BlockId} : ∀ {ps : List (Option Nat)} {cs : List (List Loc)}, r.viewChunksOf args ps = some cs →
    r.firstOf args ps = some cs.flatten.head?
  | [], cs, h => by simp [Reg.viewChunksOf] at h; subst h; rfl
  | none :: _, cs, h => by simp [Reg.viewChunksOf] at h
  | some ai :: ps, cs, h => by
    unfold Reg.viewChunksOf at h
    unfold Reg.firstOf
    cases ha : r.archs.arches[ai]? with
    | none => simp [ha] at h
    | some a =>
      cases hr : r.viewChunksOf args ps with
      | none => simp [ha, hr] at h
      | some rest =>
        simp only [ha, hr, Option.some.injEq] at h
        subst h
        have ih := firstOf_spec hr
        simp only
        by_cases hall : args.all (Reg.matchArg a) = true
        · simp only [hall, if_true, List.flatten_append]
          cases hf : (Reg.chunkLocs ai a).flatten with
          | nil => simp [ih]
          | cons x xs => simp
        · simp only [hall, if_false, ih]; rfl

theorem Rep.single {ty : Types} {r : Reg V} {k : Nat} {W : Handle → Option (Comps V)} (R : Rep ty r k W) (hn : NoNull r.archs)
    (args : List BlockId) :
    (r.single args = .ok none ∧ ∀ h d, W h = some d → ¬ Matches args d) ∨
    ∃ h d t, W h = some d ∧ Matches args d ∧ tupleOf h d args = some t ∧ r.single args = .ok (some t) := by
  obtain ⟨cs, c1, c2, c3⟩ := R.view hn args
  obtain ⟨ps, p1, _⟩ := R.viewPtrs
  have hf : r.firstOf args ps = some cs.flatten.head? := by
    simp only [Reg.viewChunks, p1] at c1
    exact firstOf_spec c1
  unfold Reg.single
  simp only [p1, hf]
  cases hl : cs.flatten with
  | nil =>
    left
    refine ⟨by simp, fun h d hd hm => ?_⟩
    obtain ⟨l, ai, a, c, row, t⟩ := R.at_ hd
    have := (c3 l).2 ⟨h, d, t.slot, hm⟩
    rw [hl] at this; cases this
  | cons l ls =>
    right
    obtain ⟨h, d, q1, q2⟩ := (c3 l).1 (by simp [hl])
    obtain ⟨ai, a, c, row, t⟩ := R.at_slot q1
    obtain ⟨x, hx⟩ := q2.tuple (h := h)
    exact ⟨h, d, x, (R.holds h d).1 ⟨l, q1⟩, q2, hx, by simp [t.tupleAt hx]⟩

end CoEcs
