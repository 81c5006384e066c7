import Verif.Props.ViewOrder
import Verif.Props.ViewOthers
import Verif.Proofs.BuffersLoc

/-!
# What calls do to the order of the other entities (C120)
-/

namespace CoEcs.Props
open CoEcs Spec

variable {V : Type} {ty : Types} {s : Sys V} {W : Spec.World V}

/-! ## The locations of a view are sorted -/

/-- Where in the order a location comes, given the positions of the archetypes. -/
def Earlier (pos : Option Nat → Nat) (l l' : Loc) : Prop :=
  pos l.arch < pos l'.arch ∨ (l.arch = l'.arch ∧ (l.chunk < l'.chunk ∨ (l.chunk = l'.chunk ∧ l.entry < l'.entry)))

theorem earlier_asymm {pos : Option Nat → Nat} {l l' : Loc} (h : Earlier pos l l') (h' : Earlier pos l' l) : False := by
  unfold Earlier at h h'
  rcases h with h | ⟨e, h⟩ <;> rcases h' with h' | ⟨e', h'⟩
  · omega
  · rw [e'] at h; omega
  · rw [e] at h'; omega
  · omega

theorem chunkLocs_sorted (pos : Option Nat → Nat) (ai : Nat) (a : Arch V) : (Reg.chunkLocs ai a).flatten.Pairwise (Earlier pos) := by
  unfold Reg.chunkLocs
  rw [List.pairwise_flatten]
  constructor
  · intro ls h1
    obtain ⟨ci, hc, rfl⟩ := List.mem_mapIdx.1 h1
    rw [List.pairwise_map]
    exact List.pairwise_lt_range.imp fun h => .inr ⟨rfl, .inr ⟨rfl, h⟩⟩
  · rw [List.pairwise_iff_getElem]
    intro i j hi hj hij x hx y hy
    simp only [List.getElem_mapIdx, List.mem_map] at hx hy
    obtain ⟨_, _, rfl⟩ := hx
    obtain ⟨_, _, rfl⟩ := hy
    exact .inr ⟨rfl, .inl hij⟩

theorem viewChunksOf_sorted {r : Reg V} {args : List BlockId} (pos : Option Nat → Nat) : ∀ {ps : List (Option Nat)} {cs : List (List Loc)},
    r.viewChunksOf args ps = some cs → ps.Pairwise (fun p q => pos p < pos q) →
    (∀ l ∈ cs.flatten, l.arch ∈ ps) ∧ cs.flatten.Pairwise (Earlier pos)
  | [], cs, h, _ => by simp [Reg.viewChunksOf] at h; subst h; simp
  | none :: _, cs, h, _ => by simp [Reg.viewChunksOf] at h
  | some ai :: ps, cs, h, hp => by
    unfold Reg.viewChunksOf at h
    rw [List.pairwise_cons] at hp
    cases ha : r.archs.arches[ai]? with
    | none => simp [ha] at h
    | some a =>
      cases h1 : r.viewChunksOf args ps with
      | none => simp [ha, h1] at h
      | some rest =>
        obtain ⟨i1, i2⟩ := viewChunksOf_sorted pos h1 hp.2
        simp only [ha, h1, Option.some.injEq] at h
        subst h
        split
        · rw [List.flatten_append]
          refine ⟨fun l hl => ?_, List.pairwise_append.2 ⟨chunkLocs_sorted pos ai a, i2, fun x hx y hy => .inl ?_⟩⟩
          · rw [List.mem_append] at hl
            rcases hl with hl | hl
            · simp [(mem_chunkLocs.1 hl).1]
            · exact List.mem_cons_of_mem _ (i1 l hl)
          · rw [(mem_chunkLocs.1 hx).1]
            exact hp.1 _ (i1 y hy)
        · exact ⟨fun l hl => List.mem_cons_of_mem _ (i1 l hl), i2⟩

theorem nodup_positions {ps : List (Option Nat)} (h : ps.Nodup) : ps.Pairwise fun p q => ps.idxOf p < ps.idxOf q := by
  rw [List.pairwise_iff_getElem]
  intro i j hi hj hij
  rw [h.idxOf_getElem, h.idxOf_getElem]
  exact hij

/-- Where an entity is. -/
def locOf (r : Reg V) (h : Handle) : Loc := match r.location h with | .ok l => l | _ => Loc.null

/-- The order is the one by location. -/
theorem order_sorted [Nonempty V] {r : Reg V} {k : Nat} {W : Handle → Option (Comps V)} (R : Rep ty r k W) (hn : NoNull r.archs) {order : List Handle}
    (ho : IsOrder r order) {ps : List (Option Nat)} (hps : r.viewPtrs = some ps) :
    (∀ h, h ∈ order ↔ ∃ d, W h = some d) ∧ order.Pairwise (fun a b => Earlier ps.idxOf (locOf r a) (locOf r b)) := by
  have mem : ∀ h, h ∈ order ↔ ∃ d, W h = some d := by
    intro h
    rw [ho.mem, show ([] : List Nat) = compsOf [] from rfl, R.matches_iff]
    exact ⟨fun ⟨d, x, _⟩ => ⟨d, x⟩, fun ⟨d, x⟩ => ⟨d, x, fun c hc => by cases hc⟩⟩
  refine ⟨mem, ?_⟩
  obtain ⟨cs, c1, c2, c3⟩ := R.view hn [none]
  obtain ⟨hs, loc, h1, h2, h3, h4⟩ := R.handles (args := [none]) c2 (fun l hl => (c3 l).1 hl)
  let f : List (Val V) → Nat → V := fun _ _ => Classical.choice ‹Nonempty V›
  obtain ⟨r1, ts, w1, w2, _⟩ := eachLocs_spec [none] [] (by simp) f loc hs R h2 h4
  obtain ⟨r2, calls, e1, e2⟩ := ho.views.1 [none] [] f (by simp)
  have e3 : calls = ts := by
    simp only [Reg.each, c1, ← h1, w1, Res.ok.injEq] at e1
    exact e1.2.symm
  have e4 : order.filter (shown r [none]) = order := by
    refine List.filter_eq_self.2 fun h hh => ?_
    obtain ⟨d, hd⟩ := (mem h).1 hh
    exact (shown_iff R hd [none]).2 fun c hc => by simp at hc
  have e5 : hs.map (callOf r [none]) = hs.map (fun h => (W h).bind fun d => tupleOf h d [none]) := by
    apply List.map_congr_left
    intro h hh
    obtain ⟨_, d, hd, _⟩ := h4 h hh
    rw [R.callOf hd, hd]; rfl
  have e6 : order = hs := by
    have : order.map (callOf r [none]) = hs.map (callOf r [none]) := by rw [e5, w2, ← e3, ← e2, e4]
    refine (List.map_inj_right fun x y hxy => ?_).1 this
    have c : ∀ h, callOf r [none] h = some [.ent h] := fun _ => rfl
    rw [c, c] at hxy
    simpa using hxy
  subst e6
  have hpn : ps.Nodup := by
    obtain ⟨ps', p1, _, _, p4, p5, _⟩ := R.viewPtrs
    rw [hps] at p1; cases p1
    exact p5 (p4 hn)
  have hso : cs.flatten.Pairwise (Earlier ps.idxOf) := by
    simp only [Reg.viewChunks, hps] at c1
    exact (viewChunksOf_sorted _ c1 (nodup_positions hpn)).2
  rw [← h1, List.pairwise_map] at hso
  refine hso.imp_of_mem fun {a b} ha hb h => ?_
  have la : locOf r a = loc a := by simp [locOf, (h4 a ha).1]
  have lb : locOf r b = loc b := by simp [locOf, (h4 b hb).1]
  rw [la, lb]; exact h

/-- Entities that stay where they are keep their order if the table of archetypes is the same. -/
theorem order_kept [Nonempty V] {r r' : Reg V} {k k' : Nat} {W W' : Handle → Option (Comps V)} (R : Rep ty r k W) (R' : Rep ty r' k' W')
    (hn : NoNull r.archs) (hn' : NoNull r'.archs) (hm : r'.archs.map = r.archs.map) {order order' : List Handle} (ho : IsOrder r order)
    (ho' : IsOrder r' order') (K : Handle → Bool) (hK : ∀ h, K h = true → ((∃ d, W h = some d) ↔ ∃ d, W' h = some d))
    (hL : ∀ h d, K h = true → W h = some d → r'.locs.at_ h.id = r.locs.at_ h.id) : order'.filter K = order.filter K := by
  obtain ⟨ps, p1, _⟩ := R.viewPtrs
  have p2 : r'.viewPtrs = some ps := by rw [← p1]; simp [Reg.viewPtrs, hm]
  obtain ⟨m1, s1⟩ := order_sorted R hn ho p1
  obtain ⟨m2, s2⟩ := order_sorted R' hn' ho' p2
  have loc : ∀ h ∈ order'.filter K, locOf r' h = locOf r h := by
    intro h hh
    rw [List.mem_filter, m2] at hh
    obtain ⟨⟨d', hd'⟩, hk⟩ := hh
    obtain ⟨d, hd⟩ := (hK h hk).2 ⟨d', hd'⟩
    obtain ⟨l, _, _, _, _, t⟩ := R.at_ hd
    obtain ⟨l', _, _, _, _, t'⟩ := R'.at_ hd'
    have a1 := t.loc
    have a2 := t'.loc
    unfold Reg.location at a1 a2
    split at a1
    · split at a2
      · rw [hL h d hk hd, a1] at a2
        cases a2
        simp [locOf, t.loc, t'.loc]
      · cases a2
    · cases a1
  refine List.Perm.eq_of_pairwise (le := fun a b => Earlier ps.idxOf (locOf r a) (locOf r b)) ?_ ?_ (s1.filter _) ?_
  · intro a b _ _ h h'
    exact (earlier_asymm h h').elim
  · refine (s2.filter K).imp_of_mem fun {a b} ha hb h => ?_
    rw [← loc a ha, ← loc b hb]; exact h
  · rw [List.perm_ext_iff_of_nodup (ho'.nodup.filter _) (ho.nodup.filter _)]
    intro h
    rw [List.mem_filter, List.mem_filter, m1, m2]
    constructor
    · rintro ⟨x, hk⟩; exact ⟨(hK h hk).2 x, hk⟩
    · rintro ⟨x, hk⟩; exact ⟨(hK h hk).1 x, hk⟩

/-! ## The calls -/

theorem exists_order {r : Reg V} {k : Nat} {W : Handle → Option (Comps V)} (R : Rep ty r k W) (hn : NoNull r.archs) :
    ∃ order, IsOrder r order := by
  obtain ⟨cs0, c1, c2, c3⟩ := R.view hn []
  obtain ⟨hs, loc, h1, h2, h3, h4⟩ := R.handles (args := []) c2 (fun l hl => (c3 l).1 hl)
  refine ⟨hs, h2, fun h => ?_, inOrder R hn c1 h1 h2 (fun h hh => ⟨(h4 h hh).1, (h4 h hh).2.imp fun _ x => x.1⟩)⟩
  rw [show ([] : List Nat) = compsOf [] from rfl, R.matches_iff h []]
  refine ⟨fun hh => (h4 h hh).2, ?_⟩
  rintro ⟨d, hd, hm⟩
  obtain ⟨l, ai, a, c, row, t⟩ := R.at_ hd
  exact (h3 h).2 ⟨l, (c3 l).2 ⟨h, d, t.slot, hm⟩, t.loc, d, hd⟩

theorem rep_id_inj {r : Reg V} {k : Nat} {W : Handle → Option (Comps V)} (R : Rep ty r k W) {g h : Handle} {d e : Comps V} (hg : W g = some d)
    (hh : W h = some e) (hid : g.id = h.id) : g = h := by
  obtain ⟨lg, _, _, _, _, tg⟩ := R.at_ hg
  obtain ⟨lh, _, _, _, _, th⟩ := R.at_ hh
  obtain ⟨lm, hlm, L⟩ := R.link
  exact L.id_inj tg.slot th.slot hid

/-- A component that the entity does not have. -/
theorem exists_absent {r : Reg V} {k : Nat} {W : Handle → Option (Comps V)} (R : Rep ty r k W) {h : Handle} {d : Comps V} (hw : W h = some d)
    (x : Nat) : ∃ c, d c = none ∧ c ≠ x := by
  obtain ⟨l, ai, a, c, row, t⟩ := R.at_ hw
  have big : ∀ L : List BlockId, ∃ n, ∀ c, some c ∈ L → c < n := by
    intro L
    induction L with
    | nil => exact ⟨0, by simp⟩
    | cons b L ih =>
      obtain ⟨n, hn⟩ := ih
      refine ⟨n + b.getD 0 + 1, fun c hc => ?_⟩
      rw [List.mem_cons] at hc
      rcases hc with rfl | hc
      · simp; omega
      · have := hn c hc; omega
  obtain ⟨n, hn⟩ := big a.blocks
  refine ⟨n + x + 1, ?_, by omega⟩
  apply Classical.byContradiction
  intro hne
  have := hn _ ((t.mem_iff _).2 hne)
  omega

/-- Everything about one call. -/
theorem call_keeps [Nonempty V] {r r' : Reg V} {W : Handle → Option (Comps V)} (R : Rep ty r 0 W) (hn : NoNull r.archs) {op : CbOp V} {h : Handle}
    (hd : op.Did ty r r' h) (hl : r'.archs.arches.length = r.archs.arches.length) :
    ∃ W', Rep ty r' 0 W' ∧ NoNull r'.archs ∧ r'.archs.map = r.archs.map ∧ (∀ g, g ≠ h → W' g = W g) ∧
      ∃ m : Option Handle, ((∃ vals, op = .create vals) → m = none) ∧
        ∀ g d, g ≠ h → some g ≠ m → W g = some d → r'.locs.at_ g.id = r.locs.at_ g.id := by
  have moves : ∀ {r' : Reg V} {d : Comps V}, W h = some d → r.Moves r' h → ∃ m : Option Handle,
      ∀ g d, g ≠ h → some g ≠ m → W g = some d → r'.locs.at_ g.id = r.locs.at_ g.id := by
    rintro r' d hw ⟨l, ai, a, h1, h2, h3, h4⟩
    rcases h4 with h4 | ⟨m, pc, pj, q1, q2, q3, q4⟩
    · exact ⟨none, fun g e hg _ hwg => h4 _ fun hid => hg (rep_id_inj R hwg hw hid)⟩
    · obtain ⟨⟨dm, hm, _⟩, _⟩ := R.lastIs h3 q2
      exact ⟨some m, fun g e hg hgm hwg => q4 _ (fun hid => hg (rep_id_inj R hwg hw hid)) fun hid => hgm (by rw [rep_id_inj R hwg hm hid])⟩
  have other : ∀ {x : Option (Comps V)} g, g ≠ h → World.put W h x g = W g := by
    intro x g hg
    simp [World.put, hg]
  cases hd with
  | @create vals _ h1 h2 h3 =>
    obtain ⟨p, h', g1, g2, g3, g4, g5, g⟩ := R.create h2 h1
    rcases g with ⟨r1, q1, q2, R1, q3, q4⟩ | ⟨r1, q1, _⟩
    · rw [h3] at q1; cases q1
      have hw' : World.put W h (some (Row.argVal vals)) h = some (Row.argVal vals) := by simp [World.put]
      obtain ⟨c, hc, _⟩ := exists_absent R1 hw' 0
      have st := (R.create_still (args := [some c]) h1 h2 h3 hl (by
        rw [ne_eq, R1.matches_iff]
        rintro ⟨d, hd, hm⟩
        rw [hw'] at hd; cases hd
        obtain ⟨v, hv⟩ := hm c (by simp)
        rw [hc] at hv; cases hv)).1
      refine ⟨_, R1, q4 hn, st.map, other, none, fun _ => rfl, fun g d hg _ hwg => ?_⟩
      refine create_but R.locsOk ?_ h3 _ (g4 g (R.held hwg)).2
      have a1 := g2.lt
      rw [← q2] at a1
      have a2 := R1.pool.gens_le
      have a3 := R1.small
      omega
    · rw [h3] at q1; cases q1
  | destroy h3 =>
    cases hw : W h with
    | none => rw [R.destroy_none hw] at h3; cases h3
    | some d =>
      obtain ⟨c, hc, _⟩ := exists_absent R hw 0
      obtain ⟨st, R1⟩ := R.destroy_still (args := [some c]) h3 (by
        intro e he hm
        rw [hw] at he; cases he
        obtain ⟨v, hv⟩ := hm c (by simp)
        rw [hc] at hv; cases hv)
      obtain ⟨m, hm⟩ := moves hw (destroy_moves R h3)
      have hnn : NoNull r'.archs := by
        rcases R.destroy hw with ⟨q, _⟩ | ⟨r1, q1, _, _, _, q2⟩
        · rw [h3] at q; cases q
        · rw [h3] at q1; cases q1; exact q2 hn
      exact ⟨_, R1, hnn, st.map, other, m, fun ⟨_, h⟩ => by (cases h), hm⟩
  | @set _ cid v h3 =>
    cases hw : W h with
    | none => rw [R.set_none hw] at h3; cases h3
    | some d =>
      rcases R.set hw cid v with ⟨q, _⟩ | ⟨r1, q1, q2, R1, q3, q4⟩ | ⟨r1, q1, _⟩
      · rw [h3] at q; cases q
      · rw [h3] at q1; cases q1
        obtain ⟨c, hc, hne⟩ := exists_absent R hw cid
        have st := (R.set_still (args := [some c]) h3 hl (by
          rw [ne_eq, R.matches_iff]
          rintro ⟨e, he, hm⟩
          rw [hw] at he; cases he
          obtain ⟨v, hv⟩ := hm c (by simp)
          rw [hc] at hv; cases hv) (by
          rw [ne_eq, R1.matches_iff]
          rintro ⟨e, he, hm⟩
          simp only [World.put, if_true, Option.some.injEq] at he; subst he
          obtain ⟨v, hv⟩ := hm c (by simp)
          simp [hne, hc] at hv)).1
        obtain ⟨m, hm⟩ : ∃ m : Option Handle, ∀ g d, g ≠ h → some g ≠ m → W g = some d → r'.locs.at_ g.id = r.locs.at_ g.id := by
          rcases set_moves R h3 with ⟨q, _⟩ | ⟨q, _⟩
          · exact ⟨none, fun g _ _ _ _ => by rw [q]⟩
          · exact moves hw q
        exact ⟨_, R1, q4 hn, st.map, other, m, fun ⟨_, h⟩ => by (cases h), hm⟩
      · rw [h3] at q1; cases q1
  | @remove _ cid h3 =>
    cases hw : W h with
    | none => rw [R.remove_none hw] at h3; cases h3
    | some d =>
      rcases R.remove hw cid with ⟨q0, q⟩ | ⟨q0, ⟨q, _⟩ | ⟨r1, q1, q2, R1, q3, q4⟩ | ⟨r1, q1, _⟩⟩
      · rw [h3] at q; cases q
        exact ⟨_, R, hn, rfl, fun _ _ => rfl, none, fun _ => rfl, fun _ _ _ _ _ => rfl⟩
      · rw [h3] at q; cases q
      · rw [h3] at q1; cases q1
        obtain ⟨c, hc, hne⟩ := exists_absent R hw cid
        have st := (R.remove_still (args := [some c]) h3 hl (by
          rw [ne_eq, R.matches_iff]
          rintro ⟨e, he, hm⟩
          rw [hw] at he; cases he
          obtain ⟨v, hv⟩ := hm c (by simp)
          rw [hc] at hv; cases hv)).1
        obtain ⟨m, hm⟩ : ∃ m : Option Handle, ∀ g d, g ≠ h → some g ≠ m → W g = some d → r'.locs.at_ g.id = r.locs.at_ g.id := by
          rcases remove_moves R h3 with ⟨q, _⟩ | ⟨q, _⟩
          · exact ⟨none, fun g _ _ _ _ => by rw [q]⟩
          · exact moves hw q
        exact ⟨_, R1, q4 hn, st.map, other, m, fun ⟨_, h⟩ => by (cases h), hm⟩
      · rw [h3] at q1; cases q1

/-- **C120** (calls that need no new archetype, after histories in which every component list fitted): after a creation all other entities are
in the same order; after the other calls all are but the entity itself and at most one more. -/
theorem C120_partial [Nonempty V] (hr : Reach ty (NoFailedFit ty) s W) (i : Nat) (hp : s.pend i = 0) {op : CbOp V} {h : Handle} {r' : Reg V}
    (hd : op.Did ty (s.reg i) r' h) (hl : r'.archs.arches.length = (s.reg i).archs.arches.length) {order : List Handle}
    (ho : IsOrder (s.reg i) order) :
    ∃ order' m, IsOrder r' order' ∧ ((∃ vals, op = .create vals) → m = none) ∧
      order'.filter (fun g => g ≠ h ∧ some g ≠ m) = order.filter (fun g => g ≠ h ∧ some g ≠ m) := by
  have R := (hr.inv i).rep
  rw [hp] at R
  have hn := Reach.noNull hr (fun _ _ h => h) i
  obtain ⟨W', R', hn', hmap, hw, m, hm, hloc⟩ := call_keeps R hn hd hl
  obtain ⟨order', ho'⟩ := exists_order R' hn'
  refine ⟨order', m, ho', hm, order_kept R R' hn hn' hmap ho ho' _ (fun g hg => ?_) fun g d hg hwg => ?_⟩
  · have : g ≠ h := by simp at hg; exact hg.1
    rw [hw g this]
  · simp at hg
    exact hloc g d hg.1 hg.2 hwg

/-- The order is what a view that asks for the entities only shows. -/
theorem order_eq {r r1 : Reg V} {f : List (Val V) → Nat → V} {order hs : List Handle} (ho : IsOrder r order)
    (he : r.each [none] [] f = .ok r1 (hs.map fun h => [.ent h])) : order = hs := by
  obtain ⟨r2, calls, e1, e2⟩ := ho.views.1 [none] [] f (by simp)
  rw [he] at e1
  cases e1
  have e4 : order.filter (shown r [none]) = order := by
    refine List.filter_eq_self.2 fun h hh => ?_
    have := (ho.mem h).1 hh
    simp [shown, compsOf, this]
  rw [e4, List.map_map] at e2
  refine (List.map_inj_right fun x y hxy => ?_).1 e2
  have c : ∀ h, callOf r [none] h = some [.ent h] := fun _ => rfl
  rw [c, c] at hxy
  simpa using hxy

/-- What the view shows, for computation. -/
def showsExactly (r : Reg Nat) (hs : List Handle) : Bool :=
  match r.each [none] [] (fun _ c => c) with
  | .ok _ calls => decide (calls = hs.map fun h => [.ent h])
  | _ => false

theorem order_shown {r : Reg Nat} {order hs : List Handle} (ho : IsOrder r order) (h : showsExactly r hs = true) : order = hs := by
  unfold showsExactly at h
  split at h
  · rename_i r1 calls he
    rw [decide_eq_true_eq] at h
    exact order_eq ho (he.trans (by rw [h]))
  · cases h

/-- Three entities with the same components. -/
def threeSame : List (SysOp Nat) := [.on 0 (.create [(0, 1)]), .on 0 (.create [(0, 2)]), .on 0 (.create [(0, 3)])]

theorem threeSame_isSome : (execFit smallTy Sys.init (fun _ _ => none) threeSame).isSome = true := by decide +kernel

/-- **C120 is violated** by `destroy`: the last entity takes the place of the first. -/
theorem C120_destroy_violated : ∃ (s : Sys Nat) (W : Spec.World Nat) (r' : Reg Nat) (h : Handle) (order order' : List Handle),
    Reach smallTy (NoFailedFit smallTy) s W ∧ (s.reg 0).destroy h = .ok r' () ∧ IsOrder (s.reg 0) order ∧ IsOrder r' order' ∧
      order.filter (fun g => g ≠ h) ≠ order'.filter (fun g => g ≠ h) := by
  have hr := execFit_reach threeSame .init (Option.some_get threeSame_isSome).symm
  obtain ⟨order, ho, _⟩ := C119_partial hr 0
  have hc : (match (((execFit smallTy Sys.init (fun _ _ => none) threeSame).get threeSame_isSome).1.reg 0).destroy ⟨0, 0⟩ with
    | .ok r' _ => decide (r'.archs.arches.length =
          (((execFit smallTy Sys.init (fun _ _ => none) threeSame).get threeSame_isSome).1.reg 0).archs.arches.length) &&
        showsExactly r' [⟨2, 0⟩, ⟨1, 0⟩]
    | _ => false) = true := by decide +kernel
  split at hc
  · rename_i r' _ hd
    rw [Bool.and_eq_true, decide_eq_true_eq] at hc
    obtain ⟨order', m, ho', _⟩ := C120_partial hr 0 (by decide +kernel) (.destroy hd) hc.1 ho
    refine ⟨_, _, r', ⟨0, 0⟩, order, order', hr, hd, ho, ho', ?_⟩
    rw [order_shown ho' hc.2, order_shown ho (hs := [⟨0, 0⟩, ⟨1, 0⟩, ⟨2, 0⟩]) (by decide +kernel)]
    decide
  · cases hc

/-- Three entities with different component sets. -/
def threeSets : List (SysOp Nat) := [.on 0 (.create [(0, 1)]), .on 0 (.create [(4, 1)]), .on 0 (.create [(0, 1), (4, 1)])]

theorem threeSets_isSome : (execFit smallTy Sys.init (fun _ _ => none) threeSets).isSome = true := by decide +kernel

theorem create_reorders {s : Sys Nat} {W : Spec.World Nat} (hr : Reach smallTy (NoFailedFit smallTy) s W) (hp : s.pend 0 = 0)
    (hb : (s.reg 0).pool.nextId + 1 < U32) {hs hs' : List Handle} {h0 : Handle} (h1 : showsExactly (s.reg 0) hs = true)
    (hc : (match (s.reg 0).create smallTy [(5, 1)] with
      | .ok r' h => decide (h = h0) && showsExactly r' hs'
      | _ => false) = true) (hne : hs.filter (fun g => g ≠ h0) ≠ hs'.filter (fun g => g ≠ h0)) :
    ∃ (r' : Reg Nat) (h : Handle) (order order' : List Handle), (s.reg 0).create smallTy [(5, 1)] = .ok r' h ∧ IsOrder (s.reg 0) order ∧
      IsOrder r' order' ∧ order.filter (fun g => g ≠ h) ≠ order'.filter (fun g => g ≠ h) := by
  obtain ⟨order, ho, _⟩ := C119_partial hr 0
  have R := (hr.inv 0).rep
  rw [hp] at R
  have hn := Reach.noNull hr (fun _ _ h => h) 0
  obtain ⟨p, h', g1, g2, g3, g4, g5, g⟩ := R.create (args := [(5, 1)]) hb (by decide)
  rcases g with ⟨r1, q1, q2, R1, q3, q4⟩ | ⟨r1, q1, _⟩
  · rw [q1] at hc
    simp only [Bool.and_eq_true, decide_eq_true_eq] at hc
    obtain ⟨rfl, hc⟩ := hc
    obtain ⟨order', ho'⟩ := exists_order R1 (q4 hn)
    refine ⟨r1, _, order, order', q1, ho, ho', ?_⟩
    rw [order_shown ho' hc, order_shown ho h1]
    exact hne
  · rw [q1] at hc; cases hc

/-- **C120 is violated** by `create` if it needs a new archetype: putting it into the table of archetypes moves others, and two entities that have
nothing to do with it change their order. -/
theorem C120_create_violated : ∃ (s : Sys Nat) (W : Spec.World Nat), Reach smallTy (NoFailedFit smallTy) s W ∧
    ∃ (r' : Reg Nat) (h : Handle) (order order' : List Handle), (s.reg 0).create smallTy [(5, 1)] = .ok r' h ∧ IsOrder (s.reg 0) order ∧
      IsOrder r' order' ∧ order.filter (fun g => g ≠ h) ≠ order'.filter (fun g => g ≠ h) := by
  have hr := execFit_reach threeSets .init (Option.some_get threeSets_isSome).symm
  refine ⟨_, _, hr, create_reorders (hs := [⟨1, 0⟩, ⟨0, 0⟩, ⟨2, 0⟩]) (hs' := [⟨1, 0⟩, ⟨3, 0⟩, ⟨2, 0⟩, ⟨0, 0⟩]) (h0 := ⟨3, 0⟩) hr ?_ ?_ ?_ ?_ ?_⟩
  · decide +kernel
  · decide +kernel
  · decide +kernel
  · decide +kernel
  · decide

theorem create_fits {s : Sys Nat} (hb : (s.reg 0).pool.nextId + 1 < U32) {hs' : List Handle}
    (hc : (match (s.reg 0).create smallTy [(4, 2)] with
      | .ok r' _ => decide (r'.archs.arches.length = (s.reg 0).archs.arches.length) && showsExactly r' hs'
      | _ => false) = true) :
    ∃ (r' : Reg Nat) (h : Handle), CbOp.Did smallTy (s.reg 0) r' (.create [(4, 2)]) h ∧
      r'.archs.arches.length = (s.reg 0).archs.arches.length ∧ showsExactly r' hs' = true := by
  split at hc
  · rename_i r' h he
    rw [Bool.and_eq_true, decide_eq_true_eq] at hc
    exact ⟨r', h, .create (by decide) hb he, hc⟩
  · cases hc

/-- The hypotheses of C120 can be met: a creation that needs no new archetype.  The order before was 1, 0, 2. -/
example : ∃ (s : Sys Nat) (W : Spec.World Nat), Reach smallTy (NoFailedFit smallTy) s W ∧ s.pend 0 = 0 ∧
    ∃ (r' : Reg Nat) (h : Handle), CbOp.Did smallTy (s.reg 0) r' (.create [(4, 2)]) h ∧
      r'.archs.arches.length = (s.reg 0).archs.arches.length ∧ showsExactly r' [⟨1, 0⟩, ⟨3, 0⟩, ⟨0, 0⟩, ⟨2, 0⟩] = true := by
  have hr := execFit_reach threeSets .init (Option.some_get threeSets_isSome).symm
  refine ⟨_, _, hr, ?_, create_fits ?_ ?_⟩ <;> decide +kernel

end CoEcs.Props
