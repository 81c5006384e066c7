import Verif.Spec.OutOfMemory
import Verif.Proofs.HashThrow
import Verif.Proofs.History
import Verif.Proofs.ViewSpec

/-!
# Running out of memory: the invariant
-/

namespace CoEcs
open Spec
variable {V : Type}

/-! ### The pool -/

theorem pool_recycleOom {p q : Pool} {h : Handle} (hi : PoolInv p 0) (hh : Held p 0 h) (he : p.recycleOom h = some q) :
    PoolInv q 0 ∧ q.nextId = p.nextId ∧ q.alive h = false ∧ (∀ h', Held p 0 h' → h' ≠ h → Held q 0 h') := by
  obtain ⟨h1, h2, h3, h4, _⟩ := pool_recycle hi hh
  have hr : p.recycle h = { p with gens := p.gens.set h.id ((h.gen + 1) % U32), free := p.free ++ [h.id], cursor := p.cursor + 1 } := by
    unfold Pool.recycle; rw [if_pos hh.alive]
  unfold Pool.recycleOom at he
  rw [if_pos hh.alive] at he
  cases he
  rw [hr] at h1 h3 h4
  refine ⟨⟨hi.cursor, ?_, hi.nodup, ?_, h1.gensBound⟩, rfl, h3, fun h' hh' hne => ?_⟩
  · simpa using hi.nextId
  · intro id hid
    have := hi.bound id hid
    simpa using this
  · have h5 := h4 h' hh' hne
    refine ⟨h5.1, ?_⟩
    have := hh'.2
    simpa using this

/-! ### The archetype map -/

namespace HTable
variable {K W : Type} [DecidableEq K]

theorem HRel.keyFails {h : K → Nat} {t : HTable K W} {m : KeyMap K W} (r : HRel h t m) (k : K) (v : W) {f : Nat} (hf : 2 * t.n ≤ f) :
    ∃ t1, t.emplaceTry h false f k v (some 0) = .threw t1 ∧ HRel h t1 m := by
  by_cases hc : t.size > approx85 t.n
  · obtain ⟨t1, h1, h2, _⟩ := r.reserve (PowTwo.double r.pow)
    have hd : t.n <<< 1 = t.n * 2 := by rw [Nat.shiftLeft_eq]
    have h1' := h1 f (by omega)
    exact ⟨t1, by simp [HTable.emplaceTry, hc, h1', Tried.ofRun, Tried.bind, emplaceRawTry], h2⟩
  · exact ⟨t, by simp [HTable.emplaceTry, hc, Tried.ofRun, Tried.bind, emplaceRawTry], r⟩

end HTable

theorem ArchsRel.withMap {ty : Types} {s : Archs V} {m : KeyMap Bitset (Option Nat)} (r : ArchsRel ty s m) {t : HTable Bitset (Option Nat)}
    (h : HTable.HRel setHash t m) : ArchsRel ty { s with map := t } m :=
  ⟨r.search, h, r.fwd, r.bwd, r.ok, r.typed, r.fits⟩

/-- What a failed allocation leaves of the archetypes. -/
theorem ensureKeyOom_spec {ty : Types} {s s' : Archs V} {m : KeyMap Bitset (Option Nat)} (r : ArchsRel ty s m) {key : Bitset} {pt : MemPoint}
    (h : s.ensureKeyOom key pt = some s') :
    ∃ m', ArchsRel ty s' m' ∧ s'.arches = s.arches ∧ (pt ≠ .arch → m' = m) ∧ (pt = .arch → m'.get key = some none) := by
  have hfuel : 2 * s.map.n ≤ Archs.fuel s.map := by rw [fuel_eq]; omega
  cases pt with
  | grow =>
    unfold Archs.ensureKeyOom at h
    simp only at h
    split at h
    · split at h
      · cases h; exact ⟨m, r, rfl, fun _ => rfl, fun h => by cases h⟩
      · cases h
    · cases h
  | key =>
    unfold Archs.ensureKeyOom at h
    simp only at h
    split at h
    · obtain ⟨t1, h1, h2⟩ := r.rel.keyFails key none hfuel
      rw [h1] at h
      cases h
      exact ⟨m, r.withMap h2, rfl, fun _ => rfl, fun h => by cases h⟩
    · cases h
  | arch =>
    unfold Archs.ensureKeyOom at h
    obtain ⟨t, i, e, h1, h2, h3, h4, h5, h6⟩ := r.rel.index_from key none
    have h1' := h1 (Archs.fuel s.map) (by rw [fuel_eq]; exact Nat.le_refl _)
    have hd := h2.deref h3 h4
    simp only [h1', hd] at h
    cases hv : e.val with
    | some x => rw [hv] at h; cases h
    | none =>
      rw [hv] at h
      cases h
      have hmg : ∃ m', HTable.HRel setHash t m' ∧ ∀ k, m'.get k = if k = key then some none else m.get k := by
        refine ⟨_, h2, fun k => ?_⟩
        cases hg : m.get key with
        | none => simp [KeyMap.put]
        | some w =>
          simp only [Option.isSome_some, if_true]
          split
          · rename_i hkk; subst hkk
            rw [hv, hg] at h6; simp at h6; rw [hg, h6]
          · rfl
      obtain ⟨m1, hm1, hm1g⟩ := hmg
      have hfr : ∀ i, m.get key ≠ some (some i) := by
        intro j hj
        rw [hv, hj] at h6
        simp at h6
      refine ⟨m1, ⟨r.search, hm1, ?_, ?_, r.ok, r.typed, r.fits⟩, rfl, fun h => absurd rfl h, fun _ => by simp [hm1g]⟩
      · intro k i hki
        rw [hm1g] at hki
        split at hki
        · simp at hki
        · exact r.fwd k i hki
      · intro j a ha
        have := r.bwd j a ha
        rw [hm1g, if_neg]
        · exact this
        · intro hkk; rw [hkk] at this; exact hfr _ this
  | gens => cases h
  | search n => cases h
  | chunk => cases h
  | free => cases h

/-! ### The registry -/

/-- What a failed allocation in `ensure_archetype` or for a chunk leaves behind. -/
structure Spared (ty : Types) (r r' : Reg V) (k : Nat) (W : Handle → Option (Comps V)) (pt : MemPoint) : Prop where
  rep : Rep ty r' k W
  pool : r'.pool = r.pool
  noNull : pt ≠ .arch → NoNull r.archs → NoNull r'.archs
  null : pt = .arch → ¬ NoNull r'.archs
  keep : Keep r.archs r'.archs

theorem ensureOom_spec {ty : Types} {r r' : Reg V} {k : Nat} {W : Handle → Option (Comps V)} (R : Rep ty r k W) {search : Nat → Option Bitset}
    {found key : Bitset} {done : Res (Archs V) Nat} {pt : MemPoint} (hs : ∀ n b, search n = some b → Bitset.Canon b) (hk : Bitset.Canon found)
    (hd : ∀ m, ArchsRel ty r.archs m → ∀ s ai, done = .ok s ai → ∃ m' a comps, Ensured ty r.archs s m m' ai a key comps)
    (h : r.ensureOom search found key done pt = some r') : Spared ty r r' k W pt := by
  obtain ⟨m, hm⟩ := R.archs
  have main : ∀ pt, (match ({ r.archs with search := found } : Archs V).ensureKeyOom key pt with
      | none => none
      | some s => some { r with archs := s }) = some r' → Spared ty r r' k W pt := by
    intro pt h
    cases hs : ({ r.archs with search := found } : Archs V).ensureKeyOom key pt with
    | none => rw [hs] at h; cases h
    | some s =>
      rw [hs] at h
      cases h
      obtain ⟨m', h1, h2, h3, h4⟩ := ensureKeyOom_spec (hm.withSearch hk) hs
      refine ⟨R.withArchs h1 (fun l => by rw [h2]), rfl, fun hp hn m2 hm2 => ?_, fun hp hn => ?_, Keep.of_eq h2⟩
      · intro k' hk'
        rw [hrel_unique hm2 h1.rel k', h3 hp] at hk'
        exact hn m hm.rel k' hk'
      · exact hn m' h1.rel key (h4 hp)
  cases pt with
  | search n =>
    unfold Reg.ensureOom at h
    simp only at h
    cases hb : search n with
    | none => rw [hb] at h; cases h
    | some b =>
    rw [hb] at h
    cases h
    have := hm.withSearch (hs n b hb)
    refine ⟨R.withArchs this (fun l => rfl), rfl, fun _ hn m2 hm2 => hn m2 hm2, fun hp => (by cases hp), Keep.of_eq rfl⟩
  | chunk =>
    unfold Reg.ensureOom at h
    cases hdn : done with
    | ub => rw [hdn] at h; cases h
    | throw s e => rw [hdn] at h; cases h
    | ok s ai =>
      rw [hdn] at h
      obtain ⟨m', a, comps, e2⟩ := hd m hm s ai hdn
      simp only [e2.arch] at h
      split at h
      · cases h
        exact ⟨R.withArchs e2.rel e2.slots, rfl, fun _ hn => e2.noNull hm.rel hn, fun hp => (by cases hp),
          ⟨fun ht => e2.allTight ht, fun hl _ => e2.allLast hl⟩⟩
      · cases h
  | gens => exact main _ h
  | grow => exact main _ h
  | key => exact main _ h
  | arch => exact main _ h
  | free => exact main _ h

theorem Rep.setOom {ty : Types} {r r' : Reg V} {k : Nat} {W : Handle → Option (Comps V)} (R : Rep ty r k W) {h : Handle} {c : Nat}
    {pt : MemPoint} (he : r.setOom ty h c pt = some r') : Spared ty r r' k W pt := by
  unfold Reg.setOom at he
  cases hw : W h with
  | none => rw [R.location_none hw] at he; cases he
  | some d =>
    obtain ⟨l, ai, a, ch, row, t⟩ := R.at_ hw
    simp only [t.loc, t.archOf] at he
    split at he
    · cases he
    · rename_i hc
      have hc' : a.contains c = false := by simpa using hc
      obtain ⟨m0, hm0⟩ := R.archs
      have hnc : a.comps.contains (ty.info c).id = false := by rw [ty.id_eq]; exact hc'
      have hset : a.comps.set.set (ty.info c).id true = (a.comps.insert (ty.info c)).set := by
        unfold MetaSet.insert; rw [hnc]; simp
      refine ensureOom_spec R ?_ ?_ ?_ he
      · intro n b hb
        cases hb
        split
        · exact hm0.search
        · exact t.ok.inv.canon
      · exact Bitset.canon_set _ _ _ t.ok.inv.canon
      · intro m hm s ni hd
        rcases ensureAdded_spec hm t.get hc' with ⟨s', m', ni', n, e1, e2⟩ | ⟨s', m', e1, e2⟩
        · rw [e1] at hd; cases hd
          exact ⟨m', n, _, hset ▸ e2⟩
        · rw [e1] at hd; cases hd

theorem Rep.removeOom {ty : Types} {r r' : Reg V} {k : Nat} {W : Handle → Option (Comps V)} (R : Rep ty r k W) {h : Handle} {c : Nat}
    {pt : MemPoint} (he : r.removeOom ty h c pt = some r') : Spared ty r r' k W pt := by
  unfold Reg.removeOom at he
  cases hw : W h with
  | none => rw [R.location_none hw] at he; cases he
  | some d =>
    obtain ⟨l, ai, a, ch, row, t⟩ := R.at_ hw
    simp only [t.loc, t.archOf] at he
    split at he
    · rename_i hc
      obtain ⟨m0, hm0⟩ := R.archs
      have hc' : a.comps.contains c = true := hc
      have hset : a.comps.set.set (ty.info c).id false = (a.comps.erase c).set := by
        rw [ty.id_eq]
        unfold MetaSet.erase; rw [hc']; simp
      refine ensureOom_spec R ?_ ?_ ?_ he
      · intro n b hb
        cases hb
        split
        · exact hm0.search
        · exact t.ok.inv.canon
      · exact Bitset.canon_set _ _ _ t.ok.inv.canon
      · intro m hm s ni hd
        rcases ensureRemoved_spec hm t.get hc with ⟨s', m', ni', n, e1, e2⟩ | ⟨s', m', e1, e2⟩
        · rw [e1] at hd; cases hd
          exact ⟨m', n, _, hset ▸ e2⟩
        · rw [e1] at hd; cases hd
    · cases he

theorem Rep.createOom {ty : Types} {r r' : Reg V} {W : Handle → Option (Comps V)} (R : Rep ty r 0 W) (hb : r.pool.nextId + 1 < U32)
    {args : List (Nat × V)} {pt : MemPoint} (hg : pt ≠ .gens) (he : r.createOom ty args pt = some r') :
    ∃ p h, r.pool.create = some (p, h) ∧ Spared ty { r with pool := p } r' 0 W pt ∧ W h = none ∧
      (∀ h', Held r.pool 0 h' → Held p 0 h') := by
  obtain ⟨p, h, hc, R1, h3, hw, h4, h5⟩ := R.create_pool hb
  refine ⟨p, h, hc, ?_, hw, fun h' hh => (h4 h' hh).1⟩
  obtain ⟨m0, hm0⟩ := R.archs
  have hcl : Bitset.Canon r.archs.search.clear := by rw [clear_eq hm0.search]; exact Bitset.canon_mk
  have hargs : (args.map fun x => ty.info x.1) = (args.map Prod.fst).map ty.info := by simp
  have hkey : ((args.map Prod.fst).map ty.info).foldl (fun b m => b.set m.id true) r.archs.search.clear =
      (MetaSet.create ((args.map Prod.fst).map ty.info)).set := by rw [create_set, clear_eq hm0.search]
  unfold Reg.createOom at he
  rw [if_neg hg, hc] at he
  simp only at he
  refine ensureOom_spec R1 (fun n b hb => by cases hb; exact canon_foldl _ _ hcl) (canon_foldl _ _ hcl) ?_ he
  intro m hm s ni hd
  rw [hargs] at hd
  rcases ensure_spec hm (args.map Prod.fst) with ⟨s', m', ni', n, e1, e2⟩ | ⟨s', m', e1, e2⟩
  · dsimp only at e1
    rw [e1] at hd; cases hd
    rw [hargs, hkey]
    exact ⟨m', n, _, e2⟩
  · dsimp only at e1
    rw [e1] at hd; cases hd

/-- Every creation that can succeed asks for memory for the location. -/
theorem Rep.createEnds {ty : Types} {r r' : Reg V} {W : Handle → Option (Comps V)} (R : Rep ty r 0 W) (hb : r.pool.nextId + 1 < U32)
    {args : List (Nat × V)} {h : Handle} (hc : r.create ty args = .ok r' h) (q : SparseThrow) : r.createEnds ty args q = true := by
  obtain ⟨p, h0, e0, R1, h3, hw, h4, h5⟩ := R.create_pool hb
  obtain ⟨lm, hlm, L⟩ := R.link
  have hfree : lm.get h0.id = none := by
    cases hl : lm.get h0.id with
    | none => rfl
    | some l =>
      exfalso
      obtain ⟨h', d, e1, e2⟩ := L.located _ _ hl
      exact (h4 h' (L.stored _ _ _ e1).1).2 e2
  have hcon : r.locs.contains h0.id = .ok false := by
    rw [hlm.contains]
    simp [hfree]
  unfold Reg.create at hc
  unfold Reg.createEnds
  rw [e0] at hc ⊢
  simp only at hc ⊢
  cases he : r.archs.ensure (args.map fun x => ty.info x.1) with
  | ub => rw [he] at hc; cases hc
  | throw s e => rw [he] at hc; cases hc
  | ok s ai =>
    rw [he] at hc
    simp only at hc ⊢
    cases ha : s.arches[ai]? with
    | none => rw [ha] at hc; cases hc
    | some a =>
      rw [ha] at hc
      simp only at hc ⊢
      cases hm : a.emplace h0 args with
      | ub => rw [hm] at hc; cases hc
      | throw s e => rw [hm] at hc; cases hc
      | ok a' x =>
        unfold SparseTable.emplaceThrows
        rw [hcon]
        cases q <;> rfl

theorem Rep.destroyOom {ty : Types} {r r' : Reg V} {W : Handle → Option (Comps V)} (R : Rep ty r 0 W) {h : Handle}
    (he : r.destroyOom h = some r') :
    ∃ d p, W h = some d ∧ r.pool.recycleOom h = some p ∧ r'.pool = p ∧ Rep ty r' 0 (World.put W h none) ∧ Keep r.archs r'.archs ∧
      (NoNull r.archs → NoNull r'.archs) := by
  unfold Reg.destroyOom at he
  cases hw : W h with
  | none => rw [R.location_none hw] at he; cases he
  | some d =>
    obtain ⟨l, ai, a, c, row, t⟩ := R.at_ hw
    simp only [t.loc, t.archOf] at he
    by_cases hsafe : a.Safe l.chunk l.entry
    · obtain ⟨a', moved, h1, h2, h3, h4, h5, h6, h7⟩ := Arch.swapErase_spec (t.ok.but _ _) t.chunk t.lt (hsafe c t.chunk)
      obtain ⟨lm, hlm, L⟩ := R.link
      obtain ⟨m, hm⟩ := R.archs
      obtain ⟨r1, t2, lm2, e1, e2, _, e3, e4, e5, e6⟩ := erase_locs R.pool R.small hlm L R.holds t h5 h2
      rw [h1] at he
      simp only [e1, e2] at he
      cases hp : r.pool.recycleOom h with
      | none =>
        have : ({ r.setArch ai a' with locs := t2 } : Reg V).pool.recycleOom h = none := hp
        rw [this] at he; cases he
      | some p =>
        have : ({ r.setArch ai a' with locs := t2 } : Reg V).pool.recycleOom h = some p := hp
        rw [this] at he
        cases he
        obtain ⟨p1, p2, p3, p4⟩ := pool_recycleOom R.pool (R.held hw) hp
        refine ⟨d, p, rfl, rfl, rfl, ⟨p1, p2 ▸ R.small, ⟨m, hm.setArch t.get h2 h4⟩, ⟨lm2, e3, ?_⟩, e5⟩, ?_, fun hn => hn⟩
        · exact e4.mono fun l' h' d' hl' hh => p4 h' hh (e6 l' h' d' hl')
        · exact ⟨fun ht => ht.set ai (h6 (ht ai a t.get)),
            fun hl h2' => hl.set ai (Arch.lastOk_erase (h2' ai a t.get) h7)⟩
    · rw [Arch.Safe.swapErase_ub hsafe] at he
      cases he

theorem Rep.copyOom {ty : Types} {r q q' : Reg V} {k : Nat} {P : List Handle} {W W' : Handle → Option (Comps V)} (R : Rep ty r k W)
    (Q : RInv ty q 0 P W') {h : Handle} {ph : Option Handle} (hb : ph = none → q.pool.nextId + 1 < U32) {pt : MemPoint} (hg : pt ≠ .gens)
    (he : r.copyOom h q ph pt = some q') :
    RInv ty q' 0 P W' ∧ (pt ≠ .arch → NoNull q.archs → NoNull q'.archs) ∧ (pt = .arch → ¬ NoNull q'.archs) := by
  have hpool : ∃ p, q.placed ph = some p ∧
      RInv ty { q with pool := p } 0 P W' := by
    cases ph with
    | some x => exact ⟨q.pool, rfl, Q⟩
    | none =>
      obtain ⟨p, h, hc, R1, h3, hw, h4, h5⟩ := Q.rep.create_pool (hb rfl)
      refine ⟨p, by simp [Reg.placed, hc], R1, fun h' hh => ⟨?_, (Q.res h' hh).2⟩⟩
      exact (h4 h' ((Q.res h' hh).1.held Q.rep.pool)).1.ok
  obtain ⟨p, hp, Q1⟩ := hpool
  unfold Reg.copyOom at he
  rw [if_neg hg, hp] at he
  simp only at he
  cases hw : W h with
  | none => rw [R.location_none hw] at he; cases he
  | some d =>
    obtain ⟨l, ai, a, ch, row, t⟩ := R.at_ hw
    obtain ⟨m0, hm0⟩ := R.archs
    obtain ⟨m1, hm1⟩ := Q.rep.archs
    simp only [t.loc, t.archOf] at he
    have e := ensureOom_spec Q1.rep (fun n b hb => by cases hb) hm1.search ?_ he
    · exact ⟨Q1.pool_eq e.pool e.rep fun _ hn => hn, e.noNull, e.null⟩
    · intro m hm s ni hd
      rcases ensureSet_spec hm t.ok.inv (hm0.typed _ _ t.get) with ⟨s', m', ni', n, e1, e2⟩ | ⟨s', m', e1, e2⟩
      · dsimp only at e1
        rw [e1] at hd; cases hd
        exact ⟨m', n, _, e2⟩
      · dsimp only at e1
        rw [e1] at hd; cases hd

/-- A handle that is no entity has no location. -/
theorem Rep.locEnds {ty : Types} {q : Reg V} {k : Nat} {W : Handle → Option (Comps V)} (Q : Rep ty q k W) {ph : Handle}
    (hh : Held q.pool k ph) (hp : W ph = none) (t : SparseThrow) : q.locEnds ph t = true := by
  obtain ⟨lm, hlm, L⟩ := Q.link
  have hfree : lm.get ph.id = none := by
    cases hl : lm.get ph.id with
    | none => rfl
    | some l =>
      exfalso
      obtain ⟨h', d, e1, e2⟩ := L.located _ _ hl
      have hw := (Q.holds h' d).1 ⟨l, e1⟩
      have := held_inj (L.stored _ _ _ e1).1 hh e2
      rw [this, hp] at hw
      cases hw
  have hcon : q.locs.contains ph.id = .ok false := by
    rw [hlm.contains]
    simp [hfree]
  unfold Reg.locEnds SparseTable.emplaceThrows
  rw [hcon]
  cases t <;> rfl

theorem Rep.copyEnds {ty : Types} {r q q' : Reg V} {k : Nat} {W : Handle → Option (Comps V)} (Q : Rep ty q k W) {h ph x : Handle}
    (hh : Held q.pool k ph) (hp : W ph = none) (hc : r.copyInto h q ph = .ok q' x) (t : SparseThrow) : r.copyEnds h q ph t = true := by
  unfold Reg.copyInto Reg.receive at hc
  unfold Reg.copyEnds
  cases h1 : r.rowOf h with
  | ub => rw [h1] at hc; cases hc
  | throw e => rw [h1] at hc; cases hc
  | ok y =>
    obtain ⟨a, row⟩ := y
    rw [h1] at hc
    simp only at hc ⊢
    cases h2 : q.archs.ensureSet a.comps with
    | ub => rw [h2] at hc; cases hc
    | throw s e => rw [h2] at hc; cases hc
    | ok s di =>
      rw [h2] at hc
      simp only at hc ⊢
      cases h3 : s.arches[di]? with
      | none => rw [h3] at hc; cases hc
      | some da =>
        rw [h3] at hc
        simp only at hc ⊢
        cases h4 : da.copyFrom row a.copyBlocks with
        | ub => rw [h4] at hc; cases hc
        | throw s e => rw [h4] at hc; cases hc
        | ok a' y => exact Q.locEnds hh hp t

theorem Rep.moveEnds {ty : Types} {r q : Reg V} {rq : Reg V × Reg V} {k : Nat} {W : Handle → Option (Comps V)} (Q : Rep ty q k W) {h ph x : Handle}
    (hh : Held q.pool k ph) (hp : W ph = none) (hc : r.moveInto h q ph = .ok rq x) (t : SparseThrow) : r.moveEnds h q ph t = true := by
  unfold Reg.moveInto at hc
  unfold Reg.moveEnds
  cases h1 : r.location h with
  | ub => rw [h1] at hc; cases hc
  | throw e => rw [h1] at hc; cases hc
  | ok l =>
    rw [h1] at hc
    simp only at hc ⊢
    cases h0 : r.archOf l with
    | none => rw [h0] at hc; cases hc
    | some y =>
      obtain ⟨ai, a⟩ := y
      rw [h0] at hc
      simp only at hc ⊢
      cases h2 : q.archs.ensureSet a.comps with
      | ub => rw [h2] at hc; cases hc
      | throw s e => rw [h2] at hc; cases hc
      | ok s di =>
        rw [h2] at hc
        simp only at hc ⊢
        cases h3 : s.arches[di]? with
        | none => rw [h3] at hc; cases hc
        | some da =>
          rw [h3] at hc
          simp only at hc ⊢
          cases h4 : a.move l.chunk l.entry da with
          | none => rw [h4] at hc; cases hc
          | some y =>
            obtain ⟨a', da', ⟨ci, idx⟩, moved⟩ := y
            rw [h4] at hc
            simp only at hc ⊢
            cases h5 : (r.setArch ai a').removeLoc h.id with
            | none => rw [h5] at hc; cases hc
            | some r1 =>
              rw [h5] at hc
              simp only at hc ⊢
              cases h6 : r1.setMoved (if moved = some h then none else moved) l with
              | none => rw [h6] at hc; cases hc
              | some r2 => exact Q.locEnds hh hp t

theorem setLoc_pool {r r' : Reg V} {id : Nat} {l : Loc} (h : r.setLoc id l = some r') : r'.pool = r.pool := by
  unfold Reg.setLoc at h
  split at h
  · cases h; rfl
  · cases h

/-- The id of a new entity is the one the pool returns. -/
theorem create_pool_eq {ty : Types} {r r' : Reg V} {args : List (Nat × V)} {h : Handle} (hc : r.create ty args = .ok r' h) :
    ∃ p, r.pool.create = some (p, h) ∧ r'.pool = p := by
  unfold Reg.create at hc
  cases hp : r.pool.create with
  | none => rw [hp] at hc; cases hc
  | some x =>
    obtain ⟨p, h0⟩ := x
    rw [hp] at hc
    simp only at hc
    repeat' split at hc
    all_goals first | (cases hc; done) | skip
    rename_i hl
    cases hc
    exact ⟨p, rfl, setLoc_pool hl⟩

/-! ### Histories -/

theorem setReg_inv {ty : Types} {s : Sys V} {W W' : Spec.World V} (hs : SysInv ty s W) {i : Nat} {r : Reg V}
    (hr : RInv ty r (s.pend i) (s.res i) (W' i)) (hw : ∀ j, j ≠ i → W' j = W j) : SysInv ty (s.setReg i r) W' := by
  intro j
  by_cases hj : j = i
  · subst hj; simpa [Sys.setReg] using hr
  · simpa [Sys.setReg, hj, hw j hj] using hs j

theorem setReg_noNull {s : Sys V} {i : Nat} {r : Reg V} (h : NoNull (s.reg i).archs → NoNull r.archs) (j : Nat)
    (hj : NoNull (s.reg j).archs) : NoNull ((s.setReg i r).reg j).archs := by
  by_cases hji : j = i
  · subst hji; simpa [Sys.setReg] using h hj
  · simpa [Sys.setReg, hji] using hj

theorem setReg_self (s : Sys V) (i : Nat) : s.setReg i (s.reg i) = s := by
  unfold Sys.setReg
  have : (fun j => if j = i then s.reg i else s.reg j) = s.reg := by
    funext j
    split
    · rename_i h; rw [h]
    · rfl
  rw [this]

theorem Spec.RegCall.spec {ty : Types} {s : Sys V} {W : Spec.World V} (hs : SysInv ty s W) {i : Nat} {c : RegCall V} (ha : s.Allowed (.on i c.op))
    (hc : c.point ≠ .gens) {r : Reg V} (hr : c.run ty (s.reg i) = some r) :
    SysInv ty (s.setReg i r) (MemCall.after W (.on i c)) ∧ (c.point ≠ .arch → NoNull (s.reg i).archs → NoNull r.archs) ∧
      (c.point = .arch → ¬ NoNull r.archs) := by
  have I := hs i
  cases c with
  | create args pt =>
    obtain ⟨h1, h2, h3⟩ := ha
    obtain ⟨p, h, e1, e2, e3, e4⟩ := Rep.createOom (h2 ▸ I.rep) h3 hc hr
    refine ⟨setReg_inv hs ⟨h2.symm ▸ e2.rep, fun h' hh => ⟨?_, (I.res h' hh).2⟩⟩ fun _ _ => rfl, e2.noNull, e2.null⟩
    rw [e2.pool, h2]
    have := (I.res h' hh).1
    rw [h2] at this
    exact (e4 h' (this.held (h2 ▸ I.rep.pool))).ok
  | destroy h =>
    have h2 : s.pend i = 0 := ha
    obtain ⟨d, p, e1, e2, e3, e4, e5, e6⟩ := Rep.destroyOom (h2 ▸ I.rep) hr
    have hW : MemCall.after W (.on i (.destroy h)) i = World.put (W i) h none := by
      show W.upd i h none i = _
      rw [upd_eq, if_pos rfl]
    refine ⟨setReg_inv hs ⟨?_, fun h' hh => ?_⟩ fun j hj => ?_, fun _ => e6, fun hn => by cases hn⟩
    · rw [h2, hW]
      exact e4
    · rw [hW, h2, e3]
      have hok := (I.res h' hh).1
      rw [h2] at hok
      have hpool : PoolInv (s.reg i).pool 0 := h2 ▸ I.rep.pool
      have hheld : Held (s.reg i).pool 0 h := Rep.held (h2 ▸ I.rep) e1
      obtain ⟨_, _, _, q4⟩ := pool_recycleOom hpool hheld e2
      refine ⟨(q4 h' (hok.held hpool) ?_).ok, put_none (I.res h' hh).2 (.inr rfl)⟩
      rintro rfl
      rw [(I.res _ hh).2] at e1; cases e1
    · show W.upd i h none j = _
      rw [upd_eq, if_neg hj]
  | set h c v pt =>
    have e2 := Rep.setOom I.rep hr
    exact ⟨setReg_inv hs (I.pool_eq e2.pool e2.rep fun _ hn => hn) fun _ _ => rfl, e2.noNull, e2.null⟩
  | getOrInsert h c v pt =>
    have e2 := Rep.setOom I.rep hr
    exact ⟨setReg_inv hs (I.pool_eq e2.pool e2.rep fun _ hn => hn) fun _ _ => rfl, e2.noNull, e2.null⟩
  | remove h c pt =>
    have e2 := Rep.removeOom I.rep hr
    exact ⟨setReg_inv hs (I.pool_eq e2.pool e2.rep fun _ hn => hn) fun _ _ => rfl, e2.noNull, e2.null⟩
  | clone h ph pt =>
    have h2 : s.pend i = 0 ∧ (ph = none → (s.reg i).pool.nextId + 1 < U32) := by
      cases ph with
      | none => exact ⟨ha.1, fun _ => ha.2⟩
      | some x => exact ⟨ha.1, fun h => by cases h⟩
    obtain ⟨e1, e2, e3⟩ := Rep.copyOom I.rep (h2.1 ▸ I) h2.2 hc hr
    exact ⟨setReg_inv hs (h2.1.symm ▸ e1) fun _ _ => rfl, e2, e3⟩

theorem Spec.MemCall.spec {ty : Types} {s s' : Sys V} {W : Spec.World V} (hs : SysInv ty s W) {c : MemCall V} (ha : s.Allowed c.op)
    (hc : c.Harmless) (hr : c.run ty s = some s') :
    SysInv ty s' (c.after W) ∧ (c.point ≠ .arch → ∀ i, NoNull (s.reg i).archs → NoNull (s'.reg i).archs) ∧
      (c.point = .arch → ¬ NoNull (s'.reg c.target).archs) := by
  cases c with
  | on i c =>
    cases he : c.run ty (s.reg i) with
    | none => simp [MemCall.run, he] at hr
    | some r =>
      simp only [MemCall.run, he, Option.map_some, Option.some.injEq] at hr
      subst hr
      obtain ⟨h1, h2, h3⟩ := RegCall.spec hs ha hc.1 he
      exact ⟨h1, fun hp => setReg_noNull (h2 hp), fun hp => by simpa [Sys.setReg, MemCall.target] using h3 hp⟩
  | copy i h j ph pt =>
    have h2 : s.pend j = 0 ∧ (ph = none → (s.reg j).pool.nextId + 1 < U32) := by
      cases ph with
      | none => exact ⟨ha.2.1, fun _ => ha.2.2⟩
      | some x => exact ⟨ha.2.1, fun h => by cases h⟩
    cases he : (s.reg i).copyOom h (s.reg j) ph pt with
    | none => simp [MemCall.run, he] at hr
    | some r =>
      simp only [MemCall.run, he, Option.map_some, Option.some.injEq] at hr
      subst hr
      obtain ⟨e1, e2, e3⟩ := Rep.copyOom (hs i).rep (h2.1 ▸ hs j) h2.2 hc.1 he
      exact ⟨setReg_inv hs (h2.1.symm ▸ e1) fun _ _ => rfl, fun hp => setReg_noNull (e2 hp),
        fun hp => by simpa [Sys.setReg, MemCall.target] using e3 hp⟩
  | move i h j ph pt =>
    have h2 : s.pend j = 0 ∧ (ph = none → (s.reg j).pool.nextId + 1 < U32) := by
      cases ph with
      | none => exact ⟨ha.2.2.1, fun _ => ha.2.2.2⟩
      | some x => exact ⟨ha.2.2.1, fun h => by cases h⟩
    have hf : pt ≠ .free := hc.2
    cases he : (s.reg i).copyOom h (s.reg j) ph pt with
    | none => simp [MemCall.run, Reg.moveOom, hf, he] at hr
    | some r =>
      simp only [MemCall.run, Reg.moveOom, if_neg hf, he, Option.map_some, Option.some.injEq, setReg_self] at hr
      subst hr
      obtain ⟨e1, e2, e3⟩ := Rep.copyOom (hs i).rep (h2.1 ▸ hs j) h2.2 hc.1 he
      exact ⟨setReg_inv hs (h2.1.symm ▸ e1) fun _ _ => rfl, fun hp => setReg_noNull (e2 hp),
        fun hp => by simpa [Sys.setReg, MemCall.target] using e3 hp⟩

theorem Spec.MemReach.inv {ty : Types} {P : Sys V → SysOp V → Prop} {Q : MemCall V → Prop} {s : Sys V} {W : Spec.World V}
    (hr : MemReach ty P Q s W) (hq : ∀ c, Q c → c.Harmless) : SysInv ty s W := by
  induction hr with
  | init => exact SysInv.init ty
  | @step s s' W op out hr ha hp he ih =>
    have := step_spec ih ha
    rw [he] at this
    exact this.1
  | fail hr ha hc he ih => exact (MemCall.spec ih ha (hq _ hc) he).1

theorem Spec.MemReach.noNull {ty : Types} {P : Sys V → SysOp V → Prop} {Q : MemCall V → Prop} {s : Sys V} {W : Spec.World V}
    (hr : MemReach ty P Q s W) (hp : ∀ s op, P s op → NoFailedFit ty s op) (hq : ∀ c, Q c → c.Harmless ∧ c.point ≠ .arch) :
    ∀ i, NoNull (s.reg i).archs := by
  induction hr with
  | init =>
    intro i m hm k
    rw [hrel_unique hm (ArchsRel.empty ty).rel]
    simp [Spec.KeyMap.empty]
  | @step s s' W op out hr ha hpp hs ih =>
    have := step_spec (MemReach.inv hr fun c h => (hq c h).1) ha
    rw [hs] at this
    intro i
    refine this.2.2 ?_ i (ih i)
    rintro rfl
    exact hp s op hpp s' hs
  | fail hr ha hc he ih =>
    have := MemCall.spec (MemReach.inv hr fun c h => (hq c h).1) ha (hq _ hc).1 he
    exact fun i => this.2.1 (hq _ hc).2 i (ih i)

end CoEcs
