import Verif.Proofs.BuffersStep

/-!
# Addresses of components
-/

namespace CoEcs
open Spec (RegOp SysOp Sys Out noHandle withHandle Leaves SameSet SetStays BRun BReachable World)
variable {V : Type}

/-- An entity that is not taken out of its place keeps its component types. -/
theorem step_keeps {ty : Types} {s s' : Sys V} {W : World V} (hs : SysInv ty s W) {op : SysOp V} (ha : s.Allowed op) {out : Out}
    (h : s.step ty op = some (s', out)) {i : Nat} {x : Handle} {d : Comps V} (hx : W i x = some d)
    (hn : ∀ o, out = .ok o → ¬ Leaves W op i x) : ∃ d', W.step op out i x = some d' ∧ ∀ c, d' c = none ↔ d c = none := by
  have same : ∃ d', W i x = some d' ∧ ∀ c, d' c = none ↔ d c = none := ⟨d, hx, fun _ => Iff.rfl⟩
  have fresh : ∀ (j : Nat) (h' : Handle) (e : Option (Comps V)), W j h' = none →
      ∃ d', W.upd j h' e i x = some d' ∧ ∀ c, d' c = none ↔ d c = none := by
    intro j h' e hf
    rw [upd_other (by rintro ⟨rfl, rfl⟩; rw [hx] at hf; cases hf)]
    exact same
  have upd : ∀ (j : Nat) (h' : Handle) (f : Comps V → Comps V),
      (i = j → x = h' → ∀ c, f d c = none ↔ d c = none) →
      ∃ d', W.upd j h' ((W j h').map f) i x = some d' ∧ ∀ c, d' c = none ↔ d c = none := by
    intro j h' f hf
    by_cases he : i = j ∧ x = h'
    · obtain ⟨rfl, rfl⟩ := he
      rw [upd_same, hx]
      exact ⟨_, rfl, hf rfl rfl⟩
    · rw [upd_other he]; exact same
  cases out with
  | throw e => rw [step_throw]; exact same
  | ok o =>
    have hnl := hn o rfl
    cases op with
    | on j op =>
      obtain ⟨_, h2⟩ := step_on h
      rcases h2 with ⟨e, h2, _⟩ | ⟨o', h0, h2⟩
      · cases h2
      cases h0
      cases op with
      | create args =>
        obtain ⟨h', rfl, h3⟩ := withHandle_ok' h2
        obtain ⟨p, hp⟩ := create_handle h3
        exact fresh j h' _ ((ha.2.1 ▸ hs j : RInv ty _ 0 _ _).new_none ha.2.2 hp)
      | destroy y =>
        simp only [Spec.World.step]
        rw [upd_other (fun e => hnl e)]; exact same
      | set y c v =>
        simp only [Spec.World.step]
        refine upd j y _ fun e1 e2 t => ?_
        subst e1; subst e2
        have : d c ≠ none := fun e => hnl ⟨rfl, rfl, d, hx, e⟩
        unfold Spec.World.withComp
        split
        · rename_i e; subst e; simp [this]
        · rfl
      | assign y c v =>
        simp only [Spec.World.step]
        refine upd j y _ fun e1 e2 t => ?_
        subst e1; subst e2
        obtain ⟨_, h3⟩ := noHandle_ok h2
        have : d c ≠ none := by
          obtain ⟨l, ai, a, cc, row, tt⟩ := (hs i).rep.at_ hx
          unfold Reg.assign at h3
          simp only [tt.loc, tt.archOf, tt.row?] at h3
          split at h3
          · rename_i hm; exact (tt.mem_iff c).1 hm
          · cases h3
        unfold Spec.World.withComp
        split
        · rename_i e; subst e; simp [this]
        · rfl
      | remove y c =>
        simp only [Spec.World.step]
        refine upd j y _ fun e1 e2 t => ?_
        subst e1; subst e2
        have : d c = none := by
          cases hdc : d c with
          | none => rfl
          | some v => exact absurd ⟨rfl, rfl, d, hx, by rw [hdc]; simp⟩ hnl
        unfold Spec.World.withComp
        split
        · rename_i e; subst e; simp [this]
        · rfl
      | getOrInsert y c v =>
        simp only [Spec.World.step]
        refine upd j y (fun d => match d c with | none => Spec.World.withComp d c (some v) | some _ => d) fun e1 e2 t => ?_
        subst e1; subst e2
        cases hdc : d c with
        | none => exact absurd ⟨rfl, rfl, d, hx, hdc⟩ hnl
        | some u => simp only [hdc]
      | clone y ph =>
        obtain ⟨h', rfl, h3⟩ := clone_ok h2
        refine fresh j h' _ ?_
        cases ph with
        | none =>
          obtain ⟨p, hp, _⟩ := clone_parts h3
          exact (ha.1 ▸ hs j : RInv ty _ 0 _ _).new_none ha.2 hp
        | some p =>
          rw [show h' = p from copyInto_handle (by rw [← cloneInto_eq]; exact h3)]
          exact ((hs j).res _ ha.2).2
      | reserve => cases o <;> exact same
      | sync => cases o <;> exact same
    | copy j y k ph =>
      have fin : ∀ z : Res (Reg V) Handle, (match z with
          | .ub => none
          | .throw d e => some (s.setReg k d, Out.throw e)
          | .ok d h' => some ((s.setReg k d).use k ph, .ok (some h'))) = some (s', .ok o) →
          (∀ d h', z = .ok d h' → W k h' = none) →
          ∃ d', W.step (.copy j y k ph) (.ok o) i x = some d' ∧ ∀ c, d' c = none ↔ d c = none := by
        intro z hz h1
        cases z with
        | ub => cases hz
        | throw d e => cases hz
        | ok d h' => cases hz; exact fresh k h' _ (h1 d h' rfl)
      cases ph with
      | none =>
        refine fin _ h fun d h' he => ?_
        obtain ⟨p, hp, _⟩ := copyTo_parts he
        exact (ha.2.1 ▸ hs k : RInv ty _ 0 _ _).new_none ha.2.2 hp
      | some p =>
        refine fin _ h fun d h' he => ?_
        rw [copyInto_handle he]
        exact ((hs k).res _ ha.2.2).2
    | move j y k ph =>
      have fin : ∀ z : Res (Reg V × Reg V) Handle, (match z with
          | .ub => none
          | .throw (r, d) e => some ((s.setReg j r).setReg k d, Out.throw e)
          | .ok (r, d) h' => some (((s.setReg j r).setReg k d).use k ph, .ok (some h'))) = some (s', .ok o) →
          (∀ rd h', z = .ok rd h' → W k h' = none) →
          ∃ d', W.step (.move j y k ph) (.ok o) i x = some d' ∧ ∀ c, d' c = none ↔ d c = none := by
        intro z hz h1
        cases z with
        | ub => cases hz
        | throw d e => cases hz
        | ok rd h' =>
          cases hz
          simp only [Spec.World.step]
          rw [upd_other (i := j) (fun e => hnl e)]
          exact fresh k h' _ (h1 rd h' rfl)
      cases ph with
      | none =>
        refine fin _ h fun rd h' he => ?_
        obtain ⟨p, hp, _⟩ := moveTo_parts he
        exact (ha.2.2.1 ▸ hs k : RInv ty _ 0 _ _).new_none ha.2.2.2 hp
      | some p =>
        refine fin _ h fun rd h' he => ?_
        rw [moveInto_handle he]
        exact ((hs k).res _ ha.2.2.2).2

/-! ### Addresses in one state -/

/-- The address of a component of an entity whose place is known. -/
theorem At.addr {b : BReg V} {x : Handle} {d : Comps V} {l : Loc} {ai : Nat} {a : Arch V} {c : Chunk V} {row : Row V}
    (t : At b.reg x d l ai a c row) (hf : b.Fits) (cid : Nat) :
    l.chunk < (b.bufs ai).length ∧ b.addr x cid = if d cid = none then none else (b.bufs ai)[l.chunk]?.map fun n => ⟨n, cid, l.entry⟩ := by
  have hlen := hf.len ai a t.get
  have hlt : l.chunk < (b.bufs ai).length := by rw [hlen]; exact (List.getElem?_eq_some_iff.1 t.chunk).1
  refine ⟨hlt, ?_⟩
  unfold BReg.addr
  simp only [t.loc, t.archOf]
  have hm := t.mem_iff cid
  by_cases hd : d cid = none
  · rw [if_pos hd, if_neg (fun e => hm.1 e hd)]
  · rw [if_neg hd, if_pos (hm.2 hd), List.getElem?_eq_getElem hlt]
    rfl

theorem BReg.Evolves.buf {b b' : BReg V} (h : b.Evolves b') {i k : Nat} (h1 : k < (b.bufs i).length) (h2 : k < (b'.bufs i).length) :
    (b'.bufs i)[k]? = (b.bufs i)[k]? := by
  obtain ⟨T, e⟩ := h
  rcases e.cmp i with ⟨t, h⟩ | ⟨t, h⟩
  · rw [← h, List.getElem?_append_left h1]
  · rw [← h, List.getElem?_append_left h2]

theorem BReg.Evolves.fits {b b' : BReg V} (h : b.Evolves b') : b'.Fits := h.elim fun _ e => e.fits

/-- The same place and the same component types give the same addresses. -/
theorem addr_same {b b' : BReg V} (hf : b.Fits) (he : b.Evolves b') {x y : Handle} {d d' : Comps V} {l : Loc} {ai : Nat}
    {a a' : Arch V} {c c' : Chunk V} {row row' : Row V} (t : At b.reg x d l ai a c row) {ai' : Nat} (t' : At b'.reg y d' l ai' a' c' row')
    (hd : ∀ c, d' c = none ↔ d c = none) (cid : Nat) : b'.addr y cid = b.addr x cid := by
  have hai : ai' = ai := by have := t.arch; rw [t'.arch] at this; cases this; rfl
  subst hai
  obtain ⟨h1, h2⟩ := t.addr hf cid
  obtain ⟨h3, h4⟩ := t'.addr he.fits cid
  rw [h2, h4, he.buf h1 h3]
  simp only [hd]

theorem Rep.at_eq {ty : Types} {r : Reg V} {k : Nat} {W : Handle → Option (Comps V)} (R : Rep ty r k W) {h : Handle} {d : Comps V}
    (hw : W h = some d) {l : Loc} (hl : r.locs.at_ h.id = .ok l) : ∃ ai a c row, At r h d l ai a c row := by
  obtain ⟨l', ai, a, c, row, t⟩ := R.at_ hw
  have := t.loc
  unfold Reg.location at this
  rw [if_pos (R.alive hw), hl] at this
  cases this
  exact ⟨ai, a, c, row, t⟩

theorem At.locs {ty : Types} {r : Reg V} {k : Nat} {W : Handle → Option (Comps V)} (R : Rep ty r k W) {x : Handle} {d : Comps V} {l : Loc}
    {ai : Nat} {a : Arch V} {c : Chunk V} {row : Row V} (hw : W x = some d) (t : At r x d l ai a c row) : r.locs.at_ x.id = .ok l := by
  have := t.loc
  unfold Reg.location at this
  rwa [if_pos (R.alive hw)] at this

/-- The system with buffers represents a world. -/
structure BInv (ty : Types) (s : BSys V) (W : World V) : Prop where
  sys : SysInv ty s.sys W
  fits : ∀ i, (s.reg i).Fits

theorem BInv.init (ty : Types) : BInv ty (BSys.init : BSys V) (fun _ _ => none) := ⟨SysInv.init ty, fun _ => BReg.Fits.empty⟩

theorem BInv.step_sys {ty : Types} {s s' : BSys V} {op : SysOp V} {out : Out} (h : s.step ty op = some (s', out)) :
    s.sys.step ty op = some (s'.sys, out) := by
  rw [← BSys.step_sys, h]; rfl

theorem BInv.evolves {ty : Types} {s s' : BSys V} {W : World V} (I : BInv ty s W) {op : SysOp V} (ha : s.sys.Allowed op) {out : Out}
    (h : s.step ty op = some (s', out)) : ∀ i, (s.reg i).Evolves (s'.reg i) := by
  refine BSys.step_ev I.fits h ?_
  rintro i x j ph rfl
  cases ph with
  | none => exact ha.1
  | some p => exact ha.1

theorem BInv.step {ty : Types} {s s' : BSys V} {W : World V} (I : BInv ty s W) {op : SysOp V} (ha : s.sys.Allowed op) {out : Out}
    (h : s.step ty op = some (s', out)) : BInv ty s' (W.step op out) := by
  refine ⟨?_, fun i => (I.evolves ha h i).fits⟩
  have := step_spec I.sys ha
  rw [BInv.step_sys h] at this
  exact this.1

theorem Spec.BRun.inv {ty : Types} {P : World V → SysOp V → Out → Prop} {s t : BSys V} {W X : World V} (h : BRun ty P s W t X) (I : BInv ty s W) :
    BInv ty t X := by
  induction h with
  | refl => exact I
  | step _ ha hst _ ih => exact (ih I).step ha hst

theorem Spec.BReachable.inv {ty : Types} {s : BSys V} {W : World V} (h : BReachable ty s W) : BInv ty s W := BRun.inv h (BInv.init ty)

/-- Addresses of an entity that stays where it is. -/
theorem BInv.addr_stays {ty : Types} {s s' : BSys V} {W : World V} (I : BInv ty s W) {op : SysOp V} (ha : s.sys.Allowed op) {out : Out}
    (h : s.step ty op = some (s', out)) {i : Nat} {x : Handle} {d : Comps V} (hx : W i x = some d) (hn : ∀ o, out = .ok o → ¬ Leaves W op i x)
    (hl : (s'.reg i).reg.locs.at_ x.id = (s.reg i).reg.locs.at_ x.id) (c : Nat) : (s'.reg i).addr x c = (s.reg i).addr x c := by
  obtain ⟨d', hx', hd⟩ := step_keeps I.sys ha (BInv.step_sys h) hx hn
  obtain ⟨l, ai, a, cc, row, t⟩ := (I.sys i).rep.at_ hx
  obtain ⟨ai', a', cc', row', t'⟩ := (((I.step ha h).sys i).rep).at_eq hx' (hl.trans (t.locs (I.sys i).rep hx))
  exact addr_same (I.fits i) (I.evolves ha h i) (b := s.reg i) (b' := s'.reg i) t t' hd c

/-- One step: every address stays, or an entity leaves and at most one other takes its place. -/
theorem BInv.addr_step {ty : Types} {s s' : BSys V} {W : World V} (I : BInv ty s W) {op : SysOp V} (ha : s.sys.Allowed op) {out : Out}
    (h : s.step ty op = some (s', out)) (i : Nat) :
    (∀ x d, W i x = some d → (∀ o, out = .ok o → ¬ Leaves W op i x) → ∀ c, (s'.reg i).addr x c = (s.reg i).addr x c) ∨
    ((∃ o, out = .ok o) ∧ ∃ y m, Leaves W op i y ∧ (m ≠ y → SameSet W i m y ∧ ∀ c, (s'.reg i).addr m c = (s.reg i).addr y c) ∧
      ∀ x d, W i x = some d → x ≠ y → x ≠ m → ∀ c, (s'.reg i).addr x c = (s.reg i).addr x c) := by
  rcases step_placed I.sys ha (BInv.step_sys h) i with hst | ⟨⟨o, rfl⟩, y, hy, l, ai, a, hl, hla, hga, hm⟩
  · left
    exact fun x d hx hn c => I.addr_stays ha h hx hn (hst x d hx) c
  · right
    refine ⟨⟨o, rfl⟩, y, ?_⟩
    have R := (I.sys i).rep
    obtain ⟨dy, ai0, a0, c0, row0, hwy, t⟩ := R.at_location hl
    have e0 : ai0 = ai := by have := t.arch; rw [hla] at this; cases this; rfl
    subst e0
    have e1 : a0 = a := by have := t.get; rw [hga] at this; cases this; rfl
    subst e1
    have uniq : ∀ x, x ≠ y → ¬ Leaves W op i x := by
      intro x hne hx
      have : ∀ z, Leaves W op i z → z = y ∨ True → z = y := by
        intro z hz _
        cases op with
        | on j op => cases op <;> simp only [Leaves] at hz hy <;> first | exact hz.elim | (rw [hz.2, hy.2]) | (rw [hz.2.1, hy.2.1])
        | copy => exact hz.elim
        | move => rw [hz.2, hy.2]
      exact hne (this x hx (.inr trivial))
    have held : ∀ {x d}, W i x = some d → x ≠ y → x.id ≠ y.id := fun hx hne e => hne (held_inj (R.held hx) (R.held hwy) e)
    rcases hm with hm | ⟨m, pc, pj, hmy, hlast, hmove, hm⟩
    · refine ⟨y, hy, fun e => absurd rfl e, fun x d hx hne _ c => ?_⟩
      exact I.addr_stays ha h hx (fun _ _ => uniq x hne) (hm x.id (held hx hne)) c
    · obtain ⟨⟨dm, hwm, hsm⟩, _⟩ := R.lastIs hga hlast
      have hne : m ≠ y := fun e => hmy (by rw [e])
      have hset : ∀ c, dm c = none ↔ dy c = none := by
        intro c
        have tm : ∃ c1 row1, At (s.sys.reg i) m dm ⟨some ai0, pc, pj⟩ ai0 a0 c1 row1 := by
          obtain ⟨lm, hlm, L⟩ := R.link
          obtain ⟨ai1, a1, c1, row1, t1⟩ := R.at_eq hwm (l := ⟨some ai0, pc, pj⟩) (by rw [hlm.at_, (L.stored _ _ _ hsm).2])
          have e2 : ai1 = ai0 := by have := t1.arch; cases this; rfl
          subst e2
          have e3 : a1 = a0 := by have := t1.get; rw [hga] at this; cases this; rfl
          subst e3
          exact ⟨c1, row1, t1⟩
        obtain ⟨c1, row1, tm⟩ := tm
        have h1 := tm.mem_iff c
        have h2 := t.mem_iff c
        rw [← Decidable.not_iff_not]
        exact h1.symm.trans h2
      refine ⟨m, hy, fun _ => ⟨⟨dm, dy, hwm, hwy, hset⟩, fun c => ?_⟩, fun x d hx hxy hxm c => ?_⟩
      · obtain ⟨d', hx', hd⟩ := step_keeps I.sys ha (BInv.step_sys h) hwm (fun _ _ => uniq m hne)
        obtain ⟨ai', a', cc', row', t'⟩ := ((I.step ha h).sys i).rep.at_eq hx' hmove
        exact addr_same (I.fits i) (I.evolves ha h i) (b := s.reg i) (b' := s'.reg i) t t' (fun c => (hd c).trans (hset c)) c
      · exact I.addr_stays ha h hx (fun _ _ => uniq x hxy)
          (hm x.id (held hx hxy) fun e => hxm (held_inj (R.held hx) (R.held hwm) e)) c

/-! ### What pointers point to -/

theorem BReg.Fits.pointsTo_unique {b : BReg V} (hf : b.Fits) {p : Ptr} {v w : V} (h1 : b.PointsTo p v) (h2 : b.PointsTo p w) : v = w := by
  obtain ⟨ai, ci, a, row, q1, q2, q3, _, q5⟩ := h1
  obtain ⟨ai', ci', a', row', p1, p2, p3, _, p5⟩ := h2
  obtain ⟨rfl, rfl⟩ := hf.inj _ _ _ _ _ q1 p1
  rw [q2] at p2; cases p2
  rw [q3] at p3; cases p3
  rw [q5] at p5; cases p5
  rfl

/-- Behind the address of a component is the component. -/
theorem Rep.addr_points {ty : Types} {b : BReg V} {k : Nat} {W : Handle → Option (Comps V)} (R : Rep ty b.reg k W) (hf : b.Fits)
    {x : Handle} {d : Comps V} (hw : W x = some d) {c : Nat} {v : V} (hv : d c = some v) : ∃ p, b.addr x c = some p ∧ b.PointsTo p v := by
  obtain ⟨l, ai, a, cc, row, t⟩ := R.at_ hw
  obtain ⟨h1, h2⟩ := t.addr hf c
  rw [if_neg (by rw [hv]; simp), List.getElem?_eq_getElem h1] at h2
  refine ⟨_, h2, ai, l.chunk, a, row, List.getElem?_eq_getElem h1, t.get, t.row?, (t.mem_iff c).2 (by rw [hv]; simp), ?_⟩
  obtain ⟨_, q, _⟩ := Row.decode_some t.decode t.rowOk
  obtain ⟨v', e1, e2⟩ := q c ((t.mem_iff c).2 (by rw [hv]; simp))
  rw [hv] at e1; cases e1
  simp only [e2, Cell.read]

theorem Rep.addr_none {ty : Types} {b : BReg V} {k : Nat} {W : Handle → Option (Comps V)} (R : Rep ty b.reg k W) (hf : b.Fits)
    {x : Handle} {c : Nat} (hn : ∀ d, W x = some d → d c = none) : b.addr x c = none := by
  cases hw : W x with
  | none => unfold BReg.addr; rw [R.location_none hw]
  | some d =>
    obtain ⟨l, ai, a, cc, row, t⟩ := R.at_ hw
    rw [(t.addr hf c).2, if_pos (hn d hw)]

/-- Different components have different addresses. -/
theorem Rep.addr_inj {ty : Types} {b : BReg V} {k : Nat} {W : Handle → Option (Comps V)} (R : Rep ty b.reg k W) (hf : b.Fits)
    {x y : Handle} {c c' : Nat} {p : Ptr} (h1 : b.addr x c = some p) (h2 : b.addr y c' = some p) : x = y ∧ c = c' := by
  have some_of : ∀ {z c}, b.addr z c = some p → ∃ d, W z = some d := by
    intro z c hz
    cases hw : W z with
    | some d => exact ⟨d, rfl⟩
    | none => rw [R.addr_none hf (fun d hd => by rw [hw] at hd; cases hd)] at hz; cases hz
  obtain ⟨dx, hx⟩ := some_of h1
  obtain ⟨dy, hy⟩ := some_of h2
  obtain ⟨l, ai, a, cc, row, t⟩ := R.at_ hx
  obtain ⟨l', ai', a', cc', row', t'⟩ := R.at_ hy
  obtain ⟨q1, q2⟩ := t.addr hf c
  obtain ⟨p1, p2⟩ := t'.addr hf c'
  rw [h1] at q2
  rw [h2] at p2
  rw [List.getElem?_eq_getElem q1] at q2
  rw [List.getElem?_eq_getElem p1] at p2
  split at q2
  · cases q2
  · split at p2
    · cases p2
    · simp only [Option.map_some, Option.some.injEq] at q2 p2
      rw [q2] at p2
      simp only [Ptr.mk.injEq] at p2
      obtain ⟨e1, e2, e3⟩ := p2
      obtain ⟨rfl, e4⟩ := hf.inj ai l.chunk ai' l'.chunk _ (List.getElem?_eq_getElem q1) (by rw [e1]; exact List.getElem?_eq_getElem p1)
      refine ⟨?_, e2⟩
      have hll : l = l' := by
        rw [t.loc_eq, t'.loc_eq, e4, e3]
      subst hll
      have := t.slot
      rw [t'.slot] at this
      cases this
      rfl

end CoEcs
