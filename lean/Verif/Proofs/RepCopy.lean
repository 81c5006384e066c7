import Verif.Proofs.RepOps

/-!
# clone, copy and move; reservations; plain reads and writes
-/

namespace CoEcs
open Spec
variable {V : Type}

/-- Overwriting the entity handle of a new entry. -/
theorem Arch.Pushed.rename {a a' : Arch V} {ci idx : Nat} {R : Row V} (p : a.Pushed ci idx R a') (hok : a'.Ok) (ph : Handle) :
    ∃ a'', a'.writeCell ci idx none false (.ent ph) = some a'' ∧ a''.Ok ∧ a.Pushed ci idx (R.set none (.live (.ent ph))) a'' ∧
      (a'.Tight → a''.Tight) := by
  have hr : a'.row? ci idx = some R := by rw [p.row?]; simp
  obtain ⟨a'', h1, h2, h3, h4, h5, h6, h7⟩ := Arch.writeCell_assign hok hr a'.none_mem_blocks (.ent ph) (.inl ⟨rfl, ph, rfl⟩)
  refine ⟨a'', h1, h4, ⟨h2.trans p.comps, h3.trans p.cap, p.free, ?_, ?_, ?_⟩, h7⟩
  · intro cj j
    rw [h5, p.row?]
    split <;> rfl
  · obtain ⟨c, hc, h0⟩ := p.last
    have hl := congrArg List.getLast? h6
    rw [List.getLast?_map, List.getLast?_map, hc] at hl
    simp only [Option.map_some, Option.map_eq_some_iff] at hl
    obtain ⟨c', hc', he⟩ := hl
    exact ⟨c', hc', by rw [he]; exact h0⟩
  · rw [← p.total]
    unfold Arch.total
    rw [h6]

theorem decode_rename {bs bs' : List BlockId} {R row : Row V} {h ph : Handle} {d : Comps V} (hd : row.decode bs = some (h, d))
    (hrow : RowOk bs row) (hb : ∀ b, b ∈ bs' ↔ b ∈ bs) (hR : ∀ b ∈ bs', R b = row b) :
    (R.set none (.live (.ent ph))).decode bs' = some (ph, d) := by
  obtain ⟨d1, d2, d3⟩ := Row.decode_some hd hrow
  unfold Row.decode
  rw [Row.set_same]
  simp only [Option.some.injEq, Prod.mk.injEq, true_and]
  funext x
  rw [Row.set_ne _ _ (by simp)]
  by_cases hx : some x ∈ bs'
  · obtain ⟨v, h1, h2⟩ := d2 x ((hb _).1 hx)
    rw [if_pos hx, hR _ hx, h2, h1]
  · rw [if_neg hx, d3 x (fun h => hx ((hb _).2 h))]

/-- Whether all components of an entity can be copied. -/
def Copyable (ty : Types) (d : Comps V) : Prop := ∀ c v, d c = some v → (ty.info c).copyable = true

theorem Rep.receive {ty : Types} {q : Reg V} {k : Nat} {W : Handle → Option (Comps V)} (R : Rep ty q k W) {a : Arch V} {row : Row V}
    (hok : a.Ok) (hty : ∀ mt ∈ a.comps.metas, mt = ty.info mt.id) (hrow : RowOk a.blocks row) {h : Handle} {d : Comps V}
    (hd : row.decode a.blocks = some (h, d)) {ph : Handle} (hh : Held q.pool k ph) (hw : W ph = none) :
    (∃ q', q.receive a row ph = .ok q' ph ∧ Copyable ty d ∧ q'.pool = q.pool ∧ Rep ty q' k (World.put W ph (some d)) ∧
      Keep q.archs q'.archs ∧ (NoNull q.archs → NoNull q'.archs)) ∨
    (∃ q', q.receive a row ph = .throw q' .invalidArgument ∧ ¬ Copyable ty d ∧ q'.pool = q.pool ∧ Rep ty q' k W ∧
      (NoNull q.archs → NoNull q'.archs)) ∨
    (∃ q', q.receive a row ph = .throw q' .insufficientChunkSize ∧ q'.pool = q.pool ∧ Rep ty q' k W ∧
      Keep q.archs q'.archs ∧ Layout.maxSize a.comps.metas = none) := by
  obtain ⟨m, hm⟩ := R.archs
  obtain ⟨d1, d2, d3⟩ := Row.decode_some hd hrow
  unfold Reg.receive
  rcases ensureSet_spec hm hok.inv hty with ⟨s, m', di, da, e1, e2⟩ | ⟨s, m', e1, e2⟩
  · simp only [e1, e2.arch]
    have hdok := e2.rel.ok di da e2.arch
    have hbl : ∀ b, b ∈ da.blocks ↔ b ∈ a.blocks := by
      intro b
      cases b with
      | none => simp [Arch.none_mem_blocks]
      | some x => rw [Arch.blocks_of_set hdok.inv hok.inv e2.set, Arch.some_mem_blocks]
    have R1 : Rep ty { q with archs := s } k W := R.withArchs e2.rel e2.slots
    have hcp : Copyable ty d ↔ ∀ mt ∈ a.comps.metas, mt.copyable = true := by
      constructor
      · intro h mt hmt
        have hmem : some mt.id ∈ a.blocks := (a.some_mem_blocks _).2 (List.mem_map_of_mem hmt)
        obtain ⟨v, hv, _⟩ := d2 _ hmem
        rw [hty mt hmt]
        exact h _ v hv
      · intro h c v hv
        have hmem : some c ∈ a.blocks := by
          by_cases hb : some c ∈ a.blocks
          · exact hb
          · rw [d3 c hb] at hv; cases hv
        rw [a.some_mem_blocks, List.mem_map] at hmem
        obtain ⟨mt, hmt, rfl⟩ := hmem
        rw [← hty mt hmt]
        exact h mt hmt
    by_cases hc : Copyable ty d
    · left
      obtain ⟨da', ci, idx, R', q1, q2, q3, q4, q5⟩ := Arch.copyFrom_ok hdok hok hrow (fun b => (hbl b).symm) (hcp.1 hc)
      obtain ⟨da'', p1, p2, p3, p4⟩ := q3.rename q2 ph
      obtain ⟨q', w1, w2, w3, w4⟩ := R1.push hh hw e2.arch p3 p2 (decode_rename (ph := ph) hd hrow hbl q4)
      simp only [q1, p1, w1]
      refine ⟨q', rfl, hc, w2, w4, ?_, ?_⟩
      · rw [w3]
        exact ⟨fun ht => (e2.allTight ht).set di (p4 (q5 (e2.allTight ht di da e2.arch))),
          fun hl _ => (e2.allLast hl).set di p3.lastOk⟩
      · intro hn
        rw [w3]
        exact e2.noNull hm.rel hn
    · right; left
      have : ∃ mt ∈ a.comps.metas, mt.copyable = false := by
        rw [hcp] at hc
        simp only [Classical.not_forall] at hc
        obtain ⟨mt, hmt, hf⟩ := hc
        exact ⟨mt, hmt, by simpa using hf⟩
      obtain ⟨da', q1, q2, q3, q4, q5, _⟩ := Arch.copyFrom_throw hdok hrow (fun b => (hbl b).symm) this
      simp only [q1]
      refine ⟨_, rfl, hc, rfl, ?_, ?_⟩
      · exact R1.withArchs (e2.rel.setArch e2.arch q2 q4) (slots_set_same e2.arch q2 q5)
      · intro hn
        exact e2.noNull hm.rel hn
  · right; right
    simp only [e1]
    refine ⟨_, rfl, rfl, R.withArchs e2.rel (fun l => by rw [e2.arches]), Keep.of_eq e2.arches, e2.large⟩

/-- Copy of an entity of one registry to a placeholder of another (or the same). -/
theorem Rep.copyInto {ty : Types} {r q : Reg V} {k k' : Nat} {W W' : Handle → Option (Comps V)} (R : Rep ty r k W) (Q : Rep ty q k' W')
    {h : Handle} {d : Comps V} (hw : W h = some d) {ph : Handle} (hh : Held q.pool k' ph) (hp : W' ph = none) :
    (∃ q', r.copyInto h q ph = .ok q' ph ∧ Copyable ty d ∧ q'.pool = q.pool ∧ Rep ty q' k' (World.put W' ph (some d)) ∧
      Keep q.archs q'.archs ∧ (NoNull q.archs → NoNull q'.archs)) ∨
    (∃ q', r.copyInto h q ph = .throw q' .invalidArgument ∧ ¬ Copyable ty d ∧ q'.pool = q.pool ∧ Rep ty q' k' W' ∧
      (NoNull q.archs → NoNull q'.archs)) := by
  obtain ⟨a, row, h1, h2, h3, h4, l, ai, c, t⟩ := R.rowOf hw
  obtain ⟨m, hm⟩ := R.archs
  unfold Reg.copyInto
  simp only [h1]
  rcases Q.receive h2 (hm.typed ai a t.get) h4 h3 hh hp with h | h | ⟨q', g1, g2, g3, g4, g5⟩
  · exact .inl h
  · exact .inr h
  · exact absurd g5 (hm.fits ai a t.get)

theorem Rep.copyInto_none {ty : Types} {r : Reg V} {k : Nat} {W : Handle → Option (Comps V)} (R : Rep ty r k W)
    {h : Handle} (hw : W h = none) (q : Reg V) (ph : Handle) :
    r.copyInto h q ph = .throw q (if r.alive h then .outOfRange else .entityNotFound) := by
  unfold Reg.copyInto Reg.rowOf
  rw [R.location_none hw]

theorem cloneInto_eq (r : Reg V) (h ph : Handle) : r.cloneInto h ph = r.copyInto h r ph := rfl

/-- A successful move of an entity to a placeholder of another registry. -/
theorem Rep.moveInto {ty : Types} {r q : Reg V} {k' : Nat} {W W' : Handle → Option (Comps V)} (R : Rep ty r 0 W) (Q : Rep ty q k' W')
    {h : Handle} {d : Comps V} (hw : W h = some d) {ph : Handle} (hh : Held q.pool k' ph) (hp : W' ph = none) :
    (r.moveInto h q ph = .ub ∧ ∃ (i : Nat) (a : Arch V), r.archs.arches[i]? = some a ∧ ¬ a.LastOk) ∨
    (∃ r' q', r.moveInto h q ph = .ok (r', q') ph ∧ r'.pool = r.pool.recycle h ∧ q'.pool = q.pool ∧
      Rep ty r' 0 (World.put W h none) ∧ Rep ty q' k' (World.put W' ph (some d)) ∧
      Keep r.archs r'.archs ∧ (NoNull r.archs → NoNull r'.archs) ∧
      Keep q.archs q'.archs ∧ (NoNull q.archs → NoNull q'.archs)) := by
  obtain ⟨l, ai, a, c, row, t⟩ := R.at_ hw
  obtain ⟨m, hm⟩ := R.archs
  obtain ⟨mq, hmq⟩ := Q.archs
  unfold Reg.moveInto
  simp only [t.loc, t.archOf]
  rcases ensureSet_spec hmq t.ok.inv (hm.typed ai a t.get) with ⟨s, m', di, da, e1, e2⟩ | ⟨s, m', e1, e2⟩
  · simp only [e1, e2.arch]
    by_cases hsafe : a.Safe l.chunk l.entry
    · right
      have hdok := e2.rel.ok di da e2.arch
      have hbl : ∀ b, b ∈ da.blocks ↔ b ∈ a.blocks := by
        intro b
        cases b with
        | none => simp [Arch.none_mem_blocks]
        | some x => rw [Arch.blocks_of_set hdok.inv t.ok.inv e2.set, Arch.some_mem_blocks]
      obtain ⟨a', da', ci, idx, moved, o1, oc, Rr, tl, h1, h2, h3, h4, h5, h6, h7, h8⟩ :=
        Arch.move_spec t.ok hdok t.chunk t.lt (hsafe c t.chunk)
      rw [← t.row_eq] at h8
      obtain ⟨w1, w2, w3, w4⟩ := h8.sub t.rowOk (fun b hb => (hbl b).1 hb)
      obtain ⟨da'', p1, p2, p3, p4⟩ := w2.rename w1 ph
      have Q1 : Rep ty { q with archs := s } k' W' := Q.withArchs e2.rel e2.slots
      obtain ⟨q', y1, y2, y3, y4⟩ := Q1.push hh hp e2.arch p3 p2 (decode_rename (ph := ph) t.decode t.rowOk hbl w3)
      obtain ⟨lm, hlm, L⟩ := R.link
      obtain ⟨r1, t2, lm2, x1, x2, x0, x3, x4, x5, x6⟩ := erase_locs R.pool R.small hlm L R.holds t h5 h2
      obtain ⟨z1, z2, z3, z4, z5⟩ := pool_recycle R.pool (R.held hw)
      simp only [h1, x1, x0, if_false, x2, p1, y1]
      refine ⟨_, q', rfl, rfl, y2, ⟨z1, z2 ▸ R.small, ⟨m, hm.setArch t.get h2 h4⟩, ⟨lm2, x3, ?_⟩, x5⟩, y4, ?_, fun hn => hn, ?_, ?_⟩
      · exact x4.mono fun l' h' d' hl' hh => z4 h' hh (x6 l' h' d' hl')
      · exact ⟨fun ht => ht.set ai (h6 (ht ai a t.get)),
          fun hl h2' => hl.set ai (Arch.lastOk_erase (h2' ai a t.get) h7)⟩
      · rw [y3]
        exact ⟨fun ht => (e2.allTight ht).set di (p4 (w4 (e2.allTight ht di da e2.arch))),
          fun hl _ => (e2.allLast hl).set di p3.lastOk⟩
      · intro hn
        rw [y3]
        exact e2.noNull hmq.rel hn
    · left
      rw [Arch.Safe.move_ub hsafe]
      exact ⟨rfl, ai, a, t.get, fun hl => hsafe (hl.safe' _ _)⟩
  · exact absurd e2.large (hm.fits ai a t.get)

theorem Rep.moveInto_none {ty : Types} {r : Reg V} {k : Nat} {W : Handle → Option (Comps V)} (R : Rep ty r k W)
    {h : Handle} (hw : W h = none) (q : Reg V) (ph : Handle) :
    r.moveInto h q ph = .throw (r, q) (if r.alive h then .outOfRange else .entityNotFound) := by
  unfold Reg.moveInto
  rw [R.location_none hw]

/-! ### set, get_or_insert, assignment through a reference -/

theorem Rep.set {ty : Types} {r : Reg V} {k : Nat} {W : Handle → Option (Comps V)} (R : Rep ty r k W) {h : Handle} {d : Comps V}
    (hw : W h = some d) (cid : Nat) (v : V) :
    (r.set ty h cid v = .ub ∧ ∃ (i : Nat) (a : Arch V), r.archs.arches[i]? = some a ∧ ¬ a.LastOk) ∨
    (∃ r', r.set ty h cid v = .ok r' () ∧ r'.pool = r.pool ∧
      Rep ty r' k (World.put W h (some fun x => if x = cid then some v else d x)) ∧
      Keep r.archs r'.archs ∧ (NoNull r.archs → NoNull r'.archs)) ∨
    (∃ r', r.set ty h cid v = .throw r' .insufficientChunkSize ∧ d cid = none ∧ r'.pool = r.pool ∧ Rep ty r' k W ∧
      Keep r.archs r'.archs ∧ ¬ NoNull r'.archs ∧
      ∃ l, TypesOf ty (fun x => if x = cid then some v else d x) l ∧ Layout.maxSize l = none) := by
  unfold Reg.set
  rcases R.setImpl hw cid v with ⟨v0, l, r', h1, h2, h3, h4, h5⟩ | ⟨h1, ⟨h2, h3⟩ | ⟨r1, r', l, h2, h3, h4, h5⟩ | ⟨r', h2, h3⟩⟩
  · simp only [h2, h4]
    exact .inr (.inl ⟨r', rfl, h5⟩)
  · simp only [h2]
    exact .inl ⟨trivial, h3⟩
  · simp only [h2, h3]
    exact .inr (.inl ⟨r', rfl, h5⟩)
  · simp only [h2]
    exact .inr (.inr ⟨r', rfl, h1, h3⟩)

theorem Rep.set_none {ty : Types} {r : Reg V} {k : Nat} {W : Handle → Option (Comps V)} (R : Rep ty r k W)
    {h : Handle} (hw : W h = none) (cid : Nat) (v : V) :
    r.set ty h cid v = .throw r (if r.alive h then .outOfRange else .entityNotFound) := by
  unfold Reg.set Reg.setImpl
  rw [R.location_none hw]

theorem Rep.remove_none {ty : Types} {r : Reg V} {k : Nat} {W : Handle → Option (Comps V)} (R : Rep ty r k W)
    {h : Handle} (hw : W h = none) (cid : Nat) :
    r.remove ty h cid = .throw r (if r.alive h then .outOfRange else .entityNotFound) := by
  unfold Reg.remove
  rw [R.location_none hw]

theorem Rep.getOrInsert {ty : Types} {r : Reg V} {k : Nat} {W : Handle → Option (Comps V)} (R : Rep ty r k W) {h : Handle} {d : Comps V}
    (hw : W h = some d) (cid : Nat) (v : V) :
    (∃ v0, d cid = some v0 ∧ r.getOrInsert ty h cid v = .ok r v0) ∨
    (d cid = none ∧
      ((r.getOrInsert ty h cid v = .ub ∧ ∃ (i : Nat) (a : Arch V), r.archs.arches[i]? = some a ∧ ¬ a.LastOk) ∨
      (∃ r', r.getOrInsert ty h cid v = .ok r' v ∧ r'.pool = r.pool ∧
        Rep ty r' k (World.put W h (some fun x => if x = cid then some v else d x)) ∧
        Keep r.archs r'.archs ∧ (NoNull r.archs → NoNull r'.archs)) ∨
      (∃ r', r.getOrInsert ty h cid v = .throw r' .insufficientChunkSize ∧ r'.pool = r.pool ∧ Rep ty r' k W ∧
        Keep r.archs r'.archs ∧ ¬ NoNull r'.archs))) := by
  unfold Reg.getOrInsert
  rcases R.setImpl hw cid v with ⟨v0, l, r', h1, h2, h3, h4, h5⟩ | ⟨h1, ⟨h2, h3⟩ | ⟨r1, r', l, h2, h3, h4, h5⟩ | ⟨r', h2, h3⟩⟩
  · left
    refine ⟨v0, h1, ?_⟩
    simp [h2, h3]
  · right
    refine ⟨h1, .inl ?_⟩
    simp only [h2]
    exact ⟨trivial, h3⟩
  · right
    refine ⟨h1, .inr (.inl ⟨r', ?_, h5⟩)⟩
    simp [h2, h3, h4.1]
  · right
    refine ⟨h1, .inr (.inr ⟨r', ?_, h3.1, h3.2.1, h3.2.2.1, h3.2.2.2.1⟩)⟩
    simp only [h2]

theorem Rep.getOrInsert_none {ty : Types} {r : Reg V} {k : Nat} {W : Handle → Option (Comps V)} (R : Rep ty r k W)
    {h : Handle} (hw : W h = none) (cid : Nat) (v : V) :
    r.getOrInsert ty h cid v = .throw r (if r.alive h then .outOfRange else .entityNotFound) := by
  unfold Reg.getOrInsert Reg.setImpl
  rw [R.location_none hw]

theorem Rep.assign {ty : Types} {r : Reg V} {k : Nat} {W : Handle → Option (Comps V)} (R : Rep ty r k W) {h : Handle} {d : Comps V}
    (hw : W h = some d) (cid : Nat) (v : V) :
    (d cid = none ∧ r.assign h cid v = .throw r .componentNotFound) ∨
    (∃ v0 r', d cid = some v0 ∧ r.assign h cid v = .ok r' () ∧ r'.pool = r.pool ∧
      Rep ty r' k (World.put W h (some fun x => if x = cid then some v else d x)) ∧
      Keep r.archs r'.archs ∧ (NoNull r.archs → NoNull r'.archs)) := by
  obtain ⟨l, ai, a, c, row, t⟩ := R.at_ hw
  obtain ⟨d1, d2, d3⟩ := Row.decode_some t.decode t.rowOk
  unfold Reg.assign
  simp only [t.loc, t.archOf, t.row?]
  by_cases hb : some cid ∈ a.blocks
  · right
    obtain ⟨v0, h0, _⟩ := d2 cid hb
    obtain ⟨r', q1, q2, _, q3⟩ := R.writeAt_false t hb v
    refine ⟨v0, r', h0, ?_, q2, q3⟩
    simp [hb, q1]
  · left
    exact ⟨d3 cid hb, by simp [hb]⟩

theorem Rep.assign_none {ty : Types} {r : Reg V} {k : Nat} {W : Handle → Option (Comps V)} (R : Rep ty r k W)
    {h : Handle} (hw : W h = none) (cid : Nat) (v : V) :
    r.assign h cid v = .throw r (if r.alive h then .outOfRange else .entityNotFound) := by
  unfold Reg.assign
  rw [R.location_none hw]

/-! ### Reservations -/

theorem Rep.reserve {ty : Types} {r : Reg V} {k : Nat} {W : Handle → Option (Comps V)} (R : Rep ty r k W) (hb : r.pool.nextId + 1 < U32) :
    ∃ r' h, r.reserve = .ok r' h ∧ r'.archs = r.archs ∧ r'.locs = r.locs ∧ Rep ty r' (k + 1) W ∧ W h = none ∧
      HandleOk r'.pool (k + 1) h ∧ (∀ h', HandleOk r.pool k h' → HandleOk r'.pool (k + 1) h' ∧ h'.id ≠ h.id) ∧
      (∀ h', r'.alive h' = r.alive h') := by
  cases hc : r.pool.reserve with
  | none => exact absurd hc (reserve_isSome R.pool)
  | some x =>
    obtain ⟨p, h⟩ := x
    obtain ⟨h1, h2, h3, h4, h5, h6⟩ := pool_reserve R.pool hb hc
    refine ⟨{ r with pool := p }, h, by simp [Reg.reserve, hc], rfl, rfl, R.withPool h1 h2 fun h' _ hh => (h3 h' hh).1, ?_, h5, h6, h4⟩
    cases hw : W h with
    | none => rfl
    | some d => exact absurd rfl (h3 h (R.held hw)).2

theorem Rep.sync {ty : Types} {r : Reg V} {k : Nat} {W : Handle → Option (Comps V)} (R : Rep ty r k W) :
    Rep ty r.sync 0 W ∧ (∀ h', HandleOk r.pool k h' → Held r.sync.pool 0 h') ∧ (∀ h', r.alive h' = true → r.sync.alive h' = true) := by
  obtain ⟨h1, h2, h3, h4⟩ := pool_flush R.pool
  exact ⟨R.withPool h1 (by rw [h2]; exact R.small) fun h' _ hh => h3 h' hh.ok, h3, h4⟩

/-! ### Size -/

theorem Rep.size {ty : Types} {r : Reg V} {k : Nat} {W : Handle → Option (Comps V)} (R : Rep ty r k W) :
    ∃ l : List Handle, l.Nodup ∧ (∀ h, h ∈ l ↔ ∃ d, W h = some d) ∧ l.length = r.size := by
  obtain ⟨lm, hlm, L⟩ := R.link
  have hd : ∀ x ∈ r.locs.dense, ∃ h d, slots r.archs.arches x.2 = some (h, d) ∧ h.id = x.1 := by
    intro x hx
    obtain ⟨id, l⟩ := x
    exact L.located id l ((hlm.mem id l).2 hx)
  have hl : ∀ dl : List (Nat × Loc), (∀ x ∈ dl, ∃ h d, slots r.archs.arches x.2 = some (h, d) ∧ h.id = x.1) →
      ∃ l : List Handle, l.map Handle.id = dl.map Prod.fst ∧
        (∀ h, h ∈ l ↔ ∃ x ∈ dl, ∃ d, slots r.archs.arches x.2 = some (h, d)) := by
    intro dl
    induction dl with
    | nil => intro _; exact ⟨[], by simp, by simp⟩
    | cons x dl ih =>
      intro hx
      obtain ⟨l, h1, h2⟩ := ih fun y hy => hx y (by simp [hy])
      obtain ⟨h, d, q1, q2⟩ := hx x (by simp)
      refine ⟨h :: l, by simp [h1, q2], ?_⟩
      intro h'
      simp only [List.mem_cons, h2]
      constructor
      · rintro (rfl | ⟨y, hy, d', hd'⟩)
        · exact ⟨x, .inl rfl, d, q1⟩
        · exact ⟨y, .inr hy, d', hd'⟩
      · rintro ⟨y, rfl | hy, d', hd'⟩
        · rw [q1] at hd'; simp at hd'; exact .inl hd'.1.symm
        · exact .inr ⟨y, hy, d', hd'⟩
  obtain ⟨l, h1, h2⟩ := hl _ hd
  refine ⟨l, ?_, ?_, ?_⟩
  · have : (l.map Handle.id).Nodup := by rw [h1]; exact hlm.inv.nodup
    exact List.Pairwise.of_map _ (fun a b hab h => hab (h ▸ rfl)) this
  · intro h
    rw [h2]
    constructor
    · rintro ⟨x, _, d, hd'⟩; exact ⟨d, (R.holds h d).1 ⟨_, hd'⟩⟩
    · rintro ⟨d, hw⟩
      obtain ⟨lo, hlo⟩ := (R.holds h d).2 hw
      have := (L.stored _ _ _ hlo).2
      exact ⟨(h.id, lo), (hlm.mem _ _).1 this, d, hlo⟩
  · have := congrArg List.length h1
    simp only [List.length_map] at this
    rw [this]
    exact hlm.inv.size.symm

end CoEcs
