import Verif.Proofs.Observe

/-!
# Destruction of a registry, visits, and arguments that refer to the registry
-/

namespace CoEcs
open Spec
variable {V : Type}

/-! ### Destruction -/

theorem Chunk.destruct_spec {bs : List BlockId} (hnd : bs.Nodup) {cap : Nat} {c : Chunk V} (t : Tally) :
    ∀ n, n ≤ cap → (∀ i, i < n → RowOcc bs (c.rows i)) →
    ∃ t', c.destruct bs cap t n = some t' ∧ (∀ b, t'.built b = t.built b) ∧ (∀ b, t'.freed b = t.freed b + one bs b * n) ∧ t'.dup = t.dup := by
  intro n
  induction n with
  | zero => intro _ _; exact ⟨t, rfl, fun _ => rfl, fun _ => by simp, rfl⟩
  | succ n ih =>
    intro hn ho
    obtain ⟨t1, h1, h2, h3, h4⟩ := ih (by omega) (fun i hi => ho i (by omega))
    obtain ⟨r', t', q1, _, q2, q3, q4⟩ := Row.destroy_spec bs (c.rows n) t1 hnd (ho n (by omega))
    refine ⟨t', ?_, fun b => by rw [q2, h2], fun b => ?_, by rw [q4, h4]⟩
    · unfold Chunk.destruct
      rw [if_pos (by omega : n < cap), h1]
      simp [q1]
    · rw [q3, h3, Nat.mul_succ]; omega

theorem Arch.destructChunks_spec {a : Arch V} (hnd : a.blocks.Nodup) :
    ∀ (cs : List (Chunk V)) (t : Tally), (∀ c ∈ cs, c.size ≤ a.cap ∧ ∀ i, i < c.size → RowOcc a.blocks (c.rows i)) →
    ∃ t', a.destructChunks cs t = some t' ∧ (∀ b, t'.built b = t.built b) ∧
      (∀ b, t'.freed b = t.freed b + one a.blocks b * (cs.map Chunk.size).sum) ∧ t'.dup = t.dup := by
  intro cs
  induction cs with
  | nil => intro t _; exact ⟨t, rfl, fun _ => rfl, fun _ => by simp, rfl⟩
  | cons c cs ih =>
    intro t h
    obtain ⟨h1, h2⟩ := h c (by simp)
    obtain ⟨t1, p1, p2, p3, p4⟩ := Chunk.destruct_spec hnd t c.size h1 h2
    obtain ⟨t2, q1, q2, q3, q4⟩ := ih t1 fun c' hc' => h c' (by simp [hc'])
    refine ⟨t2, ?_, fun b => by rw [q2, p2], fun b => ?_, by rw [q4, p4]⟩
    · unfold Arch.destructChunks; rw [p1]; exact q1
    · rw [q3, p3, List.map_cons, List.sum_cons, Nat.mul_add]; omega

theorem Arch.Ok.occ {a : Arch V} (h : a.Ok) : ∀ c ∈ a.chunks, c.size ≤ a.cap ∧ ∀ i, i < c.size → RowOcc a.blocks (c.rows i) := by
  intro c hc
  obtain ⟨ci, hci⟩ := List.getElem?_of_mem hc
  refine ⟨h.sizes ci c hci, fun i hi => ?_⟩
  exact (h.rows ci i _ ((Arch.row?_eq_some h.toShape).2 ⟨c, hci, hi, rfl⟩)).occ

theorem Arch.destruct_tight {a : Arch V} (h : a.Ok) (ht : a.Tight) :
    ∃ t, a.destructChunks a.chunks a.tally = some t ∧ t.dup = 0 ∧ ∀ b, t.built b = t.freed b := by
  obtain ⟨t, h1, h2, h3, h4⟩ := Arch.destructChunks_spec (Arch.nodup_blocks h.inv) a.chunks a.tally h.occ
  refine ⟨t, h1, by rw [h4, ht.dup], fun b => ?_⟩
  rw [h2, h3, ht.tally]; rfl

theorem mapM_some {α β : Type} {f : α → Option β} {p : β → Prop} : ∀ (l : List α), (∀ x ∈ l, ∃ y, f x = some y ∧ p y) →
    ∃ ys, l.mapM f = some ys ∧ ys.length = l.length ∧ ∀ y ∈ ys, p y := by
  intro l
  induction l with
  | nil => intro _; exact ⟨[], rfl, rfl, by simp⟩
  | cons x xs ih =>
    intro h
    obtain ⟨y, h1, h2⟩ := h x (by simp)
    obtain ⟨ys, h3, h4, h5⟩ := ih fun z hz => h z (by simp [hz])
    refine ⟨y :: ys, ?_, by simp [h4], ?_⟩
    · rw [List.mapM_cons, h1, h3]; rfl
    · intro z hz
      rcases List.mem_cons.1 hz with rfl | hz
      · exact h2
      · exact h5 z hz

theorem Rep.destruct {ty : Types} {r : Reg V} {k : Nat} {W : Handle → Option (Comps V)} (R : Rep ty r k W) (ht : AllTight r.archs) :
    ∃ ts, r.destruct = some ts ∧ ts.length = r.archs.arches.length ∧ ∀ t ∈ ts, t.dup = 0 ∧ ∀ b, t.built b = t.freed b := by
  obtain ⟨m, hm⟩ := R.archs
  exact mapM_some _ fun a ha => by
    obtain ⟨i, hi⟩ := List.getElem?_of_mem ha
    exact Arch.destruct_tight (hm.ok i a hi) (ht i a hi)

/-- Destruction never touches storage without an object. -/
theorem Rep.destruct_defined {ty : Types} {r : Reg V} {k : Nat} {W : Handle → Option (Comps V)} (R : Rep ty r k W) : r.destruct ≠ none := by
  obtain ⟨m, hm⟩ := R.archs
  obtain ⟨ts, h, _⟩ := mapM_some (f := fun a : Arch V => a.destructChunks a.chunks a.tally) (p := fun _ => True) r.archs.arches fun a ha => by
    obtain ⟨i, hi⟩ := List.getElem?_of_mem ha
    obtain ⟨t, h1, _⟩ := Arch.destructChunks_spec (Arch.nodup_blocks (hm.ok i a hi).inv) a.chunks a.tally (hm.ok i a hi).occ
    exact ⟨t, h1, trivial⟩
  unfold Reg.destruct
  rw [h]; simp

/-! ### Sizes -/

theorem nodup_length_eq {α : Type} [DecidableEq α] {l l' : List α} (h : l.Nodup) (h' : l'.Nodup) (he : ∀ x, x ∈ l ↔ x ∈ l') : l.length = l'.length := by
  have : l.Perm l' := (List.perm_ext_iff_of_nodup h h').2 he
  exact this.length_eq

theorem Rep.size_eq {ty : Types} {r r' : Reg V} {k k' : Nat} {W : Handle → Option (Comps V)} (R : Rep ty r k W) (R' : Rep ty r' k' W) :
    r'.size = r.size := by
  obtain ⟨l, h1, h2, h3⟩ := R.size
  obtain ⟨l', h1', h2', h3'⟩ := R'.size
  rw [← h3, ← h3']
  exact nodup_length_eq h1' h1 fun x => by rw [h2, h2']

theorem Rep.size_dom {ty : Types} {r r' : Reg V} {k k' : Nat} {W W' : Handle → Option (Comps V)} (R : Rep ty r k W) (R' : Rep ty r' k' W')
    (h : ∀ x, (W' x).isSome = (W x).isSome) : r'.size = r.size := by
  obtain ⟨l, h1, h2, h3⟩ := R.size
  obtain ⟨l', h1', h2', h3'⟩ := R'.size
  rw [← h3, ← h3']
  refine nodup_length_eq h1' h1 fun x => ?_
  rw [h2, h2', ← Option.isSome_iff_exists, ← Option.isSome_iff_exists, h]

theorem Rep.size_new {ty : Types} {r r' : Reg V} {k k' : Nat} {W : Handle → Option (Comps V)} {h : Handle} {d : Comps V} (R : Rep ty r k W)
    (R' : Rep ty r' k' (World.put W h (some d))) (hw : W h = none) : r'.size = r.size + 1 := by
  obtain ⟨l, h1, h2, h3⟩ := R.size
  obtain ⟨l', h1', h2', h3'⟩ := R'.size
  rw [← h3, ← h3']
  refine nodup_length_eq (l' := h :: l) h1' ?_ fun x => ?_
  · refine List.nodup_cons.2 ⟨fun hm => ?_, h1⟩
    obtain ⟨d', hd'⟩ := (h2 h).1 hm
    rw [hw] at hd'; cases hd'
  · rw [h2', List.mem_cons, h2]
    by_cases hx : x = h
    · subst hx; simp [put_self]
    · simp [put_ne hx, hx]

theorem put_put {W : Handle → Option (Comps V)} {h : Handle} {d : Comps V} (hw : W h = some d) : World.put (World.put W h none) h (some d) = W := by
  funext x
  unfold World.put
  by_cases hx : x = h
  · subst hx; simp [hw]
  · simp [hx]

/-! ### Visits -/

theorem visitRow_spec {row : Row V} {d : Comps V} : ∀ (cs : List Nat), (∀ c ∈ cs, ∃ v, d c = some v ∧ row (some c) = .live (.comp v)) →
    ∃ l, Reg.visitRow row (cs.map some) = .ok l ∧ l.map Prod.fst = cs ∧ ∀ x ∈ l, d x.1 = some x.2 := by
  intro cs
  induction cs with
  | nil => intro _; exact ⟨[], rfl, rfl, by simp⟩
  | cons c cs ih =>
    intro h
    obtain ⟨v, h1, h2⟩ := h c (by simp)
    obtain ⟨l, q1, q2, q3⟩ := ih fun x hx => h x (by simp [hx])
    refine ⟨(c, v) :: l, ?_, by simp [q2], ?_⟩
    · simp only [List.map_cons, Reg.visitRow, h2, Cell.read, q1]
    · intro x hx
      rcases List.mem_cons.1 hx with rfl | hx
      · exact h1
      · exact q3 x hx

theorem Rep.visit {ty : Types} {r : Reg V} {k : Nat} {W : Handle → Option (Comps V)} (R : Rep ty r k W) {h : Handle} {d : Comps V}
    (hw : W h = some d) : ∃ l, r.visit h = .ok l ∧ (l.map Prod.fst).Nodup ∧ ∀ c v, (c, v) ∈ l ↔ d c = some v := by
  obtain ⟨a, row, h1, h2, h3, h4, _⟩ := R.rowOf hw
  obtain ⟨d1, d2, d3⟩ := Row.decode_some h3 h4
  have hdrop : a.blocks.drop 1 = (a.comps.metas.map CompMeta.id).map some := by simp [Arch.blocks]
  obtain ⟨l, q1, q2, q3⟩ := visitRow_spec (row := row) (d := d) (a.comps.metas.map CompMeta.id) (fun c hc => by
    obtain ⟨v, hv⟩ := d2 c ((a.some_mem_blocks c).2 hc)
    exact ⟨v, hv⟩)
  refine ⟨l, ?_, by rw [q2]; exact h2.inv.nodup, ?_⟩
  · unfold Reg.visit
    rw [h1]
    simp only [hdrop, q1]
  · intro c v
    constructor
    · intro hm; exact q3 _ hm
    · intro hv
      have hmem : some c ∈ a.blocks := by
        by_cases hb : some c ∈ a.blocks
        · exact hb
        · rw [d3 c hb] at hv; cases hv
      have : c ∈ l.map Prod.fst := by rw [q2]; exact (a.some_mem_blocks c).1 hmem
      obtain ⟨x, hx, hxc⟩ := List.mem_map.1 this
      have hx2 := q3 x hx
      rw [hxc, hv, Option.some.injEq] at hx2
      rw [← hxc, hx2]; exact hx

theorem Rep.visit_none {ty : Types} {r : Reg V} {k : Nat} {W : Handle → Option (Comps V)} (R : Rep ty r k W) {h : Handle}
    (hw : W h = none) : r.visit h = .throw (if r.alive h then .outOfRange else .entityNotFound) := by
  unfold Reg.visit Reg.rowOf; rw [R.location_none hw]

/-! ### Arguments that refer to the registry -/

/-- Reading a component through its location. -/
theorem At.readAt {r : Reg V} {h : Handle} {d : Comps V} {l : Loc} {ai : Nat} {a : Arch V} {c : Chunk V} {row : Row V}
    (t : At r h d l ai a c row) {x : Nat} {v : V} (hv : d x = some v) : r.readAt l x = some v ∧ some x ∈ a.blocks := by
  obtain ⟨d1, d2, d3⟩ := Row.decode_some t.decode t.rowOk
  have hmem : some x ∈ a.blocks := by
    by_cases hb : some x ∈ a.blocks
    · exact hb
    · rw [d3 x hb] at hv; cases hv
  obtain ⟨v', h1, h2⟩ := d2 x hmem
  rw [hv] at h1; cases h1
  refine ⟨?_, hmem⟩
  unfold Reg.readAt
  simp only [t.archOf, t.row?, h2, Cell.read]

/-- Entities with different components are in different archetypes. -/
theorem At.arch_ne {r : Reg V} {h h' : Handle} {d d' : Comps V} {l l' : Loc} {ai ai' : Nat} {a a' : Arch V} {c c' : Chunk V} {row row' : Row V}
    (t : At r h d l ai a c row) (t' : At r h' d' l' ai' a' c' row') (hne : ∃ x, (d x).isSome ≠ (d' x).isSome) : ai ≠ ai' := by
  rintro rfl
  obtain ⟨x, hx⟩ := hne
  have := t.get
  rw [t'.get] at this
  cases this
  obtain ⟨_, d2, d3⟩ := Row.decode_some t.decode t.rowOk
  obtain ⟨_, d2', d3'⟩ := Row.decode_some t'.decode t'.rowOk
  by_cases hb : some x ∈ a.blocks
  · obtain ⟨v, h1, _⟩ := d2 x hb
    obtain ⟨v', h1', _⟩ := d2' x hb
    rw [h1, h1'] at hx; simp at hx
  · rw [d3 x hb, d3' x hb] at hx; simp at hx

/-- The relocation of one entity leaves entities of other archetypes where they are. -/
theorem setImpl_readAt_apart {ty : Types} {r : Reg V} {k : Nat} {W : Handle → Option (Comps V)} (R : Rep ty r k W) {h src : Handle} {d ds : Comps V}
    {l0 ls : Loc} {ai si : Nat} {a sa : Arch V} {c scn : Chunk V} {row srow : Row V} (t : At r h d l0 ai a c row) (ts : At r src ds ls si sa scn srow)
    {cid sc : Nat} {v : V} (hv : ds sc = some v) (hne : d cid ≠ none ∨ ai ≠ si) {r1 : Reg V} {b : Bool} {l : Loc}
    (hs : r.setImpl ty h cid = .ok r1 (b, l)) : r1.readAt ls sc = some v := by
  obtain ⟨d1, d2, d3⟩ := Row.decode_some t.decode t.rowOk
  obtain ⟨hread, hmem⟩ := ts.readAt hv
  unfold Reg.setImpl at hs
  simp only [t.loc, t.archOf] at hs
  cases hcon : a.contains cid with
  | true =>
    rw [hcon] at hs
    simp only [if_true, Res.ok.injEq, Prod.mk.injEq] at hs
    obtain ⟨rfl, _, _⟩ := hs
    exact hread
  | false =>
    have hnb : some cid ∉ a.blocks := by
      intro hb; rw [← t.ok.toShape.contains, hcon] at hb; cases hb
    have hasi : ai ≠ si := by
      rcases hne with hne | hne
      · exact absurd (d3 cid hnb) hne
      · exact hne
    obtain ⟨m, hm⟩ := R.archs
    simp only [hcon, Bool.false_eq_true, if_false] at hs
    rcases ensureAdded_spec hm t.get hcon with ⟨s, m', ni, n, e1, e2⟩ | ⟨s, m', e1, e2⟩
    · simp only [e1] at hs
      have hnok := e2.rel.ok ni n e2.arch
      have hbl : ∀ b, b ∈ n.blocks ↔ b = some cid ∨ b ∈ a.blocks := by
        intro b
        cases b with
        | none => simp [Arch.none_mem_blocks]
        | some x =>
          rw [Arch.blocks_of_set hnok.inv (t.ok.inv.insert (ty.info cid)) e2.set,
            insert_ids _ (by rw [ty.id_eq]; exact hcon), Arch.some_mem_blocks, ty.id_eq]
          simp
      have hnai : ai ≠ ni := by
        rintro rfl
        have := e2.keep t.get
        rw [e2.arch] at this
        cases this
        exact hnb ((hbl (some cid)).2 (.inl rfl))
      have t' := t.ensured e2
      have R' : Rep ty { r with archs := s } k W := R.withArchs e2.rel e2.slots
      obtain ⟨lm, hlm, L⟩ := R'.link
      by_cases hsafe : a.Safe l0.chunk l0.entry
      · obtain ⟨a', n', ci, idx, o1, oc, Rr, tl, t2, lm1, lm2, p1, p2, p3, p4, p5, _⟩ :=
          relocate_spec R'.pool R'.small hlm L R'.holds t' e2.arch hnok hnai hsafe
        simp only [p1, Res.ok.injEq, Prod.mk.injEq] at hs
        obtain ⟨rfl, rfl, rfl⟩ := hs
        have hsarch := e2.keep ts.get
        have hne1 : (s.arches.set ai a')[si]? = some sa := by rw [set_getElem?_ne _ _ hasi]; exact hsarch
        unfold Reg.readAt Reg.archOf at hread ⊢
        rw [ts.arch] at hread ⊢
        simp only [ts.get, ts.row?] at hread
        by_cases hns : ni = si
        · subst hns
          rw [e2.arch] at hsarch
          cases hsarch
          have hlt := (List.getElem?_eq_some_iff.1 hne1).1
          have hpush : sa.Pushed ci idx Rr n' := by
            rw [p5.eq, p5.ci, p5.idx]; exact p5.free.pushed Rr tl
          simp only [Reg.setArch, List.getElem?_set_self hlt, hpush.row?]
          have hnl : ¬ (ls.chunk = ci ∧ ls.entry = idx) := by
            rintro ⟨q1, q2⟩
            have := hpush.free
            rw [← q1, ← q2, ts.row?] at this
            cases this
          rw [if_neg hnl, ts.row?]
          exact hread
        · simp only [Reg.setArch, set_getElem?_ne _ _ hns, hne1, ts.row?]
          exact hread
      · rw [relocate_ub (r := { r with archs := s }) (e2.keep t.get) hsafe] at hs
        cases hs
    · simp only [e1] at hs
      cases hs

theorem setImpl_readAt {ty : Types} {r : Reg V} {k : Nat} {W : Handle → Option (Comps V)} (R : Rep ty r k W) {h src : Handle} {d ds : Comps V}
    (hw : W h = some d) (hws : W src = some ds) {cid sc : Nat} {v : V} (hv : ds sc = some v)
    (hne : d cid ≠ none ∨ ∃ x, (d x).isSome ≠ (ds x).isSome) {r1 : Reg V} {b : Bool} {l : Loc} {ls : Loc}
    (hl : r.location src = .ok ls) (hs : r.setImpl ty h cid = .ok r1 (b, l)) : r1.readAt ls sc = some v := by
  obtain ⟨l0, ai, a, c, row, t⟩ := R.at_ hw
  obtain ⟨l1, si, sa, scn, srow, ts⟩ := R.at_ hws
  rw [ts.loc] at hl
  cases hl
  exact setImpl_readAt_apart R t ts hv (hne.imp id (t.arch_ne ts)) hs

theorem setFrom_eq {ty : Types} {r : Reg V} {k : Nat} {W : Handle → Option (Comps V)} (R : Rep ty r k W) {h src : Handle} {d ds : Comps V}
    (hw : W h = some d) (hws : W src = some ds) {cid sc : Nat} {v : V} (hv : ds sc = some v)
    (hne : d cid ≠ none ∨ ∃ x, (d x).isSome ≠ (ds x).isSome) : r.setFrom ty h cid src sc = r.set ty h cid v := by
  obtain ⟨l1, si, sa, scn, srow, ts⟩ := R.at_ hws
  obtain ⟨hread, hmem⟩ := ts.readAt hv
  unfold Reg.setFrom Reg.set
  simp only [ts.loc, ts.archOf, hmem, if_true]
  cases hs : r.setImpl ty h cid with
  | ub => rfl
  | throw r1 e => rfl
  | ok r1 x =>
    obtain ⟨b, l⟩ := x
    simp only [setImpl_readAt R hw hws hv hne ts.loc hs]

end CoEcs
