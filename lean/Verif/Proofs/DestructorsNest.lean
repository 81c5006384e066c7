import Verif.Proofs.DestructorsRemove

/-!
# Destructors that use other tables: the nested calls have the effect of the plain ones
-/

namespace CoEcs
open Spec (RegOp Sys Out kinds tables releases Nest noHandle)
variable {V : Type}

/-! ### Histories with nested calls -/

theorem Nest.nil_inv {ty : Types} {hook : Released V} {i d : Nat} {busy : List (Nat → Bool)} {s s' : Sys V} {W W' : Spec.World V}
    {ks : List (RegOp V)} (N : Nest ty hook i d busy s W ks s' W') (h : ks = []) : s' = s ∧ W' = W := by
  cases N with
  | nil => exact ⟨rfl, rfl⟩
  | cons => cases h

theorem Nest.split {ty : Types} {hook : Released V} {i d : Nat} {busy : List (Nat → Bool)} {k2 : List (RegOp V)} {s' : Sys V} {W' : Spec.World V} :
    ∀ {k1 : List (RegOp V)} {s : Sys V} {W : Spec.World V}, Nest ty hook i d busy s W (k1 ++ k2) s' W' →
      ∃ s1 W1, Nest ty hook i d busy s W k1 s1 W1 ∧ Nest ty hook i d busy s1 W1 k2 s' W'
  | [], s, W, N => ⟨s, W, .nil, N⟩
  | k :: k1, s, W, N => by
    cases N with
    | cons h1 h2 h3 h4 h5 h6 =>
      obtain ⟨s1, W1, h7, h8⟩ := Nest.split h6
      exact ⟨s1, W1, .cons h1 h2 h3 h4 h5 h7, h8⟩

/-- An entity of an archetype that has not changed is where it was. -/
theorem At.later {ty : Types} {r r1 : Reg V} {k1 : Nat} {W1 : Handle → Option (Comps V)} (R1 : Rep ty r1 k1 W1)
    {h : Handle} {d : Comps V} {l : Loc} {ai : Nat} {a : Arch V} {c : Chunk V} {row : Row V} (t : At r h d l ai a c row)
    (ha : r1.archs.arches[ai]? = some a) : W1 h = some d ∧ At r1 h d l ai a c row := by
  have hs : slots r1.archs.arches l = some (h, d) := by
    rw [← t.slot]
    unfold slots
    rw [t.arch]
    simp only [ha, t.get]
  have hw : W1 h = some d := (R1.holds h d).1 ⟨l, hs⟩
  refine ⟨hw, ?_⟩
  obtain ⟨l', ai', a', c', row', t'⟩ := R1.at_ hw
  obtain ⟨lm, hlm, L⟩ := R1.link
  obtain ⟨e, _⟩ := L.inj t'.slot hs
  subst e
  exact ⟨t'.loc, t.arch, ha, t.ok, t.chunk, t.lt, t.row_eq, t.decode, t.rowOk, hs⟩

theorem releases_none {ty : Types} {hook : Released V} {r : Reg V} {k : Nat} {W : Handle → Option (Comps V)} (R : Rep ty r k W) {h : Handle}
    (hw : W h = none) : releases hook r (.destroy h) = [] ∧ (∀ c v, releases hook r (.set h c v) = []) ∧
      (∀ c v, releases hook r (.assign h c v) = []) ∧ ∀ c, releases hook r (.remove h c) = [] := by
  have hg := R.get_none hw
  have hl := R.location_none hw
  refine ⟨?_, ?_, ?_, ?_⟩
  · simp [releases, Reg.visit, Reg.rowOf, hl]
  · intro c v; simp [releases, hg]
  · intro c v; simp [releases, hg]
  · intro c; simp [releases, hg]

/-- The tables of a call are the same after the destructors. -/
theorem nest_tables {ty : Types} {hook : Released V} {i d : Nat} {busy : List (Nat → Bool)} {s s1 : Sys V} {W W1 : Spec.World V} {op : RegOp V}
    (I : SysInv ty s W) (I1 : SysInv ty s1 W1)
    (N : Nest ty hook i d (tables (W i) op ++ busy) s W (releases hook (s.reg i) op) s1 W1)
    (K : ∀ (j : Nat) (a : Arch V), (s.reg i).archs.arches[j]? = some a → a.contains ∈ tables (W i) op ++ busy →
      (s1.reg i).archs.arches[j]? = some a) : tables (W1 i) op = tables (W i) op := by
  have R := (I i).rep
  have R1 := (I1 i).rep
  have hsome : ∀ h d, W i h = some d → kinds d ∈ tables (W i) op → W1 i h = some d := by
    intro h d hw hk
    obtain ⟨l, ai, a, c, row, t⟩ := R.at_ hw
    have := K ai a t.get (by rw [t.kinds]; exact List.mem_append_left _ hk)
    exact (t.later R1 this).1
  have hnil : releases hook (s.reg i) op = [] → tables (W1 i) op = tables (W i) op := by
    intro e
    obtain ⟨_, e2⟩ := Nest.nil_inv N e
    rw [e2]
  cases op with
  | create args => rfl
  | destroy h =>
    cases hw : W i h with
    | none => exact hnil (releases_none R hw).1
    | some d => simp [tables, hw, hsome h d hw (by simp [tables, hw])]
  | assign h c v =>
    cases hw : W i h with
    | none => exact hnil ((releases_none R hw).2.2.1 c v)
    | some d => simp [tables, hw, hsome h d hw (by simp [tables, hw])]
  | set h c v =>
    cases hw : W i h with
    | none => exact hnil ((releases_none R hw).2.1 c v)
    | some d => simp [tables, hw, hsome h d hw (by simp [tables, hw])]
  | remove h c =>
    cases hw : W i h with
    | none => exact hnil ((releases_none R hw).2.2.2 c)
    | some d => simp [tables, hw, hsome h d hw (by simp [tables, hw])]
  | clone h ph => exact hnil rfl
  | getOrInsert h c v => exact hnil rfl
  | reserve => rfl
  | sync => rfl

/-- The invariant is kept, and so are the archetypes of the tables in use. -/
theorem nest_inv {ty : Types} {hook : Released V} {i d : Nat} {busy : List (Nat → Bool)} {s s' : Sys V} {W W' : Spec.World V}
    {ks : List (RegOp V)} (N : Nest ty hook i d busy s W ks s' W') (I : SysInv ty s W) : SysInv ty s' W' ∧
      ∀ (j : Nat) (a : Arch V), (s.reg i).archs.arches[j]? = some a → a.contains ∈ busy → (s'.reg i).archs.arches[j]? = some a := by
  induction N with
  | nil => exact ⟨I, fun _ _ h _ => h⟩
  | cons h1 h2 h3 h4 h5 h6 ih3 ih6 =>
    obtain ⟨I1, K1⟩ := ih3 I
    have ht := nest_tables I I1 h3 K1
    have hs := step_spec I1 h4
    rw [h5] at hs
    obtain ⟨I3, K3⟩ := ih6 hs.1
    refine ⟨I3, fun j a ha hb => K3 j a ?_ hb⟩
    exact step_leaves (I1 i) h4 (by rw [ht]; exact h1) h5 (K1 j a ha (List.mem_append_right _ hb)) hb

theorem nest_reach {ty : Types} {hook : Released V} {i d : Nat} {busy : List (Nat → Bool)} {s s' : Sys V} {W W' : Spec.World V}
    {ks : List (RegOp V)} (N : Nest ty hook i d busy s W ks s' W') (h : Spec.Reachable ty s W) : Spec.Reachable ty s' W' := by
  induction N with
  | nil => exact h
  | cons h1 h2 h3 h4 h5 h6 ih3 ih6 => exact ih6 (.step (ih3 h) h4 trivial h5)

/-! ### Replacing one more archetype -/

/-- `x` for archetype `ai`. -/
def Instead.with_ (X : Instead V) (ai : Nat) (x : Arch V) : Instead V := fun k => if k = ai then some x else X k

theorem over_same {r : Reg V} {X : Instead V} {ai : Nat} {a : Arch V} (h : r.archs.arches[ai]? = some a) (hX : X ai = none) :
    r.over (X.with_ ai a) = r.over X := by
  unfold Reg.over Archs.over
  simp only [Reg.mk.injEq, Archs.mk.injEq, true_and, and_true]
  apply List.ext_getElem?
  intro k
  simp only [List.getElem?_mapIdx, Instead.with_]
  by_cases e : k = ai
  · subst e; simp [h, hX]
  · simp [e]

theorem over_put {r : Reg V} {X : Instead V} {ai : Nat} {a : Arch V} (h : r.archs.arches[ai]? = some a) (hX : X ai = none) (x : Arch V) :
    r.over (X.with_ ai x) = (r.setArch ai x).over X := by
  unfold Reg.over Archs.over Reg.setArch
  simp only [Reg.mk.injEq, Archs.mk.injEq, true_and, and_true]
  apply List.ext_getElem?
  intro k
  have := (List.getElem?_eq_some_iff.1 h).1
  simp only [List.getElem?_mapIdx, Instead.with_, List.getElem?_set]
  by_cases e : k = ai
  · subst e; simp [hX, this]
  · have e' : ¬ ai = k := fun q => e q.symm
    simp [e, e']

theorem over_mod {r : Reg V} {X : Instead V} {ai : Nat} {x : Arch V} (f : Arch V → Arch V) :
    (r.over (X.with_ ai x)).modArch ai f = r.over (X.with_ ai (f x)) := by
  unfold Reg.over Archs.over Reg.modArch
  simp only [Reg.mk.injEq, Archs.mk.injEq, true_and, and_true]
  apply List.ext_getElem?
  intro k
  simp only [List.getElem?_mapIdx, Instead.with_, List.getElem?_modify]
  by_cases e : k = ai
  · subst e; cases r.archs.arches[k]? <;> simp
  · have e' : ¬ ai = k := fun q => e q.symm
    cases r.archs.arches[k]? <;> simp [e, e']

theorem Fits.with_ {X : Instead V} {as : List (Arch V)} (h : Fits X as) {ai : Nat} {a x : Arch V} (ha : as[ai]? = some a) (hx : x.comps = a.comps) :
    Fits (X.with_ ai x) as := by
  intro j y hy
  unfold Instead.with_ at hy
  by_cases e : j = ai
  · subst e; simp at hy; subst hy; exact ⟨a, ha, hx⟩
  · simp [e] at hy; exact h j y hy

theorem Covered.with_ {X : Instead V} {busy more : List (Nat → Bool)} (h : Covered X busy) {ai : Nat} {x : Arch V} (hx : x.contains ∈ more) :
    Covered (X.with_ ai x) (more ++ busy) := by
  intro j y hy
  unfold Instead.with_ at hy
  by_cases e : j = ai
  · subst e; simp at hy; subst hy; exact List.mem_append_left _ hx
  · simp [e] at hy; exact List.mem_append_right _ (h j y hy)

/-- The references held are to chunks of replaced archetypes. -/
def Watched (X : Instead V) (w : List Watch) : Prop := ∀ u ∈ w, ∃ ai x, u = .chunks ai x.chunks.length ∧ X ai = some x

theorem Watched.with_ {X : Instead V} {w : List Watch} (h : Watched X w) {ai n : Nat} {x : Arch V} (hX : X ai = none) (hn : x.chunks.length = n) :
    Watched (X.with_ ai x) (.chunks ai n :: w) := by
  intro u hu
  cases hu with
  | head => exact ⟨ai, x, by rw [hn], by simp [Instead.with_]⟩
  | tail _ hu =>
    obtain ⟨aj, y, h1, h2⟩ := h u hu
    refine ⟨aj, y, h1, ?_⟩
    unfold Instead.with_
    have : ¬ aj = ai := by rintro rfl; rw [hX] at h2; cases h2
    simp [this, h2]

theorem Watched.valid {X : Instead V} {w : List Watch} (h : Watched X w) {r : Reg V} (hf : Fits X r.archs.arches) :
    w.all (Watch.valid (r.over X)) = true := by
  rw [List.all_eq_true]
  intro u hu
  obtain ⟨ai, x, rfl, h2⟩ := h u hu
  unfold Watch.valid
  simp only
  rw [over_archs, over_get_some hf h2]
  simp

theorem Fits.later {X : Instead V} {as as' : List (Arch V)} {busy : List (Nat → Bool)} (h : Fits X as) (hc : Covered X busy)
    (K : ∀ (j : Nat) (a : Arch V), as[j]? = some a → a.contains ∈ busy → as'[j]? = some a) : Fits X as' := by
  intro j x hx
  obtain ⟨a, h1, h2⟩ := h j x hx
  refine ⟨a, K j a h1 ?_, h2⟩
  have := hc j x hx
  have e : x.contains = a.contains := by funext c; unfold Arch.contains; rw [h2]
  rwa [← e]

/-! ### One call -/

/-- Nested calls of depth `d` have the effect of the plain ones. -/
def Runs (ty : Types) (hook : Released V) (i d : Nat) : Prop :=
  ∀ (busy : List (Nat → Bool)) (s s' : Sys V) (W W' : Spec.World V) (ks : List (RegOp V)), Nest ty hook i d busy s W ks s' W' →
    SysInv ty s W → ∀ n, d ≤ n → ∀ (X : Instead V) (w : List Watch), Fits X (s.reg i).archs.arches → Covered X busy → Watched X w →
    callsWith (stepWith ty hook n) w ks ((s.reg i).over X) = .ok ((s'.reg i).over X)

theorem ofRes_step {ty : Types} {s s' : Sys V} {i : Nat} {op : RegOp V} {out : Out} (hs : s.step ty (.on i op) = some (s', out)) {X : Instead V}
    (ho : op.run ty ((s.reg i).over X) = mapRes (·.over X) (op.run ty (s.reg i))) :
    Ran.ofRes (op.run ty ((s.reg i).over X)) = .ok ((s'.reg i).over X, out) := by
  rw [ho]
  rcases step_run hs with ⟨h, hr, rfl⟩ | ⟨e, hr, rfl⟩
  · rw [hr]; rfl
  · rw [hr]; rfl

theorem visitRow_cells {hook : Released V} {row : Row V} : ∀ {bs : List BlockId}, (∀ b ∈ bs, ∃ c v, b = some c ∧ row b = .live (.comp v)) →
    ∃ L, Reg.visitRow row bs = .ok L ∧ (L.flatMap fun x => hook x.1 x.2) = bs.flatMap fun b => cellOps hook b (row b)
  | [], _ => ⟨[], rfl, rfl⟩
  | b :: bs, h => by
    obtain ⟨c, v, rfl, hv⟩ := h b (List.mem_cons_self ..)
    obtain ⟨L, h1, h2⟩ := visitRow_cells (hook := hook) fun b hb => h b (List.mem_cons_of_mem _ hb)
    refine ⟨(c, v) :: L, ?_, ?_⟩
    · unfold Reg.visitRow
      simp only [hv, Cell.read, h1]
    · rw [List.flatMap_cons, List.flatMap_cons, h2, hv]
      rfl

theorem releases_destroy {hook : Released V} {r : Reg V} {h : Handle} {d : Comps V} {l : Loc} {ai : Nat} {a : Arch V} {c : Chunk V}
    {row : Row V} (t : At r h d l ai a c row) :
    releases hook r (.destroy h) = a.blocks.flatMap fun b => cellOps hook b (c.rows l.entry b) := by
  obtain ⟨d1, d2, d3⟩ := Row.decode_some t.decode t.rowOk
  have hr : r.rowOf h = .ok (a, row) := by simp [Reg.rowOf, t.loc, t.archOf, t.row?]
  obtain ⟨L, h1, h2⟩ := visitRow_cells (hook := hook) (row := row) (bs := a.blocks.drop 1) (by
    intro b hb
    have hb' : b ∈ a.blocks := List.mem_of_mem_drop hb
    cases b with
    | none => simp [Arch.blocks] at hb
    | some c =>
      obtain ⟨v, _, hv⟩ := d2 c hb'
      exact ⟨c, v, rfl, hv⟩)
  have hv : r.visit h = .ok L := by simp only [Reg.visit, hr, h1]
  simp only [releases, hv, h2]
  rw [← t.row_eq]
  have e : a.blocks = none :: a.blocks.drop 1 := rfl
  conv => rhs; rw [e, List.flatMap_cons]
  simp [cellOps]

section
variable {ty : Types} {hook : Released V} {i d m : Nat} {busy : List (Nat → Bool)} {s s1 s2 : Sys V} {W W1 : Spec.World V}
  {X : Instead V} {w : List Watch} {out : Out}

/-- The calls of destructors while archetype `ai` is in use. -/
theorem inner_calls {T : List (Nat → Bool)} (P : Runs ty hook i d) (hm : d ≤ m) (hc : Covered X busy) (hw : Watched X w) {ai : Nat} {a : Arch V} (hX : X ai = none)
    (ht : a.contains ∈ T) {t t' : Sys V} {U U' : Spec.World V} (I : SysInv ty t U) (hf : Fits X (t.reg i).archs.arches)
    (ha : (t.reg i).archs.arches[ai]? = some a) {ks : List (RegOp V)} (N : Nest ty hook i d (T ++ busy) t U ks t' U') {x : Arch V}
    (h1 : x.comps = a.comps) (h2 : x.chunks.length = a.chunks.length) :
    callsWith (stepWith ty hook m) (.chunks ai a.chunks.length :: w) ks ((t.reg i).over (X.with_ ai x)) = .ok ((t'.reg i).over (X.with_ ai x)) := by
  refine P _ _ _ _ _ _ N I m hm _ _ (hf.with_ ha h1) (hc.with_ ?_) (hw.with_ hX h2)
  have e : x.contains = a.contains := by funext c; unfold Arch.contains; rw [h1]
  rwa [e]

theorem destroyWith_run (P : Runs ty hook i d) (hm : d ≤ m) (I : SysInv ty s W) (hf : Fits X (s.reg i).archs.arches)
    (hc : Covered X busy) (hw : Watched X w) {h : Handle}
    (hb : ∀ T ∈ tables (W i) (.destroy h), T ∉ busy)
    (N : Nest ty hook i d (tables (W i) (.destroy h) ++ busy) s W (releases hook (s.reg i) (.destroy h)) s1 W1)
    (hs : s1.step ty (.on i (.destroy h)) = some (s2, out)) :
    stepWith ty hook (m + 1) w ((s.reg i).over X) (.destroy h) = .ok ((s2.reg i).over X, out) := by
  have R := (I i).rep
  obtain ⟨I1, K1⟩ := nest_inv N I
  have R1 := (I1 i).rep
  show ((s.reg i).over X).destroyWith (fun w r c v => callsWith (stepWith ty hook m) w (hook c v) r) w h = _
  unfold Reg.destroyWith
  rw [over_location]
  have hrun := step_run hs
  unfold RegOp.run at hrun
  simp only at hrun
  cases hwh : W i h with
  | none =>
    obtain ⟨e1, e2⟩ := Nest.nil_inv N (releases_none R hwh).1
    subst e1
    have hl := R.location_none hwh
    unfold Reg.destroy at hrun
    rw [hl] at hrun ⊢
    simp only [noHandle] at hrun ⊢
    rcases hrun with ⟨_, h1, _⟩ | ⟨e, h1, rfl⟩
    · cases h1
    · simp only [Res.throw.injEq] at h1
      obtain ⟨q, rfl⟩ := h1
      rw [← q]
  | some dd =>
    obtain ⟨l, ai, a, c, row, t⟩ := R.at_ hwh
    have hk : a.contains ∈ tables (W i) (.destroy h) := by rw [t.kinds]; simp [tables, hwh]
    have ha1 := K1 ai a t.get (List.mem_append_left _ hk)
    obtain ⟨hw1, t1⟩ := t.later R1 ha1
    have hX : X ai = none := R.elsewhere hf hc (fun d' hd' => hb _ (by simp [tables, hd'])) l ai t.loc t.arch
    unfold Reg.destroy at hrun
    simp only [t1.loc, t1.archOf] at hrun
    simp only [t.loc, t.arch]
    cases he : a.swapErase l.chunk l.entry with
    | none => rw [he] at hrun; simp [noHandle] at hrun
    | some x =>
      obtain ⟨a', moved⟩ := x
      rw [he] at hrun
      simp only at hrun
      let σ := { p : Sys V × Spec.World V // SysInv ty p.1 p.2 ∧ (p.1.reg i).archs.arches[ai]? = some a ∧ Fits X (p.1.reg i).archs.arches }
      have hcov : ∀ {q : Sys V × Spec.World V} {ks : List (RegOp V)} {p : Sys V × Spec.World V},
          Nest ty hook i d (tables (W i) (.destroy h) ++ busy) p.1 p.2 ks q.1 q.2 →
          (SysInv ty p.1 p.2 ∧ (p.1.reg i).archs.arches[ai]? = some a ∧ Fits X (p.1.reg i).archs.arches) →
          SysInv ty q.1 q.2 ∧ (q.1.reg i).archs.arches[ai]? = some a ∧ Fits X (q.1.reg i).archs.arches := by
        rintro q ks p N' ⟨q1, q2, q3⟩
        obtain ⟨I', K'⟩ := nest_inv N' q1
        exact ⟨I', K' ai a q2 (List.mem_append_left _ hk), q3.later hc fun j b hj hb' => K' j b hj (List.mem_append_right _ hb')⟩
      have C : Carries ai a.comps a.chunks.length (fun (p : σ) x => (p.1.1.reg i).over (X.with_ ai x))
          (fun p ks q => Nest ty hook i d (tables (W i) (.destroy h) ++ busy) p.1.1 p.1.2 ks q.1.1 q.1.2)
          (callsWith (stepWith ty hook m) (.chunks ai a.chunks.length :: w)) := by
        refine ⟨?_, ?_, ?_, ?_, fun _ => .nil, fun _ => rfl, ?_⟩
        · intro p x
          show ((p.1.1.reg i).over (X.with_ ai x)).archs.arches[ai]? = some x
          rw [over_archs, over_get, p.2.2.1]
          simp [Instead.with_]
        · intro p x f
          exact over_mod f
        · intro p k1 k2 q N'
          obtain ⟨s3, W3, n1, n2⟩ := Nest.split N'
          exact ⟨⟨(s3, W3), hcov (q := (s3, W3)) n1 p.2⟩, n1, n2⟩
        · intro p q N'
          obtain ⟨e1, e2⟩ := Nest.nil_inv N' rfl
          exact Subtype.ext (Prod.ext e1 e2)
        · intro p ks q x N' h1 h2
          exact inner_calls P hm hc hw hX hk p.2.1 p.2.2.2 p.2.2.1 N' h1 h2
      have p0 : SysInv ty s W ∧ (s.reg i).archs.arches[ai]? = some a ∧ Fits X (s.reg i).archs.arches := ⟨I, t.get, hf⟩
      have hrun' := swapEraseWith_run hook C (Arch.nodup_blocks t.ok.inv) (fun k c hk => t.ok.sizes k c hk) t.chunk he
        (s := ⟨(s, W), p0⟩) (s1 := ⟨(s1, W1), hcov (q := (s1, W1)) (p := (s, W)) N p0⟩) (by
          show Nest ty hook i d (tables (W i) (.destroy h) ++ busy) s W _ s1 W1
          rw [← releases_destroy t]
          exact N)
      simp only at hrun'
      rw [over_same t.get hX, over_put ha1 hX] at hrun'
      rw [hrun']
      simp only
      rw [over_removeLoc]
      cases hrl : ((s1.reg i).setArch ai a').removeLoc h.id with
      | none => rw [hrl] at hrun; simp [noHandle] at hrun
      | some r1 =>
        rw [hrl] at hrun
        simp only [Option.map_some] at hrun ⊢
        rw [over_setMoved]
        cases hsm : r1.setMoved moved l with
        | none => rw [hsm] at hrun; simp [noHandle] at hrun
        | some r2 =>
          rw [hsm] at hrun
          simp only [noHandle, Option.map_some] at hrun ⊢
          rcases hrun with ⟨_, h1, rfl⟩ | ⟨e, h1, rfl⟩
          · simp only [Res.ok.injEq] at h1
            obtain ⟨q, rfl⟩ := h1
            rw [← q]; rfl
          · cases h1

/-- Assignment to a component that the entity has. -/
theorem overwriteWith_run (P : Runs ty hook i d) (hm : d ≤ m) (I : SysInv ty s W) (hf : Fits X (s.reg i).archs.arches)
    (hc : Covered X busy) (hw : Watched X w) {T : List (Nat → Bool)} {h : Handle} {dd : Comps V} {l : Loc} {ai : Nat} {a : Arch V} {c : Chunk V} {row : Row V}
    (t : At (s.reg i) h dd l ai a c row) (hX : X ai = none) (hk : a.contains ∈ T) {cid : Nat} {v0 v : V} (hv : dd cid = some v0)
    (N : Nest ty hook i d (T ++ busy) s W (hook cid v0) s1 W1) {r' : Reg V} (hs : (s1.reg i).writeAt l cid false v = some r') :
    ((s.reg i).over X).overwriteWith (fun w r c v => callsWith (stepWith ty hook m) w (hook c v) r) w l cid v = .ok (r'.over X, .ok none) := by
  obtain ⟨d1, d2, d3⟩ := Row.decode_some t.decode t.rowOk
  have hX' : ∀ j, l.arch = some j → X j = none := by
    intro j hj; rw [t.arch] at hj; cases hj; exact hX
  unfold Reg.overwriteWith
  rw [over_archOf hX', t.archOf]
  have hmem : some cid ∈ a.blocks := by
    apply Classical.byContradiction
    intro hb
    rw [d3 cid hb] at hv; cases hv
  obtain ⟨v1, e1, e2⟩ := d2 cid hmem
  rw [hv] at e1
  cases e1
  have hcell : a.cell l.chunk l.entry (some cid) = some (.live (.comp v0)) := by
    unfold Arch.cell
    have h1 := t.ok.sizes _ _ t.chunk
    have h2 := t.lt
    rw [t.chunk]
    simp only
    rw [if_pos (by omega), ← t.row_eq, e2]
  simp only [hcell, Reg.releaseCell]
  have hin := inner_calls P hm hc hw hX hk I hf t.get N rfl rfl (x := a)
  obtain ⟨I1, K1⟩ := nest_inv N I
  have ha1 := K1 ai a t.get (List.mem_append_left _ hk)
  rw [over_same t.get hX, over_same ha1 hX] at hin
  rw [hin]
  simp only
  rw [writeAt_over hX', hs]
  rfl

theorem setWith_run (P : Runs ty hook i d) (hm : d ≤ m) (I : SysInv ty s W) (hf : Fits X (s.reg i).archs.arches)
    (hc : Covered X busy) (hw : Watched X w) {h : Handle} {cid : Nat} {v : V}
    (hb : ∀ T ∈ tables (W i) (.set h cid v), T ∉ busy)
    (N : Nest ty hook i d (tables (W i) (.set h cid v) ++ busy) s W (releases hook (s.reg i) (.set h cid v)) s1 W1)
    (hs : s1.step ty (.on i (.set h cid v)) = some (s2, out)) :
    stepWith ty hook (m + 1) w ((s.reg i).over X) (.set h cid v) = .ok ((s2.reg i).over X, out) := by
  have R := (I i).rep
  obtain ⟨I1, K1⟩ := nest_inv N I
  have R1 := (I1 i).rep
  show ((s.reg i).over X).setWith ty (fun w r c v => callsWith (stepWith ty hook m) w (hook c v) r) w h cid v = _
  have hel : Elsewhere X (s.reg i) h := R.elsewhere hf hc fun d' hd' => hb _ (by simp [tables, hd'])
  have had := R.addedApart hf hc (h := h) (x := cid) v fun d' hd' => hb _ (by simp [tables, hd'])
  -- what happens when nothing is released
  have plain : s1 = s → (∀ r' l', (s.reg i).setImpl ty h cid ≠ .ok r' (false, l')) →
      ((s.reg i).over X).setWith ty (fun w r c v => callsWith (stepWith ty hook m) w (hook c v) r) w h cid v = .ok ((s2.reg i).over X, out) := by
    rintro rfl hne
    have e := ofRes_step hs (X := X) (by
      show noHandle (((s1.reg i).over X).set ty h cid v) = mapRes (·.over X) (noHandle ((s1.reg i).set ty h cid v))
      rw [set_over hf v hel had]
      cases (s1.reg i).set ty h cid v <;> rfl)
    rw [← e]
    unfold RegOp.run Reg.setWith Reg.set
    simp only
    rw [(setImpl_over hf hel had).1]
    cases hsi : (s1.reg i).setImpl ty h cid with
    | ub => rfl
    | throw r' e => rfl
    | ok r' b =>
      obtain ⟨b, l'⟩ := b
      cases b with
      | false => exact absurd hsi (hne r' l')
      | true =>
        simp only [mapRes]
        cases (r'.over X).writeAt l' cid true v <;> rfl
  cases hwh : W i h with
  | none =>
    obtain ⟨e1, e2⟩ := Nest.nil_inv N ((releases_none R hwh).2.1 cid v)
    refine plain e1 ?_
    intro r' l'
    unfold Reg.setImpl
    rw [R.location_none hwh]
    simp
  | some dd =>
    obtain ⟨l, ai, a, c, row, t⟩ := R.at_ hwh
    obtain ⟨d1, d2, d3⟩ := Row.decode_some t.decode t.rowOk
    cases hv : dd cid with
    | none =>
      obtain ⟨e1, e2⟩ := Nest.nil_inv N (by simp [releases, R.get_absent hwh hv])
      refine plain e1 ?_
      intro r' l' hsi
      have hnc : a.contains cid = false := by
        cases hcon : a.contains cid with
        | false => rfl
        | true =>
          obtain ⟨v1, q, _⟩ := d2 cid ((t.ok.toShape.contains cid).1 hcon)
          rw [hv] at q; cases q
      unfold Reg.setImpl at hsi
      simp only [t.loc, t.archOf, hnc] at hsi
      simp only [Bool.false_eq_true, if_false] at hsi
      split at hsi
      · cases hsi
      · cases hsi
      · split at hsi <;> cases hsi
    | some v0 =>
      have hk : a.contains ∈ tables (W i) (.set h cid v) := by rw [t.kinds]; simp [tables, hwh]
      have ha1 := K1 ai a t.get (List.mem_append_left _ hk)
      obtain ⟨hw1, t1⟩ := t.later R1 ha1
      have hX : X ai = none := hel l ai t.loc t.arch
      have hcon : a.contains cid = true := by
        rw [t.ok.toShape.contains]
        apply Classical.byContradiction
        intro hb'
        rw [d3 cid hb'] at hv; cases hv
      have hsi : ∀ r : Reg V, r.location h = .ok l → r.archOf l = some (ai, a) → r.setImpl ty h cid = .ok r (false, l) := by
        intro r q1 q2
        unfold Reg.setImpl
        simp only [q1, q2, hcon, if_true]
      have hX' : ∀ j, l.arch = some j → X j = none := by
        intro j hj; rw [t.arch] at hj; cases hj; exact hX
      unfold Reg.setWith
      rw [hsi ((s.reg i).over X) t.loc (by rw [over_archOf hX', t.archOf])]
      simp only
      have hrun := step_run hs
      unfold RegOp.run Reg.set at hrun
      simp only [hsi _ t1.loc t1.archOf] at hrun
      cases hwr : (s1.reg i).writeAt l cid false v with
      | none => rw [hwr] at hrun; simp [noHandle] at hrun
      | some r' =>
        rw [hwr] at hrun
        simp only [noHandle] at hrun
        have N' : Nest ty hook i d (tables (W i) (.set h cid v) ++ busy) s W (hook cid v0) s1 W1 := by
          have e : releases hook (s.reg i) (.set h cid v) = hook cid v0 := by simp [releases, R.get_some hwh hv]
          rwa [e] at N
        rw [overwriteWith_run P hm I hf hc hw t hX hk hv N' hwr]
        rcases hrun with ⟨_, h1, rfl⟩ | ⟨e, h1, rfl⟩
        · simp only [Res.ok.injEq] at h1
          obtain ⟨q, rfl⟩ := h1
          rw [← q]
        · cases h1

theorem assignWith_run (P : Runs ty hook i d) (hm : d ≤ m) (I : SysInv ty s W) (hf : Fits X (s.reg i).archs.arches)
    (hc : Covered X busy) (hw : Watched X w) {h : Handle} {cid : Nat} {v : V}
    (hb : ∀ T ∈ tables (W i) (.assign h cid v), T ∉ busy)
    (N : Nest ty hook i d (tables (W i) (.assign h cid v) ++ busy) s W (releases hook (s.reg i) (.assign h cid v)) s1 W1)
    (hs : s1.step ty (.on i (.assign h cid v)) = some (s2, out)) :
    stepWith ty hook (m + 1) w ((s.reg i).over X) (.assign h cid v) = .ok ((s2.reg i).over X, out) := by
  have R := (I i).rep
  obtain ⟨I1, K1⟩ := nest_inv N I
  have R1 := (I1 i).rep
  show ((s.reg i).over X).assignWith (fun w r c v => callsWith (stepWith ty hook m) w (hook c v) r) w h cid v = _
  have hrun := step_run hs
  unfold RegOp.run Reg.assign at hrun
  simp only at hrun
  unfold Reg.assignWith
  rw [over_location]
  have fin : ∀ {r' : Reg V} {e : Exn}, ((∃ h, (Res.throw r' e : Res (Reg V) (Option Handle)) = .ok (s2.reg i) h ∧ out = .ok h) ∨
      (∃ e', (Res.throw r' e : Res (Reg V) (Option Handle)) = .throw (s2.reg i) e' ∧ out = .throw e')) →
      (.ok (r'.over X, .throw e) : Ran (Reg V × Out)) = .ok ((s2.reg i).over X, out) := by
    rintro r' e (⟨_, h1, rfl⟩ | ⟨e', h1, rfl⟩)
    · cases h1
    · simp only [Res.throw.injEq] at h1
      obtain ⟨q, rfl⟩ := h1
      rw [← q]
  cases hwh : W i h with
  | none =>
    obtain ⟨e1, e2⟩ := Nest.nil_inv N ((releases_none R hwh).2.2.1 cid v)
    subst e1
    rw [R.location_none hwh] at hrun ⊢
    exact fin hrun
  | some dd =>
    obtain ⟨l, ai, a, c, row, t⟩ := R.at_ hwh
    obtain ⟨d1, d2, d3⟩ := Row.decode_some t.decode t.rowOk
    have hk : a.contains ∈ tables (W i) (.assign h cid v) := by rw [t.kinds]; simp [tables, hwh]
    have ha1 := K1 ai a t.get (List.mem_append_left _ hk)
    obtain ⟨hw1, t1⟩ := t.later R1 ha1
    have hX : X ai = none := R.elsewhere hf hc (fun d' hd' => hb _ (by simp [tables, hd'])) l ai t.loc t.arch
    have hX' : ∀ j, l.arch = some j → X j = none := by
      intro j hj; rw [t.arch] at hj; cases hj; exact hX
    simp only [t.loc, over_archOf hX', t.archOf, t.row?]
    simp only [t1.loc, t1.archOf, t1.row?] at hrun
    cases hv : dd cid with
    | none =>
      obtain ⟨e1, e2⟩ := Nest.nil_inv N (by simp [releases, R.get_absent hwh hv])
      subst e1
      have hnb : ¬ some cid ∈ a.blocks := by
        intro hb'
        obtain ⟨v1, q, _⟩ := d2 cid hb'
        rw [hv] at q; cases q
      rw [if_neg hnb] at hrun ⊢
      exact fin hrun
    | some v0 =>
      have hmem : some cid ∈ a.blocks := by
        apply Classical.byContradiction
        intro hb'
        rw [d3 cid hb'] at hv; cases hv
      rw [if_pos hmem] at hrun ⊢
      cases hwr : (s1.reg i).writeAt l cid false v with
      | none => rw [hwr] at hrun; simp [noHandle] at hrun
      | some r' =>
        rw [hwr] at hrun
        simp only [noHandle] at hrun
        have N' : Nest ty hook i d (tables (W i) (.assign h cid v) ++ busy) s W (hook cid v0) s1 W1 := by
          have e : releases hook (s.reg i) (.assign h cid v) = hook cid v0 := by simp [releases, R.get_some hwh hv]
          rwa [e] at N
        rw [overwriteWith_run P hm I hf hc hw t hX hk hv N' hwr]
        rcases hrun with ⟨_, h1, rfl⟩ | ⟨e, h1, rfl⟩
        · simp only [Res.ok.injEq] at h1
          obtain ⟨q, rfl⟩ := h1
          rw [← q]
        · cases h1

theorem removeWith_throw {rel : List Watch → Reg V → Nat → V → Ran (Reg V)} {r r' : Reg V} {h : Handle} {cid : Nat} {e : Exn}
    (hr : r.remove ty h cid = .throw r' e) : r.removeWith ty rel w h cid = .ok (r', .throw e) := by
  unfold Reg.remove at hr
  unfold Reg.removeWith
  cases hl : r.location h with
  | ub => rw [hl] at hr; cases hr
  | throw e' => rw [hl] at hr; cases hr; rfl
  | ok l =>
    rw [hl] at hr
    obtain ⟨p, seat⟩ : ∃ p, Seated r.locs h.id p l := by
      unfold Reg.location at hl
      split at hl
      · exact at_seat hl
      · cases hl
    have hpos : r.locPos h = some p := seat.sparse
    simp only [hpos] at hr ⊢
    cases ha : r.archOf l with
    | none => rw [ha] at hr; cases hr
    | some x =>
      obtain ⟨ai, a⟩ := x
      rw [ha] at hr
      simp only at hr ⊢
      split at hr
      · rename_i hc
        rw [if_pos hc]
        split at hr
        · cases hr
        · rename_i s' e' he
          cases hr
          rw [he]
        · split at hr <;> cases hr
      · cases hr

theorem removeWith_nest (I : SysInv ty s W) (hf : Fits X (s.reg i).archs.arches)
    (hc : Covered X busy) {h : Handle} {cid : Nat}
    (hb : ∀ T ∈ tables (W i) (.remove h cid), T ∉ busy) (hq : releases hook (s.reg i) (.remove h cid) = [])
    (ha : s.Allowed (.on i (.remove h cid))) (hs : s.step ty (.on i (.remove h cid)) = some (s2, out)) :
    stepWith ty hook (m + 1) w ((s.reg i).over X) (.remove h cid) = .ok ((s2.reg i).over X, out) := by
  have R := (I i).rep
  show ((s.reg i).over X).removeWith ty (fun w r c v => callsWith (stepWith ty hook m) w (hook c v) r) w h cid = _
  have hap : Apart ty X (s.reg i) (.remove h cid) := (I i).apart hf hc ha hb
  have hov := remove_over hf hap.1 hap.2
  have hrun := step_run hs
  unfold RegOp.run at hrun
  simp only at hrun
  cases hre : (s.reg i).remove ty h cid with
  | ub => rw [hre] at hrun; simp [noHandle] at hrun
  | throw r' e =>
    rw [hre] at hrun hov
    rw [removeWith_throw hov]
    simp only [noHandle] at hrun
    rcases hrun with ⟨_, h1, rfl⟩ | ⟨e', h1, rfl⟩
    · cases h1
    · simp only [Res.throw.injEq] at h1
      obtain ⟨q, rfl⟩ := h1
      rw [← q]
  | ok r' u =>
    rw [hre] at hrun hov
    simp only [mapRes] at hov
    have fin : (.ok (r'.over X, .ok none) : Ran (Reg V × Out)) = .ok ((s2.reg i).over X, out) := by
      simp only [noHandle] at hrun
      rcases hrun with ⟨_, h1, rfl⟩ | ⟨e', h1, rfl⟩
      · simp only [Res.ok.injEq] at h1
        obtain ⟨q, rfl⟩ := h1
        rw [← q]
      · cases h1
    rw [← fin]
    cases hwh : W i h with
    | none =>
      unfold Reg.remove at hre
      rw [R.location_none hwh] at hre
      cases hre
    | some dd =>
      obtain ⟨l, ai, a, c, row, t⟩ := R.at_ hwh
      obtain ⟨d1, d2, d3⟩ := Row.decode_some t.decode t.rowOk
      have hX : X ai = none := hap.1 l ai t.loc t.arch
      have hX' : ∀ j, l.arch = some j → X j = none := by
        intro j hj; rw [t.arch] at hj; cases hj; exact hX
      obtain ⟨mm, hm⟩ := R.archs
      -- the archetypes after the search
      have search : ∀ s' ni n, ((s.reg i).over X).archs.ensureRemoved ai (ty.info cid) = .ok s' ni → s'.arches[ni]? = some n →
          a.contains cid = true → ∃ s0 m' n0, s' = s0.over X ∧ Ensured ty (s.reg i).archs s0 mm m' ni n0 (a.comps.erase cid).set (a.comps.erase cid) ∧ n = n0 := by
        intro s' ni n he hn hcon
        rw [over_archs, ensureRemoved_over hf] at he
        rcases ensureRemoved_spec hm t.get hcon with ⟨s0, m', ni', n0, e1, e2⟩ | ⟨s0, m', e1, e2⟩
        · have hXn : X ni' = none := hap.2 l ai a t.loc t.archOf hcon s0 ni' e1
          rw [e1] at he
          simp only [mapRes, Res.ok.injEq] at he
          obtain ⟨rfl, rfl⟩ := he
          rw [over_get_none hXn, e2.arch] at hn
          cases hn
          exact ⟨s0, m', _, rfl, e2, rfl⟩
        · rw [e1] at he; cases he
      by_cases hcon : a.contains cid = true
      · refine removeWith_run (calls := callsWith (stepWith ty hook m)) (hook := hook) (fun _ _ => rfl) t.loc
          (by rw [over_archOf hX', t.archOf]) t.chunk (Arch.nodup_blocks t.ok.inv)
          (fun k c hk => t.ok.sizes k c hk) ?_ ?_ hov
        · intro s' ni n he hn
          obtain ⟨s0, m', n0, rfl, e2, rfl⟩ := search s' ni n he hn hcon
          refine ⟨by rw [over_get_none hX]; exact e2.keep t.get, ?_⟩
          intro b hb' hnb
          have hnok := e2.rel.ok ni n e2.arch
          cases b with
          | none => exact absurd (Arch.none_mem_blocks n) hnb
          | some x =>
            rw [Arch.blocks_of_set hnok.inv (t.ok.inv.erase cid) e2.set, erase_ids hcon] at hnb
            rw [Arch.some_mem_blocks] at hb'
            have hx : x = cid := by
              apply Classical.byContradiction
              intro hne
              exact hnb ⟨hne, hb'⟩
            subst hx
            obtain ⟨v, q1, q2⟩ := d2 x ((Arch.some_mem_blocks a x).2 hb')
            rw [← t.row_eq, q2]
            have e : releases hook (s.reg i) (.remove h x) = hook x v := by simp [releases, R.get_some hwh q1]
            rw [e] at hq
            exact hq
        · intro s' ni n a' n' q mv he hn hmove
          obtain ⟨s0, m', n0, rfl, e2, rfl⟩ := search s' ni n he hn hcon
          have hnok := e2.rel.ok ni n e2.arch
          by_cases hsafe : a.Safe l.chunk l.entry
          · obtain ⟨a2, o2, ci2, idx2, mv2, o1, oc, Rr, tt, g1, g2, g3, g4, g5, g6, g7, g8⟩ :=
              Arch.move_spec t.ok hnok t.chunk t.lt (hsafe c t.chunk)
            rw [hmove] at g1
            simp only [Option.some.injEq, Prod.mk.injEq] at g1
            obtain ⟨rfl, rfl, rfl, rfl⟩ := g1
            obtain ⟨lm, hlm, L⟩ := R.link
            rcases slots_set_erase t.get t.ok g5 g2 with ⟨z, _⟩ | ⟨m3, d3', q3, z1, z2, z3, z4⟩
            · cases z
            · cases z1
              have := (L.stored _ _ _ z3).2
              show (s.reg i).locs.contains mv.id = .ok true
              rw [hlm.contains, this]
              rfl
          · rw [Arch.Safe.move_ub hsafe] at hmove
            cases hmove
      · have e : ((s.reg i).over X).removeWith ty (fun w r c v => callsWith (stepWith ty hook m) w (hook c v) r) w h cid
            = .ok ((s.reg i).over X, .ok none) := by
          unfold Reg.removeWith
          obtain ⟨p, seat⟩ : ∃ p, Seated (s.reg i).locs h.id p l := by
            have hl := t.loc
            unfold Reg.location at hl
            split at hl
            · exact at_seat hl
            · cases hl
          have hpos : ((s.reg i).over X).locPos h = some p := seat.sparse
          rw [over_location, t.loc]
          simp only [over_archOf hX', t.archOf, hpos]
          rw [if_neg hcon]
        rw [e]
        unfold Reg.remove at hre
        simp only [t.loc, t.archOf] at hre
        rw [if_neg hcon] at hre
        cases hre
        rfl

theorem stepWith_run (P : Runs ty hook i d) (hm : d ≤ m) (I : SysInv ty s W) (hf : Fits X (s.reg i).archs.arches)
    (hc : Covered X busy) (hw : Watched X w) {op : RegOp V} (hb : ∀ T ∈ tables (W i) op, T ∉ busy)
    (hq : ∀ h c, op = .remove h c → releases hook (s.reg i) op = [])
    (N : Nest ty hook i d (tables (W i) op ++ busy) s W (releases hook (s.reg i) op) s1 W1) (ha : s1.Allowed (.on i op))
    (hs : s1.step ty (.on i op) = some (s2, out)) :
    stepWith ty hook (m + 1) w ((s.reg i).over X) op = .ok ((s2.reg i).over X, out) := by
  have plain : releases hook (s.reg i) op = [] → Ran.ofRes (op.run ty ((s.reg i).over X)) = .ok ((s2.reg i).over X, out) := by
    intro e
    obtain ⟨rfl, rfl⟩ := Nest.nil_inv N e
    exact ofRes_step hs (run_over hf ((I i).apart hf hc ha hb))
  cases op with
  | destroy h => exact destroyWith_run P hm I hf hc hw hb N hs
  | set h c v => exact setWith_run P hm I hf hc hw hb N hs
  | assign h c v => exact assignWith_run P hm I hf hc hw hb N hs
  | remove h c =>
    have e := hq h c rfl
    obtain ⟨rfl, rfl⟩ := Nest.nil_inv N e
    exact removeWith_nest I hf hc hb e ha hs
  | create args => exact plain rfl
  | getOrInsert h c v => exact plain rfl
  | clone h ph => exact plain rfl
  | reserve => exact plain rfl
  | sync => exact plain rfl

end

theorem runs (ty : Types) (hook : Released V) (i : Nat) : ∀ d, Runs ty hook i d
  | 0 => by
    intro busy s s' W W' ks N I n hn X w hf hc hw
    cases N
    rfl
  | d + 1 => by
    intro busy s s' W W' ks
    induction ks generalizing s W with
    | nil =>
      intro N I n hn X w hf hc hw
      cases N
      rfl
    | cons k ks ih =>
      intro N I n hn X w hf hc hw
      obtain ⟨m, rfl⟩ : ∃ m, n = m + 1 := ⟨n - 1, by omega⟩
      cases N with
      | cons h1 h2 h3 h4 h5 h6 =>
        rename_i s1 s2 W1 out
        obtain ⟨I1, K1⟩ := nest_inv h3 I
        have ht := nest_tables I I1 h3 K1
        have hsp := step_spec I1 h4
        rw [h5] at hsp
        have hf2 : Fits X (s2.reg i).archs.arches := hf.later hc fun j a ha hb =>
          step_leaves (I1 i) h4 (by rw [ht]; exact h1) h5 (K1 j a ha (List.mem_append_right _ hb)) hb
        unfold callsWith
        rw [stepWith_run (runs ty hook i d) (by omega) I hf hc hw h1 h2 h3 h4 h5]
        simp only
        rw [hw.valid hf2, if_pos rfl]
        exact ih s2 _ h6 hsp.1 (m + 1) hn X w hf2 hc hw

end CoEcs
