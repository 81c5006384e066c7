import Verif.Proofs.WeakTurns
import Verif.Proofs.WeakUse
import Verif.Spec.WeakRounds

/-! # Rounds of parallel work: helper lemmas -/

namespace CoEcs.Weak
variable {L : Type} [DecidableEq L]

/-! ## Programs in plain memory that keep to a footprint -/

theorem Store.On.refl (P : L → Prop) (s : Store L) : s.On P s := fun _ _ => ⟨rfl, rfl⟩
theorem Store.On.symm {P : L → Prop} {s s' : Store L} (h : s.On P s') : s'.On P s := fun l hl => ⟨(h l hl).1.symm, (h l hl).2.symm⟩
theorem Store.On.trans {P : L → Prop} {s s' s'' : Store L} (h : s.On P s') (h' : s'.On P s'') : s.On P s'' :=
  fun l hl => ⟨(h l hl).1.trans (h' l hl).1, (h l hl).2.trans (h' l hl).2⟩
theorem Store.On.mono {P Q : L → Prop} {s s' : Store L} (h : s.On P s') (hq : ∀ l, Q l → P l) : s.On Q s' := fun l hl => h l (hq l hl)

theorem Store.On.setAtom {P : L → Prop} {s s' : Store L} (h : s.On P s') (l : L) (v : Int) : (s.setAtom l v).On P (s'.setAtom l v) := by
  intro y hy
  simp only [Store.setAtom]
  refine ⟨?_, (h y hy).2⟩
  split
  · rfl
  · exact (h y hy).1

theorem Store.On.setCell {P : L → Prop} {s s' : Store L} (h : s.On P s') (l : L) (v : Int) : (s.setCell l v).On P (s'.setCell l v) := by
  intro y hy
  simp only [Store.setCell]
  refine ⟨(h y hy).1, ?_⟩
  split
  · rfl
  · exact (h y hy).2

theorem Op.seq_congr {F : Foot L} {o : Op L} (ho : o.Within F) {s s' : Store L} (h : s.On F.has s') :
    (o.seq s).1 = (o.seq s').1 ∧ (o.seq s).2.On F.has (o.seq s').2 := by
  cases o with
  | load _ l => exact ⟨(h l ho).1, h⟩
  | store _ l v => exact ⟨rfl, h.setAtom l v⟩
  | rmw _ l f =>
    have e := (h l (.inr ho)).1
    simp only [Op.seq, e]
    cases f (s'.atom l) with
    | none => exact ⟨rfl, h⟩
    | some v => exact ⟨rfl, h.setAtom l v⟩
  | fence _ => exact ⟨rfl, h⟩
  | read l => exact ⟨(h l ho).2, h⟩
  | write l v => exact ⟨rfl, h.setCell l v⟩

theorem Prog.seq_congr {α : Type} {F : Foot L} {p : Prog L α} (hp : p.Within F) : ∀ {s s' : Store L}, s.On F.has s' →
    (p.seq s).1 = (p.seq s').1 ∧ (p.seq s).2.On F.has (p.seq s').2 := by
  induction p with
  | ret a => intro s s' h; exact ⟨rfl, h⟩
  | op o k ih =>
    intro s s' h
    obtain ⟨e, h1⟩ := Op.seq_congr hp.1 h
    simp only [Prog.seq, e]
    exact ih _ (hp.2 _) h1

theorem Op.seq_frame {F : Foot L} {o : Op L} (ho : o.Within F) (s : Store L) : (o.seq s).2.On (fun l => ¬ F.wr l) s := by
  cases o with
  | load _ l => exact .refl _ _
  | store _ l v =>
    intro y hy
    have : y ≠ l := fun e => hy (e ▸ ho)
    simp [Op.seq, Store.setAtom, this]
  | rmw _ l f =>
    simp only [Op.seq]
    cases f (s.atom l) with
    | none => exact .refl _ _
    | some v =>
      intro y hy
      have : y ≠ l := fun e => hy (e ▸ ho)
      simp [Store.setAtom, this]
  | fence _ => exact .refl _ _
  | read l => exact .refl _ _
  | write l v =>
    intro y hy
    have : y ≠ l := fun e => hy (e ▸ ho)
    simp [Op.seq, Store.setCell, this]

theorem Prog.seq_frame {α : Type} {F : Foot L} {p : Prog L α} (hp : p.Within F) : ∀ (s : Store L),
    (p.seq s).2.On (fun l => ¬ F.wr l) s := by
  induction p with
  | ret a => intro s; exact .refl _ _
  | op o k ih =>
    intro s
    exact (ih _ (hp.2 _) _).trans (Op.seq_frame hp.1 s)

/-- Programs that do not disturb each other: each changes its objects as if it were alone. -/
theorem seqAll_separate {F : Nat → Foot L} {work : Nat → Prog L Unit} : ∀ (N : Nat), (∀ t, t < N → (work t).Within (F t)) →
    (∀ t t', t < N → t' < N → t ≠ t' → ∀ l, (F t).wr l → ¬ (F t').has l) → ∀ s : Store L,
    (∀ t, t < N → (seqAll ((List.range N).map work) s).On (F t).wr ((work t).seq s).2) ∧
    (seqAll ((List.range N).map work) s).On (fun l => ∀ t, t < N → ¬ (F t).wr l) s
  | 0, _, _, s => ⟨fun t h => absurd h (Nat.not_lt_zero _), .refl _ _⟩
  | N + 1, hw, hs, s => by
    obtain ⟨h1, h2⟩ := seqAll_separate N (fun t h => hw t (by omega)) (fun t t' h h' => hs t t' (by omega) (by omega)) s
    have e : seqAll ((List.range (N + 1)).map work) s = ((work N).seq (seqAll ((List.range N).map work) s)).2 := by
      rw [List.range_succ, List.map_append, seqAll_append]; rfl
    rw [e]
    have hfr := Prog.seq_frame (hw N (by omega)) (seqAll ((List.range N).map work) s)
    constructor
    · intro t ht
      by_cases htN : t = N
      · subst htN
        refine (Prog.seq_congr (hw t ht) ?_).2.mono fun l hl => .inr hl
        refine h2.mono fun l hl t' ht' hl' => ?_
        exact hs t' t (by omega) (by omega) (by omega) l hl' hl
      · refine (hfr.mono fun l hl hl' => ?_).trans (h1 t (by omega))
        exact hs t N ht (by omega) htN l hl (.inr hl')
    · refine (hfr.mono fun l hl => hl N (by omega)).trans (h2.mono fun l hl t ht => hl t (by omega))

theorem seqAll_within {F : Foot L} : ∀ (ps : List (Prog L Unit)), (∀ p ∈ ps, p.Within F) → ∀ {s s' : Store L}, s.On F.has s' →
    (seqAll ps s).On F.has (seqAll ps s')
  | [], _, _, _, h => h
  | p :: ps, hp, _, _, h => seqAll_within ps (fun q hq => hp q (List.mem_cons_of_mem _ hq)) (Prog.seq_congr (hp p (List.mem_cons_self ..)) h).2

theorem Op.Within.mono {F G : Foot L} {o : Op L} (h : o.Within F) (hr : ∀ l, F.has l → G.has l) (hw : ∀ l, F.wr l → G.wr l) : o.Within G := by
  cases o <;> simp only [Op.Within] at h ⊢
  · exact hr _ h
  · exact hw _ h
  · exact hw _ h
  · exact hr _ h
  · exact hw _ h

theorem Prog.Within.mono {α : Type} {F G : Foot L} {p : Prog L α} (h : p.Within F) (hr : ∀ l, F.has l → G.has l) (hw : ∀ l, F.wr l → G.wr l) :
    p.Within G := by
  induction p with
  | ret a => trivial
  | op o k ih => exact ⟨h.1.mono hr hw, fun v => ih v (h.2 v)⟩

theorem Round.Separate.works {N : Nat} {go dn : L} {R : Round L} (h : R.Separate N go dn) (p : Prog L Unit) (hp : p ∈ (List.range N).map R.work) :
    p.Within (Foot.but go dn) := by
  obtain ⟨_, F, h1, h2, _⟩ := h
  obtain ⟨t, ht, rfl⟩ := List.mem_map.1 hp
  have ht := List.mem_range.1 ht
  exact (h1 t ht).mono (fun l hl => .inl (h2 t ht l hl)) (fun l hl => h2 t ht l (.inr hl))

theorem seqRounds_congr {N : Nat} {go dn : L} : ∀ (Rs : List (Round L)), (∀ R ∈ Rs, R.Separate N go dn) → ∀ {s s' : Store L},
    s.On (Foot.but go dn).has s' → (seqRounds N Rs s).On (Foot.but go dn).has (seqRounds N Rs s')
  | [], _, _, _, h => h
  | R :: Rs, hR, _, _, h => seqRounds_congr Rs (fun q hq => hR q (List.mem_cons_of_mem _ hq))
    (seqAll_within _ (hR R (List.mem_cons_self ..)).works (Prog.seq_congr (hR R (List.mem_cons_self ..)).1 h).2)

/-! ## What is known while the workers work -/

/-- Everything is known but what the workers in `U` may have done in this round, and the objects in `D`: the signals of the workers and
the counters. -/
structure Covers (F : Nat → Foot L) (D : L → Prop) (K : Know L) (m : Mem L) (U : Nat → Prop) : Prop where
  seen : ∀ l, ¬ D l → (∀ t, U t → ¬ (F t).wr l) → (m.msgs l).length ≤ K.seen l + 1
  done : ∀ l a, a ∈ m.accs l → a.num ≤ K.done a.tid ∨ ∃ t, U t ∧ a.tid = t + 1 ∧ ((F t).wr l ∨ a.wr = false ∧ (F t).rd l)

section
variable {F : Nat → Foot L} {D A : L → Prop} {K K' : Know L} {m m' : Mem L} {U U' : Nat → Prop}

theorem Covers.mono (h : Covers F D K m U) (hk : K.Le K') (hu : ∀ t, U t → U' t) : Covers F D K' m U' := by
  constructor
  · intro l hl hU
    exact Nat.le_trans (h.seen l hl fun t ht => hU t (hu t ht)) (Nat.succ_le_succ (hk.1 l))
  · intro l a ha
    rcases h.done l a ha with h1 | ⟨t, h1, h2⟩
    · exact .inl (Nat.le_trans h1 (hk.2 _))
    · exact .inr ⟨t, hu t h1, h2⟩

theorem Know.All.covers (h : K.All m) : Covers F D K m U :=
  ⟨fun l _ _ => h.seen l, fun l a ha => .inl (h.done l a ha)⟩

/-- What a worker does to memory. -/
structure Works (A : L → Prop) (F : Foot L) (t : Nat) (K : Know L) (m m' : Mem L) : Prop where
  msgs : ∀ l, ¬ F.wr l → ¬ A l → m'.msgs l = m.msgs l
  accs : ∀ l a, a ∈ m'.accs l → a ∈ m.accs l ∨ a.tid = t + 1 ∧ (F.wr l ∨ a.wr = false ∧ F.rd l) ∧ a.num ≤ K.done (t + 1)

theorem Covers.others (h : Covers F D K m U) {t : Nat} (ht : U t) (hw : Works A (F t) t K' m m') (hA : ∀ l, A l → D l) : Covers F D K m' U := by
  constructor
  · intro l hl hU
    rw [hw.msgs l (hU t ht) fun h => hl (hA l h)]
    exact h.seen l hl hU
  · intro l a ha
    rcases hw.accs l a ha with h1 | ⟨h1, h2, _⟩
    · exact h.done l a h1
    · exact .inr ⟨t, ht, h1, h2⟩

/-- The step of a worker that knows what it needs to. -/
structure Footed (A : L → Prop) (Ft : Foot L) (F : Nat → Foot L) (D : L → Prop) (t : Nat) (op : Op L) (m : Mem L) (w : View L) (m' : Mem L) (w' : View L) (v : Int) : Prop where
  seq : op.seq m.vals = (v, m'.vals)
  cov : Covers F D w'.cur m' (· ≠ t)
  full : m'.Full
  works : Works A Ft t w'.cur m m'

theorem seen_last {K : Know L} {m : Mem L} {l : L} (h : (m.msgs l).length ≤ K.seen l + 1) {c : Nat} {x : Msg L} (hc : (m.msgs l)[c]? = some x)
    (hs : K.seen l ≤ c) : (m.vals.atom l) = x.val ∧ c + 1 = (m.msgs l).length := by
  have h1 := (List.getElem?_eq_some_iff.1 hc).1
  have h3 : c + 1 = (m.msgs l).length := by omega
  refine ⟨?_, h3⟩
  have : (m.msgs l).getLast? = some x := by
    rw [List.getLast?_eq_getElem?, ← h3]
    simpa using hc
  simp [Mem.vals, this]

theorem Covers.push {t : Nat} (h : Covers F D K m (· ≠ t)) (l : L) (x : Msg L) :
    Covers F D (K.saw l (m.msgs l).length) (m.push l x) (· ≠ t) := by
  constructor
  · intro y hy hU
    have := h.seen y hy hU
    simp only [Mem.push, Know.saw]
    split
    · rename_i e; subst e; simp; omega
    · exact this
  · intro y a ha
    exact h.done y a ha

theorem Works.push {Ft : Foot L} {t : Nat} {l : L} (hl : Ft.wr l ∨ A l) (K : Know L) (m : Mem L) (x : Msg L) : Works A Ft t K m (m.push l x) := by
  constructor
  · intro y hy hA
    have : y ≠ l := by
      rintro rfl
      rcases hl with hl | hl
      · exact hy hl
      · exact hA hl
    simp [Mem.push, this]
  · intro y a ha
    exact .inl ha

theorem Works.refl (A : L → Prop) (Ft : Foot L) (t : Nat) (K : Know L) (m : Mem L) : Works A Ft t K m m := ⟨fun _ _ _ => rfl, fun _ _ h => .inl h⟩

/-- The objects of a worker are known to it. -/
theorem Covers.mine {t : Nat} (h : Covers F D K m (· ≠ t)) (hsep : ∀ t', t' ≠ t → ∀ l, (F t').wr l → ¬ (F t).has l) (hdn : ∀ l, D l → ¬ (F t).has l) {l : L}
    (hl : (F t).has l) : (m.msgs l).length ≤ K.seen l + 1 :=
  h.seen l (fun e => hdn l e hl) fun t' ht' hw => hsep t' ht' l hw hl


theorem execRmw_foot {t c : Nat} {o : Order} {l : L} {f : Int → Option Int} {w : View L} (h : Covers F D w.cur m (· ≠ t))
    (hsep : ∀ t', t' ≠ t → ∀ l, (F t').wr l → ¬ (F t).has l) (hdn : ∀ l, D l → ¬ (F t).has l) (hf : m.Full) (hl : (F t).wr l) :
    execRmw c o l f m w ≠ .race ∧ ∀ m' w' v, execRmw c o l f m w = .ok m' w' v → Footed A (F t) F D t (.rmw o l f) m w m' w' v := by
  unfold execRmw
  cases hx : (m.msgs l)[c]? with
  | none => simp
  | some x =>
    simp only
    by_cases hs : w.cur.seen l ≤ c
    · rw [if_pos hs]
      obtain ⟨h1, h2⟩ := seen_last (h.mine hsep hdn (.inr hl)) hx hs
      have h3 := h.mono (View.le_got w o l c x).cur (fun _ h => h)
      cases hv : f x.val with
      | none =>
        simp only
        refine ⟨by simp, fun m' w' v e => ?_⟩
        cases e
        exact ⟨by simp [Op.seq, h1, hv], h.mono (View.le_got ..).cur (fun _ h => h), hf, .refl _ _ _ _ _⟩
      | some y =>
        simp only
        rw [if_pos h2]
        refine ⟨by simp, fun m' w' v e => ?_⟩
        cases e
        refine ⟨by simp [Op.seq, h1, hv, Mem.vals_push], ?_, hf.push _ _, .push (.inl hl) _ _ _⟩
        have := h3.push l ⟨y, ((w.got o l c x).gives o l (c + 1)).join x.know⟩
        rw [← h2] at this
        exact this
    · rw [if_neg hs]; simp

theorem fenceSc_covers {w : View L} (h : Covers F D w.cur m U) : Covers F D (fenceSc m w).2.cur (fenceSc m w).1 U :=
  have := h.mono (fenceSc_le m w).cur (fun _ h => h)
  ⟨this.seen, this.done⟩

theorem Covers.accessed {t : Nat} {l : L} {wr : Bool} {w : View L} (h : Covers F D w.cur m (· ≠ t)) :
    Covers F D (access (t + 1) l wr m w).2.cur (access (t + 1) l wr m w).1 (· ≠ t) := by
  constructor
  · intro y hy hU
    exact h.seen y hy hU
  · intro y a ha
    simp only [access] at ha ⊢
    have hle := (Know.le_did w.cur (t + 1) (w.cur.done (t + 1) + 1)).2
    split at ha
    · rename_i e
      rcases List.mem_append.1 ha with ha | ha
      · rcases h.done _ a ha with h1 | h1
        · exact .inl (Nat.le_trans h1 (hle _))
        · rw [e]; exact .inr h1
      · simp only [List.mem_singleton] at ha
        subst ha
        exact .inl (Know.did_self ..)
    · rcases h.done _ a ha with h1 | h1
      · exact .inl (Nat.le_trans h1 (hle _))
      · exact .inr h1

theorem Works.accessed {Ft : Foot L} {t : Nat} {l : L} {wr : Bool} {w : View L} (hl : Ft.wr l ∨ wr = false ∧ Ft.rd l) :
    Works A Ft t (access (t + 1) l wr m w).2.cur m (access (t + 1) l wr m w).1 := by
  constructor
  · intro y _ _; rfl
  · intro y a ha
    simp only [access] at ha ⊢
    split at ha
    · rename_i e
      rcases List.mem_append.1 ha with ha | ha
      · exact .inl (e ▸ ha)
      · simp only [List.mem_singleton] at ha
        subst ha
        exact .inr ⟨rfl, e ▸ hl, Know.did_self ..⟩
    · exact .inl ha

theorem exec_foot {strong : Bool} {t c : Nat} {op : Op L} {w : View L} (h : Covers F D w.cur m (· ≠ t))
    (hsep : ∀ t', t' ≠ t → ∀ l, (F t').wr l → ¬ (F t).has l) (hsep' : ∀ t', t' ≠ t → ∀ l, (F t).wr l → ¬ (F t').has l)
    (hdn : ∀ l, D l → ¬ (F t).has l) (hf : m.Full) (ho : op.Within (F t)) :
    exec strong (t + 1) c op m w ≠ .race ∧ ∀ m' w' v, exec strong (t + 1) c op m w = .ok m' w' v → Footed A (F t) F D t op m w m' w' v := by
  cases op with
  | load o l =>
    simp only [exec]
    cases hx : (m.msgs l)[c]? with
    | none => simp
    | some x =>
      simp only
      by_cases hs : w.cur.seen l ≤ c
      · rw [if_pos hs]
        refine ⟨by simp, fun m' w' v e => ?_⟩
        cases e
        exact ⟨by simp [Op.seq, (seen_last (h.mine hsep hdn ho) hx hs).1], h.mono (View.le_got ..).cur (fun _ h => h), hf, .refl _ _ _ _ _⟩
      · rw [if_neg hs]; simp
  | store o l v =>
    refine ⟨by simp [exec], fun m' w' v' e => ?_⟩
    simp only [exec] at e
    cases e
    exact ⟨by simp [Op.seq, Mem.vals_push], h.push l _, hf.push _ _, .push (.inl ho) _ _ _⟩
  | rmw o l f =>
    simp only [exec]
    by_cases hs : (strong && decide (o = .sc)) = true
    · rw [if_pos hs]
      obtain ⟨h1, h2⟩ := execRmw_foot (c := c) (o := o) (f := f) (fenceSc_covers h) hsep hdn (m := (fenceSc m w).1) hf ho
      cases he : execRmw c o l f (fenceSc m w).1 (fenceSc m w).2 with
      | ok m1 w1 v1 =>
        refine ⟨by simp, fun m' w' v e => ?_⟩
        have := h2 _ _ _ he
        cases e
        refine ⟨this.seq, fenceSc_covers this.cov, this.full, this.works.msgs, fun l a ha => ?_⟩
        rcases this.works.accs l a ha with h3 | ⟨h3, h4, h5⟩
        · exact .inl h3
        · exact .inr ⟨h3, h4, Nat.le_trans h5 ((fenceSc_le m1 w1).cur.2 _)⟩
      | race => exact absurd he h1
      | no => simp
    · rw [if_neg hs]
      exact execRmw_foot h hsep hdn hf ho
  | fence o =>
    cases o <;> (simp only [exec]; refine ⟨by simp, fun m' w' v e => ?_⟩; cases e)
    · exact ⟨rfl, h, hf, .refl _ _ _ _ _⟩
    · exact ⟨rfl, h.mono (Know.le_join_left ..) (fun _ h => h), hf, .refl _ _ _ _ _⟩
    · exact ⟨rfl, h, hf, .refl _ _ _ _ _⟩
    · exact ⟨rfl, h.mono (Know.le_join_left ..) (fun _ h => h), hf, .refl _ _ _ _ _⟩
    · exact ⟨rfl, fenceSc_covers h, hf, ⟨fun _ _ _ => rfl, fun _ _ h => .inl h⟩⟩
  | read l =>
    simp only [exec]
    have hc : ¬ ((m.accs l).any fun a => a.wr && clash (t + 1) w.cur a) = true := by
      simp only [List.any_eq_true, Bool.and_eq_true, clash, decide_eq_true_eq, not_exists, not_and]
      intro a ha hwr _
      rcases h.done l a ha with h1 | ⟨t', h1, _, h3⟩
      · omega
      · rcases h3 with h3 | ⟨h3, _⟩
        · exact absurd ho (hsep t' h1 l h3)
        · rw [hwr] at h3; cases h3
    rw [if_neg hc]
    refine ⟨by simp, fun m' w' v e => ?_⟩
    cases e
    refine ⟨rfl, h.accessed, hf, .accessed ?_⟩
    rcases ho with ho | ho
    · exact .inr ⟨rfl, ho⟩
    · exact .inl ho
  | write l v =>
    simp only [exec]
    have hc : ¬ ((m.accs l).any (clash (t + 1) w.cur)) = true := by
      simp only [List.any_eq_true, Bool.and_eq_true, clash, decide_eq_true_eq, not_exists, not_and]
      intro a ha _
      rcases h.done l a ha with h1 | ⟨t', h1, _, h3⟩
      · omega
      · exfalso
        refine hsep' t' h1 l ho ?_
        rcases h3 with h3 | ⟨_, h3⟩
        · exact .inr h3
        · exact .inl h3
    rw [if_neg hc]
    refine ⟨by simp, fun m' w' v' e => ?_⟩
    cases e
    have h1 := h.accessed (l := l) (wr := true)
    have h2 := Works.accessed (A := A) (Ft := F t) (t := t) (l := l) (wr := true) (w := w) (m := m) (.inl ho)
    exact ⟨rfl, ⟨h1.seen, h1.done⟩, hf, ⟨h2.msgs, h2.accs⟩⟩

end
end CoEcs.Weak
