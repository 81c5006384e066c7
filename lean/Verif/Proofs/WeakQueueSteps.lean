import Verif.Proofs.WeakQueue

/-! # The queue with its memory orders: every kind of step keeps the invariant -/

namespace CoEcs.Weak

variable {c : Nat} {m m' : Mem Loc} {V V' : Nat → View Loc} {T L : Nat} {B : Int} {K : Nat} {hold : Nat → Option Nat} {o : OPh}
  {ph : Nat → TPh}

/-- One entry is replaced. -/
def upd {α : Type} (f : Nat → α) (r : Nat) (x : α) : Nat → α := fun i => if i = r then x else f i

theorem upd_self {α : Type} (f : Nat → α) (r : Nat) (x : α) : upd f r x r = x := if_pos rfl
theorem upd_ne {α : Type} (f : Nat → α) {r i : Nat} (x : α) (h : i ≠ r) : upd f r x i = f i := if_neg h

theorem upd_le {r : Nat} {w : View Loc} (h : (V r).Le w) : ∀ i, (V i).Le (upd V r w i) := by
  intro i
  by_cases hi : i = r
  · subst hi; rw [upd_self]; exact h
  · rw [upd_ne _ _ hi]; exact .refl _

/-- A value is appended. -/
structure Appends (m m' : Mem Loc) (l : Loc) (y : Msg Loc) : Prop where
  here : m'.msgs l = m.msgs l ++ [y]
  other : ∀ x, x ≠ l → m'.msgs x = m.msgs x
  cell : m'.cell = m.cell
  accs : m'.accs = m.accs
  sc : ∀ l, m.sc l ≤ m'.sc l

theorem Arr.appends {l : Loc} {y : Msg Loc} (h : Arr c m) (ha : Appends m m' l y) (hl : l ≠ .array 0) : Arr c m' := by
  refine ⟨?_, ?_, ?_, ?_, ?_, ?_⟩
  · rw [ha.other _ hl.symm]; exact h.arr
  · rw [ha.cell]; exact h.cap
  · rw [ha.cell]; exact h.mask
  · rw [ha.accs]; exact h.rcap
  · rw [ha.accs]; exact h.rmask
  · rw [ha.accs]; exact h.rdata

theorem Appends.good {l : Loc} {y : Msg Loc} (ha : Appends m m' l y) {i : Nat} {K : Know Loc} (hl : sl c i ≠ l) (h : Good m c K i) :
    Good m' c K i := h.congr (ha.other _ hl) (by rw [ha.accs])

theorem Appends.get {l : Loc} {y : Msg Loc} (ha : Appends m m' l y) {j : Nat} {x : Msg Loc} (h : (m'.msgs l)[j]? = some x) :
    (m.msgs l)[j]? = some x ∨ (j = (m.msgs l).length ∧ x = y) := by
  rw [ha.here] at h
  by_cases hj : j < (m.msgs l).length
  · rw [List.getElem?_append_left hj] at h; exact .inl h
  · rw [List.getElem?_append_right (by omega)] at h
    have : j - (m.msgs l).length = 0 := by
      have := (List.getElem?_eq_some_iff.1 h).1
      simp at this; omega
    rw [this] at h
    simp at h
    exact .inr ⟨by omega, h.symm⟩

/-! ## `_bottom` is stored -/

theorem Sync.bottom (h : Sync c m V T L B) {y : Msg Loc} (ha : Appends m m' bt y) (hV : ∀ r, (V r).Le (V' r))
    (hseen : (m.msgs bt).length ≤ (V' 0).cur.seen bt) {L' : Nat} (hL : L ≤ L') (hlc : L' ≤ T + c)
    (hg : ∀ i, T ≤ i → i < L' → Good m c (V 0).rel i ∧ Good m c (V 0).cur i) (hk : (V 0).rel.Le y.know) (hB : y.val ≤ L') :
    Sync c m' V' T L' y.val where
  top_len := by rw [ha.other _ (by simp)]; exact h.top_len
  top_val := by rw [ha.other _ (by simp)]; exact h.top_val
  bot := ⟨y, by rw [ha.here]; simp, rfl⟩
  bot_seen := by simp only [Sees, ha.here, List.length_append, List.length_singleton]; omega
  tl := Nat.le_trans h.tl hL
  lc := hlc
  good := by
    intro i h1 h2
    have := hg i h1 h2
    refine ⟨?_, ha.good (by simp) (this.2.mono (hV 0).cur)⟩
    rcases (hV 0).rel with hr | hr
    · exact ha.good (by simp) (this.1.mono hr)
    · exact ha.good (by simp) (this.2.mono hr)
  sc_top := by
    have h1 := ha.sc tp
    have h2 := (hV 0).cur.1 tp
    rcases h.sc_top with h | h
    · left; omega
    · right; omega
  sc_bot := by
    intro i h1 j x hj hx hlt
    rcases ha.get hx with hx | ⟨_, rfl⟩
    · have := h.sc_bot i h1 j x (Nat.le_trans (ha.sc bt) hj) hx hlt
      exact ⟨by omega, ha.good (by simp) this.2⟩
    · have hi : i < L' := by omega
      exact ⟨hi, ha.good (by simp) ((hg i h1 hi).1.mono hk)⟩

theorem TFact.bottom {r : Nat} {p : TPh} (h : TFact c m V T L B o r p) {y : Msg Loc} (ha : Appends m m' bt y)
    (hV : ∀ r, (V r).Le (V' r)) {L' : Nat} (hL : L ≤ L')
    (hg : ∀ i, T ≤ i → i < L' → Good m c (V 0).rel i) (hk : (V 0).rel.Le y.know) (hB : y.val ≤ L') {o' : OPh} (ho : o' ≠ .fenced) :
    TFact c m' V' T L' y.val o' r p := by
  have hsc := ha.sc tp
  have hcr := (hV r).cur.1
  cases p with
  | no => trivial
  | saw t => exact ⟨h.1, Nat.le_trans h.2 (hcr tp)⟩
  | fenced t =>
    refine ⟨h.1, Nat.le_trans h.2.1 hsc, ?_, fun e => (ho e).elim⟩
    intro ht j x hj hx hlt
    rcases ha.get hx with hx | ⟨_, rfl⟩
    · have := h.2.2.1 ht j x (Nat.le_trans (hcr bt) hj) hx hlt
      exact ⟨by omega, ha.good (by simp) this.2⟩
    · have hi : t < L' := by omega
      exact ⟨hi, ha.good (by simp) ((hg t (by omega) hi).mono hk)⟩
  | ready t =>
    refine ⟨h.1, Nat.le_trans h.2.1 hsc, ?_, fun e => (ho e).elim⟩
    intro ht
    have := h.2.2.1 ht
    exact ⟨by omega, ha.good (by simp) (this.2.mono (hV r).cur)⟩
  | loaded t v =>
    refine ⟨h.1, Nat.le_trans h.2.1 hsc, ?_, fun e => (ho e).elim⟩
    intro ht
    have := h.2.2.1 ht
    exact ⟨by omega, ha.good (by simp) (this.2.1.mono (hV r).cur), this.2.2.trans (Q_congr (ha.other _ (by simp))).symm⟩

/-- Line 75 of `push`. -/
theorem World.pushBottom {k : Nat} (h : World c m V T L B K hold (.wrote k true) ph) {y : Msg Loc} (ha : Appends m m' bt y)
    (hV : ∀ r, (V r).Le (V' r)) (hseen : (m.msgs bt).length ≤ (V' 0).cur.seen bt) (hk : (V 0).rel.Le y.know) (hy : y.val = B + 1)
    (hh : hold 0 = some k) : World c m' V' T (L + 1) (B + 1) K (upd hold 0 none) .calm ph := by
  obtain ⟨hLB, hlt, hQ, hac, hgr⟩ := h.own
  have hgr := hgr rfl
  have hnew : Good m c (V 0).cur L := by
    refine ⟨(h.data.slots _ (Nat.mod_lt _ h.cpos)).2, ?_⟩
    have : (Q m c L).toNat = k := by rw [hQ]; rfl
    rw [this]
    exact fun a haa => ⟨hac a haa, h.data.own_done k a haa (hac a haa)⟩
  have hg : ∀ i, T ≤ i → i < L + 1 → Good m c (V 0).rel i ∧ Good m c (V 0).cur i := by
    intro i h1 h2
    by_cases hi : i = L
    · subst hi; exact ⟨hgr, hnew⟩
    · exact h.sync.good i h1 (by omega)
  have hd := h.data.frame (m' := m') (V' := V') (fun _ => ha.other _ (by simp)) ha.cell (fun _ => by rw [ha.accs]) hV
  have hQ' : ∀ i, Q m' c i = Q m c i := fun i => Q_congr (ha.other _ (by simp))
  refine ⟨h.cpos, h.arr.appends ha (by simp), ?_, ?_, ?_, ?_⟩
  · exact hy ▸ h.sync.bottom ha hV hseen (by omega) (by omega) hg hk (by omega)
  · have hne : ∀ i, T ≤ i → i < L → Q m' c i ≠ (k : Int) := by
      intro i h1 h2 he
      obtain ⟨k', hk1, _, _, hk4⟩ := hd.queued i h1 h2
      have : k' = k := by omega
      subst this
      exact hk4 0 hh
    have hL : Q m' c L = k := (hQ' L).trans hQ
    have hkk := hd.held 0 k hh
    refine ⟨hd.slots, hd.own_done, ?_, ?_, ?_, ?_, ?_, hd.fresh⟩
    · intro i h1 h2
      by_cases hi : i = L
      · subst hi
        refine ⟨k, hL, hkk.1, hkk.2.1, fun r => ?_⟩
        by_cases hr : r = 0
        · subst hr; rw [upd_self]; simp
        · rw [upd_ne _ _ hr]
          exact fun e => hr (hd.held_inj _ _ _ e hh)
      · obtain ⟨k', hk1, hk2, hk3, hk4⟩ := hd.queued i h1 (by omega)
        refine ⟨k', hk1, hk2, hk3, fun r => ?_⟩
        by_cases hr : r = 0
        · subst hr; rw [upd_self]; simp
        · rw [upd_ne _ _ hr]; exact hk4 r
    · intro i j h1 h2 h3 h4 he
      by_cases hi : i = L
      · by_cases hj : j = L
        · omega
        · subst hi; exact (hne j h3 (by omega) (he.symm.trans hL)).elim
      · by_cases hj : j = L
        · subst hj; exact (hne i h1 (by omega) (he.trans hL)).elim
        · exact hd.inj i j h1 (by omega) h3 (by omega) he
    · intro r k' hk'
      by_cases hr : r = 0
      · subst hr; rw [upd_self] at hk'; cases hk'
      · rw [upd_ne _ _ hr] at hk'; exact hd.held r k' hk'
    · intro r r' k' h1 h2
      by_cases hr : r = 0
      · subst hr; rw [upd_self] at h1; cases h1
      · by_cases hr' : r' = 0
        · subst hr'; rw [upd_self] at h2; cases h2
        · rw [upd_ne _ _ hr] at h1; rw [upd_ne _ _ hr'] at h2; exact hd.held_inj r r' k' h1 h2
    · intro k' hk' hq hh'
      refine hd.used k' hk' (fun i h1 h2 => hq i h1 (by omega)) fun r hr => ?_
      by_cases h0 : r = 0
      · subst h0
        have : k' = k := by rw [hh] at hr; exact (Option.some.inj hr).symm
        subst this
        exact hq L h.sync.tl (by omega) hL
      · have := hh' r
        rw [upd_ne _ _ h0] at this
        exact this hr
  · show ((L + 1 : Nat) : Int) = B + 1
    omega
  · intro r hr
    exact hy ▸ (h.thf r hr).bottom ha hV (by omega) (fun i h1 h2 => (hg i h1 h2).1) hk (by omega) (by simp)

/-- Line 103 of `pop`. -/
theorem World.popBottom (h : World c m V T L B K hold .calm ph) {y : Msg Loc} (ha : Appends m m' bt y)
    (hV : ∀ r, (V r).Le (V' r)) (hseen : (m.msgs bt).length ≤ (V' 0).cur.seen bt) (hk : (V 0).rel.Le y.know) (hy : y.val = B - 1) :
    World c m' V' T L (B - 1) K hold .stored ph := by
  have hLB : (L : Int) = B := h.own
  refine ⟨h.cpos, h.arr.appends ha (by simp), ?_, ?_, ?_, ?_⟩
  · exact hy ▸ h.sync.bottom ha hV hseen (by omega) h.sync.lc h.sync.good hk (by omega)
  · exact h.data.frame (fun _ => ha.other _ (by simp)) ha.cell (fun _ => by rw [ha.accs]) hV
  · show (L : Int) = B - 1 + 1
    omega
  · intro r hr
    exact hy ▸ (h.thf r hr).bottom ha hV (by omega) (fun i h1 h2 => (h.sync.good i h1 h2).1) hk (by omega) (by simp)

/-- Lines 114 and 121 of `pop`. -/
theorem World.restore (h : World c m V T L B K hold .over ph) {y : Msg Loc} (ha : Appends m m' bt y)
    (hV : ∀ r, (V r).Le (V' r)) (hseen : (m.msgs bt).length ≤ (V' 0).cur.seen bt) (hk : (V 0).rel.Le y.know) (hy : y.val = B + 1) :
    World c m' V' T L (B + 1) K hold .calm ph := by
  obtain ⟨hLB, hLT⟩ := h.own
  refine ⟨h.cpos, h.arr.appends ha (by simp), ?_, ?_, ?_, ?_⟩
  · exact hy ▸ h.sync.bottom ha hV hseen (by omega) h.sync.lc h.sync.good hk (by omega)
  · exact h.data.frame (fun _ => ha.other _ (by simp)) ha.cell (fun _ => by rw [ha.accs]) hV
  · exact hLB
  · intro r hr
    exact hy ▸ (h.thf r hr).bottom ha hV (by omega) (fun i h1 h2 => (h.sync.good i h1 h2).1) hk (by omega) (by simp)

theorem TFact.calm {r : Nat} {p : TPh} (h : TFact c m V T L B o r p) {o' : OPh} (ho : o' ≠ .fenced) : TFact c m V T L B o' r p := by
  cases p with
  | no => trivial
  | saw t => exact h
  | fenced t => exact ⟨h.1, h.2.1, h.2.2.1, fun e => (ho e).elim⟩
  | ready t => exact ⟨h.1, h.2.1, h.2.2.1, fun e => (ho e).elim⟩
  | loaded t v => exact ⟨h.1, h.2.1, h.2.2.1, fun e => (ho e).elim⟩

/-- The owner does something else. -/
theorem World.turn (h : World c m V T L B K hold o ph) {o' : OPh} (ho : o' ≠ .fenced) (hf : OFact c m V T L B o') :
    World c m V T L B K hold o' ph := ⟨h.cpos, h.arr, h.sync, h.data, hf, fun r hr => (h.thf r hr).calm ho⟩

/-! ## An item is taken -/

theorem Data.take (h : Data c m V T L K hold) {r i0 k T' L' : Nat} (hr : hold r = none) (h0 : T ≤ i0) (h0' : i0 < L)
    (hk : Q m c i0 = k) (hsub : ∀ i, T' ≤ i → i < L' → T ≤ i ∧ i < L ∧ i ≠ i0)
    (hsup : ∀ i, T ≤ i → i < L → i ≠ i0 → T' ≤ i ∧ i < L')
    (hc : ∀ a ∈ m.accs (.user k), a.tid = r ∨ (a.tid = 0 ∧ a.num ≤ (V r).cur.done 0)) :
    Data c m V T' L' K (upd hold r (some k)) := by
  obtain ⟨k', hk1, hk2, hk3, hk4⟩ := h.queued i0 h0 h0'
  have : k' = k := by omega
  subst this
  refine ⟨h.slots, h.own_done, ?_, ?_, ?_, ?_, ?_, h.fresh⟩
  · intro i h1 h2
    obtain ⟨h3, h4, h5⟩ := hsub i h1 h2
    obtain ⟨k, q1, q2, q3, q4⟩ := h.queued i h3 h4
    refine ⟨k, q1, q2, q3, fun r' => ?_⟩
    by_cases e : r' = r
    · subst e; rw [upd_self]
      intro e
      have e := Option.some.inj e
      exact h5 (h.inj i i0 h3 h4 h0 h0' (by omega))
    · rw [upd_ne _ _ e]; exact q4 r'
  · intro i j h1 h2 h3 h4 he
    obtain ⟨a1, a2, _⟩ := hsub i h1 h2
    obtain ⟨b1, b2, _⟩ := hsub j h3 h4
    exact h.inj i j a1 a2 b1 b2 he
  · intro r' k hk
    by_cases e : r' = r
    · subst e; rw [upd_self] at hk
      have e := Option.some.inj hk
      subst e
      exact ⟨hk2, hk3, hc⟩
    · rw [upd_ne _ _ e] at hk; exact h.held r' k hk
  · intro r1 r2 k h1 h2
    by_cases e1 : r1 = r
    · by_cases e2 : r2 = r
      · omega
      · subst e1; rw [upd_self] at h1; rw [upd_ne _ _ e2] at h2
        rw [← h1] at h2
        exact (hk4 _ h2).elim
    · rw [upd_ne _ _ e1] at h1
      by_cases e2 : r2 = r
      · subst e2; rw [upd_self] at h2
        rw [← h2] at h1
        exact (hk4 _ h1).elim
      · rw [upd_ne _ _ e2] at h2
        exact h.held_inj _ _ _ h1 h2
  · intro k hk hq hh
    refine h.used k hk (fun i h1 h2 => ?_) fun r' => ?_
    · by_cases e : i = i0
      · subst e
        intro e
        have := hh r
        rw [upd_self] at this
        exact this (by congr 1; omega)
      · obtain ⟨a, b⟩ := hsup i h1 h2 e
        exact hq i a b
    · have := hh r'
      by_cases e : r' = r
      · subst e; rw [hr]; simp
      · rw [upd_ne _ _ e] at this; exact this

/-! ## `_top` is increased -/

theorem Sync.top (h : Sync c m V T L B) {y : Msg Loc} (ha : Appends m m' tp y) (hV : ∀ r, (V r).Le (V' r))
    (hy : y.val = T + 1) (hT : T < L) (hsc : T ≤ m'.sc tp ∨ T ≤ (V' 0).cur.seen tp) : Sync c m' V' (T + 1) L B where
  top_len := by rw [ha.here, List.length_append, h.top_len]; rfl
  top_val := by
    intro i x hx
    rcases ha.get hx with hx | ⟨rfl, rfl⟩
    · exact h.top_val i x hx
    · rw [h.top_len, hy]; rfl
  bot := by rw [ha.other _ (by simp)]; exact h.bot
  bot_seen := by
    have := h.bot_seen.mono (hV 0).cur
    simp only [Sees] at *
    rw [ha.other _ (by simp)]; exact this
  tl := hT
  lc := by have := h.lc; omega
  good := by
    intro i h1 h2
    have := h.good i (by omega) h2
    refine ⟨?_, ha.good (by simp) (this.2.mono (hV 0).cur)⟩
    rcases (hV 0).rel with hr | hr
    · exact ha.good (by simp) (this.1.mono hr)
    · exact ha.good (by simp) (this.2.mono hr)
  sc_top := by omega
  sc_bot := by
    intro i h1 j x hj hx hlt
    rw [ha.other _ (by simp)] at hx
    have := h.sc_bot i (by omega) j x (Nat.le_trans (ha.sc bt) hj) hx hlt
    exact ⟨this.1, ha.good (by simp) this.2⟩

theorem TFact.top {r : Nat} {p : TPh} (h : TFact c m V T L B o r p) {y : Msg Loc} (ha : Appends m m' tp y)
    (hV : ∀ r, (V r).Le (V' r)) {o' : OPh} (ho : o' = .fenced → o = .fenced) : TFact c m' V' (T + 1) L B o' r p := by
  have hsc := ha.sc tp
  have hcr := (hV r).cur.1
  have hc0 := (hV 0).cur.1 tp
  cases p with
  | no => trivial
  | saw t => exact ⟨Nat.le_succ_of_le h.1, Nat.le_trans h.2 (hcr tp)⟩
  | fenced t =>
    refine ⟨Nat.le_succ_of_le h.1, Nat.le_trans h.2.1 hsc, fun e => ?_, fun e => ?_⟩
    · have := h.1; omega
    · rcases h.2.2.2 (ho e) with h1 | h1
      · left; omega
      · right
        have := h1.mono (hV r).cur
        simp only [Sees] at *
        rw [ha.other _ (by simp)]; exact this
  | ready t =>
    refine ⟨Nat.le_succ_of_le h.1, Nat.le_trans h.2.1 hsc, fun e => ?_, fun e => ?_⟩
    · have := h.1; omega
    · rcases h.2.2.2 (ho e) with h1 | h1
      · left; omega
      · exact .inr h1
  | loaded t v =>
    refine ⟨Nat.le_succ_of_le h.1, Nat.le_trans h.2.1 hsc, fun e => ?_, fun e => ?_⟩
    · have := h.1; omega
    · rcases h.2.2.2 (ho e) with h1 | h1
      · left; omega
      · exact .inr h1

/-- A thief succeeds. -/
theorem World.steal {r t : Nat} {v : Int} (h : World c m V T L B K hold o ph) {y : Msg Loc} (ha : Appends m m' tp y) (hr : r ≠ 0)
    (hp : ph r = .loaded t v) (hT : T = t) (hy : y.val = T + 1) (hh : hold r = none) {w : View Loc} (hw : (V r).Le w) :
    ∃ k : Nat, v = k ∧ World c m' (upd V r w) (T + 1) L B K (upd hold r (some k)) o (upd ph r .no) := by
  have hV := upd_le hw
  have hf := h.thf r hr
  rw [hp] at hf
  obtain ⟨f1, f2, f3, f4⟩ := hf
  obtain ⟨f5, f6, f7⟩ := f3 hT
  subst hT
  obtain ⟨k, q1, q2, q3, q4⟩ := h.data.queued T (Nat.le_refl _) f5
  have hd := h.data.frame (m' := m') (V' := upd V r w) (fun _ => ha.other _ (by simp)) ha.cell (fun _ => by rw [ha.accs]) hV
  have hQ' : ∀ i, Q m' c i = Q m c i := fun i => Q_congr (ha.other _ (by simp))
  have h0 : upd V r w 0 = V 0 := upd_ne _ _ (Ne.symm hr)
  refine ⟨k, f7.trans q1, h.cpos, h.arr.appends ha (by simp), ?_, ?_, ?_, ?_⟩
  · exact h.sync.top ha hV hy f5 (.inl (Nat.le_trans f2 (ha.sc tp)))
  · refine hd.take (i0 := T) hh (Nat.le_refl _) f5 ((hQ' T).trans q1) ?_ ?_ ?_
    · intro i h1 h2; omega
    · intro i h1 h2 h3; omega
    · intro a haa
      rw [ha.accs] at haa
      rw [upd_self]
      have := f6.2 a (by rw [q1]; exact haa)
      exact .inr ⟨this.1, Nat.le_trans this.2 (hw.cur.2 0)⟩
  · have ho := h.own
    cases o with
    | calm => exact ho
    | room => exact ⟨ho.1, Nat.lt_of_lt_of_le ho.2 (by omega)⟩
    | wrote k f =>
      obtain ⟨a1, a2, a3, a4, a5⟩ := ho
      refine ⟨a1, by omega, (hQ' L).trans a3, by rw [ha.accs]; exact a4, fun e => ?_⟩
      rw [h0]; exact ha.good (by simp) (a5 e)
    | stored => exact ho
    | fenced =>
      obtain ⟨a1, a2, a3⟩ := ho
      have := ha.sc bt
      refine ⟨a1, by rw [ha.other _ (by simp)]; omega, ?_⟩
      rw [h0]
      have := f4 rfl
      omega
    | contest =>
      obtain ⟨a1, a2, a3, a4⟩ := ho
      exact ⟨a1, a2, by omega, by rw [h0]; exact a4⟩
    | over => exact absurd ho.2 (by omega)
  · intro r' hr'
    by_cases e : r' = r
    · subst e; rw [upd_self]; trivial
    · rw [upd_ne _ _ e]; exact (h.thf r' hr').top ha hV id

/-- The owner succeeds. -/
theorem World.win (h : World c m V T L B K hold .contest ph) {y : Msg Loc} (ha : Appends m m' tp y)
    (hT : (T : Int) = B) (hy : y.val = T + 1) (hh : hold 0 = none) {w : View Loc} (hw : (V 0).Le w) :
    ∃ k : Nat, Q m c T = k ∧ World c m' (upd V 0 w) (T + 1) L B K (upd hold 0 (some k)) .over ph := by
  have hV := upd_le hw
  obtain ⟨b1, b2, b3, b4⟩ := h.own
  have hTL : T < L := by omega
  obtain ⟨k, q1, q2, q3, q4⟩ := h.data.queued T (Nat.le_refl _) hTL
  have hd := h.data.frame (m' := m') (V' := upd V 0 w) (fun _ => ha.other _ (by simp)) ha.cell (fun _ => by rw [ha.accs]) hV
  have hQ' : ∀ i, Q m' c i = Q m c i := fun i => Q_congr (ha.other _ (by simp))
  refine ⟨k, q1, h.cpos, h.arr.appends ha (by simp), ?_, ?_, ?_, ?_⟩
  · refine h.sync.top ha hV hy hTL (.inr ?_)
    have := hw.cur.1 tp
    rw [upd_self]; omega
  · refine hd.take (i0 := T) hh (Nat.le_refl _) hTL ((hQ' T).trans q1) ?_ ?_ ?_
    · intro i h1 h2; omega
    · intro i h1 h2 h3; omega
    · intro a haa
      rw [ha.accs] at haa
      have := (h.sync.good T (Nat.le_refl _) hTL).2.2 a (by rw [q1]; exact haa)
      exact .inl this.1
  · exact ⟨b1, by omega⟩
  · intro r' hr'
    exact (h.thf r' hr').top ha hV (by simp)

/-- The owner finds that a thief was faster. -/
theorem World.lose (h : World c m V T L B K hold .contest ph) (hT : (T : Int) ≠ B) : World c m V T L B K hold .over ph := by
  obtain ⟨b1, b2, b3, b4⟩ := h.own
  have := h.sync.tl
  exact h.turn (by simp) ⟨b1, by omega⟩

/-! ## The owner reads `_top` in `pop` -/

/-- Line 109: the queue is empty. -/
theorem World.popEmpty {i : Nat} (h : World c m V T L B K hold .fenced ph) (hi : i ≤ T) (hB : B < i) :
    World c m V T L B K hold .over ph := by
  obtain ⟨b1, b2, b3⟩ := h.own
  have := h.sync.tl
  refine ⟨h.cpos, h.arr, h.sync, h.data, ⟨b1, by omega⟩, fun r hr => (h.thf r hr).calm (by simp)⟩

/-- Line 109: there is one item left. -/
theorem World.popLast {i : Nat} (h : World c m V T L B K hold .fenced ph) (hi : i ≤ T) (hB : B = i) (hs : i ≤ (V 0).cur.seen tp) :
    World c m V T L B K hold .contest ph := by
  obtain ⟨b1, b2, b3⟩ := h.own
  refine ⟨h.cpos, h.arr, h.sync, h.data, ⟨b1, by omega, by omega, by omega⟩, fun r hr => (h.thf r hr).calm (by simp)⟩

/-- Line 109: there are more items. -/
theorem World.popMore {i : Nat} (h : World c m V T L B K hold .fenced ph) (hB : (i : Int) < B) (hs : (V 0).cur.seen tp ≤ i)
    (hh : hold 0 = none) :
    ∃ k : Nat, Q m c B.toNat = k ∧ World c m V T B.toNat B K (upd hold 0 (some k)) .calm ph := by
  obtain ⟨b1, b2, b3⟩ := h.own
  have hTB : T ≤ B.toNat := by omega
  have hBL : B.toNat < L := by omega
  obtain ⟨k, q1, q2, q3, q4⟩ := h.data.queued B.toNat hTB hBL
  have hlast : ∀ (j : Nat) (x : Msg Loc), (m.msgs bt).length ≤ j + 1 → (m.msgs bt)[j]? = some x → x.val = B := by
    intro j x hj hx
    obtain ⟨z, hz, hzB⟩ := h.sync.bot
    have h1 := (List.getElem?_eq_some_iff.1 hx).1
    rw [List.getLast?_eq_getElem?] at hz
    have : j = (m.msgs bt).length - 1 := by omega
    rw [this, hz] at hx
    rw [← Option.some.inj hx]; exact hzB
  refine ⟨k, q1, h.cpos, h.arr, ?_, ?_, ?_, ?_⟩
  · refine ⟨h.sync.top_len, h.sync.top_val, h.sync.bot, h.sync.bot_seen, hTB, ?_, ?_, h.sync.sc_top, ?_⟩
    · have := h.sync.lc; omega
    · intro i h1 h2; exact h.sync.good i h1 (by omega)
    · intro i h1 j x hj hx hlt
      have := hlast j x (by omega) hx
      exact ⟨by omega, (h.sync.sc_bot i h1 j x hj hx hlt).2⟩
  · refine h.data.take hh hTB hBL q1 ?_ ?_ ?_
    · intro i h1 h2; omega
    · intro i h1 h2 h3; omega
    · intro a ha
      exact .inl ((h.sync.good _ hTB hBL).2.2 a (by rw [q1]; exact ha)).1
  · show ((B.toNat : Nat) : Int) = B
    omega
  · intro r hr
    have hf := h.thf r hr
    generalize ph r = p at *
    cases p with
    | no => trivial
    | saw t => exact hf
    | fenced t =>
      obtain ⟨f1, f2, f3, f4⟩ := hf
      refine ⟨f1, f2, ?_, by simp⟩
      intro hT j x hj hx hlt
      refine ⟨?_, (f3 hT j x hj hx hlt).2⟩
      rcases f4 rfl with f4 | f4
      · omega
      · have := hlast j x (by simp only [Sees] at f4; omega) hx
        omega
    | ready t =>
      obtain ⟨f1, f2, f3, f4⟩ := hf
      refine ⟨f1, f2, fun hT => ⟨?_, (f3 hT).2⟩, by simp⟩
      have := f4 rfl
      omega
    | loaded t v =>
      obtain ⟨f1, f2, f3, f4⟩ := hf
      refine ⟨f1, f2, fun hT => ⟨?_, (f3 hT).2⟩, by simp⟩
      have := f4 rfl
      omega

/-! ## Fences -/

/-- Line 74 of `push`. -/
theorem World.release {k : Nat} (h : World c m V T L B K hold (.wrote k false) ph) {w : View Loc} (hw : (V 0).Le w)
    (hr : (V 0).cur.Le w.rel) : World c m (upd V 0 w) T L B K hold (.wrote k true) ph := by
  have hV := upd_le hw
  have hs : Same m m := ⟨rfl, rfl, fun _ => rfl, fun _ h => .inl h, fun _ h => .inl h, fun _ h => .inl h, fun _ => Nat.le_refl _⟩
  have h' := h.same hs hV (by intro k f e hf; cases e; cases hf)
  obtain ⟨a1, a2, a3, a4, a5⟩ := h'.own
  refine ⟨h.cpos, h.arr, h'.sync, h'.data, ⟨a1, a2, a3, a4, fun _ => ?_⟩, ?_⟩
  · rw [upd_self]
    refine Good.mono ⟨(h.data.slots _ (Nat.mod_lt _ h.cpos)).2, ?_⟩ hr
    have : (Q m c L).toNat = k := by rw [a3]; rfl
    rw [this]
    exact fun a haa => ⟨a4 a haa, h.data.own_done k a haa (a4 a haa)⟩
  · intro r hr
    have := h'.thf r hr
    generalize ph r = p at *
    cases p <;> first | exact this | exact ⟨this.1, this.2.1, this.2.2.1, by simp⟩

/-- Line 105 of `pop`. -/
theorem World.fence (h : World c m V T L B K hold .stored ph) (hs : Same m m') {w : View Loc} (hw : (V 0).Le w)
    (h1 : (V 0).cur.seen bt ≤ m'.sc bt) (h2 : m.sc tp ≤ w.cur.seen tp) :
    World c m' (upd V 0 w) T L B K hold .fenced ph := by
  have hV := upd_le hw
  have h' := h.same hs hV (by simp)
  have hLB : (L : Int) = B + 1 := h.own
  refine ⟨h.cpos, h'.arr, h'.sync, h'.data, ⟨hLB, ?_, ?_⟩, ?_⟩
  · have := h.sync.bot_seen
    simp only [Sees] at this
    rw [hs.msgs]; omega
  · rw [upd_self]
    have := h.sync.sc_top
    have := hw.cur.1 tp
    have := h.sync.tl
    omega
  · intro r hr
    have h3 := h'.thf r hr
    have h4 := h.thf r hr
    generalize ph r = p at *
    cases p with
    | no => trivial
    | saw t => exact h3
    | fenced t => exact ⟨h3.1, h3.2.1, h3.2.2.1, fun _ => .inl (by rw [upd_self]; exact Nat.le_trans h4.2.1 h2)⟩
    | ready t => exact ⟨h3.1, h3.2.1, h3.2.2.1, fun _ => .inl (by rw [upd_self]; exact Nat.le_trans h4.2.1 h2)⟩
    | loaded t v => exact ⟨h3.1, h3.2.1, h3.2.2.1, fun _ => .inl (by rw [upd_self]; exact Nat.le_trans h4.2.1 h2)⟩

/-- The phase of a thief changes. -/
theorem World.phase (h : World c m V T L B K hold o ph) {r : Nat} {p : TPh} (hp : TFact c m V T L B o r p) :
    World c m V T L B K hold o (upd ph r p) := by
  refine ⟨h.cpos, h.arr, h.sync, h.data, h.own, fun r' hr' => ?_⟩
  by_cases e : r' = r
  · subst e; rw [upd_self]; exact hp
  · rw [upd_ne _ _ e]; exact h.thf r' hr'

/-- Line 82 of `steal`. -/
theorem World.fenceThief {r t : Nat} (h : World c m V T L B K hold o ph) (hs : Same m m') (hr : r ≠ 0) (hp : ph r = .saw t) {w : View Loc}
    (hw : (V r).Le w) (h1 : (V r).cur.seen tp ≤ m'.sc tp) (h2 : m'.sc bt ≤ w.cur.seen bt) :
    World c m' (upd V r w) T L B K hold o (upd ph r (.fenced t)) := by
  have hV := upd_le hw
  have h0 : upd V r w 0 = V 0 := upd_ne _ _ (Ne.symm hr)
  have h' := h.same hs hV (by intros; rw [h0]; exact .refl _)
  have hf := h.thf r hr
  rw [hp] at hf
  refine h'.phase ⟨hf.1, Nat.le_trans hf.2 h1, ?_, ?_⟩
  · intro hT j x hj hx hlt
    rw [upd_self] at hj
    exact h'.sync.sc_bot t (by omega) j x (by omega) hx hlt
  · intro ho
    subst ho
    right
    obtain ⟨a1, a2, a3⟩ := h'.own
    simp only [Sees]
    rw [upd_self]
    omega

/-! ## Variables -/

/-- The owner writes the variable. -/
theorem World.prepare (h : World c m V T L B K hold .calm ph) (hm : m'.msgs = m.msgs) (hc : m'.cell (.user K) = 1)
    (hco : ∀ l, l ≠ .user K → m'.cell l = m.cell l) (ho : ∀ l, l ≠ .user K → m'.accs l = m.accs l) (hsc : m'.sc = m.sc)
    {w : View Loc} (hw : (V 0).Le w) (ha : ∀ a ∈ m'.accs (.user K), a.tid = 0 ∧ a.num ≤ w.cur.done 0) (hh : hold 0 = none) :
    World c m' (upd V 0 w) T L B (K + 1) (upd hold 0 (some K)) .calm ph := by
  have hV := upd_le hw
  have hQ : ∀ i, Q m' c i = Q m c i := Q_eq hm
  have hst : Still c T L m m' := by
    refine ⟨by rw [hm], by rw [hm], fun _ _ _ => by rw [hm], fun i h1 h2 => ?_, fun _ => by rw [hsc]; exact Nat.le_refl _⟩
    obtain ⟨k, q1, q2, q3, q4⟩ := h.data.queued i h1 h2
    refine ho _ ?_
    rw [q1]
    simp; omega
  have hd := h.data
  refine ⟨h.cpos, ?_, h.sync.still hst hV, ?_, h.own, fun r hr => (h.thf r hr).still hst hV⟩
  · have := h.arr
    exact ⟨by rw [hm]; exact this.arr, by rw [hco _ (by simp)]; exact this.cap, by rw [hco _ (by simp)]; exact this.mask,
      by rw [ho _ (by simp)]; exact this.rcap, by rw [ho _ (by simp)]; exact this.rmask, by rw [ho _ (by simp)]; exact this.rdata⟩
  · have hne : ∀ {k}, k < K → Loc.user k ≠ Loc.user K := by
      intro k hk e; injection e; omega
    refine ⟨?_, ?_, ?_, ?_, ?_, ?_, ?_, ?_⟩
    · intro j hj
      have := hd.slots j hj
      have h2 := this.2.mono (hV 0).cur
      simp only [Sees, hm] at *
      exact ⟨this.1, h2⟩
    · intro k a haa h0
      by_cases e : k = K
      · subst e; rw [upd_self]; exact (ha a haa).2
      · rw [ho _ (by simp [e])] at haa
        exact Nat.le_trans (hd.own_done k a haa h0) ((hV 0).cur.2 0)
    · intro i h1 h2
      obtain ⟨k, q1, q2, q3, q4⟩ := hd.queued i h1 h2
      refine ⟨k, (hQ i).trans q1, by omega, by rw [hco _ (hne q2)]; exact q3, fun r => ?_⟩
      by_cases e : r = 0
      · subst e; rw [upd_self]; intro e; have := Option.some.inj e; omega
      · rw [upd_ne _ _ e]; exact q4 r
    · intro i j h1 h2 h3 h4 he
      rw [hQ, hQ] at he
      exact hd.inj i j h1 h2 h3 h4 he
    · intro r k hk
      by_cases e : r = 0
      · subst e; rw [upd_self] at hk
        have e := Option.some.inj hk
        subst e
        exact ⟨by omega, hc, fun a haa => .inl (ha a haa).1⟩
      · rw [upd_ne _ _ e] at hk
        obtain ⟨a1, a2, a3⟩ := hd.held r k hk
        refine ⟨by omega, by rw [hco _ (hne a1)]; exact a2, fun a haa => ?_⟩
        rw [ho _ (hne a1)] at haa
        rw [upd_ne _ _ e]; exact a3 a haa
    · intro r r' k h1 h2
      by_cases e : r = 0
      · by_cases e' : r' = 0
        · omega
        · subst e; rw [upd_self] at h1; rw [upd_ne _ _ e'] at h2
          have := Option.some.inj h1
          have := (hd.held _ _ h2).1
          omega
      · rw [upd_ne _ _ e] at h1
        by_cases e' : r' = 0
        · subst e'; rw [upd_self] at h2
          have := Option.some.inj h2
          have := (hd.held _ _ h1).1
          omega
        · rw [upd_ne _ _ e'] at h2; exact hd.held_inj _ _ _ h1 h2
    · intro k hk hq hh'
      have hkK : k ≠ K := by
        intro e; subst e
        have := hh' 0
        rw [upd_self] at this
        exact this rfl
      have hk' : k < K := by omega
      rw [hco _ (hne hk')]
      refine hd.used k hk' (fun i h1 h2 => by rw [← hQ]; exact hq i h1 h2) fun r => ?_
      by_cases e : r = 0
      · subst e; rw [hh]; simp
      · have := hh' r
        rw [upd_ne _ _ e] at this; exact this
    · intro k hk
      have : Loc.user k ≠ Loc.user K := by intro e; injection e; omega
      rw [hco _ this, ho _ this]
      exact hd.fresh k (by omega)

/-- Line 72 of `push`. -/
theorem World.slot {k : Nat} (h : World c m V T L B K hold .room ph) {y : Msg Loc} (ha : Appends m m' (sl c L) y) (hy : y.val = k)
    {w : View Loc} (hw : (V 0).Le w) (hs : (m.msgs (sl c L)).length ≤ w.cur.seen (sl c L)) (hh : hold 0 = some k) :
    World c m' (upd V 0 w) T L B K hold (.wrote k false) ph := by
  have hV := upd_le hw
  obtain ⟨b1, b2⟩ := h.own
  have hne : ∀ i, T ≤ i → i < L → sl c i ≠ sl c L := by
    intro i h1 h2 e
    injection e with _ e
    exact mod_ne_of_lt h2 (by omega) e
  have hst : Still c T L m m' := by
    refine ⟨ha.other _ (by simp), ha.other _ (by simp), fun i h1 h2 => ha.other _ (hne i h1 h2), fun _ _ _ => by rw [ha.accs], ha.sc⟩
  have hd := h.data
  have hQ : ∀ i, T ≤ i → i < L → Q m' c i = Q m c i := fun i h1 h2 => Q_congr (hst.slot i h1 h2)
  refine ⟨h.cpos, h.arr.appends ha (by simp), h.sync.still hst hV, ?_, ⟨b1, b2, ?_, ?_, by simp⟩, ?_⟩
  · refine ⟨?_, ?_, ?_, ?_, ?_, hd.held_inj, ?_, ?_⟩
    · intro j hj
      by_cases e : Loc.cell 1 j = sl c L
      · rw [e]
        simp only [Sees]
        rw [ha.here, upd_self]
        simp
        exact hs
      · have := hd.slots j hj
        have h2 := this.2.mono (hV 0).cur
        simp only [Sees] at *
        rw [ha.other _ e]
        exact ⟨this.1, h2⟩
    · intro k a haa h0
      rw [ha.accs] at haa
      exact Nat.le_trans (hd.own_done k a haa h0) ((hV 0).cur.2 0)
    · intro i h1 h2
      rw [hQ i h1 h2, ha.cell]; exact hd.queued i h1 h2
    · intro i j h1 h2 h3 h4 he
      rw [hQ i h1 h2, hQ j h3 h4] at he
      exact hd.inj i j h1 h2 h3 h4 he
    · intro r k hk
      obtain ⟨a1, a2, a3⟩ := hd.held r k hk
      refine ⟨a1, by rw [ha.cell]; exact a2, fun a haa => ?_⟩
      rw [ha.accs] at haa
      rcases a3 a haa with a3 | a3
      · exact .inl a3
      · exact .inr ⟨a3.1, Nat.le_trans a3.2 ((hV r).cur.2 0)⟩
    · intro k hk hq hh'
      rw [ha.cell]
      exact hd.used k hk (fun i h1 h2 => by rw [← hQ i h1 h2]; exact hq i h1 h2) hh'
    · intro k hk
      rw [ha.cell, ha.accs]; exact hd.fresh k hk
  · simp only [Q, lastVal]
    rw [ha.here]
    simp [hy]
  · intro a haa
    rw [ha.accs] at haa
    have := (hd.held 0 k hh).2.2 a haa
    omega
  · intro r hr
    have := (h.thf r hr).still hst hV
    generalize ph r = p at *
    cases p <;> first | exact this | exact ⟨this.1, this.2.1, this.2.2.1, by simp⟩

/-- The receiver reads or writes the variable.  `z` is what it leaves. -/
theorem World.touch {r k : Nat} {z : Int} (h : World c m V T L B K hold o ph) (hm : m'.msgs = m.msgs) (hc : m'.cell (.user k) = z)
    (hco : ∀ l, l ≠ .user k → m'.cell l = m.cell l) (ho : ∀ l, l ≠ .user k → m'.accs l = m.accs l) (hsc : m'.sc = m.sc)
    {w : View Loc} (hw : (V r).Le w) (hrel : w.rel = (V r).rel)
    (ha : ∀ a ∈ m'.accs (.user k), a ∈ m.accs (.user k) ∨ (a.tid = r ∧ a.num ≤ w.cur.done r)) (hh : hold r = some k)
    (hwr : ∀ k' f, o = .wrote k' f → k' ≠ k) {q : Option Nat} (hq : (q = some k ∧ z = 1) ∨ (q = none ∧ z = 2)) :
    World c m' (upd V r w) T L B K (upd hold r q) o ph := by
  have hV := upd_le hw
  have hQ : ∀ i, Q m' c i = Q m c i := Q_eq hm
  have hst : Still c T L m m' := by
    refine ⟨by rw [hm], by rw [hm], fun _ _ _ => by rw [hm], fun i h1 h2 => ?_, fun _ => by rw [hsc]; exact Nat.le_refl _⟩
    obtain ⟨k', q1, q2, q3, q4⟩ := h.data.queued i h1 h2
    refine ho _ ?_
    rw [q1]
    intro e
    injection e with e
    have : k' = k := by omega
    subst this
    exact q4 r hh
  have hd := h.data
  obtain ⟨e1, e2, e3⟩ := hd.held r k hh
  have hne : ∀ {k'}, k' ≠ k → Loc.user k' ≠ Loc.user k := by
    intro k' hk e; injection e; omega
  refine ⟨h.cpos, ?_, h.sync.still hst hV, ?_, ?_, fun r hr => (h.thf r hr).still hst hV⟩
  · have := h.arr
    exact ⟨by rw [hm]; exact this.arr, by rw [hco _ (by simp)]; exact this.cap, by rw [hco _ (by simp)]; exact this.mask,
      by rw [ho _ (by simp)]; exact this.rcap, by rw [ho _ (by simp)]; exact this.rmask, by rw [ho _ (by simp)]; exact this.rdata⟩
  · have hheld : ∀ r' k', upd hold r q r' = some k' → hold r' = some k' := by
      intro r' k' hk'
      by_cases e : r' = r
      · subst e; rw [upd_self] at hk'
        rcases hq with ⟨rfl, _⟩ | ⟨rfl, _⟩
        · rw [hh, ← hk']
        · cases hk'
      · rw [upd_ne _ _ e] at hk'; exact hk'
    refine ⟨?_, ?_, ?_, ?_, ?_, ?_, ?_, ?_⟩
    · intro j hj
      have := hd.slots j hj
      have h2 := this.2.mono (hV 0).cur
      simp only [Sees, hm] at *
      exact ⟨this.1, h2⟩
    · intro k' a haa h0
      by_cases e : k' = k
      · subst e
        rcases ha a haa with haa | haa
        · exact Nat.le_trans (hd.own_done _ a haa h0) ((hV 0).cur.2 0)
        · have : r = 0 := by omega
          subst this
          rw [upd_self]; exact haa.2
      · rw [ho _ (hne e)] at haa
        exact Nat.le_trans (hd.own_done k' a haa h0) ((hV 0).cur.2 0)
    · intro i h1 h2
      obtain ⟨k', q1, q2, q3, q4⟩ := hd.queued i h1 h2
      have e : k' ≠ k := by intro e; subst e; exact q4 r hh
      exact ⟨k', (hQ i).trans q1, q2, by rw [hco _ (hne e)]; exact q3, fun r' e => q4 r' (hheld r' k' e)⟩
    · intro i j h1 h2 h3 h4 he
      rw [hQ, hQ] at he
      exact hd.inj i j h1 h2 h3 h4 he
    · intro r' k' hk'
      have hk2 := hheld r' k' hk'
      obtain ⟨a1, a2, a3⟩ := hd.held r' k' hk2
      by_cases e : k' = k
      · subst e
        have er := hd.held_inj _ _ _ hk2 hh
        subst er
        rw [upd_self] at hk'
        refine ⟨a1, ?_, ?_⟩
        · rcases hq with ⟨_, hz⟩ | ⟨rfl, _⟩
          · rw [hc, hz]
          · cases hk'
        · intro a haa
          rcases ha a haa with haa | haa
          · rcases a3 a haa with a3 | a3
            · exact .inl a3
            · exact .inr ⟨a3.1, Nat.le_trans a3.2 ((hV r').cur.2 0)⟩
          · exact .inl haa.1
      · refine ⟨a1, by rw [hco _ (hne e)]; exact a2, fun a haa => ?_⟩
        rw [ho _ (hne e)] at haa
        rcases a3 a haa with a3 | a3
        · exact .inl a3
        · exact .inr ⟨a3.1, Nat.le_trans a3.2 ((hV r').cur.2 0)⟩
    · intro r1 r2 k' h1 h2
      exact hd.held_inj _ _ _ (hheld _ _ h1) (hheld _ _ h2)
    · intro k' hk hq' hh'
      by_cases e : k' = k
      · subst e
        rcases hq with ⟨rfl, _⟩ | ⟨rfl, hz⟩
        · have := hh' r
          rw [upd_self] at this
          exact (this rfl).elim
        · rw [hc, hz]
      · rw [hco _ (hne e)]
        refine hd.used k' hk (fun i h1 h2 => by rw [← hQ]; exact hq' i h1 h2) fun r' => ?_
        by_cases er : r' = r
        · subst er; rw [hh]; intro e2; exact e (Option.some.inj e2).symm
        · have := hh' r'
          rw [upd_ne _ _ er] at this; exact this
    · intro k' hk
      have e : k' ≠ k := by omega
      rw [hco _ (hne e), ho _ (hne e)]
      exact hd.fresh k' hk
  · have hw0 : (upd V r w 0).rel = (V 0).rel := by
      by_cases e : 0 = r
      · subst e; rw [upd_self, hrel]
      · rw [upd_ne _ _ e]
    have hc0 := (hV 0).cur.1 tp
    have ow := h.own
    cases o with
    | calm => exact ow
    | room => exact ow
    | wrote k' f =>
      have e := hwr k' f rfl
      obtain ⟨o1, o2, o3, o4, o5⟩ := ow
      refine ⟨o1, o2, (hQ L).trans o3, by rw [ho _ (hne e)]; exact o4, fun hf => ?_⟩
      rw [hw0]
      refine (o5 hf).congr (by rw [hm]) (ho _ ?_)
      rw [o3]
      exact hne e
    | stored => exact ow
    | fenced =>
      obtain ⟨o1, o2, o3⟩ := ow
      refine ⟨o1, by rw [hm, hsc]; exact o2, ?_⟩
      omega
    | contest => obtain ⟨o1, o2, o3, o4⟩ := ow; exact ⟨o1, o2, o3, by omega⟩
    | over => exact ow

end CoEcs.Weak
