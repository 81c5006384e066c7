import Verif.Proofs.WeakRounds
import Verif.Spec.WeakShared

/-! # Rounds of parallel work with shared counters: helper lemmas -/

namespace CoEcs.Weak
variable {L : Type} [DecidableEq L]

theorem execRmw_le {c : Nat} {o : Order} {l : L} {f : Int → Option Int} {m m' : Mem L} {w w' : View L} {v : Int}
    (h : execRmw c o l f m w = .ok m' w' v) : w.cur.Le w'.cur := by
  unfold execRmw at h
  split at h
  · cases h
  · split at h
    · split at h
      · cases h; exact (View.le_got ..).cur
      · split at h
        · cases h; exact (View.le_got ..).cur.trans (View.le_put ..).cur
        · cases h
    · cases h

theorem exec_le {strong : Bool} {t c : Nat} {op : Op L} {m m' : Mem L} {w w' : View L} {v : Int}
    (h : exec strong t c op m w = .ok m' w' v) : w.cur.Le w'.cur := by
  cases op with
  | load o l =>
    simp only [exec] at h
    split at h
    · cases h
    · split at h
      · cases h; exact (View.le_got ..).cur
      · cases h
  | store o l v =>
    simp only [exec] at h
    cases h; exact (View.le_put ..).cur
  | rmw o l f =>
    simp only [exec] at h
    split at h
    · cases he : execRmw c o l f (fenceSc m w).1 (fenceSc m w).2 with
      | ok m1 w1 v1 =>
        rw [he] at h
        cases h
        exact (fenceSc_le m w).cur.trans ((execRmw_le he).trans (fenceSc_le m1 w1).cur)
      | race => rw [he] at h; cases h
      | no => rw [he] at h; cases h
    · exact execRmw_le h
  | fence o =>
    cases o <;> (simp only [exec] at h; cases h)
    · exact .refl _
    · exact Know.le_join_left ..
    · exact .refl _
    · exact Know.le_join_left ..
    · exact (fenceSc_le m w).cur
  | read l =>
    simp only [exec] at h
    split at h
    · cases h
    · cases h; exact (access_le ..).cur
  | write l v =>
    simp only [exec] at h
    split at h
    · cases h
    · cases h; exact (access_le ..).cur

section
variable {F : Nat → Foot L} {D A : L → Prop} {m : Mem L}

/-- The step of a worker that knows what it needs to, but for the counters. -/
structure Kept (A : L → Prop) (Ft : Foot L) (F : Nat → Foot L) (D : L → Prop) (t : Nat) (op : Op L) (m : Mem L) (w : View L) (m' : Mem L) (w' : View L)
    (v : Int) : Prop extends Footed A Ft F D t op m w m' w' v where
  le : w.cur.Le w'.cur
  heard : ∀ l, A l → m'.msgs l = m.msgs l ∨ (m'.msgs l).length ≤ w'.cur.seen l + 1

theorem Works.mono {A' : L → Prop} {Ft : Foot L} {t : Nat} {K : Know L} {m m' : Mem L} (h : Works A Ft t K m m') (hA : ∀ l, A l → A' l) :
    Works A' Ft t K m m' := ⟨fun l h1 h2 => h.msgs l h1 fun h' => h2 (hA l h'), h.accs⟩

/-- Changing a counter. -/
theorem execRmw_count {t c : Nat} {o : Order} {l : L} {f : Int → Option Int} {w : View L} (h : Covers F D w.cur m (· ≠ t)) (hf : m.Full) (hl : A l)
    (ht : ∀ v, f v ≠ none) :
    execRmw c o l f m w ≠ .race ∧ ∀ m' w' v, execRmw c o l f m w = .ok m' w' v →
      Footed A (F t) F D t (.rmw o l f) m w m' w' v ∧ (m'.msgs l).length ≤ w'.cur.seen l + 1 ∧ ∀ y, y ≠ l → m'.msgs y = m.msgs y := by
  unfold execRmw
  cases hx : (m.msgs l)[c]? with
  | none => simp
  | some x =>
    simp only
    by_cases hs : w.cur.seen l ≤ c
    · rw [if_pos hs]
      cases hv : f x.val with
      | none => exact absurd hv (ht _)
      | some y =>
        simp only
        by_cases h2 : c + 1 = (m.msgs l).length
        · rw [if_pos h2]
          refine ⟨by simp, fun m' w' v e => ?_⟩
          cases e
          have h1 : m.vals.atom l = x.val := by
            have : (m.msgs l).getLast? = some x := by
              rw [List.getLast?_eq_getElem?, ← h2]
              simpa using hx
            simp [Mem.vals, this]
          have h3 := h.mono (View.le_got w o l c x).cur (fun _ h => h)
          refine ⟨⟨by simp [Op.seq, h1, hv, Mem.vals_push], ?_, hf.push _ _, .push (.inr hl) _ _ _⟩, ?_, ?_⟩
          · have := h3.push l ⟨y, ((w.got o l c x).gives o l (c + 1)).join x.know⟩
            rw [← h2] at this
            exact this
          · simp only [Mem.push, if_true, List.length_append, List.length_singleton, ← h2]
            simp only [View.put, Know.saw, if_true]
            omega
          · intro z hz
            simp [Mem.push, hz]
        · rw [if_neg h2]; simp
    · rw [if_neg hs]; simp

theorem exec_keeps {strong : Bool} {t c : Nat} {op : Op L} {w : View L} (h : Covers F D w.cur m (· ≠ t))
    (hsep : ∀ t', t' ≠ t → ∀ l, (F t').wr l → ¬ (F t).has l) (hsep' : ∀ t', t' ≠ t → ∀ l, (F t).wr l → ¬ (F t').has l)
    (hD : ∀ l, D l → ¬ (F t).has l) (hA : ∀ l, A l → D l) (hf : m.Full) (ho : op.Keeps A (F t)) :
    exec strong (t + 1) c op m w ≠ .race ∧ ∀ m' w' v, exec strong (t + 1) c op m w = .ok m' w' v → Kept A (F t) F D t op m w m' w' v := by
  rcases ho with ho | ⟨o, l, f, rfl, hl, ht⟩
  · obtain ⟨h1, h2⟩ := exec_foot (A := fun _ => False) (strong := strong) (c := c) h hsep hsep' hD hf ho
    refine ⟨h1, fun m' w' v e => ?_⟩
    have := h2 m' w' v e
    exact ⟨⟨this.seq, this.cov, this.full, this.works.mono fun _ h => h.elim⟩, exec_le e,
      fun l hl => .inl (this.works.msgs l (fun hw => hD l (hA l hl) (.inr hw)) id)⟩
  · have key : exec strong (t + 1) c (.rmw o l f) m w ≠ .race ∧ ∀ m' w' v, exec strong (t + 1) c (.rmw o l f) m w = .ok m' w' v →
        Footed A (F t) F D t (.rmw o l f) m w m' w' v ∧ (m'.msgs l).length ≤ w'.cur.seen l + 1 ∧ ∀ y, y ≠ l → m'.msgs y = m.msgs y := by
      simp only [exec]
      by_cases hs : (strong && decide (o = .sc)) = true
      · rw [if_pos hs]
        obtain ⟨h1, h2⟩ := execRmw_count (A := A) (c := c) (o := o) (f := f) (fenceSc_covers h) (m := (fenceSc m w).1) hf hl ht
        cases he : execRmw c o l f (fenceSc m w).1 (fenceSc m w).2 with
        | ok m1 w1 v1 =>
          refine ⟨by simp, fun m' w' v e => ?_⟩
          obtain ⟨this, h3, h4⟩ := h2 _ _ _ he
          cases e
          refine ⟨⟨this.seq, fenceSc_covers this.cov, this.full, this.works.msgs, fun l a ha => ?_⟩, ?_, h4⟩
          · rcases this.works.accs l a ha with h3 | ⟨h3, h4, h5⟩
            · exact .inl h3
            · exact .inr ⟨h3, h4, Nat.le_trans h5 ((fenceSc_le m1 w1).cur.2 _)⟩
          · exact Nat.le_trans h3 (Nat.succ_le_succ ((fenceSc_le m1 w1).cur.1 _))
        | race => exact absurd he h1
        | no => simp
      · rw [if_neg hs]
        exact execRmw_count h hf hl ht
    refine ⟨key.1, fun m' w' v e => ?_⟩
    obtain ⟨k1, k2, k3⟩ := key.2 m' w' v e
    refine ⟨k1, exec_le e, fun y _ => ?_⟩
    by_cases hy : y = l
    · subst hy; exact .inr k2
    · exact .inl (k3 y hy)

end

/-! ## Plain memory -/

theorem Op.Keeps.within {A : L → Prop} {F : Foot L} {go dn : L} {o : Op L} (h : o.Keeps A F) (hF : ∀ l, F.has l → l ≠ go ∧ l ≠ dn)
    (hA : ∀ l, A l → l ≠ go ∧ l ≠ dn) : o.Within (Foot.but go dn) := by
  rcases h with h | ⟨_, l, f, rfl, hl, _⟩
  · exact h.mono (fun l hl => .inl (hF l hl)) (fun l hl => hF l (.inr hl))
  · exact hA l hl

theorem Prog.Within.keeps {A : L → Prop} {F : Foot L} {α : Type} {p : Prog L α} (h : p.Within F) : p.Keeps A F := by
  induction p with
  | ret a => trivial
  | op o k ih => exact ⟨.inl h.1, fun v => ih v (h.2 v)⟩

theorem Prog.Keeps.bind {A : L → Prop} {F : Foot L} {α β : Type} {p : Prog L α} {k : α → Prog L β} (hp : p.Keeps A F) (hk : ∀ a, (k a).Keeps A F) :
    (p.bind k).Keeps A F := by
  induction p with
  | ret a => exact hk a
  | op o q ih => exact ⟨hp.1, fun v => ih v (hp.2 v)⟩

/-- Without counters every execution changes each object as if the program that uses it were alone. -/
theorem Mix.separate {N : Nat} {F : Nat → Foot L} (hs : ∀ t t', t < N → t' < N → t ≠ t' → ∀ l, (F t).wr l → ¬ (F t').has l) {w : Nat → Prog L Unit}
    {s s' : Store L} (h : Mix N w s s') : (∀ t, t < N → (w t).Within (F t)) →
    (∀ t, t < N → s'.On (F t).has ((w t).seq s).2) ∧ s'.On (fun l => ∀ t, t < N → ¬ (F t).wr l) s := by
  induction h with
  | done hr => exact fun _ => ⟨fun t ht => by rw [hr t ht]; exact .refl _ _, .refl _ _⟩
  | @step w s s' t o k ht hw _ ih =>
    intro hF
    have ho := hF t ht
    rw [hw] at ho
    obtain ⟨i1, i2⟩ := ih (by
      intro t' ht'
      by_cases e : t' = t
      · subst e; simp only [if_true]; exact ho.2 _
      · simp only [if_neg e]; exact hF t' ht')
    have hfr := Op.seq_frame ho.1 s
    refine ⟨fun t' ht' => ?_, i2.trans (hfr.mono fun l hl => hl t ht)⟩
    have := i1 t' ht'
    by_cases e : t' = t
    · subst e
      simp only [if_true] at this
      rw [hw]
      exact this
    · simp only [if_neg e] at this
      exact this.trans (Prog.seq_congr (hF t' ht') (hfr.mono fun l hl hl' => hs t t' ht ht' (fun e' => e e'.symm) l hl' hl)).2

theorem Mix.seqAll {N : Nat} {F : Nat → Foot L} (hs : ∀ t t', t < N → t' < N → t ≠ t' → ∀ l, (F t).wr l → ¬ (F t').has l) {w : Nat → Prog L Unit}
    {s s' : Store L} (h : Mix N w s s') (hw : ∀ t, t < N → (w t).Within (F t)) (l : L) :
    s'.atom l = (seqAll ((List.range N).map w) s).atom l ∧ s'.cell l = (Weak.seqAll ((List.range N).map w) s).cell l := by
  obtain ⟨h1, h2⟩ := h.separate hs hw
  obtain ⟨h3, h4⟩ := seqAll_separate N hw hs s
  by_cases hl : ∃ t, t < N ∧ (F t).wr l
  · obtain ⟨t, ht, hl⟩ := hl
    have e1 := h1 t ht l (.inr hl)
    have e2 := h3 t ht l hl
    exact ⟨e1.1.trans e2.1.symm, e1.2.trans e2.2.symm⟩
  · have hl : ∀ t, t < N → ¬ (F t).wr l := fun t ht hw => hl ⟨t, ht, hw⟩
    have e1 := h2 l hl
    have e2 := h4 l hl
    exact ⟨e1.1.trans e2.1.symm, e1.2.trans e2.2.symm⟩

/-- Rounds without counters do what they do without threads. -/
theorem MixRounds.seq {N : Nat} {go dn : L} {Rs : List (Round L)} {s s' : Store L} (h : MixRounds N Rs s s') :
    (∀ R ∈ Rs, R.Separate N go dn) → s' = seqRounds N Rs s := by
  induction h with
  | nil => exact fun _ => rfl
  | @cons R Rs s s1 s2 hm _ ih =>
    intro hR
    obtain ⟨_, F, h1, _, h3⟩ := hR R (List.mem_cons_self ..)
    have := ih fun R' h' => hR R' (List.mem_cons_of_mem _ h')
    subst this
    have e : s1 = Weak.seqAll ((List.range N).map R.work) (R.main.seq s).2 := by
      have := hm.seqAll h3 h1
      cases s1
      have e1 := funext fun l => (this l).1
      have e2 := funext fun l => (this l).2
      simp only at e1 e2
      rw [e1, e2]
    simp only [seqRounds, e]

theorem Round.Separate.sharing {N : Nat} {go dn : L} {R : Round L} (h : R.Separate N go dn) : R.Sharing N go dn fun _ => False := by
  obtain ⟨h1, F, h2, h3, h4⟩ := h
  exact ⟨h1, F, fun t ht => (h2 t ht).keeps, fun t ht l hl => ⟨(h3 t ht l hl).1, (h3 t ht l hl).2, id⟩, h4⟩

end CoEcs.Weak
