import Verif.Proofs.WeakQueueSteps

/-! # The queue with its memory orders: all executions -/

namespace CoEcs.Weak

/-! ## Single operations -/

theorem Same.refl (m : Mem Loc) : Same m m :=
  ⟨rfl, rfl, fun _ => rfl, fun _ h => .inl h, fun _ h => .inl h, fun _ h => .inl h, fun _ => Nat.le_refl _⟩

theorem load_cases (strong : Bool) (t n : Nat) (o : Order) (l : Loc) (m : Mem Loc) (w : View Loc) :
    exec strong t n (.load o l) m w = .no ∨
    ∃ x, (m.msgs l)[n]? = some x ∧ w.cur.seen l ≤ n ∧ exec strong t n (.load o l) m w = .ok m (w.got o l n x) x.val := by
  simp only [exec]
  cases (m.msgs l)[n]? with
  | none => exact .inl rfl
  | some x =>
    by_cases h : w.cur.seen l ≤ n
    · simp only [if_pos h]; exact .inr ⟨x, rfl, h, rfl⟩
    · simp only [if_neg h]; exact .inl trivial

theorem store_eq (strong : Bool) (t n : Nat) (o : Order) (l : Loc) (v : Int) (m : Mem Loc) (w : View Loc) :
    ∃ m' w' y, exec strong t n (.store o l v) m w = .ok m' w' 0 ∧ Appends m m' l y ∧ y.val = v ∧ w.Le w' ∧ w'.rel = w.rel ∧
      (m.msgs l).length ≤ w'.cur.seen l ∧ (o.releases = false → w.rel.Le y.know) := by
  refine ⟨m.push l ⟨v, w.gives o l (m.msgs l).length⟩, w.put l (m.msgs l).length, ⟨v, w.gives o l (m.msgs l).length⟩, rfl,
    ⟨?_, ?_, rfl, rfl, fun _ => Nat.le_refl _⟩, rfl, View.le_put .., rfl, View.put_seen .., ?_⟩
  · simp only [Mem.push, if_true]
  · intro x hx; simp only [Mem.push, if_neg hx]
  · intro h
    simp only [View.gives, h]
    exact Know.le_saw ..

theorem fence_eq (strong : Bool) (t n : Nat) (m : Mem Loc) (w : View Loc) :
    ∃ m' w', exec strong t n (.fence .sc) m w = .ok m' w' 0 ∧ Same m m' ∧ w.Le w' ∧ (∀ l, w.cur.seen l ≤ m'.sc l) ∧
      (∀ l, m.sc l ≤ w'.cur.seen l) ∧ ∀ l, m'.sc l ≤ w'.cur.seen l :=
  ⟨_, _, rfl, ⟨rfl, rfl, fun _ => rfl, fun _ h => .inl h, fun _ h => .inl h, fun _ h => .inl h, fenceSc_sc m w⟩, fenceSc_le m w,
    fenceSc_out m w, fenceSc_in m w, fun _ => Nat.le_refl _⟩

theorem rmw_cases (n : Nat) (t : Int) (m : Mem Loc) (w : View Loc) :
    execRmw n .sc tp (fun x => if x = t then some (t + 1) else none) m w = .no ∨
    (∃ x, execRmw n .sc tp (fun x => if x = t then some (t + 1) else none) m w = .ok m (w.got .rlx tp n x) x.val ∧ (m.msgs tp)[n]? = some x ∧
      w.cur.seen tp ≤ n ∧ x.val ≠ t) ∨
    ∃ m' w' y x, execRmw n .sc tp (fun x => if x = t then some (t + 1) else none) m w = .ok m' w' t ∧ (m.msgs tp)[n]? = some x ∧
      n + 1 = (m.msgs tp).length ∧ x.val = t ∧ y.val = t + 1 ∧ Appends m m' tp y ∧ w.Le w' := by
  simp only [execRmw]
  cases hx : (m.msgs tp)[n]? with
  | none => exact .inl rfl
  | some x =>
    by_cases h : w.cur.seen tp ≤ n
    · simp only [if_pos h]
      by_cases hv : x.val = t
      · simp only [if_pos hv]
        by_cases hl : n + 1 = (m.msgs tp).length
        · simp only [if_pos hl]
          refine .inr (.inr ⟨m.push tp ⟨t + 1, ((w.got .sc tp n x).gives .sc tp (n + 1)).join x.know⟩, (w.got .sc tp n x).put tp (n + 1),
            ⟨t + 1, ((w.got .sc tp n x).gives .sc tp (n + 1)).join x.know⟩, x, by rw [hv], rfl, hl, hv, rfl,
            ⟨?_, ?_, rfl, rfl, fun _ => Nat.le_refl _⟩, ?_⟩)
          · simp only [Mem.push, if_true]
          · intro y hy; simp only [Mem.push, if_neg hy]
          · exact (View.le_got ..).trans (View.le_put ..)
        · simp only [if_neg hl]; exact .inl trivial
      · simp only [if_neg hv]
        exact .inr (.inl ⟨x, rfl, rfl, h, hv⟩)
    · simp only [if_neg h]; exact .inl trivial

theorem cas_cases (strong : Bool) (r n : Nat) (t : Int) (m : Mem Loc) (w : View Loc) :
    exec strong r n (casTop t) m w = .no ∨
    (∃ m' w' x, exec strong r n (casTop t) m w = .ok m' w' x.val ∧ (m.msgs tp)[n]? = some x ∧ w.cur.seen tp ≤ n ∧ x.val ≠ t ∧
      Same m m' ∧ w.Le w') ∨
    ∃ m' w' y x, exec strong r n (casTop t) m w = .ok m' w' t ∧ (m.msgs tp)[n]? = some x ∧ n + 1 = (m.msgs tp).length ∧ x.val = t ∧
      y.val = t + 1 ∧ Appends m m' tp y ∧ w.Le w' := by
  simp only [exec, casTop]
  cases strong with
  | false =>
    simp only [Bool.false_and, Bool.false_eq_true, if_false]
    rcases rmw_cases n t m w with h | ⟨x, h, h1, h2, h3⟩ | ⟨m', w', y, x, h, h1⟩
    · exact .inl h
    · exact .inr (.inl ⟨_, _, x, h, h1, h2, h3, .refl _, View.le_got ..⟩)
    · exact .inr (.inr ⟨m', w', y, x, h, h1⟩)
  | true =>
    simp only [Bool.true_and, decide_true, if_true]
    have hs : Same m (fenceSc m w).1 :=
      ⟨rfl, rfl, fun _ => rfl, fun _ h => .inl h, fun _ h => .inl h, fun _ h => .inl h, fenceSc_sc m w⟩
    have hle := fenceSc_le m w
    rcases rmw_cases n t (fenceSc m w).1 (fenceSc m w).2 with h | ⟨x, h, h1, h2, h3⟩ | ⟨m', w', y, x, h, h1, h2, h3, h4, h5, h6⟩
    · rw [h]; exact .inl rfl
    · rw [h]
      refine .inr (.inl ⟨_, _, x, rfl, h1, Nat.le_trans (hle.cur.1 tp) h2, h3, ?_, ?_⟩)
      · exact ⟨rfl, rfl, fun _ => rfl, fun _ h => .inl h, fun _ h => .inl h, fun _ h => .inl h,
          fun l => Nat.le_trans (fenceSc_sc m w l) (fenceSc_sc _ _ l)⟩
      · exact (hle.trans (View.le_got ..)).trans (fenceSc_le ..)
    · rw [h]
      refine .inr (.inr ⟨_, _, y, x, rfl, h1, h2, h3, h4, ⟨h5.here, h5.other, h5.cell, h5.accs, ?_⟩, ?_⟩)
      · exact fun l => Nat.le_trans (Nat.le_trans (fenceSc_sc m w l) (h5.sc l)) (fenceSc_sc _ _ l)
      · exact (hle.trans h6).trans (fenceSc_le ..)

/-- Reading a field nobody writes. -/
theorem read_field (strong : Bool) (t n : Nat) (l : Loc) (m : Mem Loc) (w : View Loc) (hl : ∀ k, l ≠ .user k)
    (h : ∀ a ∈ m.accs l, a.wr = false) :
    ∃ m' w', exec strong t n (.read l) m w = .ok m' w' (m.cell l) ∧ Same m m' ∧ w.Le w' := by
  have hr : ((m.accs l).any fun a => a.wr && clash t w.cur a) = false := by
    rw [List.any_eq_false]
    intro a ha
    simp [h a ha]
  simp only [exec, hr]
  have hacc : ∀ x, ∀ a ∈ (access t l false m w).1.accs x, a ∈ m.accs x ∨ a.wr = false := by
    intro x a ha
    simp only [access] at ha
    split at ha
    · subst_vars
      simp only [List.mem_append, List.mem_singleton] at ha
      rcases ha with ha | ha
      · exact .inl ha
      · exact .inr (by rw [ha])
    · exact .inl ha
  refine ⟨_, _, rfl, ⟨rfl, rfl, fun k => ?_, hacc _, hacc _, hacc _, fun _ => Nat.le_refl _⟩, access_le ..⟩
  simp only [access]
  rw [if_neg (fun e => hl k e.symm)]

/-- The receiver may read and write. -/
theorem no_clash {m : Mem Loc} {w : View Loc} {r k : Nat}
    (h : ∀ a ∈ m.accs (.user k), a.tid = r ∨ (a.tid = 0 ∧ a.num ≤ w.cur.done 0)) : (m.accs (.user k)).any (clash r w.cur) = false := by
  rw [List.any_eq_false]
  intro a ha
  simp only [clash]
  rcases h a ha with h | h
  · simp [h]
  · rw [h.1]
    have : ¬ w.cur.done 0 < a.num := by omega
    simp [this]

theorem read_user (strong : Bool) (r n k : Nat) (m : Mem Loc) (w : View Loc) (h : (m.accs (.user k)).any (clash r w.cur) = false) :
    ∃ m' w', exec strong r n (.read (.user k)) m w = .ok m' w' (m.cell (.user k)) ∧ m'.msgs = m.msgs ∧ m'.cell = m.cell ∧
      (∀ l, l ≠ .user k → m'.accs l = m.accs l) ∧ m'.sc = m.sc ∧ w.Le w' ∧ w'.rel = w.rel ∧
      ∀ a ∈ m'.accs (.user k), a ∈ m.accs (.user k) ∨ (a.tid = r ∧ a.num ≤ w'.cur.done r) := by
  have hr : ((m.accs (.user k)).any fun a => a.wr && clash r w.cur a) = false := by
    rw [List.any_eq_false] at *
    intro a ha
    have := h a ha
    simp at this ⊢
    simp [this]
  simp only [exec, hr]
  refine ⟨_, _, rfl, rfl, rfl, fun l hl => ?_, rfl, access_le .., rfl, ?_⟩
  · simp only [access, if_neg hl]
  · intro a ha
    simp only [access, if_true, List.mem_append, List.mem_singleton] at ha
    rcases ha with ha | ha
    · exact .inl ha
    · subst ha
      exact .inr ⟨rfl, Know.did_self ..⟩

theorem write_user (strong : Bool) (r n k : Nat) (v : Int) (m : Mem Loc) (w : View Loc)
    (h : (m.accs (.user k)).any (clash r w.cur) = false) :
    ∃ m' w', exec strong r n (.write (.user k) v) m w = .ok m' w' 0 ∧ m'.msgs = m.msgs ∧ m'.cell (.user k) = v ∧
      (∀ l, l ≠ .user k → m'.cell l = m.cell l) ∧
      (∀ l, l ≠ .user k → m'.accs l = m.accs l) ∧ m'.sc = m.sc ∧ w.Le w' ∧ w'.rel = w.rel ∧
      ∀ a ∈ m'.accs (.user k), a ∈ m.accs (.user k) ∨ (a.tid = r ∧ a.num ≤ w'.cur.done r) := by
  simp only [exec, h]
  refine ⟨_, _, rfl, rfl, if_pos rfl, fun l hl => if_neg hl, fun l hl => ?_, rfl, access_le .., rfl, ?_⟩
  · simp only [access, if_neg hl]
  · intro a ha
    simp only [access, if_true, List.mem_append, List.mem_singleton] at ha
    rcases ha with ha | ha
    · exact .inl ha
    · subst ha
      exact .inr ⟨rfl, Know.did_self ..⟩

/-! ## Where the threads are -/

def OwnAt (c : Nat) (m : Mem Loc) (T : Nat) (B : Int) (k : Nat) (o : OPh) (K : Nat) (hd : Option Nat) : OPc → Prop
  | .start => o = .calm ∧ K = k ∧ hd = none
  | .p1 => o = .calm ∧ K = k + 1 ∧ hd = some k
  | .p2 b => o = .calm ∧ K = k + 1 ∧ hd = some k ∧ b = B
  | .p3 b t => o = .calm ∧ K = k + 1 ∧ hd = some k ∧ b = B ∧ t ≤ T ∧ 0 ≤ t
  | .p4 b t a => o = .calm ∧ K = k + 1 ∧ hd = some k ∧ b = B ∧ t ≤ T ∧ 0 ≤ t ∧ a = 1
  | .p5 b a => o = .room ∧ K = k + 1 ∧ hd = some k ∧ b = B ∧ a = 1
  | .p6 b a => o = .room ∧ K = k + 1 ∧ hd = some k ∧ b = B ∧ a = 1
  | .p7 b a s => o = .room ∧ K = k + 1 ∧ hd = some k ∧ b = B ∧ a = 1 ∧ s = (c : Int) - 1
  | .p8 b => o = .wrote k false ∧ K = k + 1 ∧ hd = some k ∧ b = B
  | .p9 b => o = .wrote k true ∧ K = k + 1 ∧ hd = some k ∧ b = B
  | .g0 _ _ a => o = .calm ∧ K = k + 1 ∧ hd = some k ∧ a = 1 ∧ c ≤ k
  | .g1 _ _ _ _ => o = .calm ∧ K = k + 1 ∧ hd = some k ∧ c ≤ k
  | .gone => False
  | .q2 b => o = .calm ∧ K = k ∧ hd = none ∧ b = B
  | .q3 b a => o = .calm ∧ K = k ∧ hd = none ∧ b = B ∧ a = 1
  | .q4 b a => o = .stored ∧ K = k ∧ hd = none ∧ b = B + 1 ∧ a = 1
  | .q5 b a => o = .fenced ∧ K = k ∧ hd = none ∧ b = B + 1 ∧ a = 1
  | .q6 b a t => K = k ∧ b = B + 1 ∧ a = 1 ∧ 0 ≤ B ∧
      ((t = B ∧ o = .contest ∧ hd = none) ∨ (t ≠ B ∧ o = .calm ∧ ∃ k' : Nat, Q m c B.toNat = k' ∧ hd = some k'))
  | .q7 b a t => K = k ∧ b = B + 1 ∧ a = 1 ∧ 0 ≤ B ∧
      ((t = B ∧ o = .contest ∧ hd = none) ∨ (t ≠ B ∧ o = .calm ∧ ∃ k' : Nat, Q m c B.toNat = k' ∧ hd = some k'))
  | .q8 b a t s => K = k ∧ b = B + 1 ∧ a = 1 ∧ 0 ≤ B ∧ s = (c : Int) - 1 ∧
      ((t = B ∧ o = .contest ∧ hd = none) ∨ (t ≠ B ∧ o = .calm ∧ ∃ k' : Nat, Q m c B.toNat = k' ∧ hd = some k'))
  | .q9 b t v => K = k ∧ b = B + 1 ∧ 0 ≤ B ∧ t = B ∧ o = .contest ∧ hd = none ∧ v = Q m c B.toNat
  | .q10 b t v old => K = k ∧ b = B + 1 ∧ o = .over ∧ ((old = t ∧ ∃ k' : Nat, v = k' ∧ hd = some k') ∨ (old ≠ t ∧ hd = none))
  | .q11 b => K = k ∧ b = B + 1 ∧ o = .over ∧ hd = none
  | .u1 v => o = .calm ∧ K = k ∧ ∃ k' : Nat, v = k' ∧ hd = some k'
  | .u2 v x => o = .calm ∧ K = k ∧ x = 1 ∧ ∃ k' : Nat, v = k' ∧ hd = some k'

def ThfAt (c : Nat) (p : TPh) (hd : Option Nat) : TPc → Prop
  | .start => p = .no ∧ hd = none
  | .s1 t => hd = none ∧ ∃ n : Nat, t = n ∧ p = .saw n
  | .s2 t => hd = none ∧ ∃ n : Nat, t = n ∧ p = .fenced n
  | .s3 t => hd = none ∧ ∃ n : Nat, t = n ∧ p = .ready n
  | .s4 t a => hd = none ∧ a = 1 ∧ ∃ n : Nat, t = n ∧ p = .ready n
  | .s5 t a => hd = none ∧ a = 1 ∧ ∃ n : Nat, t = n ∧ p = .ready n
  | .s6 t a s => hd = none ∧ a = 1 ∧ s = (c : Int) - 1 ∧ ∃ n : Nat, t = n ∧ p = .ready n
  | .s7 t v => hd = none ∧ ∃ n : Nat, t = n ∧ p = .loaded n v
  | .u1 v => p = .no ∧ ∃ k' : Nat, v = k' ∧ hd = some k'
  | .u2 v x => p = .no ∧ x = 1 ∧ ∃ k' : Nat, v = k' ∧ hd = some k'

variable {c : Nat} {m m' : Mem Loc} {V V' : Nat → View Loc} {T L : Nat} {B : Int} {K : Nat} {hold : Nat → Option Nat} {o : OPh}
  {ph : Nat → TPh}

theorem OwnAt.mono {T' k : Nat} {hd : Option Nat} {q : OPc} (h : OwnAt c m T B k o K hd q) (hT : T ≤ T') (hQ : ∀ i, Q m' c i = Q m c i) :
    OwnAt c m' T' B k o K hd q := by
  cases q <;> simp only [OwnAt, hQ] at * <;> first | exact h | (obtain ⟨a, b, c, d, e⟩ := h; refine ⟨a, b, c, d, ?_⟩; first | omega | (exact ⟨by omega, e.2⟩))

theorem OwnAt.wrote {k k' : Nat} {f : Bool} {hd : Option Nat} {q : OPc} (h : OwnAt c m T B k (.wrote k' f) K hd q) : hd = some k' := by
  cases q <;> simp_all [OwnAt]

/-- The result of a step of the owner. -/
def OwnGoal (c tot : Nat) (V : Nat → View Loc) (hold : Nat → Option Nat) (ph : Nat → TPh) (k : Nat) (r : List OwnerOp) (q : OPc) :
    Eff Loc → Prop
  | .no => True
  | .race => False
  | .ok m' w' v => (Pc.own k r q).growing = false → ∃ T L B K hold' o, World c m' (upd V 0 w') T L B K hold' o ph ∧
      (∀ i, i ≠ 0 → hold' i = hold i) ∧ ∃ k' r' q', ownNext k r v q = .own k' r' q' ∧ L ≤ k' ∧ K + r'.count .push = tot ∧
      OwnAt c m' T B k' o K (hold' 0) q'

theorem slot_index (hc : PowTwo c) {b : Int} {s : Int} (hs : s = (c : Int) - 1) : b.toNat &&& s.toNat = b.toNat % c := by
  obtain ⟨e, rfl⟩ := hc
  have : s.toNat = 2 ^ e - 1 := by
    have := Nat.two_pow_pos e
    omega
  rw [this, Nat.and_two_pow_sub_one_eq_mod]

theorem last_bottom (h : World c m V T L B K hold o ph) {n : Nat} {x : Msg Loc} (hx : (m.msgs bt)[n]? = some x)
    (hn : (V 0).cur.seen bt ≤ n) : x.val = B := by
  obtain ⟨z, hz, hzB⟩ := h.sync.bot
  have h1 := (List.getElem?_eq_some_iff.1 hx).1
  have h2 := h.sync.bot_seen
  simp only [Sees] at h2
  rw [List.getLast?_eq_getElem?] at hz
  have : n = (m.msgs bt).length - 1 := by omega
  rw [this, hz] at hx
  rw [← Option.some.inj hx]; exact hzB

theorem last_slot {l : Loc} {w : View Loc} (h : Sees m w.cur l) {n : Nat} {x : Msg Loc} (hx : (m.msgs l)[n]? = some x)
    (hn : w.cur.seen l ≤ n) : x.val = lastVal m l := by
  have h1 := (List.getElem?_eq_some_iff.1 hx).1
  simp only [Sees] at h
  simp only [lastVal]
  rw [List.getLast?_eq_getElem?]
  have : n = (m.msgs l).length - 1 := by omega
  rw [← this, hx]

theorem top_index (h : World c m V T L B K hold o ph) {n : Nat} {x : Msg Loc} (hx : (m.msgs tp)[n]? = some x) :
    x.val = (n : Int) ∧ n ≤ T := by
  have h1 := (List.getElem?_eq_some_iff.1 hx).1
  have := h.sync.top_len
  exact ⟨h.sync.top_val n x hx, by omega⟩

/-- A step of the owner that only adds knowledge. -/
theorem World.ownSame (h : World c m V T L B K hold o ph) (hs : Same m m') {w : View Loc} (hw : (V 0).Le w)
    (ho : ∀ k f, o ≠ .wrote k f) : World c m' (upd V 0 w) T L B K hold o ph :=
  h.same hs (upd_le hw) fun k f e => (ho k f e).elim

theorem own_step (hc : PowTwo c) {tot k : Nat} {r : List OwnerOp} {q : OPc} (h : World c m V T L B K hold o ph)
    (hL : L ≤ k) (ht : K + r.count .push = tot) (hq : OwnAt c m T B k o K (hold 0) q) (hg : NotGrown m) {op : Op Loc}
    (hop : ownOp k r q = some op) (strong : Bool) (n : Nat) :
    OwnGoal c tot V hold ph k r q (exec strong 0 n op m (V 0)) := by
  cases q with
  | start =>
    obtain ⟨rfl, rfl, hh⟩ := hq
    rcases r with _ | ⟨_ | _, r⟩
    · cases hop
    · cases hop
      have hf := h.data.fresh K (Nat.le_refl _)
      obtain ⟨m', w', he, h1, h2, h3, h4, h5, h6, h7, h8⟩ := write_user strong 0 n K 1 m (V 0) (by rw [hf.2]; rfl)
      rw [he]
      intro _
      refine ⟨T, L, B, K + 1, _, _, h.prepare h1 h2 h3 h4 h5 h6 ?_ hh, fun i hi => upd_ne _ _ hi, K, r, .p1, rfl, hL, ?_, rfl, rfl,
        upd_self ..⟩
      · intro a ha
        rcases h8 a ha with ha | ha
        · rw [hf.2] at ha; cases ha
        · exact ha
      · simp at ht ⊢; omega
    · cases hop
      rcases load_cases strong 0 n .rlx bt m (V 0) with he | ⟨x, hx, hs, he⟩
      · rw [he]; trivial
      · rw [he]
        intro _
        exact ⟨T, L, B, K, hold, _, h.ownSame (.refl m) (View.le_got ..) (by simp), fun _ _ => rfl, K, r, .q2 x.val, rfl,
          hL, by simpa using ht, rfl, rfl, hh, last_bottom h hx hs⟩
  | p1 =>
    obtain ⟨rfl, rfl, hh⟩ := hq
    cases hop
    rcases load_cases strong 0 n .rlx bt m (V 0) with he | ⟨x, hx, hs, he⟩
    · rw [he]; trivial
    · rw [he]
      intro _
      exact ⟨T, L, B, k + 1, hold, _, h.ownSame (.refl m) (View.le_got ..) (by simp), fun _ _ => rfl, k, r, .p2 x.val, rfl,
        hL, ht, rfl, rfl, hh, last_bottom h hx hs⟩
  | p2 b =>
    obtain ⟨rfl, rfl, hh, rfl⟩ := hq
    cases hop
    rcases load_cases strong 0 n .acq tp m (V 0) with he | ⟨x, hx, hs, he⟩
    · rw [he]; trivial
    · rw [he]
      intro _
      have := top_index h hx
      exact ⟨T, L, b, k + 1, hold, _, h.ownSame (.refl m) (View.le_got ..) (by simp), fun _ _ => rfl, k, r, .p3 b x.val, rfl,
        hL, ht, rfl, rfl, hh, rfl, by omega, by omega⟩
  | p3 b t =>
    obtain ⟨rfl, rfl, hh, rfl, ht', ht0⟩ := hq
    cases hop
    rcases load_cases strong 0 n .rlx (.array 0) m (V 0) with he | ⟨x, hx, hs, he⟩
    · rw [he]; trivial
    · rw [he]
      intro _
      exact ⟨T, L, b, k + 1, hold, _, h.ownSame (.refl m) (View.le_got ..) (by simp), fun _ _ => rfl, k, r, .p4 b t x.val, rfl,
        hL, ht, rfl, rfl, hh, rfl, ht', ht0, h.arr.arr n x hx⟩
  | p4 b t a =>
    obtain ⟨rfl, rfl, hh, rfl, ht', ht0, rfl⟩ := hq
    cases hop
    obtain ⟨m', w', he, hs, hw⟩ := read_field strong 0 n (.cap 1) m (V 0) (by simp) h.arr.rcap
    rw [he]
    intro _
    have h' := h.ownSame hs hw (by simp)
    have hLB : (L : Int) = b := h.own
    rw [h.arr.cap]
    by_cases hfull : (c : Int) - 1 < b - t
    · exact ⟨T, L, b, k + 1, hold, _, h', fun _ _ => rfl, k, r, .g0 b t 1, if_pos hfull, hL, ht, rfl, rfl, hh, rfl, by omega⟩
    · exact ⟨T, L, b, k + 1, hold, .room, h'.turn (by simp) ⟨hLB, by omega⟩, fun _ _ => rfl, k, r, .p5 b 1, if_neg hfull, hL, ht, rfl, rfl, hh, rfl, rfl⟩
  | p5 b a =>
    obtain ⟨rfl, rfl, hh, rfl, rfl⟩ := hq
    cases hop
    obtain ⟨m', w', he, hs, hw⟩ := read_field strong 0 n (.data 1) m (V 0) (by simp) h.arr.rdata
    rw [he]
    intro _
    exact ⟨T, L, b, k + 1, hold, _, h.ownSame hs hw (by simp), fun _ _ => rfl, k, r, .p6 b 1, rfl, hL, ht, rfl, rfl, hh, rfl, rfl⟩
  | p6 b a =>
    obtain ⟨rfl, rfl, hh, rfl, rfl⟩ := hq
    cases hop
    obtain ⟨m', w', he, hs, hw⟩ := read_field strong 0 n (.mask 1) m (V 0) (by simp) h.arr.rmask
    rw [he]
    intro _
    exact ⟨T, L, b, k + 1, hold, _, h.ownSame hs hw (by simp), fun _ _ => rfl, k, r, .p7 b 1 _, rfl, hL, ht, rfl, rfl, hh, rfl, rfl,
      h.arr.mask⟩
  | p7 b a s =>
    obtain ⟨rfl, rfl, hh, rfl, rfl, hm⟩ := hq
    cases hop
    have hLB := h.own.1
    have hsl : Loc.cell 1 (b.toNat &&& s.toNat) = sl c L := by
      rw [slot_index hc hm]
      have : b.toNat = L := by omega
      rw [this]
    rw [hsl]
    obtain ⟨m', w', y, he, ha, hy, hw, hr, hseen, _⟩ := store_eq strong 0 n .rlx (sl c L) k m (V 0)
    rw [he]
    intro _
    exact ⟨T, L, b, k + 1, hold, _, h.slot ha hy hw hseen hh, fun _ _ => rfl, k, r, .p8 b, rfl, hL, ht, rfl, rfl, hh, rfl⟩
  | p8 b =>
    obtain ⟨rfl, rfl, hh, rfl⟩ := hq
    cases hop
    intro _
    exact ⟨T, L, b, k + 1, hold, _, h.release ⟨.refl _, .inr (.refl _)⟩ (.refl _), fun _ _ => rfl, k, r, .p9 b, rfl, hL, ht, rfl, rfl, hh, rfl⟩
  | p9 b =>
    obtain ⟨rfl, rfl, hh, rfl⟩ := hq
    cases hop
    obtain ⟨m', w', y, he, ha, hy, hw, hr, hseen, hk⟩ := store_eq strong 0 n .rlx bt (b + 1) m (V 0)
    rw [he]
    intro _
    exact ⟨T, L + 1, b + 1, k + 1, _, _, h.pushBottom ha (upd_le hw) (by rw [upd_self]; exact hseen) (hk rfl) hy hh,
      fun i hi => upd_ne _ _ hi, k + 1, r, .start, rfl, by omega, ht, rfl, rfl, upd_self ..⟩
  | g0 b t a =>
    obtain ⟨rfl, rfl, hh, rfl, hck⟩ := hq
    cases hop
    obtain ⟨m', w', he, hs, hw⟩ := read_field strong 0 n (.cap 1) m (V 0) (by simp) h.arr.rcap
    rw [he]
    intro _
    exact ⟨T, L, B, k + 1, hold, _, h.ownSame hs hw (by simp), fun _ _ => rfl, k, r, .g1 b t 1 _, rfl, hL, ht, rfl, rfl, hh, hck⟩
  | g1 b t a c' =>
    cases hop
    simp only [exec, hg ((k : Int) + 2) (by omega)]
    intro hgr
    cases hgr
  | gone => cases hop
  | q2 b =>
    obtain ⟨rfl, rfl, hh, rfl⟩ := hq
    cases hop
    rcases load_cases strong 0 n .rlx (.array 0) m (V 0) with he | ⟨x, hx, hs, he⟩
    · rw [he]; trivial
    · rw [he]
      intro _
      exact ⟨T, L, b, K, hold, _, h.ownSame (.refl m) (View.le_got ..) (by simp), fun _ _ => rfl, K, r, .q3 b x.val, rfl,
        hL, ht, rfl, rfl, hh, rfl, h.arr.arr n x hx⟩
  | q3 b a =>
    obtain ⟨rfl, rfl, hh, rfl, rfl⟩ := hq
    cases hop
    obtain ⟨m', w', y, he, ha, hy, hw, hr, hseen, hk⟩ := store_eq strong 0 n .rlx bt (b - 1) m (V 0)
    rw [he]
    intro _
    exact ⟨T, L, b - 1, K, _, _, h.popBottom ha (upd_le hw) (by rw [upd_self]; exact hseen) (hk rfl) hy,
      fun _ _ => rfl, K, r, .q4 b 1, rfl, hL, ht, rfl, rfl, hh, by omega, rfl⟩
  | q4 b a =>
    obtain ⟨rfl, rfl, hh, rfl, rfl⟩ := hq
    cases hop
    obtain ⟨m', w', he, hs, hw, h1, h2, h3⟩ := fence_eq strong 0 n m (V 0)
    rw [he]
    intro _
    exact ⟨T, L, B, K, _, _, h.fence hs hw (h1 bt) (h2 tp), fun _ _ => rfl, K, r, .q5 (B + 1) 1, rfl, hL, ht, rfl, rfl, hh, rfl, rfl⟩
  | q5 b a =>
    obtain ⟨rfl, rfl, hh, rfl, rfl⟩ := hq
    cases hop
    rcases load_cases strong 0 n .rlx tp m (V 0) with he | ⟨x, hx, hs, he⟩
    · rw [he]; trivial
    · rw [he]
      intro _
      obtain ⟨hv, hn⟩ := top_index h hx
      have hw := View.le_got (V 0) .rlx tp n x
      have hws := View.got_seen (V 0) .rlx tp n x
      by_cases hle : x.val ≤ B
      · have hif : ownNext K r x.val (.q5 (B + 1) 1) = .own K r (.q6 (B + 1) 1 x.val) := if_pos (by omega)
        by_cases heq : x.val = B
        · have h' := h.ownSame (.refl m) hw (by simp)
          exact ⟨T, L, B, K, hold, _, h'.popLast hn (by omega) (by rw [upd_self]; exact hws), fun _ _ => rfl, K, r, _, hif, hL, ht, rfl, rfl,
            rfl, by omega, .inl ⟨heq, rfl, hh⟩⟩
        · obtain ⟨k', hk', h'⟩ := h.popMore (i := n) (by omega) hs hh
          exact ⟨T, _, B, K, _, _, h'.ownSame (.refl m) hw (by simp), fun i hi => upd_ne _ _ hi, K, r, _, hif, by have := h.own.1; omega, ht, rfl, rfl,
            rfl, by omega, .inr ⟨heq, rfl, k', hk', upd_self ..⟩⟩
      · have hif : ownNext K r x.val (.q5 (B + 1) 1) = .own K r (.q11 (B + 1)) := if_neg (by omega)
        have h' := h.ownSame (.refl m) hw (by simp)
        exact ⟨T, L, B, K, hold, _, h'.popEmpty hn (by omega), fun _ _ => rfl, K, r, _, hif, hL, ht, rfl, rfl, rfl, hh⟩
  | q6 b a t =>
    obtain ⟨rfl, rfl, rfl, hB, hq⟩ := hq
    cases hop
    obtain ⟨m', w', he, hs, hw⟩ := read_field strong 0 n (.data 1) m (V 0) (by simp) h.arr.rdata
    rw [he]
    intro _
    refine ⟨T, L, B, K, hold, _, h.ownSame hs hw (by intro k f e; subst e; simp at hq), fun _ _ => rfl, K, r, .q7 (B + 1) 1 t, rfl, hL, ht, rfl,
      rfl, rfl, hB, ?_⟩
    rw [Q_eq hs.msgs]; exact hq
  | q7 b a t =>
    obtain ⟨rfl, rfl, rfl, hB, hq⟩ := hq
    cases hop
    obtain ⟨m', w', he, hs, hw⟩ := read_field strong 0 n (.mask 1) m (V 0) (by simp) h.arr.rmask
    rw [he]
    intro _
    refine ⟨T, L, B, K, hold, _, h.ownSame hs hw (by intro k f e; subst e; simp at hq), fun _ _ => rfl, K, r, .q8 (B + 1) 1 t _, rfl, hL, ht, rfl,
      rfl, rfl, hB, h.arr.mask, ?_⟩
    rw [Q_eq hs.msgs]; exact hq
  | q8 b a t s =>
    obtain ⟨rfl, rfl, rfl, hB, hm, hq⟩ := hq
    cases hop
    have hsl : Loc.cell 1 ((B + 1 - 1).toNat &&& s.toNat) = sl c B.toNat := by
      rw [slot_index hc hm]
      have : (B + 1 - 1).toNat = B.toNat := by omega
      rw [this]
    rw [hsl]
    rcases load_cases strong 0 n .rlx (sl c B.toNat) m (V 0) with he | ⟨x, hx, hs, he⟩
    · rw [he]; trivial
    · rw [he]
      intro _
      have hv : x.val = Q m c B.toNat := last_slot (h.data.slots _ (Nat.mod_lt _ h.cpos)).2 hx hs
      have h' := h.ownSame (.refl m) (View.le_got (V 0) .rlx (sl c B.toNat) n x) (by intro k f e; subst e; simp at hq)
      rcases hq with ⟨rfl, rfl, hh⟩ | ⟨hne, rfl, k', hk', hh⟩
      · exact ⟨T, L, t, K, hold, _, h', fun _ _ => rfl, K, r, .q9 (t + 1) t x.val, if_pos (by omega), hL, ht, rfl, rfl, hB, rfl, rfl, hh, hv⟩
      · exact ⟨T, L, B, K, hold, _, h', fun _ _ => rfl, K, r, .u1 x.val, if_neg (by omega), hL, ht, rfl, rfl, k', by omega, hh⟩
  | q9 b t v =>
    obtain ⟨rfl, rfl, hB, rfl, rfl, hh, rfl⟩ := hq
    cases hop
    obtain ⟨b1, b2, b3, b4⟩ := h.own
    rcases cas_cases strong 0 n t m (V 0) with he | ⟨m', w', x, he, hx, hs, hne, hsm, hw⟩ | ⟨m', w', y, x, he, hx, hn, hv, hy, ha, hw⟩
    · rw [he]; trivial
    · rw [he]
      intro _
      have := top_index h hx
      have h' := h.ownSame hsm hw (by simp)
      exact ⟨T, L, t, K, hold, _, h'.lose (by omega), fun _ _ => rfl, K, r, .q10 (t + 1) t _ x.val, rfl, hL, ht, rfl, rfl, rfl,
        .inr ⟨hne, hh⟩⟩
    · rw [he]
      intro _
      have h3 := h.sync.top_len
      have h4 := top_index h hx
      have hT : (T : Int) = t := by omega
      obtain ⟨k', hk', h'⟩ := h.win ha hT (by omega) hh hw
      have : t.toNat = T := by omega
      exact ⟨T + 1, L, t, K, _, _, h', fun i hi => upd_ne _ _ hi, K, r, .q10 (t + 1) t _ t, rfl, hL, ht, rfl, rfl, rfl,
        .inl ⟨rfl, k', by rw [this]; exact hk', upd_self ..⟩⟩
  | q10 b t v old =>
    obtain ⟨rfl, rfl, rfl, hq⟩ := hq
    cases hop
    obtain ⟨m', w', y, he, ha, hy, hw, hr, hseen, hk⟩ := store_eq strong 0 n .rlx bt (B + 1 - 1 + 1) m (V 0)
    rw [he]
    intro _
    have h' := h.restore ha (upd_le hw) (by rw [upd_self]; exact hseen) (hk rfl) (by omega)
    rcases hq with ⟨rfl, k', hk', hh⟩ | ⟨hne, hh⟩
    · exact ⟨T, L, B + 1, K, hold, _, h', fun _ _ => rfl, K, r, .u1 v, if_pos rfl, hL, ht, rfl, rfl, k', hk', hh⟩
    · exact ⟨T, L, B + 1, K, hold, _, h', fun _ _ => rfl, K, r, .start, if_neg hne, hL, ht, rfl, rfl, hh⟩
  | q11 b =>
    obtain ⟨rfl, rfl, rfl, hh⟩ := hq
    cases hop
    obtain ⟨m', w', y, he, ha, hy, hw, hr, hseen, hk⟩ := store_eq strong 0 n .rlx bt (B + 1 - 1 + 1) m (V 0)
    rw [he]
    intro _
    have h' := h.restore ha (upd_le hw) (by rw [upd_self]; exact hseen) (hk rfl) (by omega)
    exact ⟨T, L, B + 1, K, hold, _, h', fun _ _ => rfl, K, r, .start, rfl, hL, ht, rfl, rfl, hh⟩
  | u1 v =>
    obtain ⟨rfl, rfl, k', rfl, hh⟩ := hq
    cases hop
    obtain ⟨a1, a2, a3⟩ := h.data.held 0 k' hh
    obtain ⟨m', w', he, h1, h2, h4, h5, h6, h7, h8⟩ := read_user strong 0 n k' m (V 0) (no_clash a3)
    show OwnGoal _ _ _ _ _ _ _ _ (exec strong 0 n (.read (.user k')) m (V 0))
    rw [he]
    intro _
    have h' := h.touch h1 (by rw [h2]; exact a2) (fun l _ => by rw [h2]) h4 h5 h6 h7 h8 hh (by simp) (.inl ⟨rfl, rfl⟩)
    exact ⟨T, L, B, K, _, _, h', fun i hi => upd_ne _ _ hi, K, r, .u2 k' _, rfl, hL, ht, rfl, rfl, a2, k', rfl, upd_self ..⟩
  | u2 v x =>
    obtain ⟨rfl, rfl, rfl, k', rfl, hh⟩ := hq
    cases hop
    obtain ⟨a1, a2, a3⟩ := h.data.held 0 k' hh
    obtain ⟨m', w', he, h1, h2, h3, h4, h5, h6, h7, h8⟩ := write_user strong 0 n k' (1 + 1) m (V 0) (no_clash a3)
    show OwnGoal _ _ _ _ _ _ _ _ (exec strong 0 n (.write (.user k') (1 + 1)) m (V 0))
    rw [he]
    intro _
    have h' := h.touch h1 h2 h3 h4 h5 h6 h7 h8 hh (by simp) (.inr ⟨rfl, rfl⟩)
    exact ⟨T, L, B, K, _, _, h', fun i hi => upd_ne _ _ hi, K, r, .start, rfl, hL, ht, rfl, rfl, upd_self ..⟩

/-- The result of a step of thief `r`. -/
def ThfGoal (c : Nat) (m : Mem Loc) (V : Nat → View Loc) (T L : Nat) (B : Int) (K : Nat) (hold : Nat → Option Nat) (o : OPh) (ph : Nat → TPh)
    (r n : Nat) (q : TPc) : Eff Loc → Prop
  | .no => True
  | .race => False
  | .ok m' w' v => ∃ T' hold' ph', World c m' (upd V r w') T' L B K hold' o ph' ∧ T ≤ T' ∧ (∀ i, Q m' c i = Q m c i) ∧
      (∀ i, i ≠ r → hold' i = hold i ∧ ph' i = ph i) ∧ ∃ n' q', thfNext n v q = .thf n' q' ∧ ThfAt c (ph' r) (hold' r) q'

theorem World.thfSame (h : World c m V T L B K hold o ph) (hs : Same m m') {r : Nat} (hr : r ≠ 0) {w : View Loc} (hw : (V r).Le w) :
    World c m' (upd V r w) T L B K hold o ph := by
  refine h.same hs (upd_le hw) fun k f e _ => ?_
  rw [upd_ne _ _ (Ne.symm hr)]
  exact .refl _

theorem thf_step (hc : PowTwo c) {r n : Nat} (hr : r ≠ 0) {q : TPc} (h : World c m V T L B K hold o ph)
    (hq : ThfAt c (ph r) (hold r) q) (hwr : ∀ k f, o = .wrote k f → hold 0 = some k) {op : Op Loc}
    (hop : thfOp n q = some op) (strong : Bool) (ch : Nat) :
    ThfGoal c m V T L B K hold o ph r n q (exec strong r ch op m (V r)) := by
  have h0 : ∀ w, upd V r w 0 = V 0 := fun w => upd_ne _ _ (Ne.symm hr)
  cases q with
  | start =>
    obtain ⟨hp, hh⟩ := hq
    cases n with
    | zero => cases hop
    | succ n =>
      cases hop
      rcases load_cases strong r ch .acq tp m (V r) with he | ⟨x, hx, hs, he⟩
      · rw [he]; trivial
      · rw [he]
        obtain ⟨hv, hn⟩ := top_index h hx
        have h' := h.thfSame (.refl m) hr (View.le_got (V r) .acq tp ch x)
        refine ⟨T, hold, _, h'.phase (r := r) (p := .saw ch) ⟨hn, ?_⟩, Nat.le_refl _, fun _ => rfl, fun i hi => ⟨rfl, upd_ne _ _ hi⟩,
          n, .s1 x.val, rfl, hh, ch, hv, upd_self ..⟩
        rw [upd_self]; exact View.got_seen ..
  | s1 t =>
    obtain ⟨hh, i, rfl, hp⟩ := hq
    cases hop
    obtain ⟨m', w', he, hs, hw, h1, h2, h3⟩ := fence_eq strong r ch m (V r)
    rw [he]
    exact ⟨T, hold, _, h.fenceThief hs hr hp hw (h1 tp) (h3 bt), Nat.le_refl _, Q_eq hs.msgs, fun i hi => ⟨rfl, upd_ne _ _ hi⟩,
      n, .s2 i, rfl, hh, i, rfl, upd_self ..⟩
  | s2 t =>
    obtain ⟨hh, i, rfl, hp⟩ := hq
    cases hop
    have hf := h.thf r hr
    rw [hp] at hf
    obtain ⟨f1, f2, f3, f4⟩ := hf
    rcases load_cases strong r ch .acq bt m (V r) with he | ⟨x, hx, hs, he⟩
    · rw [he]; trivial
    · rw [he]
      have h' := h.thfSame (.refl m) hr (View.le_got (V r) .acq bt ch x)
      by_cases hlt : (i : Int) < x.val
      · refine ⟨T, hold, _, h'.phase (r := r) (p := .ready i) ⟨f1, f2, fun hT => ?_, fun ho => ?_⟩, Nat.le_refl _, fun _ => rfl,
          fun i hi => ⟨rfl, upd_ne _ _ hi⟩, n, .s3 i, if_pos hlt, hh, i, rfl, upd_self ..⟩
        · obtain ⟨g1, g2⟩ := f3 hT ch x hs hx hlt
          refine ⟨g1, ?_⟩
          rw [upd_self]
          exact g2.mono (View.got_acq _ rfl ..)
        · rw [h0]
          rcases f4 ho with f4 | f4
          · exact .inl f4
          · right
            have e1 : x.val = lastVal m bt := last_slot f4 hx hs
            obtain ⟨z, hz, hzB⟩ := h.sync.bot
            have e2 : lastVal m bt = B := by simp only [lastVal, hz]; exact hzB
            omega
      · refine ⟨T, hold, _, h'.phase (r := r) (p := .no) trivial, Nat.le_refl _, fun _ => rfl,
          fun i hi => ⟨rfl, upd_ne _ _ hi⟩, n, .start, if_neg hlt, upd_self .., hh⟩
  | s3 t =>
    obtain ⟨hh, i, rfl, hp⟩ := hq
    cases hop
    rcases load_cases strong r ch .acq (.array 0) m (V r) with he | ⟨x, hx, hs, he⟩
    · rw [he]; trivial
    · rw [he]
      exact ⟨T, hold, ph, h.thfSame (.refl m) hr (View.le_got ..), Nat.le_refl _, fun _ => rfl,
          fun i hi => ⟨rfl, rfl⟩, n, .s4 i x.val, rfl, hh, h.arr.arr ch x hx, i, rfl, hp⟩
  | s4 t a =>
    obtain ⟨hh, rfl, i, rfl, hp⟩ := hq
    cases hop
    obtain ⟨m', w', he, hs, hw⟩ := read_field strong r ch (.data 1) m (V r) (by simp) h.arr.rdata
    rw [he]
    exact ⟨T, hold, ph, h.thfSame hs hr hw, Nat.le_refl _, Q_eq hs.msgs, fun i hi => ⟨rfl, rfl⟩, n, .s5 i 1, rfl, hh, rfl, i, rfl, hp⟩
  | s5 t a =>
    obtain ⟨hh, rfl, i, rfl, hp⟩ := hq
    cases hop
    obtain ⟨m', w', he, hs, hw⟩ := read_field strong r ch (.mask 1) m (V r) (by simp) h.arr.rmask
    rw [he]
    exact ⟨T, hold, ph, h.thfSame hs hr hw, Nat.le_refl _, Q_eq hs.msgs, fun i hi => ⟨rfl, rfl⟩, n, .s6 i 1 _, rfl, hh, rfl, h.arr.mask, i,
      rfl, hp⟩
  | s6 t a s =>
    obtain ⟨hh, rfl, hm, i, rfl, hp⟩ := hq
    cases hop
    have hf := h.thf r hr
    rw [hp] at hf
    obtain ⟨f1, f2, f3, f4⟩ := hf
    have hsl : Loc.cell 1 ((i : Int).toNat &&& s.toNat) = sl c i := by
      rw [slot_index hc hm]; rfl
    rw [hsl]
    rcases load_cases strong r ch .rlx (sl c i) m (V r) with he | ⟨x, hx, hs, he⟩
    · rw [he]; trivial
    · rw [he]
      have hw := View.le_got (V r) .rlx (sl c i) ch x
      have h' := h.thfSame (.refl m) hr hw
      refine ⟨T, hold, _, h'.phase (r := r) (p := .loaded i x.val) ⟨f1, f2, fun hT => ?_, fun ho => ?_⟩, Nat.le_refl _, fun _ => rfl,
          fun i hi => ⟨rfl, upd_ne _ _ hi⟩, n, .s7 i x.val, rfl, hh, i, rfl, upd_self ..⟩
      · obtain ⟨g1, g2⟩ := f3 hT
        rw [upd_self]
        exact ⟨g1, g2.mono hw.cur, last_slot g2.1 hx hs⟩
      · rw [h0]; exact f4 ho
  | s7 t v =>
    obtain ⟨hh, i, rfl, hp⟩ := hq
    cases hop
    rcases cas_cases strong r ch i m (V r) with he | ⟨m', w', x, he, hx, hs, hne, hsm, hw⟩ | ⟨m', w', y, x, he, hx, hn, hv, hy, ha, hw⟩
    · rw [he]; trivial
    · rw [he]
      exact ⟨T, hold, _, (h.thfSame hsm hr hw).phase (r := r) (p := .no) trivial, Nat.le_refl _, Q_eq hsm.msgs,
          fun i hi => ⟨rfl, upd_ne _ _ hi⟩, n, .start, if_neg hne, upd_self .., hh⟩
    · rw [he]
      have h3 := h.sync.top_len
      have h4 := top_index h hx
      have hT : T = i := by omega
      obtain ⟨k', hk', h'⟩ := h.steal ha hr hp hT (by omega) hh hw
      exact ⟨T + 1, _, _, h', by omega, fun i => Q_congr (ha.other _ (by simp)), fun i hi => ⟨upd_ne _ _ hi, upd_ne _ _ hi⟩, n, .u1 v,
        if_pos rfl, upd_self .., k', hk', upd_self ..⟩
  | u1 v =>
    obtain ⟨hp, k', rfl, hh⟩ := hq
    cases hop
    obtain ⟨a1, a2, a3⟩ := h.data.held r k' hh
    obtain ⟨m', w', he, h1, h2, h4, h5, h6, h7, h8⟩ := read_user strong r ch k' m (V r) (no_clash a3)
    show ThfGoal _ _ _ _ _ _ _ _ _ _ _ _ _ (exec strong r ch (.read (.user k')) m (V r))
    rw [he]
    have h' := h.touch h1 (by rw [h2]; exact a2) (fun l _ => by rw [h2]) h4 h5 h6 h7 h8 hh
      (fun k f e e' => hr (h.data.held_inj _ _ _ hh (e' ▸ hwr k f e))) (.inl ⟨rfl, rfl⟩)
    exact ⟨T, _, ph, h', Nat.le_refl _, Q_eq h1, fun i hi => ⟨upd_ne _ _ hi, rfl⟩, n, .u2 k' _, rfl, hp, a2, k', rfl, upd_self ..⟩
  | u2 v x =>
    obtain ⟨hp, rfl, k', rfl, hh⟩ := hq
    cases hop
    obtain ⟨a1, a2, a3⟩ := h.data.held r k' hh
    obtain ⟨m', w', he, h1, h2, h3, h4, h5, h6, h7, h8⟩ := write_user strong r ch k' (1 + 1) m (V r) (no_clash a3)
    show ThfGoal _ _ _ _ _ _ _ _ _ _ _ _ _ (exec strong r ch (.write (.user k') (1 + 1)) m (V r))
    rw [he]
    have h' := h.touch h1 h2 h3 h4 h5 h6 h7 h8 hh (fun k f e e' => hr (h.data.held_inj _ _ _ hh (e' ▸ hwr k f e))) (.inr ⟨rfl, rfl⟩)
    exact ⟨T, _, ph, h', Nat.le_refl _, Q_eq h1, fun i hi => ⟨upd_ne _ _ hi, rfl⟩, n, .start, rfl, hp, upd_self ..⟩

/-! ## All threads -/

/-- The invariant; the owner pushes `tot` times in all. -/
def Inv (c tot : Nat) (s : St Loc Pc) : Prop :=
  ∃ T L B K hold o ph, World c s.mem s.view T L B K hold o ph ∧
    (∃ k r q, s.th 0 = .own k r q ∧ L ≤ k ∧ K + r.count .push = tot ∧ OwnAt c s.mem T B k o K (hold 0) q) ∧
    ∀ i, i ≠ 0 → ∃ n q, s.th i = .thf n q ∧ ThfAt c (ph i) (hold i) q

theorem Inv.step (hc : PowTwo c) {tot : Nat} {s : St Loc Pc} (h : Inv c tot s) (hg : NotGrown s.mem) (strong : Bool) (t ch : Nat) :
    s.step pcAuto strong t ch ≠ .race ∧
    ∀ s', s.step pcAuto strong t ch = .ok s' → (s.th t).growing = false → Inv c tot s' := by
  obtain ⟨T, L, B, K, hold, o, ph, hw, ⟨k, r, q, hth, hLk, htot, hat⟩, hthf⟩ := h
  simp only [St.step]
  cases hop : pcAuto.op (s.th t) with
  | none => exact ⟨by simp, by simp⟩
  | some op =>
    simp only
    by_cases ht : t = 0
    · subst ht
      rw [hth] at hop
      have hs := own_step hc hw hLk htot hat hg hop strong ch
      cases he : exec strong 0 ch op s.mem (s.view 0) with
      | no => exact ⟨by simp, by simp⟩
      | race => rw [he] at hs; exact hs.elim
      | ok m' w' v =>
        rw [he] at hs
        refine ⟨by simp, ?_⟩
        intro s' e hgr
        simp only [Out.ok.injEq] at e
        subst e
        rw [hth] at hgr
        obtain ⟨T', L', B', K', hold', o', hw', hhold, k', r', q', hn, hL', ht', hat'⟩ := hs hgr
        refine ⟨T', L', B', K', hold', o', ph, hw', ⟨k', r', q', ?_, hL', ht', hat'⟩, ?_⟩
        · show (if (0 : Nat) = 0 then pcAuto.next (s.th 0) v else s.th 0) = _
          rw [if_pos rfl, hth]; exact hn
        · intro i hi
          show ∃ n q, (if i = 0 then pcAuto.next (s.th 0) v else s.th i) = _ ∧ _
          rw [if_neg hi, hhold i hi]; exact hthf i hi
    · obtain ⟨n, q', hth', hat'⟩ := hthf t ht
      rw [hth'] at hop
      have hwr : ∀ k f, o = .wrote k f → hold 0 = some k := by
        intro k f e; subst e; exact hat.wrote
      have hs := thf_step hc ht hw hat' hwr hop strong ch
      cases he : exec strong t ch op s.mem (s.view t) with
      | no => exact ⟨by simp, by simp⟩
      | race => rw [he] at hs; exact hs.elim
      | ok m' w' v =>
        rw [he] at hs
        refine ⟨by simp, ?_⟩
        intro s' e hgr
        simp only [Out.ok.injEq] at e
        subst e
        obtain ⟨T', hold', ph', hw', hT', hQ, hrest, n', q'', hn, hat''⟩ := hs
        refine ⟨T', L, B, K, hold', o, ph', hw', ⟨k, r, q, ?_, hLk, htot, ?_⟩, ?_⟩
        · show (if 0 = t then pcAuto.next (s.th t) v else s.th 0) = _
          rw [if_neg (Ne.symm ht)]; exact hth
        · rw [(hrest 0 (Ne.symm ht)).1]; exact hat.mono hT' hQ
        · intro i hi
          show ∃ n q, (if i = t then pcAuto.next (s.th t) v else s.th i) = _ ∧ _
          by_cases e : i = t
          · subst e
            rw [if_pos rfl, hth']
            exact ⟨n', q'', hn, hat''⟩
          · rw [if_neg e, (hrest i e).1, (hrest i e).2]; exact hthf i hi

/-- The start of the automaton. -/
def pcStart (c : Nat) (ops : List OwnerOp) (n : Nat → Nat) : St Loc Pc :=
  .init (initial c) fun t => if t = 0 then .own 0 ops .start else .thf (n t) .start

theorem Inv.init (hc : PowTwo c) (ops : List OwnerOp) (n : Nat → Nat) : Inv c (pushes ops) (pcStart c ops n) := by
  refine ⟨0, 0, 0, 0, fun _ => none, .calm, fun _ => .no, ⟨hc.pos, ?_, ?_, ?_, rfl, fun _ _ => trivial⟩,
    ⟨0, ops, .start, rfl, Nat.le_refl _, Nat.zero_add _, rfl, rfl, rfl⟩, fun i hi => ⟨n i, .start, if_neg hi, rfl, rfl⟩⟩
  · refine ⟨?_, rfl, rfl, ?_, ?_, ?_⟩
    · intro i x hx
      cases i with
      | zero => cases hx; rfl
      | succ i => cases hx
    all_goals intro a ha; cases ha
  · refine ⟨rfl, ?_, ⟨_, rfl, rfl⟩, Nat.le_refl _, Nat.le_refl _, by omega, fun i h1 h2 => by omega, .inl (by omega), ?_⟩
    · intro i x hx
      cases i with
      | zero => cases hx; rfl
      | succ i => cases hx
    · intro i h1 j x hj hx hlt
      cases j with
      | zero => cases hx; exact absurd hlt (by show ¬ (i : Int) < 0; omega)
      | succ j => cases hx
  · refine ⟨fun j hj => ⟨by simp [pcStart, St.init, Mem.init], Nat.le_refl _⟩, fun k a ha => (by cases ha), fun i h1 h2 => by omega,
      fun i j h1 h2 => by omega, fun r k hk => (by cases hk), fun r r' k hk => (by cases hk), fun k hk => by omega,
      fun k _ => ⟨rfl, rfl⟩⟩

/-! ## The programs -/

theorem accs_grow {S : Type} {A : Auto Loc S} {strong : Bool} {s s' : St Loc S} {t ch : Nat} (h : s.step A strong t ch = .ok s') (l : Loc) :
    s.mem.accs l ≠ [] → s'.mem.accs l ≠ [] := by
  simp only [St.step] at h
  split at h
  · cases h
  · rename_i op _
    split at h
    · cases h
    · cases h
    · rename_i m w v he
      cases h
      have hacc : ∀ (m : Mem Loc) (w : View Loc) (l' : Loc) (wr : Bool), m.accs l ≠ [] → (access t l' wr m w).1.accs l ≠ [] := by
        intro m w l' wr hne
        simp only [access]
        split
        · simp
        · exact hne
      intro hne
      show m.accs l ≠ []
      have hrmw : ∀ {n o l' f m1 w1 m2 w2 v}, execRmw n o l' f m1 w1 = Eff.ok m2 w2 v → m2.accs l = m1.accs l := by
        intro n o l' f m1 w1 m2 w2 v h
        simp only [execRmw] at h
        split at h
        · cases h
        · split at h
          · split at h
            · cases h; rfl
            · split at h
              · cases h; rfl
              · cases h
          · cases h
      cases op with
      | load o l' =>
        simp only [exec] at he
        split at he
        · cases he
        · split at he
          · cases he; exact hne
          · cases he
      | store o l' v => cases he; exact hne
      | rmw o l' f =>
        simp only [exec] at he
        split at he
        · split at he
          · rename_i m1 w1 v1 h1
            cases he
            show m1.accs l ≠ []
            rw [hrmw h1]; exact hne
          · rename_i hno
            exact (hno _ _ _ he).elim
        · rw [hrmw he]; exact hne
      | fence o => cases o <;> cases he <;> exact hne
      | read l' =>
        simp only [exec] at he
        split at he
        · cases he
        · cases he; exact hacc _ _ _ _ hne
      | write l' v =>
        simp only [exec] at he
        split at he
        · cases he
        · cases he; exact hacc _ _ _ _ hne

/-- The step at which the growing begins. -/
theorem growing_step {strong : Bool} {s s' : St Loc Pc} {t ch : Nat} (h : s.step pcAuto strong t ch = .ok s') (hg : (s.th t).growing = true) :
    ¬ NotGrown s'.mem := by
  intro hn
  cases hth : s.th t with
  | thf n q => rw [hth] at hg; cases hg
  | own k r q =>
    rw [hth] at hg
    cases q <;> try cases hg
    rename_i b t' a c'
    simp only [St.step, hth] at h
    have := hn ((k : Int) + 2) (by omega)
    revert h
    simp only [pcAuto, ownOp, exec]
    split
    · rename_i he
      split at he <;> cases he
    · intro h; cases h
    · rename_i m w v he
      split at he
      · cases he
      · cases he
        intro h
        cases h
        simp only [access, if_true] at this
        exact absurd this (by simp)

/-- The state of the programs that corresponds to a state of the automaton. -/
def St.code (s : St Loc Pc) : St Loc (Prog Loc Unit) := ⟨s.mem, fun t => (s.th t).code, s.view⟩

theorem code_step {strong : Bool} {s : St Loc Pc} {t ch : Nat} :
    (s.code.step (Prog.auto Loc) strong t ch = .race → s.step pcAuto strong t ch = .race) ∧
    ∀ s1, s.code.step (Prog.auto Loc) strong t ch = .ok s1 → ∃ s', s.step pcAuto strong t ch = .ok s' ∧ s1.mem = s'.mem ∧
      ((s.th t).growing = false → s1 = s'.code) := by
  simp only [St.step, St.code, code_op]
  cases hop : pcAuto.op (s.th t) with
  | none => exact ⟨by simp, by simp⟩
  | some op =>
    simp only
    cases he : exec strong t ch op s.mem (s.view t) with
    | no => exact ⟨by simp, by simp⟩
    | race => exact ⟨by simp, by simp⟩
    | ok m' w' v =>
      refine ⟨by simp, ?_⟩
      intro s1 e
      cases e
      refine ⟨_, rfl, rfl, fun hg => ?_⟩
      congr 1
      funext i
      by_cases e : i = t
      · subst e
        simp only [if_true]
        exact code_next _ _ hop hg
      · simp only [if_neg e]

theorem start_code (c : Nat) (ops : List OwnerOp) (n : Nat → Nat) : dequeStart c ops n = (pcStart c ops n).code := by
  simp only [dequeStart, pcStart, St.init, St.code]
  congr 1
  funext t
  simp only [dequeThreads]
  split <;> rfl

theorem deque_inv (hc : PowTwo c) {strong : Bool} {ops : List OwnerOp} {n : Nat → Nat} {s : St Loc (Prog Loc Unit)}
    (h : Reach (Prog.auto Loc) strong (dequeStart c ops n) s) (hg : NotGrown s.mem) :
    ∃ s', s = s'.code ∧ Inv c (pushes ops) s' := by
  induction h with
  | init => exact ⟨_, start_code c ops n, Inv.init hc ops n⟩
  | @step s s1 t ch _ hs ih =>
    have hg0 : NotGrown s.mem := by
      intro a ha
      by_cases e : s.mem.accs (.cap a) = []
      · exact e
      · exact absurd (hg a ha) (accs_grow hs _ e)
    obtain ⟨s', rfl, hi⟩ := ih hg0
    obtain ⟨s2, h1, h2, h3⟩ := (code_step (s := s')).2 s1 hs
    have hng : (s'.th t).growing = false := by
      cases e : (s'.th t).growing with
      | false => rfl
      | true => exact absurd (h2 ▸ hg) (growing_step h1 e)
    exact ⟨s2, h3 hng, (hi.step hc hg0 strong t ch).2 s2 h1 hng⟩

/-- Accesses are made by `read` and `write`. -/
theorem exec_accs {strong : Bool} {t ch : Nat} {op : Op Loc} {m m' : Mem Loc} {w w' : View Loc} {v : Int}
    (h : exec strong t ch op m w = .ok m' w' v) (l : Loc) (h1 : op ≠ .read l) (h2 : ∀ z, op ≠ .write l z) : m'.accs l = m.accs l := by
  have hrmw : ∀ {n o l' f m1 w1 m2 w2 v}, execRmw n o l' f m1 w1 = Eff.ok m2 w2 v → m2.accs l = m1.accs l := by
    intro n o l' f m1 w1 m2 w2 v h
    simp only [execRmw] at h
    split at h
    · cases h
    · split at h
      · split at h
        · cases h; rfl
        · split at h
          · cases h; rfl
          · cases h
      · cases h
  cases op with
  | load o l' =>
    simp only [exec] at h
    split at h
    · cases h
    · split at h
      · cases h; rfl
      · cases h
  | store o l' v => cases h; rfl
  | rmw o l' f =>
    simp only [exec] at h
    split at h
    · split at h
      · rename_i m1 w1 v1 h1
        cases h
        show m1.accs l = _
        rw [hrmw h1]; rfl
      · rename_i hno
        exact (hno _ _ _ h).elim
    · exact hrmw h
  | fence o => cases o <;> cases h <;> rfl
  | read l' =>
    have hl : l ≠ l' := by intro e; subst e; exact h1 rfl
    simp only [exec] at h
    split at h
    · cases h
    · cases h
      simp only [access, if_neg hl]
  | write l' z =>
    have hl : l ≠ l' := by intro e; subst e; exact h2 z rfl
    simp only [exec] at h
    split at h
    · cases h
    · cases h
      simp only [access, if_neg hl]

/-- A queue to which no more is pushed than fits never grows. -/
theorem small_never_grows (hc : PowTwo c) {strong : Bool} {ops : List OwnerOp} {n : Nat → Nat} (hp : pushes ops ≤ c)
    {s : St Loc (Prog Loc Unit)} (h : Reach (Prog.auto Loc) strong (dequeStart c ops n) s) : NotGrown s.mem := by
  induction h with
  | init => intro a _; rfl
  | @step s s1 t ch hr hs ih =>
    obtain ⟨s', rfl, hi⟩ := deque_inv hc hr ih
    obtain ⟨s2, h1, h2, _⟩ := (code_step (s := s')).2 s1 hs
    rw [h2]
    intro a ha
    refine Eq.trans ?_ (ih a ha)
    show s2.mem.accs (.cap a) = s'.mem.accs (.cap a)
    obtain ⟨T, L, B, K, hold, o, ph, hw, ⟨k, r, q, hth, hLk, htot, hat⟩, hthf⟩ := hi
    simp only [St.step] at h1
    cases hop : pcAuto.op (s'.th t) with
    | none => rw [hop] at h1; cases h1
    | some op =>
      rw [hop] at h1
      simp only at h1
      cases he : exec strong t ch op s'.mem (s'.view t) with
      | no => rw [he] at h1; cases h1
      | race => rw [he] at h1; cases h1
      | ok m' w' v =>
        rw [he] at h1
        cases h1
        show m'.accs (.cap a) = _
        by_cases ht : t = 0
        · subst ht
          rw [hth] at hop
          cases q with
          | start => rcases r with _ | ⟨_ | _, r⟩ <;> cases hop <;> exact exec_accs he _ (by simp) (by simp)
          | p4 b t' a' =>
            obtain ⟨_, _, _, _, _, _, rfl⟩ := hat
            cases hop
            exact exec_accs he _ (by simpa using Ne.symm ha) (by simp)
          | g0 b t' a' =>
            obtain ⟨_, _, _, rfl, _⟩ := hat
            cases hop
            exact exec_accs he _ (by simpa using Ne.symm ha) (by simp)
          | g1 => obtain ⟨_, h3, _, h4⟩ := hat; omega
          | gone => exact hat.elim
          | _ => cases hop; exact exec_accs he _ (by simp [casTop]) (by simp [casTop])
        · obtain ⟨n', q', e, hat'⟩ := hthf t ht
          rw [e] at hop
          cases q' with
          | start => cases n' <;> cases hop <;> exact exec_accs he _ (by simp) (by simp)
          | _ => cases hop; exact exec_accs he _ (by simp [casTop]) (by simp [casTop])

/-- No race, each item received at most once, none lost. -/
theorem deque_sound (hc : PowTwo c) {strong : Bool} {ops : List OwnerOp} {n : Nat → Nat} {s : St Loc (Prog Loc Unit)}
    (h : Reach (Prog.auto Loc) strong (dequeStart c ops n) s) (hg : NotGrown s.mem) :
    (∀ t ch, s.step (Prog.auto Loc) strong t ch ≠ .race) ∧
    (∀ k, s.mem.cell (.user k) = 0 ∨ s.mem.cell (.user k) = 1 ∨ s.mem.cell (.user k) = 2) ∧
    ((∀ t, (Prog.auto Loc).op (s.th t) = none) → ∃ T B : Nat, (s.mem.msgs tp).length = T + 1 ∧
      ((s.mem.msgs bt).getLast?.map Msg.val) = some (B : Int) ∧ T ≤ B ∧ B ≤ T + c ∧
      (∀ k, k < pushes ops → s.mem.cell (.user k) = 2 ∨
        s.mem.cell (.user k) = 1 ∧ ∃ i, T ≤ i ∧ i < B ∧ ((s.mem.msgs (.cell 1 (i % c))).getLast?.map Msg.val) = some (k : Int)) ∧
      ∀ i, T ≤ i → i < B → ∃ k, k < pushes ops ∧ ((s.mem.msgs (.cell 1 (i % c))).getLast?.map Msg.val) = some (k : Int) ∧
        s.mem.cell (.user k) = 1) := by
  obtain ⟨s', rfl, hi⟩ := deque_inv hc h hg
  refine ⟨fun t ch e => (hi.step hc hg strong t ch).1 (code_step.1 e), ?_⟩
  obtain ⟨T, L, B, K, hold, o, ph, hw, ⟨k, r, q, hth, hLk, htot, hat⟩, hthf⟩ := hi
  have hcases : ∀ k, s'.mem.cell (.user k) = 0 ∨ s'.mem.cell (.user k) = 1 ∨ s'.mem.cell (.user k) = 2 := by
    intro k
    by_cases hk : K ≤ k
    · exact .inl (hw.data.fresh k hk).1
    · by_cases h1 : ∃ i, T ≤ i ∧ i < L ∧ Q s'.mem c i = (k : Int)
      · obtain ⟨i, a, b, d⟩ := h1
        obtain ⟨k', q1, q2, q3, q4⟩ := hw.data.queued i a b
        have : k' = k := by omega
        subst this
        exact .inr (.inl q3)
      · by_cases h2 : ∃ r, hold r = some k
        · obtain ⟨r, hr⟩ := h2
          exact .inr (.inl (hw.data.held r k hr).2.1)
        · exact .inr (.inr (hw.data.used k (by omega) (fun i a b e => h1 ⟨i, a, b, e⟩) fun r e => h2 ⟨r, e⟩))
  refine ⟨hcases, fun hidle => ?_⟩
  have hq : q = .start ∧ r = [] := by
    have h0 : pcAuto.op (s'.th 0) = none := by rw [← code_op]; exact hidle 0
    rw [hth] at h0
    cases q <;> simp only [pcAuto, ownOp, reduceCtorEq] at h0
    case start =>
      refine ⟨rfl, ?_⟩
      rcases r with _ | ⟨_ | _, r⟩
      · rfl
      · cases h0
      · cases h0
    case gone => exact hat.elim
  obtain ⟨rfl, rfl⟩ := hq
  obtain ⟨rfl, rfl, hh0⟩ := hat
  have hLB : (L : Int) = B := hw.own
  have hnone : ∀ i, hold i = none := by
    intro i
    by_cases hi : i = 0
    · subst hi; exact hh0
    · obtain ⟨n', q', e, hat'⟩ := hthf i hi
      have h0 : pcAuto.op (s'.th i) = none := by rw [← code_op]; exact hidle i
      rw [e] at h0
      cases q' <;> simp only [pcAuto, thfOp, reduceCtorEq] at h0
      exact hat'.2
  have htot' : K = pushes ops := by simpa using htot
  subst htot'
  have hlast : ∀ i, ((s'.mem.msgs (.cell 1 (i % c))).getLast?.map Msg.val) = some (Q s'.mem c i) := by
    intro i
    have := (hw.data.slots (i % c) (Nat.mod_lt _ hw.cpos)).1
    simp only [Q, lastVal]
    rw [List.getLast?_eq_some_getLast this]
    rfl
  obtain ⟨z, hz, hzB⟩ := hw.sync.bot
  refine ⟨T, L, hw.sync.top_len, ?_, hw.sync.tl, hw.sync.lc, ?_, ?_⟩
  · show (s'.mem.msgs bt).getLast?.map Msg.val = _
    rw [hz]; simp [hzB, hLB]
  · intro k hk
    by_cases h1 : ∃ i, T ≤ i ∧ i < L ∧ Q s'.mem c i = (k : Int)
    · obtain ⟨i, a, b, d⟩ := h1
      obtain ⟨k', q1, q2, q3, q4⟩ := hw.data.queued i a b
      have : k' = k := by omega
      subst this
      exact .inr ⟨q3, i, a, b, by rw [← d]; exact hlast i⟩
    · exact .inl (hw.data.used k hk (fun i a b e => h1 ⟨i, a, b, e⟩) fun r e => by rw [hnone r] at e; cases e)
  · intro i a b
    obtain ⟨k', q1, q2, q3, q4⟩ := hw.data.queued i a b
    exact ⟨k', q2, by rw [← q1]; exact hlast i, q3⟩

end CoEcs.Weak
