import Verif.Proofs.Weak
import Verif.Proofs.WeakQueueCode
import Verif.Proofs.WsQueue

/-! # The queue with its memory orders, until it grows: the invariant

`T` is the number of successful steals, `[T, L)` are the indices of the items in the queue, `B` is the last value of
`_bottom`, `K` the number of variables prepared, `hold r` the item thread `r` has in its hands. -/

namespace CoEcs.Weak

abbrev tp : Loc := .top 0
abbrev bt : Loc := .bottom 0
abbrev sl (c i : Nat) : Loc := .cell 1 (i % c)

/-- Only the last value can be read. -/
def Sees (m : Mem Loc) (K : Know Loc) (l : Loc) : Prop := (m.msgs l).length ≤ K.seen l + 1

/-- The last value. -/
def lastVal (m : Mem Loc) (l : Loc) : Int :=
  match (m.msgs l).getLast? with
  | some x => x.val
  | none => 0

/-- The item at index `i`. -/
def Q (m : Mem Loc) (c i : Nat) : Int := lastVal m (sl c i)

/-- Enough is known to receive the item at index `i`. -/
def Good (m : Mem Loc) (c : Nat) (K : Know Loc) (i : Nat) : Prop :=
  Sees m K (sl c i) ∧ ∀ a ∈ m.accs (.user (Q m c i).toNat), a.tid = 0 ∧ a.num ≤ K.done 0

/-- The first array: its address is in `_array` and its fields are not written. -/
structure Arr (c : Nat) (m : Mem Loc) : Prop where
  arr : ∀ (i : Nat) (x : Msg Loc), (m.msgs (.array 0))[i]? = some x → x.val = 1
  cap : m.cell (.cap 1) = c
  mask : m.cell (.mask 1) = (c : Int) - 1
  rcap : ∀ a ∈ m.accs (.cap 1), a.wr = false
  rmask : ∀ a ∈ m.accs (.mask 1), a.wr = false
  rdata : ∀ a ∈ m.accs (.data 1), a.wr = false

/-- The indices. -/
structure Sync (c : Nat) (m : Mem Loc) (V : Nat → View Loc) (T L : Nat) (B : Int) : Prop where
  top_len : (m.msgs tp).length = T + 1
  top_val : ∀ (i : Nat) (x : Msg Loc), (m.msgs tp)[i]? = some x → x.val = (i : Int)
  bot : ∃ x, (m.msgs bt).getLast? = some x ∧ x.val = B
  bot_seen : Sees m (V 0).cur bt
  tl : T ≤ L
  lc : L ≤ T + c
  good : ∀ i, T ≤ i → i < L → Good m c (V 0).rel i ∧ Good m c (V 0).cur i
  sc_top : T ≤ m.sc tp + 1 ∨ T ≤ (V 0).cur.seen tp + 1
  sc_bot : ∀ i, T ≤ i → ∀ (j : Nat) (x : Msg Loc), m.sc bt ≤ j → (m.msgs bt)[j]? = some x → (i : Int) < x.val → i < L ∧ Good m c x.know i

/-- The items. -/
structure Data (c : Nat) (m : Mem Loc) (V : Nat → View Loc) (T L K : Nat) (hold : Nat → Option Nat) : Prop where
  slots : ∀ j, j < c → m.msgs (.cell 1 j) ≠ [] ∧ Sees m (V 0).cur (.cell 1 j)
  own_done : ∀ k, ∀ a ∈ m.accs (.user k), a.tid = 0 → a.num ≤ (V 0).cur.done 0
  queued : ∀ i, T ≤ i → i < L → ∃ k : Nat, Q m c i = k ∧ k < K ∧ m.cell (.user k) = 1 ∧ ∀ r, hold r ≠ some k
  inj : ∀ i j, T ≤ i → i < L → T ≤ j → j < L → Q m c i = Q m c j → i = j
  held : ∀ r k, hold r = some k → k < K ∧ m.cell (.user k) = 1 ∧
    ∀ a ∈ m.accs (.user k), a.tid = r ∨ (a.tid = 0 ∧ a.num ≤ (V r).cur.done 0)
  held_inj : ∀ r r' k, hold r = some k → hold r' = some k → r = r'
  used : ∀ k, k < K → (∀ i, T ≤ i → i < L → Q m c i ≠ (k : Int)) → (∀ r, hold r ≠ some k) → m.cell (.user k) = 2
  fresh : ∀ k, K ≤ k → m.cell (.user k) = 0 ∧ m.accs (.user k) = []

/-- What the owner is doing. -/
inductive OPh where
  | calm | room | wrote (k : Nat) (f : Bool) | stored | fenced | contest | over
  deriving DecidableEq

/-- What a thief is doing. -/
inductive TPh where
  | no | saw (t : Nat) | fenced (t : Nat) | ready (t : Nat) | loaded (t : Nat) (v : Int)

def OFact (c : Nat) (m : Mem Loc) (V : Nat → View Loc) (T L : Nat) (B : Int) : OPh → Prop
  | .calm => (L : Int) = B
  | .room => (L : Int) = B ∧ L < T + c
  | .wrote k f => (L : Int) = B ∧ L < T + c ∧ Q m c L = k ∧ (∀ a ∈ m.accs (.user k), a.tid = 0) ∧ (f = true → Good m c (V 0).rel L)
  | .stored => (L : Int) = B + 1
  | .fenced => (L : Int) = B + 1 ∧ (m.msgs bt).length ≤ m.sc bt + 1 ∧ ((T : Int) ≤ B ∨ B ≤ ((V 0).cur.seen tp : Int))
  | .contest => (L : Int) = B + 1 ∧ 0 ≤ B ∧ B ≤ T ∧ B ≤ ((V 0).cur.seen tp : Int)
  | .over => (L : Int) = B + 1 ∧ L = T

def TFact (c : Nat) (m : Mem Loc) (V : Nat → View Loc) (T L : Nat) (B : Int) (o : OPh) (r : Nat) : TPh → Prop
  | .no => True
  | .saw t => t ≤ T ∧ t ≤ (V r).cur.seen tp
  | .fenced t => t ≤ T ∧ t ≤ m.sc tp ∧
      (T = t → ∀ (j : Nat) (x : Msg Loc), (V r).cur.seen bt ≤ j → (m.msgs bt)[j]? = some x → (t : Int) < x.val → t < L ∧ Good m c x.know t) ∧
      (o = .fenced → t ≤ (V 0).cur.seen tp ∨ Sees m (V r).cur bt)
  | .ready t => t ≤ T ∧ t ≤ m.sc tp ∧ (T = t → t < L ∧ Good m c (V r).cur t) ∧
      (o = .fenced → t ≤ (V 0).cur.seen tp ∨ (t : Int) < B)
  | .loaded t v => t ≤ T ∧ t ≤ m.sc tp ∧ (T = t → t < L ∧ Good m c (V r).cur t ∧ v = Q m c t) ∧
      (o = .fenced → t ≤ (V 0).cur.seen tp ∨ (t : Int) < B)

/-! ## What does not matter -/

theorem Sees.mono {m : Mem Loc} {K K' : Know Loc} {l : Loc} (h : Sees m K l) (hk : K.Le K') : Sees m K' l := by
  have := hk.1 l
  unfold Sees at *
  omega

theorem Good.mono {m : Mem Loc} {c i : Nat} {K K' : Know Loc} (h : Good m c K i) (hk : K.Le K') : Good m c K' i :=
  ⟨h.1.mono hk, fun a ha => ⟨(h.2 a ha).1, Nat.le_trans (h.2 a ha).2 (hk.2 0)⟩⟩

theorem Q_congr {m m' : Mem Loc} {c i : Nat} (h : m'.msgs (sl c i) = m.msgs (sl c i)) : Q m' c i = Q m c i := by
  simp only [Q, lastVal, h]

theorem Good.congr {m m' : Mem Loc} {c i : Nat} {K : Know Loc} (h : Good m c K i) (hm : m'.msgs (sl c i) = m.msgs (sl c i))
    (ha : m'.accs (.user (Q m c i).toNat) = m.accs (.user (Q m c i).toNat)) : Good m' c K i := by
  refine ⟨?_, ?_⟩
  · simp only [Sees, hm]; exact h.1
  · rw [Q_congr hm, ha]; exact h.2

/-- Nothing in the queue is touched. -/
structure Still (c T L : Nat) (m m' : Mem Loc) : Prop where
  top : m'.msgs tp = m.msgs tp
  bot : m'.msgs bt = m.msgs bt
  slot : ∀ i, T ≤ i → i < L → m'.msgs (sl c i) = m.msgs (sl c i)
  accs : ∀ i, T ≤ i → i < L → m'.accs (.user (Q m c i).toNat) = m.accs (.user (Q m c i).toNat)
  sc : ∀ l, m.sc l ≤ m'.sc l

variable {c : Nat} {m m' : Mem Loc} {V V' : Nat → View Loc} {T L : Nat} {B : Int} {K : Nat} {hold : Nat → Option Nat} {o : OPh}

theorem Still.good (h : Still c T L m m') {i : Nat} {K : Know Loc} (h1 : T ≤ i) (h2 : i < L) (hg : Good m c K i) : Good m' c K i :=
  hg.congr (h.slot i h1 h2) (h.accs i h1 h2)

theorem Sync.still (h : Sync c m V T L B) (hs : Still c T L m m') (hV : ∀ r, (V r).Le (V' r)) : Sync c m' V' T L B where
  top_len := by rw [hs.top]; exact h.top_len
  top_val := by rw [hs.top]; exact h.top_val
  bot := by rw [hs.bot]; exact h.bot
  bot_seen := by
    have := h.bot_seen.mono (hV 0).cur
    simp only [Sees, hs.bot] at *; exact this
  tl := h.tl
  lc := h.lc
  good := by
    intro i h1 h2
    have hg := h.good i h1 h2
    refine ⟨?_, hs.good h1 h2 (hg.2.mono (hV 0).cur)⟩
    rcases (hV 0).rel with hr | hr
    · exact hs.good h1 h2 (hg.1.mono hr)
    · exact hs.good h1 h2 (hg.2.mono hr)
  sc_top := by
    have h1 := hs.sc tp
    have h2 := (hV 0).cur.1 tp
    rcases h.sc_top with h | h
    · left; omega
    · right; omega
  sc_bot := by
    intro i h1 j x hj hx hlt
    rw [hs.bot] at hx
    have h3 := h.sc_bot i h1 j x (Nat.le_trans (hs.sc bt) hj) hx hlt
    exact ⟨h3.1, hs.good h1 h3.1 h3.2⟩

theorem TFact.still {r : Nat} {p : TPh} (h : TFact c m V T L B o r p) (hs : Still c T L m m') (hV : ∀ r, (V r).Le (V' r)) :
    TFact c m' V' T L B o r p := by
  have hsc := hs.sc tp
  have hc0 := (hV 0).cur.1 tp
  have hcr := (hV r).cur.1
  cases p with
  | no => trivial
  | saw t => exact ⟨h.1, Nat.le_trans h.2 (hcr tp)⟩
  | fenced t =>
    refine ⟨h.1, Nat.le_trans h.2.1 hsc, ?_, ?_⟩
    · intro ht j x hj hx hlt
      rw [hs.bot] at hx
      have := h.2.2.1 ht j x (Nat.le_trans (hcr bt) hj) hx hlt
      exact ⟨this.1, hs.good (by omega) this.1 this.2⟩
    · intro ho
      rcases h.2.2.2 ho with h1 | h1
      · left; omega
      · right
        have := h1.mono (hV r).cur
        simp only [Sees, hs.bot] at *; exact this
  | ready t =>
    refine ⟨h.1, Nat.le_trans h.2.1 hsc, ?_, ?_⟩
    · intro ht
      have := h.2.2.1 ht
      exact ⟨this.1, hs.good (by omega) this.1 (this.2.mono (hV r).cur)⟩
    · intro ho
      rcases h.2.2.2 ho with h1 | h1
      · left; omega
      · exact .inr h1
  | loaded t v =>
    refine ⟨h.1, Nat.le_trans h.2.1 hsc, ?_, ?_⟩
    · intro ht
      have := h.2.2.1 ht
      exact ⟨this.1, hs.good (by omega) this.1 (this.2.1.mono (hV r).cur), this.2.2.trans (Q_congr (hs.slot t (by omega) this.1)).symm⟩
    · intro ho
      rcases h.2.2.2 ho with h1 | h1
      · left; omega
      · exact .inr h1

/-- Nothing but knowledge and accesses to fields of the array. -/
structure Same (m m' : Mem Loc) : Prop where
  msgs : m'.msgs = m.msgs
  cell : m'.cell = m.cell
  user : ∀ k, m'.accs (.user k) = m.accs (.user k)
  rcap : ∀ a ∈ m'.accs (.cap 1), a ∈ m.accs (.cap 1) ∨ a.wr = false
  rmask : ∀ a ∈ m'.accs (.mask 1), a ∈ m.accs (.mask 1) ∨ a.wr = false
  rdata : ∀ a ∈ m'.accs (.data 1), a ∈ m.accs (.data 1) ∨ a.wr = false
  sc : ∀ l, m.sc l ≤ m'.sc l

theorem Same.still (h : Same m m') : Still c T L m m' :=
  ⟨by rw [h.msgs], by rw [h.msgs], fun _ _ _ => by rw [h.msgs], fun _ _ _ => h.user _, h.sc⟩

theorem Arr.same (ha : Arr c m) (h : Same m m') : Arr c m' where
  arr := by rw [h.msgs]; exact ha.arr
  cap := by rw [h.cell]; exact ha.cap
  mask := by rw [h.cell]; exact ha.mask
  rcap := fun a hm => (h.rcap a hm).elim (ha.rcap a) id
  rmask := fun a hm => (h.rmask a hm).elim (ha.rmask a) id
  rdata := fun a hm => (h.rdata a hm).elim (ha.rdata a) id

theorem Q_eq (h : m'.msgs = m.msgs) (i : Nat) : Q m' c i = Q m c i := Q_congr (by rw [h])

theorem Good.same {i : Nat} {K : Know Loc} (hg : Good m c K i) (h : Same m m') : Good m' c K i :=
  hg.congr (by rw [h.msgs]) (h.user _)

/-- The items do not depend on `_bottom` and `_top`. -/
theorem Data.frame (h : Data c m V T L K hold) (hm : ∀ j, m'.msgs (.cell 1 j) = m.msgs (.cell 1 j)) (hc : m'.cell = m.cell)
    (hu : ∀ k, m'.accs (.user k) = m.accs (.user k)) (hV : ∀ r, (V r).Le (V' r)) : Data c m' V' T L K hold := by
  have hQ : ∀ i, Q m' c i = Q m c i := fun i => Q_congr (hm _)
  refine ⟨?_, ?_, ?_, ?_, ?_, h.held_inj, ?_, ?_⟩
  · intro j hj
    have := h.slots j hj
    have h2 := this.2.mono (hV 0).cur
    simp only [Sees, hm] at *
    exact ⟨this.1, h2⟩
  · intro k a ha h0
    rw [hu] at ha
    exact Nat.le_trans (h.own_done k a ha h0) ((hV 0).cur.2 0)
  · intro i h1 h2
    rw [hQ, hc]; exact h.queued i h1 h2
  · intro i j h1 h2 h3 h4 he
    rw [hQ, hQ] at he
    exact h.inj i j h1 h2 h3 h4 he
  · intro r k hk
    have := h.held r k hk
    refine ⟨this.1, by rw [hc]; exact this.2.1, ?_⟩
    intro a ha
    rw [hu] at ha
    rcases this.2.2 a ha with h1 | h1
    · exact .inl h1
    · exact .inr ⟨h1.1, Nat.le_trans h1.2 ((hV r).cur.2 0)⟩
  · intro k hk hq hh
    rw [hc]
    exact h.used k hk (fun i h1 h2 => by rw [← hQ]; exact hq i h1 h2) hh
  · intro k hk
    rw [hc, hu]; exact h.fresh k hk

theorem OFact.same (h : OFact c m V T L B o) (hs : Same m m') (hV : ∀ r, (V r).Le (V' r)) (hg : ∀ k f, o = .wrote k f → f = true →
    (V 0).rel.Le (V' 0).rel) : OFact c m' V' T L B o := by
  have hc0 := (hV 0).cur.1 tp
  cases o with
  | calm => exact h
  | room => exact h
  | wrote k f =>
    refine ⟨h.1, h.2.1, (Q_eq hs.msgs L).trans h.2.2.1, by rw [hs.user]; exact h.2.2.2.1, fun hf => ?_⟩
    exact ((h.2.2.2.2 hf).mono (hg k f rfl hf)).same hs
  | stored => exact h
  | fenced =>
    have := hs.sc bt
    obtain ⟨h1, h2, h3⟩ := h
    refine ⟨h1, by rw [hs.msgs]; omega, ?_⟩
    omega
  | contest => obtain ⟨h1, h2, h3, h4⟩ := h; exact ⟨h1, h2, h3, by omega⟩
  | over => exact h

/-- Everything but the points the threads are at. -/
structure World (c : Nat) (m : Mem Loc) (V : Nat → View Loc) (T L : Nat) (B : Int) (K : Nat) (hold : Nat → Option Nat) (o : OPh)
    (ph : Nat → TPh) : Prop where
  cpos : 0 < c
  arr : Arr c m
  sync : Sync c m V T L B
  data : Data c m V T L K hold
  own : OFact c m V T L B o
  thf : ∀ r, r ≠ 0 → TFact c m V T L B o r (ph r)

variable {ph : Nat → TPh}

/-- A step that only adds knowledge. -/
theorem World.same (h : World c m V T L B K hold o ph) (hs : Same m m') (hV : ∀ r, (V r).Le (V' r))
    (hg : ∀ k f, o = .wrote k f → f = true → (V 0).rel.Le (V' 0).rel) : World c m' V' T L B K hold o ph where
  cpos := h.cpos
  arr := h.arr.same hs
  sync := h.sync.still hs.still hV
  data := h.data.frame (fun _ => by rw [hs.msgs]) hs.cell hs.user hV
  own := h.own.same hs hV hg
  thf := fun r hr => (h.thf r hr).still hs.still hV

end CoEcs.Weak
