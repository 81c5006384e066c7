import Verif.Proofs.WeakHandlesCode
import Verif.Proofs.WeakQueueInv

/-! # Threads that reserve handles: all executions -/

namespace CoEcs.Weak

/-! ## Single operations -/

theorem rmw_any (strong : Bool) (t n : Nat) {o : Order} (l : Loc) (f : Int → Option Int) (m : Mem Loc) (w : View Loc) (ho : o ≠ .sc)
    (hf : ∀ x, ∃ y, f x = some y) :
    exec strong t n (.rmw o l f) m w = .no ∨
    ∃ m' w' x y, (m.msgs l)[n]? = some x ∧ n + 1 = (m.msgs l).length ∧ exec strong t n (.rmw o l f) m w = .ok m' w' x.val ∧
      f x.val = some y.val ∧ Appends m m' l y ∧ w.cur.Le w'.cur ∧ (m.msgs l).length ≤ w'.cur.seen l ∧ x.know.Le y.know ∧
      (o.releases = true → w'.cur.Le y.know) := by
  have he : exec strong t n (.rmw o l f) m w = execRmw n o l f m w := by simp [exec, ho]
  rw [he]
  simp only [execRmw]
  cases hx : (m.msgs l)[n]? with
  | none => exact .inl rfl
  | some x =>
    by_cases h : w.cur.seen l ≤ n
    · simp only [if_pos h]
      obtain ⟨y, hy⟩ := hf x.val
      simp only [hy]
      by_cases hl : n + 1 = (m.msgs l).length
      · simp only [if_pos hl]
        refine .inr ⟨m.push l ⟨y, ((w.got o l n x).gives o l (n + 1)).join x.know⟩, (w.got o l n x).put l (n + 1), x,
          ⟨y, ((w.got o l n x).gives o l (n + 1)).join x.know⟩, rfl, hl, rfl, hy, ⟨?_, ?_, rfl, rfl, fun _ => Nat.le_refl _⟩,
          ((View.le_got ..).trans (View.le_put ..)).cur, ?_, Know.le_join_right .., ?_⟩
        · simp only [Mem.push, if_true]
        · intro z hz; simp only [Mem.push, if_neg hz]
        · rw [← hl]; exact View.put_seen ..
        · intro hr
          simp only [View.gives, hr, if_true, View.put]
          exact Know.le_join_left ..
      · simp only [if_neg hl]; exact .inl trivial
    · simp only [if_neg h]; exact .inl trivial

/-- One access more. -/
structure Accessed (m m' : Mem Loc) (t : Nat) (w' : View Loc) (l : Loc) (wr : Bool) : Prop where
  msgs : m'.msgs = m.msgs
  here : ∃ k, m'.accs l = m.accs l ++ [⟨t, k, wr⟩] ∧ k ≤ w'.cur.done t
  other : ∀ x, x ≠ l → m'.accs x = m.accs x

theorem Accessed.mem {m m' : Mem Loc} {t : Nat} {w' : View Loc} {l : Loc} {wr : Bool} (h : Accessed m m' t w' l wr) {x : Loc} {a : Acc}
    (ha : a ∈ m'.accs x) : a ∈ m.accs x ∨ (x = l ∧ a.wr = wr ∧ a.tid = t ∧ a.num ≤ w'.cur.done t) := by
  by_cases e : x = l
  · subst e
    obtain ⟨k, h1, h2⟩ := h.here
    rw [h1, List.mem_append, List.mem_singleton] at ha
    rcases ha with ha | rfl
    · exact .inl ha
    · exact .inr ⟨rfl, rfl, rfl, h2⟩
  · rw [h.other x e] at ha; exact .inl ha

theorem read_any (strong : Bool) (t n : Nat) (l : Loc) (m : Mem Loc) (w : View Loc)
    (h : ∀ a ∈ m.accs l, a.wr = false ∨ a.tid = t ∨ a.num ≤ w.cur.done a.tid) :
    ∃ m' w', exec strong t n (.read l) m w = .ok m' w' (m.cell l) ∧ Accessed m m' t w' l false ∧ m'.cell = m.cell ∧ w.cur.Le w'.cur ∧
      ∀ x, w'.cur.seen x = w.cur.seen x := by
  have hr : ((m.accs l).any fun a => a.wr && clash t w.cur a) = false := by
    rw [List.any_eq_false]
    intro a ha
    rcases h a ha with h | h | h
    · simp [h]
    · simp [clash, h]
    · have : ¬ w.cur.done a.tid < a.num := by omega
      simp [clash, this]
  simp only [exec, hr]
  refine ⟨_, _, rfl, ⟨rfl, ⟨_, by simp only [access, if_true], Know.did_self ..⟩, fun x hx => by simp only [access, if_neg hx]⟩, rfl,
    (access_le ..).cur, fun _ => rfl⟩

theorem write_any (strong : Bool) (t n : Nat) (l : Loc) (v : Int) (m : Mem Loc) (w : View Loc)
    (h : ∀ a ∈ m.accs l, a.tid = t ∨ a.num ≤ w.cur.done a.tid) :
    ∃ m' w', exec strong t n (.write l v) m w = .ok m' w' 0 ∧ Accessed m m' t w' l true ∧ m'.cell l = v ∧
      (∀ x, x ≠ l → m'.cell x = m.cell x) ∧ w.cur.Le w'.cur ∧ ∀ x, w'.cur.seen x = w.cur.seen x := by
  have hr : (m.accs l).any (clash t w.cur) = false := by
    rw [List.any_eq_false]
    intro a ha
    rcases h a ha with h | h
    · simp [clash, h]
    · have : ¬ w.cur.done a.tid < a.num := by omega
      simp [clash, this]
  simp only [exec, hr]
  refine ⟨_, _, rfl, ⟨rfl, ⟨_, by simp only [access, if_true], Know.did_self ..⟩, fun x hx => by simp only [access, if_neg hx]⟩,
    if_pos rfl, fun x hx => if_neg hx, (access_le ..).cur, fun _ => rfl⟩

/-! ## Counting threads -/

/-- How many of the threads 1 to `N`. -/
def cnt : Nat → (Nat → Bool) → Nat
  | 0, _ => 0
  | N + 1, f => (f (N + 1)).toNat + cnt N f

theorem cnt_congr {f g : Nat → Bool} : ∀ {N : Nat}, (∀ t, 1 ≤ t → t ≤ N → f t = g t) → cnt N f = cnt N g
  | 0, _ => rfl
  | N + 1, h => by
    simp only [cnt, h (N + 1) (by omega) (by omega)]
    rw [cnt_congr fun t h1 h2 => h t h1 (by omega)]

theorem cnt_le (f : Nat → Bool) : ∀ N : Nat, cnt N f ≤ N
  | 0 => Nat.le_refl _
  | N + 1 => by
    have := cnt_le f N
    have := Bool.toNat_le (f (N + 1))
    simp only [cnt]; omega

theorem cnt_full {f : Nat → Bool} : ∀ {N : Nat}, cnt N f = N → ∀ t, 1 ≤ t → t ≤ N → f t = true
  | 0, _, t, h1, h2 => by omega
  | N + 1, h, t, h1, h2 => by
    have h3 := cnt_le f N
    have h4 := Bool.toNat_le (f (N + 1))
    simp only [cnt] at h
    by_cases e : t = N + 1
    · subst e
      cases hf : f (N + 1) with
      | true => rfl
      | false => rw [hf] at h; simp at h; omega
    · have h5 : cnt N f = N := by omega
      exact cnt_full h5 t h1 (by omega)

theorem cnt_none {f : Nat → Bool} : ∀ {N : Nat}, (∀ t, 1 ≤ t → t ≤ N → f t = false) → cnt N f = 0
  | 0, _ => rfl
  | N + 1, h => by
    simp only [cnt, h (N + 1) (by omega) (by omega)]
    rw [cnt_none fun t h1 h2 => h t h1 (by omega)]; rfl

theorem cnt_upd {α : Type} (flag : α → Bool) (p : Nat → α) (t : Nat) (q : α) : ∀ {N : Nat}, 1 ≤ t → t ≤ N →
    cnt N (fun i => flag (upd p t q i)) + (flag (p t)).toNat = cnt N (fun i => flag (p i)) + (flag q).toNat
  | 0, h1, h2 => by omega
  | N + 1, h1, h2 => by
    by_cases e : t = N + 1
    · subst e
      simp only [cnt, upd_self]
      rw [cnt_congr (f := fun i => flag (upd p (N + 1) q i)) (g := fun i => flag (p i)) fun i _ hi => by
        simp only [upd_ne _ _ (show i ≠ N + 1 by omega)]]
      omega
    · have := cnt_upd flag p t q (N := N) h1 (by omega)
      simp only [cnt]
      rw [upd_ne _ _ (show N + 1 ≠ t from fun h => e h.symm)]
      omega

/-! ## What the threads have claimed -/

/-- What a reservation is about to get: the free id at an index, a fresh id not yet known, or the `j`-th fresh id. -/
inductive Claim where
  | free (i : Nat) | wait | fresh (j : Nat)

/-- The handle that belongs to a claim. -/
def Claim.Is (F G : List Nat) : Claim → Int × Int → Prop
  | .free i, h => ∃ x y : Nat, F[i]? = some x ∧ G[x]? = some y ∧ h = ((x : Int), (y : Int))
  | .wait, _ => False
  | .fresh j, h => h = (((G.length + j : Nat) : Int) % 4294967296, 0)

structure Claims (N f C X : Nat) (cl : Nat → Nat → Option Claim) : Prop where
  free : ∀ t k i, cl t k = some (.free i) → i < f ∧ f ≤ C + i
  fresh : ∀ t k j, cl t k = some (.fresh j) → j < X
  inj : ∀ t k t' k' c, cl t k = some c → cl t' k' = some c → c = .wait ∨ (t = t' ∧ k = k')
  range : ∀ t k c, cl t k = some c → 1 ≤ t ∧ t ≤ N
  allFree : ∀ i, i < f → f ≤ C + i → ∃ t k, cl t k = some (.free i)
  allFresh : ∀ j, j < X → ∃ t k, cl t k = some (.fresh j)

/-- Where a thread is within a reservation; `id` is what its cell for the id holds. -/
def QAt (F G : List Nat) (tot : Nat) (c : Option Claim) (id : Int) (k r : Nat) : RPc → Prop
  | .start => c = none ∧ k + r = tot
  | .r1 v => k + r + 1 = tot ∧ ∃ i : Nat, c = some (.free i) ∧ v = i + 1
  | .r2 v => k + r + 1 = tot ∧ ∃ i : Nat, c = some (.free i) ∧ v = i + 1
  | .r3 v => k + r + 1 = tot ∧ ∃ i x : Nat, c = some (.free i) ∧ F[i]? = some x ∧ v = x
  | .r4 v => k + r + 1 = tot ∧ ∃ i x : Nat, c = some (.free i) ∧ F[i]? = some x ∧ v = x
  | .r5 => k + r + 1 = tot ∧ c = some .wait
  | .r6 v g => k + r + 1 = tot ∧ ∃ d, c = some d ∧ d.Is F G (v, g)
  | .r7 v g => k + r + 1 = tot ∧ id = v ∧ ∃ d, c = some d ∧ d.Is F G (v, g)
  | .gone => c = none ∧ k = tot ∧ r = 0

/-- Where a thread that reserves is, with all it has got. -/
structure ResAt (F G : List Nat) (tot : Nat) (cl : Nat → Nat → Option Claim) (m : Mem Loc) (t k r : Nat) (q : RPc) : Prop where
  before : ∀ i, i < k → Noted m t i ∧ ∃ c, cl t i = some c ∧ c.Is F G (noted m t i)
  after : ∀ i, k < i → cl t i = none
  fresh : ∀ i, k ≤ i → m.accs (noteGen t i) = []
  own : ∀ i a, a ∈ m.accs (noteId t i) ∨ a ∈ m.accs (noteGen t i) → a.tid = t
  at' : QAt F G tot (cl t k) (m.cell (noteId t k)) k r q

theorem ResAt.frame {F G : List Nat} {tot : Nat} {cl cl' : Nat → Nat → Option Claim} {m m' : Mem Loc} {t k r : Nat} {q : RPc}
    (h : ResAt F G tot cl m t k r q) (h1 : cl' t = cl t) (h2 : ∀ i, m'.accs (noteId t i) = m.accs (noteId t i))
    (h3 : ∀ i, m'.accs (noteGen t i) = m.accs (noteGen t i)) (h4 : ∀ i, m'.cell (noteId t i) = m.cell (noteId t i))
    (h5 : ∀ i, m'.cell (noteGen t i) = m.cell (noteGen t i)) : ResAt F G tot cl' m' t k r q := by
  obtain ⟨a, b, c, d, e⟩ := h
  refine ⟨?_, ?_, ?_, ?_, ?_⟩
  · simpa only [Noted, noted, h1, h3, h4, h5] using a
  · simpa only [h1] using b
  · simpa only [h3] using c
  · simpa only [h2, h3] using d
  · simpa only [h1, h4] using e

def HPc.isGone : HPc → Bool
  | .res _ _ _ .gone => true
  | _ => false

def HPc.isWaiting : HPc → Bool
  | .res _ _ _ .r5 => true
  | _ => false

/-- What all threads use. -/
inductive Shared : Loc → Prop
  | gens : Shared gens
  | gen (i : Nat) : Shared (gen i)
  | frees : Shared frees
  | free (k : Nat) : Shared (freeId k)

/-- While threads reserve. -/
structure InvA (N : Nat) (n : Nat → Nat) (F G : List Nat) (m : Mem Loc) (V : Nat → View Loc) (p : Nat → HPc)
    (cl : Nat → Nat → Option Claim) : Prop where
  main : ∃ f, p 0 = .syn N f .start
  work : ∀ t, 1 ≤ t → t ≤ N → ∃ k r q, p t = .res t k r q ∧ ResAt F G (n t) cl m t k r q
  offs : ∀ t, N < t → p t = .off
  cur : ∀ (i : Nat) (x : Msg Loc), (m.msgs cursor)[i]? = some x → x.val = (F.length : Int) - i
  nxt : ∀ (i : Nat) (x : Msg Loc), (m.msgs nextId)[i]? = some x → x.val = ((G.length + i : Nat) : Int) % 4294967296
  sig : ∀ (i : Nat) (x : Msg Loc), (m.msgs signal)[i]? = some x → x.val = i
  curLen : 1 ≤ (m.msgs cursor).length
  cell : ∀ l, Shared l → m.cell l = pooled 2 F G l
  accs : ∀ l, Shared l → ∀ a ∈ m.accs l, a.wr = false ∧ 1 ≤ a.tid ∧ a.tid ≤ N ∧ a.num ≤ (V a.tid).cur.done a.tid
  syn : m.accs synced = [] ∧ m.cell synced = 0
  known : ∀ y, (m.msgs signal).getLast? = some y → ∀ t, 1 ≤ t → t ≤ N → (p t).isGone = true → (V t).cur.Le y.know
  count : (m.msgs signal).length = cnt N (fun t => (p t).isGone) + 1
  seen : (m.msgs cursor).length = 1 ∨ ∃ t, 1 ≤ t ∧ t ≤ N ∧ (m.msgs cursor).length ≤ (V t).cur.seen cursor + 1
  fresh : (m.msgs nextId).length + cnt N (fun t => (p t).isWaiting) = 1 + ((m.msgs cursor).length - 1 - F.length)
  nxtLen : 1 ≤ (m.msgs nextId).length
  claims : Claims N F.length ((m.msgs cursor).length - 1) ((m.msgs nextId).length - 1) cl

/-- Where the thread that flushes is: `C` reservations have been made; `S` and `R` are the sizes. -/
def SAt (F G : List Nat) (C : Nat) (m : Mem Loc) (w : View Loc) (S R : Int) : SPc → Prop
  | .start => False
  | .f1 => S = G.length ∧ R = F.length ∧ (m.msgs cursor).length = C + 1 ∧ C ≤ w.cur.seen cursor ∧
      ∀ (i : Nat) (x : Msg Loc), (m.msgs cursor)[i]? = some x → x.val = (F.length : Int) - i
  | .a0 c j => c = (F.length : Int) - C ∧ S + j + 1 = G.length + (C - F.length : Nat) ∧ (G.length : Int) ≤ S ∧ R = F.length
  | .a1 c j k => c = (F.length : Int) - C ∧ S + j + 1 = G.length + (C - F.length : Nat) ∧ (G.length : Int) ≤ S ∧ R = F.length ∧ k = S
  | .a2 c j k => c = (F.length : Int) - C ∧ S + j + 1 = G.length + (C - F.length : Nat) ∧ (G.length : Int) ≤ S ∧ R = F.length ∧ k = S
  | .d0 c => c = (F.length : Int) - C ∧ S = G.length + (C - F.length : Nat) ∧ R = F.length
  | .d1 c j => c = (F.length : Int) - C ∧ S = G.length + (C - F.length : Nat) ∧ R = max c 0 + j + 1
  | .d2 c j k => c = (F.length : Int) - C ∧ S = G.length + (C - F.length : Nat) ∧ R = max c 0 + j + 1 ∧ k = R
  | .e0 c => c = (F.length : Int) - C ∧ S = G.length + (C - F.length : Nat) ∧ R = max c 0
  | .e1 => S = G.length + (C - F.length : Nat) ∧ R = max ((F.length : Int) - C) 0 ∧ lastOf m cursor = some R
  | .gone => S = G.length + (C - F.length : Nat) ∧ R = max ((F.length : Int) - C) 0 ∧ lastOf m cursor = some R

/-- After that. -/
structure InvB (N : Nat) (n : Nat → Nat) (F G : List Nat) (m : Mem Loc) (V : Nat → View Loc) (p : Nat → HPc)
    (cl : Nat → Nat → Option Claim) (C : Nat) : Prop where
  main : ∃ f q, p 0 = .syn N f q ∧ SAt F G C m (V 0) (m.cell gens) (m.cell frees) q ∧ (m.cell synced = 1 → q = .gone)
  work : ∀ t, 1 ≤ t → t ≤ N → p t = .res t (n t) 0 .gone ∧ ResAt F G (n t) cl m t (n t) 0 .gone
  offs : ∀ t, N < t → p t = .off
  nxt : (m.msgs nextId).length = 1 + (C - F.length) ∧ lastOf m nextId = some (((G.length + (C - F.length) : Nat) : Int) % 4294967296)
  genC : ∀ i, m.cell (gen i) = G.getD i 0
  freeC : ∀ k, m.cell (freeId k) = F.getD k 0
  accs : ∀ l, Shared l → ∀ a ∈ m.accs l, a.tid = 0 ∨ a.num ≤ (V 0).cur.done a.tid
  syn : ∀ a ∈ m.accs synced, a.tid = 0
  claims : Claims N F.length C (C - F.length) cl

def Inv2 (N : Nat) (n : Nat → Nat) (F G : List Nat) (m : Mem Loc) (V : Nat → View Loc) (p : Nat → HPc) : Prop :=
  (∃ cl, InvA N n F G m V p cl) ∨ ∃ cl C, InvB N n F G m V p cl C

variable {N : Nat} {n : Nat → Nat} {F G : List Nat} {m m' : Mem Loc} {V : Nat → View Loc} {p : Nat → HPc} {cl : Nat → Nat → Option Claim}

/-! ## Steps of the threads that reserve -/

/-- A step that leaves the atomic objects alone. -/
theorem InvA.quiet (h : InvA N n F G m V p cl) {t k r k' r' : Nat} {q q' : RPc} {w' : View Loc} (ht1 : 1 ≤ t) (ht2 : t ≤ N)
    (hp : p t = .res t k r q) (hle : (V t).cur.Le w'.cur) (hm : m'.msgs = m.msgs) (hg : (p t).isGone = false)
    (hg' : (HPc.res t k' r' q').isGone = false) (hw : (p t).isWaiting = false) (hw' : (HPc.res t k' r' q').isWaiting = false)
    (hc : ∀ l, Shared l → m'.cell l = m.cell l)
    (ha : ∀ l, Shared l → ∀ a ∈ m'.accs l, a ∈ m.accs l ∨ (a.wr = false ∧ a.tid = t ∧ a.num ≤ w'.cur.done t))
    (hs : m'.accs synced = m.accs synced ∧ m'.cell synced = m.cell synced)
    (hn : ∀ t', t' ≠ t → ∀ i, m'.accs (noteId t' i) = m.accs (noteId t' i) ∧ m'.accs (noteGen t' i) = m.accs (noteGen t' i) ∧
      m'.cell (noteId t' i) = m.cell (noteId t' i) ∧ m'.cell (noteGen t' i) = m.cell (noteGen t' i))
    (hat : ResAt F G (n t) cl m' t k' r' q') : InvA N n F G m' (upd V t w') (upd p t (.res t k' r' q')) cl := by
  have h0 : (0 : Nat) ≠ t := by omega
  have hcg := cnt_upd HPc.isGone p t (.res t k' r' q') ht1 ht2
  have hcw := cnt_upd HPc.isWaiting p t (.res t k' r' q') ht1 ht2
  rw [hg, hg'] at hcg
  rw [hw, hw'] at hcw
  refine ⟨?_, ?_, ?_, ?_, ?_, ?_, ?_, ?_, ?_, ?_, ?_, ?_, ?_, ?_, ?_, ?_⟩
  · rw [upd_ne _ _ h0]; exact h.main
  · intro t' h1 h2
    by_cases e : t' = t
    · subst e; rw [upd_self]; exact ⟨_, _, _, rfl, hat⟩
    · rw [upd_ne _ _ e]
      obtain ⟨k1, r1, q1, e1, e2⟩ := h.work t' h1 h2
      exact ⟨k1, r1, q1, e1, e2.frame rfl (fun i => (hn t' e i).1) (fun i => (hn t' e i).2.1) (fun i => (hn t' e i).2.2.1)
        fun i => (hn t' e i).2.2.2⟩
  · intro t' h1; rw [upd_ne _ _ (by omega)]; exact h.offs t' h1
  · rw [hm]; exact h.cur
  · rw [hm]; exact h.nxt
  · rw [hm]; exact h.sig
  · rw [hm]; exact h.curLen
  · intro l hl; rw [hc l hl]; exact h.cell l hl
  · intro l hl a haa
    rcases ha l hl a haa with h1 | ⟨h1, h2, h3⟩
    · obtain ⟨a1, a2, a3, a4⟩ := h.accs l hl a h1
      refine ⟨a1, a2, a3, ?_⟩
      by_cases e : a.tid = t
      · rw [e, upd_self]; rw [e] at a4; exact Nat.le_trans a4 (hle.2 t)
      · rw [upd_ne _ _ e]; exact a4
    · exact ⟨h1, by omega, by omega, by rw [h2, upd_self]; exact h3⟩
  · rw [hs.1, hs.2]; exact h.syn
  · rw [hm]
    intro y hy t' h1 h2 h3
    by_cases e : t' = t
    · subst e; rw [upd_self, hg'] at h3; cases h3
    · rw [upd_ne _ _ e] at h3 ⊢; exact h.known y hy t' h1 h2 h3
  · rw [hm, h.count]; simp at hcg; omega
  · rw [hm]
    rcases h.seen with h1 | ⟨t', h1, h2, h3⟩
    · exact .inl h1
    · refine .inr ⟨t', h1, h2, ?_⟩
      by_cases e : t' = t
      · subst e; rw [upd_self]; have := hle.1 cursor; omega
      · rw [upd_ne _ _ e]; exact h3
  · rw [hm, ← h.fresh]; simp at hcw; omega
  · rw [hm]; exact h.nxtLen
  · rw [hm]; exact h.claims

theorem Shared.ne {l : Loc} (h : Shared l) : (∀ t i, noteId t i ≠ l) ∧ (∀ t i, noteGen t i ≠ l) ∧ synced ≠ l := by
  cases h <;> simp [noteId, noteGen, synced, Weak.gens, Weak.gen, Weak.frees, freeId]

/-- Reading what is shared. -/
theorem InvA.read (h : InvA N n F G m V p cl) (strong : Bool) (ch : Nat) {t k r : Nat} {q : RPc} (ht1 : 1 ≤ t) (ht2 : t ≤ N)
    (hp : p t = .res t k r q) (hat : ResAt F G (n t) cl m t k r q) (hg : (p t).isGone = false) (hw : (p t).isWaiting = false)
    {l : Loc} (hl : Shared l) :
    ∃ m' w', exec strong t ch (.read l) m (V t) = .ok m' w' (pooled 2 F G l) ∧
      ∀ q', (HPc.res t k r q').isGone = false → (HPc.res t k r q').isWaiting = false →
        QAt F G (n t) (cl t k) (m.cell (noteId t k)) k r q' → InvA N n F G m' (upd V t w') (upd p t (.res t k r q')) cl := by
  obtain ⟨m', w', e1, e2, e3, e4, e5⟩ := read_any strong t ch l m (V t) fun a ha => .inl (h.accs l hl a ha).1
  refine ⟨m', w', by rw [e1, h.cell l hl], fun q' hg' hw' hq' => ?_⟩
  obtain ⟨n1, n2, n3⟩ := hl.ne
  have hf := hat.frame (cl' := cl) (m' := m') rfl (fun i => e2.other _ (n1 t i)) (fun i => e2.other _ (n2 t i)) (fun i => by rw [e3])
    (fun i => by rw [e3])
  refine h.quiet ht1 ht2 hp e4 e2.msgs hg hg' hw hw' (fun l' _ => by rw [e3]) ?_ ⟨e2.other _ n3, by rw [e3]⟩
    (fun t' _ i => ⟨e2.other _ (n1 t' i), e2.other _ (n2 t' i), by rw [e3], by rw [e3]⟩)
    ⟨hf.before, hf.after, hf.fresh, hf.own, by rw [e3]; exact hq'⟩
  intro l' _ a ha
  rcases e2.mem ha with h1 | ⟨_, h2, h3, h4⟩
  · exact .inl h1
  · exact .inr ⟨h2, h3, h4⟩

/-- Writing a note of one's own. -/
theorem InvA.note (h : InvA N n F G m V p cl) (strong : Bool) (ch : Nat) {t k r k' r' : Nat} {q q' : RPc} (ht1 : 1 ≤ t) (ht2 : t ≤ N)
    (hp : p t = .res t k r q) (hat : ResAt F G (n t) cl m t k r q) (hg : (p t).isGone = false) (hw : (p t).isWaiting = false)
    {l : Loc} (hl : l = noteId t k ∨ l = noteGen t k) (v : Int) (hg' : (HPc.res t k' r' q').isGone = false)
    (hw' : (HPc.res t k' r' q').isWaiting = false) :
    ∃ m' w', exec strong t ch (.write l v) m (V t) = .ok m' w' 0 ∧ Accessed m m' t w' l true ∧ m'.cell l = v ∧
      (∀ x, x ≠ l → m'.cell x = m.cell x) ∧
      (ResAt F G (n t) cl m' t k' r' q' → InvA N n F G m' (upd V t w') (upd p t (.res t k' r' q')) cl) := by
  obtain ⟨m', w', e1, e2, e3, e4, e5, _⟩ := write_any strong t ch l v m (V t) fun a ha => .inl (by
    rcases hl with rfl | rfl
    · exact hat.own k a (.inl ha)
    · exact hat.own k a (.inr ha))
  have hsh : ∀ l', Shared l' → l' ≠ l := by
    intro l' hl'
    rcases hl with rfl | rfl
    · exact (hl'.ne.1 t k).symm
    · exact (hl'.ne.2.1 t k).symm
  have hsy : synced ≠ l := by rcases hl with rfl | rfl <;> simp [synced, noteId, noteGen]
  have hno : ∀ t', t' ≠ t → ∀ i, noteId t' i ≠ l ∧ noteGen t' i ≠ l := by
    intro t' ht' i
    rcases hl with rfl | rfl <;> simp [noteId, noteGen, ht']
  refine ⟨m', w', e1, e2, e3, e4, fun hat' => ?_⟩
  refine h.quiet ht1 ht2 hp e5 e2.msgs hg hg' hw hw' (fun l' h' => e4 _ (hsh l' h')) ?_ ⟨e2.other _ hsy, e4 _ hsy⟩
    (fun t' h' i => ⟨e2.other _ (hno t' h' i).1, e2.other _ (hno t' h' i).2, e4 _ (hno t' h' i).1, e4 _ (hno t' h' i).2⟩) hat'
  intro l' h' a ha
  rw [e2.other _ (hsh l' h')] at ha
  exact .inl ha

theorem getElem?_snoc {α : Type} {l : List α} {x z : α} {i : Nat} (h : (l ++ [x])[i]? = some z) :
    l[i]? = some z ∨ (i = l.length ∧ z = x) := by
  rw [List.getElem?_append] at h
  split at h
  · exact .inl h
  · rename_i hi
    obtain ⟨h1, h2⟩ := List.getElem?_eq_some_iff.1 h
    simp only [List.length_singleton] at h1
    have h3 : i - l.length = 0 := by omega
    rw [h3] at h
    exact .inr ⟨by omega, by simpa using h.symm⟩

/-- A step that changes the cursor or the next id. -/
theorem InvA.claim (h : InvA N n F G m V p cl) {t k r k' r' : Nat} {q q' : RPc} {w' : View Loc} {l : Loc} {y : Msg Loc}
    {cl' : Nat → Nat → Option Claim} (ht1 : 1 ≤ t) (ht2 : t ≤ N) (hp : p t = .res t k r q) (hle : (V t).cur.Le w'.cur)
    (ha : Appends m m' l y) (hl : signal ≠ l) (hg : (p t).isGone = false) (hg' : (HPc.res t k' r' q').isGone = false)
    (hcl : ∀ t', t' ≠ t → cl' t' = cl t') (hat : ResAt F G (n t) cl' m t k' r' q')
    (cur : ∀ (i : Nat) (x : Msg Loc), (m'.msgs cursor)[i]? = some x → x.val = (F.length : Int) - i)
    (nxt : ∀ (i : Nat) (x : Msg Loc), (m'.msgs nextId)[i]? = some x → x.val = ((G.length + i : Nat) : Int) % 4294967296)
    (curLen : 1 ≤ (m'.msgs cursor).length)
    (seen : (m'.msgs cursor).length = 1 ∨ ∃ i, 1 ≤ i ∧ i ≤ N ∧ (m'.msgs cursor).length ≤ (upd V t w' i).cur.seen cursor + 1)
    (fresh : (m'.msgs nextId).length + cnt N (fun i => (upd p t (.res t k' r' q') i).isWaiting) =
      1 + ((m'.msgs cursor).length - 1 - F.length))
    (nxtLen : 1 ≤ (m'.msgs nextId).length)
    (claims : Claims N F.length ((m'.msgs cursor).length - 1) ((m'.msgs nextId).length - 1) cl') :
    InvA N n F G m' (upd V t w') (upd p t (.res t k' r' q')) cl' := by
  have h0 : (0 : Nat) ≠ t := by omega
  have hcg := cnt_upd HPc.isGone p t (.res t k' r' q') ht1 ht2
  rw [hg, hg'] at hcg
  refine ⟨?_, ?_, ?_, cur, nxt, ?_, curLen, ?_, ?_, ?_, ?_, ?_, seen, fresh, nxtLen, claims⟩
  · rw [upd_ne _ _ h0]; exact h.main
  · intro t' h1 h2
    by_cases e : t' = t
    · subst e; rw [upd_self]
      exact ⟨_, _, _, rfl, hat.frame rfl (fun i => by rw [ha.accs]) (fun i => by rw [ha.accs]) (fun i => by rw [ha.cell])
        fun i => by rw [ha.cell]⟩
    · rw [upd_ne _ _ e]
      obtain ⟨k1, r1, q1, e1, e2⟩ := h.work t' h1 h2
      exact ⟨k1, r1, q1, e1, e2.frame (hcl t' e) (fun i => by rw [ha.accs]) (fun i => by rw [ha.accs]) (fun i => by rw [ha.cell])
        fun i => by rw [ha.cell]⟩
  · intro t' h1; rw [upd_ne _ _ (by omega)]; exact h.offs t' h1
  · rw [ha.other _ hl]; exact h.sig
  · rw [ha.cell]; exact h.cell
  · rw [ha.accs]
    intro l hl a haa
    obtain ⟨a1, a2, a3, a4⟩ := h.accs l hl a haa
    refine ⟨a1, a2, a3, ?_⟩
    by_cases e : a.tid = t
    · rw [e, upd_self]; rw [e] at a4; exact Nat.le_trans a4 (hle.2 t)
    · rw [upd_ne _ _ e]; exact a4
  · rw [ha.cell, ha.accs]; exact h.syn
  · rw [ha.other _ hl]
    intro y hy t' h1 h2 h3
    by_cases e : t' = t
    · subst e; rw [upd_self, hg'] at h3; cases h3
    · rw [upd_ne _ _ e] at h3 ⊢; exact h.known y hy t' h1 h2 h3
  · rw [ha.other _ hl, h.count]; simp at hcg; omega

/-- Thread `t` gets a claim for its handle number `k`. -/
def claimed (cl : Nat → Nat → Option Claim) (t k : Nat) (c : Claim) : Nat → Nat → Option Claim := upd cl t (upd (cl t) k (some c))

theorem claimed_self (cl : Nat → Nat → Option Claim) (t k : Nat) (c : Claim) : claimed cl t k c t k = some c := by
  simp [claimed, upd_self]

theorem claimed_ne (cl : Nat → Nat → Option Claim) {t k t' k' : Nat} (c : Claim) (h : ¬ (t' = t ∧ k' = k)) :
    claimed cl t k c t' k' = cl t' k' := by
  simp only [claimed, upd]
  split
  · subst_vars
    exact if_neg fun e => h ⟨rfl, e⟩
  · rfl

theorem ResAt.claimed {tot t k r r' : Nat} {q q' : RPc} (h : ResAt F G tot cl m t k r q) (c : Claim)
    (hq : QAt F G tot (some c) (m.cell (noteId t k)) k r' q') : ResAt F G tot (claimed cl t k c) m t k r' q' := by
  refine ⟨fun i hi => ?_, fun i hi => ?_, h.fresh, h.own, ?_⟩
  · rw [claimed_ne _ _ (by omega)]; exact h.before i hi
  · rw [claimed_ne _ _ (by omega)]; exact h.after i hi
  · rw [claimed_self]; exact hq

theorem Claims.claimed {f C X C' X' t k : Nat} (h : Claims N f C X cl) (hC : C ≤ C') (hX : X ≤ X') (c : Claim)
    (h1 : ∀ i, c = .free i → i < f ∧ f ≤ C' + i) (h2 : ∀ j, c = .fresh j → j < X')
    (h3 : ∀ t' k', cl t' k' = some c → c = .wait) (h4 : cl t k = none ∨ cl t k = some .wait) (ht : 1 ≤ t ∧ t ≤ N)
    (h5 : ∀ i, i < f → f ≤ C' + i → f ≤ C + i ∨ c = .free i) (h6 : ∀ j, j < X' → j < X ∨ c = .fresh j) :
    Claims N f C' X' (claimed cl t k c) := by
  have hold : ∀ {t' k' d}, cl t' k' = some d → d ≠ .wait → CoEcs.Weak.claimed cl t k c t' k' = some d := by
    intro t' k' d hd hw
    rw [claimed_ne, hd]
    rintro ⟨rfl, rfl⟩
    rcases h4 with h4 | h4 <;> rw [h4] at hd <;> cases hd
    exact hw rfl
  refine ⟨fun t' k' i e => ?_, fun t' k' j e => ?_, fun t1 k1 t2 k2 d e1 e2 => ?_, fun t' k' d e => ?_, fun i h1 h2 => ?_, fun j hj => ?_⟩
  · by_cases hh : t' = t ∧ k' = k
    · obtain ⟨rfl, rfl⟩ := hh
      rw [claimed_self] at e; exact h1 i (Option.some.inj e)
    · rw [claimed_ne _ _ hh] at e
      have := h.free t' k' i e; omega
  · by_cases hh : t' = t ∧ k' = k
    · obtain ⟨rfl, rfl⟩ := hh
      rw [claimed_self] at e; exact h2 j (Option.some.inj e)
    · rw [claimed_ne _ _ hh] at e
      have := h.fresh t' k' j e; omega
  · by_cases hh1 : t1 = t ∧ k1 = k
    · obtain ⟨rfl, rfl⟩ := hh1
      rw [claimed_self] at e1
      cases Option.some.inj e1
      by_cases hh2 : t2 = t1 ∧ k2 = k1
      · exact .inr ⟨hh2.1.symm, hh2.2.symm⟩
      · rw [claimed_ne _ _ hh2] at e2; exact .inl (h3 _ _ e2)
    · rw [claimed_ne _ _ hh1] at e1
      by_cases hh2 : t2 = t ∧ k2 = k
      · obtain ⟨rfl, rfl⟩ := hh2
        rw [claimed_self] at e2
        cases Option.some.inj e2
        exact .inl (h3 _ _ e1)
      · rw [claimed_ne _ _ hh2] at e2; exact h.inj t1 k1 t2 k2 d e1 e2
  · by_cases hh : t' = t ∧ k' = k
    · rw [hh.1]; exact ht
    · rw [claimed_ne _ _ hh] at e; exact h.range t' k' d e
  · rcases h5 i h1 h2 with h5 | rfl
    · obtain ⟨t', k', e⟩ := h.allFree i h1 h5
      exact ⟨t', k', hold e (by simp)⟩
    · exact ⟨t, k, claimed_self ..⟩
  · rcases h6 j hj with h6 | rfl
    · obtain ⟨t', k', e⟩ := h.allFresh j h6
      exact ⟨t', k', hold e (by simp)⟩
    · exact ⟨t, k, claimed_self ..⟩

/-- The result of a step of a thread that reserves. -/
def ResGoal (N : Nat) (n : Nat → Nat) (F G : List Nat) (V : Nat → View Loc) (p : Nat → HPc) (t k r : Nat) (q : RPc) : Eff Loc → Prop
  | .no => True
  | .race => False
  | .ok m' w' v => ∃ cl', InvA N n F G m' (upd V t w') (upd p t (resNext t k r v q)) cl'

theorem InvA.cursor_step (h : InvA N n F G m V p cl) (strong : Bool) (ch : Nat) {t k r : Nat} (ht1 : 1 ≤ t) (ht2 : t ≤ N)
    (hp : p t = .res t k (r + 1) .start) (hat : ResAt F G (n t) cl m t k (r + 1) .start) :
    ResGoal N n F G V p t k (r + 1) .start (exec strong t ch (.rmw .rlx cursor fun x => some (x - 1)) m (V t)) := by
  rcases rmw_any strong t ch cursor (fun x => some (x - 1)) m (V t) (by decide : Order.rlx ≠ .sc) (fun x => ⟨_, rfl⟩) with e | ⟨m', w', x, y, e1, e2, e3, e4, e5, e6, e7, e8, _⟩
  · rw [e]; trivial
  rw [e3]
  have hx := h.cur ch x e1
  have hy : y.val = x.val - 1 := (Option.some.inj e4).symm
  have hn : nextId ≠ cursor := by decide
  have hlen : (m'.msgs cursor).length = ch + 2 := by rw [e5.here, List.length_append, ← e2]; rfl
  have hcur : ∀ (i : Nat) (z : Msg Loc), (m'.msgs cursor)[i]? = some z → z.val = (F.length : Int) - i := by
    intro i z hz
    rw [e5.here] at hz
    rcases getElem?_snoc hz with hz | ⟨rfl, rfl⟩
    · exact h.cur i z hz
    · rw [hy, hx]; omega
  have hnxt := h.nxt
  have hseen : (m'.msgs cursor).length = 1 ∨ ∃ i, 1 ≤ i ∧ i ≤ N ∧ (m'.msgs cursor).length ≤ (upd V t w' i).cur.seen cursor + 1 :=
    .inr ⟨t, ht1, ht2, by rw [upd_self]; omega⟩
  have hg : (p t).isGone = false := by rw [hp]; rfl
  have hfr := h.fresh
  have hnl := h.nxtLen
  have hclm := h.claims
  have hc0 : cl t k = none := hat.at'.1
  have hkr : k + (r + 1) = n t := hat.at'.2
  have hcw := fun q' => cnt_upd HPc.isWaiting p t (.res t k r q') ht1 ht2
  by_cases hv : x.val > 0
  · have hsz : ch < F.length := by omega
    have hnx : resNext t k (r + 1) x.val .start = .res t k r (.r1 x.val) := if_pos hv
    refine ⟨claimed cl t k (.free (F.length - 1 - ch)), ?_⟩
    rw [hnx]
    refine h.claim ht1 ht2 hp e6 e5 (by decide) hg rfl (fun t' ht' => upd_ne _ _ ht') (hat.claimed _ ⟨by omega, _, rfl, by omega⟩) hcur
      (by rw [e5.other _ hn]; exact hnxt) (by omega) hseen ?_ (by rw [e5.other _ hn]; exact hnl) ?_
    · have := hcw (.r1 x.val)
      have h1 : (p t).isWaiting.toNat = 0 := by rw [hp]; rfl
      have h2 : (HPc.res t k r (.r1 x.val)).isWaiting.toNat = 0 := rfl
      rw [e5.other _ hn, hlen]
      omega
    · rw [e5.other _ hn]
      refine hclm.claimed (by omega) (Nat.le_refl _) _ (fun i e => ?_) (fun j e => by cases e) (fun t' k' e => ?_) (.inl hc0) ⟨ht1, ht2⟩
        (fun i h1 h2 => ?_) (fun j hj => .inl hj)
      · cases e; omega
      · have := hclm.free _ _ _ e; omega
      · by_cases e : i = F.length - 1 - ch
        · exact .inr (by rw [e])
        · exact .inl (by omega)
  · have hsz : F.length ≤ ch := by omega
    have hnx : resNext t k (r + 1) x.val .start = .res t k r .r5 := if_neg hv
    refine ⟨claimed cl t k .wait, ?_⟩
    rw [hnx]
    refine h.claim ht1 ht2 hp e6 e5 (by decide) hg rfl (fun t' ht' => upd_ne _ _ ht') (hat.claimed _ ⟨by omega, rfl⟩) hcur
      (by rw [e5.other _ hn]; exact hnxt) (by omega) hseen ?_ (by rw [e5.other _ hn]; exact hnl) ?_
    · have := hcw .r5
      have h1 : (p t).isWaiting.toNat = 0 := by rw [hp]; rfl
      have h2 : (HPc.res t k r .r5).isWaiting.toNat = 1 := rfl
      rw [e5.other _ hn, hlen]
      omega
    · rw [e5.other _ hn]
      exact hclm.claimed (by omega) (Nat.le_refl _) _ (fun i e => by cases e) (fun j e => by cases e) (fun t' k' e => rfl) (.inl hc0) ⟨ht1, ht2⟩
        (fun i h1 h2 => .inl (by omega)) (fun j hj => .inl hj)

theorem InvA.next_step (h : InvA N n F G m V p cl) (strong : Bool) (ch : Nat) {t k r : Nat} (ht1 : 1 ≤ t) (ht2 : t ≤ N)
    (hp : p t = .res t k r .r5) (hat : ResAt F G (n t) cl m t k r .r5) :
    ResGoal N n F G V p t k r .r5 (exec strong t ch (.rmw .rlx nextId fun x => some ((x + 1) % 4294967296)) m (V t)) := by
  rcases rmw_any strong t ch nextId (fun x => some ((x + 1) % 4294967296)) m (V t) (by decide : Order.rlx ≠ .sc) (fun x => ⟨_, rfl⟩) with
    e | ⟨m', w', x, y, e1, e2, e3, e4, e5, e6, e7, e8, _⟩
  · rw [e]; trivial
  rw [e3]
  have hx := h.nxt ch x e1
  have hy : y.val = (x.val + 1) % 4294967296 := (Option.some.inj e4).symm
  have hn : cursor ≠ nextId := by decide
  have hlen : (m'.msgs nextId).length = ch + 2 := by rw [e5.here, List.length_append, ← e2]; rfl
  have hnxt : ∀ (i : Nat) (z : Msg Loc), (m'.msgs nextId)[i]? = some z → z.val = ((G.length + i : Nat) : Int) % 4294967296 := by
    intro i z hz
    rw [e5.here] at hz
    rcases getElem?_snoc hz with hz | ⟨rfl, rfl⟩
    · exact h.nxt i z hz
    · rw [hy, hx]; omega
  have hg : (p t).isGone = false := by rw [hp]; rfl
  have hfr := h.fresh
  have hclm := h.claims
  have hkr : k + r + 1 = n t := hat.at'.1
  have hcw := cnt_upd HPc.isWaiting p t (.res t k r (.r6 x.val 0)) ht1 ht2
  have hct := cnt_le (fun i => (p i).isWaiting) N
  refine ⟨claimed cl t k (.fresh ch), ?_⟩
  show InvA N n F G m' (upd V t w') (upd p t (.res t k r (.r6 x.val 0))) _
  refine h.claim ht1 ht2 hp e6 e5 (by decide) hg rfl (fun t' ht' => upd_ne _ _ ht')
    (hat.claimed _ ⟨by omega, _, rfl, by simp only [Claim.Is, hx]⟩) (by rw [e5.other _ hn]; exact h.cur) hnxt
    (by rw [e5.other _ hn]; exact h.curLen) ?_ ?_ (by omega) ?_
  · rw [e5.other _ hn]
    rcases h.seen with h1 | ⟨t', h1, h2, h3⟩
    · exact .inl h1
    · refine .inr ⟨t', h1, h2, ?_⟩
      by_cases e : t' = t
      · subst e; rw [upd_self]; have := e6.1 cursor; omega
      · rw [upd_ne _ _ e]; exact h3
  · have h1 : (p t).isWaiting.toNat = 1 := by rw [hp]; rfl
    have h2 : (HPc.res t k r (.r6 x.val 0)).isWaiting.toNat = 0 := rfl
    rw [e5.other _ hn, hlen]
    omega
  · rw [e5.other _ hn]
    refine hclm.claimed (Nat.le_refl _) (by omega) _ (fun i e => by cases e) (fun j e => by cases e; omega) (fun t' k' e => ?_)
      (.inr hat.at'.2) ⟨ht1, ht2⟩ (fun i h1 h2 => .inl h2) (fun j hj => ?_)
    · have := hclm.fresh _ _ _ e; omega
    · by_cases e : j = ch
      · exact .inr (by rw [e])
      · exact .inl (by omega)

theorem InvA.signal_step (h : InvA N n F G m V p cl) (strong : Bool) (ch : Nat) {t k : Nat} (ht1 : 1 ≤ t) (ht2 : t ≤ N)
    (hp : p t = .res t k 0 .start) (hat : ResAt F G (n t) cl m t k 0 .start) :
    ResGoal N n F G V p t k 0 .start (exec strong t ch (.rmw .rel signal fun x => some (x + 1)) m (V t)) := by
  rcases rmw_any strong t ch signal (fun x => some (x + 1)) m (V t) (by decide : Order.rel ≠ .sc) (fun x => ⟨_, rfl⟩) with
    e | ⟨m', w', x, y, e1, e2, e3, e4, e5, e6, e7, e8, e9⟩
  · rw [e]; trivial
  rw [e3]
  have hx := h.sig ch x e1
  have hy : y.val = x.val + 1 := (Option.some.inj e4).symm
  have hc : cursor ≠ signal := by decide
  have hn : nextId ≠ signal := by decide
  have hcg := cnt_upd HPc.isGone p t (.res t k 0 .gone) ht1 ht2
  have hcw := cnt_upd HPc.isWaiting p t (.res t k 0 .gone) ht1 ht2
  have hc1 : (p t).isGone.toNat = 0 := by rw [hp]; rfl
  have hc2 : (HPc.res t k 0 .gone).isGone.toNat = 1 := rfl
  have hc3 : (p t).isWaiting.toNat = 0 := by rw [hp]; rfl
  have hc4 : (HPc.res t k 0 .gone).isWaiting.toNat = 0 := rfl
  have h0 : (0 : Nat) ≠ t := by omega
  refine ⟨cl, ?_⟩
  show InvA N n F G m' (upd V t w') (upd p t (.res t k 0 .gone)) cl
  refine ⟨?_, ?_, ?_, ?_, ?_, ?_, ?_, ?_, ?_, ?_, ?_, ?_, ?_, ?_, ?_, ?_⟩
  · rw [upd_ne _ _ h0]; exact h.main
  · intro t' h1 h2
    by_cases e : t' = t
    · subst e; rw [upd_self]
      refine ⟨_, _, _, rfl, ?_⟩
      have : ResAt F G (n t') cl m t' k 0 .gone := ⟨hat.before, hat.after, hat.fresh, hat.own, hat.at'.1, by have := hat.at'.2; omega, rfl⟩
      exact this.frame rfl (fun i => by rw [e5.accs]) (fun i => by rw [e5.accs]) (fun i => by rw [e5.cell]) fun i => by rw [e5.cell]
    · rw [upd_ne _ _ e]
      obtain ⟨k1, r1, q1, e1, e2⟩ := h.work t' h1 h2
      exact ⟨k1, r1, q1, e1, e2.frame rfl (fun i => by rw [e5.accs]) (fun i => by rw [e5.accs]) (fun i => by rw [e5.cell])
        fun i => by rw [e5.cell]⟩
  · intro t' h1; rw [upd_ne _ _ (by omega)]; exact h.offs t' h1
  · rw [e5.other _ hc]; exact h.cur
  · rw [e5.other _ hn]; exact h.nxt
  · intro i z hz
    rw [e5.here] at hz
    rcases getElem?_snoc hz with hz | ⟨rfl, rfl⟩
    · exact h.sig i z hz
    · rw [hy, hx]; omega
  · rw [e5.other _ hc]; exact h.curLen
  · rw [e5.cell]; exact h.cell
  · rw [e5.accs]
    intro l hl a haa
    obtain ⟨a1, a2, a3, a4⟩ := h.accs l hl a haa
    refine ⟨a1, a2, a3, ?_⟩
    by_cases e : a.tid = t
    · rw [e, upd_self]; rw [e] at a4; exact Nat.le_trans a4 (e6.2 t)
    · rw [upd_ne _ _ e]; exact a4
  · rw [e5.cell, e5.accs]; exact h.syn
  · intro z hz t' h1 h2 h3
    rw [e5.here, List.getLast?_append] at hz
    simp only [List.getLast?_singleton, Option.some_or, Option.some.injEq] at hz
    subst hz
    by_cases e : t' = t
    · subst e; rw [upd_self]; exact e9 rfl
    · rw [upd_ne _ _ e] at h3 ⊢
      refine (h.known x ?_ t' h1 h2 h3).trans e8
      rw [List.getLast?_eq_getElem?, ← e2]; exact e1
  · rw [e5.here, List.length_append, h.count]
    simp only [List.length_singleton]
    omega
  · rw [e5.other _ hc]
    rcases h.seen with h1 | ⟨t', h1, h2, h3⟩
    · exact .inl h1
    · refine .inr ⟨t', h1, h2, ?_⟩
      by_cases e : t' = t
      · subst e; rw [upd_self]; have := e6.1 cursor; omega
      · rw [upd_ne _ _ e]; exact h3
  · rw [e5.other _ hc, e5.other _ hn, ← h.fresh]
    omega
  · rw [e5.other _ hn]; exact h.nxtLen
  · rw [e5.other _ hc, e5.other _ hn]; exact h.claims

theorem InvA.res_step (hok : PoolOk F G) (h : InvA N n F G m V p cl) (strong : Bool) (ch : Nat) {t k r : Nat} {q : RPc} (ht1 : 1 ≤ t)
    (ht2 : t ≤ N) (hp : p t = .res t k r q) (hat : ResAt F G (n t) cl m t k r q) {o : Op Loc} (ho : resOp t k r q = some o) :
    ResGoal N n F G V p t k r q (exec strong t ch o m (V t)) := by
  cases q with
  | start =>
    cases r with
    | zero => cases ho; exact h.signal_step strong ch ht1 ht2 hp hat
    | succ r => cases ho; exact h.cursor_step strong ch ht1 ht2 hp hat
  | r1 v =>
    cases ho
    obtain ⟨m', w', e, hi⟩ := h.read strong ch ht1 ht2 hp hat (by rw [hp]; rfl) (by rw [hp]; rfl) Shared.frees
    rw [e]
    exact ⟨cl, hi _ rfl rfl hat.at'⟩
  | r2 v =>
    cases ho
    obtain ⟨hkr, i, hc, rfl⟩ := hat.at'
    obtain ⟨m', w', e, hi⟩ := h.read strong ch ht1 ht2 hp hat (by rw [hp]; rfl) (by rw [hp]; rfl) (Shared.free ((i : Int) + 1 - 1).toNat)
    rw [e]
    refine ⟨cl, hi _ rfl rfl ⟨hkr, i, F[i]'(h.claims.free _ _ _ hc).1, hc, by simp, ?_⟩⟩
    have : ((i : Int) + 1 - 1).toNat = i := by omega
    rw [this]
    simp only [pooled, freeId, List.getD_eq_getElem?_getD]
    rw [List.getElem?_eq_getElem (h.claims.free _ _ _ hc).1]; rfl
  | r3 v =>
    cases ho
    obtain ⟨m', w', e, hi⟩ := h.read strong ch ht1 ht2 hp hat (by rw [hp]; rfl) (by rw [hp]; rfl) Shared.gens
    rw [e]
    exact ⟨cl, hi _ rfl rfl hat.at'⟩
  | r4 v =>
    cases ho
    obtain ⟨hkr, i, x, hc, hx, rfl⟩ := hat.at'
    obtain ⟨m', w', e, hi⟩ := h.read strong ch ht1 ht2 hp hat (by rw [hp]; rfl) (by rw [hp]; rfl) (Shared.gen (x : Int).toNat)
    rw [e]
    have hxg : x < G.length := hok.bound x (List.mem_of_getElem? hx)
    refine ⟨cl, hi _ rfl rfl ⟨hkr, _, hc, x, G[x], hx, List.getElem?_eq_getElem hxg, ?_⟩⟩
    simp only [pooled, gen, Int.toNat_natCast, List.getD_eq_getElem?_getD]
    rw [List.getElem?_eq_getElem hxg]; rfl
  | r5 => cases ho; exact h.next_step strong ch ht1 ht2 hp hat
  | r6 v g =>
    cases ho
    obtain ⟨hkr, d, hd, hi⟩ := hat.at'
    obtain ⟨m', w', e, e1, e2, e3, e4⟩ := h.note (k' := k) (r' := r) (q' := .r7 v g) strong ch ht1 ht2 hp hat (by rw [hp]; rfl)
      (by rw [hp]; rfl) (.inl rfl) v rfl rfl
    rw [e]
    have hne : ∀ i, noteGen t i ≠ noteId t k := fun i => by simp [noteGen, noteId]
    refine ⟨cl, e4 ⟨fun i hi' => ?_, hat.after, fun i hi' => ?_, fun i a ha => ?_, hkr, e2, d, hd, hi⟩⟩
    · have hni : noteId t i ≠ noteId t k := by simp [noteId]; omega
      obtain ⟨b1, b2⟩ := hat.before i hi'
      refine ⟨?_, ?_⟩
      · simp only [Noted, e1.other _ (hne i)]; exact b1
      · simp only [noted, e3 _ (hne i), e3 _ hni]; exact b2
    · rw [e1.other _ (hne i)]; exact hat.fresh i hi'
    · rcases ha with ha | ha
      · rcases e1.mem ha with h1 | h1
        · exact hat.own i a (.inl h1)
        · exact h1.2.2.1
      · rw [e1.other _ (hne i)] at ha; exact hat.own i a (.inr ha)
  | r7 v g =>
    cases ho
    obtain ⟨hkr, hid, d, hd, hi⟩ := hat.at'
    obtain ⟨m', w', e, e1, e2, e3, e4⟩ := h.note (k' := k + 1) (r' := r) (q' := .start) strong ch ht1 ht2 hp hat (by rw [hp]; rfl)
      (by rw [hp]; rfl) (.inr rfl) g rfl rfl
    rw [e]
    have hne : ∀ i, noteId t i ≠ noteGen t k := fun i => by simp [noteGen, noteId]
    refine ⟨cl, e4 ⟨fun i hi' => ?_, fun i hi' => hat.after i (by omega), fun i hi' => ?_, fun i a ha => ?_, hat.after _ (by omega), by omega⟩⟩
    · by_cases hik : i = k
      · subst hik
        refine ⟨?_, d, hd, ?_⟩
        · obtain ⟨_, h1, _⟩ := e1.here
          simp only [Noted, h1]; simp
        · simp only [noted, e2, e3 _ (hne i), hid]; exact hi
      · have hni : noteGen t i ≠ noteGen t k := by simp [noteGen]; omega
        obtain ⟨b1, b2⟩ := hat.before i (by omega)
        refine ⟨?_, ?_⟩
        · simp only [Noted, e1.other _ hni]; exact b1
        · simp only [noted, e3 _ (hne i), e3 _ hni]; exact b2
    · rw [e1.other _ (by simp [noteGen]; omega)]; exact hat.fresh i (by omega)
    · rcases ha with ha | ha
      · rw [e1.other _ (hne i)] at ha; exact hat.own i a (.inl ha)
      · rcases e1.mem ha with h1 | h1
        · exact hat.own i a (.inr h1)
        · exact h1.2.2.1
  | gone => cases ho

/-! ## Steps of the thread that flushes -/

/-- The result of a step of the thread that flushes. -/
def SynGoal (N : Nat) (n : Nat → Nat) (F G : List Nat) (V : Nat → View Loc) (p : Nat → HPc) (f : Nat) (q : SPc) : Eff Loc → Prop
  | .no => True
  | .race => False
  | .ok m' w' v => Inv2 N n F G m' (upd V 0 w') (upd p 0 (synNext N f v q))

/-- It looks for the signal. -/
theorem InvA.look (h : InvA N n F G m V p cl) (strong : Bool) (ch : Nat) {f : Nat} :
    SynGoal N n F G V p (f + 1) .start (exec strong 0 ch (.load .acq signal) m (V 0)) := by
  rcases load_cases strong 0 ch .acq signal m (V 0) with e | ⟨x, e1, e2, e3⟩
  · rw [e]; trivial
  rw [e3]
  have hx := h.sig ch x e1
  show Inv2 N n F G m _ (upd p 0 (if x.val = (N : Int) then .syn N (f + 1 - 1) .f1 else .syn N (f + 1 - 1) .start))
  rw [Nat.add_sub_cancel]
  have hle := View.le_got (V 0) .acq signal ch x
  by_cases hv : x.val = (N : Int)
  · rw [if_pos hv]
    have hlen := (List.getElem?_eq_some_iff.1 e1).1
    have hc := h.count
    have hcl := cnt_le (fun t => (p t).isGone) N
    have hgone := cnt_full (f := fun t => (p t).isGone) (N := N) (by omega)
    have hlast : (m.msgs signal).getLast? = some x := by
      rw [List.getLast?_eq_getElem?, show (m.msgs signal).length - 1 = ch by omega]; exact e1
    have hk : ∀ t, 1 ≤ t → t ≤ N → (V t).cur.Le ((V 0).got .acq signal ch x).cur := fun t h1 h2 =>
      (h.known x hlast t h1 h2 (hgone t h1 h2)).trans (View.got_acq _ rfl ..)
    have hwork : ∀ t, 1 ≤ t → t ≤ N → p t = .res t (n t) 0 .gone ∧ ResAt F G (n t) cl m t (n t) 0 .gone := by
      intro t h1 h2
      obtain ⟨k, r, q, e1, e2⟩ := h.work t h1 h2
      have := hgone t h1 h2
      rw [e1] at this
      cases q <;> simp only [HPc.isGone, Bool.false_eq_true] at this
      obtain ⟨_, rfl, rfl⟩ := e2.at'
      exact ⟨e1, e2⟩
    have hwt : cnt N (fun t => (p t).isWaiting) = 0 := cnt_none fun t h1 h2 => by rw [(hwork t h1 h2).1]; rfl
    have hfr := h.fresh
    have hnl := h.nxtLen
    have hcuL := h.curLen
    refine .inr ⟨cl, (m.msgs cursor).length - 1, ?_, ?_, ?_, ?_, ?_, ?_, ?_, ?_, ?_⟩
    · refine ⟨f, .f1, upd_self .., ⟨?_, ?_, by omega, ?_, h.cur⟩, fun hs => ?_⟩
      · rw [h.cell _ .gens]; rfl
      · rw [h.cell _ .frees]; rfl
      · rw [upd_self]
        rcases h.seen with h1 | ⟨t, h1, h2, h3⟩
        · omega
        · have := (hk t h1 h2).1 cursor; omega
      · rw [h.syn.2] at hs; cases hs
    · intro t h1 h2
      rw [upd_ne _ _ (by omega)]; exact hwork t h1 h2
    · intro t h1; rw [upd_ne _ _ (by omega)]; exact h.offs t h1
    · refine ⟨by omega, ?_⟩
      have hl : (m.msgs nextId).length - 1 < (m.msgs nextId).length := by omega
      simp only [lastOf]
      rw [List.getLast?_eq_getElem?, List.getElem?_eq_getElem hl]
      have := h.nxt _ _ (List.getElem?_eq_getElem hl)
      simp only [Option.map_some, Option.some.injEq]
      rw [this]
      have : (m.msgs nextId).length - 1 = (m.msgs cursor).length - 1 - F.length := by omega
      rw [this]
    · intro i; rw [h.cell _ (.gen i)]; rfl
    · intro i; rw [h.cell _ (.free i)]; rfl
    · intro l hl a ha
      obtain ⟨_, a2, a3, a4⟩ := h.accs l hl a ha
      rw [upd_self]
      exact .inr (Nat.le_trans a4 ((hk _ a2 a3).2 _))
    · rw [h.syn.1]; intro a ha; cases ha
    · have := h.claims
      rwa [show (m.msgs nextId).length - 1 = (m.msgs cursor).length - 1 - F.length by omega] at this
  · rw [if_neg hv]
    refine .inl ⟨cl, ⟨f, upd_self ..⟩, ?_, ?_, h.cur, h.nxt, h.sig, h.curLen, h.cell, ?_, h.syn, ?_, ?_, ?_, ?_, h.nxtLen, h.claims⟩
    · intro t h1 h2; rw [upd_ne _ _ (by omega)]; exact h.work t h1 h2
    · intro t h1; rw [upd_ne _ _ (by omega)]; exact h.offs t h1
    · intro l hl a ha
      have := h.accs l hl a ha
      rw [upd_ne _ _ (by omega)]; exact this
    · intro y hy t h1 h2
      rw [upd_ne _ _ (by omega), upd_ne _ _ (by omega)]; exact h.known y hy t h1 h2
    · rw [h.count]
      congr 1
      exact cnt_congr fun t h1 _ => by rw [upd_ne _ _ (by omega)]
    · rcases h.seen with h1 | ⟨t, h1, h2, h3⟩
      · exact .inl h1
      · exact .inr ⟨t, h1, h2, by rw [upd_ne _ _ (by omega)]; exact h3⟩
    · rw [← h.fresh]
      congr 1
      exact cnt_congr fun t h1 _ => by rw [upd_ne _ _ (by omega)]

variable {C : Nat}

/-- A step of the flush. -/
theorem InvB.quiet (h : InvB N n F G m V p cl C) {w' : View Loc} {f : Nat} {q : SPc} (hle : (V 0).cur.Le w'.cur)
    (hn : m'.msgs nextId = m.msgs nextId) (hg : ∀ i, m'.cell (gen i) = m.cell (gen i)) (hf : ∀ i, m'.cell (freeId i) = m.cell (freeId i))
    (ha : ∀ l, ∀ a ∈ m'.accs l, a ∈ m.accs l ∨ a.tid = 0)
    (hno : ∀ t i, m'.accs (noteId t i) = m.accs (noteId t i) ∧ m'.accs (noteGen t i) = m.accs (noteGen t i) ∧
      m'.cell (noteId t i) = m.cell (noteId t i) ∧ m'.cell (noteGen t i) = m.cell (noteGen t i))
    (hs : SAt F G C m' w' (m'.cell gens) (m'.cell frees) q) (hq : m'.cell synced = 1 → q = .gone) :
    Inv2 N n F G m' (upd V 0 w') (upd p 0 (.syn N f q)) := by
  refine .inr ⟨cl, C, ⟨f, q, upd_self .., by rw [upd_self]; exact hs, hq⟩, ?_, ?_, ?_, ?_, ?_, ?_, ?_, h.claims⟩
  · intro t h1 h2
    rw [upd_ne _ _ (by omega)]
    obtain ⟨a, b⟩ := h.work t h1 h2
    exact ⟨a, b.frame rfl (fun i => (hno t i).1) (fun i => (hno t i).2.1) (fun i => (hno t i).2.2.1) fun i => (hno t i).2.2.2⟩
  · intro t h1; rw [upd_ne _ _ (by omega)]; exact h.offs t h1
  · simp only [lastOf, hn]; exact h.nxt
  · intro i; rw [hg]; exact h.genC i
  · intro i; rw [hf]; exact h.freeC i
  · intro l hl a haa
    rw [upd_self]
    rcases ha l a haa with h1 | h1
    · rcases h.accs l hl a h1 with h2 | h2
      · exact .inl h2
      · exact .inr (Nat.le_trans h2 (hle.2 _))
    · exact .inl h1
  · intro a haa
    rcases ha _ a haa with h1 | h1
    · exact h.syn a h1
    · exact h1

theorem InvB.read (h : InvB N n F G m V p cl C) (strong : Bool) (ch : Nat) {l : Loc} (hl : Shared l) (hns : m.cell synced ≠ 1) :
    ∃ m' w', exec strong 0 ch (.read l) m (V 0) = .ok m' w' (m.cell l) ∧
      ∀ f q, SAt F G C m' w' (m.cell gens) (m.cell frees) q → Inv2 N n F G m' (upd V 0 w') (upd p 0 (.syn N f q)) := by
  obtain ⟨m', w', e1, e2, e3, e4, e5⟩ := read_any strong 0 ch l m (V 0) fun a ha => .inr (h.accs l hl a ha)
  obtain ⟨n1, n2, n3⟩ := hl.ne
  refine ⟨m', w', e1, fun f q hs => h.quiet e4 (by rw [e2.msgs]) (fun i => by rw [e3]) (fun i => by rw [e3]) (fun l a ha => ?_)
    (fun t i => ⟨e2.other _ (n1 t i), e2.other _ (n2 t i), by rw [e3], by rw [e3]⟩) (by rw [e3]; exact hs)
    fun hy => absurd (by rw [← e3]; exact hy) hns⟩
  rcases e2.mem ha with h1 | h1
  · exact .inl h1
  · exact .inr h1.2.2.1

theorem InvB.write (h : InvB N n F G m V p cl C) (strong : Bool) (ch : Nat) {l : Loc} (hl : Shared l) (v : Int)
    (hv : (∀ i, l = gen i → m.cell l = v) ∧ ∀ i, l ≠ freeId i) (hns : m.cell synced ≠ 1) :
    ∃ m' w', exec strong 0 ch (.write l v) m (V 0) = .ok m' w' 0 ∧
      ∀ f q, SAt F G C m' w' (if l = gens then v else m.cell gens) (if l = frees then v else m.cell frees) q →
        Inv2 N n F G m' (upd V 0 w') (upd p 0 (.syn N f q)) := by
  obtain ⟨m', w', e1, e2, e3, e4, e5, e6⟩ := write_any strong 0 ch l v m (V 0) fun a ha => h.accs l hl a ha
  obtain ⟨n1, n2, n3⟩ := hl.ne
  refine ⟨m', w', e1, fun f q hs => h.quiet e5 (by rw [e2.msgs]) (fun i => ?_) (fun i => e4 _ (hv.2 i).symm) (fun l a ha => ?_)
    (fun t i => ⟨e2.other _ (n1 t i), e2.other _ (n2 t i), e4 _ (n1 t i), e4 _ (n2 t i)⟩) ?_ fun hy => absurd (by rw [← e4 _ n3]; exact hy) hns⟩
  · by_cases e : gen i = l
    · rw [e, e3]; exact (hv.1 i e.symm).symm
    · exact e4 _ e
  · rcases e2.mem ha with h1 | h1
    · exact .inl h1
    · exact .inr h1.2.2.1
  · have h1 : m'.cell gens = if l = gens then v else m.cell gens := by
      by_cases hh : l = gens
      · rw [if_pos hh, ← hh]; exact e3
      · rw [if_neg hh]; exact e4 _ (Ne.symm hh)
    have h2 : m'.cell frees = if l = frees then v else m.cell frees := by
      by_cases hh : l = frees
      · rw [if_pos hh, ← hh]; exact e3
      · rw [if_neg hh]; exact e4 _ (Ne.symm hh)
    rw [h1, h2]; exact hs

theorem SAt.adding {w : View Loc} {S : Int} {j : Nat} (h1 : S + j = G.length + (C - F.length : Nat)) (h2 : (G.length : Int) ≤ S) :
    SAt F G C m w S F.length (.adding ((F.length : Int) - C) j) := by
  cases j with
  | zero => exact ⟨rfl, by simpa using h1, rfl⟩
  | succ j => exact ⟨rfl, by omega, h2, rfl⟩

theorem SAt.dropping {w : View Loc} {S R : Int} {j : Nat} (h1 : S = G.length + (C - F.length : Nat))
    (h2 : R = max ((F.length : Int) - C) 0 + j) : SAt F G C m w S R (.dropping ((F.length : Int) - C) j) := by
  cases j with
  | zero => exact ⟨rfl, h1, by simpa using h2⟩
  | succ j => exact ⟨rfl, h1, by omega⟩

theorem InvB.syn_step (h : InvB N n F G m V p cl C) (strong : Bool) (ch : Nat) {f : Nat} {q : SPc}
    (hat : SAt F G C m (V 0) (m.cell gens) (m.cell frees) q) (hsy : m.cell synced = 1 → q = .gone) {o : Op Loc}
    (ho : synOp f q = some o) : SynGoal N n F G V p f q (exec strong 0 ch o m (V 0)) := by
  have hns : q ≠ .gone → m.cell synced ≠ 1 := fun a b => a (hsy b)
  cases q with
  | start => exact hat.elim
  | f1 =>
    cases ho
    obtain ⟨hS, hR, hl, hs, hc⟩ := hat
    rcases load_cases strong 0 ch .rlx cursor m (V 0) with e | ⟨x, e1, e2, e3⟩
    · rw [e]; trivial
    rw [e3]
    have hch : ch = C := by have := (List.getElem?_eq_some_iff.1 e1).1; omega
    subst hch
    have hx := hc _ _ e1
    show Inv2 N n F G m _ (upd p 0 (.syn N f (.adding x.val (-x.val).toNat)))
    refine h.quiet (View.le_got ..).cur rfl (fun _ => rfl) (fun _ => rfl) (fun _ _ h => .inl h) (fun _ _ => ⟨rfl, rfl, rfl, rfl⟩) ?_
      fun e => absurd e (hns (by simp))
    rw [hS, hR, hx]
    exact SAt.adding (by omega) (Int.le_refl _)
  | a0 c j =>
    cases ho
    obtain ⟨m', w', e, hi⟩ := h.read strong ch Shared.gens (hns (by simp))
    rw [e]
    obtain ⟨h1, h2, h3, h4⟩ := hat
    exact hi f _ ⟨h1, h2, h3, h4, rfl⟩
  | a1 c j k =>
    cases ho
    obtain ⟨h1, h2, h3, h4, rfl⟩ := hat
    obtain ⟨m', w', e, hi⟩ := h.write strong ch (Shared.gen (m.cell gens).toNat) 0 ⟨fun i _ => by
      rw [h.genC, List.getD_eq_getElem?_getD, List.getElem?_eq_none (by omega)]; rfl, fun i => by simp [gen, freeId]⟩ (hns (by simp))
    rw [e]
    refine hi f (.a2 c j (m.cell gens)) ?_
    rw [if_neg (by simp [gen, gens]), if_neg (by simp [gen, frees])]
    exact ⟨h1, h2, h3, h4, rfl⟩
  | a2 c j k =>
    cases ho
    obtain ⟨rfl, h2, h3, h4, rfl⟩ := hat
    obtain ⟨m', w', e, hi⟩ := h.write strong ch Shared.gens (m.cell gens + 1) ⟨fun i e => by simp [gen, gens] at e,
      fun i => by simp [gens, freeId]⟩ (hns (by simp))
    rw [e]
    refine hi f (.adding ((F.length : Int) - C) j) ?_
    rw [if_pos rfl, if_neg (by simp [frees, gens]), h4]
    exact SAt.adding (by omega) (by omega)
  | d0 c =>
    cases ho
    obtain ⟨rfl, h2, h3⟩ := hat
    obtain ⟨m', w', e, hi⟩ := h.read strong ch Shared.frees (hns (by simp))
    rw [e]
    exact hi f (.dropping ((F.length : Int) - C) (m.cell frees - max ((F.length : Int) - C) 0).toNat) (SAt.dropping h2 (by omega))
  | d1 c j =>
    cases ho
    obtain ⟨m', w', e, hi⟩ := h.read strong ch Shared.frees (hns (by simp))
    rw [e]
    obtain ⟨h1, h2, h3⟩ := hat
    exact hi f _ ⟨h1, h2, h3, rfl⟩
  | d2 c j k =>
    cases ho
    obtain ⟨rfl, h2, h3, rfl⟩ := hat
    obtain ⟨m', w', e, hi⟩ := h.write strong ch Shared.frees (m.cell frees - 1) ⟨fun i e => by simp [gen, frees] at e,
      fun i => by simp [frees, freeId]⟩ (hns (by simp))
    rw [e]
    refine hi f (.dropping ((F.length : Int) - C) j) ?_
    rw [if_pos rfl, if_neg (by simp [frees, gens])]
    exact SAt.dropping h2 (by omega)
  | e0 c =>
    cases ho
    obtain ⟨rfl, h2, h3⟩ := hat
    obtain ⟨m', w', y, e1, e2, e3, e4, e5, e6, e7⟩ := store_eq strong 0 ch .rlx cursor (max ((F.length : Int) - C) 0) m (V 0)
    rw [e1]
    show Inv2 N n F G m' _ (upd p 0 (.syn N f .e1))
    refine h.quiet e4.cur (e2.other _ (by decide)) (fun _ => by rw [e2.cell]) (fun _ => by rw [e2.cell])
      (fun _ _ h => by rw [e2.accs] at h; exact .inl h) (fun _ _ => by rw [e2.cell, e2.accs]; exact ⟨rfl, rfl, rfl, rfl⟩) ?_
      fun e => absurd e (by rw [e2.cell]; exact hns (by simp))
    rw [e2.cell]
    refine ⟨h2, h3, ?_⟩
    simp only [lastOf, e2.here, List.getLast?_append, List.getLast?_singleton, Option.some_or, Option.map_some, e3, h3]
  | e1 =>
    cases ho
    obtain ⟨h1, h2, h3⟩ := hat
    obtain ⟨m', w', e1, e2, e3, e4, e5, e6⟩ := write_any strong 0 ch synced 1 m (V 0) fun a ha => .inl (h.syn a ha)
    rw [e1]
    show Inv2 N n F G m' _ (upd p 0 (.syn N f .gone))
    refine h.quiet e5 (by rw [e2.msgs]) (fun i => e4 _ (by simp [gen, synced])) (fun i => e4 _ (by simp [freeId, synced]))
      (fun l a ha => ?_) (fun t i => ⟨e2.other _ (by simp [noteId, synced]), e2.other _ (by simp [noteGen, synced]),
        e4 _ (by simp [noteId, synced]), e4 _ (by simp [noteGen, synced])⟩) ?_ fun _ => rfl
    · rcases e2.mem ha with h1 | h1
      · exact .inl h1
      · exact .inr h1.2.2.1
    · rw [e4 _ (by decide : gens ≠ synced), e4 _ (by decide : frees ≠ synced)]
      refine ⟨h1, h2, ?_⟩
      simp only [lastOf, e2.msgs]; exact h3
  | gone => cases ho

/-! ## All steps -/

theorem Inv2.step (hok : PoolOk F G) {s : St Loc HPc} (h : Inv2 N n F G s.mem s.view s.th) (strong : Bool) (t ch : Nat) :
    s.step hAuto strong t ch ≠ .race ∧
    ∀ s', s.step hAuto strong t ch = .ok s' → Inv2 N n F G s'.mem s'.view s'.th := by
  simp only [St.step]
  cases hop : hAuto.op (s.th t) with
  | none => exact ⟨by simp, by simp⟩
  | some op =>
    simp only
    have key : (match exec strong t ch op s.mem (s.view t) with
        | .no => True
        | .race => False
        | .ok m' w' v => Inv2 N n F G m' (upd s.view t w') (upd s.th t (hAuto.next (s.th t) v))) := by
      rcases h with ⟨cl, h⟩ | ⟨cl, C, h⟩
      · by_cases h0 : t = 0
        · subst h0
          obtain ⟨f, hf⟩ := h.main
          rw [hf] at hop ⊢
          cases f with
          | zero => cases hop
          | succ f => cases hop; exact h.look strong ch
        · by_cases hN : t ≤ N
          · obtain ⟨k, r, q, e1, e2⟩ := h.work t (by omega) hN
            rw [e1] at hop ⊢
            have := h.res_step hok strong ch (by omega) hN e1 e2 hop
            revert this
            cases exec strong t ch op s.mem (s.view t) with
            | no => exact id
            | race => exact id
            | ok m' w' v => exact fun ⟨cl', h'⟩ => .inl ⟨cl', h'⟩
          · rw [h.offs t (by omega)] at hop; cases hop
      · by_cases h0 : t = 0
        · subst h0
          obtain ⟨f, q, hf, hat, hs⟩ := h.main
          rw [hf] at hop ⊢
          exact h.syn_step strong ch hat hs hop
        · by_cases hN : t ≤ N
          · rw [(h.work t (by omega) hN).1] at hop; cases hop
          · rw [h.offs t (by omega)] at hop; cases hop
    revert key
    cases exec strong t ch op s.mem (s.view t) with
    | no => simp
    | race => simp
    | ok m' w' v =>
      intro key
      refine ⟨by simp, fun s' e => ?_⟩
      cases e
      exact key

def hStart (N f : Nat) (n : Nat → Nat) (F G : List Nat) : St Loc HPc :=
  .init (pooled 2 F G) fun t => if t = 0 then .syn N f .start else if t ≤ N then .res t 0 (n t) .start else .off

theorem Inv2.init (N f : Nat) (n : Nat → Nat) (F G : List Nat) (hG : G.length < 4294967296) :
    Inv2 N n F G (hStart N f n F G).mem (hStart N f n F G).view (hStart N f n F G).th := by
  have hone : ∀ {l : Loc} {i : Nat} {x : Msg Loc}, ((hStart N f n F G).mem.msgs l)[i]? = some x → i = 0 ∧ x.val = pooled 2 F G l := by
    intro l i x h
    cases i with
    | zero => cases h; exact ⟨rfl, rfl⟩
    | succ i => cases h
  have hth : ∀ t, 1 ≤ t → t ≤ N → (hStart N f n F G).th t = .res t 0 (n t) .start := by
    intro t h1 h2
    simp only [hStart, St.init]
    rw [if_neg (by omega), if_pos h2]
  have hg : cnt N (fun t => ((hStart N f n F G).th t).isGone) = 0 := cnt_none fun t h1 h2 => by rw [hth t h1 h2]; rfl
  have hw : cnt N (fun t => ((hStart N f n F G).th t).isWaiting) = 0 := cnt_none fun t h1 h2 => by rw [hth t h1 h2]; rfl
  refine .inl ⟨fun _ _ => none, ⟨f, rfl⟩, ?_, ?_, ?_, ?_, ?_, Nat.le_refl _, fun l _ => rfl, fun l _ a ha => (by cases ha), ⟨rfl, rfl⟩, ?_, ?_, .inl rfl,
    ?_, Nat.le_refl _, ⟨fun _ _ _ h => (by cases h), fun _ _ _ h => (by cases h), fun _ _ _ _ _ h => (by cases h), fun _ _ _ h => (by cases h), fun i h1 h2 => ?_, fun j hj => ?_⟩⟩
  · intro t h1 h2
    exact ⟨0, n t, .start, hth t h1 h2, fun i hi => (by omega), fun _ _ => rfl, fun _ _ => rfl, fun i a ha => (by rcases ha with ha | ha <;> cases ha),
      rfl, by omega⟩
  · intro t h1
    simp only [hStart, St.init]
    rw [if_neg (by omega), if_neg (by omega)]
  · intro i x hx
    obtain ⟨rfl, h2⟩ := hone hx
    rw [h2]; simp [pooled, cursor]
  · intro i x hx
    obtain ⟨rfl, h2⟩ := hone hx
    rw [h2]; simp only [pooled, nextId]; omega
  · intro i x hx
    obtain ⟨rfl, h2⟩ := hone hx
    rw [h2]; rfl
  · intro y hy t h1 h2 h3
    rw [hth t h1 h2] at h3; cases h3
  · rw [hg]; rfl
  · rw [hw]
    show 1 + 0 = 1 + (1 - 1 - F.length)
    omega
  · have : F.length ≤ 1 - 1 + i := h2
    omega
  · have : j < 1 - 1 := hj
    omega

/-! ## The programs -/

def St.hcode (s : St Loc HPc) : St Loc (Prog Loc Unit) := ⟨s.mem, fun t => (s.th t).code, s.view⟩

theorem hcode_step {s : St Loc HPc} {strong : Bool} {t ch : Nat} :
    (s.hcode.step (Prog.auto Loc) strong t ch = .race → s.step hAuto strong t ch = .race) ∧
    ∀ s1, s.hcode.step (Prog.auto Loc) strong t ch = .ok s1 → ∃ s2, s.step hAuto strong t ch = .ok s2 ∧ s1 = s2.hcode := by
  simp only [St.step, St.hcode, hcode_op]
  cases hop : hAuto.op (s.th t) with
  | none => exact ⟨fun h => (by cases h), fun s1 h => (by cases h)⟩
  | some op =>
    simp only
    cases exec strong t ch op s.mem (s.view t) with
    | no => exact ⟨fun h => (by cases h), fun s1 h => (by cases h)⟩
    | race => exact ⟨fun _ => rfl, fun s1 h => (by cases h)⟩
    | ok m' w' v =>
      refine ⟨fun h => (by cases h), fun s1 h => ⟨_, rfl, ?_⟩⟩
      cases h
      simp only [St.mk.injEq, true_and, and_true]
      funext i
      by_cases e : i = t
      · subst e; simp only [if_true]; exact hcode_next _ _ hop
      · simp only [if_neg e]

theorem hstart_code (N f : Nat) (n : Nat → Nat) (F G : List Nat) : reserveStart N f n F G = (hStart N f n F G).hcode := by
  simp only [reserveStart, hStart, St.init, St.hcode, St.mk.injEq, true_and, and_true]
  funext t
  simp only [reserveThreads]
  split
  · rfl
  · split <;> rfl

theorem reserve_inv (hok : PoolOk F G) (hG : G.length < 4294967296) {strong : Bool} {f : Nat} {s : St Loc (Prog Loc Unit)}
    (h : Reach (Prog.auto Loc) strong (reserveStart N f n F G) s) :
    ∃ s' : St Loc HPc, s = s'.hcode ∧ Inv2 N n F G s'.mem s'.view s'.th := by
  induction h with
  | init => exact ⟨_, hstart_code N f n F G, Inv2.init N f n F G hG⟩
  | @step s s1 t ch _ hs ih =>
    obtain ⟨s', rfl, hi⟩ := ih
    obtain ⟨s2, h1, h2⟩ := (hcode_step (s := s')).2 s1 hs
    exact ⟨s2, h2, (hi.step hok strong t ch).2 s2 h1⟩

/-! ## What follows -/

/-- The handle of a claim, once ids have not wrapped. -/
theorem Claim.Is.cases {c : Claim} {h : Int × Int} (hi : c.Is F G h) {X : Nat} (hX : ∀ j, c = .fresh j → j < X)
    (hG : G.length + X ≤ 4294967296) :
    (∃ i x y : Nat, c = .free i ∧ F[i]? = some x ∧ G[x]? = some y ∧ h = ((x : Int), (y : Int))) ∨
    ∃ j, c = .fresh j ∧ j < X ∧ h = (((G.length + j : Nat) : Int), 0) := by
  cases c with
  | free i => obtain ⟨x, y, h1, h2, h3⟩ := hi; exact .inl ⟨i, x, y, rfl, h1, h2, h3⟩
  | wait => exact hi.elim
  | fresh j =>
    have := hX j rfl
    refine .inr ⟨j, rfl, this, ?_⟩
    rw [hi]
    congr 1
    omega

/-- Handles of different claims have different ids. -/
theorem Claim.Is.ne (hok : PoolOk F G) {c d : Claim} {h k : Int × Int} (hc : c.Is F G h) (hd : d.Is F G k) {X : Nat}
    (hcX : ∀ j, c = .fresh j → j < X) (hdX : ∀ j, d = .fresh j → j < X) (hG : G.length + X ≤ 4294967296) (he : h.1 = k.1) : c = d := by
  rcases hc.cases hcX hG with ⟨i, x, y, rfl, h1, h2, rfl⟩ | ⟨j, rfl, h1, rfl⟩ <;>
    rcases hd.cases hdX hG with ⟨i', x', y', rfl, k1, k2, rfl⟩ | ⟨j', rfl, k1, rfl⟩
  · have : x = x' := by simp only at he; omega
    subst this
    have hi := (List.getElem?_eq_some_iff.1 h1).1
    rw [(List.getElem?_inj hi hok.nodup).1 (h1.trans k1.symm)]
  · have := (List.getElem?_eq_some_iff.1 h2).1
    simp only at he; omega
  · have := (List.getElem?_eq_some_iff.1 k2).1
    simp only at he; omega
  · have : j = j' := by simp only at he; omega
    rw [this]

/-- What all executions have in common. -/
theorem Inv2.base {s : St Loc HPc} (h : Inv2 N n F G s.mem s.view s.th) :
    ∃ cl C, Claims N F.length C ((s.mem.msgs nextId).length - 1) cl ∧ 1 ≤ (s.mem.msgs nextId).length ∧
      ∀ t, 1 ≤ t → t ≤ N → ∃ k r q, ResAt F G (n t) cl s.mem t k r q := by
  rcases h with ⟨cl, h⟩ | ⟨cl, C, h⟩
  · refine ⟨cl, _, h.claims, h.nxtLen, fun t h1 h2 => ?_⟩
    obtain ⟨k, r, q, _, e⟩ := h.work t h1 h2
    exact ⟨k, r, q, e⟩
  · refine ⟨cl, C, ?_, by have := h.nxt.1; omega, fun t h1 h2 => ⟨_, _, _, (h.work t h1 h2).2⟩⟩
    rw [h.nxt.1, Nat.add_sub_cancel_left]; exact h.claims

theorem ResAt.noted {tot t k r i : Nat} {q : RPc} (h : ResAt F G tot cl m t k r q) (hn : Noted m t i) :
    i < k ∧ ∃ c, cl t i = some c ∧ c.Is F G (noted m t i) := by
  by_cases hi : i < k
  · exact ⟨hi, (h.before i hi).2⟩
  · exact absurd (h.fresh i (by omega)) hn

/-- Before ids wrap, the sizes are those of vectors, and what is accessed is within them. -/
theorem Inv2.within (hok : PoolOk F G) {s : St Loc HPc} (h : Inv2 N n F G s.mem s.view s.th) {t : Nat} {o : Op Loc}
    (ho : hAuto.op (s.th t) = some o) :
    (∀ k, o = .read (freeId k) → (k : Int) < s.mem.cell frees) ∧ (∀ i, o = .read (gen i) → (i : Int) < s.mem.cell gens) ∧
    (∀ v, o = .write frees v → 0 ≤ v) ∧ ∀ i v, o = .write (gen i) v → (i : Int) = s.mem.cell gens := by
  rcases h with ⟨cl, h⟩ | ⟨cl, C, h⟩
  · by_cases h0 : t = 0
    · subst h0
      obtain ⟨f, hf⟩ := h.main
      rw [hf] at ho
      cases f with
      | zero => cases ho
      | succ f => cases ho; exact ⟨by simp, by simp, by simp, by simp⟩
    · by_cases hN : t ≤ N
      · obtain ⟨k, r, q, e1, e2⟩ := h.work t (by omega) hN
        rw [e1] at ho
        cases q with
        | start => cases r <;> cases ho <;> exact ⟨by simp, by simp, by simp, by simp⟩
        | r2 v =>
          cases ho
          obtain ⟨_, i, hc, rfl⟩ := e2.at'
          refine ⟨fun k e => ?_, by simp [freeId, gen], by simp, by simp⟩
          have := (h.claims.free _ _ _ hc).1
          simp only [freeId, Op.read.injEq, Loc.pool.injEq, HLoc.free.injEq] at e
          rw [h.cell _ .frees]
          simp only [pooled, frees]; omega
        | r4 v =>
          cases ho
          obtain ⟨_, i, x, hc, hx, rfl⟩ := e2.at'
          refine ⟨by simp [freeId, gen], fun k e => ?_, by simp, by simp⟩
          have := hok.bound x (List.mem_of_getElem? hx)
          simp only [gen, Op.read.injEq, Loc.pool.injEq, HLoc.gen.injEq] at e
          rw [h.cell _ .gens]
          simp only [pooled, gens]; omega
        | gone => cases ho
        | _ => cases ho; exact ⟨by simp [frees, gens, freeId], by simp [frees, gens, gen], by simp [noteId, noteGen, frees], by simp [noteId, noteGen, gen]⟩
      · rw [h.offs t (by omega)] at ho; cases ho
  · by_cases h0 : t = 0
    · subst h0
      obtain ⟨f, q, hf, hat, _⟩ := h.main
      rw [hf] at ho
      cases q with
      | start => exact hat.elim
      | a1 c j k =>
        cases ho
        obtain ⟨_, _, h3, _, rfl⟩ := hat
        refine ⟨by simp, by simp, by simp, fun i v e => ?_⟩
        simp only [gen, Op.write.injEq, Loc.pool.injEq, HLoc.gen.injEq] at e
        omega
      | d2 c j k =>
        cases ho
        obtain ⟨_, _, h3, rfl⟩ := hat
        refine ⟨by simp, by simp, fun v e => ?_, by simp [frees, gen]⟩
        simp only [Op.write.injEq, true_and] at e
        omega
      | gone => cases ho
      | _ => cases ho; exact ⟨by simp [frees, gens, freeId], by simp [frees, gens, gen], by simp [gens, synced, frees], by simp [gens, synced, gen]⟩
    · by_cases hN : t ≤ N
      · rw [(h.work t (by omega) hN).1] at ho; cases ho
      · rw [h.offs t (by omega)] at ho; cases ho

end CoEcs.Weak
