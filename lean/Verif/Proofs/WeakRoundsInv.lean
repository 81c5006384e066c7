import Verif.Proofs.WeakShared

/-! # Rounds of parallel work: the invariant -/

namespace CoEcs.Weak
variable {L : Type} [DecidableEq L]

section
variable (go dn : L) (A : L → Prop) (N f : Nat)

/-- Worker `t` waits for round `r`. -/
def WaitsFor (t r : Nat) (Rs : List (Round L)) (q : Prog L Unit) : Prop :=
  match Rs with
  | [] => q = .ret ()
  | R :: Rs => ∃ f', q = await .acq go ((r + 1 : Nat) : Int) ((R.work t).bind fun _ => .op (.rmw .rel dn fun x => some (x + 1)) fun _ =>
      follower .acq .rel go dn f t (r + 1) Rs) f'

theorem follower_waits (t r : Nat) (Rs : List (Round L)) : WaitsFor go dn f t r Rs (follower .acq .rel go dn f t r Rs) := by
  cases Rs with
  | nil => rfl
  | cons R Rs => exact ⟨f, rfl⟩

/-- What a worker that has begun the round and is at `q` does. -/
def busy (t r : Nat) (Rs : List (Round L)) (q : Prog L Unit) : Prog L Unit :=
  q.bind fun _ => .op (.rmw .rel dn fun x => some (x + 1)) fun _ => follower .acq .rel go dn f t (r + 1) Rs

/-- The main thread is at `q` of round `r`. -/
def leads (r : Nat) (Rs : List (Round L)) (q : Prog L Unit) : Prog L Unit :=
  q.bind fun _ => .op (.store .rel go ((r + 1 : Nat) : Int)) fun _ =>
    await .acq dn ((N * (r + 1) : Nat) : Int) (leader .acq .rel go dn N f (r + 1) Rs) f

/-- The values of a counter are 0, 1, ... -/
def Counts (m : Mem L) (l : L) (n : Nat) : Prop := (m.msgs l).length = n + 1 ∧ ∀ (i : Nat) (x : Msg L), (m.msgs l)[i]? = some x → x.val = (i : Int)

/-- The main thread works. -/
structure PhA (T : Store L → Prop) (s : St L (Prog L Unit)) (r : Nat) (Rs : List (Round L)) : Prop where
  cgo : Counts s.mem go r
  cdn : Counts s.mem dn (N * r)
  full : s.mem.Full
  all : (s.view 0).cur.All s.mem
  workers : ∀ t, t < N → WaitsFor go dn f t r Rs (s.th (t + 1))
  others : ∀ t, N ≤ t → s.th (t + 1) = .ret ()
  main : match Rs with
    | [] => s.th 0 = leader .acq .rel go dn N f r [] ∧ ∃ σ : Store L, σ.On (Foot.but go dn).has s.mem.vals ∧ T σ
    | R :: Rs => ∃ q : Prog L Unit, q.Within (Foot.but go dn) ∧ s.th 0 = leads go dn N f r Rs q ∧
      ∃ σ : Store L, σ.On (Foot.but go dn).has s.mem.vals ∧ ∀ s1 s2, Mix N R.work (q.seq σ).2 s1 → MixRounds N Rs s1 s2 → T s2

/-- Where a worker is in a round. -/
inductive Stat (L : Type) where
  | waits
  | busy (q : Prog L Unit)
  | ready

def Stat.isReady : Stat L → Bool
  | .ready => true
  | _ => false

/-- What it still has to do. -/
def Stat.rest (p : Prog L Unit) : Stat L → Prog L Unit
  | .waits => p
  | .busy q => q
  | .ready => .ret ()

def ready (st : Nat → Stat L) : Nat → Nat
  | 0 => 0
  | n + 1 => ready st n + if (st n).isReady then 1 else 0

/-- The signals and the counters. -/
def Signals (l : L) : Prop := l = dn ∨ A l

/-- Worker `t` is at its place. -/
def AtStat (F : Nat → Foot L) (s : St L (Prog L Unit)) (r : Nat) (R : Round L) (Rs : List (Round L)) (x : Msg L) (t : Nat) : Stat L → Prop
  | .waits => WaitsFor go dn f t r (R :: Rs) (s.th (t + 1)) ∧ Covers F (Signals dn A) x.know s.mem (· ≠ t)
  | .busy q => s.th (t + 1) = busy go dn f t r Rs q ∧ q.Keeps A (F t) ∧ Covers F (Signals dn A) (s.view (t + 1)).cur s.mem (· ≠ t)
  | .ready => WaitsFor go dn f t (r + 1) Rs (s.th (t + 1))

/-- The footprints of a round. -/
structure Feet (go dn : L) (A : L → Prop) (N : Nat) (R : Round L) (F : Nat → Foot L) : Prop where
  within : ∀ t, t < N → (R.work t).Keeps A (F t)
  free : ∀ t l, (F t).has l → l ≠ go ∧ l ≠ dn ∧ ¬ A l
  sep : ∀ t t', t ≠ t' → ∀ l, (F t).wr l → ¬ (F t').has l
  out : ∀ t, N ≤ t → ∀ l, ¬ (F t).wr l

/-- The workers work. -/
structure PhB (T : Store L → Prop) (s : St L (Prog L Unit)) (r : Nat) (R : Round L) (Rs : List (Round L)) (F : Nat → Foot L)
    (st : Nat → Stat L) : Prop where
  feet : Feet go dn A N R F
  cgo : Counts s.mem go (r + 1)
  cdn : Counts s.mem dn (N * r + ready st N)
  full : s.mem.Full
  others : ∀ t, N ≤ t → s.th (t + 1) = .ret ()
  main : ∃ f', s.th 0 = await .acq dn ((N * (r + 1) : Nat) : Int) (leader .acq .rel go dn N f (r + 1) Rs) f'
  at' : ∃ x, (s.mem.msgs go)[r + 1]? = some x ∧ ∀ t, t < N → AtStat go dn A f F s r R Rs x t (st t)
  know : ∃ x, (s.mem.msgs dn)[N * r + ready st N]? = some x ∧
    Covers F (Signals dn A) ((s.view 0).cur.join x.know) s.mem (fun t => t < N ∧ (st t).isReady = false) ∧
    ∀ l, A l → (s.mem.msgs l).length ≤ ((s.view 0).cur.join x.know).seen l + 1 ∨
      ∃ t, t < N ∧ (st t).isReady = false ∧ (s.mem.msgs l).length ≤ (s.view (t + 1)).cur.seen l + 1
  target : ∃ σ : Store L, σ.On (Foot.but go dn).has s.mem.vals ∧
    ∀ s1 s2, Mix N (fun t => (st t).rest (R.work t)) σ s1 → MixRounds N Rs s1 s2 → T s2

/-- The end. -/
structure PhC (T : Store L → Prop) (s : St L (Prog L Unit)) (n : Nat) : Prop where
  cgo : Counts s.mem go (n + 1)
  idle : ∀ t, s.th t = .ret ()
  vals : ∃ σ : Store L, σ.On (Foot.but go dn).has s.mem.vals ∧ T σ

/-- All of it. -/
def RoundInv (T : Store L → Prop) (n : Nat) (s : St L (Prog L Unit)) : Prop :=
  (∃ r Rs, r + Rs.length = n ∧ (∀ R ∈ Rs, R.Sharing N go dn A) ∧ PhA go dn N f T s r Rs) ∨
  (∃ r R Rs F st, r + 1 + Rs.length = n ∧ (∀ R ∈ Rs, R.Sharing N go dn A) ∧ PhB go dn A N f T s r R Rs F st) ∨
  PhC go dn T s n
end

/-! ## Small facts -/

section
variable {go dn : L} {A : L → Prop} {N f : Nat}

theorem ready_le (st : Nat → Stat L) : ∀ n, ready st n ≤ n
  | 0 => Nat.le_refl _
  | n + 1 => by
    have := ready_le st n
    simp only [ready]
    split <;> omega

theorem ready_all (st : Nat → Stat L) : ∀ n, ready st n = n → ∀ t, t < n → (st t).isReady = true
  | 0, _, t, ht => absurd ht (Nat.not_lt_zero _)
  | n + 1, h, t, ht => by
    have h1 := ready_le st n
    simp only [ready] at h
    by_cases hn : (st n).isReady = true
    · rw [if_pos hn] at h
      by_cases e : t = n
      · subst e; exact hn
      · exact ready_all st n (by omega) t (by omega)
    · rw [if_neg hn] at h; omega

def put (st : Nat → Stat L) (t : Nat) (x : Stat L) : Nat → Stat L := fun i => if i = t then x else st i

theorem ready_put_out (st : Nat → Stat L) (t : Nat) (x : Stat L) : ∀ n, n ≤ t → ready (put st t x) n = ready st n
  | 0, _ => rfl
  | n + 1, h => by
    simp only [ready]
    rw [ready_put_out st t x n (by omega)]
    have : put st t x n = st n := if_neg (by omega)
    rw [this]

theorem ready_put_same (st : Nat → Stat L) (t : Nat) (x : Stat L) (hx : x.isReady = (st t).isReady) : ∀ n, ready (put st t x) n = ready st n
  | 0 => rfl
  | n + 1 => by
    simp only [ready]
    rw [ready_put_same st t x hx n]
    by_cases e : n = t
    · subst e; simp [put, hx]
    · simp [put, e]

theorem ready_put_one (st : Nat → Stat L) (t : Nat) (ht : (st t).isReady = false) : ∀ n, t < n → ready (put st t .ready) n = ready st n + 1
  | 0, h => absurd h (Nat.not_lt_zero _)
  | n + 1, h => by
    simp only [ready]
    by_cases e : n = t
    · subst e
      rw [ready_put_out st n .ready n (Nat.le_refl _)]
      rw [show (put st n .ready n).isReady = true by simp [put, Stat.isReady]]
      simp [ht]
    · rw [ready_put_one st t ht n (by omega)]
      simp only [put, if_neg e]
      omega

theorem Counts.push {m : Mem L} {l : L} {n : Nat} (h : Counts m l n) {x : Msg L} (hx : x.val = ((n + 1 : Nat) : Int)) :
    Counts (m.push l x) l (n + 1) := by
  constructor
  · simp [Mem.push, h.1]
  · intro i y hy
    simp only [Mem.push, if_true] at hy
    rw [List.getElem?_append] at hy
    split at hy
    · exact h.2 i y hy
    · rename_i hi
      have h1 := h.1
      have : i - (m.msgs l).length = 0 := by
        rcases Nat.eq_zero_or_pos (i - (m.msgs l).length) with e | e
        · exact e
        · rw [List.getElem?_eq_none (by simp; omega)] at hy; cases hy
      rw [this] at hy
      simp only [List.getElem?_cons_zero, Option.some.injEq] at hy
      subst hy
      have : i = n + 1 := by omega
      rw [hx, this]

theorem Counts.frame {m m' : Mem L} {l : L} {n : Nat} (h : Counts m l n) (e : m'.msgs l = m.msgs l) : Counts m' l n := by
  unfold Counts
  rw [e]
  exact h

theorem push_other (m : Mem L) {l y : L} (x : Msg L) (h : y ≠ l) : (m.push l x).msgs y = m.msgs y := by
  simp [Mem.push, h]

theorem Counts.last {m : Mem L} {l : L} {n : Nat} (h : Counts m l n) : ∃ x, (m.msgs l)[n]? = some x ∧ x.val = (n : Int) := by
  have hn : n < (m.msgs l).length := by rw [h.1]; omega
  exact ⟨_, List.getElem?_eq_getElem hn, h.2 n _ (List.getElem?_eq_getElem hn)⟩

theorem Counts.atom {m : Mem L} {l : L} {n : Nat} (h : Counts m l n) : m.vals.atom l = (n : Int) := by
  obtain ⟨x, hx, hv⟩ := h.last
  have : (m.msgs l).getLast? = some x := by
    rw [List.getLast?_eq_getElem?, h.1]; simpa using hx
  simp only [Mem.vals, this, hv]

theorem Foot.but_has {l : L} : (Foot.but go dn).has l ↔ l ≠ go ∧ l ≠ dn := by
  simp [Foot.has, Foot.but]

theorem Store.On.setAtom_right {P : L → Prop} {s s' : Store L} (h : s.On P s') {l : L} {v : Int} (hl : ¬ P l) : s.On P (s'.setAtom l v) := by
  intro y hy
  have : y ≠ l := fun e => hl (e ▸ hy)
  simp only [Store.setAtom, if_neg this]
  exact h y hy

/-- Looking at a counter. -/
theorem look {strong : Bool} {s : St L (Prog L Unit)} {i : Nat} {l : L} {n : Nat} (hc : Counts s.mem l n) {v : Int} {q : Prog L Unit} {f' : Nat}
    (h : s.th i = await .acq l v q f') (c : Nat) :
    s.step (Prog.auto L) strong i c = .no ∨
    ∃ f'' x, f' = f'' + 1 ∧ (s.mem.msgs l)[c]? = some x ∧ c ≤ n ∧
      s.step (Prog.auto L) strong i c = .ok ⟨s.mem, fun j => if j = i then (if (c : Int) = v then q else await .acq l v q f'') else s.th j,
        fun j => if j = i then (s.view i).got .acq l c x else s.view j⟩ := by
  cases f' with
  | zero => exact .inl (step_ret (by rw [h]; rfl) c)
  | succ f'' =>
    rw [step_op (by rw [h]; rfl)]
    simp only [exec]
    cases hx : (s.mem.msgs l)[c]? with
    | none => exact .inl rfl
    | some x =>
      simp only
      by_cases hs : (s.view i).cur.seen l ≤ c
      · rw [if_pos hs]
        refine .inr ⟨f'', x, rfl, rfl, ?_, ?_⟩
        · have := (List.getElem?_eq_some_iff.1 hx).1
          have := hc.1
          omega
        · rw [hc.2 c x hx]
      · rw [if_neg hs]; exact .inl rfl

theorem feet_of {R : Round L} (h : R.Sharing N go dn A) : ∃ F, Feet go dn A N R F := by
  obtain ⟨_, F, h1, h2, h3⟩ := h
  refine ⟨fun t => if t < N then F t else ⟨fun _ => False, fun _ => False⟩, ?_, ?_, ?_, ?_⟩
  · intro t ht
    simp only [if_pos ht]
    exact h1 t ht
  · intro t l hl
    split at hl
    · exact h2 t ‹_› l hl
    · exact absurd hl (by simp [Foot.has])
  · intro t t' hne l hw hl
    split at hw
    · split at hl
      · exact h3 t t' ‹_› ‹_› hne l hw hl
      · exact absurd hl (by simp [Foot.has])
    · exact hw
  · intro t ht l hl
    simp only [if_neg (Nat.not_lt.2 ht)] at hl

theorem ready_waits : ∀ n, ready (fun _ => (.waits : Stat L)) n = 0
  | 0 => rfl
  | n + 1 => by simp [ready, ready_waits n, Stat.isReady]

/-! ## The main thread works -/

theorem PhA.step {T : Store L → Prop} {s : St L (Prog L Unit)} {r : Nat} {Rs : List (Round L)} (hgd : go ≠ dn) (hA : ∀ l, A l → l ≠ go ∧ l ≠ dn)
    (hR : ∀ R ∈ Rs, R.Sharing N go dn A) (h : PhA go dn N f T s r Rs) (strong : Bool) (i c : Nat) :
    s.step (Prog.auto L) strong i c ≠ .race ∧
      ∀ s', s.step (Prog.auto L) strong i c = .ok s' → RoundInv go dn A N f T (r + Rs.length) s' := by
  cases i with
  | succ t =>
    by_cases ht : t < N
    · have hw := h.workers t ht
      cases Rs with
      | nil =>
        rw [step_ret hw]
        exact ⟨by simp, fun _ e => by cases e⟩
      | cons R Rs =>
        obtain ⟨f', hf'⟩ := hw
        rcases look (strong := strong) h.cgo hf' c with e | ⟨f'', x, rfl, hx, hc, e⟩
        · rw [e]; exact ⟨by simp, fun _ e => by cases e⟩
        · rw [e]
          refine ⟨by simp, fun s' e => ?_⟩
          simp only [Out.ok.injEq] at e
          subst e
          refine .inl ⟨r, R :: Rs, rfl, hR, h.cgo, h.cdn, h.full, ?_, ?_, ?_, ?_⟩
          · simp only; rw [if_neg (by omega)]; exact h.all
          · intro t' ht'
            simp only
            by_cases e : t' = t
            · subst e
              rw [if_pos rfl, if_neg (by omega)]
              exact ⟨f'', rfl⟩
            · rw [if_neg (by omega)]; exact h.workers t' ht'
          · intro t' ht'
            simp only
            rw [if_neg (by omega)]
            exact h.others t' ht'
          · simp only
            rw [if_neg (by omega)]
            exact h.main
    · rw [step_ret (h.others t (by omega))]
      exact ⟨by simp, fun _ e => by cases e⟩
  | zero =>
    cases Rs with
    | nil =>
      obtain ⟨hth, hv⟩ := h.main
      rw [step_op (by rw [hth]; rfl)]
      simp only [exec]
      refine ⟨by simp, fun s' e => ?_⟩
      simp only [Out.ok.injEq] at e
      subst e
      refine .inr (.inr ⟨?_, ?_, ?_⟩)
      · exact h.cgo.push rfl
      · intro t
        cases t with
        | zero => rfl
        | succ t =>
          simp only
          rw [if_neg (by omega)]
          by_cases ht : t < N
          · exact h.workers t ht
          · exact h.others t (by omega)
      · simp only
        rw [Mem.vals_push]
        obtain ⟨σ, hσ, hT⟩ := hv
        exact ⟨σ, hσ.setAtom_right (by rw [Foot.but_has]; simp), hT⟩
    | cons R Rs =>
      obtain ⟨q, hq, hth, hv⟩ := h.main
      cases q with
      | ret a =>
        rw [step_op (by rw [hth]; rfl)]
        simp only [exec]
        refine ⟨by simp, fun s' e => ?_⟩
        simp only [Out.ok.injEq] at e
        subst e
        obtain ⟨F, hF⟩ := feet_of (hR R (List.mem_cons_self ..))
        have hall := h.all.push go ⟨((r + 1 : Nat) : Int), (s.view 0).gives .rel go (s.mem.msgs go).length⟩
        refine .inr (.inl ⟨r, R, Rs, F, fun _ => .waits, by simp; omega, fun R' h' => hR R' (List.mem_cons_of_mem _ h'), hF, h.cgo.push rfl, ?_, h.full.push _ _, ?_, ?_, ?_, ?_, ?_⟩)
        · simp only [ready_waits]
          exact h.cdn.frame (push_other _ _ hgd.symm)
        · intro t ht
          simp only
          rw [if_neg (by omega)]
          exact h.others t ht
        · exact ⟨f, rfl⟩
        · refine ⟨⟨((r + 1 : Nat) : Int), (s.view 0).gives .rel go (s.mem.msgs go).length⟩, ?_, fun t ht => ⟨?_, ?_⟩⟩
          · simp only [Mem.push, if_true]
            rw [← h.cgo.1, List.getElem?_append_right (Nat.le_refl _)]
            simp
          · simp only
            rw [if_neg (by omega)]
            exact h.workers t ht
          · exact hall.covers
        · obtain ⟨x, hx, _⟩ := h.cdn.last
          refine ⟨x, ?_, ?_, ?_⟩
          · simp only [ready_waits, Nat.add_zero]
            rw [push_other _ _ hgd.symm]
            exact hx
          · simp only [if_true]
            exact (hall.mono (Know.le_join_left ..)).covers
          · simp only [if_true]
            exact fun l _ => .inl ((hall.mono (Know.le_join_left ..)).seen l)
        · rw [Mem.vals_push]
          obtain ⟨σ, hσ, hT⟩ := hv
          exact ⟨σ, hσ.setAtom_right (by rw [Foot.but_has]; simp), hT⟩
      | op o kk =>
        rw [step_op (by rw [hth]; rfl)]
        obtain ⟨h1, h2⟩ := exec_solo (strong := strong) (t := 0) (c := c) (op := o) h.all h.full
        cases he : exec strong 0 c o s.mem (s.view 0) with
        | race => exact absurd he h1
        | no => simp
        | ok m w v =>
          obtain ⟨hseq, hall', hfull, hfr⟩ := h2 m w v he
          refine ⟨by simp, fun s' e => ?_⟩
          simp only [Out.ok.injEq] at e
          subst e
          have hgo : o.loc ≠ some go ∧ o.loc ≠ some dn := by
            have := hq.1
            cases o <;> simp [Op.Within, Foot.has, Foot.but] at this <;> simp [Op.loc, this]
          refine .inl ⟨r, R :: Rs, rfl, hR, h.cgo.frame (hfr go hgo.1), h.cdn.frame (hfr dn hgo.2), hfull, ?_, ?_, ?_, kk v, hq.2 v, ?_, ?_⟩
          · simp only [if_true]; exact hall'
          · intro t ht
            simp only
            rw [if_neg (by omega)]
            exact h.workers t ht
          · intro t ht
            simp only
            rw [if_neg (by omega)]
            exact h.others t ht
          · simp only [if_true]; rfl
          · obtain ⟨σ, hσ, hT⟩ := hv
            obtain ⟨e1, e2⟩ := Op.seq_congr hq.1 hσ
            rw [hseq] at e1 e2
            refine ⟨(o.seq σ).2, e2, ?_⟩
            simp only [Prog.seq, e1] at hT
            exact hT

/-! ## The workers work -/

theorem AtStat.frame {F : Nat → Foot L} {s s' : St L (Prog L Unit)} {r : Nat} {R : Round L} {Rs : List (Round L)} {x : Msg L} {t : Nat} {y : Stat L}
    (h : AtStat go dn A f F s r R Rs x t y) (hth : s'.th (t + 1) = s.th (t + 1)) (hv : s'.view (t + 1) = s.view (t + 1))
    (hc : ∀ K, Covers F (Signals dn A) K s.mem (· ≠ t) → Covers F (Signals dn A) K s'.mem (· ≠ t)) : AtStat go dn A f F s' r R Rs x t y := by
  cases y with
  | waits =>
    refine ⟨?_, hc _ h.2⟩
    rw [hth]; exact h.1
  | busy q =>
    refine ⟨?_, h.2.1, ?_⟩
    · rw [hth]; exact h.1
    · rw [hv]; exact hc _ h.2.2
  | ready =>
    show WaitsFor ..
    rw [hth]; exact h

theorem Covers.push_dn {F : Nat → Foot L} {K : Know L} {m : Mem L} {U : Nat → Prop} (h : Covers F (Signals dn A) K m U) (x : Msg L) :
    Covers F (Signals dn A) K (m.push dn x) U := by
  constructor
  · intro l hl hU
    rw [push_other _ _ fun e => hl (.inl e)]
    exact h.seen l hl hU
  · intro l a ha
    exact h.done l a ha

section
variable {T : Store L → Prop} {s : St L (Prog L Unit)} {r : Nat} {R : Round L} {Rs : List (Round L)} {F : Nat → Foot L} {st : Nat → Stat L}

/-- Worker `t` looks and stays where it is, or begins. -/
theorem PhB.looked (h : PhB go dn A N f T s r R Rs F st) {t : Nat} (ht : t < N) {y : Stat L} {q : Prog L Unit} {w : View L}
    (hy : y.isReady = (st t).isReady) (hrest : y.rest (R.work t) = (st t).rest (R.work t)) (hle : (s.view (t + 1)).cur.Le w.cur)
    (hat : ∀ x, (s.mem.msgs go)[r + 1]? = some x → AtStat go dn A f F s r R Rs x t (st t) →
      AtStat go dn A f F ⟨s.mem, fun j => if j = t + 1 then q else s.th j, fun j => if j = t + 1 then w else s.view j⟩ r R Rs x t y) :
    PhB go dn A N f T ⟨s.mem, fun j => if j = t + 1 then q else s.th j, fun j => if j = t + 1 then w else s.view j⟩ r R Rs F (put st t y) := by
  refine ⟨h.feet, h.cgo, ?_, h.full, ?_, ?_, ?_, ?_, ?_⟩
  · rw [ready_put_same st t y hy]; exact h.cdn
  · intro t' ht'
    simp only
    rw [if_neg (by omega)]
    exact h.others t' ht'
  · simp only
    rw [if_neg (by omega)]
    exact h.main
  · obtain ⟨x, hx, hall⟩ := h.at'
    refine ⟨x, hx, fun t' ht' => ?_⟩
    by_cases e : t' = t
    · subst e
      simp only [put, if_true]
      exact hat x hx (hall t' ht')
    · simp only [put, if_neg e]
      exact (hall t' ht').frame (by simp only; rw [if_neg (by omega)]) (by simp only; rw [if_neg (by omega)]) fun _ h => h
  · obtain ⟨x, hx, hk, hh⟩ := h.know
    have hp : ∀ t', (put st t y t').isReady = (st t').isReady := by
      intro t'
      by_cases e : t' = t
      · subst e; simp only [put, if_true, hy]
      · simp only [put, if_neg e]
    refine ⟨x, ?_, ?_, fun l hl => ?_⟩
    · rw [ready_put_same st t y hy]; exact hx
    · simp only
      rw [if_neg (by omega)]
      exact hk.mono (.refl _) fun t' ht' => ⟨ht'.1, (hp t').trans ht'.2⟩
    · simp only
      rw [if_neg (by omega)]
      rcases hh l hl with h1 | ⟨t', h1, h2, h3⟩
      · exact .inl h1
      · refine .inr ⟨t', h1, (hp t').trans h2, ?_⟩
        by_cases e : t' = t
        · subst e; simp only [if_true]; exact Nat.le_trans h3 (Nat.succ_le_succ (hle.1 l))
        · rw [if_neg (by omega)]; exact h3
  · have : (fun t' => (put st t y t').rest (R.work t')) = fun t' => (st t').rest (R.work t') := by
      funext t'
      by_cases e : t' = t
      · subst e; simp only [put, if_true, hrest]
      · simp only [put, if_neg e]
    rw [this]
    exact h.target

/-- Worker `t` makes a step of its own. -/
theorem PhB.worked (h : PhB go dn A N f T s r R Rs F st) {t : Nat} (ht : t < N) {o : Op L} {kk : Int → Prog L Unit}
    (hst : st t = .busy (.op o kk)) {m : Mem L} {w : View L} {v : Int} (hA : ∀ l, A l → l ≠ go ∧ l ≠ dn)
    (hs : Kept A (F t) F (Signals dn A) t o s.mem (s.view (t + 1)) m w v) :
    PhB go dn A N f T ⟨m, fun j => if j = t + 1 then busy go dn f t r Rs (kk v) else s.th j, fun j => if j = t + 1 then w else s.view j⟩ r R Rs F
      (put st t (.busy (kk v))) := by
  obtain ⟨x, hx, hall⟩ := h.at'
  have hat := hall t ht
  rw [hst] at hat
  obtain ⟨_, hwi, hcov⟩ := hat
  have hgo : m.msgs go = s.mem.msgs go := hs.works.msgs go (fun hl => (h.feet.free t go (.inr hl)).1 rfl) fun hl => (hA go hl).1 rfl
  have hdn : m.msgs dn = s.mem.msgs dn := hs.works.msgs dn (fun hl => (h.feet.free t dn (.inr hl)).2.1 rfl) fun hl => (hA dn hl).2 rfl
  have hready : ready (put st t (.busy (kk v))) N = ready st N := ready_put_same st t _ (by rw [hst]; rfl) N
  refine ⟨h.feet, h.cgo.frame hgo, ?_, hs.full, ?_, ?_, ?_, ?_, ?_⟩
  · rw [hready]; exact h.cdn.frame hdn
  · intro t' ht'
    simp only
    rw [if_neg (by omega)]
    exact h.others t' ht'
  · simp only
    rw [if_neg (by omega)]
    exact h.main
  · refine ⟨x, by rw [hgo]; exact hx, fun t' ht' => ?_⟩
    by_cases e : t' = t
    · subst e
      simp only [put, if_true]
      exact ⟨by simp, hwi.2 v, by simp only [if_true]; exact hs.cov⟩
    · simp only [put, if_neg e]
      exact (hall t' ht').frame (by simp only; rw [if_neg (by omega)]) (by simp only; rw [if_neg (by omega)])
        fun K hK => hK.others (t := t) (fun e' => e e'.symm) hs.works fun _ => .inr
  · obtain ⟨x, hx, hk, hh⟩ := h.know
    have hp : ∀ t', (put st t (.busy (kk v)) t').isReady = (st t').isReady := by
      intro t'
      by_cases e : t' = t
      · subst e; simp [put, Stat.isReady, hst]
      · simp only [put, if_neg e]
    refine ⟨x, by rw [hready, hdn]; exact hx, ?_, fun l hl => ?_⟩
    · simp only
      rw [if_neg (by omega)]
      have hU : t < N ∧ (st t).isReady = false := ⟨ht, by rw [hst]; rfl⟩
      exact (hk.others hU hs.works fun _ => .inr).mono (.refl _) fun t' ht' => ⟨ht'.1, (hp t').trans ht'.2⟩
    · simp only
      rw [if_neg (by omega)]
      rcases hs.heard l hl with e | e
      · rw [e]
        rcases hh l hl with h1 | ⟨t', h1, h2, h3⟩
        · exact .inl h1
        · refine .inr ⟨t', h1, (hp t').trans h2, ?_⟩
          by_cases e : t' = t
          · subst e; simp only [if_true]; exact Nat.le_trans h3 (Nat.succ_le_succ (hs.le.1 l))
          · rw [if_neg (by omega)]; exact h3
      · exact .inr ⟨t, ht, by simp [put, Stat.isReady], by simp only [if_true]; exact e⟩
  · obtain ⟨σ, hσ, hT⟩ := h.target
    obtain ⟨e1, e2⟩ := Op.seq_congr (hwi.1.within (fun l hl => ⟨(h.feet.free t l hl).1, (h.feet.free t l hl).2.1⟩) hA) hσ
    rw [hs.seq] at e1 e2
    refine ⟨(o.seq σ).2, e2, fun s1 s2 h1 h2 => hT s1 s2 (.step t (o := o) (k := kk) ht (by rw [hst]; rfl) ?_) h2⟩
    have : (fun t' => (put st t (.busy (kk v)) t').rest (R.work t')) =
        fun t' => if t' = t then kk (o.seq σ).1 else (st t').rest (R.work t') := by
      funext t'
      by_cases e : t' = t
      · subst e; simp [put, Stat.rest, e1]
      · simp only [put, if_neg e]
    rw [← this]
    exact h1

/-- Worker `t` is ready. -/
theorem PhB.signalled (h : PhB go dn A N f T s r R Rs F st) (hgd : go ≠ dn) (hA : ∀ l, A l → l ≠ go ∧ l ≠ dn) {t : Nat} (ht : t < N) {a : Unit}
    (hst : st t = .busy (.ret a)) {x : Msg L} (hx : (s.mem.msgs dn)[N * r + ready st N]? = some x) :
    PhB go dn A N f T ⟨s.mem.push dn ⟨x.val + 1, ((((s.view (t + 1)).got .rel dn (N * r + ready st N) x).gives .rel dn (N * r + ready st N + 1))).join x.know⟩,
        fun j => if j = t + 1 then follower .acq .rel go dn f t (r + 1) Rs else s.th j,
        fun j => if j = t + 1 then ((s.view (t + 1)).got .rel dn (N * r + ready st N) x).put dn (N * r + ready st N + 1) else s.view j⟩ r R Rs F
      (put st t .ready) := by
  obtain ⟨xg, hxg, hall⟩ := h.at'
  have hat := hall t ht
  rw [hst] at hat
  obtain ⟨_, hwi, hcov⟩ := hat
  have hready : ready (put st t .ready) N = ready st N + 1 := ready_put_one st t (by rw [hst]; rfl) N ht
  have hxv := h.cdn.2 _ _ hx
  refine ⟨h.feet, h.cgo.frame (push_other _ _ hgd), ?_, h.full.push _ _, ?_, ?_, ?_, ?_, ?_⟩
  · rw [hready]
    exact h.cdn.push (by simp only [hxv]; omega)
  · intro t' ht'
    simp only
    rw [if_neg (by omega)]
    exact h.others t' ht'
  · simp only
    rw [if_neg (by omega)]
    exact h.main
  · refine ⟨xg, by rw [push_other _ _ hgd]; exact hxg, fun t' ht' => ?_⟩
    by_cases e : t' = t
    · subst e
      simp only [put, if_true]
      show WaitsFor ..
      simp only [if_true]
      exact follower_waits ..
    · simp only [put, if_neg e]
      exact (hall t' ht').frame (by simp only; rw [if_neg (by omega)]) (by simp only; rw [if_neg (by omega)])
        fun K hK => hK.push_dn _
  · obtain ⟨x', hx', hk, hh⟩ := h.know
    rw [hx] at hx'
    cases hx'
    refine ⟨⟨x.val + 1, ((((s.view (t + 1)).got .rel dn (N * r + ready st N) x).gives .rel dn (N * r + ready st N + 1))).join x.know⟩, ?_, ?_⟩
    · rw [hready]
      simp only [Mem.push, if_true]
      rw [← Nat.add_assoc, ← h.cdn.1, List.getElem?_append_right (Nat.le_refl _)]
      simp
    · simp only
      rw [if_neg (by omega)]
      have hle1 : (s.view (t + 1)).cur.Le ((s.view 0).cur.join ((((s.view (t + 1)).got .rel dn (N * r + ready st N) x).gives .rel dn
          (N * r + ready st N + 1)).join x.know)) :=
        ((View.le_got (s.view (t + 1)) .rel dn (N * r + ready st N) x).cur.trans (Know.le_saw _ dn _)).trans
          ((Know.le_join_left _ x.know).trans (Know.le_join_right ..))
      have hle2 : ((s.view 0).cur.join x.know).Le ((s.view 0).cur.join ((((s.view (t + 1)).got .rel dn (N * r + ready st N) x).gives .rel dn
          (N * r + ready st N + 1)).join x.know)) := by
        constructor
        · intro l; simp only [Know.join]; omega
        · intro l; simp only [Know.join]; omega
      have c1 := (hcov.mono hle1 (fun _ h => h)).push_dn (dn := dn) ⟨x.val + 1, ((((s.view (t + 1)).got .rel dn (N * r + ready st N) x).gives .rel dn (N * r + ready st N + 1))).join x.know⟩
      have c2 := (hk.mono hle2 (fun _ h => h)).push_dn (dn := dn) ⟨x.val + 1, ((((s.view (t + 1)).got .rel dn (N * r + ready st N) x).gives .rel dn (N * r + ready st N + 1))).join x.know⟩
      refine ⟨⟨?_, ?_⟩, ?_⟩
      · intro l hl hU
        by_cases hlw : (F t).wr l
        · exact c1.seen l hl fun t' ht' hw => h.feet.sep t' t ht' l hw (.inr hlw)
        · refine c2.seen l hl fun t' ht' => ?_
          by_cases e : t' = t
          · subst e; exact hlw
          · exact hU t' ⟨ht'.1, by simp only [put, if_neg e]; exact ht'.2⟩
      · intro l a' ha
        rcases c2.done l a' ha with h1 | ⟨t', h1, h2, h3⟩
        · exact .inl h1
        · by_cases e : t' = t
          · subst e
            rcases c1.done l a' ha with h4 | ⟨t'', h4, h5, _⟩
            · exact .inl h4
            · exact absurd (by omega : t'' = t') h4
          · exact .inr ⟨t', ⟨h1.1, by simp only [put, if_neg e]; exact h1.2⟩, h2, h3⟩
      · intro l hl
        rw [push_other _ _ (hA l hl).2]
        rcases hh l hl with h1 | ⟨t', h1, h2, h3⟩
        · exact .inl (Nat.le_trans h1 (Nat.succ_le_succ (hle2.1 l)))
        · by_cases e : t' = t
          · subst e
            exact .inl (Nat.le_trans h3 (Nat.succ_le_succ (hle1.1 l)))
          · refine .inr ⟨t', h1, by simp only [put, if_neg e]; exact h2, ?_⟩
            rw [if_neg (by omega)]
            exact h3
  · rw [Mem.vals_push]
    obtain ⟨σ, hσ, hT⟩ := h.target
    refine ⟨σ, hσ.setAtom_right (by rw [Foot.but_has]; simp), ?_⟩
    have : (fun t' => (put st t .ready t').rest (R.work t')) = fun t' => (st t').rest (R.work t') := by
      funext t'
      by_cases e : t' = t
      · subst e; simp [put, Stat.rest, hst]
      · simp only [put, if_neg e]
    rw [this]
    exact hT

/-- All are ready, and the main thread has seen it. -/
theorem PhB.joined (h : PhB go dn A N f T s r R Rs F st) (hR : ∀ R ∈ Rs, R.Sharing N go dn A) (hall : ready st N = N) {x : Msg L}
    (hx : (s.mem.msgs dn)[N * (r + 1)]? = some x) :
    PhA go dn N f T ⟨s.mem, fun j => if j = 0 then leader .acq .rel go dn N f (r + 1) Rs else s.th j,
      fun j => if j = 0 then (s.view 0).got .acq dn (N * (r + 1)) x else s.view j⟩ (r + 1) Rs := by
  have hrd := ready_all st N hall
  have hN : N * r + ready st N = N * (r + 1) := by rw [hall, Nat.mul_succ]
  have hst : ∀ t, t < N → st t = .ready := by
    intro t ht
    have := hrd t ht
    cases hs : st t with
    | waits => rw [hs] at this; cases this
    | busy q => rw [hs] at this; cases this
    | ready => rfl
  obtain ⟨σ, hσ, hT⟩ := h.target
  have hdone : Mix N (fun t => (st t).rest (R.work t)) σ σ := .done fun t ht => by rw [hst t ht]; rfl
  refine ⟨h.cgo, ?_, h.full, ?_, ?_, ?_, ?_⟩
  · rw [← hN]; exact h.cdn
  · obtain ⟨x', hx', hk, hh⟩ := h.know
    rw [hN, hx] at hx'
    cases hx'
    simp only [if_true]
    have hk' := hk.mono (K' := ((s.view 0).got .acq dn (N * (r + 1)) x).cur) (U' := fun _ => False) ?_ ?_
    · constructor
      · intro l
        by_cases e : l = dn
        · subst e
          rw [h.cdn.1, hN]
          exact Nat.succ_le_succ (View.got_seen ..)
        · by_cases hl : A l
          · rcases hh l hl with h1 | ⟨t, h1, h2, _⟩
            · exact Nat.le_trans h1 (Nat.succ_le_succ ((Know.le_saw _ dn _).1 l))
            · rw [hrd t h1] at h2; cases h2
          · exact hk'.seen l (fun h => h.elim e hl) fun t h => h.elim
      · intro l a ha
        rcases hk'.done l a ha with h1 | ⟨t, h1, _⟩
        · exact h1
        · exact h1.elim
    · exact (Know.le_saw _ dn _)
    · intro t ht
      have := hrd t ht.1
      rw [ht.2] at this
      cases this
  · intro t ht
    obtain ⟨x, _, hat⟩ := h.at'
    have := hat t ht
    rw [hst t ht] at this
    simp only
    rw [if_neg (by omega)]
    exact this
  · intro t ht
    simp only
    rw [if_neg (by omega)]
    exact h.others t ht
  · cases Rs with
    | nil => exact ⟨rfl, σ, hσ, hT σ σ hdone .nil⟩
    | cons R' Rs => exact ⟨R'.main, (hR R' (List.mem_cons_self ..)).1, rfl, σ, hσ, fun s1 s2 h1 h2 => hT σ s2 hdone (.cons h1 h2)⟩

theorem PhB.step (hgd : go ≠ dn) (hA : ∀ l, A l → l ≠ go ∧ l ≠ dn) (hR : ∀ R ∈ Rs, R.Sharing N go dn A) (h : PhB go dn A N f T s r R Rs F st) (strong : Bool) (i c : Nat) :
    s.step (Prog.auto L) strong i c ≠ .race ∧
      ∀ s', s.step (Prog.auto L) strong i c = .ok s' → RoundInv go dn A N f T (r + 1 + Rs.length) s' := by
  cases i with
  | zero =>
    obtain ⟨f', hf'⟩ := h.main
    rcases look (strong := strong) h.cdn hf' c with e | ⟨f'', x, rfl, hx, hc, e⟩
    · rw [e]; exact ⟨by simp, fun _ e => by cases e⟩
    · rw [e]
      refine ⟨by simp, fun s' e => ?_⟩
      simp only [Out.ok.injEq] at e
      subst e
      by_cases hcN : (c : Int) = ((N * (r + 1) : Nat) : Int)
      · have hcN' : c = N * (r + 1) := by omega
        subst hcN'
        have hle := ready_le st N
        have hrd : ready st N = N := by
          have : N * (r + 1) = N * r + N := Nat.mul_succ ..
          omega
        refine .inl ⟨r + 1, Rs, rfl, hR, ?_⟩
        simp only [if_true]
        exact h.joined hR hrd hx
      · refine .inr (.inl ⟨r, R, Rs, F, st, rfl, hR, h.feet, h.cgo, h.cdn, h.full, ?_, ?_, ?_, ?_, h.target⟩)
        · intro t ht
          simp only
          rw [if_neg (by omega)]
          exact h.others t ht
        · exact ⟨f'', by simp only [if_true, if_neg hcN]⟩
        · obtain ⟨y, hy, hat⟩ := h.at'
          refine ⟨y, hy, fun t ht => ?_⟩
          exact (hat t ht).frame (by simp only; rw [if_neg (by omega)]) (by simp only; rw [if_neg (by omega)]) fun _ h => h
        · obtain ⟨y, hy, hk, hh⟩ := h.know
          have hle : ((s.view 0).cur.join y.know).Le ((((s.view 0).got .acq dn c x).cur).join y.know) := by
            have := (View.le_got (s.view 0) .acq dn c x).cur
            constructor
            · intro l
              have := this.1 l
              simp only [Know.join]
              omega
            · intro l
              have := this.2 l
              simp only [Know.join]
              omega
          refine ⟨y, hy, hk.mono hle fun _ h => h, fun l hl => ?_⟩
          simp only [if_true]
          rcases hh l hl with h1 | ⟨t, h1, h2, h3⟩
          · exact .inl (Nat.le_trans h1 (Nat.succ_le_succ (hle.1 l)))
          · exact .inr ⟨t, h1, h2, by rw [if_neg (by omega)]; exact h3⟩
  | succ t =>
    by_cases ht : t < N
    · obtain ⟨y, hy, hat⟩ := h.at'
      have hatt := hat t ht
      cases hst : st t with
      | waits =>
        rw [hst] at hatt
        obtain ⟨⟨f', hf'⟩, hcov⟩ := hatt
        rcases look (strong := strong) h.cgo hf' c with e | ⟨f'', x, rfl, hx, hc, e⟩
        · rw [e]; exact ⟨by simp, fun _ e => by cases e⟩
        · rw [e]
          refine ⟨by simp, fun s' e => ?_⟩
          simp only [Out.ok.injEq] at e
          subst e
          by_cases hcr : (c : Int) = ((r + 1 : Nat) : Int)
          · have hcr' : c = r + 1 := by omega
            subst hcr'
            refine .inr (.inl ⟨r, R, Rs, F, put st t (.busy (R.work t)), rfl, hR, ?_⟩)
            refine h.looked ht (by rw [hst]; rfl) (by rw [hst]; rfl) (View.le_got ..).cur fun x' hx' _ => ⟨?_, h.feet.within t ht, ?_⟩
            · simp only [if_true]; rfl
            · simp only [if_true]
              rw [hx] at hy
              cases hy
              exact hcov.mono (View.got_acq _ rfl _ _ _) fun _ h => h
          · refine .inr (.inl ⟨r, R, Rs, F, put st t .waits, rfl, hR, ?_⟩)
            refine h.looked ht (by rw [hst]) (by rw [hst]) (View.le_got ..).cur fun x' hx' _ => ⟨?_, ?_⟩
            · simp only [if_true, if_neg hcr]
              exact ⟨f'', rfl⟩
            · rw [hx'] at hy
              cases hy
              exact hcov
      | busy q =>
        rw [hst] at hatt
        obtain ⟨hth, hwi, hcov⟩ := hatt
        cases q with
        | ret a =>
          rw [step_op (by rw [hth]; rfl)]
          have hord : (strong && decide (Order.rel = .sc)) = false := by cases strong <;> rfl
          simp only [exec, hord, execRmw]
          cases hx : (s.mem.msgs dn)[c]? with
          | none => simp
          | some x =>
            simp only [Bool.false_eq_true, if_false]
            by_cases hs : (s.view (t + 1)).cur.seen dn ≤ c
            · rw [if_pos hs]
              by_cases hl : c + 1 = (s.mem.msgs dn).length
              · rw [if_pos hl]
                refine ⟨by simp, fun s' e => ?_⟩
                simp only [Out.ok.injEq] at e
                subst e
                have hcl : c = N * r + ready st N := by have := h.cdn.1; omega
                subst hcl
                exact .inr (.inl ⟨r, R, Rs, F, put st t .ready, rfl, hR, h.signalled hgd hA ht hst hx⟩)
              · rw [if_neg hl]; simp
            · rw [if_neg hs]; simp
        | op o kk =>
          rw [step_op (by rw [hth]; rfl)]
          obtain ⟨h1, h2⟩ := exec_keeps (strong := strong) (c := c) hcov (fun t' hne => h.feet.sep t' t hne) (fun t' hne => h.feet.sep t t' hne.symm)
            (fun l hl hl' => hl.elim (h.feet.free t l hl').2.1 (h.feet.free t l hl').2.2) (fun _ => .inr) h.full hwi.1
          cases he : exec strong (t + 1) c o s.mem (s.view (t + 1)) with
          | race => exact absurd he h1
          | no => simp
          | ok m w v =>
            refine ⟨by simp, fun s' e => ?_⟩
            simp only [Out.ok.injEq] at e
            subst e
            exact .inr (.inl ⟨r, R, Rs, F, put st t (.busy (kk v)), rfl, hR, h.worked ht hst hA (h2 m w v he)⟩)
      | ready =>
        rw [hst] at hatt
        cases Rs with
        | nil =>
          rw [step_ret hatt]
          exact ⟨by simp, fun _ e => by cases e⟩
        | cons R' Rs =>
          obtain ⟨f', hf'⟩ := hatt
          rcases look (strong := strong) h.cgo hf' c with e | ⟨f'', x, rfl, hx, hc, e⟩
          · rw [e]; exact ⟨by simp, fun _ e => by cases e⟩
          · rw [e]
            refine ⟨by simp, fun s' e => ?_⟩
            simp only [Out.ok.injEq] at e
            subst e
            refine .inr (.inl ⟨r, R, R' :: Rs, F, put st t .ready, rfl, hR, ?_⟩)
            refine h.looked ht (by rw [hst]) (by rw [hst]) (View.le_got ..).cur fun x' hx' _ => ?_
            refine ⟨f'', ?_⟩
            simp only [if_true]
            rw [if_neg (by omega)]
    · rw [step_ret (h.others t (by omega))]
      exact ⟨by simp, fun _ e => by cases e⟩

end

theorem rounds_step {T : Store L → Prop} {n : Nat} {s : St L (Prog L Unit)} (hgd : go ≠ dn) (hA : ∀ l, A l → l ≠ go ∧ l ≠ dn) (h : RoundInv go dn A N f T n s) (strong : Bool) (i c : Nat) :
    s.step (Prog.auto L) strong i c ≠ .race ∧
      ∀ s', s.step (Prog.auto L) strong i c = .ok s' → RoundInv go dn A N f T n s' := by
  rcases h with ⟨r, Rs, rfl, hR, h⟩ | ⟨r, R, Rs, F, st, rfl, hR, h⟩ | h
  · exact h.step hgd hA hR strong i c
  · exact h.step hgd hA hR strong i c
  · rw [step_ret (h.idle i)]
    exact ⟨by simp, fun _ e => by cases e⟩

theorem rounds_start {Rs : List (Round L)} (hR : ∀ R ∈ Rs, R.Sharing N go dn A) {init : L → Int} (hg : init go = 0) (hd : init dn = 0) :
    RoundInv go dn A N f (MixRounds N Rs ⟨init, init⟩) Rs.length (.init init (roundThreads .acq .rel go dn N f Rs)) := by
  have hcount : ∀ l, init l = 0 → Counts (Mem.init init) l 0 := by
    intro l hl
    refine ⟨rfl, fun i x hx => ?_⟩
    match i, hx with
    | 0, hx =>
      simp only [Mem.init, List.getElem?_cons_zero, Option.some.injEq] at hx
      subst hx; exact hl
  refine .inl ⟨0, Rs, by simp, hR, hcount go hg, hcount dn hd, fun l => by simp [St.init, Mem.init], Know.All.init, ?_, ?_, ?_⟩
  · intro t ht
    simp only [St.init, roundThreads, if_pos ht]
    exact follower_waits ..
  · intro t ht
    simp only [St.init, roundThreads]
    rw [if_neg (by omega)]
  · cases Rs with
    | nil => exact ⟨rfl, ⟨init, init⟩, fun l _ => ⟨rfl, rfl⟩, .nil⟩
    | cons R Rs =>
      exact ⟨R.main, (hR R (List.mem_cons_self ..)).1, rfl, ⟨init, init⟩, fun l _ => ⟨rfl, rfl⟩, fun s1 s2 h1 h2 => .cons h1 h2⟩

theorem rounds_reach (hgd : go ≠ dn) (hA : ∀ l, A l → l ≠ go ∧ l ≠ dn) {Rs : List (Round L)} (hR : ∀ R ∈ Rs, R.Sharing N go dn A) {init : L → Int} (hg : init go = 0) (hd : init dn = 0)
    {strong : Bool} {s : St L (Prog L Unit)} (h : Reach (Prog.auto L) strong (.init init (roundThreads .acq .rel go dn N f Rs)) s) :
    RoundInv go dn A N f (MixRounds N Rs ⟨init, init⟩) Rs.length s := by
  induction h with
  | init => exact rounds_start hR hg hd
  | step _ hs ih => exact (rounds_step hgd hA ih strong _ _).2 _ hs

end
end CoEcs.Weak
