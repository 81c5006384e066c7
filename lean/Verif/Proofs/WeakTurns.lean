import Verif.Proofs.Weak
import Verif.Spec.WeakTurns

/-! # Threads that take turns: helper lemmas -/

namespace CoEcs.Weak
variable {L : Type} [DecidableEq L]

/-- Everything in memory is known. -/
structure Know.All (k : Know L) (m : Mem L) : Prop where
  seen : ∀ l, (m.msgs l).length ≤ k.seen l + 1
  done : ∀ l a, a ∈ m.accs l → a.num ≤ k.done a.tid

theorem Know.All.mono {k k' : Know L} {m : Mem L} (h : k.All m) (hk : k.Le k') : k'.All m :=
  ⟨fun l => Nat.le_trans (h.seen l) (Nat.succ_le_succ (hk.1 l)), fun l a ha => Nat.le_trans (h.done l a ha) (hk.2 _)⟩

theorem Know.All.init : (Know.zero : Know L).All (Mem.init i) :=
  ⟨fun _ => by simp [Mem.init], fun _ _ h => by simp [Mem.init] at h⟩

/-- There is a value of every object. -/
def Mem.Full (m : Mem L) : Prop := ∀ l, m.msgs l ≠ []

theorem Mem.Full.push {m : Mem L} (h : m.Full) (l : L) (x : Msg L) : (m.push l x).Full := by
  intro y
  simp only [Mem.push]
  split
  · simp
  · exact h y

theorem Mem.vals_push (m : Mem L) (l : L) (x : Msg L) : (m.push l x).vals = m.vals.setAtom l x.val := by
  simp only [Mem.vals, Mem.push, Store.setAtom, Store.mk.injEq, and_true]
  funext y
  by_cases h : y = l
  · subst h; simp
  · simp [h]

theorem Know.All.push {k : Know L} {m : Mem L} (h : k.All m) (l : L) (x : Msg L) :
    (k.saw l (m.msgs l).length).All (m.push l x) := by
  constructor
  · intro y
    simp only [Mem.push, Know.saw]
    split
    · rename_i e; subst e; simp; omega
    · exact h.seen y
  · intro y a ha
    exact h.done y a ha

theorem Know.All.last {k : Know L} {m : Mem L} (h : k.All m) {l : L} {c : Nat} {x : Msg L} (hc : (m.msgs l)[c]? = some x)
    (hs : k.seen l ≤ c) : (m.vals.atom l) = x.val ∧ c + 1 = (m.msgs l).length := by
  have h1 := (List.getElem?_eq_some_iff.1 hc).1
  have h2 := h.seen l
  have h3 : c + 1 = (m.msgs l).length := by omega
  refine ⟨?_, h3⟩
  have : (m.msgs l).getLast? = some x := by
    rw [List.getLast?_eq_getElem?, ← h3]
    simpa using hc
  simp [Mem.vals, this]

theorem Know.All.accessed {m : Mem L} (t : Nat) (l : L) (wr : Bool) (w : View L) (h : w.cur.All m) :
    (access t l wr m w).2.cur.All (access t l wr m w).1 := by
  constructor
  · intro y
    exact h.seen y
  · intro y a ha
    simp only [access] at ha ⊢
    have hle := (Know.le_did w.cur t (w.cur.done t + 1)).2
    split at ha
    · rcases List.mem_append.1 ha with ha | ha
      · exact Nat.le_trans (h.done _ a ha) (hle _)
      · simp only [List.mem_singleton] at ha
        subst ha
        exact Know.did_self ..
    · exact Nat.le_trans (h.done _ a ha) (hle _)

/-- What a step of the only active thread does. -/
structure Solo (op : Op L) (m : Mem L) (m' : Mem L) (w' : View L) (v : Int) : Prop where
  seq : op.seq m.vals = (v, m'.vals)
  all : w'.cur.All m'
  full : m'.Full
  frame : ∀ l, op.loc ≠ some l → m'.msgs l = m.msgs l

theorem execRmw_solo {c : Nat} {o : Order} {l : L} {f : Int → Option Int} {m : Mem L} {w : View L} (h : w.cur.All m) (hf : m.Full) :
    execRmw c o l f m w ≠ .race ∧ ∀ m' w' v, execRmw c o l f m w = .ok m' w' v → Solo (.rmw o l f) m m' w' v := by
  unfold execRmw
  cases hx : (m.msgs l)[c]? with
  | none => simp
  | some x =>
    simp only
    by_cases hs : w.cur.seen l ≤ c
    · rw [if_pos hs]
      obtain ⟨h1, h2⟩ := h.last hx hs
      cases hv : f x.val with
      | none =>
        simp only
        refine ⟨by simp, fun m' w' v e => ?_⟩
        cases e
        exact ⟨by simp [Op.seq, h1, hv], h.mono (View.le_got ..).cur, hf, fun _ _ => rfl⟩
      | some y =>
        simp only
        rw [if_pos h2]
        refine ⟨by simp, fun m' w' v e => ?_⟩
        cases e
        refine ⟨by simp [Op.seq, h1, hv, Mem.vals_push], ?_, hf.push _ _, fun l' hl => ?_⟩
        · have h3 : (w.got o l c x).cur.All m := h.mono (View.le_got ..).cur
          have := h3.push l ⟨y, ((w.got o l c x).gives o l (c + 1)).join x.know⟩
          rw [← h2] at this
          exact this
        · simp only [Op.loc, ne_eq, Option.some.injEq] at hl
          simp [Mem.push, Ne.symm hl]
    · rw [if_neg hs]; simp

theorem fenceSc_vals (m : Mem L) (w : View L) : (fenceSc m w).1.vals = m.vals := rfl

theorem fenceSc_all {m : Mem L} {w : View L} (h : w.cur.All m) : (fenceSc m w).2.cur.All (fenceSc m w).1 :=
  have := h.mono (fenceSc_le m w).cur
  ⟨this.seen, this.done⟩

theorem exec_solo {strong : Bool} {t c : Nat} {op : Op L} {m : Mem L} {w : View L} (h : w.cur.All m) (hf : m.Full) :
    exec strong t c op m w ≠ .race ∧ ∀ m' w' v, exec strong t c op m w = .ok m' w' v → Solo op m m' w' v := by
  cases op with
  | load o l =>
    simp only [exec]
    cases hx : (m.msgs l)[c]? with
    | none => simp
    | some x =>
      simp only
      by_cases hs : w.cur.seen l ≤ c
      · rw [if_pos hs]
        refine ⟨by simp, fun m' w' v e => ?_⟩
        cases e
        exact ⟨by simp [Op.seq, (h.last hx hs).1], h.mono (View.le_got ..).cur, hf, fun _ _ => rfl⟩
      · rw [if_neg hs]; simp
  | store o l v =>
    refine ⟨by simp [exec], fun m' w' v' e => ?_⟩
    simp only [exec] at e
    cases e
    refine ⟨by simp [Op.seq, Mem.vals_push], h.push l _, hf.push _ _, fun l' hl => ?_⟩
    simp only [Op.loc, ne_eq, Option.some.injEq] at hl
    simp [Mem.push, Ne.symm hl]
  | rmw o l f =>
    simp only [exec]
    by_cases hs : (strong && decide (o = .sc)) = true
    · rw [if_pos hs]
      obtain ⟨h1, h2⟩ := execRmw_solo (c := c) (o := o) (l := l) (f := f) (fenceSc_all h) (m := (fenceSc m w).1) hf
      cases he : execRmw c o l f (fenceSc m w).1 (fenceSc m w).2 with
      | ok m1 w1 v1 =>
        refine ⟨by simp, fun m' w' v e => ?_⟩
        have := h2 _ _ _ he
        cases e
        exact ⟨this.seq, fenceSc_all this.all, this.full, this.frame⟩
      | race => exact absurd he h1
      | no => simp
    · rw [if_neg hs]
      exact execRmw_solo h hf
  | fence o =>
    cases o <;> (simp only [exec]; refine ⟨by simp, fun m' w' v e => ?_⟩; cases e)
    · exact ⟨rfl, h, hf, fun _ _ => rfl⟩
    · exact ⟨rfl, h.mono (Know.le_join_left ..), hf, fun _ _ => rfl⟩
    · exact ⟨rfl, h, hf, fun _ _ => rfl⟩
    · exact ⟨rfl, h.mono (Know.le_join_left ..), hf, fun _ _ => rfl⟩
    · exact ⟨rfl, fenceSc_all h, hf, fun _ _ => rfl⟩
  | read l =>
    simp only [exec]
    have hc : ¬ ((m.accs l).any fun a => a.wr && clash t w.cur a) = true := by
      simp only [List.any_eq_true, Bool.and_eq_true, clash, decide_eq_true_eq, not_exists, not_and]
      intro a ha _ _
      have := h.done l a ha
      omega
    rw [if_neg hc]
    refine ⟨by simp, fun m' w' v e => ?_⟩
    cases e
    exact ⟨rfl, Know.All.accessed t l false w h, hf, fun _ _ => rfl⟩
  | write l v =>
    simp only [exec]
    have hc : ¬ ((m.accs l).any (clash t w.cur)) = true := by
      simp only [List.any_eq_true, Bool.and_eq_true, clash, decide_eq_true_eq, not_exists, not_and]
      intro a ha _
      have := h.done l a ha
      omega
    rw [if_neg hc]
    refine ⟨by simp, fun m' w' v' e => ?_⟩
    cases e
    have := Know.All.accessed t l true w h
    exact ⟨rfl, ⟨this.seen, this.done⟩, hf, fun _ _ => rfl⟩

/-! ## The invariant -/

/-- Thread `t` has the turn and is at `q`. -/
def Inside (turn : L) (N : Nat) (fin : Store L) (s : St L (Prog L Unit)) (k : Nat) : Prop :=
  k < N ∧ (s.view k).cur.All s.mem ∧ ∃ q, q.Avoids turn ∧ s.th k = handing .rel turn k q ∧ ((handing .rel turn k q).seq s.mem.vals).2 = fin

structure TurnInv (turn : L) (ps : List (Prog L Unit)) (start : Store L) (s : St L (Prog L Unit)) (k : Nat) : Prop where
  le : k ≤ ps.length
  len : (s.mem.msgs turn).length = k + 1
  val : ∀ (i : Nat) (x : Msg L), (s.mem.msgs turn)[i]? = some x → x.val = (i : Int)
  full : s.mem.Full
  before : ∀ j, j < k → s.th j = .ret ()
  after : ∀ j, k < j → (∃ p f, ps[j]? = some p ∧ s.th j = taker .acq .rel turn j p f) ∨ ps[j]? = none ∧ s.th j = .ret ()
  now : ((∃ x, (s.mem.msgs turn)[k]? = some x ∧ x.know.All s.mem) ∧
      s.mem.vals = seqAll ((ps.take k).zipIdx.map fun p => handing .rel turn p.2 p.1) start ∧
      ((∃ p f, ps[k]? = some p ∧ s.th k = taker .acq .rel turn k p f) ∨ ps[k]? = none ∧ s.th k = .ret ())) ∨
    Inside turn ps.length (seqAll ((ps.take (k + 1)).zipIdx.map fun p => handing .rel turn p.2 p.1) start) s k

theorem seqAll_append (ps qs : List (Prog L Unit)) (s : Store L) : seqAll (ps ++ qs) s = seqAll qs (seqAll ps s) := by
  induction ps generalizing s with
  | nil => rfl
  | cons p ps ih => exact ih _

theorem handed_succ (turn : L) (ps : List (Prog L Unit)) (start : Store L) {k : Nat} {p : Prog L Unit} (h : ps[k]? = some p) :
    seqAll ((ps.take (k + 1)).zipIdx.map fun p => handing .rel turn p.2 p.1) start =
      ((handing .rel turn k p).seq (seqAll ((ps.take k).zipIdx.map fun p => handing .rel turn p.2 p.1) start)).2 := by
  have hk := (List.getElem?_eq_some_iff.1 h).1
  rw [List.take_add_one, h]
  simp only [Option.toList_some, List.zipIdx_append, List.map_append, seqAll_append]
  simp [seqAll, Nat.min_eq_left (Nat.le_of_lt hk)]

theorem TurnInv.start (turn : L) (ps : List (Prog L Unit)) (f : Nat) {init : L → Int} (h0 : init turn = 0) :
    TurnInv turn ps ⟨init, init⟩ (.init init (turnThreads .acq .rel turn f ps)) 0 := by
  have hth : ∀ j, (∃ p f', ps[j]? = some p ∧ turnThreads .acq .rel turn f ps j = taker .acq .rel turn j p f') ∨
      ps[j]? = none ∧ turnThreads .acq .rel turn f ps j = .ret () := by
    intro j
    unfold turnThreads
    cases h : ps[j]? with
    | none => exact .inr ⟨rfl, rfl⟩
    | some p => exact .inl ⟨p, f, rfl, rfl⟩
  refine ⟨Nat.zero_le _, rfl, ?_, ?_, fun j h => absurd h (Nat.not_lt_zero _), fun j _ => hth j, .inl ⟨⟨_, rfl, Know.All.init⟩, rfl, hth 0⟩⟩
  · intro i x hx
    match i, hx with
    | 0, hx =>
      simp only [St.init, Mem.init, List.getElem?_cons_zero, Option.some.injEq] at hx
      subst hx; exact h0
  · intro l; simp [St.init, Mem.init]

/-- A thread that looks and finds that it is not its turn. -/
theorem TurnInv.look {turn : L} {ps : List (Prog L Unit)} {start : Store L} {s : St L (Prog L Unit)} {k : Nat}
    (h : TurnInv turn ps start s k) {t : Nat} (hkt : k < t) {q : Prog L Unit} {w : View L}
    (hq : ∃ p f, ps[t]? = some p ∧ q = taker .acq .rel turn t p f) :
    TurnInv turn ps start ⟨s.mem, fun i => if i = t then q else s.th i, fun i => if i = t then w else s.view i⟩ k := by
  refine ⟨h.le, h.len, h.val, h.full, ?_, ?_, ?_⟩
  · intro j hj
    simp only
    rw [if_neg (by omega)]
    exact h.before j hj
  · intro j hj
    simp only
    by_cases e : j = t
    · subst e; rw [if_pos rfl]; exact .inl hq
    · rw [if_neg e]; exact h.after j hj
  · have : ¬ k = t := by omega
    rcases h.now with ⟨h1, h2, h3⟩ | ⟨h1, h2, h3⟩
    · refine .inl ⟨h1, h2, ?_⟩
      simp only
      rw [if_neg this]
      exact h3
    · refine .inr ⟨h1, ?_, ?_⟩
      · simp only; rw [if_neg this]; exact h2
      · simp only; rw [if_neg this]; exact h3

theorem step_ret {strong : Bool} {s : St L (Prog L Unit)} {t : Nat} (h : s.th t = .ret ()) (c : Nat) :
    s.step (Prog.auto L) strong t c = .no := by
  simp [St.step, Prog.auto, h]

theorem step_op {strong : Bool} {s : St L (Prog L Unit)} {t : Nat} {o : Op L} {kk : Int → Prog L Unit} (h : s.th t = .op o kk) (c : Nat) :
    s.step (Prog.auto L) strong t c = match exec strong t c o s.mem (s.view t) with
      | .no => .no
      | .race => .race
      | .ok m w v => .ok ⟨m, fun i => if i = t then kk v else s.th i, fun i => if i = t then w else s.view i⟩ := by
  simp only [St.step, Prog.auto, h]
  cases exec strong t c o s.mem (s.view t) <;> rfl

theorem TurnInv.step {turn : L} {ps : List (Prog L Unit)} (hp : ∀ p ∈ ps, p.Avoids turn) {start : Store L} {s : St L (Prog L Unit)}
    {k : Nat} (h : TurnInv turn ps start s k) (strong : Bool) (t c : Nat) :
    s.step (Prog.auto L) strong t c ≠ .race ∧
      ∀ s', s.step (Prog.auto L) strong t c = .ok s' → ∃ k', TurnInv turn ps start s' k' := by
  rcases Nat.lt_trichotomy t k with htk | rfl | htk
  · rw [step_ret (h.before t htk)]
    exact ⟨by simp, fun _ e => by cases e⟩
  · rcases h.now with ⟨⟨x, hx, hxa⟩, hv, ⟨p, f, hpt, hth⟩ | ⟨_, hth⟩⟩ | ⟨hN, hall, q, hq, hth, hfin⟩
    · cases f with
      | zero =>
        rw [step_ret (by rw [hth]; rfl)]
        exact ⟨by simp, fun _ e => by cases e⟩
      | succ f =>
        rw [step_op (by rw [hth]; rfl)]
        simp only [exec]
        cases hc : (s.mem.msgs turn)[c]? with
        | none => simp
        | some y =>
          simp only
          by_cases hs : (s.view t).cur.seen turn ≤ c
          · rw [if_pos hs]
            refine ⟨by simp, fun s' e => ?_⟩
            simp only [Out.ok.injEq] at e
            subst e
            rw [h.val c y hc]
            refine ⟨t, h.le, h.len, h.val, h.full, ?_, ?_, ?_⟩
            · intro j hj
              simp only
              rw [if_neg (by omega)]
              exact h.before j hj
            · intro j hj
              simp only
              rw [if_neg (by omega)]
              exact h.after j hj
            · by_cases hct : c = t
              · subst hct
                rw [hx] at hc
                cases hc
                refine .inr ⟨(List.getElem?_eq_some_iff.1 hpt).1, ?_, p, hp p (List.mem_of_getElem? hpt), by simp, ?_⟩
                · simp only [if_true]
                  exact hxa.mono (View.got_acq _ rfl _ _ _)
                · rw [handed_succ turn ps start hpt, ← hv]
              · refine .inl ⟨⟨x, hx, hxa⟩, hv, .inl ⟨p, f, hpt, ?_⟩⟩
                simp only [if_true]
                rw [if_neg (by omega)]
          · rw [if_neg hs]; simp
    · rw [step_ret hth]
      exact ⟨by simp, fun _ e => by cases e⟩
    · cases q with
      | ret a =>
        rw [step_op (by rw [hth]; rfl)]
        simp only [exec]
        refine ⟨by simp, fun s' e => ?_⟩
        simp only [Out.ok.injEq] at e
        subst e
        have hall' := hall.push turn ⟨((t + 1 : Nat) : Int), (s.view t).gives .rel turn (s.mem.msgs turn).length⟩
        refine ⟨t + 1, hN, ?_, ?_, h.full.push _ _, ?_, ?_, .inl ⟨?_, ?_, ?_⟩⟩
        · simp [Mem.push, h.len]
        · intro i x hx
          simp only [Mem.push, if_true] at hx
          rw [List.getElem?_append] at hx
          split at hx
          · exact h.val i x hx
          · rename_i hi
            have : i - (s.mem.msgs turn).length = 0 := by
              rcases Nat.eq_zero_or_pos (i - (s.mem.msgs turn).length) with e | e
              · exact e
              · rw [List.getElem?_eq_none (by simp; omega)] at hx; cases hx
            rw [this] at hx
            simp only [List.getElem?_cons_zero, Option.some.injEq] at hx
            subst hx
            have := h.len
            simp only; omega
        · intro j hj
          simp only
          by_cases e : j = t
          · rw [if_pos e]
          · rw [if_neg e]; exact h.before j (by omega)
        · intro j hj
          simp only
          rw [if_neg (by omega)]
          exact h.after j (by omega)
        · refine ⟨⟨((t + 1 : Nat) : Int), (s.view t).gives .rel turn (s.mem.msgs turn).length⟩, ?_, ?_⟩
          · simp only [Mem.push, if_true]
            rw [← h.len, List.getElem?_append_right (Nat.le_refl _)]
            simp
          · exact hall'
        · rw [Mem.vals_push, ← hfin]
          rfl
        · simp only
          rw [if_neg (by omega)]
          exact h.after (t + 1) (by omega)
      | op o kk =>
        rw [step_op (by rw [hth]; rfl)]
        obtain ⟨h1, h2⟩ := exec_solo (strong := strong) (t := t) (c := c) (op := o) hall h.full
        cases he : exec strong t c o s.mem (s.view t) with
        | race => exact absurd he h1
        | no => simp
        | ok m w v =>
          obtain ⟨hseq, hall', hfull, hfr⟩ := h2 m w v he
          refine ⟨by simp, fun s' e => ?_⟩
          simp only [Out.ok.injEq] at e
          subst e
          have hm := hfr turn hq.1
          refine ⟨t, h.le, by simp only [hm]; exact h.len, by simp only [hm]; exact h.val, hfull, ?_, ?_,
            .inr ⟨hN, ?_, kk v, hq.2 v, ?_, ?_⟩⟩
          · intro j hj
            simp only
            rw [if_neg (by omega)]
            exact h.before j hj
          · intro j hj
            simp only
            rw [if_neg (by omega)]
            exact h.after j hj
          · simp only [if_true]; exact hall'
          · simp only [if_true]; rfl
          · rw [← hfin]
            simp only [handing, Prog.bind, Prog.seq, hseq]
  · rcases h.after t htk with ⟨p, f, hpt, hth⟩ | ⟨_, hth⟩
    · cases f with
      | zero =>
        rw [step_ret (by rw [hth]; rfl)]
        exact ⟨by simp, fun _ e => by cases e⟩
      | succ f =>
        rw [step_op (by rw [hth]; rfl)]
        simp only [exec]
        cases hc : (s.mem.msgs turn)[c]? with
        | none => simp
        | some y =>
          simp only
          by_cases hs : (s.view t).cur.seen turn ≤ c
          · rw [if_pos hs]
            refine ⟨by simp, fun s' e => ?_⟩
            simp only [Out.ok.injEq] at e
            subst e
            refine ⟨k, h.look htk ⟨p, f, hpt, ?_⟩⟩
            have h1 := (List.getElem?_eq_some_iff.1 hc).1
            have h2 := h.len
            rw [h.val c y hc, if_neg (by omega)]
          · rw [if_neg hs]; simp
    · rw [step_ret hth]
      exact ⟨by simp, fun _ e => by cases e⟩

theorem turns_reach {turn : L} {ps : List (Prog L Unit)} (hp : ∀ p ∈ ps, p.Avoids turn) {init : L → Int} (h0 : init turn = 0)
    {f : Nat} {strong : Bool} {s : St L (Prog L Unit)}
    (h : Reach (Prog.auto L) strong (.init init (turnThreads .acq .rel turn f ps)) s) : ∃ k, TurnInv turn ps ⟨init, init⟩ s k := by
  induction h with
  | init => exact ⟨0, TurnInv.start turn ps f h0⟩
  | step _ hs ih =>
    obtain ⟨k, hk⟩ := ih
    exact (hk.step hp strong _ _).2 _ hs

end CoEcs.Weak
