import Verif.Proofs.Leapfrog

/-! # How deep the calls of a worker are nested -/

namespace CoEcs
open PoolState

/-- Calls and tasks are no deeper than what submitted them. -/
structure LevInv (p : Prog) (s : PoolState) : Prop where
  main : ∀ i f, f ∈ (s.thr i).stack → f.code.depth ≤ p.depth
  call : ∀ i f (k : Nat) (q : PTask), f ∈ (s.thr i).stack → f.task = some k → s.tasks[k]? = some q → f.code.depth ≤ q.code.depth
  low : ∀ (k : Nat) (q : PTask), s.tasks[k]? = some q → q.code.depth < p.depth
  task : ∀ (j : Nat) (q : PTask), s.tasks[j]? = some q → 0 < q.caller → ∀ (k : Nat) (qk : PTask), s.tasks[k]? = some qk → qk.time = q.caller →
    q.code.depth < qk.code.depth
  time : ∀ (k : Nat) (q : PTask), s.tasks[k]? = some q → q.time ≤ s.clock
  uniq : ∀ (j k : Nat) (q qk : PTask), s.tasks[j]? = some q → s.tasks[k]? = some qk → 0 < q.time → q.time = qk.time → j = k

theorem LevInv.init (p : Prog) : LevInv p (PoolState.init p) := by
  have hs : ∀ i, ((PoolState.init p).thr i).stack = if i = 0 then [⟨none, p, [], .run, 0⟩] else [] := by
    intro i; simp only [PoolState.init]; split <;> rfl
  have ht : (PoolState.init p).tasks = [] := rfl
  constructor <;> simp only [hs, ht] <;> intro i <;> (try split) <;> simp

/-- What the invariant is about, of a task. -/
def PTask.lev (q : PTask) : Prog × Nat × Nat := (q.code, q.caller, q.time)

/-- Steps that start and submit nothing: no call has got deeper. -/
theorem LevInv.same {p : Prog} {s u : PoolState} (h : LevInv p s) (ht : ∀ m : Nat, (u.tasks[m]?).map PTask.lev = (s.tasks[m]?).map PTask.lev)
    (hc : u.clock = s.clock) (hs : ∀ i f, f ∈ (u.thr i).stack → ∃ f' ∈ (s.thr i).stack, f'.task = f.task ∧ f.code.depth ≤ f'.code.depth) : LevInv p u := by
  have back : ∀ {m : Nat} {q : PTask}, u.tasks[m]? = some q → ∃ q', s.tasks[m]? = some q' ∧ q'.code = q.code ∧ q'.caller = q.caller ∧ q'.time = q.time := by
    intro m q hq
    have := ht m
    rw [hq] at this
    cases e : s.tasks[m]? with
    | none => simp [e] at this
    | some q' => simp [e, PTask.lev] at this; exact ⟨q', rfl, this.1.symm, this.2.1.symm, this.2.2.symm⟩
  constructor
  · intro i f hf
    obtain ⟨f', h1, -, h2⟩ := hs i f hf
    exact Nat.le_trans h2 (h.main i f' h1)
  · intro i f k q hf hk hq
    obtain ⟨f', h1, h3, h2⟩ := hs i f hf
    obtain ⟨q', e1, e2, -⟩ := back hq
    rw [← e2]
    exact Nat.le_trans h2 (h.call i f' k q' h1 (by rw [h3, hk]) e1)
  · intro k q hq
    obtain ⟨q', e1, e2, -⟩ := back hq
    rw [← e2]; exact h.low k q' e1
  · intro j q hq h0 k qk hk hkt
    obtain ⟨q', e1, e2, e3, -⟩ := back hq
    obtain ⟨qk', f1, f2, -, f3⟩ := back hk
    rw [← e2, ← f2]
    exact h.task j q' e1 (by omega) k qk' f1 (by omega)
  · intro k q hq
    obtain ⟨q', e1, -, -, e2⟩ := back hq
    rw [hc, ← e2]; exact h.time k q' e1
  · intro j k q qk hq hk h0 he
    obtain ⟨q', e1, -, -, e3⟩ := back hq
    obtain ⟨qk', f1, -, -, f3⟩ := back hk
    exact h.uniq j k q' qk' e1 f1 (by omega) (by omega)

theorem lev_modify {l : List PTask} {j : Nat} {F : PTask → PTask} (hF : ∀ q, (F q).lev = q.lev) (m : Nat) : ((l.modify j F)[m]?).map PTask.lev = (l[m]?).map PTask.lev := by
  rw [List.getElem?_modify]
  cases l[m]? with
  | none => rfl
  | some q => by_cases e : j = m <;> simp [e, hF]

/-- A task is submitted. -/
theorem LevInv.submit {n : Nat} {p : Prog} {s u : PoolState} {i : Nat} (hP : TPoolInv n s) (h : LevInv p s) {f : Frame} {fs : List Frame} (hst : (s.thr i).stack = f :: fs)
    {o : Option Nat} {c k : Prog} (hc : f.code = .submit o c k) {l : List PTask} (hl : ∀ m : Nat, (l[m]?).map PTask.lev = (s.tasks[m]?).map PTask.lev) {q : PTask}
    (hlen : l.length = s.tasks.length) (hq : q.code = c ∧ q.caller = f.time ∧ q.time = 0) (hut : u.tasks = l ++ [q]) (hclk : u.clock = s.clock) {f' : Frame} (hf' : f'.task = f.task ∧ f'.code = k)
    (hus : ∀ x, (u.thr x).stack = if x = i then f' :: fs else (s.thr x).stack) : LevInv p u := by
  have hfm : f ∈ (s.thr i).stack := by simp [hst]
  have hd : c.depth < f.code.depth ∧ k.depth ≤ f.code.depth := by rw [hc]; simp only [Prog.depth]; omega
  have back : ∀ {m : Nat} {q0 : PTask}, u.tasks[m]? = some q0 → (∃ q', s.tasks[m]? = some q' ∧ q'.code = q0.code ∧ q'.caller = q0.caller ∧ q'.time = q0.time) ∨ (m = s.tasks.length ∧ q0 = q) := by
    intro m q0 h0
    rw [hut] at h0
    rcases Nat.lt_trichotomy m l.length with hm | hm | hm
    · rw [List.getElem?_append_left hm] at h0
      have := hl m
      rw [h0] at this
      cases e : s.tasks[m]? with
      | none => simp [e] at this
      | some q' => simp [e, PTask.lev] at this; exact .inl ⟨q', rfl, this.1.symm, this.2.1.symm, this.2.2.symm⟩
    · subst hm; simp at h0; exact .inr ⟨hlen, h0.symm⟩
    · rw [List.getElem?_eq_none (by simp; omega)] at h0; cases h0
  have frames : ∀ x g, g ∈ (u.thr x).stack → ∃ g' ∈ (s.thr x).stack, g'.task = g.task ∧ g.code.depth ≤ g'.code.depth := by
    intro x g hg
    rw [hus] at hg
    split at hg
    · rename_i e; subst e
      rcases List.mem_cons.1 hg with rfl | hg
      · exact ⟨f, hfm, hf'.1.symm, by rw [hf'.2]; exact hd.2⟩
      · exact ⟨g, by simp [hst, hg], rfl, Nat.le_refl _⟩
    · exact ⟨g, hg, rfl, Nat.le_refl _⟩
  constructor
  · intro x g hg
    obtain ⟨g', h1, -, h2⟩ := frames x g hg
    exact Nat.le_trans h2 (h.main x g' h1)
  · intro x g k' q0 hg hk hq0
    obtain ⟨g', h1, h3, h2⟩ := frames x g hg
    obtain ⟨q1, a1, -⟩ := hP.task x g' k' h1 (by rw [h3, hk])
    rcases back hq0 with ⟨q', e1, e2, -⟩ | ⟨e1, -⟩
    · rw [← e2]; exact Nat.le_trans h2 (h.call x g' k' q' h1 (by rw [h3, hk]) e1)
    · rw [e1] at a1; simp at a1
  · intro k' q0 hq0
    rcases back hq0 with ⟨q', e1, e2, -⟩ | ⟨-, rfl⟩
    · rw [← e2]; exact h.low k' q' e1
    · rw [hq.1]; have := h.main i f hfm; omega
  · intro j q0 hq0 h0 k' qk hk hkt
    have hkold : ∃ q', s.tasks[k']? = some q' ∧ q'.code = qk.code ∧ q'.time = qk.time := by
      rcases back hk with ⟨q', e1, e2, -, e3⟩ | ⟨-, rfl⟩
      · exact ⟨q', e1, e2, e3⟩
      · omega
    obtain ⟨qk', f1, f2, f3⟩ := hkold
    rw [← f2]
    rcases back hq0 with ⟨q', e1, e2, e3, -⟩ | ⟨-, rfl⟩
    · rw [← e2]; exact h.task j q' e1 (by omega) k' qk' f1 (by omega)
    · rw [hq.1]
      cases hft : f.task with
      | none => have := (hP.main i f hfm hft).2; omega
      | some m =>
        obtain ⟨qm, b1, -, -, b4, -⟩ := hP.task i f m hfm hft
        have := h.uniq m k' qm qk' b1 f1 (by omega) (by omega)
        subst this
        rw [b1] at f1; simp only [Option.some.injEq] at f1; subst f1
        have := h.call i f m qm hfm hft b1
        omega
  · intro k' q0 hq0
    rw [hclk]
    rcases back hq0 with ⟨q', e1, -, -, e2⟩ | ⟨-, rfl⟩
    · rw [← e2]; exact h.time k' q' e1
    · omega
  · intro j k' q0 qk hq0 hk h0 he
    rcases back hq0 with ⟨q', e1, -, -, e3⟩ | ⟨-, rfl⟩
    · rcases back hk with ⟨qk', f1, -, -, f3⟩ | ⟨-, rfl⟩
      · exact h.uniq j k' q' qk' e1 f1 (by omega) (by omega)
      · omega
    · omega

theorem LevInv.step {n : Nat} {p : Prog} {s u : PoolState} {i : Nat} (hP : TPoolInv n s) (h : LevInv p s) (hs : PoolStep n s i u) : LevInv p u := by
  have top : ∀ (f f' : Frame) (fs : List Frame) (w : PoolState), (s.thr i).stack = f :: fs → f'.task = f.task → f'.code.depth ≤ f.code.depth →
      (∀ m : Nat, (w.tasks[m]?).map PTask.lev = (s.tasks[m]?).map PTask.lev) → w.clock = s.clock →
      (∀ k, (w.thr k).stack = if k = i then f' :: fs else (s.thr k).stack) → LevInv p w := by
    intro f f' fs w hst e1 e2 e3 e4 e5
    refine h.same e3 e4 ?_
    intro x g hg
    rw [e5] at hg
    split at hg
    · rename_i e; subst e
      rcases List.mem_cons.1 hg with rfl | hg
      · exact ⟨f, by simp [hst], e1.symm, e2⟩
      · exact ⟨g, by simp [hst, hg], rfl, Nat.le_refl _⟩
    · exact ⟨g, hg, rfl, Nat.le_refl _⟩
  have calm : ∀ (w : PoolState), w.tasks = s.tasks → w.clock = s.clock → (∀ k f, f ∈ (w.thr k).stack → f ∈ (s.thr k).stack) → LevInv p w := by
    intro w e1 e2 e3
    exact h.same (by simp [e1]) e2 (fun x g hg => ⟨g, e3 x g hg, rfl, Nat.le_refl _⟩)
  cases hs with
  | idle _ _ _ _ _ _ => exact calm _ rfl rfl (by simp [setThr_stack]; intro k f; split <;> simp_all)
  | retry _ _ _ _ => exact calm _ rfl rfl (by simp [setThr_stack]; intro k f; split <;> simp_all)
  | goOn _ _ _ => exact calm _ rfl rfl (by simp [setThr_stack]; intro k f; split <;> simp_all)
  | look _ _ _ => exact calm _ rfl rfl (by simp [setThr_stack]; intro k f; split <;> simp_all)
  | again _ _ _ _ => exact calm _ rfl rfl (by simp [setThr_stack]; intro k f; split <;> simp_all)
  | exit _ _ _ _ => exact calm _ rfl rfl (by simp [setThr_stack]; intro k f; split <;> simp_all)
  | stop _ _ _ _ => exact calm _ rfl rfl (fun _ _ h => h)
  | stopped _ _ _ _ => exact calm _ rfl rfl (fun _ _ h => h)
  | join _ _ _ _ _ => exact calm _ rfl rfl (fun _ _ h => h)
  | joined _ _ _ _ => exact calm _ rfl rfl (fun _ _ h => h)
  | terminate _ _ _ _ => exact calm _ rfl rfl (fun _ _ h => h)
  | unwind _ _ _ _ => exact calm _ rfl rfl (by intro k f hf; simp [setThr_stack] at hf; exact hf.2)
  | leave _ _ _ _ => exact calm _ rfl rfl (by intro k f hf; simp [setThr_stack] at hf; exact hf.2)
  | sub hst hpc hq hk =>
    rename_i f fs j q k
    refine top f { f with pc := .check j } fs _ hst rfl (Nat.le_refl _) ?_ rfl (by simp [setTop, modTask])
    intro m
    have e1 := lev_modify (l := s.tasks.modify j PTask.dec) (j := k) (F := PTask.pay k j) (fun q => by unfold PTask.pay; split <;> rfl) m
    have e2 := lev_modify (l := s.tasks) (j := j) (F := PTask.dec) (fun q => by simp only [PTask.dec, PTask.lev]) m
    exact e1.trans e2
  | up hst hpc hq hk h0 hp =>
    rename_i f fs j q k p'
    exact top f { f with pc := .sub p' } fs _ hst rfl (Nat.le_refl _) (fun _ => rfl) rfl (by simp [setTop])
  | ret hst hpc hc hk =>
    rename_i f fs j
    exact top f { f with pc := .sub j } fs _ hst rfl (Nat.le_refl _) (fun _ => rfl) rfl (by simp [setTop])
  | waited hst hpc hc hg hv hq h0 =>
    rename_i f fs v k j q
    exact top f { f with code := k } fs _ hst rfl (by rw [hc]; exact Nat.le_refl _) (fun _ => rfl) rfl (by simp [setTop])
  | push hst hpc =>
    rename_i f fs j
    exact top f { f with pc := .run } fs _ hst rfl (Nat.le_refl _) (lev_modify (F := PTask.setSt .queued) (fun q => rfl)) rfl (by simp [setTop, modTask])
  | finish hst hpc hq hk h0 =>
    rename_i f fs j q m
    refine h.same (lev_modify (F := PTask.setSt .finished) (fun q => rfl)) rfl ?_
    intro x g hg
    simp only [modTask, setThr_stack] at hg
    split at hg
    · rename_i e; subst e; exact ⟨g, by simp [hst, hg], rfl, Nat.le_refl _⟩
    · exact ⟨g, hg, rfl, Nat.le_refl _⟩
  | submitRoot hst hpc hc =>
    rename_i f fs c k
    exact h.submit (l := s.tasks) (f' := { f with code := k, env := s.tasks.length :: f.env, pc := .push s.tasks.length }) hP hst hc (fun _ => rfl) rfl ⟨rfl, rfl, rfl⟩ rfl rfl ⟨rfl, rfl⟩
      (by simp [setTop])
  | submitChild hst hpc hc hv hq =>
    rename_i f fs v c k pj q
    exact h.submit (l := s.tasks.modify pj PTask.inc) (f' := { f with code := k, env := s.tasks.length :: f.env, pc := .push s.tasks.length }) hP hst hc
      (lev_modify (F := PTask.inc) (fun q => by simp only [PTask.inc, PTask.lev])) (by simp) ⟨rfl, rfl, rfl⟩ rfl rfl ⟨rfl, rfl⟩ (by simp [setTop])
  | start hm hg hT hq =>
    rename_i gp v j qu q
    obtain ⟨l, r, hl, hr⟩ := hT.mem
    have hjq : j ∈ (s.queue v).items := by simp [hl]
    obtain ⟨hqs, hqb⟩ : q.st = .queued ∧ q.by_ = v := by
      obtain ⟨q', h1, h2⟩ := hP.queue v j hjq
      rw [hq] at h1; simp only [Option.some.injEq] at h1; subst h1; exact h2
    have back : ∀ {m : Nat} {q0 : PTask}, (s.tasks.modify j (PTask.begin_ i (s.clock + 1)))[m]? = some q0 →
        ∃ q', s.tasks[m]? = some q' ∧ q'.code = q0.code ∧ q'.caller = q0.caller ∧ ((m ≠ j ∧ q'.time = q0.time) ∨ (m = j ∧ q0.time = s.clock + 1)) := by
      intro m q0 h0
      rw [List.getElem?_modify] at h0
      cases e : s.tasks[m]? with
      | none => simp [e] at h0
      | some q' =>
        by_cases e' : j = m
        · simp [e, e', PTask.begin_] at h0; subst h0; exact ⟨q', rfl, rfl, rfl, .inr ⟨e'.symm, rfl⟩⟩
        · simp [e, e'] at h0; subst h0; exact ⟨q', rfl, rfl, rfl, .inl ⟨Ne.symm e', rfl⟩⟩
    constructor
    · intro x g hgs
      simp only [modTask, setThr_stack] at hgs
      split at hgs
      · rename_i e; subst e
        rcases List.mem_cons.1 hgs with rfl | hgs
        · exact Nat.le_of_lt (h.low j q hq)
        · exact h.main x g hgs
      · exact h.main x g hgs
    · intro x g k q0 hgs hk hq0
      obtain ⟨q', e1, e2, -⟩ := back hq0
      rw [← e2]
      simp only [modTask, setThr_stack] at hgs
      split at hgs
      · rename_i e; subst e
        rcases List.mem_cons.1 hgs with rfl | hgs
        · simp only [Option.some.injEq] at hk; subst hk
          rw [hq] at e1; simp only [Option.some.injEq] at e1; subst e1
          exact Nat.le_refl _
        · exact h.call x g k q' hgs hk e1
      · exact h.call x g k q' hgs hk e1
    · intro k q0 hq0
      obtain ⟨q', e1, e2, -⟩ := back hq0
      rw [← e2]; exact h.low k q' e1
    · intro m q0 hq0 h0 k qk hk hkt
      obtain ⟨q', e1, e2, e3, -⟩ := back hq0
      obtain ⟨qk', f1, f2, -, f3⟩ := back hk
      rw [← e2, ← f2]
      have := (hP.bnd m q' e1).2.2
      rcases f3 with ⟨-, f3⟩ | ⟨-, f3⟩
      · exact h.task m q' e1 (by omega) k qk' f1 (by omega)
      · omega
    · intro k q0 hq0
      obtain ⟨q', e1, -, -, e2⟩ := back hq0
      have := h.time k q' e1
      show q0.time ≤ s.clock + 1
      omega
    · intro m k q0 qk hq0 hk h0 he
      obtain ⟨q', e1, -, -, e3⟩ := back hq0
      obtain ⟨qk', f1, -, -, f3⟩ := back hk
      have a1 := h.time m q' e1
      have a2 := h.time k qk' f1
      rcases e3 with ⟨-, e3⟩ | ⟨e3, e4⟩
      · rcases f3 with ⟨-, f3⟩ | ⟨f3, f4⟩
        · exact h.uniq m k q' qk' e1 f1 (by omega) (by omega)
        · omega
      · rcases f3 with ⟨-, f3⟩ | ⟨f3, f4⟩
        · omega
        · omega

theorem PoolReach.lev {n : Nat} (hn : 0 < n) {p : Prog} {s : PoolState} (h : PoolReach n p s) : LevInv p s := by
  unfold PoolReach at h
  generalize hp0 : PoolState.init p = s0 at h
  induction h with
  | refl => subst hp0; exact LevInv.init p
  | step i r a hr hs ih =>
    obtain ⟨-, -, hs⟩ := step_cases hs
    subst hp0
    exact ih.step (PoolReach.inv hn hr).1 hs

/-- How deep the function of a call may still go. -/
def lvl (p : Prog) (s : PoolState) (o : Option Nat) : Nat :=
  match o with
  | none => p.depth
  | some k => match s.tasks[k]? with | some q => q.code.depth | none => 0

/-- A step starts a task, or calls end. -/
theorem PoolStep.keys {n : Nat} {s u : PoolState} {i : Nat} (hs : PoolStep n s i u) : (∀ k, u.keys k <:+ s.keys k) ∨
    ((∃ f, (u.thr i).stack = f :: (s.thr i).stack ∧ f.pc = .run) ∧ ∀ k, k ≠ i → u.keys k = s.keys k) := by
  have upd1 : ∀ (w : PoolState) (t : Thread), w.thr = upd s.thr i t → t.stack.map Frame.key <:+ (s.thr i).stack.map Frame.key → ∀ k, w.keys k <:+ s.keys k := by
    intro w t hw ht k
    unfold PoolState.keys
    rw [hw]
    simp only [upd]
    split
    · rename_i e; rw [e]; exact ht
    · exact List.suffix_refl _
  cases hs
  case start => right; exact ⟨⟨_, by simp [modTask, setThr_stack]; rfl, rfl⟩, by intro k hk; simp [PoolState.keys, modTask, setThr_stack, hk]⟩
  all_goals left
  case stop => exact fun k => List.suffix_refl _
  case stopped => exact fun k => List.suffix_refl _
  case join => exact fun k => List.suffix_refl _
  case joined => exact fun k => List.suffix_refl _
  case terminate => exact fun k => List.suffix_refl _
  case finish hst _ _ _ _ => exact upd1 _ _ rfl (by rw [hst]; exact List.suffix_cons _ _)
  all_goals refine upd1 _ _ rfl ?_
  all_goals simp_all [Frame.key]

/-- The function of a task does not change. -/
theorem PoolStep.code {n : Nat} {s u : PoolState} {i : Nat} (hs : PoolStep n s i u) (m : Nat) (q : PTask) (hq : s.tasks[m]? = some q) :
    ∃ q', u.tasks[m]? = some q' ∧ q'.code = q.code := by
  have md : ∀ (l : List PTask) (j : Nat) (F : PTask → PTask), (∀ q, (F q).code = q.code) → (∃ q', l[m]? = some q' ∧ q'.code = q.code) →
      ∃ q', (l.modify j F)[m]? = some q' ∧ q'.code = q.code := by
    rintro l j F hF ⟨q', h1, h2⟩
    rw [List.getElem?_modify, h1]
    by_cases e : j = m
    · exact ⟨F q', by simp [e], by rw [hF, h2]⟩
    · exact ⟨q', by simp [e], h2⟩
  have ap : ∀ (l : List PTask) (x : PTask), (∃ q', l[m]? = some q' ∧ q'.code = q.code) → ∃ q', (l ++ [x])[m]? = some q' ∧ q'.code = q.code := by
    rintro l x ⟨q', h1, h2⟩
    exact ⟨q', by rw [List.getElem?_append_left (List.getElem?_eq_some_iff.1 h1).1]; exact h1, h2⟩
  have h0 : ∃ q', s.tasks[m]? = some q' ∧ q'.code = q.code := ⟨q, hq, rfl⟩
  cases hs
  case start => exact md _ _ _ (fun _ => rfl) h0
  case push => exact md _ _ _ (fun _ => rfl) h0
  case finish => exact md _ _ _ (fun _ => rfl) h0
  case sub => exact md _ _ _ (fun _ => pay_code _ _ _) (md _ _ _ (fun _ => by simp only [PTask.dec]) h0)
  case submitRoot => exact ap _ _ h0
  case submitChild => exact ap _ _ (md _ _ _ (fun _ => by simp only [PTask.inc]) h0)
  all_goals exact h0

end CoEcs
