import Verif.Proofs.Joined
import Verif.Proofs.PoolSem

/-!
# Thread pool: which tasks run, waiting, and the destructor
-/

namespace CoEcs.Props
open PoolState

/-- Runs the given schedule: worker, random number, whether the semaphore was taken. -/
def runPool (n : Nat) : PoolState → List (Nat × Nat × Bool) → Option PoolState
  | s, [] => some s
  | s, (i, r, a) :: l => (s.step n i r a).bind (fun u => runPool n u l)

theorem runPool_steps {n : Nat} {l : List (Nat × Nat × Bool)} : ∀ {s0 s u : PoolState}, PoolSteps n s0 s → runPool n s l = some u →
    PoolSteps n s0 u := by
  induction l with
  | nil => intro s0 s u h e; simp [runPool] at e; subst e; exact h
  | cons a l ih =>
    obtain ⟨i, r, q⟩ := a
    intro s0 s u h e
    simp only [runPool, Option.bind_eq_some_iff] at e
    obtain ⟨v, hv, e⟩ := e
    exact ih (.step i r q h hv) e

/-! ## C66 -/

/-- C66: the function of a task is called at most once, whatever the schedule; exactly once when the task has been
started. -/
theorem C66_at_most_once {n : Nat} (hn : 0 < n) {p : Prog} {s : PoolState} (h : PoolReach n p s) {j : Nat} {q : PTask}
    (hq : s.tasks[j]? = some q) : q.runs = if q.st = .started ∨ q.st = .finished then 1 else 0 :=
  (h.inv hn).1.runs j q hq

/-- C66: a task is in at most one queue, once, and in none after it was started; two calls that are in progress are of
different tasks. -/
theorem C66_one_place {n : Nat} (hn : 0 < n) {p : Prog} {s : PoolState} (h : PoolReach n p s) :
    (∀ v, (s.queue v).items.Nodup) ∧
    (∀ v v' j, j ∈ (s.queue v).items → j ∈ (s.queue v').items → v = v') ∧
    (∀ v i f j, j ∈ (s.queue v).items → f ∈ (s.thr i).stack → f.task ≠ some j) ∧
    ∀ i i' (a b : Nat) f g j, (s.thr i).stack[a]? = some f → (s.thr i').stack[b]? = some g → f.task = some j → g.task = some j →
      i = i' ∧ a = b := by
  have hI := (h.inv hn).1
  refine ⟨hI.nodup, ?_, ?_, ?_⟩
  · intro v v' j h1 h2
    obtain ⟨q, hq, -, e⟩ := hI.queue v j h1
    obtain ⟨q', hq', -, e'⟩ := hI.queue v' j h2
    rw [hq] at hq'; simp only [Option.some.injEq] at hq'; subst hq'
    rw [← e, ← e']
  · intro v i f j h1 h2 h3
    obtain ⟨q, hq, e, -⟩ := hI.queue v j h1
    obtain ⟨q', hq', e', -⟩ := hI.task i f j h2 h3
    rw [hq] at hq'; simp only [Option.some.injEq] at hq'; subst hq'
    rw [e] at e'; simp at e'
  · intro i i' a b f g j h1 h2 h3 h4
    obtain ⟨q, hq, -, e2, e3, -⟩ := hI.task i f j (List.mem_of_getElem? h1) h3
    obtain ⟨q', hq', -, e2', e3', -⟩ := hI.task i' g j (List.mem_of_getElem? h2) h4
    rw [hq] at hq'; simp only [Option.some.injEq] at hq'; subst hq'
    have hii : i = i' := by rw [← e2, ← e2']
    subst hii
    refine ⟨rfl, ?_⟩
    have ho := hI.ord i
    rw [List.pairwise_iff_getElem] at ho
    obtain ⟨ha, ha'⟩ := List.getElem?_eq_some_iff.mp h1
    obtain ⟨hb, hb'⟩ := List.getElem?_eq_some_iff.mp h2
    rcases Nat.lt_trichotomy a b with hlt | heq | hlt
    · have := ho a b ha hb hlt; rw [ha', hb'] at this; omega
    · exact heq
    · have := ho b a hb ha hlt; rw [ha', hb'] at this; omega

/-- C66: a worker steals only from background workers of the pool, and not from itself; every task was submitted and is
executed by a worker of the pool. -/
theorem C66_workers_exist {n : Nat} (hn : 0 < n) {p : Prog} {s : PoolState} (h : PoolReach n p s) :
    (∀ i v t, (s.thr i).get = some (.rndTake v t) → 1 ≤ v ∧ v < n ∧ v ≠ i) ∧
    (∀ (j : Nat) (q : PTask), s.tasks[j]? = some q → q.by_ < n ∧ q.on < n) ∧
    ∀ i, n ≤ i → (s.thr i).stack = [] ∧ (s.queue i).items = [] := by
  have hI := (h.inv hn).1
  refine ⟨h.victim, fun j q hq => ⟨(hI.bnd j q hq).1, (hI.bnd j q hq).2.1⟩, fun i hi => ⟨hI.idx i hi, ?_⟩⟩
  cases e : (s.queue i).items with
  | nil => rfl
  | cons j l =>
    obtain ⟨q, hq, -, hb⟩ := hI.queue i j (by simp [e])
    have := (hI.bnd j q hq).1
    omega

/-- C66: while the pool is in use, every background worker keeps looking for tasks; a worker ends only after the destructor has told
it to. -/
theorem C66_workers_stay {n : Nat} {p : Prog} {s : PoolState} (h : PoolReach n p s) (i : Nat) :
    (s.main = .run → s.active i = true ∧ (s.thr i).mode ≠ .exited) ∧ ((s.thr i).mode = .exited → s.active i = false) := by
  have hO := h.on
  refine ⟨fun hm => ⟨hO.on hm i, fun he => ?_⟩, hO.exited i⟩
  have := hO.exited i he
  rw [hO.on hm i] at this
  cases this

/-- Two tasks, one of them a child of the other, and a wait. -/
def twoTasks : Prog := .submit none .ret (.submit (some 0) .ret (.wait 1 .ret))

theorem twoTasks_run : (runPool 3 (PoolState.init twoTasks)
    [(0, 0, false), (0, 0, false), (1, 0, false), (1, 0, false), (1, 0, false), (1, 0, false), (0, 0, false), (0, 0, false)]).map
      (fun s => (s.tasks.map (fun q => (q.runs, q.st, q.counter)), (s.queue 0).items, s.sem)) =
    some ([(1, .started, 2), (0, .queued, 1)], [1], 2) := by decide +kernel

/-- The hypotheses of C66 are met by a pool in which one task is running and another one is queued. -/
example : ∃ s, PoolReach 3 twoTasks s ∧ s.tasks.map (fun q => (q.runs, q.st, q.counter)) = [(1, .started, 2), (0, .queued, 1)] := by
  have h := twoTasks_run
  cases e : runPool 3 (PoolState.init twoTasks)
    [(0, 0, false), (0, 0, false), (1, 0, false), (1, 0, false), (1, 0, false), (1, 0, false), (0, 0, false), (0, 0, false)] with
  | none => rw [e] at h; simp at h
  | some s =>
    rw [e] at h
    simp only [Option.map_some, Option.some.injEq, Prod.mk.injEq] at h
    exact ⟨s, runPool_steps (.refl _) e, h.1⟩

/-! ## C67 -/

/-- A task is submitted, and the pool is destroyed. -/
def fireAndForget : Prog := .submit none .ret .ret

theorem thr_eta (s : PoolState) (i : Nat) (t : Thread) : (s.setThr i t).thr i = t := by simp [setThr, upd]

/-- A worker that finds nothing. -/
theorem worker_finds_nothing {n : Nat} {s0 s : PoolState} (h : PoolSteps n s0 s) {i : Nat} (hi : 1 ≤ i) (hin : i < n) (hd : s.dead = false)
    (ht : s.thr i = ⟨[], none, .loop⟩) (hq : ∀ v, s.queue v = ⟨0, []⟩) :
    PoolSteps n s0 (s.setThr i ⟨[], none, .check⟩) := by
  have hne : i ≠ 0 := by omega
  have hn1 : n ≠ 1 := by omega
  have hmod : (i - 1) % (n - 1) = i - 1 := Nat.mod_eq_of_lt (by omega)
  have hs : ∀ t t', (s.setThr i t).setThr i t' = s.setThr i t' := by
    intro t t'; simp only [setThr]; congr 1; funext k; simp only [upd]; split <;> rfl
  have hlt : ¬ n ≤ i := by omega
  have h1 : s.step n i (i - 1) false = some (s.setThr i ⟨[], some .pop, .loop⟩) := by
    simp [PoolState.step, hd, hlt, ht, hne, stepLoop]
  have h2 : (s.setThr i ⟨[], some .pop, .loop⟩).step n i (i - 1) false = some (s.setThr i ⟨[], some .main, .loop⟩) := by
    simp [PoolState.step, stepLoop, thr_eta, hlt, hne, hs, getStep, TQueue.pop, setThr, hd, hq, upd]
    funext k; simp only [upd]; split <;> rfl
  have h3 : (s.setThr i ⟨[], some .main, .loop⟩).step n i (i - 1) false = some (s.setThr i ⟨[], some (.mainTake 0), .loop⟩) := by
    simp [PoolState.step, stepLoop, thr_eta, hlt, hne, hs, getStep, TQueue.pop, setThr, hd, hq, upd]
    funext k; simp only [upd]; split <;> rfl
  have h4 : (s.setThr i ⟨[], some (.mainTake 0), .loop⟩).step n i (i - 1) false = some (s.setThr i ⟨[], some .rnd, .loop⟩) := by
    simp [PoolState.step, stepLoop, thr_eta, hlt, hne, hs, getStep, TQueue.take, setThr, hd, hq, upd]
    funext k; simp only [upd]; split <;> rfl
  have h5 : (s.setThr i ⟨[], some .rnd, .loop⟩).step n i (i - 1) false = some (s.setThr i ⟨[], none, .check⟩) := by
    have hx : 1 + (i - 1) % (n - 1) = i := by rw [hmod]; omega
    simp [PoolState.step, stepLoop, thr_eta, hlt, hne, hs, getStep, setThr, hd, hn1, hx, upd]
    funext k; simp only [upd]; split <;> rfl
  exact .step _ _ _ (.step _ _ _ (.step _ _ _ (.step _ _ _ (.step _ _ _ h h1) h2) h3) h4) h5

/-- All workers have looked for work before there is any. -/
theorem all_find_nothing {n : Nat} (hn : 0 < n) (p : Prog) : ∀ k, k < n →
    ∃ s, PoolSteps n (PoolState.init p) s ∧ s.thr 0 = ⟨[⟨none, p, [], .run, 0⟩], none, .loop⟩ ∧
      (∀ i, 1 ≤ i → i ≤ k → s.thr i = ⟨[], none, .check⟩) ∧ (∀ i, k < i → s.thr i = ⟨[], none, .loop⟩) ∧
      (∀ v, s.queue v = ⟨0, []⟩) ∧ s.tasks = [] ∧ s.dead = false ∧ s.main = .run ∧ s.clock = 0 := by
  intro k
  induction k with
  | zero =>
    intro _
    refine ⟨_, .refl _, rfl, fun i h1 h2 => by omega, ?_, fun _ => rfl, rfl, rfl, rfl, rfl⟩
    intro i hi; simp only [PoolState.init]; rw [if_neg (by omega)]
  | succ k ih =>
    intro hk
    obtain ⟨s, h, h0, h1, h2, hq, ht, hd, hm, hc⟩ := ih (by omega)
    refine ⟨_, worker_finds_nothing h (by omega : 1 ≤ k + 1) hk hd (h2 _ (by omega)) hq, ?_, ?_, ?_, hq, ht, hd, hm, hc⟩
    · simp [setThr, upd, h0]
    · intro i hi1 hi2
      simp only [setThr, upd]
      split
      · rfl
      · exact h1 i hi1 (by omega)
    · intro i hi
      simp only [setThr, upd]
      rw [if_neg (by omega)]
      exact h2 i (by omega)

/-- C67 is violated, for every number of workers: a task that was submitted before the pool is destroyed is not run when
every worker looked for work before it was submitted; it is left in the queue of the thread that owns the pool. -/
theorem C67_violated (n : Nat) (hn : 0 < n) : ∃ s, PoolReach n fireAndForget s ∧ s.main = .gone ∧
    ∃ q, s.tasks[0]? = some q ∧ q.runs = 0 ∧ q.st = .queued := by
  obtain ⟨s, h, h0, h1, -, hq, ht, hd, hm, hc⟩ := all_find_nothing hn fireAndForget (n - 1) (by omega)
  have hln : ¬ n ≤ 0 := by omega
  let q : PTask := { parent := none, counter := 1, code := .ret, env := [], by_ := 0, caller := 0, par := false }
  have g1 : s.step n 0 0 false = some (({ s with tasks := [q] } : PoolState).setThr 0 ⟨[⟨none, .ret, [0], .push 0, 0⟩], none, .loop⟩) := by
    simp [PoolState.step, hd, h0, hln, stepFrame, fireAndForget, setTop, ht, q]
  have g2 : (({ s with tasks := [q] } : PoolState).setThr 0 ⟨[⟨none, .ret, [0], .push 0, 0⟩], none, .loop⟩).step n 0 0 false =
      some (({ s with tasks := [PTask.setSt .queued q], queue := upd s.queue 0 ⟨0, [0]⟩, sem := s.sem + 1 } : PoolState).setThr 0
        ⟨[⟨none, .ret, [0], .run, 0⟩], none, .loop⟩) := by
    simp [PoolState.step, hd, hln, stepFrame, setTop, setThr, upd, hq, TQueue.push, modTask]
    funext k; simp only [upd]; split <;> rfl
  have g3 : (({ s with tasks := [PTask.setSt .queued q], queue := upd s.queue 0 ⟨0, [0]⟩, sem := s.sem + 1 } : PoolState).setThr 0
        ⟨[⟨none, .ret, [0], .run, 0⟩], none, .loop⟩).step n 0 0 false =
      some (({ s with tasks := [PTask.setSt .queued q], queue := upd s.queue 0 ⟨0, [0]⟩, sem := s.sem + 1, main := .stop 1 } : PoolState).setThr 0
        ⟨[], none, .loop⟩) := by
    simp [PoolState.step, hd, hln, stepFrame, setThr, upd]
    funext k; simp only [upd]; split <;> rfl
  have h3 := PoolSteps.step _ _ _ (.step _ _ _ (.step _ _ _ h g1) g2) g3
  generalize hw : (({ s with tasks := [PTask.setSt .queued q], queue := upd s.queue 0 ⟨0, [0]⟩, sem := s.sem + 1, main := .stop 1 } : PoolState).setThr 0
        ⟨[], none, .loop⟩) = w at h3
  have w0 : (w.thr 0).stack = [] := by subst hw; simp [setThr, upd]
  have w1 : ∀ i, 1 ≤ i → i < n → w.thr i = ⟨[], none, .check⟩ := by
    intro i hi1 hi2
    subst hw
    simp only [setThr, upd]
    rw [if_neg (by omega)]
    exact h1 i hi1 (by omega)
  have wt : w.tasks = [PTask.setSt .queued q] := by subst hw; rfl
  have wd : w.dead = false := by subst hw; exact hd
  have wm : w.main = .stop 1 := by subst hw; rfl
  clear hw g1 g2 g3
  -- all workers are told to stop
  have stop : ∀ k, k ≤ n - 1 → ∃ u, PoolSteps n (PoolState.init fireAndForget) u ∧ (u.thr 0).stack = [] ∧
      (∀ i, 1 ≤ i → i < n → u.thr i = ⟨[], none, .check⟩) ∧ u.tasks = [PTask.setSt .queued q] ∧ u.dead = false ∧ u.main = .stop (k + 1) ∧
      ∀ i, 1 ≤ i → i ≤ k → u.active i = false := by
    intro k
    induction k with
    | zero => intro _; exact ⟨w, h3, w0, w1, wt, wd, wm, fun i hi1 hi2 => by omega⟩
    | succ k ih =>
      intro hk
      obtain ⟨u, a1, a2, a3, a4, a5, a6, a7⟩ := ih (by omega)
      refine ⟨{ u with active := upd u.active (k + 1) false, main := .stop (k + 1 + 1) }, .step 0 0 false a1 ?_, a2, a3, a4, a5, rfl, ?_⟩
      · simp [PoolState.step, a5, hln, a2, stepDtor, a6]; omega
      · intro i hi1 hi2
        simp only [upd]
        split
        · rfl
        · exact a7 i hi1 (by omega)
  obtain ⟨u, a1, a2, a3, a4, a5, a6, a7⟩ := stop (n - 1) (by omega)
  -- they end and are joined
  have join : ∀ k, k ≤ n - 1 → ∃ u, PoolSteps n (PoolState.init fireAndForget) u ∧ (u.thr 0).stack = [] ∧
      (∀ i, k < i → i < n → u.thr i = ⟨[], none, .check⟩) ∧ u.tasks = [PTask.setSt .queued q] ∧ u.dead = false ∧ u.main = .join (k + 1) ∧
      ∀ i, 1 ≤ i → i < n → u.active i = false := by
    intro k
    induction k with
    | zero =>
      intro _
      refine ⟨{ u with main := .join 1 }, .step 0 0 false a1 ?_, a2, fun i hi hi' => a3 i (by omega) hi', a4, a5, rfl, fun i hi hi' => a7 i hi (by omega)⟩
      have : ¬ n - 1 + 1 < n := by omega
      simp [PoolState.step, a5, hln, a2, stepDtor, a6]; omega
    | succ k ih =>
      intro hk
      obtain ⟨v, b1, b2, b3, b4, b5, b6, b7⟩ := ih (by omega)
      have hk1 : ¬ n ≤ k + 1 := by omega
      have e1 : v.step n (k + 1) 0 false = some (v.setThr (k + 1) ⟨[], none, .exited⟩) := by
        simp [PoolState.step, b5, hk1, b3 (k + 1) (by omega) (by omega), stepLoop, b7 (k + 1) (by omega) (by omega)]
      have e2 : (v.setThr (k + 1) ⟨[], none, .exited⟩).step n 0 0 false =
          some { v.setThr (k + 1) ⟨[], none, .exited⟩ with main := .join (k + 1 + 1) } := by
        have : k + 1 < n := by omega
        simp [PoolState.step, b5, hln, b2, stepDtor, b6, setThr, upd, this]
      refine ⟨_, .step _ _ _ (.step _ _ _ b1 e1) e2, ?_, ?_, b4, b5, rfl, b7⟩
      · simp [setThr, upd, b2]
      · intro i hi1 hi2
        simp only [setThr, upd]
        rw [if_neg (by omega)]
        exact b3 i (by omega) hi2
  obtain ⟨v, b1, b2, -, b4, b5, b6, -⟩ := join (n - 1) (by omega)
  refine ⟨{ v with main := .gone }, .step 0 0 false b1 ?_, rfl, PTask.setSt .queued q, ?_, rfl, rfl⟩
  · have : ¬ n - 1 + 1 < n := by omega
    simp [PoolState.step, b5, hln, b2, stepDtor, b6]; omega
  · simp [b4]

/-- C67, partially: when nothing throws, every task has been run exactly once when the destructor returns, except those
that the thread which owns the pool submitted and that nobody took.  Missing: those. -/
theorem C67_destructor_partial {n : Nat} (hn : 0 < n) {p : Prog} (hp : p.NoThrow) {s : PoolState} (h : PoolReach n p s)
    (hg : s.main = .gone) {j : Nat} {q : PTask} (hq : s.tasks[j]? = some q) :
    (q.st = .finished ∧ q.runs = 1) ∨ (q.by_ = 0 ∧ q.st = .queued ∧ j ∈ (s.queue 0).items) := by
  obtain ⟨hI, hI2⟩ := h.inv hn
  have hN := h.noThrow hp
  have hex := hI2.gone hg
  have hem : ∀ i, (s.thr i).stack = [] := by
    intro i
    rcases Nat.lt_or_ge i n with hi | hi
    · rcases Nat.eq_zero_or_pos i with rfl | h0
      · exact hI2.left (by simp [hg])
      · exact (hI2.mode i (by simp [hex i h0 hi])).1
    · exact hI.idx i hi
  have hr := hI.runs j q hq
  cases hs : q.st with
  | made => obtain ⟨f, hf, -⟩ := hI.made j q hq hs; simp [hem] at hf
  | started =>
    rcases hI.started j q hq hs with ⟨f, hf, -⟩ | hu
    · simp [hem] at hf
    · simp [hN.unwound] at hu
  | finished => left; simpa [hs] using hr
  | queued =>
    right
    have hm := hI.queued j q hq hs
    rcases Nat.eq_zero_or_pos q.by_ with h0 | h0
    · exact ⟨h0, rfl, by rw [h0] at hm; exact hm⟩
    · have := hI2.empty q.by_ (by omega) (hem _) (.inl (by simp [hex q.by_ h0 (hI.bnd j q hq).1]))
      rw [this] at hm; simp at hm

/-- The hypotheses of the partial result are met: a worker submits a task and the destructor waits for it. -/
def nestedForget : Prog := .submit none (.submit none .ret .ret) .ret

def nestedForgetSched : List (Nat × Nat × Bool) :=
  [(0, 0, false), (0, 0, false), (1, 0, false), (1, 0, false), (1, 0, false), (1, 0, false), (0, 0, false), (0, 0, false), (0, 0, false),
   (1, 0, false), (1, 0, false), (1, 0, false), (1, 0, false), (1, 0, false), (1, 0, false), (1, 0, false), (1, 0, false), (1, 0, false),
   (1, 0, false), (1, 0, false), (1, 0, false), (1, 0, false), (1, 0, false), (1, 0, false), (1, 0, false), (0, 0, false), (0, 0, false)]

theorem nestedForget_run : (runPool 2 (PoolState.init nestedForget) nestedForgetSched).map
      (fun s => (s.tasks.map (fun q => (q.runs, q.st)), s.main)) = some ([(1, .finished), (1, .finished)], .gone) := by decide +kernel

example : ∃ s, PoolReach 2 nestedForget s ∧ s.main = .gone ∧ s.tasks.length = 2 ∧ nestedForget.NoThrow := by
  have h := nestedForget_run
  cases e : runPool 2 (PoolState.init nestedForget) nestedForgetSched with
  | none => rw [e] at h; simp at h
  | some s =>
    rw [e] at h
    simp only [Option.map_some, Option.some.injEq, Prod.mk.injEq] at h
    refine ⟨s, runPool_steps (.refl _) e, h.2, ?_, by simp [nestedForget, Prog.NoThrow]⟩
    have := congrArg List.length h.1
    simpa using this

/-! ## C68 -/

/-- The thread that owns the pool submits A, then C, and waits for A.  A submits B and waits for it.  C waits for A. -/
def deadlock : Prog := .submit none (.submit none .ret (.wait 0 .ret)) (.submit none (.wait 0 .ret) (.wait 1 .ret))

/-- Worker 1 takes A and submits B, worker 2 takes B, the owner submits C, and worker 1 takes C while it waits for B;
then B returns. -/
def deadlockSched : List (Nat × Nat × Bool) :=
  [(0, 0, false), (0, 0, false), (1, 0, false), (1, 0, false), (1, 0, false), (1, 0, false), (1, 0, false), (1, 0, false),
   (2, 0, false), (2, 0, false), (2, 0, false), (2, 0, false), (2, 0, false), (2, 0, false), (0, 0, false), (0, 0, false),
   (1, 0, false), (1, 0, false), (1, 0, false), (1, 0, false), (2, 0, false), (2, 0, false), (2, 0, false)]

def deadlockMain : List Frame := [⟨none, .wait 1 .ret, [2, 0], .run, 0⟩]
def deadlockOne : List Frame := [⟨some 2, .wait 0 .ret, [0], .run, 3⟩, ⟨some 0, .wait 0 .ret, [1], .run, 1⟩]

theorem deadlock_run : (runPool 3 (PoolState.init deadlock) deadlockSched).map
      (fun s => (s.tasks.map (fun q => (q.runs, q.st, q.counter)), [(s.thr 0).stack, (s.thr 1).stack, (s.thr 2).stack])) =
    some ([(1, .started, 1), (1, .finished, 0), (1, .started, 1)], [deadlockMain, deadlockOne, []]) := by decide +kernel

theorem deadlock_run' : (runPool 3 (PoolState.init deadlock) deadlockSched).map
      (fun s => ([(s.queue 0).items, (s.queue 1).items, (s.queue 2).items], s.main, s.dead)) =
    some ([[], [], []], .run, false) := by decide +kernel

/-- Nothing ever happens again. -/
structure Deadlocked (s : PoolState) : Prop where
  main : s.main = .run
  zero : (s.thr 0).stack = deadlockMain
  one : (s.thr 1).stack = deadlockOne
  two : (s.thr 2).stack = []
  queue : ∀ v, v < 3 → (s.queue v).items = []
  task : ∃ q, s.tasks[0]? = some q ∧ q.counter = 1 ∧ q.st = .started

theorem takes_lt {s : PoolState} (hq : ∀ v, 3 ≤ v → (s.queue v).items = []) {i v j : Nat} {g : GetPc} {qu : TQueue} (h : Takes s i g v j qu) :
    v < 3 := by
  rcases Nat.lt_or_ge v 3 with hv | hv
  · exact hv
  · exact absurd (hq v hv) (take_nil h)

/-- C68 is violated: after some schedule of `deadlock` on three workers, under every continuation the pool never gets out of
`wait` again, although no work is left but to go on. -/
theorem C68_violated : ∃ s, PoolReach 3 deadlock s ∧ ∀ u, PoolSteps 3 s u → u.main = .run ∧ (u.thr 0).stack = deadlockMain ∧
    (u.thr 1).stack = deadlockOne ∧ ∃ q, u.tasks[0]? = some q ∧ q.st = .started := by
  have h1 := deadlock_run
  have h2 := deadlock_run'
  cases e : runPool 3 (PoolState.init deadlock) deadlockSched with
  | none => rw [e] at h1; simp at h1
  | some s =>
    have hr : PoolReach 3 deadlock s := runPool_steps (.refl _) e
    rw [e] at h1 h2
    simp only [Option.map_some, Option.some.injEq, Prod.mk.injEq, List.cons.injEq, and_true] at h1 h2
    refine ⟨s, hr, ?_⟩
    have hD : Deadlocked s := by
      refine ⟨h2.2.1, h1.2.1, h1.2.2.1, h1.2.2.2, ?_, ?_⟩
      · intro v hv
        have : v = 0 ∨ v = 1 ∨ v = 2 := by omega
        rcases this with rfl | rfl | rfl
        · exact h2.1.1
        · exact h2.1.2.1
        · exact h2.1.2.2
      · have h3 := h1.1
        cases ht : s.tasks with
        | nil => rw [ht] at h3; simp at h3
        | cons q l => rw [ht] at h3; simp at h3; exact ⟨q, rfl, h3.1.2.2, h3.1.2.1⟩
    intro u hu
    suffices h : Deadlocked u ∧ PoolReach 3 deadlock u from by
      obtain ⟨⟨a, b, c, -, -, q, hq, -, hs⟩, -⟩ := h
      exact ⟨a, b, c, q, hq, hs⟩
    clear e h1 h2
    induction hu with
    | refl => exact ⟨hD, hr⟩
    | @step t u i r a _ hs ih =>
      obtain ⟨hD, hr⟩ := ih
      refine ⟨?_, .step _ _ _ hr hs⟩
      obtain ⟨-, hi, hs⟩ := step_cases hs
      have hI := (hr.inv (by omega)).1
      obtain ⟨d1, d2, d3, d4, d5, q0, d6, d7, d8⟩ := hD
      have hi3 : i = 0 ∨ i = 1 ∨ i = 2 := by omega
      have hq3 : ∀ v, 3 ≤ v → (t.queue v).items = [] := by
        intro v hv
        cases e : (t.queue v).items with
        | nil => rfl
        | cons j l =>
          obtain ⟨q, hq, -, hb⟩ := hI.queue v j (by simp [e])
          have := (hI.bnd j q hq).1
          omega
      have same : ∀ u : PoolState, u.main = t.main → (∀ k, (u.thr k).stack = (t.thr k).stack) → u.queue = t.queue → u.tasks = t.tasks → Deadlocked u := by
        intro u e1 e2 e3 e4
        exact ⟨by rw [e1, d1], by rw [e2, d2], by rw [e2, d3], by rw [e2, d4], by rw [e3]; exact d5, by rw [e4]; exact ⟨q0, d6, d7, d8⟩⟩
      -- the innermost call of every thread that has one is in `wait` for task 0
      have top : ∀ f fs, (t.thr i).stack = f :: fs → f.pc = .run ∧ ∃ v k, f.code = .wait v k ∧ f.env[v]? = some 0 := by
        intro f fs hst
        rcases hi3 with rfl | rfl | rfl
        · rw [d2] at hst; simp only [deadlockMain, List.cons.injEq] at hst; obtain ⟨rfl, -⟩ := hst; exact ⟨rfl, _, _, rfl, rfl⟩
        · rw [d3] at hst; simp only [deadlockOne, List.cons.injEq] at hst; obtain ⟨rfl, -⟩ := hst; exact ⟨rfl, _, _, rfl, rfl⟩
        · rw [d4] at hst; simp at hst
      cases hs with
      | idle ha hb hc hd he => exact same _ rfl (by intro k; simp; intro e; rw [e]) rfl rfl
      | retry ha hb hc hd => exact same _ rfl (by intro k; simp; intro e; rw [e]) rfl rfl
      | goOn ha hb hc => exact same _ rfl (by intro k; simp; intro e; rw [e]) rfl rfl
      | look ha hb hc => exact same _ rfl (by intro k; simp; intro e; rw [e]) rfl rfl
      | again ha hb hc hd => exact same _ rfl (by intro k; simp; intro e; rw [e]) rfl rfl
      | exit ha hb hc hd => exact same _ rfl (by intro k; simp; intro e; rw [e]) rfl rfl
      | start ha hb hc hd => exact absurd (d5 _ (takes_lt hq3 hc)) (take_nil hc)
      | push hst hpc => have := (top _ _ hst).1; rw [hpc] at this; simp at this
      | sub hst hpc _ _ => have := (top _ _ hst).1; rw [hpc] at this; simp at this
      | up hst hpc _ _ _ _ => have := (top _ _ hst).1; rw [hpc] at this; simp at this
      | finish hst hpc _ _ _ => have := (top _ _ hst).1; rw [hpc] at this; simp at this
      | ret hst hpc hc _ => obtain ⟨-, v, k, hk, -⟩ := top _ _ hst; rw [hc] at hk; simp at hk
      | leave hst hpc hc _ => obtain ⟨-, v, k, hk, -⟩ := top _ _ hst; rw [hc] at hk; simp at hk
      | unwind hst hpc hc _ => obtain ⟨-, v, k, hk, -⟩ := top _ _ hst; rw [hc] at hk; simp at hk
      | terminate hst hpc hc _ => obtain ⟨-, v, k, hk, -⟩ := top _ _ hst; rw [hc] at hk; simp at hk
      | submitRoot hst hpc hc => obtain ⟨-, v, k, hk, -⟩ := top _ _ hst; rw [hc] at hk; simp at hk
      | submitChild hst hpc hc _ _ => obtain ⟨-, v, k, hk, -⟩ := top _ _ hst; rw [hc] at hk; simp at hk
      | waited hst hpc hc hg hv hq h0 =>
        obtain ⟨-, v, k, hk, hv'⟩ := top _ _ hst
        rw [hc] at hk; simp only [Prog.wait.injEq] at hk; obtain ⟨rfl, rfl⟩ := hk
        rw [hv] at hv'; simp only [Option.some.injEq] at hv'; subst hv'
        rw [hq] at d6; simp only [Option.some.injEq] at d6; subst d6
        omega
      | stop ha hb hc hd => rw [d1] at hc; simp at hc
      | stopped ha hb hc hd => rw [d1] at hc; simp at hc
      | join ha hb hc hd he => rw [d1] at hc; simp at hc
      | joined ha hb hc hd => rw [d1] at hc; simp at hc

/-- C68, partially: in a fork-join program, where a function waits only for tasks that it submitted itself and gives as
parent only tasks that it submitted itself without a parent, nothing waits for ever: under every fair schedule of any number
of workers the program ends and the destructor returns.  Missing: waiting for a task of another function, exceptions, and
schedules that are not fair. -/
theorem C68_fork_join_ends_partial {n : Nat} (hn : 0 < n) {p : Prog} (hp : p.FJ []) (e : PoolExec n p) (hf : e.Fair) :
    ∃ k, (e.state k).main = .gone :=
  e.ends hn hp hf

/-- C68: in a fork-join program a thread that is in a call is never stuck, and its behaviour is defined. -/
theorem C68_defined_partial {n : Nat} (hn : 0 < n) {p : Prog} (hp : p.FJ []) {s : PoolState} (h : PoolReach n p s) {i : Nat} (hi : i < n)
    (hst : (s.thr i).stack ≠ []) (rnd : Nat) (acq : Bool) : (s.step n i rnd acq).isSome = true := by
  cases e : (s.thr i).stack with
  | nil => exact absurd e hst
  | cons f fs => exact frame_enabled (h.all hn hp) hi e rnd acq

/-- A fair execution: the workers take turns. -/
def turnsState (n : Nat) (p : Prog) : Nat → PoolState
  | 0 => PoolState.init p
  | k + 1 => match (turnsState n p k).step n (k % n) k true with
    | some u => u
    | none => turnsState n p k

def turns (n : Nat) (p : Prog) : PoolExec n p where
  state := turnsState n p
  who k := k % n
  rnd k := k
  acq _ := true
  init := rfl
  next k := by
    simp only [turnsState]
    cases h : (turnsState n p k).step n (k % n) k true with
    | none => simp
    | some u => simp

theorem turns_fair (n : Nat) (p : Prog) : (turns n p).Fair := by
  intro i hi k
  refine ⟨i + n * k, ?_, ?_⟩
  · have : k ≤ n * k := Nat.le_mul_of_pos_left k (by omega)
    omega
  · simp [turns, Nat.add_mul_mod_self_left, Nat.mod_eq_of_lt hi]

/-- The hypotheses of the partial results are met by nested fork-join on four workers. -/
example : ∃ (p : Prog) (e : PoolExec 4 p), p.FJ [] ∧ e.Fair ∧ p = .submit none twoTasks (.submit (some 0) twoTasks (.wait 1 twoTasks)) :=
  ⟨_, turns 4 _, by simp [Prog.FJ, twoTasks], turns_fair 4 _, rfl⟩

/-- Everything that was forked is joined: this holds for `parallel_for` and stages, in any nesting. -/
theorem par_joined {bs : List Prog} {k : Prog} (hb : ∀ b ∈ bs, b.Joined []) (hk : k.Joined []) : (Prog.par bs k).Joined [] :=
  Prog.Joined.par hb (by simpa using hk)

/-- C68: programs that use the pool only through nested `parallel_for` and stages end under every fair schedule. -/
theorem C68_joined_ends_partial {n : Nat} (hn : 0 < n) {p : Prog} (hp : p.Joined []) (e : PoolExec n p) (hf : e.Fair) :
    ∃ k, (e.state k).main = .gone :=
  e.ends hn (hp.fj (by simp)) hf

/-- A `parallel_for` of `m` batches, each of which runs a `parallel_for` of `m` batches, then another one. -/
def nestedPar (m : Nat) : Prog := .par (List.replicate m (.par (List.replicate m .ret) .ret)) (.par (List.replicate m .ret) .ret)

theorem nestedPar_joined (m : Nat) : (nestedPar m).Joined [] := by
  have h0 : Prog.ret.Joined [] := rfl
  have h1 : (Prog.par (List.replicate m .ret) .ret).Joined [] := par_joined (by intro b hb; rw [List.eq_of_mem_replicate hb]; exact h0) h0
  exact par_joined (by intro b hb; rw [List.eq_of_mem_replicate hb]; exact h1) h1

example (m n : Nat) (hn : 0 < n) : ∃ k, ((turns n (nestedPar m)).state k).main = .gone :=
  C68_joined_ends_partial hn (nestedPar_joined m) _ (turns_fair n _)

/-- C67, partially: if nothing throws and every function joins what it forked (as `parallel_for` and stages do, in any nesting),
with less than 65535 children of a task, then every task has been run exactly once when the destructor returns. -/
theorem C67_joined_partial {n : Nat} (hn : 0 < n) {p : Prog} (hp : p.Joined []) {s : PoolState} (h : PoolReach n p s)
    (hc : ∀ j, s.children j < 65535) (hg : s.main = .gone) {j : Nat} {q : PTask} (hq : s.tasks[j]? = some q) :
    q.st = .finished ∧ q.runs = 1 := by
  have hfj : p.FJ [] := hp.fj (by simp)
  have hI := h.all hn hfj
  have hJ := h.joined hn hp hc
  rcases C67_destructor_partial hn hfj.noThrow h hg hq with h1 | ⟨h0, h1, -⟩
  · exact h1
  · have ho := (hI.F.fresh j q hq (.inr h1)).1
    obtain ⟨f, hf, -⟩ := hJ.live j q hq ho
    rw [h0, hI.P2.left (by simp [hg])] at hf
    simp at hf

/-! ## C69 -/

/-- Submits G, a child R of G, waits for R, submits a child of R, waits for that, and waits for G. -/
def grandchild : Prog :=
  .submit none .ret (.submit (some 0) .ret (.wait 0 (.submit (some 0) .ret (.wait 0 (.wait 2 .ret)))))

def grandchildSched : List (Nat × Nat × Bool) := List.replicate 25 (0, 0, false)

theorem grandchild_run : (runPool 1 (PoolState.init grandchild) grandchildSched).map
      (fun s => ((s.tasks.map (fun q => (q.runs, q.st, q.counter))), (s.thr 0).stack)) =
    some ([(0, .queued, 0), (1, .finished, 0), (1, .finished, 0)], [⟨none, .ret, [2, 1, 0], .run, 0⟩]) := by decide +kernel

/-- C69 is violated, without any concurrency: with one worker, `wait(G)` returns although the function of G has never been
called.  R, a child of G, counts as completed twice when it gets a child after it was completed. -/
theorem C69_violated : ∃ s, PoolReach 1 grandchild s ∧ (s.thr 0).stack = [⟨none, .ret, [2, 1, 0], .run, 0⟩] ∧
    ∃ q, s.tasks[0]? = some q ∧ q.runs = 0 ∧ ¬ s.Returned 0 := by
  have h := grandchild_run
  cases e : runPool 1 (PoolState.init grandchild) grandchildSched with
  | none => rw [e] at h; simp at h
  | some s =>
    rw [e] at h
    simp only [Option.map_some, Option.some.injEq, Prod.mk.injEq] at h
    refine ⟨s, runPool_steps (.refl _) e, h.2, ?_⟩
    cases ht : s.tasks with
    | nil => have := h.1; rw [ht] at this; simp at this
    | cons q l =>
      have h1 := h.1; rw [ht] at h1; simp at h1
      refine ⟨q, rfl, h1.1.1, ?_⟩
      rintro ⟨q', hq', hr, -⟩
      rw [ht] at hq'; simp only [List.getElem?_cons_zero, Option.some.injEq] at hq'; subst hq'
      omega

/-- C69, partially: in a fork-join program, a `wait` that returns finds that the functions of the task and of all its children
(less than 65535) have returned, and each was called exactly once. -/
theorem C69_wait_partial {n : Nat} (hn : 0 < n) {p : Prog} (hp : p.FJ []) {s u : PoolState} (h : PoolReach n p s) {i rnd : Nat} {acq : Bool}
    (hs : s.step n i rnd acq = some u) {f : Frame} {fs : List Frame} {v j : Nat} {k : Prog} (hst : (s.thr i).stack = f :: fs)
    (hpc : f.pc = .run) (hc : f.code = .wait v k) (hv : f.env[v]? = some j)
    (hu : (u.thr i).stack = { f with code := k } :: fs) (hch : s.children j < 65535) :
    s.Returned j ∧ ∀ (t : Nat) (q : PTask), s.tasks[t]? = some q → q.parent = some j → s.Returned t := by
  have hI := h.all hn hp
  have hne : ∀ k' : Prog, k' ≠ .wait v k' := by
    intro k' hk
    have := congrArg Prog.wt hk
    simp [Prog.wt] at this
  have hcne : ({ f with code := k } : Frame) ≠ f := by
    intro e
    have := congrArg Frame.code e
    simp only [hc] at this
    exact hne k this
  -- the counter was seen to be 0
  have h0 : ∃ q, s.tasks[j]? = some q ∧ q.counter = 0 := by
    have hcs := hs
    unfold PoolState.step at hcs
    split at hcs
    · simp at hcs
    · rw [hst] at hcs
      simp only [stepFrame, hpc, hc, hv] at hcs
      split at hcs
      · split at hcs
        · simp at hcs
        · rename_i q hq
          split at hcs
          · rename_i h0; exact ⟨q, hq, by simpa [PTask.completed] using h0⟩
          · simp only [Option.some.injEq] at hcs; subst hcs
            simp [hst] at hu; exact absurd hu.symm hcne
      · split at hcs
        · simp only [Option.some.injEq] at hcs; subst hcs
          simp [hst] at hu; exact absurd hu.symm hcne
        · unfold startTask at hcs
          split at hcs
          · simp at hcs
          · simp only [Option.some.injEq] at hcs; subst hcs
            have := congrArg List.length hu
            simp [modTask, hst] at this
        · simp only [Option.some.injEq] at hcs; subst hcs
          simp [hst] at hu; exact absurd hu.symm hcne
  obtain ⟨q, hq, h0⟩ := h0
  obtain ⟨z1, z2⟩ := hI.zero hq h0 hch
  exact ⟨hI.returned hq z1, fun t qt hqt hp => hI.returned hqt (z2 t qt hqt hp)⟩

/-- C69: if every function joins what it forked, then as long as a task has not returned, the call that submitted it is in
progress and has not reached its end: a call that returns leaves nothing behind. -/
theorem C69_structured_partial {n : Nat} (hn : 0 < n) {p : Prog} (hp : p.Joined []) {s : PoolState} (h : PoolReach n p s)
    (hc : ∀ j, s.children j < 65535) {t : Nat} {q : PTask} (hq : s.tasks[t]? = some q) (hr : ¬ s.Returned t) :
    ∃ f ∈ (s.thr q.by_).stack, f.time = q.caller ∧ f.code ≠ .ret := by
  have hI := h.all hn (hp.fj (by simp))
  have hJ := h.joined hn hp hc
  have ho : q.own = true := by
    cases e : q.own with
    | true => rfl
    | false => exact absurd (hI.returned hq e) hr
  obtain ⟨f, hf, hft⟩ := hJ.live t q hq ho
  refine ⟨f, hf, hft, ?_⟩
  intro hret
  obtain ⟨ps, h1, h2⟩ := hJ.frame _ f hf
  obtain ⟨v, hv, -⟩ := h2 t q hq rfl (by rw [hft]) ho
  rw [hret] at h1
  simp only [Prog.Joined] at h1
  rw [h1] at hv; simp at hv

theorem twoTasks_wait : (runPool 1 (PoolState.init twoTasks) (List.replicate 16 (0, 0, false))).map
      (fun s => ((s.tasks.map (fun q => (q.runs, q.st, q.counter))), (s.thr 0).stack.map (fun f => (f.code, f.env)))) =
    some ([(1, .finished, 0), (1, .finished, 0)], [(.wait 1 .ret, [1, 0])]) := by decide +kernel

/-- The hypotheses are met: a state in which the wait for a task with a child is about to return. -/
example : ∃ s u, PoolReach 1 twoTasks s ∧ twoTasks.FJ [] ∧ twoTasks.Joined [] ∧ s.children 0 < 65535 ∧ s.step 1 0 0 false = some u ∧
    (s.thr 0).stack.map (fun f => f.code) = [.wait 1 .ret] ∧ (u.thr 0).stack.map (fun f => f.code) = [.ret] := by
  have h : (runPool 1 (PoolState.init twoTasks) (List.replicate 16 (0, 0, false))).any (fun s => decide (s.children 0 < 65535) &&
      decide ((s.thr 0).stack.map (fun f => f.code) = [.wait 1 .ret]) &&
      (s.step 1 0 0 false).any (fun u => decide ((u.thr 0).stack.map (fun f => f.code) = [.ret]))) = true := by decide +kernel
  rw [Option.any_eq_true] at h
  obtain ⟨s, hs, h⟩ := h
  simp only [Bool.and_eq_true, decide_eq_true_eq] at h
  obtain ⟨⟨h1, h2⟩, h3⟩ := h
  rw [Option.any_eq_true] at h3
  obtain ⟨u, hu, h3⟩ := h3
  exact ⟨s, u, runPool_steps (.refl _) hs, by simp [twoTasks, Prog.FJ], by simp [twoTasks, Prog.Joined], h1, hu, h2, by simpa using h3⟩

/-! ## C70 -/

/-- A task is submitted and waited for. -/
def oneTask : Prog := .submit none .ret (.wait 0 .ret)

/-- While worker 1 executes the task, the owner looks for work in vain, again and again. -/
theorem oneTask_busy : ∀ N : Nat, ∃ s, PoolReach 2 oneTask s ∧ N < s.sem ∧ s.dead = false ∧
    s.thr 0 = ⟨[⟨none, .wait 0 .ret, [0], .run, 0⟩], none, .loop⟩ ∧ (∃ q, s.tasks[0]? = some q ∧ q.counter = 1 ∧ q.st = .started) ∧
    (s.queue 0).items = [] ∧ (s.queue 1).items = [] := by
  intro N
  induction N with
  | zero =>
    have h : (runPool 2 (PoolState.init oneTask) [(0, 0, false), (0, 0, false), (1, 0, false), (1, 0, false), (1, 0, false), (1, 0, false)]).any
        (fun s => decide (0 < s.sem) && decide (s.dead = false) && decide (s.thr 0 = ⟨[⟨none, .wait 0 .ret, [0], .run, 0⟩], none, .loop⟩) &&
          (s.tasks[0]?).any (fun q => decide (q.counter = 1 ∧ q.st = .started)) && decide ((s.queue 0).items = []) && decide ((s.queue 1).items = [])) = true := by
      decide +kernel
    rw [Option.any_eq_true] at h
    obtain ⟨s, hs, h⟩ := h
    simp only [Bool.and_eq_true, decide_eq_true_eq] at h
    obtain ⟨⟨⟨⟨⟨h1, h2⟩, h3⟩, h4⟩, h5⟩, h6⟩ := h
    rw [Option.any_eq_true] at h4
    obtain ⟨q, hq, h4⟩ := h4
    exact ⟨s, runPool_steps (.refl _) hs, h1, h2, h3, ⟨q, hq, by simpa using h4⟩, h5, h6⟩
  | succ N ih =>
    obtain ⟨s, hr, h1, h2, h3, ⟨q, hq, hc, hs⟩, h5, h6⟩ := ih
    have hss : ∀ (w : PoolState) t t', (w.setThr 0 t).setThr 0 t' = w.setThr 0 t' := by
      intro w t t'; simp only [setThr]; congr 1; funext k; simp only [upd]; split <;> rfl
    let fr : List Frame := [⟨none, .wait 0 .ret, [0], .run, 0⟩]
    have e1 : s.step 2 0 0 false = some (s.setThr 0 ⟨fr, some .pop, .loop⟩) := by
      simp [PoolState.step, h2, h3, stepFrame, hq, PTask.completed, hc, fr]
    have e2 : (s.setThr 0 ⟨fr, some .pop, .loop⟩).step 2 0 0 false = some (s.setThr 0 ⟨fr, some .rnd, .loop⟩) := by
      simp [PoolState.step, h2, stepFrame, thr_eta, fr, getStep, TQueue.pop, h5, hss, show (s.setThr 0 ⟨fr, some .pop, .loop⟩).dead = s.dead from rfl,
        show ∀ t, (s.setThr 0 t).dead = s.dead from fun _ => rfl, show ∀ t, (s.setThr 0 t).queue = s.queue from fun _ => rfl]
    have e3 : (s.setThr 0 ⟨fr, some .rnd, .loop⟩).step 2 0 0 false = some (s.setThr 0 ⟨fr, some (.rndTake 1 (s.queue 1).top), .loop⟩) := by
      simp [PoolState.step, h2, stepFrame, thr_eta, fr, getStep, hss,
        show ∀ t, (s.setThr 0 t).dead = s.dead from fun _ => rfl, show ∀ t, (s.setThr 0 t).queue = s.queue from fun _ => rfl]
    have e4 : (s.setThr 0 ⟨fr, some (.rndTake 1 (s.queue 1).top), .loop⟩).step 2 0 0 false =
        some ({ s with sem := s.sem + 1 }.setThr 0 ⟨fr, none, .loop⟩) := by
      simp [PoolState.step, h2, stepFrame, thr_eta, fr, getStep, TQueue.take, h6,
        show ∀ t, (s.setThr 0 t).dead = s.dead from fun _ => rfl, show ∀ t, (s.setThr 0 t).queue = s.queue from fun _ => rfl]
      simp only [setThr]; congr 1; funext k; simp only [upd]; split <;> rfl
    refine ⟨_, .step _ _ _ (.step _ _ _ (.step _ _ _ (.step _ _ _ hr e1) e2) e3) e4, ?_, h2, ?_, ⟨q, hq, hc, hs⟩, h5, h6⟩
    · simp only [setThr]; omega
    · exact thr_eta _ _ _

/-- C70 is violated: while a thread waits for a task that another one executes, it releases the semaphore again and again,
beyond every maximum. -/
theorem C70_violated (max : Nat) : ∃ s, PoolReach 2 oneTask s ∧ max < s.sem := by
  obtain ⟨s, h, h1, -⟩ := oneTask_busy max
  exact ⟨s, h, h1⟩

/-- C70, partially: while no function waits, the semaphore counts at most the tasks that were submitted.  Missing: `wait`. -/
theorem C70_no_wait_partial {n : Nat} (hn : 0 < n) {p : Prog} (hp : p.NoWait) {s : PoolState} (h : PoolReach n p s) :
    s.sem ≤ s.tasks.length := by
  have := (h.sem hn hp).sem
  omega

/-- The hypotheses are met by a state in which the bound is reached. -/
example : ∃ s, PoolReach 2 nestedForget s ∧ nestedForget.NoWait ∧ s.sem = 2 ∧ s.tasks.length = 2 := by
  have h : (runPool 2 (PoolState.init nestedForget) (nestedForgetSched.take 12)).any (fun s => decide (s.sem = 2) && decide (s.tasks.length = 2)) = true := by
    decide +kernel
  rw [Option.any_eq_true] at h
  obtain ⟨s, hs, h⟩ := h
  simp only [Bool.and_eq_true, decide_eq_true_eq] at h
  exact ⟨s, runPool_steps (.refl _) hs, by simp [nestedForget, Prog.NoWait], h.1, h.2⟩

/-! ## C71 -/

/-- A task that throws is submitted and waited for. -/
def throwing : Prog := .submit none .throw (.wait 0 .ret)

/-- C71 is violated: if another worker takes the task, its exception terminates the program. -/
theorem C71_violated : ∃ s, PoolReach 2 throwing s ∧ s.dead = true := by
  have h : (runPool 2 (PoolState.init throwing) [(0, 0, false), (0, 0, false), (1, 0, false), (1, 0, false), (1, 0, false), (1, 0, false), (1, 0, false)]).any
      (fun s => s.dead) = true := by decide +kernel
  rw [Option.any_eq_true] at h
  obtain ⟨s, hs, h⟩ := h
  exact ⟨s, runPool_steps (.refl _) hs, h⟩

/-- C71, partially: a pool without background workers never terminates the program.  Missing: every other pool. -/
theorem C71_alone_partial {p : Prog} {s : PoolState} (h : PoolReach 1 p s) : s.dead = false := h.alone

/-- C71: in any pool only an exception terminates the program. -/
theorem C71_only_throw {n : Nat} {p : Prog} (hp : p.NoThrow) {s : PoolState} (h : PoolReach n p s) : s.dead = false ∧ s.unwound = false :=
  ⟨(h.noThrow hp).dead, (h.noThrow hp).unwound⟩

/-- With one worker the exception leaves `wait` and the function that uses the pool, and the task is never counted as completed. -/
example : ∃ s, PoolReach 1 throwing s ∧ s.unwound = true ∧ s.main = .gone ∧ s.tasks.map (fun q => (q.runs, q.counter)) = [(1, 1)] := by
  have h : (runPool 1 (PoolState.init throwing) (List.replicate 7 (0, 0, false))).any
      (fun s => s.unwound && decide (s.main = .gone) && decide (s.tasks.map (fun q => (q.runs, q.counter)) = [(1, 1)])) = true := by decide +kernel
  rw [Option.any_eq_true] at h
  obtain ⟨s, hs, h⟩ := h
  simp only [Bool.and_eq_true, decide_eq_true_eq] at h
  exact ⟨s, runPool_steps (.refl _) hs, h.1.1, h.1.2, h.2⟩

example : nestedForget.NoThrow := by simp [nestedForget, Prog.NoThrow]

end CoEcs.Props
