import Verif.Props.ThreadPool

/-!
# Waiting for ever in pools of every size (C68)
-/

namespace CoEcs.Props
open CoEcs PoolState

/-- No queue holds a task, the pool is in use, and the innermost call of every thread that is in a call is in `wait` for a task that is
not completed. -/
structure Stuck (s : PoolState) : Prop where
  main : s.main = .run
  owner : (s.thr 0).stack ≠ []
  queue : ∀ v, (s.queue v).items = []
  waits : ∀ i f fs, (s.thr i).stack = f :: fs → f.pc = .run ∧ ∃ v k j q, f.code = .wait v k ∧ f.env[v]? = some j ∧ s.tasks[j]? = some q ∧ q.counter ≠ 0

/-- From such a state on nothing happens any more: all calls and all tasks stay as they are. -/
theorem Stuck.forever {n : Nat} {s u : PoolState} (h : Stuck s) (hs : PoolSteps n s u) :
    Stuck u ∧ (∀ i, (u.thr i).stack = (s.thr i).stack) ∧ u.tasks = s.tasks := by
  induction hs with
  | refl => exact ⟨h, fun _ => rfl, rfl⟩
  | @step t u i r a _ hstep ih =>
    obtain ⟨hT, e1, e2⟩ := ih
    obtain ⟨-, hi, hs⟩ := step_cases hstep
    clear hstep
    have same : ∀ u : PoolState, u.main = t.main → (∀ k, (u.thr k).stack = (t.thr k).stack) → u.queue = t.queue → u.tasks = t.tasks →
        Stuck u ∧ (∀ i, (u.thr i).stack = (s.thr i).stack) ∧ u.tasks = s.tasks := by
      intro u q1 q2 q3 q4
      refine ⟨⟨q1.trans hT.main, by rw [q2]; exact hT.owner, by rw [q3]; exact hT.queue, ?_⟩, fun i => (q2 i).trans (e1 i), q4.trans e2⟩
      intro i f fs hf
      rw [q2] at hf
      rw [q4]
      exact hT.waits i f fs hf
    cases hs with
    | idle ha hb hc hd he => exact same _ rfl (by intro k; simp; intro e; rw [e]) rfl rfl
    | retry ha hb hc hd => exact same _ rfl (by intro k; simp; intro e; rw [e]) rfl rfl
    | goOn ha hb hc => exact same _ rfl (by intro k; simp; intro e; rw [e]) rfl rfl
    | look ha hb hc => exact same _ rfl (by intro k; simp; intro e; rw [e]) rfl rfl
    | again ha hb hc hd => exact same _ rfl (by intro k; simp; intro e; rw [e]) rfl rfl
    | exit ha hb hc hd => exact same _ rfl (by intro k; simp; intro e; rw [e]) rfl rfl
    | start ha hb hc hd => exact absurd (hT.queue _) (take_nil hc)
    | push hst hpc => have := (hT.waits _ _ _ hst).1; rw [hpc] at this; simp at this
    | sub hst hpc _ _ => have := (hT.waits _ _ _ hst).1; rw [hpc] at this; simp at this
    | up hst hpc _ _ _ _ => have := (hT.waits _ _ _ hst).1; rw [hpc] at this; simp at this
    | finish hst hpc _ _ _ => have := (hT.waits _ _ _ hst).1; rw [hpc] at this; simp at this
    | ret hst hpc hc _ => obtain ⟨-, v, k, j, q, hk, -⟩ := hT.waits _ _ _ hst; rw [hc] at hk; simp at hk
    | leave hst hpc hc _ => obtain ⟨-, v, k, j, q, hk, -⟩ := hT.waits _ _ _ hst; rw [hc] at hk; simp at hk
    | unwind hst hpc hc _ => obtain ⟨-, v, k, j, q, hk, -⟩ := hT.waits _ _ _ hst; rw [hc] at hk; simp at hk
    | terminate hst hpc hc _ => obtain ⟨-, v, k, j, q, hk, -⟩ := hT.waits _ _ _ hst; rw [hc] at hk; simp at hk
    | submitRoot hst hpc hc => obtain ⟨-, v, k, j, q, hk, -⟩ := hT.waits _ _ _ hst; rw [hc] at hk; simp at hk
    | submitChild hst hpc hc _ _ => obtain ⟨-, v, k, j, q, hk, -⟩ := hT.waits _ _ _ hst; rw [hc] at hk; simp at hk
    | waited hst hpc hc hg hv hq h0 =>
      obtain ⟨-, v, k, j, q, hk, hv', hq', hn⟩ := hT.waits _ _ _ hst
      rw [hc] at hk; simp only [Prog.wait.injEq] at hk; obtain ⟨rfl, rfl⟩ := hk
      rw [hv] at hv'; simp only [Option.some.injEq] at hv'; subst hv'
      rw [hq] at hq'; simp only [Option.some.injEq] at hq'; subst hq'
      exact absurd h0 hn
    | stop ha hb hc hd => rw [hT.main] at hc; simp at hc
    | stopped ha hb hc hd => rw [hT.main] at hc; simp at hc
    | join ha hb hc hd he => rw [hT.main] at hc; simp at hc
    | joined ha hb hc hd => rw [hT.main] at hc; simp at hc

/-! ### Runs of the first threads -/

/-- A run of a pool in which only threads below `m` make steps, thread 0 not outside of its function, and every random number is 0. -/
def runFew (m : Nat) (s : PoolState) : List Nat → Option PoolState
  | [] => some s
  | i :: l => if i < m ∧ (i = 0 → (s.thr 0).stack ≠ []) then (s.step m i 0 false).bind fun u => runFew m u l else none

/-- Such steps are the same in every larger pool. -/
theorem step_few {m n i : Nat} (hm : 2 ≤ m) (hn : m ≤ n) (hi : i < m) {s : PoolState} (h0 : i = 0 → (s.thr 0).stack ≠ []) (a : Bool) :
    s.step n i 0 a = s.step m i 0 a := by
  have hg : ∀ g, s.getStep n i 0 g = s.getStep m i 0 g := by
    intro g
    cases g <;> simp [getStep, show n ≠ 1 by omega, show m ≠ 1 by omega]
    by_cases h1 : 1 = i <;> simp only [h1, if_true, if_false]
  unfold PoolState.step
  have e1 : ¬ n ≤ i := by omega
  have e2 : ¬ m ≤ i := by omega
  simp only [e1, e2]
  cases hst : (s.thr i).stack with
  | nil =>
    have : i ≠ 0 := by rintro rfl; exact h0 rfl hst
    simp only [this, if_false, stepLoop, hg]
  | cons f fs => simp only [stepFrame, hg]

/-- The other workers have not done anything. -/
def Fresh (m : Nat) (s : PoolState) : Prop := ∀ k, m ≤ k → (s.thr k).stack = [] ∧ (s.queue k).items = []

theorem Fresh.step {m n i r : Nat} {a : Bool} {s u : PoolState} (h : Fresh m s) (hi : i < m) (hs : s.step n i r a = some u) : Fresh m u := by
  obtain ⟨-, -, hs⟩ := step_cases hs
  intro k hk
  obtain ⟨h1, h2⟩ := h k hk
  have hki : k ≠ i := by omega
  cases hs with
  | start ha hb hc hd =>
    rename_i g v j qu q
    have hv : k ≠ v := by rintro rfl; exact absurd h2 (take_nil hc)
    refine ⟨?_, ?_⟩
    · simp [setThr, modTask, upd, hki, h1]
    · simp [setThr, modTask, upd, hv, h2]
  | _ => first
    | exact ⟨h1, h2⟩
    | (refine ⟨?_, ?_⟩ <;> simp [setThr, setTop, modTask, upd, hki, h1, h2])

theorem runFew_steps {m n : Nat} (hm : 2 ≤ m) (hn : m ≤ n) : ∀ {l : List Nat} {s u : PoolState}, runFew m s l = some u → Fresh m s → PoolSteps n s u ∧ Fresh m u := by
  intro l
  induction l with
  | nil => intro s u h hf; simp only [runFew, Option.some.injEq] at h; subst h; exact ⟨.refl _, hf⟩
  | cons i l ih =>
    intro s u h hf
    simp only [runFew] at h
    split at h
    · rename_i hc
      obtain ⟨t, h1, h2⟩ := Option.bind_eq_some_iff.1 h
      have h3 : s.step n i 0 false = some t := by rw [step_few hm hn hc.1 hc.2]; exact h1
      obtain ⟨h4, h5⟩ := ih h2 (hf.step hc.1 h1)
      refine ⟨?_, h5⟩
      clear ih h2 h
      have : ∀ {x}, PoolSteps n t x → PoolSteps n s x := by
        intro x hx
        induction hx with
        | refl => exact .step _ _ _ (.refl _) h3
        | step i r a _ h ih => exact .step i r a ih h
      exact this h4
    · cases h

theorem fresh_init {m : Nat} (hm : 0 < m) (p : Prog) : Fresh m (PoolState.init p) := by
  intro k hk
  simp [PoolState.init, show k ≠ 0 by omega]

/-! ### A counter that passes zero -/

/-- T and G are submitted, then R as a child of G; when R has been waited for, S is submitted as a child of R and waited for.  Then T is
waited for, and G. -/
def miscounted : Prog :=
  .submit none .ret (.submit none .ret (.submit (some 0) .ret (.wait 0 (.submit (some 0) .ret (.wait 0 (.wait 3 (.wait 2 .ret)))))))

/-- What is left of it: waiting for G. -/
def miscountedLeft : List Frame := [⟨none, .wait 2 .ret, [3, 2, 1, 0], .run, 0⟩]

/-- All four tasks have been executed, and the counter of G is 65535. -/
def miscountedB (s : PoolState) : Bool :=
  decide (s.main = .run) && decide ((s.thr 0).stack = miscountedLeft) && decide ((s.thr 1).stack = []) && decide ((s.queue 0).items = []) &&
    decide ((s.queue 1).items = []) && decide (s.tasks.map (fun q => (q.runs, q.st, q.counter)) =
      [(1, .finished, 0), (1, .finished, 65535), (1, .finished, 0), (1, .finished, 0)])

theorem miscounted_run : (runFew 2 (PoolState.init miscounted) (List.replicate 37 0)).any miscountedB = true := by decide +kernel
theorem miscounted_alone : (runPool 1 (PoolState.init miscounted) (List.replicate 37 (0, 0, false))).any miscountedB = true := by decide +kernel

/-- **C68 is violated** in every pool, even without background workers: a child that is submitted when its parent is already completed
takes a second time from the counter of the grandparent, which so becomes zero before the grandparent has been called and 65535
afterwards.  All tasks of the program have been executed, and whatever happens, the wait for the grandparent never returns. -/
theorem C68_every_pool_violated {n : Nat} (hn : 0 < n) : ∃ s, PoolReach n miscounted s ∧
    (∀ t ∈ s.tasks, t.runs = 1 ∧ t.st = .finished) ∧
    ∀ u, PoolSteps n s u → u.main = .run ∧ (u.thr 0).stack = miscountedLeft ∧ u.tasks = s.tasks := by
  obtain ⟨s, hr, hf, hb⟩ : ∃ s, PoolReach n miscounted s ∧ Fresh 2 s ∧ miscountedB s = true := by
    by_cases h1 : n = 1
    · subst h1
      have h := miscounted_alone
      rw [Option.any_eq_true] at h
      obtain ⟨s, hs, h⟩ := h
      refine ⟨s, runPool_steps (.refl _) hs, ?_, h⟩
      have hr : PoolReach 1 miscounted s := runPool_steps (.refl _) hs
      have key : ∀ {t}, PoolReach 1 miscounted t → Fresh 2 t := by
        intro t ht
        have : ∀ {x}, PoolSteps 1 (PoolState.init miscounted) x → Fresh 2 x := by
          intro x hx
          induction hx with
          | refl => exact fresh_init (by decide) _
          | step i r a _ h ih => exact ih.step (by have := (step_cases h).2.1; omega) h
        exact this ht
      exact key hr
    · have h := miscounted_run
      rw [Option.any_eq_true] at h
      obtain ⟨s, hs, h⟩ := h
      obtain ⟨h2, h3⟩ := runFew_steps (n := n) (Nat.le_refl 2) (by omega) hs (fresh_init (by decide) _)
      exact ⟨s, h2, h3, h⟩
  simp only [miscountedB, Bool.and_eq_true, decide_eq_true_eq] at hb
  obtain ⟨⟨⟨⟨⟨b1, b2⟩, b3⟩, b4⟩, b5⟩, b6⟩ := hb
  obtain ⟨q0, q1, q2, q3, ht⟩ : ∃ q0 q1 q2 q3, s.tasks = [q0, q1, q2, q3] := by
    have hl := congrArg List.length b6
    match hx : s.tasks, hl with
    | [q0, q1, q2, q3], _ => exact ⟨q0, q1, q2, q3, rfl⟩
  rw [ht] at b6
  simp only [List.map_cons, List.map_nil, List.cons.injEq, Prod.mk.injEq, and_true] at b6
  have hS : Stuck s := by
    refine ⟨b1, by rw [b2]; simp [miscountedLeft], ?_, ?_⟩
    · intro v
      have : v = 0 ∨ v = 1 ∨ 2 ≤ v := by omega
      rcases this with rfl | rfl | h
      · exact b4
      · exact b5
      · exact (hf v h).2
    · intro i f fs hst
      have : i = 0 ∨ i = 1 ∨ 2 ≤ i := by omega
      rcases this with rfl | rfl | h
      · rw [b2] at hst
        simp only [miscountedLeft, List.cons.injEq] at hst
        obtain ⟨rfl, -⟩ := hst
        exact ⟨rfl, 2, .ret, 1, q1, rfl, rfl, by rw [ht]; rfl, by rw [b6.2.1.2.2]; decide⟩
      · rw [b3] at hst; cases hst
      · rw [(hf i h).1] at hst; cases hst
  refine ⟨s, hr, ?_, ?_⟩
  · intro t hm
    rw [ht] at hm
    simp only [List.mem_cons, List.not_mem_nil, or_false] at hm
    rcases hm with rfl | rfl | rfl | rfl
    · exact ⟨b6.1.1, b6.1.2.1⟩
    · exact ⟨b6.2.1.1, b6.2.1.2.1⟩
    · exact ⟨b6.2.2.1.1, b6.2.2.1.2.1⟩
    · exact ⟨b6.2.2.2.1, b6.2.2.2.2.1⟩
  · intro u hu
    obtain ⟨h1, h2, h3⟩ := hS.forever hu
    exact ⟨h1.main, by rw [h2, b2], h3⟩

/-! ### A circle of calls -/

/-- P and A are submitted, then B as a child of P, and A is waited for.  A waits for P; B submits C, which waits for A. -/
def circle : Prog :=
  .submit none .ret (.submit none (.wait 0 .ret) (.submit (some 1) (.submit none (.wait 0 .ret) .ret) (.wait 1 .ret)))

def circleSched : List Nat :=
  [0, 0, 0, 0, 0, 0, 0, 0, 0, 0, 1, 1, 1, 1, 1, 1, 1, 1, 1, 1, 1, 1, 1, 1, 1, 0, 0, 0, 0, 0, 0, 0]

def circleMain : List Frame := [⟨none, .wait 1 .ret, [2, 1, 0], .run, 0⟩]
def circleOne : List Frame := [⟨some 3, .wait 0 .ret, [1, 0], .run, 4⟩, ⟨some 1, .wait 0 .ret, [0], .run, 3⟩]

def circleB (s : PoolState) : Bool :=
  decide (s.main = .run) && decide ((s.thr 0).stack = circleMain) && decide ((s.thr 1).stack = circleOne) && decide ((s.queue 0).items = []) &&
    decide ((s.queue 1).items = []) && decide (s.tasks.map (fun q => (q.runs, q.st, q.counter)) =
      [(1, .finished, 0), (1, .started, 1), (1, .finished, 0), (1, .started, 1)])

theorem circle_run : (runFew 2 (PoolState.init circle) circleSched).any circleB = true := by decide +kernel

/-- **C68 is violated** in every pool with background workers by a program that submits children only to parents that are not
completed, and all of whose tasks can be completed (P at once, B then, A after them, C after A): while A waits for P on worker 1, that
worker takes C, which waits for A below it on the same stack.  P is completed, but neither A nor C ever gets on. -/
theorem C68_circle_violated {n : Nat} (hn : 2 ≤ n) : ∃ s, PoolReach n circle s ∧
    ∀ u, PoolSteps n s u → u.main = .run ∧ (u.thr 0).stack = circleMain ∧ (u.thr 1).stack = circleOne ∧
      (∃ q, u.tasks[0]? = some q ∧ q.completed = true) ∧ ∃ q, u.tasks[1]? = some q ∧ q.st = .started := by
  have h := circle_run
  rw [Option.any_eq_true] at h
  obtain ⟨s, hs, hb⟩ := h
  obtain ⟨hr, hf⟩ := runFew_steps (Nat.le_refl 2) hn hs (fresh_init (by decide) _)
  simp only [circleB, Bool.and_eq_true, decide_eq_true_eq] at hb
  obtain ⟨⟨⟨⟨⟨b1, b2⟩, b3⟩, b4⟩, b5⟩, b6⟩ := hb
  obtain ⟨q0, q1, q2, q3, ht⟩ : ∃ q0 q1 q2 q3, s.tasks = [q0, q1, q2, q3] := by
    have hl := congrArg List.length b6
    match hx : s.tasks, hl with
    | [q0, q1, q2, q3], _ => exact ⟨q0, q1, q2, q3, rfl⟩
  rw [ht] at b6
  simp only [List.map_cons, List.map_nil, List.cons.injEq, Prod.mk.injEq, and_true] at b6
  have hS : Stuck s := by
    refine ⟨b1, by rw [b2]; simp [circleMain], ?_, ?_⟩
    · intro v
      have : v = 0 ∨ v = 1 ∨ 2 ≤ v := by omega
      rcases this with rfl | rfl | h
      · exact b4
      · exact b5
      · exact (hf v h).2
    · intro i f fs hst
      have : i = 0 ∨ i = 1 ∨ 2 ≤ i := by omega
      rcases this with rfl | rfl | h
      · rw [b2] at hst
        simp only [circleMain, List.cons.injEq] at hst
        obtain ⟨rfl, -⟩ := hst
        exact ⟨rfl, 1, .ret, 1, q1, rfl, rfl, by rw [ht]; rfl, by rw [b6.2.1.2.2]; decide⟩
      · rw [b3] at hst
        simp only [circleOne, List.cons.injEq] at hst
        obtain ⟨rfl, -⟩ := hst
        exact ⟨rfl, 0, .ret, 1, q1, rfl, rfl, by rw [ht]; rfl, by rw [b6.2.1.2.2]; decide⟩
      · rw [(hf i h).1] at hst; cases hst
  refine ⟨s, hr, fun u hu => ?_⟩
  obtain ⟨h1, h2, h3⟩ := hS.forever hu
  refine ⟨h1.main, by rw [h2, b2], by rw [h2, b3], ⟨q0, by rw [h3, ht]; rfl, by simp [PTask.completed, b6.1.2.2]⟩, q1, by rw [h3, ht]; rfl, b6.2.1.2.1⟩

/-- Pools of one and of eight workers. -/
example : (∃ s, PoolReach 1 miscounted s ∧ ∀ u, PoolSteps 1 s u → u.main = .run) ∧ ∃ s, PoolReach 8 circle s ∧ ∀ u, PoolSteps 8 s u → u.main = .run := by
  obtain ⟨s, h1, -, h2⟩ := C68_every_pool_violated (n := 1) (by decide)
  obtain ⟨s', h1', h2'⟩ := C68_circle_violated (n := 8) (by decide)
  exact ⟨⟨s, h1, fun u hu => (h2 u hu).1⟩, s', h1', fun u hu => (h2' u hu).1⟩

end CoEcs.Props
