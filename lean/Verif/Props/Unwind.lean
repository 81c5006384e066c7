import Verif.Proofs.UnwindUb
import Verif.Props.Schedule

/-!
# Runs that end with an exception (C97)
-/

namespace CoEcs.Props
open CoEcs UState

variable {prog : Nat → ScheduleExec} {n : Nat} {s : UState}

/-- The parallel systems of stages, in the order in which a run submits them. -/
def parallelOf (ss : List StageExec) : List SysDesc := ss.flatMap fun st => st.batches.flatten
/-- The main-thread systems as a run executes them: once for every batch. -/
def mainOf (ss : List StageExec) : List SysDesc := ss.flatMap fun st => st.batches.flatMap fun _ => st.main

/-- The stages a call runs. -/
def stagesOf (prog : Nat → ScheduleExec) : Nat × Bool → List StageExec
  | (e, true) => [(prog e).init]
  | (e, false) => (prog e).stages

theorem submits_code (e : StageExec) : submits e.code = e.batches.flatten := by
  have h1 : ∀ b : List SysDesc, submits (b.map .submit) = b := by intro b; induction b with | nil => rfl | cons x b ih => simp [submits, ih]
  have h2 : ∀ b : List SysDesc, submits (b.map .runMain) = [] := by intro b; induction b with | nil => rfl | cons x b ih => simp [submits, ih]
  unfold StageExec.code
  generalize e.batches = bs
  induction bs with
  | nil => rfl
  | cons b bs ih =>
    simp only [List.flatMap_cons, submits_append, ih, execBatch, h1, h2]
    cases hb : b.isEmpty <;> simp [submits]

theorem mains_code (e : StageExec) : mains e.code = e.batches.flatMap fun _ => e.main := by
  have h1 : ∀ b : List SysDesc, mains (b.map .submit) = [] := by intro b; induction b with | nil => rfl | cons x b ih => simp [mains, ih]
  have h2 : ∀ b : List SysDesc, mains (b.map .runMain) = b := by intro b; induction b with | nil => rfl | cons x b ih => simp [mains, ih]
  unfold StageExec.code
  generalize e.batches = bs
  induction bs with
  | nil => rfl
  | cons b bs ih =>
    simp only [List.flatMap_cons, mains_append, ih, execBatch, h1, h2]
    cases hb : b.isEmpty <;> simp [mains]

theorem callCode_systems (prog : Nat → ScheduleExec) (x : Nat × Bool) :
    submits (callCode prog x) = parallelOf (stagesOf prog x) ∧ mains (callCode prog x) = mainOf (stagesOf prog x) := by
  obtain ⟨e, b⟩ := x
  cases b
  · simp only [callCode, stagesOf, ScheduleExec.runOnce, parallelOf, mainOf]
    generalize (prog e).stages = ss
    induction ss with
    | nil => exact ⟨rfl, rfl⟩
    | cons st ss ih =>
      simp only [List.flatMap_cons, List.append_assoc, submits_append, mains_append, submits_code, mains_code] at ih ⊢
      exact ⟨by rw [ih.1], by rw [ih.2]⟩
  · simp only [callCode, stagesOf, ScheduleExec.construct, parallelOf, mainOf, submits_append, mains_append, submits_code, mains_code]
    simp [submits, mains]

/-! ## C97 -/

/-- **C97 (calls that return)**: a call of `run_once`, or the creation of an executor, that returns has started and
finished each parallel system of its stages exactly as often as it occurs, and each main-thread system once per batch,
whatever exceptions earlier calls ended with and whatever was left of them. -/
theorem C97_returned_complete (h : UReach prog n s) {k : Nat} (hk : .returned k ∈ s.log) :
    ∃ x, s.calls[k]? = some x ∧ ∀ id,
      s.log.count (.start k id) = ((parallelOf (stagesOf prog x)).map SysDesc.id).count id ∧
      s.log.count (.finish k id) = ((parallelOf (stagesOf prog x)).map SysDesc.id).count id ∧
      s.log.count (.mainStart k id) = ((mainOf (stagesOf prog x)).map SysDesc.id).count id ∧
      s.log.count (.mainFinish k id) = ((mainOf (stagesOf prog x)).map SysDesc.id).count id := by
  obtain ⟨x, C⟩ := h.kinv.ret k hk
  obtain ⟨e1, e2⟩ := callCode_systems prog x
  refine ⟨x, C.call, fun id => ⟨?_, ?_, ?_, ?_⟩⟩
  · rw [h.cinv.starts, tally_all (fun i t h1 h2 => by rw [C.done i t h1 h2]; rfl), C.subs, e1]; rfl
  · rw [h.cinv.finishes, tally_all (fun i t h1 h2 => by rw [C.done i t h1 h2]; rfl), C.subs, e1]; rfl
  · rw [C.starts, e2]; rfl
  · rw [C.finishes, e2]; rfl

/-- **C97 (after a return)**: once a call has returned none of its systems starts or ends. -/
theorem C97_nothing_after_return (h : UReach prog n s) {pre post : List UEvent} {k id : Nat} {e : UEvent} (he : e = .start k id ∨ e = .finish k id)
    (hl : s.log = pre ++ e :: post) : .returned k ∉ pre := by
  intro hf
  refine h.not_after_return pre post e k hl ?_ _ hf rfl
  rcases he with rfl | rfl
  · exact Or.inl ⟨id, rfl⟩
  · exact Or.inr ⟨id, rfl⟩

/-- **C97 (as long as nothing throws)**: if no exception has left a call, then no step is undefined, and outside of the
calls no system is being executed or will be. -/
theorem C97_without_exceptions (h : UReach prog n s) (hn : ∀ k, .threw k ∉ s.log) :
    (∀ l, s.step prog n l ≠ .ub) ∧ ((∀ d, s.main ≠ .system d) → (∀ j, s.main ≠ .task j) → s.main ≠ .code → s.queue = [] ∧ ∀ t ∈ s.tasks, t.st = .done) := by
  refine ⟨fun l hu => ?_, fun h1 h2 h3 => ?_⟩
  · obtain ⟨k, hk⟩ := h.ub_threw hu
    exact hn k hk
  · have hm : s.main = .idle := by
      cases hs : s.main with
      | idle => rfl
      | code => exact absurd hs h3
      | system d => exact absurd hs (h1 d)
      | task j => exact absurd hs (h2 j)
    have hall : ∀ (j : Nat) (u : UTask), s.tasks[j]? = some u → u.st = .done := by
      intro j u hu
      refine Classical.byContradiction fun hst => ?_
      rcases h.left hu hst with ⟨h1, _⟩ | h1
      · exact h1 hm
      · exact hn _ h1
    refine ⟨?_, fun t ht => ?_⟩
    · cases hq : s.queue with
      | nil => rfl
      | cons j q =>
        have := (h.qinv.q j).1 (by rw [hq]; simp)
        obtain ⟨u, hu, hs⟩ : ∃ u, s.tasks[j]? = some u ∧ u.st = .queued := by simpa [stAt] using this
        rw [hall j u hu] at hs; cases hs
    · obtain ⟨j, hj⟩ := List.mem_iff_getElem?.1 ht
      exact hall j t hj

/-- **C97 (what is left)**: a task that has not finished belongs to the current call or to one that ended with an
exception. -/
theorem C97_left_of_exceptions (h : UReach prog n s) {t : UTask} (ht : t ∈ s.tasks) (hst : t.st ≠ .done) :
    (s.main ≠ .idle ∧ t.call = s.calls.length - 1) ∨ .threw t.call ∈ s.log := by
  obtain ⟨j, hj⟩ := List.mem_iff_getElem?.1 ht
  exact h.left hj hst

/-- **C97 (commands)**: what systems recorded before a flush is executed by then, exactly once, also if their call
ended with an exception; nothing else is executed. -/
theorem C97_commands (h : UReach prog n s) (k id : Nat) :
    s.flushed.count (k, id) + s.pending.count (k, id) = s.log.count (.start k id) + s.log.count (.mainStart k id) ∧
    ∀ (a b : List UEvent) (m : Nat), s.log = a ++ .flush m :: b → a.count (.start k id) + a.count (.mainStart k id) ≤ s.flushed.count (k, id) := by
  refine ⟨?_, fun a b m hl => h.finv.kept hl k id⟩
  rw [← h.cinv.cmds k id, List.count_append]

/-- **C97, partial (a pool without background workers)**: after a call has ended, in whatever way, none of its systems
starts or ends, and no step is undefined, so that executors may be run again or destroyed.  Missing: pools with
background workers. -/
theorem C97_alone_partial (h : UReach prog 1 s) :
    (∀ (pre post : List UEvent) (k id : Nat) (e : UEvent), e = .start k id ∨ e = .finish k id → s.log = pre ++ e :: post → .returned k ∉ pre ∧ .threw k ∉ pre) ∧
    ∀ l, s.step prog 1 l ≠ .ub := by
  refine ⟨fun pre post k id e he hl => ?_, h.alone_ub⟩
  have hw : Works k e := by
    rcases he with rfl | rfl
    · exact Or.inl ⟨id, rfl⟩
    · exact Or.inr ⟨id, rfl⟩
  exact ⟨fun hf => h.not_after_end pre post e k hl hw _ hf (Or.inl rfl), fun hf => h.not_after_end pre post e k hl hw _ hf (Or.inr rfl)⟩

/-! ## Programs -/

theorem exec_reach {ls : List ULabel} {t : UState} (h : UReach prog n s) (he : s.exec prog n ls = .ok t) : UReach prog n t := by
  induction ls generalizing s with
  | nil => simp [UState.exec] at he; exact he ▸ h
  | cons l ls ih =>
    unfold UState.exec at he
    cases hs : s.step prog n l with
    | ok u => rw [hs] at he; exact ih (.step l h hs) he
    | no => rw [hs] at he; cases he
    | ub => rw [hs] at he; cases he

/-- A property of the state reached. -/
def UOut.is (o : UOut) (p : UState → Bool) : Bool :=
  match o with
  | .ok s => p s
  | _ => false

theorem exec_is {ls : List ULabel} {p : UState → Bool} (h : UOut.is (UState.init.exec prog n ls) p = true) : ∃ s, UReach prog n s ∧ p s = true := by
  cases hs : UState.init.exec prog n ls with
  | ok t => rw [hs] at h; exact ⟨t, exec_reach .init hs, h⟩
  | no => rw [hs] at h; cases h
  | ub => rw [hs] at h; cases h

/-- Executor 0 has one stage, in which system 7, which writes component 0, runs beside the main-thread system 8, and in
executor 1 these are the systems of the init stage. -/
def beside : Nat → ScheduleExec
  | 0 => ⟨⟨[], []⟩, [⟨[[wr 7 0]], [rd 8 1]⟩]⟩
  | _ => ⟨⟨[[wr 7 0]], [rd 8 1]⟩, []⟩

/-- Creating executor 0. -/
def made : List ULabel := [.construct 0, .main, .main]

/-- **C97 is violated**: a main-thread system throws while a worker executes a system of the batch; `run_once` has ended
and the system goes on. -/
theorem C97_violated_still_running :
    ∃ s, UReach beside 2 s ∧ s.main = .idle ∧ .threw 1 ∈ s.log ∧ ∃ t ∈ s.tasks, t.sys.id = 7 ∧ t.call = 1 ∧ t.st = .running 1 := by
  have h : UOut.is (UState.init.exec beside 2 (made ++ [.run 0, .main, .take 1, .main, .throw]))
      (fun s => (match s.main with | .idle => true | _ => false) && decide (.threw 1 ∈ s.log) && s.tasks.any fun t => decide (t.sys.id = 7 ∧ t.call = 1 ∧ t.st = .running 1)) = true := by
    decide +kernel
  obtain ⟨s, hr, hp⟩ := exec_is h
  simp only [Bool.and_eq_true, decide_eq_true_eq, List.any_eq_true] at hp
  refine ⟨s, hr, ?_, hp.1.2, hp.2⟩
  have := hp.1.1
  cases hm : s.main <;> rw [hm] at this <;> first | rfl | cases this

/-- **C97 is violated**: a system of a call that has ended starts afterwards, in the next call, while the main thread executes
the same system, which writes a component, for that call. -/
theorem C97_violated_runs_beside_itself :
    ∃ s, UReach beside 2 s ∧ (∃ pre post, s.log = pre ++ .start 1 7 :: post ∧ .threw 1 ∈ pre) ∧
      ∃ t ∈ s.tasks, ∃ u ∈ s.tasks, t.sys.id = 7 ∧ u.sys.id = 7 ∧ t.call = 1 ∧ u.call = 2 ∧ t.st = .running 1 ∧ u.st = .running 0 := by
  have h : UOut.is (UState.init.exec beside 2 (made ++ [.run 0, .main, .main, .throw, .run 0, .main, .take 1, .main, .main, .main]))
      (fun s => decide (s.log = [.enter 0, .flush 0, .returned 0, .enter 1, .mainStart 1 8, .threw 1, .enter 2] ++ .start 1 7 :: [.mainStart 2 8, .mainFinish 2 8, .start 2 7]) &&
        s.tasks.any fun t => s.tasks.any fun u => decide (t.sys.id = 7 ∧ u.sys.id = 7 ∧ t.call = 1 ∧ u.call = 2 ∧ t.st = .running 1 ∧ u.st = .running 0)) = true := by
    decide +kernel
  obtain ⟨s, hr, hp⟩ := exec_is h
  simp only [Bool.and_eq_true, decide_eq_true_eq, List.any_eq_true] at hp
  obtain ⟨h1, t, ht, u, hu, h2⟩ := hp
  exact ⟨s, hr, ⟨_, _, h1, by simp⟩, t, ht, u, hu, h2⟩

/-- **C97 is violated**: a main-thread system of the init stage throws, so the executor is never created, and a worker then
uses its destroyed list of systems. -/
theorem C97_violated_undefined : ∃ s, UReach beside 2 s ∧ s.main = .idle ∧ s.step beside 2 (.take 1) = .ub := by
  have h : UOut.is (UState.init.exec beside 2 [.construct 1, .main, .main, .throw])
      (fun s => (match s.main with | .idle => true | _ => false) && (match s.step beside 2 (.take 1) with | .ub => true | _ => false)) = true := by decide +kernel
  obtain ⟨s, hr, hp⟩ := exec_is h
  simp only [Bool.and_eq_true] at hp
  refine ⟨s, hr, ?_, ?_⟩
  · have := hp.1
    cases hm : s.main <;> rw [hm] at this <;> first | rfl | cases this
  · have := hp.2
    cases hm : s.step beside 2 (.take 1) <;> rw [hm] at this <;> first | rfl | cases this

/-- Executor 0 has one stage with two systems that run in parallel. -/
def pairProg : Nat → ScheduleExec := fun _ => ⟨⟨[], []⟩, [⟨[[wr 1 0, wr 2 1]], []⟩]⟩

/-- One more call of `run_once` in which system 2 throws. -/
theorem pair_round {s : UState} (hm : s.main = .idle) (ha : s.alive 0 = true) (hd : s.dead = false) :
    ∃ t, s.exec pairProg 1 [.run 0, .main, .main, .main, .throw] = .ok t ∧ t.main = .idle ∧ t.alive 0 = true ∧ t.dead = false ∧
      t.queue = s.queue ++ [s.tasks.length] := by
  have hc : callCode pairProg (0, false) = [.submit (wr 1 0), .submit (wr 2 1), .wait, .flush] := rfl
  simp [UState.exec, UState.step, hd, hm, ha, UState.enter, UState.say, hc, UState.mainStep, UState.batchDone, UState.startTask, UState.throwStep,
    UState.unwind, UState.setSt]

/-- **C97 is violated (systems that are never run)**: without background workers the systems a call leaves behind stay in the
queue: for every `m` there is a program that leaves `m` of them there.  (That they are never run is `C97_alone_partial`.) -/
theorem C97_violated_never_run (m : Nat) : ∃ s, UReach pairProg 1 s ∧ s.main = .idle ∧ s.queue.length = m := by
  have key : ∀ m, ∃ s, UReach pairProg 1 s ∧ s.main = .idle ∧ s.alive 0 = true ∧ s.dead = false ∧ s.queue.length = m := by
    intro m
    induction m with
    | zero =>
      have h : UOut.is (UState.init.exec pairProg 1 made) (fun s => (match s.main with | .idle => true | _ => false) && s.alive 0 && !s.dead && s.queue.isEmpty) = true := by
        decide +kernel
      obtain ⟨s, hr, hp⟩ := exec_is h
      simp only [Bool.and_eq_true, Bool.not_eq_true', List.isEmpty_iff] at hp
      refine ⟨s, hr, ?_, hp.1.1.2, hp.1.2, by rw [hp.2]; rfl⟩
      have := hp.1.1.1
      cases hm : s.main <;> rw [hm] at this <;> first | rfl | cases this
    | succ m ih =>
      obtain ⟨s, hr, hm, ha, hd, hq⟩ := ih
      obtain ⟨t, he, h1, h2, h3, h4⟩ := pair_round hm ha hd
      exact ⟨t, exec_reach hr he, h1, h2, h3, by rw [h4]; simp [hq]⟩
  obtain ⟨s, hr, hm, _, _, hq⟩ := key m
  exact ⟨s, hr, hm, hq⟩

/-- Calls that return, and calls that threw, with one worker: the second call ends with an exception of system 2, the third
runs both systems, and system 1 of the second call is never run. -/
example : ∃ s, UReach pairProg 1 s ∧ .threw 1 ∈ s.log ∧ .returned 2 ∈ s.log ∧ s.queue = [0] ∧ s.log.count (.start 1 1) = 0 ∧ s.log.count (.start 1 2) = 1 ∧
    s.log.count (.start 2 1) = 1 ∧ s.log.count (.start 2 2) = 1 ∧ (1, 2) ∈ s.flushed ∧ s.pending = [] := by
  have h : UOut.is (UState.init.exec pairProg 1 (made ++ [.run 0, .main, .main, .main, .throw, .run 0] ++ List.replicate 9 .main))
      (fun s => decide (.threw 1 ∈ s.log ∧ .returned 2 ∈ s.log ∧ s.queue = [0] ∧ s.log.count (.start 1 1) = 0 ∧ s.log.count (.start 1 2) = 1 ∧
    s.log.count (.start 2 1) = 1 ∧ s.log.count (.start 2 2) = 1 ∧ (1, 2) ∈ s.flushed ∧ s.pending = [])) = true := by decide +kernel
  obtain ⟨s, hr, hp⟩ := exec_is h
  exact ⟨s, hr, of_decide_eq_true hp⟩

/-- Calls without exceptions, with two workers: both systems of the second call have been run, one by each worker. -/
example : ∃ s, UReach pairProg 2 s ∧ (∀ k, .threw k ∉ s.log) ∧ .returned 1 ∈ s.log ∧ s.log.count (.finish 1 1) = 1 ∧ s.log.count (.finish 1 2) = 1 := by
  have h : UOut.is (UState.init.exec pairProg 2 (made ++ [.run 0, .main, .main, .take 1, .main, .finish 1, .main, .main, .main, .main]))
      (fun s => decide (s.log = [.enter 0, .flush 0, .returned 0, .enter 1, .start 1 1, .start 1 2, .finish 1 1, .finish 1 2, .flush 1, .returned 1])) = true := by decide +kernel
  obtain ⟨s, hr, hp⟩ := exec_is h
  have hl := of_decide_eq_true hp
  exact ⟨s, hr, by rw [hl]; simp, by rw [hl]; simp, by rw [hl]; decide, by rw [hl]; decide⟩

end CoEcs.Props
