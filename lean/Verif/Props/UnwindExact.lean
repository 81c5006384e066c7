import Verif.Proofs.UnwindSolo
import Verif.Props.Unwind

/-!
# Which schedules are over when a call ends with an exception (C97)
-/

namespace CoEcs.Props
open CoEcs UState

variable {prog : Nat → ScheduleExec} {n : Nat} {s : UState}

/-- Some system of the stage may run beside another one: a parallel system beside a main-thread system, or two parallel
systems of one batch. -/
def Beside (st : StageExec) : Prop := ∃ b ∈ st.batches, b ≠ [] ∧ st.main ≠ [] ∨ 2 ≤ b.length

private theorem not_beside {st : StageExec} (h : ¬ Beside st) : ∀ b ∈ st.batches, b = [] ∨ b.length = 1 ∧ st.main = [] := by
  intro b hb
  by_cases h0 : b = []
  · exact Or.inl h0
  · right
    have h1 : ¬ (b ≠ [] ∧ st.main ≠ [] ∨ 2 ≤ b.length) := fun h1 => h ⟨b, hb, h1⟩
    have h2 := List.length_pos_iff.2 h0
    refine ⟨?_, ?_⟩
    · exact Nat.le_antisymm (Nat.le_of_not_lt fun h3 => h1 (Or.inr h3)) h2
    · exact Classical.byContradiction fun h3 => h1 (Or.inl ⟨h0, h3⟩)

/-- **C97, partial (one system at a time)**: in a program in which no system may run beside another one, after a call has
ended, in whatever way, none of its systems starts or ends, and no step is undefined, with any number of workers.
Missing: all other schedules; see `C97_every_schedule_violated`. -/
theorem C97_one_at_a_time_partial (hp : ∀ e, ¬ Beside (prog e).init ∧ ∀ st ∈ (prog e).stages, ¬ Beside st) (h : UReach prog n s) :
    (∀ (pre post : List UEvent) (k id : Nat) (e : UEvent), e = .start k id ∨ e = .finish k id → s.log = pre ++ e :: post → .returned k ∉ pre ∧ .threw k ∉ pre) ∧
    ∀ l, s.step prog n l ≠ .ub := by
  have hs := solo_callCode prog fun e => ⟨not_beside (hp e).1, fun st hst => not_beside ((hp e).2 st hst)⟩
  refine ⟨fun pre post k id e he hl => ?_, h.solo_ub hs⟩
  have hw : Works k e := by
    rcases he with rfl | rfl
    · exact Or.inl ⟨id, rfl⟩
    · exact Or.inr ⟨id, rfl⟩
  exact ⟨fun hf => h.solo_after_end hs pre post e k hl hw _ hf (Or.inl rfl), fun hf => h.solo_after_end hs pre post e k hl hw _ hf (Or.inr rfl)⟩

/-- **C97 is violated by every schedule in which a system may run beside another one**, as soon as there is a background
worker: some execution of `run_once` ends with an exception, and a system of that call is started afterwards; and in some
execution the executor is destroyed after that, and a worker uses its list of systems. -/
theorem C97_every_schedule_violated (hn : 2 ≤ n) {e : Nat} {st : StageExec} (hst : st ∈ (prog e).stages) (hb : Beside st) :
    (∃ s pre k id, UReach prog n s ∧ s.log = pre ++ [.threw k, .start k id]) ∧
    ∃ s, UReach prog n s ∧ s.main = .idle ∧ s.step prog n (.take 1) = .ub := by
  obtain ⟨b, hbm, hb⟩ := hb
  obtain ⟨s, hr, D, hl, hc⟩ := drv_run prog n e
  obtain ⟨l1, l2, hs⟩ := List.append_of_mem hst
  have : s.code = l1.flatMap StageExec.code ++ (st.code ++ (l2.flatMap StageExec.code ++ [.flush])) := by
    rw [hc, ScheduleExec.runOnce, hs]; simp
  obtain ⟨t, q, h1, h2, h3, h4, _⟩ := D.drive hr hl _ this
  obtain ⟨u, g1, L⟩ := h2.stage h1 h3 h4 hbm hb
  refine ⟨?_, L.destroyed hn g1⟩
  obtain ⟨v, pre, id, f1, f2⟩ := L.start hn g1
  exact ⟨v, pre, _, id, f1, f2⟩

/-- **C97 is violated by every init stage in which a system may run beside another one**, as soon as there is a background
worker: in some execution `create_executor` ends with an exception, and a worker uses the list of systems of the executor
that was not created. -/
theorem C97_every_init_stage_violated (hn : 2 ≤ n) {e : Nat} (hb : Beside (prog e).init) :
    ∃ s k, UReach prog n s ∧ s.main = .idle ∧ .threw k ∈ s.log ∧ s.step prog n (.take 1) = .ub := by
  obtain ⟨b, hbm, hb⟩ := hb
  obtain ⟨s, hr, D, hl, hc⟩ := drv_construct prog n e
  obtain ⟨u, g1, L⟩ := D.stage hr hl hc hbm hb
  refine ⟨u, s.call, g1, L.main, ?_, L.ub hn⟩
  obtain ⟨l, h⟩ := L.log
  rw [h]; simp

/-- **C97, exactly**: with background workers, calls that end with exceptions are over and nothing is undefined in all
executions if and only if no system may run beside another one. -/
theorem C97_exact (hn : 2 ≤ n) :
    (∀ s, UReach prog n s →
      (∀ (pre post : List UEvent) (k id : Nat) (e : UEvent), e = .start k id ∨ e = .finish k id → s.log = pre ++ e :: post → .threw k ∉ pre) ∧
      ∀ l, s.step prog n l ≠ .ub) ↔
    ∀ e, ¬ Beside (prog e).init ∧ ∀ st ∈ (prog e).stages, ¬ Beside st := by
  constructor
  · intro h e
    refine ⟨fun hb => ?_, fun st hst hb => ?_⟩
    · obtain ⟨s, k, hr, _, _, hu⟩ := C97_every_init_stage_violated hn hb
      exact (h s hr).2 _ hu
    · obtain ⟨s, hr, _, hu⟩ := (C97_every_schedule_violated hn hst hb).2
      exact (h s hr).2 _ hu
  · intro hp s hr
    obtain ⟨h1, h2⟩ := C97_one_at_a_time_partial hp hr
    exact ⟨fun pre post k id e he hl => (h1 pre post k id e he hl).2, h2⟩

/-- `beside` has such stages. -/
example : Beside (beside 1).init ∧ ∃ st ∈ (beside 0).stages, Beside st :=
  ⟨⟨[wr 7 0], by simp [beside], by simp [beside]⟩, ⟨[[wr 7 0]], [rd 8 1]⟩, by simp [beside], [wr 7 0], by simp, by simp⟩

/-- One system after the other: an init stage with main-thread systems only (an empty batch), and two stages with one
parallel system each. -/
def oneByOne : Nat → ScheduleExec := fun _ => ⟨⟨[[]], [rd 8 1]⟩, [⟨[[wr 1 0]], []⟩, ⟨[[wr 2 0], [wr 3 0]], []⟩]⟩

theorem oneByOne_apart (e : Nat) : ¬ Beside (oneByOne e).init ∧ ∀ st ∈ (oneByOne e).stages, ¬ Beside st := by
  simp [oneByOne, Beside]

/-- With three workers: a call in which system 2 throws on the main thread, after system 1 was executed by a worker, and a
call that returns. -/
example : ∃ s, UReach oneByOne 3 s ∧ .threw 1 ∈ s.log ∧ .returned 2 ∈ s.log ∧ s.log.count (.start 1 1) = 1 ∧ s.log.count (.finish 1 2) = 0 ∧ s.log.count (.finish 2 3) = 1 := by
  have h : UOut.is (UState.init.exec oneByOne 3 ([.construct 0, .main, .main, .main, .main] ++ [.run 0, .main, .take 2, .finish 2, .main, .main, .main, .throw] ++
        [.run 0] ++ List.replicate 14 .main))
      (fun s => decide (.threw 1 ∈ s.log ∧ .returned 2 ∈ s.log ∧ s.log.count (.start 1 1) = 1 ∧ s.log.count (.finish 1 2) = 0 ∧ s.log.count (.finish 2 3) = 1)) = true := by
    decide +kernel
  obtain ⟨s, hr, hp⟩ := exec_is h
  exact ⟨s, hr, of_decide_eq_true hp⟩

end CoEcs.Props
