import Verif.Proofs.WeakTasks
import Verif.Props.WeakUse

/-!
# C90: tasks used by one thread at a time
-/

namespace CoEcs.Props
open CoEcs.Weak

/-- **C90**: any number of threads take turns, create tasks (with parents that are not completed), end them and ask whether they are completed; fewer
calls than a task counts.  There is no data race; and when all had their turn, each answer tells whether the task and everything under it
had returned. -/
theorem C90_tasks {css : List (List TCall)} {ts : List TaskSpec} {ass : List (List (Int × Int))} {f : Nat} {strong : Bool} {s : St Loc (Prog Loc Unit)}
    (hc : TCall.refsAll [] css = some (ts, ass)) (hn : css.flatten.length < 65535)
    (h : Reach (Prog.auto Loc) strong (taskStart .acq .rel f css) s) :
    (∀ t c, s.step (Prog.auto Loc) strong t c ≠ .race) ∧
    (lastOf s.mem turn = some (css.length : Int) → ∀ (t k : Nat) as a, ass[t]? = some as → as[k]? = some a → noted s.mem t k = a) := by
  have hp : ∀ p ∈ taskProgs css, p.Avoids turn := by
    intro p hp
    obtain ⟨i, hi, rfl⟩ := List.mem_mapIdx.1 hp
    rw [tasking_eq]
    exact callsProg_avoids taskCall_avoids _ _ _ _
  have h1 := C86_turns hp (init := fun _ => 0) rfl h
  refine ⟨h1.1, fun hN => ?_⟩
  have hv := h1.2 (by
    simp only [taskProgs, List.length_mapIdx]
    simp only [lastOf] at hN
    cases hx : (s.mem.msgs turn).getLast? with
    | none => rw [hx] at hN; cases hN
    | some x =>
      rw [hx] at hN
      simp only [Mem.vals, hx]
      simpa using hN)
  obtain ⟨-, hn, -⟩ := taskCalls.callsAll css 0 (by omega) TRep.start (by rw [← refsAll_eq]; exact hc)
  have he : (taskProgs css).mapIdx (fun t p => handing .rel turn t p) = callsProgsFrom TCall.prog 0 0 css := by
    rw [callsProgsFrom_eq]
    simp [taskProgs, List.mapIdx_mapIdx, Function.comp_def, tasking_eq]
  rw [he] at hv
  rw [← hv] at hn
  intro t k as a ht ha
  have := hn t as ht k a ha
  simp only [Nat.zero_add] at this
  exact Prod.ext this.1 this.2

/-- A task, a child and a grandchild; the second thread ends them from the bottom up, the third from the top down. -/
def familyCalls : List (List TCall) :=
  [[.make 0 none, .make 1 (some 0), .make 2 (some 1), .make 3 none, .make 4 (some 3), .completed 0],
   [.finish 2, .completed 2, .completed 0, .finish 1, .completed 1, .completed 0, .finish 0, .completed 0],
   [.finish 3, .completed 3, .finish 4, .completed 3]]

example : (TCall.refsAll [] familyCalls).map (·.2) = some
    [[(0, 0), (0, 0), (0, 0), (0, 0), (0, 0), (0, 0)],
     [(0, 0), (1, 0), (0, 0), (0, 0), (1, 0), (0, 0), (0, 0), (1, 0)],
     [(0, 0), (0, 0), (0, 0), (1, 0)]] := by decide

/-- All steps of the threads, one after the other. -/
def familySched : List (Nat × Nat) :=
  [(0, 0), (0, 0), (0, 0), (0, 0), (0, 0), (0, 0), (0, 0), (0, 0), (0, 0), (0, 1), (0, 0), (0, 0), (0, 0), (0, 0), (0, 0), (0, 1), (0, 0),
   (0, 0), (0, 0), (0, 0), (0, 0), (0, 0), (0, 0), (0, 0), (0, 0), (0, 0), (0, 1), (0, 0), (0, 0), (0, 2), (0, 0), (0, 0), (0, 0), (1, 1),
   (1, 1), (1, 2), (1, 0), (1, 2), (1, 3), (1, 0), (1, 0), (1, 2), (1, 0), (1, 0), (1, 2), (1, 0), (1, 0), (1, 3), (1, 4), (1, 0), (1, 2),
   (1, 3), (1, 0), (1, 0), (1, 4), (1, 0), (1, 0), (1, 3), (1, 0), (1, 0), (1, 3), (1, 4), (1, 0), (1, 0), (1, 0), (1, 4), (1, 0), (1, 0),
   (1, 0), (2, 2), (2, 2), (2, 3), (2, 0), (2, 0), (2, 3), (2, 0), (2, 0), (2, 1), (2, 2), (2, 0), (2, 3), (2, 4), (2, 0), (2, 0), (2, 0),
   (2, 4), (2, 0), (2, 0), (2, 0)]

example (strong : Bool) : ∃ s, Reach (Prog.auto Loc) strong (taskStart .acq .rel 1 familyCalls) s ∧ lastOf s.mem turn = some 3 ∧
    noted s.mem 1 4 = (1, 0) ∧ noted s.mem 1 5 = (0, 0) ∧ noted s.mem 2 3 = (1, 0) := by
  have h : (match (taskStart .acq .rel 1 familyCalls).run (Prog.auto Loc) strong familySched with
      | .ok s => decide (lastOf s.mem turn = some 3) && (decide (noted s.mem 1 4 = (1, 0)) && decide (noted s.mem 1 5 = (0, 0)) &&
          decide (noted s.mem 2 3 = (1, 0)))
      | _ => false) = true := by cases strong <;> decide +kernel
  split at h
  · rename_i s hs
    simp only [Bool.and_eq_true, decide_eq_true_eq] at h
    exact ⟨s, Reach.run .init hs, h.1, h.2.1.1, h.2.1.2, h.2.2⟩
  · cases h

/-- Turns have to be handed over with release and taken with acquire: otherwise the same threads race, as `task_t` itself does not synchronise. -/
theorem C90_tasks_need_both (strong : Bool) :
    (∃ sched, (taskStart .rlx .rel 1 familyCalls).run (Prog.auto Loc) strong sched = .race) ∧
    ∃ sched, (taskStart .acq .rlx 1 familyCalls).run (Prog.auto Loc) strong sched = .race := by
  constructor <;> (refine ⟨familySched.take 37, isRace_iff.1 ?_⟩; cases strong <;> decide +kernel)

end CoEcs.Props
