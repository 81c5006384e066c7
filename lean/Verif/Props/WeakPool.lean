import Verif.Model.WeakPool

/-!
# C81, C82: tasks and queues with the memory orders the code asks for
-/

namespace CoEcs.Props
open CoEcs.Weak

/-- The threads: the main thread with its program, and two workers that look once for a task and run it. -/
def poolWith (body : Int → P Unit) (main : P Unit) : St Loc (Prog Loc Unit) :=
  .init (initial 2) fun t => if t = 0 then main else if t ≤ 2 then workOnce body t [0] else pure ()

/-- Run a schedule. -/
def poolRun (strong : Bool) (body : Int → P Unit) (main : P Unit) (sched : List (Nat × Nat)) : Out Loc (Prog Loc Unit) :=
  (poolWith body main).run (Prog.auto Loc) strong sched

/-- Whether the outcome is a data race. -/
def isRace {L S : Type} : Out L S → Bool
  | .race => true
  | _ => false

theorem isRace_iff {L S : Type} {o : Out L S} : isRace o = true ↔ o = .race := by cases o <;> simp [isRace]

/-! ### C81 -/

/-- Function 1 writes a variable, function 2 reads it, function 3 stores to it atomically. -/
def userBody : Int → P Unit := fun f =>
  if f = 1 then do let _ ← write (.user 0) 7; pure ()
  else if f = 2 then do let _ ← read (.user 0); pure ()
  else do let _ ← store .rlx (.user 0) 7; pure ()

/-- Submit a task that writes a variable, wait for it, read the variable. -/
def submitWaitRead : P Unit := do
  submit 0 100 50 1 0
  let returned ← wait userBody 0 [] 50 3
  if returned then do let _ ← read (.user 0); pure () else pure ()

/-- Main submits; worker 1 steals and runs the task; main sees that it is completed and reads. -/
def schedRead : List (Nat × Nat) :=
  [(0, 0), (0, 0), (0, 0), (0, 0), (0, 0), (0, 0), (0, 0), (0, 0), (0, 0), (0, 0), (0, 0), (0, 0), (0, 0), (1, 0), (1, 0), (1, 0), (1, 0),
   (1, 0), (1, 0), (1, 0), (1, 0), (1, 1), (1, 0), (1, 0), (1, 0), (1, 1), (1, 0), (1, 0), (1, 0), (1, 1), (1, 2), (1, 0), (0, 2), (0, 0)]

/-- **C81** violated: a thread that has waited for a task and then reads what the task wrote has a data race, undefined
behaviour.  Completion is signalled by `fetch_sub(1, relaxed)` and noticed by `load(relaxed)`, which order nothing. -/
theorem C81_race_violated (strong : Bool) : ∃ sched, poolRun strong userBody submitWaitRead sched = .race := by
  refine ⟨schedRead, isRace_iff.1 ?_⟩
  cases strong <;> decide +kernel

/-- The same with an atomic variable; what was read, plus one, is noted. -/
def submitWaitLoad : P Unit := do
  submit 0 100 50 3 0
  let returned ← wait userBody 0 [] 50 3
  if returned then do
    let v ← load .rlx (.user 0)
    let _ ← write (.user 1) (v + 1)
    pure ()
  else pure ()

def schedLoad : List (Nat × Nat) :=
  [(0, 0), (0, 0), (0, 0), (0, 0), (0, 0), (0, 0), (0, 0), (0, 0), (0, 0), (0, 0), (0, 0), (0, 0), (0, 0), (1, 0), (1, 0), (1, 0), (1, 0),
   (1, 0), (1, 0), (1, 0), (1, 0), (1, 1), (1, 0), (1, 0), (1, 0), (1, 1), (1, 0), (1, 0), (1, 0), (1, 1), (1, 2), (1, 0), (0, 2), (0, 0),
   (0, 0)]

/-- **C81** violated without a race: if the variable is atomic, the thread that has waited may still read the value from before
the task (0, noted as 1). -/
theorem C81_stale_violated (strong : Bool) : ∃ sched s, poolRun strong userBody submitWaitLoad sched = .ok s ∧
    (Prog.auto Loc).op (s.th 0) = none ∧ s.mem.cell (.user 1) = 1 ∧ (s.mem.msgs (.user 0)).map Msg.val = [0, 7] := by
  have h : (match poolRun strong userBody submitWaitLoad schedLoad with
      | .ok s => ((Prog.auto Loc).op (s.th 0)).isNone && (decide (s.mem.cell (.user 1) = 1) &&
        decide ((s.mem.msgs (.user 0)).map Msg.val = [0, 7]))
      | _ => false) = true := by cases strong <;> decide +kernel
  split at h
  · rename_i s hs
    simp only [Bool.and_eq_true, decide_eq_true_eq, Option.isNone_iff_eq_none] at h
    exact ⟨_, s, hs, h.1, h.2.1, h.2.2⟩
  · cases h

/-- Two stages: submit the task that writes, wait for it, then submit the task that reads, wait for it. -/
def twoStages : P Unit := do
  submit 0 100 50 1 0
  if ← wait userBody 0 [] 50 3 then do
    submit 0 101 51 2 0
    let _ ← wait userBody 0 [] 51 3
    pure ()
  else pure ()

def schedStages : List (Nat × Nat) :=
  [(0, 0), (0, 0), (0, 0), (0, 0), (0, 0), (0, 0), (0, 0), (0, 0), (0, 0), (0, 0), (0, 0), (0, 0), (0, 0), (1, 0), (1, 0), (1, 0), (1, 0),
   (1, 0), (1, 0), (1, 0), (1, 0), (1, 1), (1, 0), (1, 0), (1, 0), (1, 1), (1, 0), (1, 0), (1, 0), (1, 1), (1, 2), (1, 0), (0, 2), (0, 0),
   (0, 0), (0, 0), (0, 1), (0, 1), (0, 0), (0, 0), (0, 0), (0, 0), (0, 0), (0, 0), (0, 0), (0, 1), (2, 0), (2, 0), (2, 0), (2, 0), (2, 0),
   (2, 0), (2, 1), (2, 0), (2, 2), (2, 0), (2, 0), (2, 0), (2, 1), (2, 1), (2, 0), (2, 0)]

/-- **C81** violated for stages: this is how the executor runs two systems that must not run at the same time.  The first
writes, the second reads, on different workers, with a wait in between: a data race. -/
theorem C81_stages_violated (strong : Bool) : ∃ sched, poolRun strong userBody twoStages sched = .race := by
  refine ⟨schedStages, isRace_iff.1 ?_⟩
  cases strong <;> decide +kernel

/-! ### C82 -/

/-- Submit three tasks to a queue of capacity two. -/
def submitThree : P Unit := do
  submit 0 100 50 1 0
  submit 0 101 51 1 0
  submit 0 102 52 1 0

/-- Main submits two tasks and, within the third `push`, publishes the grown array; worker 1 has seen two tasks and reads the pointer to
the new array. -/
def schedGrow : List (Nat × Nat) :=
  [(0, 0), (0, 0), (0, 0), (0, 0), (0, 0), (0, 0), (0, 0), (0, 0), (0, 0), (0, 0), (0, 0), (0, 0), (0, 0), (0, 0), (0, 0), (0, 0), (0, 1),
   (0, 0), (0, 0), (0, 0), (0, 0), (0, 0), (0, 0), (0, 0), (0, 0), (0, 1), (0, 0), (0, 0), (0, 0), (0, 2), (0, 0), (0, 0), (0, 0), (0, 0),
   (0, 0), (0, 0), (0, 0), (0, 0), (0, 0), (0, 1), (0, 0), (0, 0), (0, 0), (0, 0), (0, 0), (0, 1), (0, 0), (0, 0), (0, 0), (0, 0), (1, 0),
   (1, 0), (1, 0), (1, 0), (1, 0), (1, 0), (1, 0), (1, 0), (1, 2), (1, 1), (1, 0)]

/-- **C82** violated: when the queue grows, a thief may get the pointer to the new array, which is stored relaxed, without what was
written to it; reading its fields is a data race.  The tasks do not touch any data of the user here. -/
theorem C82_growth_violated (strong : Bool) : ∃ sched, poolRun strong (fun _ => pure ()) submitThree sched = .race := by
  refine ⟨schedGrow, isRace_iff.1 ?_⟩
  cases strong <;> decide +kernel

end CoEcs.Props
