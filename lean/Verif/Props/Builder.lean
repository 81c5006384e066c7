import Verif.Proofs.Builder

/-!
# Building and using schedules (C85)
-/

namespace CoEcs.Props
open CoEcs Spec

/-! ## Stages begun after a reference was taken -/

/-- One schedule with `n + 1` stages in its first buffer. -/
private def oneBuffer (c n : Nat) : BState :=
  ⟨[some ⟨⟨0, [], []⟩, List.replicate (n + 1) ⟨0, [], []⟩, c, some 0⟩], 1, (List.range (n + 1)).map fun i => (0, i), [], []⟩

private theorem begins (grow : Nat → Nat) : ∀ (k n c : Nat), n + 1 + k ≤ max c 1 →
    (oneBuffer c n).runAll grow (List.replicate k (.begin_ 0)) = .ok (oneBuffer c (n + k), List.replicate k .done)
  | 0, n, c, _ => rfl
  | k + 1, n, c, h => by
    have hc : n + 1 < c := by omega
    have h1 : (oneBuffer c n).step grow (.begin_ 0) = .ok (oneBuffer c (n + 1), .done) := by
      simp [BState.step, oneBuffer, BState.sched, Run.bind, hc, List.range_succ, ← List.replicate_succ']
    rw [List.replicate_succ, BState.runAll, h1]
    simp only [Run.bind]
    rw [begins grow k (n + 1) c (by omega)]
    simp [List.replicate_succ, Nat.add_comm, Nat.add_left_comm]

/-- A stage is begun, then more than fit into the first buffer, then the first one gets a system. -/
def staleStage (c : Nat) : List BOp := .create :: .begin_ 0 :: (List.replicate (max c 1) (.begin_ 0) ++ [.add 0 false 7 .rvalue])

private theorem runAll_append (grow : Nat → Nat) (ops ops' : List BOp) : ∀ (m : BState),
    m.runAll grow (ops ++ ops') = (m.runAll grow ops).bind fun r => (r.1.runAll grow ops').bind fun r' => .ok (r'.1, r.2 ++ r'.2) := by
  induction ops with
  | nil =>
    intro m
    simp only [List.nil_append, BState.runAll, Run.bind]
    cases m.runAll grow ops' <;> rfl
  | cons op ops ih =>
    intro m
    simp only [List.cons_append, BState.runAll]
    cases m.step grow op with
    | ok r =>
      simp only [Run.bind, ih]
      cases r.1.runAll grow ops with
      | ok r1 =>
        simp only [Run.bind]
        cases r1.1.runAll grow ops' <;> rfl
      | ub => rfl
      | stuck => rfl
    | ub => rfl
    | stuck => rfl

private theorem spec_begins : ∀ (k n : Nat) (rs : List SRef), ∃ rs',
    (⟨[some ⟨⟨[], []⟩, List.replicate n ⟨[], []⟩⟩], rs, [], []⟩ : SState).runAll (List.replicate k (.begin_ 0)) =
      some (⟨[some ⟨⟨[], []⟩, List.replicate (n + k) ⟨[], []⟩⟩], rs ++ rs', [], []⟩, List.replicate k .done)
  | 0, n, rs => ⟨[], by simp [SState.runAll]⟩
  | k + 1, n, rs => by
    obtain ⟨rs', h⟩ := spec_begins k (n + 1) (rs ++ [⟨0, n, 0⟩])
    refine ⟨⟨0, n, 0⟩ :: rs', ?_⟩
    have h1 : (⟨[some ⟨⟨[], []⟩, List.replicate n ⟨[], []⟩⟩], rs, [], []⟩ : SState).step (.begin_ 0) =
        some (⟨[some ⟨⟨[], []⟩, List.replicate (n + 1) ⟨[], []⟩⟩], rs ++ [⟨0, n, 0⟩], [], []⟩, .done) := by
      simp [SState.step, SState.sched, ← List.replicate_succ']
    rw [List.replicate_succ, SState.runAll, h1]
    simp only [Option.bind_some]
    rw [h]
    simp [List.replicate_succ, Nat.add_comm, Nat.add_left_comm]

private theorem spec_append (ops ops' : List BOp) : ∀ (m : SState),
    m.runAll (ops ++ ops') = (m.runAll ops).bind fun r => (r.1.runAll ops').map fun r' => (r'.1, r.2 ++ r'.2) := by
  induction ops with
  | nil =>
    intro m
    simp only [List.nil_append, SState.runAll, Option.bind_some]
    cases m.runAll ops' <;> simp
  | cons op ops ih =>
    intro m
    simp only [List.cons_append, SState.runAll]
    cases m.step op with
    | none => rfl
    | some r =>
      simp only [Option.bind_some, ih]
      cases r.1.runAll ops with
      | none => rfl
      | some r1 =>
        simp only [Option.bind_some, Option.map_some]
        cases r1.1.runAll ops' <;> simp

/-- **C85 is violated**, whatever the growth policy of `std::vector`: a stage reference is dangling after some number of
further calls of `begin_stage` on the same schedule, which exists all the time. -/
theorem C85_stage_reference_violated (grow : Nat → Nat) :
    (∃ S as, SState.start.runAll (staleStage (grow 0)) = some (S, as)) ∧
    BState.start.runAll grow (staleStage (grow 0)) = .ub := by
  constructor
  · obtain ⟨rs', h⟩ := spec_begins (max (grow 0) 1) 1 [⟨0, 0, 0⟩]
    have h1 : SState.start.runAll (staleStage (grow 0)) =
        ((⟨[some ⟨⟨[], []⟩, List.replicate 1 ⟨[], []⟩⟩], [⟨0, 0, 0⟩], [], []⟩ : SState).runAll
          (List.replicate (max (grow 0) 1) (.begin_ 0) ++ [.add 0 false 7 .rvalue])).map fun r => (r.1, .done :: .done :: r.2) := by
      simp only [staleStage, SState.runAll, SState.start, SState.step, SState.sched, List.nil_append, Option.bind_some]
      simp
      rfl
    rw [h1, spec_append, h]
    have h2 : (⟨[some ⟨⟨[], []⟩, List.replicate (1 + max (grow 0) 1) ⟨[], []⟩⟩], [⟨0, 0, 0⟩] ++ rs', [], []⟩ : SState).runAll
        [.add 0 false 7 .rvalue] ≠ none := by
      simp [SState.runAll, SState.step, SState.stage, SState.sched, SState.formOk, List.getElem?_replicate,
        show 0 < 1 + max (grow 0) 1 by omega]
    simp only [Option.bind_some]
    cases h3 : (⟨[some ⟨⟨[], []⟩, List.replicate (1 + max (grow 0) 1) ⟨[], []⟩⟩], [⟨0, 0, 0⟩] ++ rs', [], []⟩ : SState).runAll
        [.add 0 false 7 .rvalue] with
    | none => exact absurd h3 h2
    | some r => exact ⟨_, _, rfl⟩
  · have h1 : BState.start.runAll grow (staleStage (grow 0)) =
        ((oneBuffer (grow 0) 0).runAll grow (List.replicate (max (grow 0) 1) (.begin_ 0) ++ [.add 0 false 7 .rvalue])).bind
          fun r => .ok (r.1, .done :: .done :: r.2) := by
      simp only [staleStage, BState.runAll, BState.start, BState.step, BState.sched, List.nil_append, Run.bind]
      simp [oneBuffer]
      cases (BState.runAll grow _ _) <;> rfl
    have h2 : max (grow 0) 1 = (max (grow 0) 1 - 1) + 1 := by omega
    rw [h1, h2, List.replicate_succ', List.append_assoc, runAll_append,
      begins grow _ 0 (grow 0) (by omega)]
    have h3 : ¬ (max (grow 0) 1 - 1 + 1 < grow 0) := by omega
    simp [Run.bind, BState.runAll, BState.step, oneBuffer, BState.sched, BState.stage, h3]
    simp [List.range_succ_eq_map, BState.owner]

/-! ## Schedules that are moved -/

/-- The stage is begun in the schedule at address 0; its content moves to address 1, address 0 is destroyed. -/
def movedStage : List BOp := [.create, .begin_ 0, .move 0, .destroy 0, .add 0 false 7 .rvalue, .end_ 0]

/-- **C85 is violated**: after a move the stages refer to the old schedule, here one that does not exist. -/
theorem C85_moved_violated (grow : Nat → Nat) : ∃ m S,
    BState.start.runAll grow movedStage = .ok (m, [.done, .done, .done, .done, .done, .sched 0]) ∧
    SState.start.runAll movedStage = some (S, [.done, .done, .done, .done, .done, .sched 1]) ∧
    m.sched 0 = .ub ∧ ∃ x, m.sched 1 = .ok x ∧ x.stages = [⟨0, [.own 7], []⟩] := by
  refine ⟨⟨[none, some ⟨⟨0, [], []⟩, [⟨0, [.own 7], []⟩], grow 0, some 0⟩], 1, [(0, 0)], [], []⟩, _, ?_, rfl, rfl, _, rfl, rfl⟩
  simp [movedStage, BState.runAll, BState.step, BState.start, BState.sched, Run.bind, BState.stage, BState.owner, BState.formOk,
    Callable.store]

/-! ## Systems passed as constants -/

/-- A constant object of the caller is added and dropped after the executor was made. -/
def droppedSystem : List BOp := [.obj, .create, .begin_ 0, .add 0 false 7 (.constLvalue 0), .exec 0, .drop 0, .run 0]

/-- **C85 is violated**: the executor refers to the caller's object. -/
theorem C85_constant_system_violated (grow : Nat → Nat) :
    BState.start.runAll grow droppedSystem = .ub ∧
    ∃ S, SState.start.runAll droppedSystem = some (S, [.done, .done, .done, .done, .ran [[]], .done, .ran [[7]]]) := by
  refine ⟨?_, _, rfl⟩
  simp [droppedSystem, BState.runAll, BState.step, BState.start, BState.sched, Run.bind, BState.stage, BState.owner, BState.formOk,
    Callable.store, BState.invoke, invoked, Callable.live]

/-! ## Careful callers -/

/-- **C85** (partial; missing: the three violations above).  For callers who use only the reference to the newest stage of a
schedule, call `end_stage` only if the schedule was not moved, and keep the objects they pass as constants, nothing dangling
is ever used and every answer is that of schedules that own their parts, whatever the growth policy: in particular
schedules may be moved and destroyed, and executors outlive them. -/
theorem C85_careful_partial (grow : Nat → Nat) (ops : List BOp) (hc : SState.start.CarefulAll ops) {S : SState} {as : List BAns}
    (h : SState.start.runAll ops = some (S, as)) : ∃ m, BState.start.runAll grow ops = .ok (m, as) := by
  obtain ⟨m, h1, -⟩ := BRel.start.runAll grow ops hc h
  exact ⟨m, h1⟩

/-- Two stages, systems of every form, an initial system; the schedule is moved, gets another stage and is destroyed; the
executor runs twice. -/
def carefulBuild : List BOp :=
  [.obj, .create, .addInit 0 1 .rvalue, .begin_ 0, .add 0 false 2 .function, .end_ 0, .begin_ 0, .add 1 false 3 (.constLvalue 0),
   .add 1 true 4 .rvalue, .move 0, .add 1 false 5 .rvalue, .begin_ 1, .add 2 false 6 .rvalue, .end_ 2, .exec 1, .destroy 1,
   .run 0, .run 0, .drop 0]

private theorem careful_sound : SState.start.CarefulAll carefulBuild := by
  simp [carefulBuild, SState.CarefulAll, SState.Careful, SState.step, SState.start, SState.sched, SState.stage, SState.Newest,
    SState.AtHome, SState.formOk, SState.SourcesLive, SSys.of, SStage.invoked]
  rintro a ((rfl | rfl) | rfl)
  · simp
  · simp
    rintro s ((rfl | rfl) | rfl) <;> simp
  · simp

example (grow : Nat → Nat) : ∃ m, BState.start.runAll grow carefulBuild =
    .ok (m, [.done, .done, .done, .done, .done, .sched 0, .done, .done, .done, .done, .done, .done, .done, .sched 1, .ran [[1]], .done,
      .ran [[2], [3, 5, 4], [6]], .ran [[2], [3, 5, 4], [6]], .done]) :=
  C85_careful_partial grow carefulBuild careful_sound rfl

end CoEcs.Props
