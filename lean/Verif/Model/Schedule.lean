import Verif.Model.Access

/-!
# Model of stages and schedules
(/repo/include/co_ecs/system/stage.hpp, schedule.hpp)

A system is an identity and an access pattern; its body is not modelled here.  The thread pool is
modelled by what the schedule relies on: a submitted task may start at any time after its submission, runs
once, and `wait(parent)` returns when all tasks of the batch have finished (see `Verif.Model.Task` for
the counters behind `wait`).
-/

namespace CoEcs

/-- A system added to a stage: identity and the access pattern of its executor. -/
structure SysDesc where
  id : Nat
  pattern : Access

/-- `stage`, stage.hpp:125-128. -/
structure Stage where
  systems : List SysDesc
  main : List SysDesc

/-- `stage_executor`, stage.hpp:186-188: batches of parallel systems, and main-thread systems. -/
structure StageExec where
  batches : List (List SysDesc)
  main : List SysDesc

/-- The inner loop of `stage::create_executor`, stage.hpp:81-94: the systems that join the current batch
and those left in `_systems`.  (`throw` cannot come out of `allows` or `&=`.) -/
def Stage.pass : Access → List SysDesc → Run (List SysDesc × List SysDesc)
  | _, [] => .ok ([], [])
  | acc, s :: ss =>
    match acc.allows s.pattern with
    | .ok true =>
      match acc.merge s.pattern with
      | .ok acc' => (Stage.pass acc' ss).bind fun r => .ok (s :: r.1, r.2)
      | _ => .ub
    | .ok false => (Stage.pass acc ss).bind fun r => .ok (r.1, s :: r.2)
    | _ => .ub

/-- The outer loop, stage.hpp:77-95. -/
def Stage.batches : Nat → List SysDesc → Run (List (List SysDesc))
  | _, [] => .ok []
  | 0, _ :: _ => .stuck
  | fuel + 1, s :: ss =>
    (Stage.pass Access.empty (s :: ss)).bind fun r =>
      (Stage.batches fuel r.2).bind fun bs => .ok (r.1 :: bs)

/-- `stage::create_executor`, stage.hpp:74-103.  The parallel systems are moved out of the stage. -/
def Stage.createExecutor (fuel : Nat) (st : Stage) : Run (Stage × StageExec) :=
  (Stage.batches fuel st.systems).bind fun bs => .ok ({ st with systems := [] }, ⟨bs, st.main⟩)

/-- `schedule`, schedule.hpp:60-61. -/
structure Schedule where
  init : Stage
  stages : List Stage

/-- `schedule_executor`, schedule.hpp:99-102 (without the registry). -/
structure ScheduleExec where
  init : StageExec
  stages : List StageExec

/-- The loop of `schedule::create_executor`, schedule.hpp:51-53. -/
def createAll (fuel : Nat) : List Stage → Run (List Stage × List StageExec)
  | [] => .ok ([], [])
  | s :: ss =>
    (s.createExecutor fuel).bind fun r => (createAll fuel ss).bind fun rs => .ok (r.1 :: rs.1, r.2 :: rs.2)

/-- `schedule::create_executor`, schedule.hpp:49-57, without the call of the constructor. -/
def Schedule.createExecutor (fuel : Nat) (s : Schedule) : Run (Schedule × ScheduleExec) :=
  (createAll fuel s.stages).bind fun rs =>
    (s.init.createExecutor fuel).bind fun ri => .ok (⟨ri.1, rs.1⟩, ⟨ri.2, rs.2⟩)

/-! ## Execution -/

/-- What happens, as seen from outside. -/
inductive SchedEvent where
  /-- a parallel system starts / returns -/
  | start (id : Nat)
  | finish (id : Nat)
  /-- a main-thread system starts / returns -/
  | mainStart (id : Nat)
  | mainFinish (id : Nat)
  /-- `command_buffer::flush` -/
  | flush
  deriving DecidableEq, Repr

/-- What the main thread does next. -/
inductive Instr where
  | submit (s : SysDesc)
  | runMain (s : SysDesc)
  | endMain (s : SysDesc)
  | wait
  | flush

/-- `execute_batch`, stage.hpp:164-183: submit every item, run the main-thread systems, wait if something was
submitted. -/
def execBatch (main : List SysDesc) (b : List SysDesc) : List Instr :=
  b.map .submit ++ main.map .runMain ++ (if b.isEmpty then [] else [.wait])

/-- `stage_executor::run`, stage.hpp:152-156. -/
def StageExec.code (e : StageExec) : List Instr := e.batches.flatMap (execBatch e.main)

/-- `schedule_executor::run_once`, schedule.hpp:90-97. -/
def ScheduleExec.runOnce (e : ScheduleExec) : List Instr := e.stages.flatMap StageExec.code ++ [.flush]

/-- The constructor, schedule.hpp:76-85. -/
def ScheduleExec.construct (e : ScheduleExec) : List Instr := e.init.code ++ [.flush]

/-- Constructing an executor and calling `run_once` `n` times. -/
def ScheduleExec.program (e : ScheduleExec) (n : Nat) : List Instr :=
  e.construct ++ (List.replicate n e.runOnce).flatten

/-- Main thread's remaining code, and the submitted unfinished tasks with a flag "started". -/
structure SchedState where
  code : List Instr
  tasks : List (SysDesc × Bool)

/-- One step and the event it shows, if any. -/
inductive SchedStep : SchedState → Option SchedEvent → SchedState → Prop
  | submit (s : SysDesc) (c ts) : SchedStep ⟨.submit s :: c, ts⟩ none ⟨c, ts ++ [(s, false)]⟩
  | mainStart (m : SysDesc) (c ts) : SchedStep ⟨.runMain m :: c, ts⟩ (some (.mainStart m.id)) ⟨.endMain m :: c, ts⟩
  | mainFinish (m : SysDesc) (c ts) : SchedStep ⟨.endMain m :: c, ts⟩ (some (.mainFinish m.id)) ⟨c, ts⟩
  | wait (c) : SchedStep ⟨.wait :: c, []⟩ none ⟨c, []⟩
  | flush (c ts) : SchedStep ⟨.flush :: c, ts⟩ (some .flush) ⟨c, ts⟩
  | start (s : SysDesc) (c l r) : SchedStep ⟨c, l ++ (s, false) :: r⟩ (some (.start s.id)) ⟨c, l ++ (s, true) :: r⟩
  | finish (s : SysDesc) (c l r) : SchedStep ⟨c, l ++ (s, true) :: r⟩ (some (.finish s.id)) ⟨c, l ++ r⟩

/-- Any number of steps with the events they show. -/
inductive SchedSteps : SchedState → List SchedEvent → SchedState → Prop
  | refl (s) : SchedSteps s [] s
  | step {s t u : SchedState} {ev : Option SchedEvent} {tr : List SchedEvent} :
      SchedStep s ev t → SchedSteps t tr u → SchedSteps s (ev.toList ++ tr) u

/-- A complete execution of some code: from no tasks to no code and no tasks left. -/
def SchedTrace (code : List Instr) (tr : List SchedEvent) : Prop :=
  SchedSteps ⟨code, []⟩ tr ⟨[], []⟩

end CoEcs
