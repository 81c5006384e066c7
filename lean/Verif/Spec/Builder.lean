import Verif.Model.Builder

/-!
# Specification: schedules that own their parts

A stage belongs to a schedule and goes with it when the schedule is moved.  A reference to a stage is good as long as its
schedule exists, and `end_stage` gives the schedule the stage belongs to.  Systems are copied into the stage.
-/

namespace CoEcs.Spec

/-- A system in a stage, and the caller's object it was copied from. -/
structure SSys where
  id : Nat
  src : Option Nat
  deriving DecidableEq, Repr

def SSys.of (id : Nat) : SysForm → SSys
  | .constLvalue o => ⟨id, some o⟩
  | _ => ⟨id, none⟩

structure SStage where
  systems : List SSys
  main : List SSys
  deriving DecidableEq, Repr

structure SSched where
  init : SStage
  stages : List SStage
  deriving DecidableEq, Repr

/-- A reference to a stage: the schedule it is in, its position, and the schedule it was begun in. -/
structure SRef where
  sched : Nat
  pos : Nat
  home : Nat
  deriving DecidableEq, Repr

structure SState where
  scheds : List (Option SSched)
  refs : List SRef
  objs : List Bool
  execs : List (List (List SSys))
  deriving DecidableEq, Repr

def SStage.invoked (st : SStage) : List SSys := if st.systems.isEmpty then [] else st.systems ++ st.main

def ids (cs : List (List SSys)) : List (List Nat) := cs.map (·.map SSys.id)

namespace SState

def sched (m : SState) (s : Nat) : Option SSched := m.scheds[s]?.join

def stage (m : SState) (r : Nat) : Option (SRef × SSched × SStage) :=
  m.refs[r]?.bind fun y => (m.sched y.sched).bind fun x => x.stages[y.pos]?.map fun st => (y, x, st)

def formOk (m : SState) : SysForm → Bool
  | .constLvalue o => m.objs[o]? == some true
  | _ => true

/-- `none`: the caller uses something that does not exist. -/
def step (m : SState) : BOp → Option (SState × BAns)
  | .create => some ({ m with scheds := m.scheds ++ [some ⟨⟨[], []⟩, []⟩] }, .done)
  | .begin_ s => (m.sched s).map fun x =>
    ({ m with scheds := m.scheds.set s (some { x with stages := x.stages ++ [⟨[], []⟩] })
              refs := m.refs ++ [⟨s, x.stages.length, s⟩] }, .done)
  | .add r main id form => (m.stage r).bind fun y =>
    if m.formOk form then
      let st := y.2.2
      let st' := if main then { st with main := st.main ++ [.of id form] } else { st with systems := st.systems ++ [.of id form] }
      some ({ m with scheds := m.scheds.set y.1.sched (some { y.2.1 with stages := y.2.1.stages.set y.1.pos st' }) }, .done)
    else none
  | .addInit s id form => (m.sched s).bind fun x =>
    if m.formOk form then
      some ({ m with scheds := m.scheds.set s (some { x with init := { x.init with systems := x.init.systems ++ [.of id form] } }) }, .done)
    else none
  | .end_ r => (m.stage r).map fun y => (m, .sched y.1.sched)
  | .move s => (m.sched s).map fun x =>
    ({ m with scheds := m.scheds.set s (some ⟨⟨[], []⟩, []⟩) ++ [some x]
              refs := m.refs.map fun y => if y.sched = s then { y with sched := m.scheds.length } else y }, .done)
  | .destroy s => (m.sched s).map fun _ => ({ m with scheds := m.scheds.set s none }, .done)
  | .exec s => (m.sched s).map fun x =>
    ({ m with scheds := m.scheds.set s (some ⟨{ x.init with systems := [] }, x.stages.map fun st => { st with systems := [] }⟩)
              execs := m.execs ++ [x.stages.map SStage.invoked] }, .ran (ids [x.init.invoked]))
  | .run e => m.execs[e]?.map fun cs => (m, .ran (ids cs))
  | .obj => some ({ m with objs := m.objs ++ [true] }, .done)
  | .drop o => if m.objs[o]? = some true then some ({ m with objs := m.objs.set o false }, .done) else none

def runAll (m : SState) : List BOp → Option (SState × List BAns)
  | [] => some (m, [])
  | op :: ops => (m.step op).bind fun r => (r.1.runAll ops).map fun r' => (r'.1, r.2 :: r'.2)

def start : SState := ⟨[], [], [], []⟩

/-! ## Careful callers -/

/-- Reference `r` is to the stage of its schedule that was begun last. -/
def Newest (m : SState) (r : Nat) : Prop :=
  ∀ y x st, m.stage r = some (y, x, st) → y.pos + 1 = x.stages.length

/-- The stage is in the schedule in which it was begun. -/
def AtHome (m : SState) (r : Nat) : Prop := ∀ y, m.refs[r]? = some y → y.sched = y.home

/-- The objects the systems were copied from still exist. -/
def SourcesLive (m : SState) (cs : List (List SSys)) : Prop :=
  ∀ c ∈ cs, ∀ s ∈ c, ∀ o, s.src = some o → m.objs[o]? = some true

/-- What a careful caller observes: only the reference to the newest stage is used, `end_stage` only if the schedule was
not moved since, and objects passed as constants are kept. -/
def Careful (m : SState) : BOp → Prop
  | .add r _ _ _ => m.Newest r
  | .end_ r => m.Newest r ∧ m.AtHome r
  | .exec s => ∀ x, m.sched s = some x → m.SourcesLive [x.init.invoked]
  | .run e => ∀ cs, m.execs[e]? = some cs → m.SourcesLive cs
  | _ => True

def CarefulAll (m : SState) : List BOp → Prop
  | [] => True
  | op :: ops => m.Careful op ∧ ∀ r, m.step op = some r → CarefulAll r.1 ops

end SState
end CoEcs.Spec
