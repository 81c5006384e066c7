import Verif.Model.HashTable

/-!
# Lifetimes while a schedule is built and used
(/repo/include/co_ecs/system/stage.hpp, schedule.hpp, system.hpp)

What is invoked in which order is in `Model/Schedule`; here it matters which objects the pieces refer to, and whether these
still exist.  Schedules have addresses, numbered in the order of construction.  The stages of a schedule are the elements of
a `std::vector`; a vector that is full allocates a new buffer, moves the elements there and frees the old one.  How much it
allocates is up to the implementation: `grow n` elements when `n` are there.  Access patterns, batches and the registry are left
out.  Systems have numbers that tell them apart.
-/

namespace CoEcs

/-- How a system is passed to `add_system`. -/
inductive SysForm where
  /-- a temporary callable, or a `unique_ptr` to a system: the object is moved into the stage -/
  | rvalue
  /-- a function: it exists as long as the program -/
  | function
  /-- a constant object of the caller -/
  | constLvalue (obj : Nat)
  deriving DecidableEq, Repr

/-- What `system::_func` (system.hpp:181-182) and `system_executor::_func` (155) are. -/
inductive Callable where
  | own (id : Nat)
  /-- a reference to an object of the caller -/
  | ref (id obj : Nat)
  deriving DecidableEq, Repr

def Callable.id : Callable → Nat
  | .own id => id
  | .ref id _ => id

/-- `into_system_interface`, stage.hpp:111-124: an lvalue of type `const L` makes `F` the type `const L&`, so that the
member `F _func` of `system<F>` and of `system_executor<F>` is a reference (system.hpp:115-118, 155, 169-170, 178). -/
def Callable.store (id : Nat) : SysForm → Callable
  | .rvalue => .own id
  | .function => .own id
  | .constLvalue obj => .ref id obj

/-- Whether the callable can be invoked. -/
def Callable.live (objs : List Bool) : Callable → Bool
  | .own _ => true
  | .ref _ obj => objs[obj]? == some true

/-- `stage`, stage.hpp:125-128. -/
structure BStage where
  /-- `_schedule`: the address -/
  sched : Nat
  systems : List Callable
  main : List Callable
  deriving DecidableEq, Repr

/-- `schedule`, schedule.hpp:60-61.  The buffer of an empty vector without capacity is `none`. -/
structure BSched where
  init : BStage
  stages : List BStage
  cap : Nat
  buf : Option Nat
  deriving DecidableEq, Repr

/-- The systems an executor of the stage invokes: main-thread systems run beside a batch (C36). -/
def invoked (st : BStage) : List Callable := if st.systems.isEmpty then [] else st.systems ++ st.main

/-- The program. -/
structure BState where
  /-- by address; `none`: destroyed -/
  scheds : List (Option BSched)
  nextBuf : Nat
  /-- references to stages the caller has got: buffer and position -/
  refs : List (Nat × Nat)
  /-- callable objects of the caller: whether they exist -/
  objs : List Bool
  /-- executors: per stage what they invoke -/
  execs : List (List (List Callable))
  deriving DecidableEq, Repr

inductive BOp where
  /-- `schedule s;` -/
  | create
  /-- `s.begin_stage()` -/
  | begin_ (s : Nat)
  /-- `add_system` on the stage reference got as number `r`, with `main_thread_execution_policy` or not -/
  | add (r : Nat) (main : Bool) (id : Nat) (form : SysForm)
  /-- `s.add_init_system` -/
  | addInit (s : Nat) (id : Nat) (form : SysForm)
  /-- `end_stage` on stage reference `r` -/
  | end_ (r : Nat)
  /-- `schedule t(std::move(s));` -/
  | move (s : Nat)
  | destroy (s : Nat)
  /-- `s.create_executor(registry)` -/
  | exec (s : Nat)
  /-- `run_once` on executor `e` -/
  | run (e : Nat)
  /-- the caller makes / destroys a callable object -/
  | obj
  | drop (o : Nat)
  deriving DecidableEq, Repr

inductive BAns where
  | done
  /-- a reference to the schedule at this address -/
  | sched (s : Nat)
  /-- the systems invoked, stage by stage -/
  | ran (ids : List (List Nat))
  deriving DecidableEq, Repr

namespace BState

/-- The schedule at an address. -/
def sched (m : BState) (s : Nat) : Run BSched :=
  match m.scheds[s]? with
  | some (some x) => .ok x
  | _ => .ub

/-- The schedule that has the buffer. -/
def owner (b : Nat) : List (Option BSched) → Option Nat
  | [] => none
  | x :: xs =>
    match x with
    | some y => if y.buf = some b then some 0 else (owner b xs).map (· + 1)
    | none => (owner b xs).map (· + 1)

/-- Use of a stage reference: undefined when the buffer is freed or has no such element. -/
def stage (m : BState) (r : Nat) : Run (Nat × Nat × BSched × BStage) :=
  match m.refs[r]? with
  | none => .ub
  | some (b, i) =>
    match owner b m.scheds with
    | none => .ub
    | some s => (m.sched s).bind fun x =>
      match x.stages[i]? with
      | none => .ub
      | some st => .ok (s, i, x, st)

/-- `invoke` all: undefined if an object is gone. -/
def invoke (m : BState) (cs : List (List Callable)) : Run (List (List Nat)) :=
  if cs.all (·.all (Callable.live m.objs)) then .ok (cs.map (·.map Callable.id)) else .ub

/-- A reference to an object of the caller can be made while the object exists. -/
def formOk (m : BState) : SysForm → Bool
  | .constLvalue o => m.objs[o]? == some true
  | _ => true

/-- One call. -/
def step (grow : Nat → Nat) (m : BState) : BOp → Run (BState × BAns)
  -- schedule.hpp:60-61, stage.hpp:39-40
  | .create => .ok ({ m with scheds := m.scheds ++ [some ⟨⟨m.scheds.length, [], []⟩, [], 0, none⟩] }, .done)
  -- schedule.hpp:38-40: `_stages.emplace_back(*this, name)` and the reference to the new element
  | .begin_ s => (m.sched s).bind fun x =>
    if x.stages.length < x.cap then
      match x.buf with
      | none => .ub
      | some b =>
        .ok ({ m with scheds := m.scheds.set s (some { x with stages := x.stages ++ [⟨s, [], []⟩] })
                      refs := m.refs ++ [(b, x.stages.length)] }, .done)
    else
      .ok ({ m with scheds := m.scheds.set s (some { x with stages := x.stages ++ [⟨s, [], []⟩]
                                                            cap := grow x.stages.length
                                                            buf := some m.nextBuf })
                    nextBuf := m.nextBuf + 1
                    refs := m.refs ++ [(m.nextBuf, x.stages.length)] }, .done)
  -- stage.hpp:53-65
  | .add r main id form => (m.stage r).bind fun y =>
    if m.formOk form then
      let st := y.2.2.2
      let st' := if main then { st with main := st.main ++ [.store id form] }
                 else { st with systems := st.systems ++ [.store id form] }
      .ok ({ m with scheds := m.scheds.set y.1 (some { y.2.2.1 with stages := y.2.2.1.stages.set y.2.1 st' }) }, .done)
    else .ub
  -- schedule.hpp:26-29
  | .addInit s id form => (m.sched s).bind fun x =>
    if m.formOk form then
      .ok ({ m with scheds := m.scheds.set s (some { x with init := { x.init with systems := x.init.systems ++ [.store id form] } }) }, .done)
    else .ub
  -- stage.hpp:45-47
  | .end_ r => (m.stage r).bind fun y => .ok (m, .sched y.2.2.2.sched)
  -- the implicit move constructors of `schedule` and `stage`: vectors hand over their buffers, references are copied
  | .move s => (m.sched s).bind fun x =>
    .ok ({ m with scheds := m.scheds.set s (some ⟨⟨x.init.sched, [], []⟩, [], 0, none⟩) ++ [some x] }, .done)
  | .destroy s => (m.sched s).bind fun _ => .ok ({ m with scheds := m.scheds.set s none }, .done)
  -- schedule.hpp:49-57 and 76-85, stage.hpp:74-103: the parallel systems move into the executor (C37), which runs
  -- the initial stage
  | .exec s => (m.sched s).bind fun x =>
    (m.invoke [invoked x.init]).bind fun ids =>
      .ok ({ m with scheds := m.scheds.set s (some { x with init := { x.init with systems := [] }
                                                            stages := x.stages.map fun st => { st with systems := [] } })
                    execs := m.execs ++ [x.stages.map invoked] }, .ran ids)
  -- schedule.hpp:90-97
  | .run e =>
    match m.execs[e]? with
    | none => .ub
    | some cs => (m.invoke cs).bind fun ids => .ok (m, .ran ids)
  | .obj => .ok ({ m with objs := m.objs ++ [true] }, .done)
  | .drop o => if m.objs[o]? = some true then .ok ({ m with objs := m.objs.set o false }, .done) else .ub

/-- Calls from left to right. -/
def runAll (grow : Nat → Nat) (m : BState) : List BOp → Run (BState × List BAns)
  | [] => .ok (m, [])
  | op :: ops => (m.step grow op).bind fun r => (r.1.runAll grow ops).bind fun r' => .ok (r'.1, r.2 :: r'.2)

def start : BState := ⟨[], 0, [], [], []⟩

end BState
end CoEcs
