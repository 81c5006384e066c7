import Verif.Model.ParallelFor
import Verif.Model.Unwind

/-!
# Parallel iteration with functions that throw
(/repo/include/co_ecs/thread_pool/parallel_for.hpp:13-52, view.hpp:132-148, thread_pool/thread_pool.hpp:66-93, 108-188,
task.hpp:26-49)

A program calls `parallel_for` and `par_each` on the main thread, one call after the other, and catches the exceptions.
The pool has `n` workers, number 0 is the main thread; `bad x` says that the function throws for `x`.  Simplifications:
a call of the function is one step; taking a task from the queue of the main worker is one step (C40); `wait` returns
when all tasks of the call have finished (C42 proves this of the counters for fewer than 65535 tasks); the function
submits no tasks of its own.
-/

namespace CoEcs

/-- A task submitted by `parallel_for` (line 44): the elements its batch has left, and what has become of it. -/
structure FTask (α : Type) where
  rest : List α
  st : UStatus

/-- Where the main thread is. -/
inductive FMain (α : Type) where
  /-- outside of `parallel_for` -/
  | idle
  /-- on the fast path (line 21) -/
  | inline (rest : List α)
  /-- in the loop that submits the batches (lines 43-48) -/
  | submit (bs : List (List α))
  /-- in `wait` (line 49) -/
  | wait
  /-- in `wait`, executing task `j` -/
  | task (j : Nat)

/-- How a call has ended. -/
inductive FEnd where
  | returned
  | threw
  deriving DecidableEq, Repr

/-- A call that is over: its plan, the elements the function was called with, and its end (history). -/
structure FCall (α : Type) where
  plan : ParPlan α
  called : List α
  ended : FEnd

/-- The state: all tasks in the order of submission, the number of tasks at the beginning of the current call, the
queue of the main worker (oldest first), the plan of the current call and the elements its function has been called
with (history), the calls before it (history), and whether the program was terminated. -/
structure FState (α : Type) where
  main : FMain α
  tasks : List (FTask α)
  base : Nat
  queue : List Nat
  plan : ParPlan α
  called : List α
  past : List (FCall α)
  dead : Bool

/-- Outcome of a step. -/
inductive FOut (α : Type) where
  | ok (s : FState α)
  /-- not possible now -/
  | no
  /-- undefined behaviour -/
  | ub

/-- What may happen next. -/
inductive FLabel (α : Type) where
  /-- a call of `parallel_for` with a range; of `par_each` with these chunks -/
  | parFor (l : List α)
  | parEach (cs : List (List α))
  /-- the main thread proceeds -/
  | main
  /-- worker `w` takes a task; proceeds with its task -/
  | take (w : Nat)
  | work (w : Nat)

/-- Outcome of going on with a task. -/
inductive FVisit (α : Type) where
  | ub
  | done (s : FState α)
  | more (s : FState α)
  | threw (s : FState α)

namespace FState

variable {α : Type}

/-- The start of the program. -/
def init : FState α := ⟨.idle, [], 0, [], .inline [], [], [], false⟩

/-- Is the call that submitted task `j` over?  Then the vector of batches, the range and the function, which the task
refers to, do not exist any more. -/
def over (s : FState α) (j : Nat) : Bool :=
  match s.main with
  | .idle => true
  | _ => j < s.base

def setTask (s : FState α) (j : Nat) (t : FTask α) : FState α := { s with tasks := s.tasks.set j t }

/-- A call begins, parallel_for.hpp:14-38. -/
def enter (s : FState α) : Run (ParPlan α) → FOut α
  | .ub => .ub
  | .stuck => .no
  | .ok p => .ok { s with main := (match p with | .inline l => .inline l | .tasks bs => .submit bs), base := s.tasks.length, plan := p, called := [] }

/-- The current call ends. -/
def finish (s : FState α) (e : FEnd) : FState α := { s with main := .idle, past := s.past ++ [⟨s.plan, s.called, e⟩] }

/-- Worker `w` begins to execute task `j`: the lambda reads its batch (parallel_for.hpp:44). -/
def start (s : FState α) (j w : Nat) (queue : List Nat) : FOut α :=
  match s.tasks[j]? with
  | none => .ub
  | some t => if s.over j then .ub else .ok ({ s with queue := queue }.setTask j { t with st := .running w })

/-- `std::ranges::for_each(batch, func)` of task `j` goes on: at the end of the batch the task is finished
(task.hpp:26-29), an exception skips that. -/
def visit (bad : α → Bool) (s : FState α) (j : Nat) : FVisit α :=
  match s.tasks[j]? with
  | none => .ub
  | some t =>
    if s.over j then .ub
    else
      match t.rest with
      | [] => .done (s.setTask j ⟨[], .done⟩)
      | x :: r =>
        if bad x then .threw ({ s with called := s.called ++ [x] }.setTask j ⟨r, .failed⟩)
        else .more ({ s with called := s.called ++ [x] }.setTask j ⟨r, t.st⟩)

/-- All tasks of the current call have finished. -/
def allDone (s : FState α) : Bool := (s.tasks.drop s.base).all fun t => t.st == .done

/-- A step of the main thread. -/
def mainStep (bad : α → Bool) (s : FState α) : FOut α :=
  match s.main with
  | .idle => .no
  | .inline [] => .ok (s.finish .returned)
  | .inline (x :: r) =>
    if bad x then .ok ({ s with called := s.called ++ [x] }.finish .threw) else .ok { s with called := s.called ++ [x], main := .inline r }
  | .submit [] => .ok { s with main := .wait }
  | .submit (b :: bs) => .ok { s with main := .submit bs, tasks := s.tasks ++ [⟨b, .queued⟩], queue := s.queue ++ [s.tasks.length] }
  | .wait =>
    if s.allDone then .ok (s.finish .returned)
    else
      -- thread_pool.hpp:82-86, 150: the newest task of its own queue
      match s.queue.getLast? with
      | none => .no
      | some j => ({ s with main := .task j } : FState α).start j 0 s.queue.dropLast
  | .task j =>
    match s.visit bad j with
    | .ub => .ub
    | .done s => .ok { s with main := .wait }
    | .more s => .ok s
    -- nothing waits for the other tasks
    | .threw s => .ok (s.finish .threw)

/-- The task worker `w` executes. -/
def taskOf (s : FState α) (w : Nat) : Option Nat := s.tasks.findIdx? fun t => t.st == .running w

/-- One step; the background workers are `1 … n - 1`. -/
def step (bad : α → Bool) (n : Nat) (s : FState α) (l : FLabel α) : FOut α :=
  if s.dead then .no
  else
    match l with
    | .parFor l =>
      match s.main with
      | .idle => s.enter (parallelFor n l)
      | _ => .no
    | .parEach cs =>
      match s.main with
      | .idle => s.enter (CoEcs.parEach n cs)
      | _ => .no
    | .main => s.mainStep bad
    | .take w =>
      if 0 < w ∧ w < n ∧ s.taskOf w = none then
        match s.queue with
        | [] => .no
        | j :: q => s.start j w q
      else .no
    | .work w =>
      if 0 < w then
        match s.taskOf w with
        | none => .no
        | some j =>
          match s.visit bad j with
          | .ub => .ub
          | .done s => .ok s
          | .more s => .ok s
          -- out of the function of a thread: `std::terminate`
          | .threw s => .ok { s with dead := true }
      else .no

end FState

/-- The states a program can reach. -/
inductive FReach {α : Type} (bad : α → Bool) (n : Nat) : FState α → Prop
  | init : FReach bad n FState.init
  | step {s t : FState α} (l : FLabel α) : FReach bad n s → s.step bad n l = .ok t → FReach bad n t

end CoEcs
