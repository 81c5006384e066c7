import Verif.Model.Schedule
import Verif.Spec.Interleave

/-!
# Execution of a schedule with the bodies of its systems
(/repo/include/co_ecs/system/stage.hpp:152-183, schedule.hpp:76-97)

The machine of `Verif.Model.Schedule`, with system bodies that proceed in atomic steps on the shared store.
The interleaving is arbitrary and sequentially consistent.
-/

namespace CoEcs
open Spec

variable {V L : Type}

/-- `cur`: the main-thread system being run by the main thread.  `tasks`: systems submitted since the last
`wait`; `none` = has returned. -/
structure PState (V L : Type) where
  code : List Instr
  cur : Option (SysDesc × L)
  tasks : List (SysDesc × Option L)
  store : Store V

/-- One step of a body; `none` as new local state if it has returned. -/
def taskStep (b : Body V L) (x : L) (σ : Store V) : Option L × Store V :=
  match b.step x σ with
  | some (x', σ') => (some x', σ')
  | none => (none, σ)

/-- A step of a worker: task `i` proceeds. -/
def PState.taskAt (bodies : SysDesc → Body V L) (i : Nat) (s : PState V L) : Option (PState V L) :=
  match s.tasks[i]? with
  | some (d, some x) =>
    some { s with tasks := s.tasks.set i (d, (taskStep (bodies d) x s.store).1),
                  store := (taskStep (bodies d) x s.store).2 }
  | _ => none

/-- A step of the main thread (stage.hpp:152-183, schedule.hpp:76-97).  `fl` is the effect of
`command_buffer::flush` on the store. -/
def PState.main (bodies : SysDesc → Body V L) (fl : Store V → Store V) (s : PState V L) : Option (PState V L) :=
  match s.cur with
  | some (m, x) =>
    some { s with cur := (taskStep (bodies m) x s.store).1.map (Prod.mk m),
                  store := (taskStep (bodies m) x s.store).2 }
  | none =>
    match s.code with
    | [] => none
    | .submit d :: c => some { s with code := c, tasks := s.tasks ++ [(d, some (bodies d).init)] }
    | .runMain m :: c => some { s with code := c, cur := some (m, (bodies m).init) }
    | .endMain _ :: c => some { s with code := c }
    | .wait :: c => if s.tasks.all (·.2.isNone) then some { s with code := c, tasks := [] } else none
    | .flush :: c => some { s with code := c, store := fl s.store }

/-- Any thread makes a step. -/
inductive PStep (bodies : SysDesc → Body V L) (fl : Store V → Store V) : PState V L → PState V L → Prop
  | main {s t} : s.main bodies fl = some t → PStep bodies fl s t
  | task {s t} (i : Nat) : s.taskAt bodies i = some t → PStep bodies fl s t

/-- `n` steps. -/
inductive PSteps (bodies : SysDesc → Body V L) (fl : Store V → Store V) : Nat → PState V L → PState V L → Prop
  | refl (s) : PSteps bodies fl 0 s s
  | step {n s t u} : PStep bodies fl s t → PSteps bodies fl n t u → PSteps bodies fl (n + 1) s u

/-- Everything has been executed and every task has returned. -/
def PState.Finished (s : PState V L) : Prop := s.code = [] ∧ s.cur = none ∧ ∀ t ∈ s.tasks, t.2 = none

end CoEcs
