import Verif.Spec.WeakUse
import Verif.Model.WeakPool

/-!
# Threads that use tasks in turns

Tasks are numbered in order of creation; task `i` is at address `i + 1`.
-/

namespace CoEcs.Weak

/-- Calls on tasks: construct task `i`, perhaps with a parent; the end of `execute` of task `i`; ask whether it is completed. -/
inductive TCall where
  | make (i : Nat) (parent : Option Nat)
  | finish (i : Nat)
  | completed (i : Nat)
  deriving DecidableEq, Repr

def taskAddr (i : Nat) : Int := (i : Int) + 1

def parentAddr : Option Nat → Int
  | some p => taskAddr p
  | none => 0

/-- A call and its answer, when there are at most `n` tasks. -/
def TCall.prog (n : Nat) : TCall → P (Int × Int)
  | .make i p => do
    taskNew (taskAddr i) 0 (parentAddr p)
    pure (0, 0)
  | .finish i => do
    Weak.finish n (taskAddr i)
    pure (0, 0)
  | .completed i => do
    if ← isCompleted (taskAddr i) then pure (1, 0) else pure (0, 0)

/-- Thread `t` makes calls and notes the answers, from number `k` on; `n` calls have been made before. -/
def tasking (t : Nat) : Nat → Nat → List TCall → P Unit
  | _, _, [] => pure ()
  | n, k, c :: cs => do
    let a ← c.prog n
    let _ ← write (noteId t k) a.1
    let _ ← write (noteGen t k) a.2
    tasking t (n + 1) (k + 1) cs

def taskProgs (css : List (List TCall)) : List (P Unit) := css.mapIdx fun t cs => tasking t (css.take t).flatten.length 0 cs

/-- Threads with these calls take turns, in this order. -/
def taskStart (ordL ordS : Order) (f : Nat) (css : List (List TCall)) : St Loc (Prog Loc Unit) :=
  .init (fun _ => 0) (turnThreads ordL ordS turn f (taskProgs css))

/-- A task as its user sees it: its parent, and whether its function has returned. -/
structure TaskSpec where
  parent : Option Nat
  returned : Bool
  deriving DecidableEq, Repr

/-- Task `j` is task `i`, or one of its parents is; looking at most `n` levels up. -/
def under (ts : List TaskSpec) : Nat → Nat → Nat → Bool
  | 0, j, i => j == i
  | n + 1, j, i => j == i || (match ts[j]? with | some ⟨some p, _⟩ => under ts n p i | _ => false)

/-- Task `i` and everything under it has returned. -/
def allReturned (ts : List TaskSpec) (i : Nat) : Bool :=
  (List.range ts.length).all fun j => !under ts j j i || (match ts[j]? with | some x => x.returned | none => true)

/-- What the calls mean; none if the call is not allowed: tasks are numbered in order, a parent is not completed, and a function
returns once. -/
def TCall.ref (ts : List TaskSpec) : TCall → Option (List TaskSpec × (Int × Int))
  | .make i none => if i = ts.length then some (ts ++ [⟨none, false⟩], (0, 0)) else none
  | .make i (some p) =>
    if i = ts.length ∧ p < ts.length ∧ allReturned ts p = false then some (ts ++ [⟨some p, false⟩], (0, 0)) else none
  | .finish i =>
    match ts[i]? with
    | some ⟨p, false⟩ => some (ts.set i ⟨p, true⟩, (0, 0))
    | _ => none
  | .completed i => if i < ts.length then some (ts, (if allReturned ts i then 1 else 0, 0)) else none

def TCall.refs : List TaskSpec → List TCall → Option (List TaskSpec × List (Int × Int))
  | ts, [] => some (ts, [])
  | ts, c :: cs => (c.ref ts).bind fun r => (TCall.refs r.1 cs).map fun r' => (r'.1, r.2 :: r'.2)

def TCall.refsAll : List TaskSpec → List (List TCall) → Option (List TaskSpec × List (List (Int × Int)))
  | ts, [] => some (ts, [])
  | ts, cs :: css => (TCall.refs ts cs).bind fun r => (TCall.refsAll r.1 css).map fun r' => (r'.1, r.2 :: r'.2)

end CoEcs.Weak
