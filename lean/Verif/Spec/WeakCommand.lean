import Verif.Model.WeakCommand
import Verif.Model.HandlePool
import Verif.Spec.WeakShared

/-!
# Threads that record commands

Workers record commands, each with the writer of its own buffer; the main thread waits for all of them and flushes.  `RecRun` are the executions of the
calls in which one call is one step, which is how `Spec/ParallelRecord.lean` sees a batch of systems.
-/

namespace CoEcs.Weak
open CoEcs

/-- First the workers record their calls, then the main thread flushes. -/
def recordRounds (N : Nat) (calls : Nat → List RCall) : List (Round CLoc) :=
  [⟨.ret (), fun t => recorder t [] (calls t)⟩, ⟨flushCmds N, fun _ => .ret ()⟩]

/-- The handle as two numbers. -/
def pairOf (h : Handle) : Int × Int := ((h.id : Int), (h.gen : Int))

/-- The pool; and for every worker the entities it has got, the calls it still has to make, and its commands. -/
structure Recs where
  pool : Pool
  made : Nat → List (Int × Int)
  todo : Nat → List RCall
  cmds : Nat → List MCmd

/-- Worker `t` has made the call `c`, then come `cs`. -/
def Recs.did (a : Recs) (t : Nat) (p : Pool) (hs : List (Int × Int)) (cs : List RCall) (m : MCmd) : Recs :=
  ⟨p, fun i => if i = t then a.made t ++ hs else a.made i, fun i => if i = t then cs else a.todo i,
    fun i => if i = t then a.cmds t ++ [m] else a.cmds i⟩

/-- Worker `t` makes its next call; `none` if there is none or it is undefined. -/
def Recs.step (a : Recs) (t : Nat) : Option Recs :=
  match a.todo t with
  | [] => none
  | c :: cs =>
    if c.reserves then
      match a.pool.reserve with
      | none => none
      | some (p, h) => some (a.did t p [pairOf h] cs (c.cmd (a.made t) (pairOf h)))
    else some (a.did t a.pool [] cs (c.cmd (a.made t) (0, 0)))

/-- Workers `0` to `N - 1` make all their calls, a call at a time, in any order. -/
inductive RecRun (N : Nat) : Recs → Recs → Prop
  | done {a : Recs} : (∀ t, t < N → a.todo t = []) → RecRun N a a
  | step {a a1 a' : Recs} (t : Nat) : t < N → a.step t = some a1 → RecRun N a1 a' → RecRun N a a'

/-- How many calls of workers `0` to `N - 1` reserve an entity. -/
def reservations : Nat → (Nat → List RCall) → Nat
  | 0, _ => 0
  | N + 1, calls => (calls N).countP RCall.reserves + reservations N calls

/-- The objects as the handle pool sees them. -/
def Store.pull {L M : Type} (ι : L → M) (s : Store M) : Store L := ⟨fun l => s.atom (ι l), fun l => s.cell (ι l)⟩

/-- The commands executed from number `k` on. -/
def Ran (s : Store CLoc) (k : Nat) (ms : List MCmd) : Prop :=
  s.cell .ran = ((k + ms.length : Nat) : Int) ∧ ∀ (i : Nat) (m : MCmd), ms[i]? = some m → ∀ q, s.cell (.ranPart q (k + i)) = m.get q

/-- Buffer `b` holds no commands, at position `i`. -/
def EmptyAt (s : Store CLoc) (b i : Nat) : Prop := s.cell (.first b) = (i : Int) ∧ s.cell (.last b) = (i : Int)

/-- All commands of the workers, worker by worker. -/
def Recs.all (a : Recs) (N : Nat) : List MCmd := ((List.range N).map a.cmds).flatten

end CoEcs.Weak
