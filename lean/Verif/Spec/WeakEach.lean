import Verif.Spec.WeakSchedule
import Verif.Model.View

/-!
# Parallel iteration on the weak machine

`par_each` (view.hpp:132-148) calls the callback for the entries of a view; the batches of chunks are tasks that run at the same
time, and the operations of the callbacks on memory are interleaved in any way the memory model allows.
-/

namespace CoEcs.Weak

/-- Objects in memory: component `c` of the entry at a location; others; the two objects the threads synchronise with. -/
inductive RowObj where
  | go
  | dn
  | comp (c : Nat) (l : CoEcs.Loc)
  | other (i : Nat)
  deriving DecidableEq

/-- What the call of the callback for the entry at `l` may touch: it reads the components the view names and anything else that nobody
writes, and writes the components to which the view gives a mutable reference. -/
def callFoot (args : List BlockId) (muts : List Nat) (l : CoEcs.Loc) : Foot RowObj :=
  ⟨fun | .comp c l' => l' = l ∧ some c ∈ args | .other _ => True | _ => False,
   fun | .comp c l' => l' = l ∧ c ∈ muts | _ => False⟩

/-- The plan of `parallel_for` as work for many or for the calling thread. -/
def planPhase (body : CoEcs.Loc → Prog RowObj Unit) : ParPlan CoEcs.Loc → Phase RowObj
  | .inline ls => .alone (inOrder (ls.map body))
  | .tasks bs => .jobs (bs.map fun ls => inOrder (ls.map body))

/-- Read the arguments of a call through the references of the view (chunk.hpp:417-419), then go on. -/
def readArgs (l : CoEcs.Loc) (h : Handle) : List BlockId → (List (Val Int) → Prog RowObj Unit) → Prog RowObj Unit
  | [], k => k []
  | none :: bs, k => readArgs l h bs fun t => k (.ent h :: t)
  | some c :: bs, k => .op (.read (.comp c l)) fun v => readArgs l h bs fun t => k (.comp v :: t)

/-- Assign to components through the references of the view. -/
def writeMuts (l : CoEcs.Loc) (g : Nat → Int) : List Nat → Prog RowObj Unit
  | [] => .ret ()
  | c :: cs => .op (.write (.comp c l) (g c)) fun _ => writeMuts l g cs

/-- The callback of `Model/View` as a program: it reads its arguments and assigns to the components `muts`.  Entity handles are
constants while the registry is iterated. -/
def callBody (r : Reg Int) (args : List BlockId) (muts : List Nat) (f : List (Val Int) → Nat → Int) (l : CoEcs.Loc) : Prog RowObj Unit :=
  match r.tupleAt [none] l with
  | .ok [.ent h] => readArgs l h args fun t => writeMuts l (f t) muts
  | _ => .ret ()

/-- A call of `par_each` on a view. -/
structure EachCall where
  workers : Nat
  args : List BlockId
  muts : List Nat
  f : List (Val Int) → Nat → Int

/-- What calls of `par_each` one after the other do in memory, and the registry that calls of `each` instead would leave. -/
def eachPhases : Reg Int → List EachCall → Option (List (Phase RowObj) × Reg Int)
  | r, [] => some ([], r)
  | r, c :: cs =>
    match r.viewChunks c.args with
    | none => none
    | some chunks =>
      match parEach c.workers chunks, r.each c.args c.muts c.f with
      | .ok plan, .ok r' _ => (eachPhases r' cs).map fun x => (planPhase (callBody r c.args c.muts c.f) plan :: x.1, x.2)
      | _, _ => none

/-- The memory holds the components of the entities where they are located. -/
def Mirror (cell : RowObj → Int) (r : Reg Int) : Prop :=
  ∀ h l c v, r.location h = .ok l → r.get h c = .ok v → cell (.comp c l) = v

/-- A call of `par_each` with an arbitrary callback. -/
structure RowCall where
  workers : Nat
  chunks : List (List CoEcs.Loc)
  args : List BlockId
  muts : List Nat
  body : CoEcs.Loc → Prog RowObj Unit

/-- The view lists every entry once, and the callback keeps to the entry it is called for. -/
def RowCall.Good (c : RowCall) : Prop :=
  0 < c.workers ∧ c.chunks.flatten.Nodup ∧ ∀ l ∈ c.chunks.flatten, (c.body l).Within (callFoot c.args c.muts l)

/-- The phases of calls of `par_each` one after the other. -/
def rowPhases : List RowCall → Option (List (Phase RowObj))
  | [] => some []
  | c :: cs =>
    match parEach c.workers c.chunks with
    | .ok plan => (rowPhases cs).map (planPhase c.body plan :: ·)
    | _ => none

/-- One thread that calls `each` instead (view.hpp:106-114). -/
def seqRows : List RowCall → Store RowObj → Store RowObj
  | [], s => s
  | c :: cs, s => seqRows cs (seqAll (c.chunks.flatten.map c.body) s)

end CoEcs.Weak
