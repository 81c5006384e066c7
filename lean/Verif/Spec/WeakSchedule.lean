import Verif.Spec.WeakRounds
import Verif.Spec.Conflict
import Verif.Model.Schedule

/-!
# A schedule as rounds of parallel work

The systems of a batch are dealt to the workers in any way; the main thread then waits for all of them.  What the main thread does by
itself is flushing the commands.
-/

namespace CoEcs.Weak
variable {L : Type}

/-- One after the other. -/
def inOrder : List (Prog L Unit) → Prog L Unit
  | [] => .ret ()
  | p :: ps => p.bind fun _ => inOrder ps

/-- Something done by many, or by the main thread alone. -/
inductive Phase (L : Type) where
  | jobs (ps : List (Prog L Unit))
  | alone (p : Prog L Unit)

/-- What worker `t` does of the jobs if job number `i` is given to worker `who i`. -/
def share (who : Nat → Nat) (ps : List (Prog L Unit)) (t : Nat) : Prog L Unit :=
  inOrder ((ps.zipIdx.filter fun p => who p.2 = t).map (·.1))

def Phase.round (who : Nat → Nat) : Phase L → Round L
  | .jobs ps => ⟨.ret (), share who ps⟩
  | .alone p => ⟨p, fun _ => .ret ()⟩

/-- The rounds, if in round number `r` job number `i` is given to worker `who r i`. -/
def dealt (who : Nat → Nat → Nat) (phs : List (Phase L)) : List (Round L) := phs.mapIdx fun r ph => ph.round (who r)

/-- One thread doing everything in order. -/
def Phase.seq [DecidableEq L] : Phase L → Store L → Store L
  | .jobs ps, s => seqAll ps s
  | .alone p, s => (p.seq s).2

def seqPhases [DecidableEq L] : List (Phase L) → Store L → Store L
  | [], s => s
  | ph :: phs, s => seqPhases phs (ph.seq s)

/-- No job writes what another one uses; nobody uses the objects used for synchronisation. -/
def Phase.Separate (go dn : L) : Phase L → Prop
  | .jobs ps => ∃ F : Nat → Foot L, (∀ (i : Nat) (p : Prog L Unit), ps[i]? = some p → p.Within (F i)) ∧
      (∀ (i : Nat) (p : Prog L Unit), ps[i]? = some p → ∀ l, (F i).has l → l ≠ go ∧ l ≠ dn) ∧
      ∀ i j, i < ps.length → j < ps.length → i ≠ j → ∀ l, (F i).wr l → ¬ (F j).has l
  | .alone p => p.Within (Foot.but go dn)

/-! ## Schedules -/

/-- What systems work on: component number `c` of row number `i`; everything that says which entities and archetypes there are; and the
two objects the threads synchronise with. -/
inductive Obj where
  | go
  | dn
  | comp (c i : Nat)
  | shape (i : Nat)
  deriving DecidableEq

/-- What a system with some access pattern may touch: the components it declares; who has a view reads which entities there are, who has the
registry may change it. -/
def patternFoot (f : Spec.Footprint) : Foot Obj :=
  ⟨fun | .comp c _ => f.reads c | .shape _ => ∃ c, f.reads c | _ => False,
   fun | .comp c _ => f.writes c | .shape _ => ∀ c, f.writes c | _ => False⟩

/-- The batches of a stage (stage.hpp:152-156, 164-183); the main-thread systems are one more job of every batch. -/
def stagePhases (bodies : SysDesc → Prog Obj Unit) (x : StageExec) : List (Phase Obj) :=
  x.batches.map fun b => .jobs (b.map bodies ++ [inOrder (x.main.map bodies)])

/-- Constructing an executor and running it `n` times (schedule.hpp:76-97). -/
def schedPhases (bodies : SysDesc → Prog Obj Unit) (flush : Prog Obj Unit) (e : ScheduleExec) (n : Nat) : List (Phase Obj) :=
  stagePhases bodies e.init ++ [.alone flush] ++ (List.replicate n (e.stages.flatMap (stagePhases bodies) ++ [.alone flush])).flatten

/-- A single thread that executes the program of the main thread and runs submitted systems at once. -/
def seqCode (bodies : SysDesc → Prog Obj Unit) (flush : Prog Obj Unit) : List Instr → Store Obj → Store Obj
  | [], s => s
  | .submit x :: c, s => seqCode bodies flush c ((bodies x).seq s).2
  | .runMain x :: c, s => seqCode bodies flush c ((bodies x).seq s).2
  | .endMain _ :: c, s => seqCode bodies flush c s
  | .wait :: c, s => seqCode bodies flush c s
  | .flush :: c, s => seqCode bodies flush c (flush.seq s).2

end CoEcs.Weak
