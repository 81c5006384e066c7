import Verif.Model.Command
import Verif.Spec.Registry

/-!
# What a user may expect of command buffers

`ACmd` is a command as the user recorded it, `ACmd.apply` its direct effect on the abstract contents of a
registry.  `CSys` is a family of registries, the buffers of all threads in the order in which they were
registered, and for every buffer the commands recorded and not yet executed, each with the registry it was
recorded for.  `CReach` relates the contents of the registries to the history.
-/

namespace CoEcs.Spec
open CoEcs

/-- A recorded command: for `create` the reserved entity and the components, for `set` the value. -/
inductive ACmd (V : Type) where
  | create (ph : Handle) (d : Nat → Option V)
  | clone (h ph : Handle)
  | set (h : Handle) (c : Nat) (v : V)
  | remove (h : Handle) (c : Nat)
  | destroy (h : Handle)

namespace ACmd
variable {V : Type}

/-- The contents of one registry. -/
abbrev Content (V : Type) := Handle → Option (Nat → Option V)

/-- Replace what is known about one handle. -/
def put (C : Content V) (h : Handle) (d : Option (Nat → Option V)) : Content V := fun h' => if h' = h then d else C h'

/-- The effect of the command applied directly. -/
def apply (C : Content V) : ACmd V → Content V
  | .create ph d => put C ph (some d)
  | .clone h ph => put C ph (C h)
  | .set h c v => put C h ((C h).map fun d => World.withComp d c (some v))
  | .remove h c => put C h ((C h).map fun d => World.withComp d c none)
  | .destroy h => put C h none

/-- The entity the command needs, if any. -/
def target : ACmd V → Option Handle
  | .create _ _ => none
  | .clone h _ | .set h _ _ | .remove h _ | .destroy h => some h

/-- The reserved entity the command turns into an entity, if any. -/
def placeholder : ACmd V → Option Handle
  | .create ph _ | .clone _ ph => some ph
  | _ => none

/-- The command can be applied: the entity it needs is there. -/
def Ready (C : Content V) (a : ACmd V) : Prop := ∀ h, a.target = some h → C h ≠ none

/-- The exceptions the command may end with: the entity is missing; there is no room for one entity with
the new set of components; a component is not copyable. -/
def Fails (ty : Types) (C : Content V) (a : ACmd V) (e : Exn) : Prop :=
  (∃ h, a.target = some h ∧ C h = none ∧ (e = .entityNotFound ∨ e = .outOfRange)) ∨
  (a.Ready C ∧ e = .insufficientChunkSize ∧ ((∃ h c v, a = .set h c v) ∨ ∃ h c, a = .remove h c)) ∨
  (a.Ready C ∧ e = .invalidArgument ∧ ∃ h ph d c v, a = .clone h ph ∧ C h = some d ∧ d c = some v ∧ (ty.info c).copyable = false)

/-- All the commands are ready when their turn comes. -/
def AllReady (C : Content V) : List (ACmd V) → Prop
  | [] => True
  | a :: as => a.Ready C ∧ AllReady (a.apply C) as

end ACmd

/-- Calls of `command_writer` and `command_entity_ref`. -/
inductive Rec (V : Type) where
  | create (args : List (Nat × V))
  | clone (h : Handle)
  | set (h : Handle) (c : Nat) (v : V)
  | remove (h : Handle) (c : Nat)
  | destroy (h : Handle)

/-- The registries, the buffers and the recorded commands that have not been executed. -/
structure CSys (V : Type) where
  sys : Sys V
  bufs : List (Option (Buf V))
  todo : List (List (Nat × ACmd V))

/-- What can happen: a call on the registries, a thread making its buffer, a thread ending, the thread of
buffer `b` recording through a writer of registry `i`, a flush to registry `i`. -/
inductive COp (V : Type) where
  | direct (op : SysOp V)
  | start
  | exit (b : Nat)
  | record (b i : Nat) (rc : Rec V)
  | flush (i : Nat)

namespace CSys
variable {V : Type}

def init : CSys V := ⟨Sys.init, [], []⟩

/-- Forget how many commands have been executed: the number left in each buffer. -/
def left : List (Option (Buf V)) → List Nat
  | [] => []
  | none :: bs => 0 :: left bs
  | some b :: bs => b.queue.length :: left bs

/-- The commands no longer queued, and those still queued, given how many are left. -/
def gone {X : Type} : List (List X) → List Nat → List X
  | q :: qs, n :: ns => q.take (q.length - n) ++ gone qs ns
  | _, _ => []

def rest {X : Type} : List (List X) → List Nat → List (List X)
  | q :: qs, n :: ns => q.drop (q.length - n) :: rest qs ns
  | qs, _ => qs

/-- Add a command to the history of buffer `b`. -/
def note (c : CSys V) (b i : Nat) (a : ACmd V) : CSys V :=
  { c with todo := c.todo.modify b (· ++ [(i, a)]) }

/-- A reservation was made in registry `i`. -/
def reserved (s : Sys V) (i : Nat) (r : Reg V) (ph : Handle) : Sys V := (s.setReg i r).note i .reserve (some ph)

/-- Execute a recording call by the thread of buffer `b`. -/
def record (ty : Types) (c : CSys V) (b i : Nat) (buf : Buf V) : Rec V → Option (CSys V × Out)
  | .create args =>
    match buf.create ty (c.sys.reg i) args with
    | .ub => none
    | .throw (buf', r) e =>
      -- the id has been reserved, but its handle is lost
      some ({ c with sys := { (c.sys.setReg i r) with pend := fun j => if j = i then c.sys.pend i + 1 else c.sys.pend j }
                     bufs := c.bufs.set b (some buf') }, .throw e)
    | .ok (buf', r) ph =>
      some (({ c with sys := reserved c.sys i r ph, bufs := c.bufs.set b (some buf') } : CSys V).note b i
        (.create ph (World.listed args)), .ok (some ph))
  | .clone h =>
    match buf.clone (c.sys.reg i) h with
    | .ub => none
    | .throw _ _ => none
    | .ok (buf', r) ph =>
      some (({ c with sys := reserved c.sys i r ph, bufs := c.bufs.set b (some buf') } : CSys V).note b i
        (.clone h ph), .ok (some ph))
  | .set h cp v =>
    match buf.set ty h cp v with
    | .ub => none
    | .throw buf' e => some ({ c with bufs := c.bufs.set b (some buf') }, .throw e)
    | .ok buf' _ => some (({ c with bufs := c.bufs.set b (some buf') } : CSys V).note b i (.set h cp v), .ok none)
  | .remove h cp =>
    some (({ c with bufs := c.bufs.set b (some (buf.remove h cp)) } : CSys V).note b i (.remove h cp), .ok none)
  | .destroy h =>
    some (({ c with bufs := c.bufs.set b (some (buf.destroy h)) } : CSys V).note b i (.destroy h), .ok none)

/-- The placeholders inside some commands. -/
def placeholders (q : List (Nat × ACmd V)) : List Handle := q.filterMap fun x => x.2.placeholder

/-- After a flush to registry `i`: nothing is pending there, and the placeholders inside the commands that
are gone have been used. -/
def flushed (c : CSys V) (i : Nat) (bs : List (Option (Buf V))) (r : Reg V) : CSys V :=
  { sys :=
      { reg := (c.sys.setReg i r).reg
        pend := fun j => if j = i then 0 else c.sys.pend j
        res := fun j => if j = i then (c.sys.res i).filter (· ∉ placeholders (gone c.todo (left bs))) else c.sys.res j }
    bufs := bs
    todo := rest c.todo (left bs) }

/-- Execute one operation; `none` is undefined behaviour. -/
def step (ty : Types) (husk : V → V) (c : CSys V) : COp V → Option (CSys V × Out)
  | .direct op => (c.sys.step ty op).map fun x => ({ c with sys := x.1 }, x.2)
  | .start => some ({ c with bufs := c.bufs ++ [some Buf.empty], todo := c.todo ++ [[]] }, .ok none)
  | .exit b => some ({ c with bufs := c.bufs.set b none, todo := c.todo.set b [] }, .ok none)
  | .record b i rc =>
    match c.bufs[b]? with
    | some (some buf) => c.record ty b i buf rc
    | _ => none
  | .flush i =>
    match CoEcs.flush ty husk c.bufs (c.sys.reg i) with
    | .ub => none
    | .throw (bs, r) e => some (c.flushed i bs r, .throw e)
    | .ok (bs, r) _ => some (c.flushed i bs r, .ok none)

/-- The placeholders inside queued commands, with their registries. -/
def queued (c : CSys V) : List (Nat × Handle) :=
  c.todo.flatten.filterMap fun x => x.2.placeholder.map fun ph => (x.1, ph)

/-- The placeholder a direct operation is given. -/
def placeholderOf : SysOp V → Option (Nat × Handle)
  | .on i (.clone _ (some ph)) => some (i, ph)
  | .copy _ _ j (some ph) => some (j, ph)
  | .move _ _ j (some ph) => some (j, ph)
  | _ => none

/-- The protocol: that of the registries; placeholders inside queued commands are not used (the user has
no access to them); recording is done by living threads; ids are not exhausted; component types in a
list are different; when a registry is flushed, every queued command was recorded for it. -/
def Allowed (c : CSys V) : COp V → Prop
  | .direct op => c.sys.Allowed op ∧ ∀ x, placeholderOf op = some x → x ∉ c.queued
  | .start => True
  | .exit _ => True
  | .record b i rc => ∃ buf, c.bufs[b]? = some (some buf) ∧
    match rc with
    | .create args => (args.map Prod.fst).Nodup ∧ (c.sys.reg i).pool.nextId + 1 < U32 ∧ buf.staging.pool.nextId + 1 < U32
    | .clone _ => (c.sys.reg i).pool.nextId + 1 < U32
    | .set _ _ _ => buf.staging.pool.nextId + 1 < U32
    | _ => True
  | .flush i => ∀ x ∈ c.todo.flatten, x.1 = i

end CSys

/-- The contents after an operation, from the contents before, the operation, its outcome and the numbers
of commands left in the buffers: a flush has applied the commands no longer queued, buffer by buffer,
except the last of them if it threw. -/
def World.cstep {V : Type} (W : World V) (c c' : CSys V) : COp V → Out → World V
  | .direct op, out => W.step op out
  | .flush i, .ok _ => fun j => if j = i then (CSys.gone c.todo (CSys.left c'.bufs)).foldl (fun C x => x.2.apply C) (W i) else W j
  | .flush i, .throw _ =>
    fun j => if j = i then (CSys.gone c.todo (CSys.left c'.bufs)).dropLast.foldl (fun C x => x.2.apply C) (W i) else W j
  | _, _ => W

/-- Histories with the contents the registries should have. -/
inductive CReach {V : Type} (ty : Types) (husk : V → V) : CSys V → World V → Prop
  | init : CReach ty husk CSys.init (fun _ _ => none)
  | step {c c' : CSys V} {W : World V} {op : COp V} {out : Out} :
      CReach ty husk c W → c.Allowed op → c.step ty husk op = some (c', out) → CReach ty husk c' (W.cstep c c' op out)

/-- The registry answers as the contents say: a handle without entity gives an exception, an entity gives
its components. -/
def Answers {V : Type} (r : Reg V) (C : ACmd.Content V) : Prop :=
  ∀ h, (C h = none → (∀ c, r.get h c = .throw (if r.alive h then .outOfRange else .entityNotFound)) ∧
      ∀ cs, r.has h cs = .throw (if r.alive h then .outOfRange else .entityNotFound)) ∧
    (∀ d, C h = some d → r.alive h = true ∧
      (∀ c v, d c = some v → r.get h c = .ok v) ∧
      (∀ c, d c = none → r.get h c = .throw .componentNotFound) ∧
      (∀ cs, r.has h cs = .ok (cs.all fun c => (d c).isSome)))

/-- The direct call that a command stands for, in registry `i`. -/
def ACmd.direct {V : Type} (i : Nat) : ACmd V → Option (SysOp V)
  | .create _ _ => none
  | .clone h ph => some (.on i (.clone h (some ph)))
  | .set h c v => some (.on i (.set h c v))
  | .remove h c => some (.on i (.remove h c))
  | .destroy h => some (.on i (.destroy h))

/-- The pairs of staging registry and destination before each command that is executed. -/
def playStates {V : Type} (ty : Types) (husk : V → V) : List Cmd → Reg V → Reg V → List (Reg V × Reg V)
  | [], _, _ => []
  | c :: cs, s, d => (s, d) :: (match c.exec ty husk s d with
    | .ok (s, d) _ => playStates ty husk cs s d
    | _ => [])

/-- The same for the commands of several buffers. -/
def flushStates {V : Type} (ty : Types) (husk : V → V) : List (Option (Buf V)) → Reg V → List (Reg V × Reg V)
  | some b :: bs, d => playStates ty husk b.queue b.staging d ++ (match b.play ty husk d with
    | .ok (_, d) _ => flushStates ty husk bs d
    | _ => [])
  | _, _ => []

/-- Some archetype of the registry has an empty last chunk behind other chunks. -/
def HasTrailingEmpty {V : Type} (r : Reg V) : Prop := ∃ (j : Nat) (a : Arch V), r.archs.arches[j]? = some a ∧ TrailingEmpty a

/-- The number of creations among commands. -/
def creations : List Cmd → Nat
  | [] => 0
  | .create _ _ :: cs => creations cs + 1
  | _ :: cs => creations cs

end CoEcs.Spec
