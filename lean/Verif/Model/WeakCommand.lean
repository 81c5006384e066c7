import Verif.Model.WeakHandles

/-!
# Recording and flushing commands, in C++ memory

`command_buffer`, `command_writer` and `command_entity_ref` (/repo/include/co_ecs/command.hpp:16-270) as programs for the machine of
`Model/Weak.lean`.

Simplifications.  A `std::deque` is two positions and elements.  A command is five numbers: what is to be done (the alternative of the variant
with the component and its value, all of which are constants of the call), the entity it is about, and the reserved entity.  The staging
registry is not there: it belongs to the buffer and is used wherever the deque is.  The mutex that guards the list
of buffers (lines 37-39, 44-47) is not there: all buffers exist.  The execution of a command is one entry in a list of executed commands; what
commands do is the matter of `Model/Command.lean`.
-/

namespace CoEcs.Weak

/-- The same operation on other objects. -/
def Op.on {L M : Type} (ι : L → M) : Op L → Op M
  | .load o l => .load o (ι l)
  | .store o l v => .store o (ι l) v
  | .rmw o l f => .rmw o (ι l) f
  | .fence o => .fence o
  | .read l => .read (ι l)
  | .write l v => .write (ι l) v

/-- The same program on other objects. -/
def Prog.on {L M : Type} (ι : L → M) {α : Type} : Prog L α → Prog M α
  | .ret a => .ret a
  | .op o k => .op (o.on ι) fun v => (k v).on ι

/-- The numbers of a command. -/
inductive Part where
  | what | id | gen | newId | newGen
  deriving DecidableEq

/-- Objects in memory. -/
inductive CLoc where
  /-- what the threads synchronise with -/
  | go | dn
  /-- the handles of the registry -/
  | pool (l : Loc)
  /-- `_commands` of a buffer, command.hpp:151: the position of its first element, the one after its last element, and its elements -/
  | first (b : Nat) | last (b : Nat) | part (b : Nat) (q : Part) (i : Nat)
  /-- how many commands have been executed, and which -/
  | ran | ranPart (q : Part) (k : Nat)
  deriving DecidableEq

/-- A command. -/
structure MCmd where
  what : Int
  id : Int
  gen : Int
  newId : Int
  newGen : Int
  deriving DecidableEq, Repr

def MCmd.get (m : MCmd) : Part → Int
  | .what => m.what
  | .id => m.id
  | .gen => m.gen
  | .newId => m.newId
  | .newGen => m.newGen

def cread (l : CLoc) : Prog CLoc Int := .call (.read l)
def cwrite (l : CLoc) (v : Int) : Prog CLoc Int := .call (.write l v)

/-- `command_buffer::push`, command.hpp:49-52. -/
def pushCmd (b : Nat) (m : MCmd) : Prog CLoc Unit := do
  let n ← cread (.last b)
  let _ ← cwrite (.part b .what n.toNat) m.what
  let _ ← cwrite (.part b .id n.toNat) m.id
  let _ ← cwrite (.part b .gen n.toNat) m.gen
  let _ ← cwrite (.part b .newId n.toNat) m.newId
  let _ ← cwrite (.part b .newGen n.toNat) m.newGen
  let _ ← cwrite (.last b) (n + 1)
  pure ()

/-- A call on a `command_writer` or a `command_entity_ref`: whether it reserves an entity (`create`, command.hpp:253-259, and `clone`,
lines 194-198, do; `set`, `remove` and `destroy`, lines 165-190, 263-265, do not), and what is to be done with which entity, which the caller may choose
according to the entities it has got so far. -/
structure RCall where
  reserves : Bool
  arg : List (Int × Int) → Int × Int × Int

/-- The command. -/
def RCall.cmd (c : RCall) (made : List (Int × Int)) (h : Int × Int) : MCmd :=
  ⟨(c.arg made).1, (c.arg made).2.1, (c.arg made).2.2, h.1, h.2⟩

/-- The call, command.hpp:166-198, 254-265; returns the entities its caller has got. -/
def recordCall (b : Nat) (made : List (Int × Int)) (c : RCall) : Prog CLoc (List (Int × Int)) :=
  if c.reserves then
    (reserve.on CLoc.pool).bind fun h => (pushCmd b (c.cmd made h)).bind fun _ => .ret (made ++ [h])
  else (pushCmd b (c.cmd made (0, 0))).bind fun _ => .ret made

/-- Calls on the writer of buffer `b`, one after the other. -/
def recorder (b : Nat) : List (Int × Int) → List RCall → Prog CLoc Unit
  | _, [] => .ret ()
  | made, c :: cs => (recordCall b made c).bind fun made => recorder b made cs

/-- Move the first element out and pop it, command.hpp:60-61. -/
def popCmd (b : Nat) : Prog CLoc MCmd := do
  let i ← cread (.first b)
  let w ← cread (.part b .what i.toNat)
  let id ← cread (.part b .id i.toNat)
  let g ← cread (.part b .gen i.toNat)
  let id' ← cread (.part b .newId i.toNat)
  let g' ← cread (.part b .newGen i.toNat)
  let _ ← cwrite (.first b) (i + 1)
  pure ⟨w, id, g, id', g'⟩

/-- Execute it, command.hpp:63. -/
def execCmd (m : MCmd) : Prog CLoc Unit := do
  let k ← cread .ran
  let _ ← cwrite (.ranPart .what k.toNat) m.what
  let _ ← cwrite (.ranPart .id k.toNat) m.id
  let _ ← cwrite (.ranPart .gen k.toNat) m.gen
  let _ ← cwrite (.ranPart .newId k.toNat) m.newId
  let _ ← cwrite (.ranPart .newGen k.toNat) m.newGen
  let _ ← cwrite .ran (k + 1)
  pure ()

/-- The loop of `play_commands`, command.hpp:59-64: `n` iterations. -/
def playCmds (b : Nat) : Nat → Prog CLoc Unit
  | 0 => pure ()
  | n + 1 => do
    let m ← popCmd b
    execCmd m
    playCmds b n

/-- `play_commands`, command.hpp:58-65.  How often the loop is run is determined by the size at its beginning, as executing commands records
none here. -/
def playBuf (b : Nat) : Prog CLoc Unit := do
  let i ← cread (.first b)
  let n ← cread (.last b)
  playCmds b (n - i).toNat

/-- The loop of `command_buffer::flush`, command.hpp:31-33. -/
def playBufs : List Nat → Prog CLoc Unit
  | [] => pure ()
  | b :: bs => do
    playBuf b
    playBufs bs

/-- `command_buffer::flush`, command.hpp:27-34, with the buffers `0` to `N - 1`; `sync` is base_registry.hpp:104-106. -/
def flushCmds (N : Nat) : Prog CLoc Unit := do
  flush.on CLoc.pool
  playBufs (List.range N)

end CoEcs.Weak
