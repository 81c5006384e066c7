import Verif.Model.Registry

/-!
# Model of command buffers (/repo/include/co_ecs/command.hpp)

A component that has been moved from keeps some value; `husk` says which, and nothing is assumed about
it.  The recording functions run on the thread that owns the buffer; the only part of them that touches
state shared between threads is `registry::reserve`, whose atomicity is the subject of C03, so one
recording is one step.
-/

namespace CoEcs

/-- `command`, command.hpp:142-147 with the classes at 67-140: `create` moves the staging entity `st` to
the reserved entity `ph`, `set` moves component `c` of the staging entity `st` to entity `h`. -/
inductive Cmd where
  | create (st ph : Handle)
  | clone (h ph : Handle)
  | set (st h : Handle) (c : Nat)
  | remove (h : Handle) (c : Nat)
  | destroy (h : Handle)
  deriving DecidableEq

/-- `command_buffer`, members at command.hpp:150-151. -/
structure Buf (V : Type) where
  staging : Reg V
  queue : List Cmd

variable {V : Type}

namespace Buf

/-- A newly constructed buffer. -/
def empty : Buf V := ⟨Reg.empty, []⟩

/-- `push`, command.hpp:49-52. -/
def push (b : Buf V) (c : Cmd) : Buf V := { b with queue := b.queue ++ [c] }

/-- `command_writer::create`, command.hpp:253-259, on the registry `r` of the writer. -/
def create (ty : Types) (b : Buf V) (r : Reg V) (args : List (Nat × V)) : Res (Buf V × Reg V) Handle :=
  match r.reserve with
  | .ub => .ub
  | .throw r e => .throw (b, r) e
  | .ok r ph =>
    match b.staging.create ty args with
    | .ub => .ub
    | .throw s e => .throw ({ b with staging := s }, r) e
    | .ok s st => .ok (({ b with staging := s } : Buf V).push (.create st ph), r) ph

/-- `command_entity_ref::clone`, command.hpp:194-198. -/
def clone (b : Buf V) (r : Reg V) (h : Handle) : Res (Buf V × Reg V) Handle :=
  match r.reserve with
  | .ub => .ub
  | .throw r e => .throw (b, r) e
  | .ok r ph => .ok (b.push (.clone h ph), r) ph

/-- `command_entity_ref::set`, command.hpp:165-175. -/
def set (ty : Types) (b : Buf V) (h : Handle) (c : Nat) (v : V) : Res (Buf V) Unit :=
  match b.staging.create ty [(c, v)] with
  | .ub => .ub
  | .throw s e => .throw { b with staging := s } e
  | .ok s st => .ok (({ b with staging := s } : Buf V).push (.set st h c)) ()

/-- `command_entity_ref::remove`, command.hpp:180-185. -/
def remove (b : Buf V) (h : Handle) (c : Nat) : Buf V := b.push (.remove h c)

/-- `command_entity_ref::destroy` and `command_writer::destroy`, command.hpp:188-190, 263-265. -/
def destroy (b : Buf V) (h : Handle) : Buf V := b.push (.destroy h)

end Buf

/-- `execute` of the five command classes (command.hpp:72-74, 86-88, 103-105 with 170-173, 120-122 with 183,
134-136) on the staging registry and the destination, which are different objects.  `set` passes the
rvalue `std::move(staging.get<C>())`: it is bound before the call and its value is moved out after
`set_impl`, which does not touch the staging registry. -/
def Cmd.exec (ty : Types) (husk : V → V) (s d : Reg V) : Cmd → Res (Reg V × Reg V) Unit
  | .create st ph =>
    match s.moveInto st d ph with
    | .ub => .ub
    | .throw sd e => .throw sd e
    | .ok sd _ => .ok sd ()
  | .clone h ph =>
    match d.cloneInto h ph with
    | .ub => .ub
    | .throw d e => .throw (s, d) e
    | .ok d _ => .ok (s, d) ()
  | .set st h c =>
    match s.get st c with
    | .ub => .ub
    | .throw e => .throw (s, d) e
    | .ok v =>
      match d.set ty h c v with
      | .ub => .ub
      | .throw d e => .throw (s, d) e
      | .ok d _ =>
        match s.assign st c (husk v) with
        | .ok s _ => .ok (s, d) ()
        | _ => .ub
  | .remove h c =>
    match d.remove ty h c with
    | .ub => .ub
    | .throw d e => .throw (s, d) e
    | .ok d _ => .ok (s, d) ()
  | .destroy h =>
    match d.destroy h with
    | .ub => .ub
    | .throw d e => .throw (s, d) e
    | .ok d _ => .ok (s, d) ()

/-- `play_commands`, command.hpp:58-65, on the commands `cs`.  The command is popped before it is executed,
so an exception leaves the commands after it. -/
def playQueue (ty : Types) (husk : V → V) : List Cmd → Reg V → Reg V → Res (Buf V × Reg V) Unit
  | [], s, d => .ok (⟨s, []⟩, d) ()
  | c :: cs, s, d =>
    match c.exec ty husk s d with
    | .ub => .ub
    | .throw (s, d) e => .throw (⟨s, cs⟩, d) e
    | .ok (s, d) _ => playQueue ty husk cs s d

/-- `play_commands` on a buffer. -/
def Buf.play (ty : Types) (husk : V → V) (b : Buf V) (d : Reg V) : Res (Buf V × Reg V) Unit :=
  playQueue ty husk b.queue b.staging d

/-- The loop of `flush`, command.hpp:31-33, over `_command_buffers`.  The buffers are `thread_local` and
their addresses stay in the vector after the threads have ended: `none` is such a dangling pointer. -/
def flushBufs (ty : Types) (husk : V → V) : List (Option (Buf V)) → Reg V → Res (List (Option (Buf V)) × Reg V) Unit
  | [], d => .ok ([], d) ()
  | none :: _, _ => .ub
  | some b :: bs, d =>
    match b.play ty husk d with
    | .ub => .ub
    | .throw (b, d) e => .throw (some b :: bs, d) e
    | .ok (b, d) _ =>
      match flushBufs ty husk bs d with
      | .ub => .ub
      | .throw (bs, d) e => .throw (some b :: bs, d) e
      | .ok (bs, d) _ => .ok (some b :: bs, d) ()

/-- `command_buffer::flush`, command.hpp:27-34. -/
def flush (ty : Types) (husk : V → V) (bs : List (Option (Buf V))) (d : Reg V) : Res (List (Option (Buf V)) × Reg V) Unit :=
  flushBufs ty husk bs d.sync

end CoEcs
