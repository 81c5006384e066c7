import Verif.Model.Command

/-!
# Model of a flush during which destructors of components record commands
(/repo/include/co_ecs/command.hpp, base_registry.hpp)

The destructor of a component may use a `command_writer`.  When it runs because a flush executes a
`destroy` command, it records into the buffer of the thread that flushes.  The queue is a vector-like
container that is read anew for every command (command.hpp:58-65), so recording while it is played is
defined.
-/

namespace CoEcs
variable {V : Type}

/-- A call of `command_writer` or `command_entity_ref` made by a destructor. -/
inductive Call (V : Type) where
  | create (args : List (Nat × V))
  | clone (h : Handle)
  | set (h : Handle) (c : Nat) (v : V)
  | remove (h : Handle) (c : Nat)
  | destroy (h : Handle)

/-- What the destructor of component type `c` with value `v` records.  Simplification: only the release of a
component by a `destroy` command runs it; components dropped by `remove` or overwritten by `set` record
nothing. -/
abbrev Hook (V : Type) := Nat → V → List (Call V)

/-- One call on buffer `b` with a writer of registry `d` (command.hpp:165-198, 253-265).  A destructor
cannot throw: an exception ends the program, and this is counted as undefined, as is running out of ids in
the staging registry. -/
def Buf.call (ty : Types) (b : Buf V) (d : Reg V) : Call V → Option (Buf V × Reg V)
  | .create args =>
    if b.staging.pool.nextId + 1 < U32 then
      match b.create ty d args with
      | .ok x _ => some x
      | _ => none
    else none
  | .clone h =>
    match b.clone d h with
    | .ok x _ => some x
    | _ => none
  | .set h c v =>
    if b.staging.pool.nextId + 1 < U32 then
      match b.set ty h c v with
      | .ok b _ => some (b, d)
      | _ => none
    else none
  | .remove h c => some (b.remove h c, d)
  | .destroy h => some (b.destroy h, d)

/-- The calls made by destructors on the thread with buffer `own` of the list, during a flush.  A thread
without a buffer would construct it now (`get`, command.hpp:20-24); the constructor (44-47) locks the mutex
that the flush on the same thread holds (28), which is undefined for `std::mutex`. -/
def calls (ty : Types) (own : Option Nat) : List (Call V) → List (Option (Buf V)) → Reg V → Option (List (Option (Buf V)) × Reg V)
  | [], bs, d => some (bs, d)
  | k :: ks, bs, d =>
    match own with
    | none => none
    | some j =>
      match bs[j]? with
      | some (some b) =>
        match b.call ty d k with
        | none => none
        | some (b, d) => calls ty own ks (bs.set j (some b)) d
      | _ => none

/-- Execute command `c`, already popped from buffer `p`.  `base_registry::destroy` (base_registry.hpp:52-62)
first erases the row, which runs the destructors, and recycles the id afterwards; the calls of destructors
change only the pool of the destination, of which the erasure uses only generations, which they leave. -/
def Cmd.execWith (ty : Types) (husk : V → V) (hook : Hook V) (own : Option Nat) (p : Nat) (bs : List (Option (Buf V))) (d : Reg V)
    (s : Reg V) (cs : List Cmd) (c : Cmd) : Res (List (Option (Buf V)) × Reg V) Unit :=
  match c with
  | .destroy h =>
    match d.visit h with
    | .ub => .ub
    | .throw e => .throw (bs.set p (some ⟨s, cs⟩), d) e
    | .ok l =>
      match calls ty own (l.flatMap fun x => hook x.1 x.2) (bs.set p (some ⟨s, cs⟩)) d with
      | none => .ub
      | some (bs, d) =>
        match d.destroy h with
        | .ub => .ub
        | .throw d e => .throw (bs, d) e
        | .ok d _ => .ok (bs, d) ()
  | c =>
    match c.exec ty husk s d with
    | .ub => .ub
    | .throw (s, d) e => .throw (bs.set p (some ⟨s, cs⟩), d) e
    | .ok (s, d) _ => .ok (bs.set p (some ⟨s, cs⟩), d) ()

/-- The loops of `flush` and `play_commands` (command.hpp:31-33, 58-65) from buffer `p` on.  The number
bounds the steps; `none`: not finished. -/
def flushFrom (ty : Types) (husk : V → V) (hook : Hook V) (own : Option Nat) : Nat → Nat → List (Option (Buf V)) → Reg V →
    Option (Res (List (Option (Buf V)) × Reg V) Unit)
  | 0, _, _, _ => none
  | n + 1, p, bs, d =>
    match bs[p]? with
    | none => some (.ok (bs, d) ())
    | some none => some .ub
    | some (some b) =>
      match b.queue with
      | [] => flushFrom ty husk hook own n (p + 1) bs d
      | c :: cs =>
        match c.execWith ty husk hook own p bs d b.staging cs with
        | .ub => some .ub
        | .throw x e => some (.throw x e)
        | .ok (bs, d) _ => flushFrom ty husk hook own n p bs d

/-- `command_buffer::flush`, command.hpp:27-34, by the thread with buffer `own`. -/
def flushWith (ty : Types) (husk : V → V) (hook : Hook V) (own : Option Nat) (n : Nat) (bs : List (Option (Buf V))) (d : Reg V) :
    Option (Res (List (Option (Buf V)) × Reg V) Unit) :=
  flushFrom ty husk hook own n 0 bs d.sync

end CoEcs
