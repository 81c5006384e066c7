/-!
# Handles and the handle pool

Models /repo/include/co_ecs/detail/handle.hpp (whole file).  `entity` is this handle type
(/repo/include/co_ecs/entity.hpp).
-/

namespace CoEcs

/-- 2^32: `id_t` and `generation_t` are `std::uint32_t` (detail/handle.hpp:16-17). -/
def U32 : Nat := 4294967296

/-- `handle` (detail/handle.hpp:11-65): id and generation.  The two fields are `uint32_t`;
here they are naturals and every function below reduces modulo `U32` where the code can wrap. -/
structure Handle where
  id : Nat
  gen : Nat
  deriving DecidableEq, Repr

namespace Handle

/-- `handle::invalid` (detail/handle.hpp:20-28): both fields are the maximal `uint32_t`. -/
def invalid : Handle := ⟨U32 - 1, U32 - 1⟩

/-- `handle::valid` (detail/handle.hpp:41-43). -/
def valid (h : Handle) : Bool := h != invalid

/-- `handle::operator<=>`, defaulted (detail/handle.hpp:60): memberwise, in declaration order
`_id`, `_generation` (lines 63-64). -/
def cmp (a b : Handle) : Ordering := (compare a.id b.id).then (compare a.gen b.gen)

end Handle

/-- State of `handle_pool` (detail/handle.hpp:137-140).  `free.getLast` is `_free_ids.back()`.
`_next_id` is a `uint32_t`, `_free_cursor` an `int64_t` (no overflow modelled for the latter). -/
structure Pool where
  nextId : Nat
  cursor : Int
  gens : List Nat
  free : List Nat
  deriving DecidableEq, Repr

namespace Pool

/-- A freshly constructed pool (detail/handle.hpp:137-140, default member initialisers). -/
def empty : Pool := ⟨0, 0, [], []⟩

/-- The second half of `create` and `reserve`: `_next_id.fetch_add(1)` on a `uint32_t`
(detail/handle.hpp:81 and 116). -/
def bump (p : Pool) : Pool := { p with nextId := (p.nextId + 1) % U32 }

/-- `handle_pool::create` (detail/handle.hpp:74-84).  `none` is undefined behaviour: the
unchecked index `_generations[id]` on line 79 is out of bounds. -/
def create (p : Pool) : Option (Pool × Handle) :=
  match p.free.getLast? with
  | some id =>
    match p.gens[id]? with
    | none => none
    | some g =>
      some ({ p with free := p.free.dropLast, cursor := (p.free.dropLast.length : Int) }, ⟨id, g⟩)
  | none => some ({ p.bump with gens := p.gens ++ [0] }, ⟨p.nextId, 0⟩)

/-- `handle_pool::alive` (detail/handle.hpp:89-94). -/
def alive (p : Pool) (h : Handle) : Bool :=
  match p.gens[h.id]? with
  | some g => g == h.gen
  | none => false

/-- `handle_pool::recycle` (detail/handle.hpp:98-105); the generation is a `uint32_t`, so the
increment on line 102 wraps. -/
def recycle (p : Pool) (h : Handle) : Pool :=
  if p.alive h then
    { p with
      gens := p.gens.set h.id ((h.gen + 1) % U32)
      free := p.free ++ [h.id]
      cursor := p.cursor + 1 }
  else p

/-- First atomic step of `reserve`: `_free_cursor.fetch_sub(1)` (detail/handle.hpp:111);
returns the previous value. -/
def reserveSub (p : Pool) : Pool × Int := ({ p with cursor := p.cursor - 1 }, p.cursor)

/-- The branch `n > 0` of `reserve` (detail/handle.hpp:112-115).  `none` is undefined behaviour
(index out of bounds). -/
def reserveFromFree (p : Pool) (n : Int) : Option Handle :=
  match p.free[(n - 1).toNat]? with
  | none => none
  | some id =>
    match p.gens[id]? with
    | none => none
    | some g => some ⟨id, g⟩

/-- Second atomic step of `reserve` when no free id is left: `_next_id.fetch_add(1)`
(detail/handle.hpp:116-117). -/
def reserveFresh (p : Pool) : Pool × Handle := (p.bump, ⟨p.nextId, 0⟩)

/-- `handle_pool::reserve` run by one thread without interference (detail/handle.hpp:110-118). -/
def reserve (p : Pool) : Option (Pool × Handle) :=
  match p.reserveSub with
  | (q, n) =>
    if n > 0 then
      match q.reserveFromFree n with
      | none => none
      | some h => some (q, h)
    else some q.reserveFresh

/-- `handle_pool::flush` (detail/handle.hpp:121-134).  The first loop appends one zero generation
for each unit the cursor is below zero, the second pops free ids down to the cursor. -/
def flush (p : Pool) : Pool :=
  let gens := p.gens ++ List.replicate (-p.cursor).toNat 0
  let cur : Nat := p.cursor.toNat
  { p with gens := gens, free := p.free.take cur, cursor := (cur : Int) }

end Pool

/-- Calls on a pool. -/
inductive PoolOp where
  | create
  | recycle (h : Handle)
  | reserve
  | flush
  deriving DecidableEq, Repr

/-- What an observer of the pool sees: the call and the handle it returned, if any. -/
inductive PoolEvent where
  | created (h : Handle)
  | recycled (h : Handle)
  | reserved (h : Handle)
  | flushed
  deriving DecidableEq, Repr

/-- One call (dispatch only, no code of its own in /repo). -/
def Pool.step (p : Pool) : PoolOp → Option (Pool × PoolEvent)
  | .create => p.create.map fun r => (r.1, .created r.2)
  | .recycle h => some (p.recycle h, .recycled h)
  | .reserve => p.reserve.map fun r => (r.1, .reserved r.2)
  | .flush => some (p.flush, .flushed)

/-- Run a list of calls from left to right; `none` if one of them is undefined behaviour.
The events are listed in call order. -/
def Pool.run (p : Pool) : List PoolOp → Option (Pool × List PoolEvent)
  | [] => some (p, [])
  | op :: ops =>
    match p.step op with
    | none => none
    | some (p', ev) =>
      match p'.run ops with
      | none => none
      | some (p'', evs) => some (p'', ev :: evs)

end CoEcs
