import Verif.Model.HandlePool

/-!
# Concurrent `reserve`

`handle_pool::reserve` (/repo/include/co_ecs/detail/handle.hpp:110-118) touches shared mutable
state in two atomic operations only: `_free_cursor.fetch_sub(1)` (line 111) and
`_next_id.fetch_add(1)` (line 116).  `_free_ids` and `_generations` are only read (lines 113-114)
and nobody writes them while reservations run, so reading them is folded into the first step.
Both operations act on a single location each and the value returned depends on that location
only, so relaxed ordering gives the same results as this interleaving model.
-/

namespace CoEcs

/-- Shared pool, the threads that are between their two atomic operations, and the handles
returned so far (newest first). -/
structure ConcPool where
  pool : Pool
  midway : List Nat
  returned : List Handle
  deriving DecidableEq, Repr

/-- One atomic step of some thread `t` (any number of threads, each calling `reserve` any number
of times). -/
inductive ConcPool.Step : ConcPool → ConcPool → Prop
  /-- detail/handle.hpp:111-115: fetch_sub finds a free id, the call returns it. -/
  | fromFree (s : ConcPool) (t : Nat) (h : Handle) :
      t ∉ s.midway → s.pool.reserveSub.2 > 0 →
      s.pool.reserveSub.1.reserveFromFree s.pool.reserveSub.2 = some h →
      ConcPool.Step s { s with pool := s.pool.reserveSub.1, returned := h :: s.returned }
  /-- detail/handle.hpp:111-112: fetch_sub finds none, the thread goes on to line 116. -/
  | subFresh (s : ConcPool) (t : Nat) :
      t ∉ s.midway → ¬ s.pool.reserveSub.2 > 0 →
      ConcPool.Step s { s with pool := s.pool.reserveSub.1, midway := t :: s.midway }
  /-- detail/handle.hpp:116-117: fetch_add on `_next_id`, the call returns. -/
  | addFresh (s : ConcPool) (t : Nat) :
      t ∈ s.midway →
      ConcPool.Step s { pool := s.pool.reserveFresh.1, midway := s.midway.erase t,
                        returned := s.pool.reserveFresh.2 :: s.returned }

/-- Any number of steps in any order, as long as the 32-bit id counter does not wrap. -/
inductive ConcPool.Steps : ConcPool → ConcPool → Prop
  | refl (s : ConcPool) : ConcPool.Steps s s
  | tail {s t u : ConcPool} : ConcPool.Steps s t → t.pool.nextId + 1 < U32 →
      ConcPool.Step t u → ConcPool.Steps s u

end CoEcs
