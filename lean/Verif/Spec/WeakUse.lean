import Verif.Spec.WeakTurns
import Verif.Spec.WeakHandles
import Verif.Model.HandlePool

/-!
# Threads that use a pool of handles in turns
-/

namespace CoEcs.Weak

/-- Calls on a pool. -/
inductive PCall where
  | create
  | recycle (h : Handle)
  | reserve
  | flush
  | alive (h : Handle)
  deriving DecidableEq, Repr

/-- A call and its answer, as two numbers. -/
def PCall.prog : PCall → P (Int × Int)
  | .create => Weak.create
  | .recycle h => do
    Weak.recycle (h.id, h.gen)
    pure (0, 0)
  | .reserve => Weak.reserve
  | .flush => do
    Weak.flush
    pure (0, 0)
  | .alive h => do
    if ← Weak.alive (h.id, h.gen) then pure (1, 0) else pure (0, 0)

/-- Thread `t` makes calls and notes the answers, from number `k` on. -/
def using_ (t : Nat) : Nat → List PCall → P Unit
  | _, [] => pure ()
  | k, c :: cs => do
    let a ← c.prog
    let _ ← write (noteId t k) a.1
    let _ ← write (noteGen t k) a.2
    using_ t (k + 1) cs

/-- Whose turn it is. -/
def turn : Loc := .user 0

/-- Threads with these calls take turns, in this order. -/
def poolUsers (ordL ordS : Order) (f : Nat) (css : List (List PCall)) : Nat → P Unit :=
  turnThreads ordL ordS turn f (css.mapIdx fun t cs => using_ t 0 cs)

def useStart (ordL ordS : Order) (f : Nat) (css : List (List PCall)) (F G : List Nat) : St Loc (Prog Loc Unit) :=
  .init (pooled 2 F G) (poolUsers ordL ordS f css)

end CoEcs.Weak

namespace CoEcs

/-- The answer of the pool, without threads; `none` is undefined behaviour. -/
def Pool.call (p : Pool) : Weak.PCall → Option (Pool × (Int × Int))
  | .create => p.create.map fun r => (r.1, ((r.2.id : Int), (r.2.gen : Int)))
  | .recycle h => some (p.recycle h, (0, 0))
  | .reserve => p.reserve.map fun r => (r.1, ((r.2.id : Int), (r.2.gen : Int)))
  | .flush => some (p.flush, (0, 0))
  | .alive h => some (p, (if p.alive h then 1 else 0, 0))

def Pool.calls : Pool → List Weak.PCall → Option (Pool × List (Int × Int))
  | p, [] => some (p, [])
  | p, c :: cs => (p.call c).bind fun r => (r.1.calls cs).map fun r' => (r'.1, r.2 :: r'.2)

/-- The calls of the threads, one thread after the other. -/
def Pool.callsAll : Pool → List (List Weak.PCall) → Option (Pool × List (List (Int × Int)))
  | p, [] => some (p, [])
  | p, cs :: css => (p.calls cs).bind fun r => (r.1.callsAll css).map fun r' => (r'.1, r.2 :: r'.2)

end CoEcs
