import Verif.Spec.WeakUse
import Verif.Model.WeakPool

/-!
# Threads that use work-stealing queues and tasks in turns
-/

namespace CoEcs.Weak

/-- Calls on the queues of the workers, and on tasks. -/
inductive QCall where
  | push (w : Nat) (o : Int)
  | pop (w : Nat)
  | steal (w : Nat)
  deriving DecidableEq, Repr

/-- An answer as two numbers: whether there is a value, and the value. -/
def optPair : Option Int → Int × Int
  | some v => (1, v)
  | none => (0, 0)

/-- A call and its answer; `fresh` is the address of a new array, should one be needed. -/
def QCall.prog (fresh : Int) : QCall → P (Int × Int)
  | .push w o => do
    Weak.push w fresh o
    pure (0, 0)
  | .pop w => do
    let r ← Weak.pop w
    pure (optPair r)
  | .steal w => do
    let r ← Weak.steal w
    pure (optPair r)

/-- Thread `t` makes calls and notes the answers, from number `k` on; `n` addresses have been used up. -/
def queueing (t : Nat) : Nat → Nat → List QCall → P Unit
  | _, _, [] => pure ()
  | n, k, c :: cs => do
    let a ← c.prog (-(n : Int) - 1)
    let _ ← write (noteId t k) a.1
    let _ ← write (noteGen t k) a.2
    queueing t (n + 1) (k + 1) cs

/-- The programs of threads with these calls. -/
def queueProgs (css : List (List QCall)) : List (P Unit) := css.mapIdx fun t cs => queueing t (css.take t).flatten.length 0 cs

/-- Threads with these calls take turns, in this order; all queues are empty and have capacity `c`. -/
def queueStart (c : Nat) (ordL ordS : Order) (f : Nat) (css : List (List QCall)) : St Loc (Prog Loc Unit) :=
  .init (initial c) (turnThreads ordL ordS turn f (queueProgs css))

/-- What the calls mean for double-ended queues, one per worker. -/
def QCall.ref (q : Nat → List Int) : QCall → (Nat → List Int) × (Int × Int)
  | .push w o => (fun x => if x = w then q w ++ [o] else q x, (0, 0))
  | .pop w => (fun x => if x = w then (q w).dropLast else q x, optPair (q w).getLast?)
  | .steal w => (fun x => if x = w then (q w).drop 1 else q x, optPair (q w).head?)

def QCall.refs : (Nat → List Int) → List QCall → (Nat → List Int) × List (Int × Int)
  | q, [] => (q, [])
  | q, c :: cs => ((QCall.refs (c.ref q).1 cs).1, (c.ref q).2 :: (QCall.refs (c.ref q).1 cs).2)

def QCall.refsAll : (Nat → List Int) → List (List QCall) → (Nat → List Int) × List (List (Int × Int))
  | q, [] => (q, [])
  | q, cs :: css => ((QCall.refsAll (QCall.refs q cs).1 css).1, (QCall.refs q cs).2 :: (QCall.refsAll (QCall.refs q cs).1 css).2)

/-- The queue of worker `w` is in memory, in the array at `a` with capacity `2 ^ e`, from index `T` on. -/
structure DequeAt (s : Store Loc) (w : Nat) (a : Int) (e T : Nat) (q : List Int) : Prop where
  arr : s.atom (.array w) = a
  cap : s.cell (.cap a) = ((2 ^ e : Nat) : Int)
  mask : s.cell (.mask a) = ((2 ^ e : Nat) : Int) - 1
  top : s.atom (.top w) = (T : Int)
  bot : s.atom (.bottom w) = ((T + q.length : Nat) : Int)
  fits : q.length ≤ 2 ^ e
  item : ∀ (i : Nat) (v : Int), q[i]? = some v → s.atom (.cell a ((T + i) % 2 ^ e)) = v

end CoEcs.Weak
