import Verif.Model.WeakPool

/-!
# Clients of the work-stealing queue

An owner that pushes and pops in any order and thieves that steal.  The owner writes a variable before it pushes the address of
it, here its number; whoever gets the number reads the variable and writes it.  So a variable is 0 before it is prepared,
1 when it is ready, and how often it was received can be read off it.
-/

namespace CoEcs.Weak

/-- What the owner does next. -/
inductive OwnerOp where
  | push | pop
  deriving DecidableEq

/-- The variable was received. -/
def use (v : Int) : P Unit := do
  let x ← read (.user v.toNat)
  let _ ← write (.user v.toNat) (x + 1)
  pure ()

/-- The owner of queue 0; `k` variables have been pushed. -/
def owner (k : Nat) : List OwnerOp → P Unit
  | [] => pure ()
  | .push :: r => do
    let _ ← write (.user k) 1
    push 0 ((k : Int) + 2) k
    owner (k + 1) r
  | .pop :: r => do
    let v ← pop 0
    match v with
    | some v => do
      use v
      owner k r
    | none => owner k r

/-- A thief that tries `n` times. -/
def thief : Nat → P Unit
  | 0 => pure ()
  | n + 1 => do
    let v ← steal 0
    match v with
    | some v => do
      use v
      thief n
    | none => thief n

/-- The owner is thread 0, all others are thieves. -/
def dequeThreads (ops : List OwnerOp) (n : Nat → Nat) (t : Nat) : P Unit :=
  if t = 0 then owner 0 ops else thief (n t)

/-- The start, with capacity `c`. -/
def dequeStart (c : Nat) (ops : List OwnerOp) (n : Nat → Nat) : St Loc (Prog Loc Unit) :=
  .init (initial c) (dequeThreads ops n)

/-- No array but the first one has been touched: the queue has not begun to grow. -/
def NotGrown (m : Mem Loc) : Prop := ∀ a : Int, a ≠ 1 → m.accs (.cap a) = []

/-- How many times the owner pushes. -/
def pushes (ops : List OwnerOp) : Nat := ops.count .push

end CoEcs.Weak
