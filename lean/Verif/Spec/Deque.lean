/-!
# Specification: a double-ended queue used through push (back), pop (back) and steal (front)
-/

namespace CoEcs.Spec

inductive DequeOp (V : Type) where
  | push (v : V)
  | pop
  | steal
  | size
  deriving DecidableEq

inductive DequeOut (V : Type) where
  | done
  /-- a returned `optional` -/
  | item (v : Option V)
  | size (n : Nat)
  deriving DecidableEq

variable {V : Type}

/-- What an operation returns and leaves behind, front first. -/
def dequeStep (l : List V) : DequeOp V → DequeOut V × List V
  | .push v => (.done, l ++ [v])
  | .pop => (.item l.getLast?, l.dropLast)
  | .steal => (.item l.head?, l.tail)
  | .size => (.size l.length, l)

def dequeRun : List V → List (DequeOp V) → List (DequeOut V)
  | _, [] => []
  | l, o :: os => (dequeStep l o).1 :: dequeRun (dequeStep l o).2 os

end CoEcs.Spec
