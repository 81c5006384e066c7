import Verif.Model.HandlePool

/-!
# Comparing references to entities
(/repo/include/co_ecs/entity_ref.hpp:325-347, 466-488, detail/handle.hpp:57-60)

`entity_ref` and `const_entity_ref` declare no comparison operators.  Both convert implicitly to `entity` and to `bool`.  What
`x == y` means is then settled by overload resolution, which is modelled for operands of these three types.  Trusted: the rules
of [over.match.oper], [over.built] and [over.best.ics] as transcribed here.
-/

namespace CoEcs.Cmp

/-- The types of the operands: `entity` (entity.hpp:13), `entity_ref`, `const_entity_ref`. -/
inductive Kind where
  | ent
  | ref
  | cref
  deriving DecidableEq, Repr

/-- The promoted arithmetic types, the parameter types of the built-in comparisons ([over.built]). -/
inductive Arith where
  | int | uint | long | ulong | llong | ullong | float | double | ldouble
  deriving DecidableEq, Repr

def Arith.all : List Arith := [.int, .uint, .long, .ulong, .llong, .ullong, .float, .double, .ldouble]

/-- The functions among which `==` (and `<`, `<=>`) chooses.  `member` is the defaulted comparison of `handle`
(detail/handle.hpp:60) called on the left operand, `reversed` the same on the right operand with the operands exchanged (C++20),
and `builtin l r` the built-in comparison.  No comparison declared elsewhere in the library accepts these operands. -/
inductive Cand where
  | member
  | reversed
  | builtin (l r : Arith)
  deriving DecidableEq, Repr

def Cand.all : List Cand := .member :: .reversed :: Arith.all.flatMap fun l => Arith.all.map fun r => .builtin l r

/-- Rank of the conversion of an operand to a parameter of type `entity`: 0 for the same type, 1 for `operator entity`
(entity_ref.hpp:331-333, 472-474). -/
def Kind.toEnt : Kind → Nat
  | .ent => 0
  | _ => 1

/-- Rank of the conversion to an arithmetic type: for references `operator bool` (entity_ref.hpp:341-343, 482-484) followed by a
promotion (`int`) or a conversion; an `entity` has none. -/
def Kind.toArith : Kind → Arith → Option Nat
  | .ent, _ => none
  | _, .int => some 1
  | _, _ => some 2

/-- The ranks of the conversions of the two operands, `none` if the candidate is not viable.  A member is called on an operand
of its own class only: the object is not converted. -/
def Cand.ranks (a b : Kind) : Cand → Option (Nat × Nat)
  | .member => if a = .ent then some (0, b.toEnt) else none
  | .reversed => if b = .ent then some (a.toEnt, 0) else none
  | .builtin l r =>
    match a.toArith l, b.toArith r with
    | some x, some y => some (x, y)
    | _, _ => none

/-- `c` is a better candidate than `d`: no conversion is worse and one is better, or, all being equal, only `d` has its operands
exchanged ([over.match.best]). -/
def Cand.better (a b : Kind) (c d : Cand) : Bool :=
  match c.ranks a b, d.ranks a b with
  | some (x, y), some (u, v) => decide (x ≤ u) && decide (y ≤ v) && (decide (x < u) || decide (y < v) || (d == .reversed && c != .reversed))
  | _, _ => false

/-- The candidate chosen: better than every other viable one.  `none` is a program that does not compile. -/
def resolve (a b : Kind) : Option Cand :=
  Cand.all.find? fun c => (c.ranks a b).isSome && Cand.all.all fun d => d == c || (d.ranks a b).isNone || c.better a b d

/-- An operand: its type and the handle in it (for references `_entity`, entity_ref.hpp:347, 488).  The registry it belongs to
takes no part in comparisons. -/
structure Operand where
  kind : Kind
  handle : Handle
  deriving DecidableEq, Repr

/-- `operator bool`, entity_ref.hpp:341-343, 482-484. -/
def Operand.toBool (x : Operand) : Bool := x.handle.valid

/-- `x <=> y`: with a built-in comparison of the results of `operator bool`, as integers. -/
def compare3 (x y : Operand) : Option Ordering :=
  match resolve x.kind y.kind with
  | some .member => some (x.handle.cmp y.handle)
  | some .reversed => some (y.handle.cmp x.handle).swap
  | some (.builtin _ _) => some (compare x.toBool.toNat y.toBool.toNat)
  | none => none

/-- `x == y`. -/
def eq (x y : Operand) : Option Bool := (compare3 x y).map (· == .eq)

/-- `x < y`. -/
def less (x y : Operand) : Option Bool := (compare3 x y).map (· == .lt)

/-- `std::find(begin, end, x)`: the position found. -/
def find (x : Operand) : List Operand → Nat
  | [] => 0
  | y :: ys => if eq y x = some true then 0 else find x ys + 1

/-- `insert` of `std::set` with the elements `l` in order: the new element goes before the first that is not less than it, unless
it is not less than that one either. -/
def setInsert (x : Operand) : List Operand → List Operand
  | [] => [x]
  | y :: ys => if less y x = some true then y :: setInsert x ys else if less x y = some true then x :: y :: ys else y :: ys

end CoEcs.Cmp
