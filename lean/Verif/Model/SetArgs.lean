import Verif.Model.Registry

/-!
# Model of `set` and `get_or_insert` with constructor arguments
(/repo/include/co_ecs/entity_ref.hpp:143-185, command.hpp:160-175)

`Model/Registry` takes the value that a component gets.  In the code the value is made from arguments:
with parentheses, `std::construct_at(ptr, args...)`, if the component is new, and with braces,
`C{ args... }`, if it is there.  For types with a constructor from `std::initializer_list` the two give
different values (`std::vector<int>(3, 5)` and `std::vector<int>{3, 5}`), and so do `C{ x }` and `x` for
an `x` of type `C` if the elements of the list can be made from `C` (`std::vector<std::any>`).

`A` is the type of argument lists.  Constructors do not throw here (see `Model/Throwing`).
-/

namespace CoEcs

/-- The constructors of the component types. -/
structure Inits (A V : Type) where
  /-- `C(args...)` -/
  paren : Nat → A → V
  /-- `C{ args... }` -/
  brace : Nat → A → V
  /-- `C{ std::move(x) }` for an `x` of type `C` -/
  rebrace : Nat → V → V

namespace Reg
variable {V A : Type}

/-- `entity_ref::set(args...)`, entity_ref.hpp:176-185. -/
def setArgs (ini : Inits A V) (ty : Types) (r : Reg V) (h : Handle) (c : Nat) (a : A) : Res (Reg V) Unit :=
  match r.setImpl ty h c with
  | .ub => .ub
  | .throw r e => .throw r e
  | .ok r' (inserted, l) =>
    match (if inserted then r'.writeAt l c true (ini.paren c a) else r'.writeAt l c false (ini.brace c a)) with
    | none => .ub
    | some r'' => .ok r'' ()

/-- `entity_ref::set(std::move(x))` with one argument of the type itself: the move constructor, or the
braces around it. -/
def setValue (ini : Inits A V) (ty : Types) (r : Reg V) (h : Handle) (c : Nat) (x : V) : Res (Reg V) Unit :=
  r.setArgs ⟨fun _ y => y, ini.rebrace, ini.rebrace⟩ ty h c x

/-- What `command_entity_ref::set(args...)` does to the destination when it is flushed: the staged value is
`C{ args... }` (command.hpp:167), and it is passed on as an rvalue (command.hpp:170-173). -/
def setCommand (ini : Inits A V) (ty : Types) (r : Reg V) (h : Handle) (c : Nat) (a : A) : Res (Reg V) Unit :=
  r.setValue ini ty h c (ini.brace c a)

/-- `get_or_insert(args...)`, entity_ref.hpp:149-156. -/
def insertArgs (ini : Inits A V) (ty : Types) (r : Reg V) (h : Handle) (c : Nat) (a : A) : Res (Reg V) V :=
  match r.setImpl ty h c with
  | .ub => .ub
  | .throw r e => .throw r e
  | .ok r' (inserted, l) =>
    match (if inserted then r'.writeAt l c true (ini.paren c a) else some r') with
    | none => .ub
    | some r'' =>
      match r''.readAt l c with
      | none => .ub
      | some v => .ok r'' v

end Reg
end CoEcs
