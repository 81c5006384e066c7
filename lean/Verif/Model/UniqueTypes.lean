/-!
# Model of `detail::unique_types` (/repo/include/co_ecs/detail/type_traits.hpp:50-84)

The template is a class without members for every list of types; `create_impl` has a local variable of it
(base_registry.hpp:143).  A type is an element of any `α`; equality is `std::is_same`.
-/

namespace CoEcs.UniqueTypes
variable {α : Type}

/-- The direct bases, type_traits.hpp:80-84; the other specialisations have none (56-73). -/
def bases : List α → List (List α)
  | a :: b :: c :: rest => [[a, b], a :: c :: rest, b :: c :: rest]
  | _ => []

/-- Does the compiler accept the class?  The primary template is only declared, but every list has a
specialisation: none for no type and for one type (56-64), the assertion for two (70-73), and for three or more a class with
three bases (80-84), each of which must be accepted and no two of which may be the same class. -/
def accepted [DecidableEq α] : List α → Bool
  | [] => true
  | [_] => true
  | [a, b] => decide (a ≠ b)
  | a :: b :: c :: rest =>
    decide (bases (a :: b :: c :: rest)).Nodup && accepted [a, b] && accepted (a :: c :: rest) && accepted (b :: c :: rest)
termination_by l => l.length

/-- All objects an object of the class consists of: itself and, for each base, those of the object of the base.  The bases are not
virtual, so a class that is a base in two ways gives two objects. -/
def subobjects : List α → List (List α)
  | a :: b :: c :: rest => (a :: b :: c :: rest) :: [a, b] :: (subobjects (a :: c :: rest) ++ subobjects (b :: c :: rest))
  | l => [l]
termination_by l => l.length

/-- Addresses of these objects, relative to the whole one, which takes `size` bytes: inside, and two objects of the same class are not at
the same address ([intro.object]; this is required of empty classes too). -/
structure Placed (ts : List α) (size : Nat) (addr : Nat → Nat) : Prop where
  inside : ∀ i, i < (subobjects ts).length → addr i < size
  apart : ∀ (i j : Nat) (t : List α), (subobjects ts)[i]? = some t → (subobjects ts)[j]? = some t → i ≠ j → addr i ≠ addr j

end CoEcs.UniqueTypes
