import Verif.Model.Outcome

/-!
# Model of the extraction of type names
(/repo/include/co_ecs/type_meta.hpp:14-26, /repo/include/co_ecs/detail/macro.hpp:4-12)

Characters are Lean characters; a `std::string_view` is a list of them, of length below 2^64.
-/

namespace CoEcs

/-- `std::string_view::npos`. -/
def npos : Nat := 2 ^ 64 - 1

/-- `s.find_first_of(c)`, used in type_meta.hpp:18. -/
def findFirstOf (c : Char) (s : List Char) : Nat :=
  match s.findIdx? (· == c) with
  | some i => i
  | none => npos

/-- `s.find_last_of(c)`, used in type_meta.hpp:19: the largest index with the character. -/
def findLastOf (c : Char) (s : List Char) : Nat :=
  match s.reverse.findIdx? (· == c) with
  | some i => s.length - 1 - i
  | none => npos

/-- `s.find_first_not_of(c, pos)`, used in type_meta.hpp:20. -/
def findFirstNotOf (c : Char) (pos : Nat) (s : List Char) : Nat :=
  match (s.drop pos).findIdx? (· != c) with
  | some i => pos + i
  | none => npos

/-- `s.substr(pos, count)`, used in type_meta.hpp:21: throws if `pos` is beyond the end. -/
def substr (pos count : Nat) (s : List Char) : Option (List Char) :=
  if pos > s.length then none else some ((s.drop pos).take count)

/-- `type_name`, type_meta.hpp:15-26, for the characters `prefix` and `suffix` of macro.hpp.  `none` is the exception of
`substr` (in a `noexcept` function, so the program terminates). -/
def typeName (pre suf : Char) (pretty : List Char) : Option (List Char) :=
  let prefixPos := findFirstOf pre pretty
  let suffixPos := findLastOf suf pretty
  let first := findFirstNotOf ' ' ((prefixPos + 1) % 2 ^ 64) pretty
  substr first ((suffixPos + 2 ^ 64 - first) % 2 ^ 64) pretty

/-- macro.hpp:6-7. -/
def clangPrefix : Char := '='
def clangSuffix : Char := ']'
/-- macro.hpp:10-11. -/
def gccPrefix : Char := '='
def gccSuffix : Char := ';'

/-- What clang puts into `__PRETTY_FUNCTION__` inside `type_name<T>` for a `T` it spells `t` (trusted). -/
def clangPretty (t : List Char) : List Char :=
  "static auto co_ecs::type_name() [T ".toList ++ '=' :: ' ' :: (t ++ ']' :: [])

/-- What gcc puts into `__PRETTY_FUNCTION__` (trusted): it adds the meaning of the alias in the return type. -/
def gccPretty (t : List Char) : List Char :=
  "constexpr std::string_view co_ecs::type_name() [with T ".toList ++ '=' :: ' ' ::
    (t ++ ';' :: " std::string_view = std::basic_string_view<char>]".toList)

end CoEcs
