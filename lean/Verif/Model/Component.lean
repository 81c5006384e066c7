import Verif.Model.Bitset
import Verif.Model.HashTable

/-!
# Model of component.hpp: type ids, component metadata, component sets
(/repo/include/co_ecs/component.hpp)
-/

namespace CoEcs

/-- Number of values of `component_id_t` (`std::uint32_t`, component.hpp:72). -/
def IdMod : Nat := 4294967296

/-- State of `type_registry`, component.hpp:44-55: the name-to-id map and the next id.  `N` is the type
of names (`std::string_view`). -/
structure TypeRegistry (N : Type) where
  map : HTable N Nat
  next : Nat

/-- The function-local statics before the first call. -/
def TypeRegistry.init {N : Type} : TypeRegistry N := ⟨HTable.empty, 0⟩

/-- `type_registry::id`, component.hpp:32-39, with 32-bit ids as instantiated at line 78. -/
def TypeRegistry.id {N : Type} [DecidableEq N] (h : N → Nat) (fuel : Nat) (r : TypeRegistry N) (name : N) :
    Run (TypeRegistry N × Nat) :=
  (r.map.emplace h false fuel name r.next).bind fun res =>
    (res.1.deref res.2.1).bind fun e =>
      .ok (⟨res.1, if res.2.2 then (r.next + 1) % IdMod else r.next⟩, e.val)

/-- A sequence of lookups, collecting the ids.  (Dispatch only.) -/
def TypeRegistry.ids {N : Type} [DecidableEq N] (h : N → Nat) (fuel : Nat) (r : TypeRegistry N) :
    List N → Run (TypeRegistry N × List Nat)
  | [] => .ok (r, [])
  | n :: ns => (r.id h fuel n).bind fun x => (x.1.ids h fuel ns).bind fun y => .ok (y.1, x.2 :: y.2)

/-- `component_meta` (component.hpp:145-178) with the fields of `type_meta` that the storage layer
uses (type_meta.hpp:91-97): size, alignment, whether `copy_construct` works or throws. -/
structure CompMeta where
  id : Nat
  size : Nat
  align : Nat
  copyable : Bool := true
  deriving DecidableEq, Repr

/-- `component_meta_set`, component.hpp:276-406: members at 403-405. -/
structure MetaSet where
  set : Bitset
  metas : List CompMeta
  deriving DecidableEq, Repr

namespace MetaSet

/-- Default constructor: both members value-initialised (component.hpp:260, 404-405). -/
def empty : MetaSet := ⟨Bitset.mk' 1, []⟩

/-- `contains`, component.hpp:348-350 and 240-242. -/
def contains (s : MetaSet) (id : Nat) : Bool := s.set.test id

/-- `insert`, component.hpp:324-330. -/
def insert (s : MetaSet) (m : CompMeta) : MetaSet :=
  if s.contains m.id then s else ⟨s.set.set m.id true, s.metas ++ [m]⟩

/-- `erase`, component.hpp:335-341. -/
def erase (s : MetaSet) (id : Nat) : MetaSet :=
  if s.contains id then ⟨s.set.set id false, s.metas.filter fun m => m.id ≠ id⟩ else s

/-- `create<Args...>`, component.hpp:289-294. -/
def create (ms : List CompMeta) : MetaSet := ms.foldl insert empty

end MetaSet

/-- Calls on a component list. -/
inductive MetaSetOp where
  | insert (m : CompMeta)
  | erase (id : Nat)
  deriving DecidableEq, Repr

/-- (Dispatch only.) -/
def MetaSet.step (s : MetaSet) : MetaSetOp → MetaSet
  | .insert m => s.insert m
  | .erase id => s.erase id

def MetaSet.run (s : MetaSet) (ops : List MetaSetOp) : MetaSet := ops.foldl MetaSet.step s

end CoEcs
