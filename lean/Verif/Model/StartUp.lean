import Verif.Model.Component

/-!
# Model of component ids while a program starts and while libraries come and go
(/repo/include/co_ecs/component.hpp, type_meta.hpp, detail/macro.hpp)

`component_id::value<T>` (component.hpp:66-67) is a static data member of a class template's member
template with a dynamic initialiser.  Such a variable holds zero until its initialiser has run, and
the initialisers of instantiated variables run in no particular order with respect to other
initialisers ([basic.start.static], [basic.start.dynamic]).  Under `CO_ECS_HOST` / `CO_ECS_CLIENT`
(detail/macro.hpp:36-44) the map of names is that of the host program, while initialisers also run
in libraries that are loaded and unloaded.

Simplifications: a variable (type `V`) is one object in memory.  Two translation units that share
the object share the variable, two types with internal linkage have two variables.  Each loading of a
library is a separate `L`.  The hash table of the map is the one of `Model/HashTable`.
-/

namespace CoEcs

/-- The state: the registry of names (component.hpp:44-55), the initialised variables, the keys of the
map with the library that holds their characters (the keys are `std::string_view`s into the string
literal of `type_name`, type_meta.hpp:15-26), the libraries that were unloaded and the component lists
that were made. -/
structure Boot (V N L : Type) where
  reg : TypeRegistry N
  vars : V → Option Nat
  keys : List (N × L)
  gone : List L
  lists : List MetaSet

/-- Before anything ran. -/
def Boot.start {V N L : Type} : Boot V N L := ⟨TypeRegistry.init, fun _ => none, [], [], []⟩

/-- What happens: the initialiser of a variable runs as part of library `l`, the variable is read,
`component_meta_set::create<Args...>` is called, a list is asked for a component, a library is
unloaded. -/
inductive BootOp (V L : Type) where
  | init (v : V) (l : L)
  | read (v : V)
  | make (vs : List V)
  | ask (k : Nat) (v : V)
  | unload (l : L)
  deriving DecidableEq, Repr

/-- What the program sees. -/
inductive BootOut where
  | none
  | id (n : Nat)
  | yes (b : Bool)
  deriving DecidableEq, Repr

namespace Boot
variable {V N L : Type} [DecidableEq V] [DecidableEq N] [DecidableEq L]

/-- The value read from `component_id::value<T>`: zero before the initialiser ran. -/
def value (s : Boot V N L) (v : V) : Nat :=
  match s.vars v with
  | some a => a
  | none => 0

/-- `component_meta::of<T>`, component.hpp:151-156; `info` supplies the fields of `type_meta`. -/
def metaOf (info : V → CompMeta) (s : Boot V N L) (v : V) : CompMeta := { info v with id := s.value v }

/-- The initialiser of `value<T>`, component.hpp:66-67.  It runs once per variable (the guard of the
variable).  The look-up may compare with and rehash every stored key; if the characters of one of
them are gone this is undefined behaviour.  A name that was not there is stored as a view into
the literal of the library whose initialiser runs. -/
def init (h : N → Nat) (fuel : Nat) (name : V → N) (s : Boot V N L) (v : V) (l : L) : Run (Boot V N L) :=
  match s.vars v with
  | some _ => .ok s
  | none =>
    if s.keys.any fun k => s.gone.contains k.2 then .ub else
      (s.reg.id h fuel (name v)).bind fun x =>
        .ok { s with
          reg := x.1
          vars := fun w => if w = v then some x.2 else s.vars w
          keys := if s.keys.any fun k => k.1 = name v then s.keys else s.keys ++ [(name v, l)] }

/-- One event.  `make` is component.hpp:289-294, `ask` is component.hpp:348-350 with the id of the
type (`contains<T>`, component.hpp:316-319). -/
def step (h : N → Nat) (fuel : Nat) (name : V → N) (info : V → CompMeta) (s : Boot V N L) :
    BootOp V L → Run (Boot V N L × BootOut)
  | .init v l => (s.init h fuel name v l).bind fun s => .ok (s, .none)
  | .read v => .ok (s, .id (s.value v))
  | .make vs => .ok ({ s with lists := s.lists ++ [MetaSet.create (vs.map (s.metaOf info))] }, .none)
  | .ask k v =>
    match s.lists[k]? with
    | some c => .ok (s, .yes (c.contains (s.value v)))
    | none => .ok (s, .none)
  | .unload l => .ok ({ s with gone := s.gone ++ [l] }, .none)

/-- A sequence of events.  (Dispatch only.) -/
def run (h : N → Nat) (fuel : Nat) (name : V → N) (info : V → CompMeta) (s : Boot V N L) :
    List (BootOp V L) → Run (Boot V N L × List BootOut)
  | [] => .ok (s, [])
  | o :: os => (s.step h fuel name info o).bind fun x =>
      (x.1.run h fuel name info os).bind fun y => .ok (y.1, x.2 :: y.2)

end Boot
end CoEcs
