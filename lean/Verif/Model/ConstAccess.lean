import Verif.Model.ViewRange

/-!
# What can be reached from const objects
(/repo/include/co_ecs/registry.hpp, base_registry.hpp, entity_ref.hpp, view.hpp, view_arguments.hpp, archetype.hpp, chunk.hpp)

The overloads of the public members of the library are listed with the constness of the object they can be called on and
of what they return.  A program is a chain of calls, each on the result of the one before; casts that remove `const` are
left out.  Components do not themselves contain pointers to registries.  Trusted: overload resolution on the constness of
the object, and that `operator->` of a const `std::unique_ptr<T>` gives `T&`.
-/

namespace CoEcs.ConstAccess

/-- A reference type in the arguments of a view (component.hpp:94-142): `none` is the type `entity`. -/
structure Arg where
  comp : Option Nat
  const : Bool
  deriving DecidableEq, Repr

/-- `const_component_references_v<Args...>`, component.hpp:133-142; `is_const` of `view_arguments`, `view`, `chunk_view`
(view_arguments.hpp:17-20, 32-37, view.hpp:39, chunk.hpp:347). -/
def isConst (args : List Arg) : Bool := args.all (·.const)

/-- The pointers fetched for the arguments, with whether one can write through them; `none` if `ptr_mut<entity>` is asked
for, which a `static_assert` rejects (chunk.hpp:220-223, 313-335). -/
def fetches (args : List Arg) : Option (List Bool) :=
  if args.any (fun x => x.comp.isNone && !x.const) then none else some (args.map fun x => !x.const)

/-- What an expression gives: `k` says that the object is const. -/
inductive Ty where
  | registry (k : Bool)
  | archetypes (k : Bool)
  /-- an element of the map of archetypes, a `std::pair<component_set, std::unique_ptr<archetype>>` -/
  | bucket (k : Bool)
  | archetype (k : Bool)
  /-- the `std::vector` of chunks -/
  | chunks (k : Bool)
  | chunk (k : Bool)
  | view (k : Bool) (args : List Arg)
  | chunkView (args : List Arg)
  | entityRef (k : Bool)
  | constEntityRef
  /-- references or pointers to components, with whether they are to non-const -/
  | refs (l : List Bool)
  /-- a number, a truth value, an entity, a description of a component; or access to another registry only -/
  | value
  deriving DecidableEq, Repr

/-- The members called. -/
inductive Call where
  /-- a member that is declared non-const and changes the object -/
  | modify
  /-- a member that only returns values -/
  | query
  | archetypes
  | archetype
  | getEntity
  | getEntityConst
  | view (args : List Arg)
  | single (args : List Arg)
  /-- the components given to the function -/
  | each (args : List Arg)
  /-- the components given to the function -/
  | visit
  | element
  | second
  | chunks
  /-- `get` of `n` components -/
  | get (n : Nat)
  | ptrConst
  | ptrMut
  | chunkView (args : List Arg)
  /-- the copy constructor -/
  | copyRef
  /-- `copy` into a registry the caller has non-const access to -/
  | copyTo
  | clone
  /-- an assignment to the component of number `i` -/
  | write (i : Nat)
  deriving DecidableEq, Repr

/-- The result of a call. -/
inductive Out where
  /-- the call does not compile -/
  | no
  | ty (t : Ty)
  /-- the call changes the registry -/
  | changes
  deriving DecidableEq, Repr

/-- References to what the pointers point to. -/
def Out.refs : Option (List Bool) → Out
  | none => .no
  | some l => .ty (.refs l)

/-- Members that are only there for non-const objects. -/
def Out.unless (k : Bool) (o : Out) : Out := if k then .no else o

/-- `registry` and `base_registry`.
`create`, `destroy`, `reserve`, `sync`: registry.hpp:38-41, base_registry.hpp:55-67, 98-106, non-const.
`alive`, `has`, `size`, `empty`: const.  `archetypes`: base_registry.hpp:76-89.
`get_entity`: registry.hpp:50-78.  `view`, `single`: registry.hpp:84-124.  `each`: registry.hpp:146-169, for a function
whose parameters are `args`.  `visit`: base_registry.hpp:119-135, where also the non-const one calls the const
`archetype::visit` (archetype.hpp:142-144).  `modify` of the registry includes assigning to it. -/
def registryCall (k : Bool) : Call → Out
  | .modify => .unless k .changes
  | .query => .ty .value
  | .archetypes => .ty (.archetypes k)
  | .getEntity => .ty (if k then .constEntityRef else .entityRef false)
  | .getEntityConst => .ty .constEntityRef
  | .view args => if isConst args || !k then .ty (.view false args) else .no
  | .single args => if isConst args || !k then .refs (fetches args) else .no
  | .each args => if isConst args || !k then .refs (fetches args) else .no
  | .visit => .ty (.refs [false])
  | _ => .no

/-- `archetypes`, archetype.hpp:292-405: `ensure_archetype…` non-const, iterators to const or non-const pairs,
`operator*` of which is const (hash_table.hpp:175-185, 231-233). -/
def archetypesCall (k : Bool) : Call → Out
  | .modify => .unless k .changes
  | .query => .ty .value
  | .element => .ty (.bucket k)
  | _ => .no

/-- A pair in the map: the pointer can be reset, or followed; the archetype it points to is non-const in both cases. -/
def bucketCall (k : Bool) : Call → Out
  | .modify => .unless k .changes
  | .query => .ty .value
  | .second => .ty (.archetype false)
  | _ => .no

/-- `archetype`, archetype.hpp:35-175: `emplace`, `swap_erase`, `move`, `copy` non-const, `components`, `contains` const,
`chunks`, `get` (of one component) in two versions, `visit` const. -/
def archetypeCall (k : Bool) : Call → Out
  | .modify => .unless k .changes
  | .query => .ty .value
  | .chunks => .ty (.chunks k)
  | .get n => if n = 1 then .ty (.refs [!k]) else .no
  | .visit => .ty (.refs [false])
  | _ => .no

/-- `std::vector<chunk>`. -/
def chunksCall (k : Bool) : Call → Out
  | .modify => .unless k .changes
  | .query => .ty .value
  | .element => .ty (.chunk k)
  | _ => .no

/-- `chunk`, chunk.hpp:106-263: `emplace_back`, `pop_back`, `swap_erase`, `move`, `copy` non-const, `visit` in two versions,
`ptr_const` const, `ptr_mut` non-const.  The constructor of `chunk_view` takes a non-const chunk unless all arguments are
const (chunk.hpp:347-349, 444-446). -/
def chunkCall (k : Bool) : Call → Out
  | .modify => .unless k .changes
  | .query => .ty .value
  | .visit => .ty (.refs [!k])
  | .ptrConst => .ty (.refs [false])
  | .ptrMut => .unless k (.ty (.refs [true]))
  | .chunkView args => if isConst args || !k then .ty (.chunkView args) else .no
  | _ => .no

/-- `view`, view.hpp:63-157: `single`, `each`, `par_each` for const objects only if all arguments are const; `chunks` in
two versions that do the same, as the registry is a reference. -/
def viewCall (k : Bool) (args : List Arg) : Call → Out
  | .single _ => if isConst args || !k then .refs (fetches args) else .no
  | .each _ => if isConst args || !k then .refs (fetches args) else .no
  | .chunks => .ty (.chunkView args)
  | _ => .no

/-- `entity_ref`, entity_ref.hpp:31-343: `get_or_insert`, `set`, `remove`, `destroy`, `clone` into a placeholder, `move`
non-const; `archetype` const, giving a const archetype; `get` of one component in two versions, of more in two versions
that both pass `_registry.get()`, a non-const registry (lines 118-121, 133-136, base_registry.hpp:194-203); `visit` gives
pointers to const; `clone()` and `copy` const. -/
def entityRefCall (k : Bool) : Call → Out
  | .modify => .unless k .changes
  | .query => .ty .value
  | .archetype => .ty (.archetype true)
  | .get n => if n = 0 then .no else if n = 1 then .ty (.refs [!k]) else .ty (.refs (List.replicate n true))
  | .visit => .ty (.refs [false])
  | .copyRef => .ty (.entityRef false)
  | .clone => .changes
  | .copyTo => .ty .value
  | _ => .no

/-- `const_entity_ref`, entity_ref.hpp:355-484: all members const, with a const registry. -/
def constEntityRefCall : Call → Out
  | .query => .ty .value
  | .archetype => .ty (.archetype true)
  | .get n => if n = 0 then .no else .ty (.refs (List.replicate n false))
  | .visit => .ty (.refs [false])
  | .copyRef => .ty .constEntityRef
  | .copyTo => .ty .value
  | _ => .no

/-- One call.  (Dispatch; `chunk_view::begin` and `*` are const or on a local copy, chunk.hpp:396-459.) -/
def call : Ty → Call → Out
  | .registry k, c => registryCall k c
  | .archetypes k, c => archetypesCall k c
  | .bucket k, c => bucketCall k c
  | .archetype k, c => archetypeCall k c
  | .chunks k, c => chunksCall k c
  | .chunk k, c => chunkCall k c
  | .view k args, c => viewCall k args c
  | .chunkView args, c => match c with
    | .element => .refs (fetches args)
    | _ => .no
  | .entityRef k, c => entityRefCall k c
  | .constEntityRef, c => constEntityRefCall c
  | .refs l, c => match c with
    | .write i => if l[i]? = some true then .changes else .no
    | _ => .no
  | .value, _ => .no

/-- A chain of calls. -/
def run : Ty → List Call → Out
  | t, [] => .ty t
  | t, c :: cs =>
    match call t c with
    | .ty t' => run t' cs
    | .changes => if cs.isEmpty then .changes else .no
    | .no => .no

end CoEcs.ConstAccess

namespace CoEcs.Reg

/-- What `*registry.archetypes()[p].second->chunks()[ci].ptr_mut<C>(idx) = v` does, where `[p]` is the element in bucket `p`
of the map: base_registry.hpp:87-89, archetype.hpp:42-44, 389-391, chunk.hpp:220-223, 284-288. -/
def writeInBucket {V : Type} (r : Reg V) (p ci idx c : Nat) (v : V) : Option (Reg V) :=
  match r.archs.map.slot? p with
  | some (some e) =>
    match r.archIn e with
    | some (ai, _) => r.writeAt ⟨some ai, ci, idx⟩ c false v
    | none => none
  | _ => none

end CoEcs.Reg
