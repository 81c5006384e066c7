import Verif.Model.Component
import Verif.Model.SparseTable

/-!
# Model of access patterns (/repo/include/co_ecs/system/access.hpp) and of the patterns systems declare
(/repo/include/co_ecs/system/system.hpp)
-/

namespace CoEcs

/-- `access_type`, access.hpp:10-14, in order. -/
inductive AccessType where
  | none
  | read
  | write
  deriving DecidableEq, Repr

/-- `std::max` on the underlying values 0, 1, 2. -/
def AccessType.max : AccessType → AccessType → AccessType
  | .write, _ => .write
  | _, .write => .write
  | .read, _ => .read
  | _, .read => .read
  | .none, .none => .none

/-- `access_pattern_t`: data members at access.hpp:133-134. -/
structure Access where
  reg : AccessType
  comps : SparseTable AccessType

namespace Access

/-- Default constructor, access.hpp:25. -/
def empty : Access := ⟨.none, SparseTable.empty⟩

/-- `access_pattern_t(registry_access)`, access.hpp:30-31. -/
def ofRegistry (a : AccessType) : Access := ⟨a, SparseTable.empty⟩

/-- `access_pattern_t(access, meta)`, access.hpp:37-39. -/
def ofComponent (a : AccessType) (m : CompMeta) : Obs Access :=
  match (SparseTable.empty : SparseTable AccessType).emplace 32 m.id a with
  | .ok t _ => .ok ⟨.none, t⟩
  | .throw _ e => .throw e
  | .ub => .ub

/-- `writes_all`, access.hpp:61-63. -/
def writesAll (p : Access) : Bool := p.reg == .write

/-- `reads_all`, access.hpp:69-71. -/
def readsAll (p : Access) : Bool := p.reg != .none

/-- `writes`, access.hpp:77-90. -/
def writes (p : Access) (id : Nat) : Obs Bool :=
  if p.reg = .write then .ok true
  else
    match p.comps.find id with
    | .ub => .ub
    | .throw e => .throw e
    | .ok none => .ok false
    | .ok (some i) =>
      match p.comps.deref i with
      | .ub => .ub
      | .throw e => .throw e
      | .ok e => .ok (e.2 == .write)

/-- `reads`, access.hpp:96-106. -/
def reads (p : Access) (id : Nat) : Obs Bool :=
  if p.reg ≠ .none then .ok true
  else
    match p.comps.find id with
    | .ub => .ub
    | .throw e => .throw e
    | .ok none => .ok false
    | .ok (some _) => .ok true

/-- One iteration of the loop of `allows`, access.hpp:50-52: `(access == write && other.reads(id)) ||
other.writes(id)` with short-circuit evaluation; `true` means "return false". -/
def clash (other : Access) (id : Nat) (a : AccessType) : Obs Bool :=
  match (if a = .write then other.reads id else .ok false) with
  | .ub => .ub
  | .throw e => .throw e
  | .ok true => .ok true
  | .ok false => other.writes id

/-- The loop of `allows`, access.hpp:49-55. -/
def allowsLoop (other : Access) : List (Nat × AccessType) → Obs Bool
  | [] => .ok true
  | e :: es =>
    match clash other e.1 e.2 with
    | .ub => .ub
    | .throw x => .throw x
    | .ok true => .ok false
    | .ok false => allowsLoop other es

/-- `allows`, access.hpp:44-56. -/
def allows (p other : Access) : Obs Bool :=
  if (p.writesAll && other.readsAll) || (p.readsAll && !other.readsAll) then .ok false
  else allowsLoop other p.comps.dense

/-- One iteration of the loop of `operator&=`, access.hpp:125-127: the right-hand side of the
assignment is evaluated first. -/
def mergeOne (t : SparseTable AccessType) (id : Nat) (a : AccessType) : Obs (SparseTable AccessType) :=
  match t.index 32 id .none with
  | .ub => .ub
  | .throw _ e => .throw e
  | .ok t' i =>
    match t'.deref i with
    | .ub => .ub
    | .throw e => .throw e
    | .ok e =>
      match t'.assign 32 id .none (a.max e.2) with
      | .ub => .ub
      | .throw _ e => .throw e
      | .ok t'' _ => .ok t''

/-- The loop of `operator&=`. -/
def mergeLoop : SparseTable AccessType → List (Nat × AccessType) → Obs (SparseTable AccessType)
  | t, [] => .ok t
  | t, e :: es =>
    match mergeOne t e.1 e.2 with
    | .ub => .ub
    | .throw x => .throw x
    | .ok t' => mergeLoop t' es

/-- `operator&=` (access.hpp:122-130) and `operator&` (112-116), which copies and then applies it. -/
def merge (p rhs : Access) : Obs Access :=
  match mergeLoop p.comps rhs.comps.dense with
  | .ub => .ub
  | .throw e => .throw e
  | .ok t => .ok ⟨p.reg.max rhs.reg, t⟩

end Access

/-- Parameter types a system function may have (the specialisations of `system_argument_state_trait`,
system.hpp:215-221, 252-258, 289-295, 343-351).  A view lists its components; `true` is a
non-const reference. -/
inductive SysArg where
  | registry
  | constRegistry
  | commandWriter
  | view (args : List (Bool × CompMeta))
  deriving DecidableEq, Repr

/-- Right fold `(x & ...)` over a non-empty pack. -/
def foldAnd : Obs Access → List (Obs Access) → Obs Access
  | x, [] => x
  | x, y :: ys =>
    match x, foldAnd y ys with
    | .ok a, .ok b => a.merge b
    | _, _ => .ub

/-- `access_pattern` of one argument: registry 207-209; `const registry&` also uses
`system_registry_state` (system.hpp:252-258; `system_const_registry_state`, 223-250, is used nowhere); command writer 281-283; view
317-337.  A view has at least one argument. -/
def SysArg.pattern : SysArg → Obs Access
  | .registry => .ok (Access.ofRegistry .write)
  | .constRegistry => .ok (Access.ofRegistry .write)
  | .commandWriter => .ok Access.empty
  | .view args =>
    match args.map fun a => Access.ofComponent (if a.1 then .write else .read) a.2 with
    | [] => .ub
    | x :: xs => foldAnd x xs

/-- `system_state::access_pattern`, system.hpp:86-92. -/
def sysPattern (args : List SysArg) : Obs Access :=
  match args.map SysArg.pattern with
  | [] => .ok Access.empty
  | x :: xs =>
    match foldAnd x xs with
    | .ok a => Access.empty.merge a
    | .throw e => .throw e
    | .ub => .ub

end CoEcs
