import Verif.Model.HashLife

/-!
# Copying, moving and swapping `detail::hash_table` (/repo/include/co_ecs/detail/hash_table.hpp)

Several tables live side by side.  Each is an `LTable`, so objects constructed in buckets and never destroyed are
counted.  The hash and equality objects (894-898) have no state and are the same for all tables, and
allocators of one type are interchangeable, so that exchanging them (426-427, 109-114) changes nothing.
Copying an element may throw; which copy throws is part of the call.  Allocation does not fail.
-/

namespace CoEcs

/-- A call on one of several tables, numbered in the order of construction. -/
inductive TabOp (K V : Type) where
  /-- `hash_table t(n)` -/
  | create (n : Nat)
  /-- a member function called on table `i` -/
  | call (i : Nat) (op : HashOp K V)
  /-- `hash_table t(a)`; `fail = some j`: the copy constructor of the element copied after `j` others throws -/
  | copy (i : Nat) (fail : Option Nat)
  /-- `d = s` -/
  | copyAssign (d s : Nat) (fail : Option Nat)
  /-- `hash_table t(std::move(a))` -/
  | move (i : Nat)
  /-- `d = std::move(s)`, and `d.swap(std::move(s))`, which does the same -/
  | moveAssign (d s : Nat)
  /-- the end of the lifetime of table `i` -/
  | destroy (i : Nat)

/-- What the caller gets. -/
inductive TabAns (K V : Type) where
  | ans (a : HashAns K V)
  | done
  /-- the exception of the element -/
  | threw
  deriving DecidableEq, Repr

namespace LTable
variable {K V : Type}

/-- The loop of the copy constructor, hash_table.hpp:388-393: the memory of the new buckets when the loop ends, and
whether it ended by an exception.  The source of every copy must be an object that lives. -/
def copyLoop : List (Option (HEntry K V)) → List Bool → Option Nat → Run (List Bool × Bool)
  | [], _, _ => .ok ([], false)
  | none :: ss, ms, fail => (copyLoop ss ms.tail fail).bind fun r => .ok (false :: r.1, r.2)
  | some _ :: ss, true :: ms, fail =>
    match fail with
    | none => (copyLoop ss ms none).bind fun r => .ok (true :: r.1, r.2)
    | some 0 => .ok (List.replicate (ss.length + 1) false, true)
    | some (j + 1) => (copyLoop ss ms (some j)).bind fun r => .ok (true :: r.1, r.2)
  | some _ :: _, _, _ => .ub

/-- Copy constructor, hash_table.hpp:385-394.  If a copy throws, the members are destroyed but not the
table, since its constructor has not finished: `~buckets` (102-104) frees the memory and no destructor of an element
is called (`uninitialized_copy_n` of one element destroys nothing), so the objects copied so far are lost. -/
def copy (t : LTable K V) (fail : Option Nat) : Run (LTable K V ⊕ Nat) :=
  (copyLoop t.tab.slots t.mem fail).bind fun r =>
    if r.2 then .ok (.inr (r.1.count true)) else .ok (.inl ⟨t.tab, r.1, 0⟩)

end LTable

/-- The tables constructed so far (`none`: destroyed), and the number of objects lost by those that are gone. -/
structure Tables (K V : Type) where
  tabs : List (Option (LTable K V))
  lost : Nat
  deriving DecidableEq, Repr

namespace Tables
variable {K V : Type} [DecidableEq K]

/-- Using a table that is not alive is undefined. -/
def get (T : Tables K V) (i : Nat) : Run (LTable K V) :=
  match T.tabs[i]? with
  | some (some t) => .ok t
  | _ => .ub

/-- One call. -/
def step (h : K → Nat) (fuel : Nat) (T : Tables K V) : TabOp K V → Run (Tables K V × TabAns K V)
  -- hash_table.hpp:282-288
  | .create n => (LTable.mk' n).bind fun t => .ok (⟨T.tabs ++ [some t], T.lost⟩, .done)
  | .call i op => (T.get i).bind fun t => (t.step h fuel op).bind fun r =>
      .ok (⟨T.tabs.set i (some r.1), T.lost⟩, .ans r.2)
  -- hash_table.hpp:385-394
  | .copy i fail => (T.get i).bind fun t => (t.copy fail).bind fun r =>
      match r with
      | .inl c => .ok (⟨T.tabs ++ [some c], T.lost⟩, .done)
      | .inr l => .ok (⟨T.tabs, T.lost + l⟩, .threw)
  -- hash_table.hpp:399-403: the local `copy` has the old content when it is destroyed
  | .copyAssign d s fail => (T.get d).bind fun old => (T.get s).bind fun t => (t.copy fail).bind fun r =>
      match r with
      | .inl c => old.destruct.bind fun l => .ok (⟨T.tabs.set d (some c), T.lost + l⟩, .done)
      | .inr l => .ok (⟨T.tabs, T.lost + l⟩, .threw)
  -- hash_table.hpp:408-410: the members are initialised as declared (894-895), then exchanged
  | .move i => (T.get i).bind fun t => (LTable.mk' HTable.defaultBucketCount).bind fun f =>
      .ok (⟨T.tabs.set i (some f) ++ [some t], T.lost⟩, .done)
  -- hash_table.hpp:415-418, 423-429
  | .moveAssign d s => (T.get d).bind fun a => (T.get s).bind fun b =>
      .ok (⟨(T.tabs.set d (some b)).set s (some a), T.lost⟩, .done)
  -- hash_table.hpp:269-273
  | .destroy i => (T.get i).bind fun t => t.destruct.bind fun l => .ok (⟨T.tabs.set i none, T.lost + l⟩, .done)

/-- Calls from left to right. -/
def run (h : K → Nat) (fuel : Nat) (T : Tables K V) : List (TabOp K V) → Run (Tables K V × List (TabAns K V))
  | [] => .ok (T, [])
  | op :: ops => (T.step h fuel op).bind fun r => (r.1.run h fuel ops).bind fun r' => .ok (r'.1, r.2 :: r'.2)

/-- The program ends: all tables that are left are destroyed; the number of objects never destroyed. -/
def finish : List (Option (LTable K V)) → Nat → Run Nat
  | [], l => .ok l
  | none :: ts, l => finish ts l
  | some t :: ts, l => t.destruct.bind fun l' => finish ts (l + l')

end Tables
end CoEcs
