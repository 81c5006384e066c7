import Verif.Model.Outcome

/-!
# Model of `detail::sparse_table` used as `sparse_map`
(/repo/include/co_ecs/detail/sparse_table.hpp, sparse_map.hpp)

Keys are natural numbers below `2^w`, `w` being the width of the key type; the member `_size` has
the key type (line 309), so it is taken modulo `2^w`.  Iterators are positions in the dense vector.
`Obs.ub` is an index outside a vector.  Reallocation failure is not modelled.
-/

namespace CoEcs

/-- Number of values of `std::size_t` (64 bit). -/
def U64 : Nat := 18446744073709551616

/-- Data members, sparse_table.hpp:306-310. -/
structure SparseTable (V : Type) where
  /-- `_dense` -/
  dense : List (Nat × V)
  /-- `_sparse` -/
  sparse : List Nat
  /-- `_size`, of the key type -/
  size : Nat
  /-- `_sparse_capacity` -/
  cap : Nat
  deriving DecidableEq, Repr

namespace SparseTable
variable {V : Type}

/-- Default constructor, sparse_table.hpp:36. -/
def empty : SparseTable V := ⟨[], [], 0, 0⟩

/-- `find_impl`, sparse_table.hpp:282-288: `none` inside `ok` is `end()`. -/
def find (t : SparseTable V) (key : Nat) : Obs (Option Nat) :=
  if key < t.cap then
    match t.sparse[key]? with
    | none => .ub
    | some i =>
      if i < t.size then
        match t.dense[i]? with
        | none => .ub
        | some e => if e.1 = key then .ok (some i) else .ok none
      else .ok none
  else .ok none

/-- `contains`, sparse_table.hpp:181-183.  The comparison with `end()` is a comparison of the
returned position with `_dense.size()`. -/
def contains (t : SparseTable V) (key : Nat) : Obs Bool :=
  match t.find key with
  | .ok none => .ok false
  | .ok (some i) => .ok (i != t.dense.length)
  | .throw e => .throw e
  | .ub => .ub

/-- `clear`, sparse_table.hpp:135-138. -/
def clear (t : SparseTable V) : SparseTable V := { t with dense := [], size := 0 }

/-- `std::vector<key_type>::resize(n)` for `n` not smaller than the current size. -/
def growTo (l : List Nat) (n : Nat) : List Nat := l ++ List.replicate (n - l.length) 0

/-- `reserve_sparse`, sparse_table.hpp:150-155. -/
def reserveSparse (t : SparseTable V) (capacity : Nat) : SparseTable V :=
  if capacity > t.cap then { t with sparse := (growTo t.sparse capacity).take capacity, cap := capacity }
  else t

/-- `emplace`, sparse_table.hpp:204-221.  Returns the iterator and whether it inserted.  The value
is passed already constructed. -/
def emplace (w : Nat) (t : SparseTable V) (key : Nat) (v : V) : Res (SparseTable V) (Nat × Bool) :=
  match t.contains key with
  | .ub => .ub
  | .throw e => .throw t e
  | .ok true =>
    match t.sparse[key]? with
    | none => .ub
    | some i => .ok t (i, false)
  | .ok false =>
    let t1 := t.reserveSparse ((key + 1) % U64)
    if key < t1.sparse.length then
      .ok { dense := t1.dense ++ [(key, v)], sparse := t1.sparse.set key t1.size,
            size := (t1.size + 1) % 2 ^ w, cap := t1.cap } (t1.size, true)
    else .ub

/-- `at`, sparse_table.hpp:229-236 and 244-251. -/
def at_ (t : SparseTable V) (key : Nat) : Obs V :=
  match t.contains key with
  | .ub => .ub
  | .throw e => .throw e
  | .ok false => .throw .outOfRange
  | .ok true =>
    match t.sparse[key]? with
    | none => .ub
    | some i =>
      match t.dense[i]? with
      | none => .ub
      | some e => .ok e.2

/-- Dereferencing an iterator into the dense vector. -/
def deref (t : SparseTable V) (i : Nat) : Obs (Nat × V) :=
  match t.dense[i]? with
  | none => .ub
  | some e => .ok e

/-- `operator[]`, sparse_table.hpp:258-264; `dflt` is the value-initialised mapped type.  Returns
the referenced position. -/
def index (w : Nat) (t : SparseTable V) (key : Nat) (dflt : V) : Res (SparseTable V) Nat :=
  match t.emplace w key dflt with
  | .ub => .ub
  | .throw s e => .throw s e
  | .ok t' (i, _) =>
    match t'.dense[i]? with
    | none => .ub
    | some _ => .ok t' i

/-- The statement `table[key] = v` (the use made in base_registry.hpp:284-286): `operator[]`
followed by an assignment through the returned reference. -/
def assign (w : Nat) (t : SparseTable V) (key : Nat) (dflt v : V) : Res (SparseTable V) Unit :=
  match t.index w key dflt with
  | .ub => .ub
  | .throw s e => .throw s e
  | .ok t' i =>
    match t'.dense[i]? with
    | none => .ub
    | some e => .ok { t' with dense := t'.dense.set i (e.1, v) } ()

/-- `erase`, sparse_table.hpp:270-279.  The lines that compute `_size - 1` are reached only when
`contains` answered true, which demands `_sparse[key] < _size`, so `_size > 0` there.  Moving a pair
leaves its integer key readable. -/
def erase (t : SparseTable V) (key : Nat) : Res (SparseTable V) Nat :=
  match t.contains key with
  | .ub => .ub
  | .throw e => .throw t e
  | .ok false => .ok t 0
  | .ok true =>
    match t.sparse[key]?, t.dense.getLast? with
    | some i, some back =>
      if i < t.dense.length then
        let d1 := t.dense.set i back
        match d1[t.size - 1]? with
        | none => .ub
        | some last =>
          if last.1 < t.sparse.length then
            .ok { dense := d1.dropLast, sparse := t.sparse.set last.1 i, size := t.size - 1, cap := t.cap } 1
          else .ub
      else .ub
    | _, _ => .ub

/-- The moved-from object after the defaulted move constructor, sparse_table.hpp:41: vectors are
empty, integers keep their value. -/
def movedFrom (t : SparseTable V) : SparseTable V := { dense := [], sparse := [], size := t.size, cap := t.cap }

end SparseTable

/-- Calls on a sparse map. -/
inductive SparseOp (V : Type) where
  | emplace (key : Nat) (v : V)
  | assign (key : Nat) (dflt v : V)
  | erase (key : Nat)
  | clear
  | reserveSparse (n : Nat)
  | contains (key : Nat)
  | at_ (key : Nat)
  | index (key : Nat) (dflt : V)
  | size
  deriving Repr

/-- What a call reports to its caller. -/
inductive SparseAns (V : Type) where
  | unit
  | bool (b : Bool)
  | num (n : Nat)
  /-- the entry an iterator or reference designates, and the "inserted" flag where there is one -/
  | entry (key : Nat) (v : V) (inserted : Bool)
  | value (v : V)
  | notFound
  deriving Repr, DecidableEq

/-- One call and its answer; the returned iterator or reference is dereferenced to make it
observable.  `none` is undefined behaviour.  (Dispatch only.) -/
def SparseTable.step {V : Type} (w : Nat) (t : SparseTable V) : SparseOp V → Option (SparseTable V × SparseAns V)
  | .emplace k v =>
    match t.emplace w k v with
    | .ok t' (i, b) =>
      match t'.deref i with
      | .ok e => some (t', .entry e.1 e.2 b)
      | _ => none
    | .throw t' _ => some (t', .notFound)
    | .ub => none
  | .assign k d v =>
    match t.assign w k d v with
    | .ok t' _ => some (t', .unit)
    | .throw t' _ => some (t', .notFound)
    | .ub => none
  | .erase k =>
    match t.erase k with
    | .ok t' n => some (t', .num n)
    | .throw t' _ => some (t', .notFound)
    | .ub => none
  | .clear => some (t.clear, .unit)
  | .reserveSparse n => some (t.reserveSparse n, .unit)
  | .contains k =>
    match t.contains k with
    | .ok b => some (t, .bool b)
    | .throw _ => some (t, .notFound)
    | .ub => none
  | .at_ k =>
    match t.at_ k with
    | .ok v => some (t, .value v)
    | .throw _ => some (t, .notFound)
    | .ub => none
  | .index k d =>
    match t.index w k d with
    | .ok t' i =>
      match t'.deref i with
      | .ok e => some (t', .value e.2)
      | _ => none
    | .throw t' _ => some (t', .notFound)
    | .ub => none
  | .size => some (t, .num t.size)

/-- Run calls from left to right, collecting the answers. -/
def SparseTable.run {V : Type} (w : Nat) (t : SparseTable V) :
    List (SparseOp V) → Option (SparseTable V × List (SparseAns V))
  | [] => some (t, [])
  | op :: ops =>
    match t.step w op with
    | none => none
    | some (t', a) =>
      match t'.run w ops with
      | none => none
      | some (t'', as) => some (t'', a :: as)

end CoEcs
