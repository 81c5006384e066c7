import Verif.Model.Outcome

/-!
# Model of `detail::hash_table` used as `hash_map`
(/repo/include/co_ecs/detail/hash_table.hpp, hash_map.hpp)

Robin-Hood open addressing.  The hash function `h` and the key equality are parameters; the equality
is Lean's `=` (an equivalence compatible with `h`).  The loops `while (true)` take fuel; running
out of it is the separate outcome `stuck`.  `size_t` is unbounded here (a table with 2^63 buckets cannot
be allocated).  The value array and the info array are merged into one list of optional entries, since
a value is read only where `occupied` is set; the bucket count is kept apart, because one constructor
gives the info array a different length.  Object lifetimes inside the buckets are in `Model/HashLife`.
-/

namespace CoEcs

/-- Outcome of a function with loops: result, undefined behaviour, or fuel exhausted. -/
inductive Run (α : Type _) where
  | ok (a : α)
  | ub
  | stuck
  deriving DecidableEq, Repr

def Run.bind {α β : Type _} (x : Run α) (f : α → Run β) : Run β :=
  match x with
  | .ok a => f a
  | .ub => .ub
  | .stuck => .stuck

/-- `mod_2n`, detail/bits.hpp:10-12, on `size_t`: with divisor 0 the mask is all ones. -/
def mod2n (v d : Nat) : Nat := if d = 0 then v else v &&& (d - 1)

/-- An occupied bucket: `bucket_info` (hash_table.hpp:53-57) and the stored pair. -/
structure HEntry (K V : Type) where
  hash : Nat
  psl : Nat
  key : K
  val : V
  deriving DecidableEq, Repr

/-- Data members, hash_table.hpp:894-898. -/
structure HTable (K V : Type) where
  /-- `_buckets.size()` -/
  n : Nat
  /-- `_info` with the values of the occupied buckets -/
  slots : List (Option (HEntry K V))
  /-- `_size` -/
  size : Nat
  deriving DecidableEq, Repr

namespace HTable
variable {K V : Type} [DecidableEq K]

/-- `hash_table(bucket_count)`, hash_table.hpp:282-288.  The assertion only demands an even count. -/
def mk' (bucketCount : Nat) : Run (HTable K V) :=
  if bucketCount % 2 = 0 then .ok ⟨bucketCount, List.replicate bucketCount none, 0⟩ else .ub

/-- `default_bucket_count`, hash_table.hpp:49. -/
def defaultBucketCount : Nat := 16

/-- Default constructor, hash_table.hpp:266. -/
def empty : HTable K V := ⟨defaultBucketCount, List.replicate defaultBucketCount none, 0⟩

/-- Access to bucket `i`; `none` is an index outside the bucket array or the info array. -/
def slot? (t : HTable K V) (i : Nat) : Option (Option (HEntry K V)) :=
  if i < t.n then t.slots[i]? else none

/-- The loop of `find_impl`, hash_table.hpp:860-871. -/
def findLoop (t : HTable K V) (hash : Nat) (key : K) : Nat → Nat → Nat → Run (Option Nat)
  | 0, _, _ => .stuck
  | fuel + 1, index, probes =>
    match t.slot? index with
    | none => .ub
    | some none => .ok none
    | some (some e) =>
      if e.hash = hash ∧ e.key = key then .ok (some index)
      else if probes > e.psl then .ok none
      else findLoop t hash key fuel (mod2n (index + 1) t.n) (probes + 1)

/-- `find_impl`, hash_table.hpp:851-872; `none` is `end()`. -/
def find (h : K → Nat) (fuel : Nat) (t : HTable K V) (key : K) : Run (Option Nat) :=
  if t.n = 0 then .ok none
  else findLoop t (h key) key fuel (mod2n (h key) t.n) 0

/-- `contains` and `count`, hash_table.hpp:574-589. -/
def contains (h : K → Nat) (fuel : Nat) (t : HTable K V) (key : K) : Run Bool :=
  (t.find h fuel key).bind fun r => .ok r.isSome

/-- Dereferencing an iterator. -/
def deref (t : HTable K V) (i : Nat) : Run (HEntry K V) :=
  match t.slot? i with
  | some (some e) => .ok e
  | _ => .ub

/-- `at`, hash_table.hpp:458-481; `none` is `std::out_of_range`. -/
def at_ (h : K → Nat) (fuel : Nat) (t : HTable K V) (key : K) : Run (Option V) :=
  (t.find h fuel key).bind fun r =>
    match r with
    | none => .ok none
    | some i => (t.deref i).bind fun e => .ok (some e.val)

/-- The loop of `_emplace_impl` (hash_table.hpp:820-848) and, with `assign`, of
`_emplace_or_assign_impl` (hash_table.hpp:766-805).  `hash` is the hash of the key passed in and is
not updated when an entry is displaced, as in the code. -/
def emplaceLoop (assign : Bool) (n : Nat) (hash : Nat) :
    Nat → List (Option (HEntry K V)) → HEntry K V → Nat → Option Nat →
    Run (List (Option (HEntry K V)) × Nat × Bool)
  | 0, _, _, _, _ => .stuck
  | fuel + 1, slots, temp, index, ret =>
    match (if index < n then slots[index]? else none) with
    | none => .ub
    | some (some e) =>
      if e.hash = hash ∧ e.key = temp.key then
        .ok (if assign then slots.set index (some { e with val := temp.val }) else slots, index, false)
      else if temp.psl > e.psl then
        emplaceLoop assign n hash fuel (slots.set index (some temp)) { e with psl := e.psl + 1 }
          (mod2n (index + 1) n) (some (ret.getD index))
      else
        emplaceLoop assign n hash fuel slots { temp with psl := temp.psl + 1 } (mod2n (index + 1) n) ret
    | some none =>
      .ok (slots.set index (some temp), ret.getD index, true)

/-- `_emplace_impl` (hash_table.hpp:809-849) / `_emplace_or_assign_impl` (765-807): the iterator and
whether an insertion happened. -/
def emplaceRaw (h : K → Nat) (assign : Bool) (fuel : Nat) (t : HTable K V) (key : K) (val : V) :
    Run (HTable K V × Nat × Bool) :=
  (emplaceLoop assign t.n (h key) fuel t.slots ⟨h key, 0, key, val⟩ (mod2n (h key) t.n) none).bind fun r =>
    .ok (⟨t.n, r.1, if r.2.2 then t.size + 1 else t.size⟩, r.2.1, r.2.2)

/-- The values an iteration from `begin()` to `end()` visits (iterator_impl, hash_table.hpp:173-257):
the occupied buckets in index order.  The iterator reads the info of every bucket. -/
def entries (t : HTable K V) : Run (List (HEntry K V)) :=
  if t.n ≤ t.slots.length then .ok ((t.slots.take t.n).filterMap id) else .ub

/-- The loop of `reserve`, hash_table.hpp:617-619. -/
def reinsert (h : K → Nat) (fuel : Nat) : HTable K V → List (HEntry K V) → Run (HTable K V)
  | t, [] => .ok t
  | t, e :: es => (t.emplaceRaw h false fuel e.key e.val).bind fun r => reinsert h fuel r.1 es

/-- `reserve`, hash_table.hpp:610-626. -/
def reserve (h : K → Nat) (fuel : Nat) (t : HTable K V) (newSize : Nat) : Run (HTable K V) :=
  if newSize < t.size then .ok t
  else
    (mk' newSize).bind fun fresh =>
      t.entries.bind fun es => reinsert h fuel fresh es

/-- `approx_85_percent`, hash_table.hpp:16-18. -/
def approx85 (v : Nat) : Nat := (v * 870) >>> 10

/-- `approx_40_percent`, hash_table.hpp:24-26. -/
def approx40 (v : Nat) : Nat := (v * 409) >>> 10

/-- `emplace_impl` (hash_table.hpp:742-751, reached from `emplace`, `insert`) and, with `assign`,
`emplace_or_assign_impl` (754-763, reached from `insert_or_assign`). -/
def emplace (h : K → Nat) (assign : Bool) (fuel : Nat) (t : HTable K V) (key : K) (val : V) :
    Run (HTable K V × Nat × Bool) :=
  (if t.size > approx85 t.n then t.reserve h fuel (t.n <<< 1) else .ok t).bind fun t' =>
    t'.emplaceRaw h assign fuel key val

/-- `operator[]`, hash_table.hpp:442-450; `dflt` is the value-initialised mapped type. -/
def index (h : K → Nat) (fuel : Nat) (t : HTable K V) (key : K) (dflt : V) : Run (HTable K V × Nat) :=
  (t.find h fuel key).bind fun r =>
    match r with
    | some i => .ok (t, i)
    | none => (t.emplace h false fuel key dflt).bind fun r => .ok (r.1, r.2.1)

/-- `table[key] = v`: assignment through the reference returned by `operator[]`. -/
def assign (h : K → Nat) (fuel : Nat) (t : HTable K V) (key : K) (dflt v : V) : Run (HTable K V) :=
  (t.index h fuel key dflt).bind fun r =>
    (r.1.deref r.2).bind fun e => .ok { r.1 with slots := r.1.slots.set r.2 (some { e with val := v }) }

/-- First loop of `erase_impl`, hash_table.hpp:698-714. -/
def eraseSearch (t : HTable K V) (hash : Nat) (key : K) : Nat → Nat → Nat → Run (Option Nat)
  | 0, _, _ => .stuck
  | fuel + 1, index, psl =>
    match t.slot? index with
    | none => .ub
    | some none => .ok none
    | some (some e) =>
      if psl > e.psl then .ok none
      else if e.hash ≠ hash ∨ e.key ≠ key then
        eraseSearch t hash key fuel (mod2n (index + 1) t.n) (psl + 1)
      else .ok (some index)

/-- Second loop of `erase_impl`, hash_table.hpp:719-736: `i` is the bucket `info` points to. -/
def shiftLoop (n : Nat) : Nat → List (Option (HEntry K V)) → Nat → Run (List (Option (HEntry K V)))
  | 0, _, _ => .stuck
  | fuel + 1, slots, i =>
    let s1 := slots.set i none
    let j := mod2n (i + 1) n
    match (if j < n then s1[j]? else none) with
    | none => .ub
    | some none => .ok s1
    | some (some e) =>
      if e.psl = 0 then .ok s1
      else shiftLoop n fuel (s1.set i (some { e with psl := e.psl - 1 })) j

/-- `erase_impl`, hash_table.hpp:687-739. -/
def erase (h : K → Nat) (fuel : Nat) (t : HTable K V) (key : K) : Run (HTable K V) :=
  (eraseSearch t (h key) key fuel (mod2n (h key) t.n) 0).bind fun r =>
    match r with
    | none => .ok t
    | some i =>
      (shiftLoop t.n fuel t.slots i).bind fun slots =>
        let t' : HTable K V := ⟨t.n, slots, t.size - 1⟩
        if t'.size > defaultBucketCount ∧ t'.size < approx40 t.n then t'.reserve h fuel (t.n >>> 1)
        else .ok t'

/-- `clear`, hash_table.hpp:483-493. -/
def clear (t : HTable K V) : HTable K V := ⟨t.n, t.slots.map fun _ => none, 0⟩

/-- The iterator-pair constructor, hash_table.hpp:323-334: `_info` gets `default_bucket_count`
elements whatever `bucket_count` is. -/
def fromList (h : K → Nat) (fuel : Nat) (bucketCount : Nat) (l : List (K × V)) : Run (HTable K V) :=
  if bucketCount % 2 = 0 then
    l.foldl (fun (r : Run (HTable K V)) kv =>
      r.bind fun t => (t.emplace h true fuel kv.1 kv.2).bind fun r => .ok r.1)
      (.ok ⟨bucketCount, List.replicate defaultBucketCount none, 0⟩)
  else .ub

end HTable

/-- Calls on a hash map. -/
inductive HashOp (K V : Type) where
  | emplace (key : K) (v : V)
  | insertOrAssign (key : K) (v : V)
  | index (key : K) (dflt : V)
  | assign (key : K) (dflt v : V)
  | at_ (key : K)
  | contains (key : K)
  | erase (key : K)
  | clear
  | reserve (n : Nat)
  | size
  deriving Repr

/-- What a call reports. -/
inductive HashAns (K V : Type) where
  | unit
  | bool (b : Bool)
  | num (n : Nat)
  | entry (key : K) (v : V) (inserted : Bool)
  | value (v : V)
  | notFound
  deriving Repr, DecidableEq

/-- One call and its answer; returned iterators are dereferenced.  (Dispatch only.) -/
def HTable.step {K V : Type} [DecidableEq K] (h : K → Nat) (fuel : Nat) (t : HTable K V) :
    HashOp K V → Run (HTable K V × HashAns K V)
  | .emplace k v => (t.emplace h false fuel k v).bind fun r =>
      (r.1.deref r.2.1).bind fun e => .ok (r.1, .entry e.key e.val r.2.2)
  | .insertOrAssign k v => (t.emplace h true fuel k v).bind fun r =>
      (r.1.deref r.2.1).bind fun e => .ok (r.1, .entry e.key e.val r.2.2)
  | .index k d => (t.index h fuel k d).bind fun r =>
      (r.1.deref r.2).bind fun e => .ok (r.1, .value e.val)
  | .assign k d v => (t.assign h fuel k d v).bind fun t' => .ok (t', .unit)
  | .at_ k => (t.at_ h fuel k).bind fun r =>
      .ok (t, match r with | some v => .value v | none => .notFound)
  | .contains k => (t.contains h fuel k).bind fun b => .ok (t, .bool b)
  | .erase k => (t.erase h fuel k).bind fun t' => .ok (t', .unit)
  | .clear => .ok (t.clear, .unit)
  | .reserve n => (t.reserve h fuel n).bind fun t' => .ok (t', .unit)
  | .size => .ok (t, .num t.size)

/-- Run calls from left to right, collecting the answers. -/
def HTable.run {K V : Type} [DecidableEq K] (h : K → Nat) (fuel : Nat) (t : HTable K V) :
    List (HashOp K V) → Run (HTable K V × List (HashAns K V))
  | [] => .ok (t, [])
  | op :: ops => (t.step h fuel op).bind fun r => (r.1.run h fuel ops).bind fun r' => .ok (r'.1, r.2 :: r'.2)

end CoEcs
