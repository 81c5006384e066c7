import Verif.Model.HashTable

/-!
# Object lifetimes in the buckets of `detail::hash_table` (/repo/include/co_ecs/detail/hash_table.hpp)

The buckets are raw memory in which objects are constructed and destroyed by hand.  `Model/HashTable` says
which values the occupied buckets hold; here each bucket also has a flag whether an object lives in it (moved-from
objects live).  Using an object that does not live is undefined.  An object whose storage is reused or freed
although its destructor was not called is lost; `lost` counts these.  Local objects (`temp`) are destroyed when they go
out of scope and are not counted.  Functions that only read objects in occupied buckets (`find`, `at`, `contains`,
iteration) are those of `Model/HashTable`.
-/

namespace CoEcs

/-- A table, its bucket memory and the number of objects lost so far. -/
structure LTable (K V : Type) where
  tab : HTable K V
  /-- whether an object lives in the bucket -/
  mem : List Bool
  lost : Nat
  deriving DecidableEq, Repr

namespace LTable
variable {K V : Type} [DecidableEq K]

/-- The number of unoccupied buckets in which an object lives. -/
def garbage : List (Option (HEntry K V)) → List Bool → Nat
  | s :: ss, m :: ms => (if s.isNone && m then 1 else 0) + garbage ss ms
  | _, _ => 0

/-- Destruction of the objects in the occupied buckets (`for (auto& value : *this) destroy`, hash_table.hpp:270-272
and 485-488); `none` if there is no object. -/
def destroyOccupied : List (Option (HEntry K V)) → List Bool → Option (List Bool)
  | some _ :: ss, true :: ms => (destroyOccupied ss ms).map (false :: ·)
  | some _ :: _, false :: _ => none
  | none :: ss, m :: ms => (destroyOccupied ss ms).map (m :: ·)
  | some _ :: _, [] => none
  | none :: _, [] => some []
  | [], ms => some ms

/-- `hash_table(bucket_count)`, hash_table.hpp:282-288: the memory is raw (66-68). -/
def mk' (bucketCount : Nat) : Run (LTable K V) :=
  (HTable.mk' bucketCount).bind fun t => .ok ⟨t, List.replicate t.n false, 0⟩

/-- The loops of `_emplace_impl` (hash_table.hpp:820-849) and `_emplace_or_assign_impl` (776-806) with the memory:
comparing, assigning and swapping (824, 829 and 780, 781, 786) need an object in the bucket, `construct` (840 and 797)
makes one in a bucket that is not occupied. -/
def emplaceLoop (assign : Bool) (n : Nat) (hash : Nat) :
    Nat → List (Option (HEntry K V)) → List Bool → HEntry K V → Nat → Option Nat →
    Run (List (Option (HEntry K V)) × List Bool × Nat × Bool × Nat)
  | 0, _, _, _, _, _ => .stuck
  | fuel + 1, slots, mem, temp, index, ret =>
    match (if index < n then slots[index]? else none), mem[index]? with
    | some (some e), some b =>
      if e.hash = hash ∧ b = false then .ub
      else if e.hash = hash ∧ e.key = temp.key then
        .ok (if assign then slots.set index (some { e with val := temp.val }) else slots, mem, index, false, 0)
      else if temp.psl > e.psl then
        if b then
          emplaceLoop assign n hash fuel (slots.set index (some temp)) mem { e with psl := e.psl + 1 }
            (mod2n (index + 1) n) (some (ret.getD index))
        else .ub
      else
        emplaceLoop assign n hash fuel slots mem { temp with psl := temp.psl + 1 } (mod2n (index + 1) n) ret
    | some none, some b =>
      .ok (slots.set index (some temp), mem.set index true, ret.getD index, true, if b then 1 else 0)
    | _, _ => .ub

/-- `_emplace_impl` (hash_table.hpp:809-850) / `_emplace_or_assign_impl` (765-807). -/
def emplaceRaw (h : K → Nat) (assign : Bool) (fuel : Nat) (t : LTable K V) (key : K) (val : V) :
    Run (LTable K V × Nat × Bool) :=
  (emplaceLoop assign t.tab.n (h key) fuel t.tab.slots t.mem ⟨h key, 0, key, val⟩ (mod2n (h key) t.tab.n) none).bind fun r =>
    .ok (⟨⟨t.tab.n, r.1, if r.2.2.2.1 then t.tab.size + 1 else t.tab.size⟩, r.2.1, t.lost + r.2.2.2.2⟩, r.2.2.1, r.2.2.2.1)

/-- The loop of `reserve`, hash_table.hpp:617-619. -/
def reinsert (h : K → Nat) (fuel : Nat) : LTable K V → List (HEntry K V) → Run (LTable K V)
  | t, [] => .ok t
  | t, e :: es => (t.emplaceRaw h false fuel e.key e.val).bind fun r => reinsert h fuel r.1 es

/-- `reserve`, hash_table.hpp:610-626.  The objects in the occupied buckets are moved out of, and then destroyed with
the local table, which has the old buckets after the swaps (621-625); the old memory is freed (102-104). -/
def reserve (h : K → Nat) (fuel : Nat) (t : LTable K V) (newSize : Nat) : Run (LTable K V) :=
  if newSize < t.tab.size then .ok t
  else
    (mk' newSize).bind fun fresh =>
      t.tab.entries.bind fun es =>
        (reinsert h fuel fresh es).bind fun t' =>
          match destroyOccupied t.tab.slots t.mem with
          | none => .ub
          | some mem => .ok { t' with lost := t.lost + t'.lost + mem.count true }

/-- `emplace_impl` (hash_table.hpp:742-751), `emplace_or_assign_impl` (754-763). -/
def emplace (h : K → Nat) (assign : Bool) (fuel : Nat) (t : LTable K V) (key : K) (val : V) :
    Run (LTable K V × Nat × Bool) :=
  (if t.tab.size > HTable.approx85 t.tab.n then t.reserve h fuel (t.tab.n <<< 1) else .ok t).bind fun t' =>
    t'.emplaceRaw h assign fuel key val

/-- `operator[]`, hash_table.hpp:442-450. -/
def index (h : K → Nat) (fuel : Nat) (t : LTable K V) (key : K) (dflt : V) : Run (LTable K V × Nat) :=
  (t.tab.find h fuel key).bind fun r =>
    match r with
    | some i => .ok (t, i)
    | none => (t.emplace h false fuel key dflt).bind fun r => .ok (r.1, r.2.1)

/-- `table[key] = v`. -/
def assign (h : K → Nat) (fuel : Nat) (t : LTable K V) (key : K) (dflt v : V) : Run (LTable K V) :=
  (t.index h fuel key dflt).bind fun r =>
    (r.1.tab.deref r.2).bind fun e =>
      .ok { r.1 with tab := { r.1.tab with slots := r.1.tab.slots.set r.2 (some { e with val := v }) } }

/-- Second loop of `erase_impl`, hash_table.hpp:719-736: `*ptr = std::move(*nptr)` needs both objects.  No
destructor is called. -/
def shiftLoop (n : Nat) : Nat → List (Option (HEntry K V)) → List Bool → Nat → Run (List (Option (HEntry K V)))
  | 0, _, _, _ => .stuck
  | fuel + 1, slots, mem, i =>
    let s1 := slots.set i none
    let j := mod2n (i + 1) n
    match (if j < n then s1[j]? else none) with
    | none => .ub
    | some none => .ok s1
    | some (some e) =>
      if e.psl = 0 then .ok s1
      else if mem[i]? = some true ∧ mem[j]? = some true then shiftLoop n fuel (s1.set i (some { e with psl := e.psl - 1 })) mem j
      else .ub

/-- `erase_impl`, hash_table.hpp:687-739; line 713 moves out of the object in the bucket found. -/
def erase (h : K → Nat) (fuel : Nat) (t : LTable K V) (key : K) : Run (LTable K V) :=
  (t.tab.eraseSearch (h key) key fuel (mod2n (h key) t.tab.n) 0).bind fun r =>
    match r with
    | none => .ok t
    | some i =>
      if t.mem[i]? = some true then
        (shiftLoop t.tab.n fuel t.tab.slots t.mem i).bind fun slots =>
          let t' : LTable K V := ⟨⟨t.tab.n, slots, t.tab.size - 1⟩, t.mem, t.lost⟩
          if t'.tab.size > HTable.defaultBucketCount ∧ t'.tab.size < HTable.approx40 t.tab.n then t'.reserve h fuel (t.tab.n >>> 1)
          else .ok t'
      else .ub

/-- `clear`, hash_table.hpp:483-493. -/
def clear (t : LTable K V) : Run (LTable K V) :=
  match destroyOccupied t.tab.slots t.mem with
  | none => .ub
  | some mem => .ok ⟨t.tab.clear, mem, t.lost⟩

/-- `~hash_table`, hash_table.hpp:269-273, and `~buckets`, 102-104: the number of objects constructed in buckets during
the life of the table whose destructor was never called. -/
def destruct (t : LTable K V) : Run Nat :=
  match destroyOccupied t.tab.slots t.mem with
  | none => .ub
  | some mem => .ok (t.lost + mem.count true)

/-- One call and its answer, as `HTable.step`. -/
def step (h : K → Nat) (fuel : Nat) (t : LTable K V) : HashOp K V → Run (LTable K V × HashAns K V)
  | .emplace k v => (t.emplace h false fuel k v).bind fun r =>
      (r.1.tab.deref r.2.1).bind fun e => .ok (r.1, .entry e.key e.val r.2.2)
  | .insertOrAssign k v => (t.emplace h true fuel k v).bind fun r =>
      (r.1.tab.deref r.2.1).bind fun e => .ok (r.1, .entry e.key e.val r.2.2)
  | .index k d => (t.index h fuel k d).bind fun r =>
      (r.1.tab.deref r.2).bind fun e => .ok (r.1, .value e.val)
  | .assign k d v => (t.assign h fuel k d v).bind fun t' => .ok (t', .unit)
  | .at_ k => (t.tab.at_ h fuel k).bind fun r =>
      .ok (t, match r with | some v => .value v | none => .notFound)
  | .contains k => (t.tab.contains h fuel k).bind fun b => .ok (t, .bool b)
  | .erase k => (t.erase h fuel k).bind fun t' => .ok (t', .unit)
  | .clear => t.clear.bind fun t' => .ok (t', .unit)
  | .reserve n => (t.reserve h fuel n).bind fun t' => .ok (t', .unit)
  | .size => .ok (t, .num t.tab.size)

/-- Run calls from left to right. -/
def run (h : K → Nat) (fuel : Nat) (t : LTable K V) : List (HashOp K V) → Run (LTable K V × List (HashAns K V))
  | [] => .ok (t, [])
  | op :: ops => (t.step h fuel op).bind fun r => (r.1.run h fuel ops).bind fun r' => .ok (r'.1, r.2 :: r'.2)

end LTable

namespace HTable
variable {K V : Type} [DecidableEq K]

/-- `insert(*it)`, `insert_or_assign(*it)` (hash_table.hpp:500-529) and `emplace(key, it->second)` (539-541), where `it`
points to bucket `src` of the same table: the arguments are references into the table, and they are read
(811, 767) after `emplace_impl` / `emplace_or_assign_impl` may have called `reserve` (742-763), which destroys
the objects referred to and frees their memory.  `key = none` takes the key from the bucket too. -/
def emplaceRef (h : K → Nat) (assign : Bool) (fuel : Nat) (t : HTable K V) (key : Option K) (src : Nat) :
    Run (HTable K V × Nat × Bool) :=
  (t.deref src).bind fun e =>
    if t.size > approx85 t.n then
      (t.reserve h fuel (t.n <<< 1)).bind fun _ => .ub
    else t.emplaceRaw h assign fuel (key.getD e.key) e.val

end HTable
end CoEcs
