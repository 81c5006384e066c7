import Verif.Model.HashTable
import Verif.Model.SparseTable

/-!
# Insertions and erasures during which an operation of the elements throws
(/repo/include/co_ecs/detail/hash_table.hpp, sparse_table.hpp)

`Model/HashTable` takes the operations of the elements (constructors, moves, assignments) to succeed.  Here one of them
throws: `fail = some j` lets `j` of them succeed and the next one throw, `none` lets all succeed.  The exception leaves
the function at that point; the local variables are destroyed, what was written into the table stays.

Simplifications: a construction, assignment or swap that throws leaves both objects as they were (a swap that throws
half way leaves more damage than this), the hash function, the equality and the bucket arrays' allocation do not throw.
A move that succeeds leaves the source with `moved` of what it held.
-/

namespace CoEcs

/-- Outcome of a function with loops that may throw: the result, or what an exception leaves behind. -/
inductive Tried (α β : Type _) where
  | ok (a : α)
  | threw (b : β)
  | ub
  | stuck
  deriving DecidableEq, Repr

def Tried.ofRun {α β : Type _} : Run α → Tried α β
  | .ok a => .ok a
  | .ub => .ub
  | .stuck => .stuck

def Tried.bind {α β γ : Type _} (x : Tried α β) (f : α → Tried γ β) : Tried γ β :=
  match x with
  | .ok a => f a
  | .threw b => .threw b
  | .ub => .ub
  | .stuck => .stuck

/-- One operation of the elements succeeded: one fewer is left before the one that throws. -/
def oneDone : Option Nat → Option Nat
  | none => none
  | some j => some (j - 1)

namespace HTable
variable {K V : Type} [DecidableEq K]

/-- The loops of `_emplace_impl` (hash_table.hpp:820-848) and `_emplace_or_assign_impl` (776-806) as in
`HTable.emplaceLoop`.  Operations of the elements: the assignment of the value (781), the swap (786, 829), the construction
in the bucket (797, 840).  The information of the bucket is written only after the operation (787, 798, 830, 841). -/
def emplaceLoopTry (assign : Bool) (n : Nat) (hash : Nat) :
    Nat → List (Option (HEntry K V)) → HEntry K V → Nat → Option Nat → Option Nat →
    Tried (List (Option (HEntry K V)) × Nat × Bool) (List (Option (HEntry K V)))
  | 0, _, _, _, _, _ => .stuck
  | fuel + 1, slots, temp, index, ret, fail =>
    match (if index < n then slots[index]? else none) with
    | none => .ub
    | some (some e) =>
      if e.hash = hash ∧ e.key = temp.key then
        if assign then
          if fail = some 0 then .threw slots
          else .ok (slots.set index (some { e with val := temp.val }), index, false)
        else .ok (slots, index, false)
      else if temp.psl > e.psl then
        if fail = some 0 then .threw slots
        else emplaceLoopTry assign n hash fuel (slots.set index (some temp)) { e with psl := e.psl + 1 }
          (mod2n (index + 1) n) (some (ret.getD index)) (oneDone fail)
      else
        emplaceLoopTry assign n hash fuel slots { temp with psl := temp.psl + 1 } (mod2n (index + 1) n) ret fail
    | some none =>
      if fail = some 0 then .threw slots
      else .ok (slots.set index (some temp), ret.getD index, true)

/-- What `emplaceRawTry` makes of the outcome of the loop: `_size` is incremented after the construction
(hash_table.hpp:803, 846). -/
def afterLoop (t : HTable K V) :
    Tried (List (Option (HEntry K V)) × Nat × Bool) (List (Option (HEntry K V))) → Tried (HTable K V × Nat × Bool) (HTable K V)
  | .ok r => .ok (⟨t.n, r.1, if r.2.2 then t.size + 1 else t.size⟩, r.2.1, r.2.2)
  | .threw slots => .threw ⟨t.n, slots, t.size⟩
  | .ub => .ub
  | .stuck => .stuck

/-- `_emplace_impl` (hash_table.hpp:809-849) / `_emplace_or_assign_impl` (765-807).  The first operation is the construction
of `temp` from the arguments (767, 811). -/
def emplaceRawTry (h : K → Nat) (assign : Bool) (fuel : Nat) (t : HTable K V) (key : K) (val : V) (fail : Option Nat) :
    Tried (HTable K V × Nat × Bool) (HTable K V) :=
  if fail = some 0 then .threw t
  else
    afterLoop t
      (emplaceLoopTry assign t.n (h key) fuel t.slots ⟨h key, 0, key, val⟩ (mod2n (h key) t.n) none (oneDone fail))

/-- The pair of an entry replaced by what a move leaves of it. -/
def HEntry.moved (moved : K × V → K × V) (e : HEntry K V) : HEntry K V :=
  { e with key := (moved (e.key, e.val)).1, val := (moved (e.key, e.val)).2 }

/-- The table after the first `c` of its elements, in the order of iteration, have been moved from. -/
def movedFirst (moved : K × V → K × V) : Nat → List (Option (HEntry K V)) → List (Option (HEntry K V))
  | 0, slots => slots
  | _, [] => []
  | c + 1, none :: slots => none :: movedFirst moved (c + 1) slots
  | c + 1, some e :: slots => some (HEntry.moved moved e) :: movedFirst moved c slots

/-- The loop of `reserve`, hash_table.hpp:617-619, when the operation `fail.2` (counted from 0) of the insertion of element
`fail.1` throws; an exception comes with the number of elements moved from.  The first operation of an insertion is the
move out of the old table. -/
def reinsertTry (h : K → Nat) (fuel : Nat) : HTable K V → List (HEntry K V) → Nat × Nat → Tried (HTable K V) Nat
  | t, [], _ => .ok t
  | t, e :: es, (0, i) =>
    match t.emplaceRawTry h false fuel e.key e.val (some i) with
    | .ok r => .ofRun (reinsert h fuel r.1 es)
    | .threw _ => .threw (if i = 0 then 0 else 1)
    | .ub => .ub
    | .stuck => .stuck
  | t, e :: es, (j + 1, i) =>
    match t.emplaceRaw h false fuel e.key e.val with
    | .ok r =>
      match reinsertTry h fuel r.1 es (j, i) with
      | .threw c => .threw (c + 1)
      | x => x
    | .ub => .ub
    | .stuck => .stuck

/-- `reserve`, hash_table.hpp:610-626.  An exception destroys the new table with the elements moved into it; the old one
keeps its buckets (the swaps, 621-625, come after the loop). -/
def reserveTry (h : K → Nat) (moved : K × V → K × V) (fuel : Nat) (t : HTable K V) (newSize : Nat) (fail : Nat × Nat) :
    Tried (HTable K V) (HTable K V) :=
  if newSize < t.size then .ok t
  else
    match (mk' newSize : Run (HTable K V)) with
    | .ok fresh =>
      match t.entries with
      | .ok es =>
        match reinsertTry h fuel fresh es fail with
        | .ok t' => .ok t'
        | .threw c => .threw { t with slots := movedFirst moved c t.slots }
        | .ub => .ub
        | .stuck => .stuck
      | .ub => .ub
      | .stuck => .stuck
    | .ub => .ub
    | .stuck => .stuck

/-- `emplace_impl` (hash_table.hpp:742-751) and, with `assign`, `emplace_or_assign_impl` (754-763), when an operation of the
insertion itself throws and growing succeeds. -/
def emplaceTry (h : K → Nat) (assign : Bool) (fuel : Nat) (t : HTable K V) (key : K) (val : V) (fail : Option Nat) :
    Tried (HTable K V × Nat × Bool) (HTable K V) :=
  (Tried.ofRun (if t.size > approx85 t.n then t.reserve h fuel (t.n <<< 1) else .ok t)).bind fun t' =>
    t'.emplaceRawTry h assign fuel key val fail

/-- The same when an operation of the growth throws, if there is a growth. -/
def emplaceGrowTry (h : K → Nat) (moved : K × V → K × V) (assign : Bool) (fuel : Nat) (t : HTable K V) (key : K) (val : V)
    (fail : Nat × Nat) : Tried (HTable K V × Nat × Bool) (HTable K V) :=
  (if t.size > approx85 t.n then t.reserveTry h moved fuel (t.n <<< 1) fail else .ok t).bind fun t' =>
    .ofRun (t'.emplaceRaw h assign fuel key val)

/-- Second loop of `erase_impl`, hash_table.hpp:719-736.  The distance of the next element is decremented (727) before the
element is moved (728), and the bucket to be filled is marked free (717) before either. -/
def shiftLoopTry (n : Nat) : Nat → List (Option (HEntry K V)) → Nat → Option Nat →
    Tried (List (Option (HEntry K V))) (List (Option (HEntry K V)))
  | 0, _, _, _ => .stuck
  | fuel + 1, slots, i, fail =>
    let s1 := slots.set i none
    let j := mod2n (i + 1) n
    match (if j < n then s1[j]? else none) with
    | none => .ub
    | some none => .ok s1
    | some (some e) =>
      if e.psl = 0 then .ok s1
      else if fail = some 0 then .threw (s1.set j (some { e with psl := e.psl - 1 }))
      else shiftLoopTry n fuel (s1.set i (some { e with psl := e.psl - 1 })) j (oneDone fail)

/-- `erase_impl`, hash_table.hpp:687-739, when an operation before the final shrinking throws.  The first is the move into
`temp` (713), `_size` is decremented after it (714). -/
def eraseTry (h : K → Nat) (fuel : Nat) (t : HTable K V) (key : K) (fail : Option Nat) : Tried (HTable K V) (HTable K V) :=
  match eraseSearch t (h key) key fuel (mod2n (h key) t.n) 0 with
  | .ub => .ub
  | .stuck => .stuck
  | .ok none => .ok t
  | .ok (some i) =>
    if fail = some 0 then .threw t
    else
      match shiftLoopTry t.n fuel t.slots i (oneDone fail) with
      | .ub => .ub
      | .stuck => .stuck
      | .threw slots => .threw ⟨t.n, slots, t.size - 1⟩
      | .ok slots =>
        let t' : HTable K V := ⟨t.n, slots, t.size - 1⟩
        if t'.size > defaultBucketCount ∧ t'.size < approx40 t.n then .ofRun (t'.reserve h fuel (t.n >>> 1))
        else .ok t'

end HTable

/-- Where `sparse_table::emplace` can throw. -/
inductive SparseThrow where
  /-- `reserve_sparse`, sparse_table.hpp:209 (`std::vector::resize` throws without effect, 152) -/
  | grow
  /-- the growth of the dense vector or the construction of the pair, sparse_table.hpp:212-217 (`emplace_back` throws
  without effect, for elements that can be moved without exception) -/
  | construct
  deriving DecidableEq, Repr

/-- `sparse_table::emplace`, sparse_table.hpp:204-221, when it throws; `none` if it does not get that far: the key is
present. -/
def SparseTable.emplaceThrows {V : Type} (t : SparseTable V) (key : Nat) (at_ : SparseThrow) : Obs (Option (SparseTable V)) :=
  match t.contains key with
  | .ub => .ub
  | .throw e => .throw e
  | .ok true => .ok none
  | .ok false =>
    match at_ with
    | .grow => .ok (some t)
    | .construct => .ok (some (t.reserveSparse ((key + 1) % U64)))

end CoEcs
