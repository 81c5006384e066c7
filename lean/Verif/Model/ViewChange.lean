import Verif.Model.View

/-!
# Iteration over a view while the callback changes the registry

`Model/View.lean` runs the range of a view to the end before the callback is called, which is the same thing
as long as the callback only writes through its references.  Here the iterators are kept apart: the bucket
of the archetype map, the chunk in the vector of the archetype, the entry in the chunk.  Every one of them is
advanced on the registry as the callback left it.

* The inner `for` of view.hpp:106-128 evaluates `chunk_view::begin` and `chunk_view::end`
  (chunk.hpp:450-459) once, on entering the chunk; they are pointers into the buffer of the chunk.
* The iterator of `views::join` (view.hpp:184) is advanced by `++inner == end(*outer)`: the vector of chunks is
  looked up again through the bucket, its end is the current one.
* The iterator of the archetype map is a pointer to a bucket (hash_table.hpp:173-257); it dangles when the
  table has grown.
* An iterator of `std::vector` is invalid after an insertion (the capacity is not modelled, so every insertion
  counts as reallocation) and when the element it points to has been removed.
-/

namespace CoEcs
namespace Reg
variable {V : Type}

/-- One operation of the callback on the registry. -/
abbrev Act (V : Type) := Reg V → Res (Reg V) Unit

/-- The number of chunks of an archetype. -/
def chunkCount (r : Reg V) (ai : Nat) : Nat :=
  match r.archs.arches[ai]? with
  | none => 0
  | some a => a.chunks.length

/-- The operations of one call of the callback.  The flag says whether the vector of chunks of archetype `ai`
has had no insertion so far. -/
def acts (ai : Nat) : Reg V → Bool → List (Act V) → Res (Reg V × Bool) Unit
  | r, v, [] => .ok (r, v) ()
  | r, v, s :: ss =>
    match s r with
    | .ub => .ub
    | .throw r' e => .throw (r', v) e
    | .ok r' _ => acts ai r' (v && decide (r'.chunkCount ai ≤ r.chunkCount ai)) ss

/-- The inner loop, view.hpp:110-112: `k` more entries of chunk `ci`, the next one being `i`.  The callback
reads its arguments; there must be objects. -/
def rowsFrom (args : List BlockId) (cb : List (Val V) → List (Act V)) (ai ci : Nat) :
    Nat → Nat → Reg V → Bool → Res (Reg V × Bool) (List (List (Val V)))
  | 0, _, r, v => .ok (r, v) []
  | k + 1, i, r, v =>
    match r.tupleAt args ⟨some ai, ci, i⟩ with
    | .ub => .ub
    | .throw e => .throw (r, v) e
    | .ok t =>
      match acts ai r v (cb t) with
      | .ub => .ub
      | .throw s e => .throw s e
      | .ok (r', v') _ =>
        match rowsFrom args cb ai ci k (i + 1) r' v' with
        | .ub => .ub
        | .throw s e => .throw s e
        | .ok s ts => .ok s (t :: ts)

/-- The bucket `p` of a map that had `n` buckets still holds the pointer to archetype `ai`. -/
def bucketIs (r : Reg V) (n p ai : Nat) : Bool :=
  decide (r.archs.map.n = n) &&
    match r.archs.map.slot? p with
    | some (some e) => decide (e.val = some ai)
    | _ => false

/-- The outer loop, view.hpp:109, within one archetype: chunk `ci` is the first of at most `k`.  Without an
insertion, which makes the iterator invalid, there are never more than there were at the start. -/
def chunksFrom (args : List BlockId) (cb : List (Val V) → List (Act V)) (n p ai : Nat) :
    Nat → Nat → Reg V → Bool → Res (Reg V) (List (List (Val V)))
  | 0, _, _, _ => .ub
  | k + 1, ci, r, v =>
    match (match r.archs.arches[ai]? with | none => none | some a => a.chunks[ci]?) with
    | none => .ub
    | some c =>
      match rowsFrom args cb ai ci c.size 0 r v with
      | .ub => .ub
      | .throw s e => .throw s.1 e
      | .ok (r', v') ts =>
        if v' && r'.bucketIs n p ai && decide (ci < r'.chunkCount ai) then
          if ci + 1 = r'.chunkCount ai then .ok r' ts
          else
            match chunksFrom args cb n p ai k (ci + 1) r' v' with
            | .ub => .ub
            | .throw s e => .throw s e
            | .ok s ts' => .ok s (ts ++ ts')
        else .ub

/-- The outer loop, view.hpp:109, over the buckets of the archetype map: `k` more of `n`, the next one being
`p`. -/
def bucketsFrom (args : List BlockId) (cb : List (Val V) → List (Act V)) (n : Nat) :
    Nat → Nat → Reg V → Res (Reg V) (List (List (Val V)))
  | 0, _, r => .ok r []
  | k + 1, p, r =>
    match r.archs.map.slot? p with
    | none => .ub
    | some none => bucketsFrom args cb n k (p + 1) r
    | some (some e) =>
      match e.val with
      | none => .ub
      | some ai =>
        match r.archs.arches[ai]? with
        | none => .ub
        | some a =>
          if args.all (matchArg a) && decide (a.chunks.length ≠ 0) then
            match chunksFrom args cb n p ai a.chunks.length 0 r true with
            | .ub => .ub
            | .throw s e => .throw s e
            | .ok r' ts =>
              match bucketsFrom args cb n k (p + 1) r' with
              | .ub => .ub
              | .throw s e => .throw s e
              | .ok s ts' => .ok s (ts ++ ts')
          else bucketsFrom args cb n k (p + 1) r

/-- `each(func)`, view.hpp:106-128, with a callback that operates on the registry.  The result lists the
arguments of the calls. -/
def eachActing (r : Reg V) (args : List BlockId) (cb : List (Val V) → List (Act V)) :
    Res (Reg V) (List (List (Val V))) :=
  bucketsFrom args cb r.archs.map.n r.archs.map.n 0 r

/-- The callback `[&](const entity& e, ...) { registry.destroy(e); }`: it destroys the entity it is called
for. -/
def destroyVisited : List (Val V) → List (Act V)
  | .ent h :: _ => [fun r => r.destroy h]
  | _ => []

end Reg
end CoEcs
