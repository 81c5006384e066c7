import Verif.Model.View

/-!
# Model of the ranges that `view::each()` and `view::chunks()` return (/repo/include/co_ecs/view.hpp:88-102, 150-160, 172-186)

The range is a pipeline of adaptors of the standard library over a reference to the map of archetypes.  The
iterators of the map are forward iterators (hash_table.hpp:178-179), so `filter` is an adaptor of a forward range:
the first call of its `begin()` searches the first archetype that matches and keeps the iterator it found
([range.filter.view]; the same holds for range-v3, detail/views.hpp:11-15), all further calls return that
iterator.  The adaptors around it keep nothing that outlives a call of `begin()`.

A range is thus its arguments and what `filter` keeps.  An iterator of the map is a bucket of a table of a
certain size (hash_table.hpp:256-258); a table is only replaced by a larger one, and iterators into the old one
are undefined to use.  Not modelled: ranges of a registry that is moved or assigned.
-/

namespace CoEcs

/-- The iterator `filter` keeps: bucket `p` of a table of `n` buckets, or the end if `p = n`. -/
structure KeptBegin where
  n : Nat
  p : Nat
deriving DecidableEq, Repr

/-- The range returned by `each()` or `chunks()`, view.hpp:90-102, 152-160. -/
structure ViewRange where
  args : List BlockId
  kept : Option KeptBegin
deriving DecidableEq, Repr

/-- The range as it is returned: `filter` has not been asked for its beginning yet. -/
def ViewRange.fresh (args : List BlockId) : ViewRange := ⟨args, none⟩

namespace Reg
variable {V : Type}

/-- The archetype whose pointer is in an entry of the map; the pointer must not be null. -/
def archIn (r : Reg V) (e : HEntry Bitset (Option Nat)) : Option (Nat × Arch V) :=
  match e.val with
  | none => none
  | some ai =>
    match r.archs.arches[ai]? with
    | none => none
    | some a => some (ai, a)

/-- `std::ranges::find_if` over the buckets from `p` on, `k` of them: skipping the empty ones
(hash_table.hpp:195-202, 212-217, 249-254), the first one whose archetype matches (view.hpp:173-175, 181), or the end. -/
def seekBucket (r : Reg V) (args : List BlockId) : Nat → Nat → Option Nat
  | 0, p => some p
  | k + 1, p =>
    match r.archs.map.slot? p with
    | none => none
    | some none => r.seekBucket args k (p + 1)
    | some (some e) =>
      match r.archIn e with
      | none => none
      | some (_, a) => if args.all (matchArg a) then some p else r.seekBucket args k (p + 1)

/-- The chunks of the archetypes that match in the buckets from `p` on: the iterator of `filter` is advanced by the same search,
view.hpp:179-185. -/
def chunksBehind (r : Reg V) (args : List BlockId) : Nat → Nat → Option (List (List Loc))
  | 0, _ => some []
  | k + 1, p =>
    match r.archs.map.slot? p with
    | none => none
    | some none => r.chunksBehind args k (p + 1)
    | some (some e) =>
      match r.archIn e with
      | none => none
      | some (ai, a) =>
        match r.chunksBehind args k (p + 1) with
        | none => none
        | some rest => some (if args.all (matchArg a) then chunkLocs ai a ++ rest else rest)

/-- An iteration that begins at bucket `p`, with `k` buckets left.  Whether the archetype in the bucket
matches is not asked again; an empty bucket must not be dereferenced (hash_table.hpp:231-233). -/
def chunksAt (r : Reg V) (args : List BlockId) : Nat → Nat → Option (List (List Loc))
  | 0, _ => some []
  | k + 1, p =>
    match r.archs.map.slot? p with
    | some (some e) =>
      match r.archIn e with
      | none => none
      | some (ai, a) =>
        match r.chunksBehind args k (p + 1) with
        | none => none
        | some rest => some (chunkLocs ai a ++ rest)
    | _ => none

end Reg

/-- `filter_view::begin()`: the bucket to begin with; undefined if what was kept belongs to another table. -/
def ViewRange.begin_ {V : Type} (g : ViewRange) (r : Reg V) : Option Nat :=
  match g.kept with
  | some b => if b.n = r.archs.map.n then some b.p else none
  | none => r.seekBucket g.args r.archs.map.n 0

/-- An iteration over the range from its beginning to its end: the range afterwards and the entries of the chunks. -/
def ViewRange.iterate {V : Type} (g : ViewRange) (r : Reg V) : Option (ViewRange × List (List Loc)) :=
  match g.begin_ r with
  | none => none
  | some p =>
    match r.chunksAt g.args (r.archs.map.n - p) p with
    | none => none
    | some cs => some (⟨g.args, some ⟨r.archs.map.n, p⟩⟩, cs)

/-- The end of a loop over the range of `each()`. -/
inductive RangeOut (V : Type) where
  | done (r : Reg V) (calls : List (List (Val V)))
  | terminated
  | ub

/-- Does `chunk_view::begin()` fail for the first chunk of the archetype in bucket `p`?  `fetch_pointer` throws `component_not_found` if the
chunk has no such block (chunk.hpp:313-335, 371-373), whether or not it has entries. -/
def Reg.fetchFails {V : Type} (r : Reg V) (args : List BlockId) (p : Nat) : Bool :=
  match r.archs.map.slot? p with
  | some (some e) =>
    match r.archIn e with
    | some (_, a) => !a.chunks.isEmpty && !args.all fun b => decide (b ∈ a.blocks)
    | none => false
  | _ => false

/-- A loop over the range of `each()` (view.hpp:88-102) whose body reads the tuples and writes components, as in `Reg.each`.
`chunk_view::begin()` is `noexcept` (chunk.hpp:450), so the exception ends the program. -/
def ViewRange.each {V : Type} (g : ViewRange) (r : Reg V) (muts : List Nat) (f : List (Val V) → Nat → V) : RangeOut V :=
  match g.begin_ r with
  | none => .ub
  | some p =>
    if r.fetchFails g.args p then .terminated
    else
      match g.iterate r with
      | none => .ub
      | some (_, cs) =>
        match Reg.eachLocs g.args muts f r cs.flatten with
        | .ok r' ts => .done r' ts
        | .throw _ _ => .terminated
        | .ub => .ub

end CoEcs
