import Verif.Model.Registry
import Verif.Model.ParallelFor

/-!
# Model of `view` (/repo/include/co_ecs/view.hpp) and `chunk_view` (chunk.hpp:308-462)

A view is given by the list of its arguments: `none` for `const entity&`, `some c` for a reference to
component `c`.  The range adaptors of the standard library are modelled by what they denote: the
archetype pointers in the iteration order of the hash map, filtered, replaced by their chunks and joined.
The callback may write to components through its references and must not change the registry otherwise
(creating, destroying, adding or removing invalidates the iterators); it is given by the list `muts` of
components it writes and the values `f args c` it leaves in them.
-/

namespace CoEcs
namespace Reg
variable {V : Type}

/-- `match`, view.hpp:163-170. -/
def matchArg (a : Arch V) : BlockId → Bool
  | none => true
  | some c => a.contains c

/-- The values of the archetype map (`views::values`, view.hpp:180) in iteration order. -/
def viewPtrs (r : Reg V) : Option (List (Option Nat)) :=
  match r.archs.map.entries with
  | .ok es => some (es.map HEntry.val)
  | _ => none

/-- The entries of the chunks of an archetype: for each chunk the locations from `chunk_view::begin` to
`chunk_view::end` (chunk.hpp:450-459). -/
def chunkLocs (ai : Nat) (a : Arch V) : List (List Loc) :=
  a.chunks.mapIdx fun ci c => (List.range c.size).map fun i => ⟨some ai, ci, i⟩

/-- `chunks`, view.hpp:172-186, run to the end.  A null pointer in the map is dereferenced by `match` or by
`into_chunks`, whatever the arguments: `none`. -/
def viewChunksOf (r : Reg V) (args : List BlockId) : List (Option Nat) → Option (List (List Loc))
  | [] => some []
  | none :: _ => none
  | some ai :: ps =>
    match r.archs.arches[ai]? with
    | none => none
    | some a =>
      match r.viewChunksOf args ps with
      | none => none
      | some rest => some (if args.all (matchArg a) then chunkLocs ai a ++ rest else rest)

def viewChunks (r : Reg V) (args : List BlockId) : Option (List (List Loc)) :=
  match r.viewPtrs with
  | none => none
  | some ps => r.viewChunksOf args ps

/-- The values a row holds for the arguments: `component_fetch::fetch_pointer` (chunk.hpp:313-335) and
dereferencing, chunk.hpp:417-419.  For archetypes that match, the exception is never thrown; where it is (C112), it meets the `noexcept` of
`chunk_view::begin()`. -/
def fetch (a : Arch V) (row : Row V) : List BlockId → Obs (List (Val V))
  | [] => .ok []
  | b :: bs =>
    if b ∈ a.blocks then
      match (row b).read with
      | none => .ub
      | some v =>
        match fetch a row bs with
        | .ok vs => .ok (v :: vs)
        | .throw e => .throw e
        | .ub => .ub
    else .throw .componentNotFound

/-- The tuple a view yields for the entry at a location. -/
def tupleAt (r : Reg V) (args : List BlockId) (l : Loc) : Obs (List (Val V)) :=
  match r.archOf l with
  | none => .ub
  | some (_, a) =>
    match a.row? l.chunk l.entry with
    | none => .ub
    | some row => fetch a row args

/-- What the callback writes. -/
def writeAll (l : Loc) (g : Nat → V) : Reg V → List Nat → Option (Reg V)
  | r, [] => some r
  | r, c :: cs =>
    match r.writeAt l c false (g c) with
    | none => none
    | some r' => writeAll l g r' cs

/-- The callback is called for each location in turn.  The result lists the tuples it was called with, as
they were at the beginning of the call. -/
def eachLocs (args : List BlockId) (muts : List Nat) (f : List (Val V) → Nat → V) : Reg V → List Loc → Res (Reg V) (List (List (Val V)))
  | r, [] => .ok r []
  | r, l :: ls =>
    match r.tupleAt args l with
    | .ub => .ub
    | .throw e => .throw r e
    | .ok t =>
      match writeAll l (f t) r muts with
      | none => .ub
      | some r' =>
        match eachLocs args muts f r' ls with
        | .ok r'' ts => .ok r'' (t :: ts)
        | .throw r'' e => .throw r'' e
        | .ub => .ub

/-- `each(func)`, view.hpp:106-128, and iteration over `each()`, view.hpp:90-102. -/
def each (r : Reg V) (args : List BlockId) (muts : List Nat) (f : List (Val V) → Nat → V) : Res (Reg V) (List (List (Val V))) :=
  match r.viewChunks args with
  | none => .ub
  | some cs => eachLocs args muts f r cs.flatten

/-- The first entry of the view, found without looking at archetypes behind it. -/
def firstOf (r : Reg V) (args : List BlockId) : List (Option Nat) → Option (Option Loc)
  | [] => some none
  | none :: _ => none
  | some ai :: ps =>
    match r.archs.arches[ai]? with
    | none => none
    | some a =>
      if args.all (matchArg a) then
        match (chunkLocs ai a).flatten with
        | l :: _ => some (some l)
        | [] => r.firstOf args ps
      else r.firstOf args ps

/-- `single`, view.hpp:64-86 and registry.hpp:107-124. -/
def single (r : Reg V) (args : List BlockId) : Obs (Option (List (Val V))) :=
  match r.viewPtrs with
  | none => .ub
  | some ps =>
    match r.firstOf args ps with
    | none => .ub
    | some none => .ok none
    | some (some l) =>
      match r.tupleAt args l with
      | .ok t => .ok (some t)
      | .throw e => .throw e
      | .ub => .ub

/-- `par_each`, view.hpp:132-148: the order in which the entries are visited is that of some execution of the
plan made by `parallel_for`.  Calls of the callback count as atomic; each touches only the entity it is
called for. -/
inductive ParEach (workers : Nat) (r : Reg V) (args : List BlockId) (muts : List Nat) (f : List (Val V) → Nat → V) :
    Res (Reg V) (List (List (Val V))) → Prop
  | null : r.viewChunks args = none → ParEach workers r args muts f .ub
  | bad {cs} : r.viewChunks args = some cs → (∀ p, parEach workers cs ≠ .ok p) → ParEach workers r args muts f .ub
  | run {cs p log} : r.viewChunks args = some cs → parEach workers cs = .ok p → p.Executes log →
      ParEach workers r args muts f (eachLocs args muts f r log)

end Reg
end CoEcs
