import Verif.Model.Component
import Verif.Model.HandlePool
import Verif.Model.Outcome

/-!
# Model of `chunk` (/repo/include/co_ecs/chunk.hpp)

A chunk buffer is an array of rows, one per entry index; a row has one cell per block of the archetype.
The place of a cell in the 16 KB buffer (offset, alignment, no overlap) is the subject of
`Model/Layout.lean` and C25; here cells of different blocks or rows are different storage.

A cell records whether an object lives there.  Reading, assigning or destroying a cell without an
object is undefined behaviour (`none`).  A moved-from object is still an object (it must be
destroyed), but reading its value is reported as `none` too.  Component values are elements of one
type `V`; component constructors, assignments and destructors are assumed not to throw and to have no
other effect, except that copying a non-copyable component throws (type_meta.hpp:36-42).
-/

namespace CoEcs

/-- The entity handle block (`none`) or the block of the component with the given id.  In the code both
are keyed by `component_id_t`; `entity` has an id of its own. -/
abbrev BlockId := Option Nat

/-- The value of an object in a chunk: an entity handle or a component. -/
inductive Val (V : Type) where
  | ent (h : Handle)
  | comp (v : V)
  deriving DecidableEq, Repr

/-- Storage for one object. -/
inductive Cell (V : Type) where
  /-- no object -/
  | raw
  | live (v : Val V)
  /-- an object that has been moved from -/
  | moved
  deriving DecidableEq, Repr

/-- The cells of one entry index of a chunk. -/
abbrev Row (V : Type) := BlockId → Cell V

/-- Storage of a new buffer (chunk.hpp:55-57, `new chunk_buffer` leaves it uninitialised). -/
def Row.raw {V : Type} : Row V := fun _ => .raw

def Row.set {V : Type} (r : Row V) (b : BlockId) (c : Cell V) : Row V := fun b' => if b' = b then c else r b'

/-- What is left behind by a move: handles are trivially copyable, a moved-from component has an
unspecified value. -/
def Val.leave {V : Type} : Val V → Cell V
  | .ent h => .live (.ent h)
  | .comp _ => .moved

/-- Ghost counters (not in the code): objects constructed and destroyed per block, and constructions
over an object that was still there. -/
structure Tally where
  built : BlockId → Nat
  freed : BlockId → Nat
  dup : Nat

namespace Tally
def zero : Tally := ⟨fun _ => 0, fun _ => 0, 0⟩
def build (t : Tally) (b : BlockId) (over : Bool) : Tally :=
  ⟨fun b' => if b' = b then t.built b' + 1 else t.built b', t.freed, if over then t.dup + 1 else t.dup⟩
def free (t : Tally) (b : BlockId) : Tally :=
  ⟨t.built, fun b' => if b' = b then t.freed b' + 1 else t.freed b', t.dup⟩
end Tally

namespace Cell
variable {V : Type}

/-- An object lives here. -/
def occupied : Cell V → Bool
  | .raw => false
  | _ => true

/-- The value of the object; `none` if there is none to read. -/
def read : Cell V → Option (Val V)
  | .live v => some v
  | _ => none

end Cell

namespace Row
variable {V : Type}

/-- `std::construct_at` on one cell. -/
def construct (r : Row V) (t : Tally) (b : BlockId) (v : Val V) : Row V × Tally :=
  (r.set b (.live v), t.build b (r b).occupied)

/-- `destroy_at`, chunk.hpp:294-298: every block in order. -/
def destroy : List BlockId → Row V → Tally → Option (Row V × Tally)
  | [], r, t => some (r, t)
  | b :: bs, r, t => if (r b).occupied then destroy bs (r.set b .raw) (t.free b) else none

/-- The loop of `swap_erase`, chunk.hpp:136-141: move-assign every block of `src` onto `dst`.  Both
chunks belong to one archetype, so `other._blocks` is the same map and `find` succeeds. -/
def moveAssign : List BlockId → (src dst : Row V) → Option (Row V × Row V)
  | [], s, d => some (s, d)
  | b :: bs, s, d =>
    match (s b).read with
    | none => none
    | some v => if (d b).occupied then moveAssign bs (s.set b v.leave) (d.set b (.live v)) else none

/-- The loop of `move`, chunk.hpp:155-162: blocks the other chunk does not have are skipped, the others
are move-constructed there. -/
def moveConstruct (dstBlocks : List BlockId) : List BlockId → (src dst : Row V) → Tally →
    Option (Row V × Row V × Tally)
  | [], s, d, t => some (s, d, t)
  | b :: bs, s, d, t =>
    if b ∈ dstBlocks then
      match (s b).read with
      | none => none
      | some v =>
        moveConstruct dstBlocks bs (s.set b v.leave) (d.construct t b v).1 (d.construct t b v).2
    else moveConstruct dstBlocks bs s d t

/-- The loop of `copy`, chunk.hpp:176-185 with type_meta.hpp:34-42.  Blocks come with their
`is_copy_constructible`; the pointer `copy_construct` is never null (type_meta.hpp:79-89). -/
def copyConstruct (dstBlocks : List BlockId) (s : Row V) : List (BlockId × Bool) → (dst : Row V) → Tally →
    Res (Row V × Tally) Unit
  | [], d, t => .ok (d, t) ()
  | (b, copyable) :: bs, d, t =>
    if b ∈ dstBlocks then
      if copyable then
        match (s b).read with
        | none => .ub
        | some v => copyConstruct dstBlocks s bs (d.construct t b v).1 (d.construct t b v).2
      else .throw (d, t) .invalidArgument
    else copyConstruct dstBlocks s bs d t

/-- `emplace_back`, the constructions at chunk.hpp:108-109.  `ptr_mut` looks the block up with `at`
(chunk.hpp:290-292), which throws `std::out_of_range` for a missing one. -/
def emplaceArgs (blocks : List BlockId) : List (Nat × V) → Row V → Tally → Res (Row V × Tally) Unit
  | [], r, t => .ok (r, t) ()
  | (c, v) :: as, r, t =>
    if some c ∈ blocks then
      emplaceArgs blocks as (r.construct t (some c) (.comp v)).1 (r.construct t (some c) (.comp v)).2
    else .throw (r, t) .outOfRange

end Row

/-- `chunk`: the rows of the buffer and `_size` (chunk.hpp:300-303).  `_max_size` and `_blocks` are
those of the archetype and are passed to the functions. -/
structure Chunk (V : Type) where
  size : Nat
  rows : Nat → Row V

namespace Chunk
variable {V : Type}

/-- Constructor, chunk.hpp:55-57. -/
def fresh : Chunk V := ⟨0, fun _ => Row.raw⟩

def setRow (c : Chunk V) (i : Nat) (r : Row V) : Chunk V := { c with rows := fun j => if j = i then r else c.rows j }

/-- `emplace_back`, chunk.hpp:105-111.  A full chunk is the failed assertion of line 107 (without
assertions: construction outside the block). -/
def emplaceBack (blocks : List BlockId) (cap : Nat) (c : Chunk V) (t : Tally) (h : Handle) (args : List (Nat × V)) :
    Res (Chunk V × Tally) Unit :=
  if c.size < cap then
    let r1 := (c.rows c.size).construct t none (.ent h)
    match Row.emplaceArgs blocks args r1.1 r1.2 with
    | .ok (r, t) _ => .ok ({ c.setRow c.size r with size := c.size + 1 }, t) ()
    | .throw (r, t) e => .throw (c.setRow c.size r, t) e
    | .ub => .ub
  else .ub

/-- `pop_back`, chunk.hpp:114-118.  An empty chunk is the failed assertion of line 115 (without
assertions `_size` wraps around). -/
def popBack (blocks : List BlockId) (cap : Nat) (c : Chunk V) (t : Tally) : Option (Chunk V × Tally) :=
  if 0 < c.size ∧ c.size ≤ cap then
    (Row.destroy blocks (c.rows (c.size - 1)) t).map fun r =>
      ({ c.setRow (c.size - 1) r.1 with size := c.size - 1 }, r.2)
  else none

/-- The destructor, chunk.hpp:88-98.  The code loops over the blocks outside and the indices inside;
destruction of different cells commutes. -/
def destruct (blocks : List BlockId) (cap : Nat) (c : Chunk V) (t : Tally) : Nat → Option Tally
  | 0 => some t
  | n + 1 =>
    if n < cap then
      match c.destruct blocks cap t n with
      | none => none
      | some t => (Row.destroy blocks (c.rows n) t).map Prod.snd
    else none

end Chunk

end CoEcs
