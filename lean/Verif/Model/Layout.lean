import Verif.Model.Component
import Verif.Model.SparseTable

/-!
# Model of the chunk layout computed by an archetype
(/repo/include/co_ecs/archetype.hpp:177-251, chunk.hpp:24-60, 284-288)
-/

namespace CoEcs.Layout

/-- `chunk::chunk_bytes`, chunk.hpp:40. -/
def chunkBytes : Nat := 16384

/-- `chunk::alloc_alignment = alignof(entity)`, chunk.hpp:43. -/
def allocAlignment : Nat := 4

/-- `component_meta::of<entity>()`: a handle is two 32-bit integers (detail/handle.hpp:14-75).  Its
component id depends on the program. -/
def entityMeta (eid : Nat) : CompMeta := ⟨eid, 8, 4, true⟩

/-- `packed_components_size`, archetype.hpp:227-232. -/
def packedSize (comps : List CompMeta) : Nat := comps.foldl (fun r m => r + m.size) 8

/-- `add_elements`, archetype.hpp:240-243. -/
def addElement (fin : Nat) (m : CompMeta) : Nat := fin + mod2n fin m.align + m.size

/-- `aligned_components_size`, archetype.hpp:235-251. -/
def alignedSize (comps : List CompMeta) : Nat :=
  comps.foldl addElement (addElement allocAlignment (entityMeta 0)) - allocAlignment

/-- `get_max_size`, archetype.hpp:199-224; `none` is the exception `insufficient_chunk_size`. -/
def maxSize (comps : List CompMeta) : Option Nat :=
  if alignedSize comps > chunkBytes then none
  else some ((chunkBytes - alignedSize comps) / packedSize comps + 1)

/-- `block_metadata`, chunk.hpp:24-30. -/
structure Block where
  offset : Nat
  info : CompMeta
  deriving DecidableEq, Repr

/-- `add_block`, archetype.hpp:187-196. -/
def addBlock (max : Nat) (blocks : SparseTable Block) (offset : Nat) (m : CompMeta) :
    Res (SparseTable Block) Nat :=
  match blocks.emplace 32 m.id ⟨offset, m⟩ with
  | .ok b _ => .ok b (offset + (mod2n offset m.align + max * m.size))
  | .throw b e => .throw b e
  | .ub => .ub

/-- The loop of `init_blocks`, archetype.hpp:182-184. -/
def addBlocks (max : Nat) : SparseTable Block → Nat → List CompMeta → Res (SparseTable Block) Nat
  | b, o, [] => .ok b o
  | b, o, m :: ms =>
    match addBlock max b o m with
    | .ok b' o' => addBlocks max b' o' ms
    | .throw b' e => .throw b' e
    | .ub => .ub

/-- `init_blocks`, archetype.hpp:177-185. -/
def initBlocks (eid : Nat) (max : Nat) (comps : List CompMeta) : Res (SparseTable Block) Nat :=
  addBlocks max SparseTable.empty 0 (entityMeta eid :: comps)

/-- Address of entry `i` of a block, chunk.hpp:284-288 (and 94, 137, 162, 184, 268, 296): `base` is the
address of the chunk buffer. -/
def slotAddr (base : Nat) (b : Block) (i : Nat) : Nat := base + b.offset + i * b.info.size

end CoEcs.Layout
