/-!
# Model of `detail::dynamic_bitset<std::uint64_t>`
(/repo/include/co_ecs/detail/dynamic_bitset.hpp)
-/

namespace CoEcs

/-- `_blocks`, dynamic_bitset.hpp:93. -/
structure Bitset where
  blocks : List (BitVec 64)
  deriving DecidableEq, Repr

namespace Bitset

/-- Constructor, dynamic_bitset.hpp:28-30; the default argument is 1. -/
def mk' (initialBlocks : Nat := 1) : Bitset := ⟨List.replicate initialBlocks 0⟩

/-- `block_type{1} << bit_pos`. -/
def mask (bit : Nat) : BitVec 64 := 1#64 <<< bit

/-- `test`, dynamic_bitset.hpp:37-43 with `block_and_bit`, 87-91. -/
def test (b : Bitset) (pos : Nat) : Bool :=
  match b.blocks[pos / 64]? with
  | none => false
  | some blk => (blk &&& mask (pos % 64)) != 0

/-- `std::vector::resize(n)`, new blocks are zero. -/
def resize (l : List (BitVec 64)) (n : Nat) : List (BitVec 64) :=
  l.take n ++ List.replicate (n - l.length) 0

/-- The loop of `set`, dynamic_bitset.hpp:60-63: walk down from `i` over zero blocks.  Indexing is
in bounds for every `i < blocks.size()`, which the caller ensures. -/
def trimPos (l : List (BitVec 64)) : Nat → Nat
  | 0 => 0
  | i + 1 =>
    match l[i + 1]? with
    | some blk => if blk = 0 then trimPos l i else i + 1
    | none => i + 1

/-- `set`, dynamic_bitset.hpp:50-67. -/
def set (b : Bitset) (pos : Nat) (value : Bool := true) : Bitset :=
  let i := pos / 64
  let l := if i ≥ b.blocks.length then resize b.blocks (i + 1) else b.blocks
  if value then ⟨l.modify i (· ||| mask (pos % 64))⟩
  else
    let l' := l.modify i (· &&& ~~~ mask (pos % 64))
    ⟨resize l' (trimPos l' (l'.length - 1) + 1)⟩

/-- `clear`, dynamic_bitset.hpp:70-73. -/
def clear (b : Bitset) : Bitset := ⟨(resize b.blocks 1).set 0 0⟩

/-- `operator==`, dynamic_bitset.hpp:80-82. -/
def beq (a b : Bitset) : Bool := a.blocks == b.blocks

/-- `std::hash<dynamic_bitset>`, dynamic_bitset.hpp:102-110. -/
def hash (b : Bitset) : BitVec 64 := b.blocks.foldl (· ^^^ ·) 0

end Bitset

/-- Mutating calls on a bit set. -/
inductive BitsetOp where
  | set (pos : Nat) (value : Bool)
  | clear
  deriving DecidableEq, Repr

/-- (Dispatch only.) -/
def Bitset.step (b : Bitset) : BitsetOp → Bitset
  | .set p v => b.set p v
  | .clear => b.clear

def Bitset.run (b : Bitset) (ops : List BitsetOp) : Bitset := ops.foldl Bitset.step b

end CoEcs
