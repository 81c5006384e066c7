import Verif.Model.SparseTable

/-!
# Model of the stack and linear allocators
(/repo/include/co_ecs/detail/allocator/stack_allocator.hpp, linear_allocator.hpp)

Addresses are natural numbers; `std::size_t` arithmetic is modulo `2^64` where the code subtracts.
The client that uses an allocator is modelled beside it: it keeps the list of its live
allocations (newest first) and may write any byte inside them.
-/

namespace CoEcs.Alloc

/-- Round up to a multiple of `a`. -/
def alignUp (p a : Nat) : Nat := (p + a - 1) / a * a

/-- `std::align` of the C++ standard ([ptr.align]): the first address at or after `ptr` that is a
multiple of `alignment` if `bytes` fit behind it in `space`, otherwise null. -/
def stdAlign (alignment bytes ptr space : Nat) : Option Nat :=
  if alignUp ptr alignment - ptr + bytes ≤ space then some (alignUp ptr alignment) else none

/-- `size_t` subtraction. -/
def sub64 (a b : Nat) : Nat := (a + U64 - b % U64) % U64

/-- Data members, stack_allocator.hpp:102-105. -/
structure Stack where
  start : Nat
  offset : Nat
  size : Nat
  deriving DecidableEq, Repr

/-- Bytes of memory. -/
abbrev Mem := Nat → Nat

def Mem.set (m : Mem) (a v : Nat) : Mem := fun x => if x = a then v else m x

namespace Stack

/-- Constructor, stack_allocator.hpp:25-26. -/
def mk' (ptr size : Nat) : Stack := ⟨ptr, 0, size⟩

/-- `remaining`, stack_allocator.hpp:93-95. -/
def remaining (s : Stack) : Nat := sub64 s.size s.offset

/-- `allocate`, stack_allocator.hpp:51-76.  The assertions at 52-53 are the caller's preconditions.  The
second component is the memory after the header byte has been written; `padding_t` has 8 bits. -/
def allocate (s : Stack) (m : Mem) (bytes alignment : Nat) : Stack × Mem × Option Nat :=
  let top := s.start + s.offset
  match stdAlign alignment bytes (top + 1) (sub64 (sub64 s.size s.offset) 1) with
  | none => (s, m, none)
  | some p =>
    let padding := (p - top) % 256
    ({ s with offset := s.offset + (padding + bytes) }, m.set (p - 1) padding, some p)

/-- `deallocate`, stack_allocator.hpp:80-89; `none` is a violated assertion. -/
def deallocate (s : Stack) (m : Mem) (p : Nat) : Option Stack :=
  if p < s.start + s.size ∧ s.start ≤ p then some { s with offset := p - m (p - 1) - s.start } else none

/-- `reset`, stack_allocator.hpp:98-100. -/
def reset (s : Stack) : Stack := { s with offset := 0 }

/-- Move constructor, stack_allocator.hpp:34-36: the new object; `_offset` has its default member
initialiser 0. -/
def moved (s : Stack) : Stack := ⟨s.start, 0, s.size⟩

end Stack

/-- Data members, linear_allocator.hpp:55-58. -/
structure Linear where
  head : Nat
  ptr : Nat
  size : Nat
  deriving DecidableEq, Repr

namespace Linear

/-- Constructor, linear_allocator.hpp:19-20. -/
def mk' (ptr size : Nat) : Linear := ⟨ptr, ptr, size⟩

/-- `allocate`, linear_allocator.hpp:38-48.  (`std::align` also moves `_head` on success; it is overwritten
right after.) -/
def allocate (l : Linear) (bytes alignment : Nat) : Linear × Option Nat :=
  match stdAlign alignment bytes l.head (sub64 l.size (l.head - l.ptr)) with
  | none => (l, none)
  | some p => ({ l with head := p + bytes }, some p)

/-- `reset`, linear_allocator.hpp:51-53. -/
def reset (l : Linear) : Linear := { l with head := l.ptr }

end Linear

/-- A live allocation as its owner sees it. -/
structure Live where
  ptr : Nat
  bytes : Nat
  align : Nat
  deriving DecidableEq, Repr

/-- What a client does with a stack allocator.  `write k i v` stores `v` into byte `i` of the `k`-th
live allocation (0 = newest). -/
inductive StackOp where
  | alloc (bytes align : Nat)
  | dealloc
  | write (k i v : Nat)
  | reset
  deriving DecidableEq, Repr

/-- Client, allocator and memory together. -/
structure StackSys where
  alloc : Stack
  mem : Mem
  live : List Live

/-- One client action (last-in first-out deallocation).  `none`: the action is not possible or
violates an assertion.  A failed allocation changes nothing.  (Dispatch only.) -/
def StackSys.step (y : StackSys) : StackOp → Option StackSys
  | .alloc b a =>
    match y.alloc.allocate y.mem b a with
    | (_, _, none) => some y
    | (s, m, some p) => some ⟨s, m, ⟨p, b, a⟩ :: y.live⟩
  | .dealloc =>
    match y.live with
    | [] => none
    | l :: ls =>
      match y.alloc.deallocate y.mem l.ptr with
      | none => none
      | some s => some ⟨s, y.mem, ls⟩
  | .write k i v =>
    match y.live[k]? with
    | none => none
    | some l => if i < l.bytes then some { y with mem := y.mem.set (l.ptr + i) v } else none
  | .reset => some ⟨y.alloc.reset, y.mem, []⟩

def StackSys.run (y : StackSys) : List StackOp → Option StackSys
  | [] => some y
  | op :: ops => (y.step op).bind fun y' => y'.run ops

/-- A linear allocator and the allocations made since the last reset, newest first. -/
structure LinearSys where
  alloc : Linear
  live : List Live

inductive LinearOp where
  | alloc (bytes align : Nat)
  | reset
  deriving DecidableEq, Repr

/-- (Dispatch only.) -/
def LinearSys.step (y : LinearSys) : LinearOp → LinearSys
  | .alloc b a =>
    match y.alloc.allocate b a with
    | (l, none) => ⟨l, y.live⟩
    | (l, some p) => ⟨l, ⟨p, b, a⟩ :: y.live⟩
  | .reset => ⟨y.alloc.reset, []⟩

def LinearSys.run (y : LinearSys) (ops : List LinearOp) : LinearSys := ops.foldl LinearSys.step y

end CoEcs.Alloc
