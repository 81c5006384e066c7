import Verif.Model.Alloc

/-!
# Model of temporary storage
(/repo/include/co_ecs/detail/allocator/temp_allocator.hpp)

`temp_allocator<T>` takes its memory from a stack allocator of the current thread.  It is used as the allocator of a
`std::vector` (parallel_for.hpp:26).  This file models one thread: its stack allocator, the memory, and the vectors
alive in its scopes, newest first.  The element types are trivially copyable (as `std::ranges::subrange` of the iterators
of a view is), so that an element is the bytes of its representation.  `std::vector` is modelled after the C++ standard and,
where the standard leaves the choice, after libstdc++ (`_M_realloc_append`, `reserve`): new storage is taken before the
old one is given back.
-/

namespace CoEcs.Alloc

/-- Store bytes from address `a` on. -/
def Mem.blit (m : Mem) (a : Nat) (bs : List Nat) : Mem := fun x =>
  if a ≤ x then (match bs[x - a]? with | some b => b | none => m x) else m x

/-- `n` bytes from address `a` on. -/
def Mem.bytes (m : Mem) (a n : Nat) : List Nat := (List.range n).map fun i => m (a + i)

/-- `temp_allocator::allocate`, temp_allocator.hpp:40-46, on the stack allocator of the thread: `n * sizeof(T)` is computed
in `size_t`; none is `std::bad_alloc`. -/
def tempAllocate (s : Stack) (m : Mem) (n sz al : Nat) : Stack × Mem × Option Nat := s.allocate m (n * sz % U64) al

/-- `temp_allocator::deallocate`, temp_allocator.hpp:52-54. -/
def tempDeallocate (s : Stack) (m : Mem) (p : Nat) : Option Stack := s.deallocate m p

/-- A `std::vector<T, temp_allocator<T>>`: `sizeof(T)`, `alignof(T)`, number of elements, capacity, storage (which means
something only if the capacity is positive). -/
structure TVec where
  sz : Nat
  al : Nat
  size : Nat
  cap : Nat
  ptr : Nat
  deriving DecidableEq, Repr

/-- One thread: allocator (temp_allocator.hpp:13-14), memory, vectors in scope. -/
structure TempSys where
  alloc : Stack
  mem : Mem
  vecs : List TVec

/-- An operation returns, leaves by an exception, or violates an assertion. -/
inductive TempOut where
  | done (y : TempSys)
  | threw (y : TempSys)
  | bad

/-- What a thread does with its vectors; a vector is named by its position, 0 is the newest. -/
inductive VecOp where
  | create (sz al : Nat)
  | reserve (k n : Nat)
  | emplace (k : Nat) (x : List Nat)
  | write (k i : Nat) (x : List Nat)
  | destroy
  deriving DecidableEq, Repr

/-- `std::vector::max_size` with an allocator that has none of its own: `PTRDIFF_MAX / sizeof(T)`. -/
def TVec.maxSize (v : TVec) : Nat := (2 ^ 63 - 1) / v.sz

/-- Move the vector `v` at position `k` to storage for `n` elements and put the element `x` (no bytes: none) behind the others:
take new storage, construct the new element, copy the old ones, give the old storage back. -/
def TempSys.regrow (y : TempSys) (k : Nat) (v : TVec) (n : Nat) (x : List Nat) (size : Nat) : TempOut :=
  match tempAllocate y.alloc y.mem n v.sz v.al with
  | (_, _, none) => .threw y
  | (s, m, some p) =>
    let m1 := m.blit (p + v.size * v.sz) x
    let m2 := m1.blit p (m1.bytes v.ptr (v.size * v.sz))
    let vs := y.vecs.set k { v with size := size, cap := n, ptr := p }
    if v.cap = 0 then .done ⟨s, m2, vs⟩
    else match tempDeallocate s m2 v.ptr with
      | none => .bad
      | some s' => .done ⟨s', m2, vs⟩

/-- `std::vector::reserve`. -/
def TempSys.reserve (y : TempSys) (k : Nat) (v : TVec) (n : Nat) : TempOut :=
  if v.maxSize < n then .threw y
  else if v.cap < n then y.regrow k v n [] v.size
  else .done y

/-- `std::vector::emplace_back` (the capacity doubles). -/
def TempSys.emplace (y : TempSys) (k : Nat) (v : TVec) (x : List Nat) : TempOut :=
  if v.size < v.cap then
    .done ⟨y.alloc, y.mem.blit (v.ptr + v.size * v.sz) x, y.vecs.set k { v with size := v.size + 1 }⟩
  else if v.maxSize ≤ v.size then .threw y
  else y.regrow k v (min (v.size + max v.size 1) v.maxSize) x (v.size + 1)

/-- Destructor of `std::vector`: no storage is given back if there is none. -/
def TempSys.destroy (y : TempSys) (v : TVec) (vs : List TVec) : TempOut :=
  if v.cap = 0 then .done ⟨y.alloc, y.mem, vs⟩
  else match tempDeallocate y.alloc y.mem v.ptr with
    | none => .bad
    | some s => .done ⟨s, y.mem, vs⟩

/-- One operation; `bad` also if the operation names no vector or no element.  Scopes end in reverse order: only the newest
vector can be destroyed.  (Dispatch only.) -/
def TempSys.step (y : TempSys) : VecOp → TempOut
  | .create sz al => .done ⟨y.alloc, y.mem, ⟨sz, al, 0, 0, 0⟩ :: y.vecs⟩
  | .reserve k n => match y.vecs[k]? with
    | some v => y.reserve k v n
    | none => .bad
  | .emplace k x => match y.vecs[k]? with
    | some v => y.emplace k v x
    | none => .bad
  | .write k i x => match y.vecs[k]? with
    | some v => if i < v.size then .done { y with mem := y.mem.blit (v.ptr + i * v.sz) x } else .bad
    | none => .bad
  | .destroy => match y.vecs with
    | [] => .bad
    | v :: vs => y.destroy v vs

/-- The elements of a vector, as read from memory. -/
def TVec.elems (m : Mem) (v : TVec) : List (List Nat) := (List.range v.size).map fun i => m.bytes (v.ptr + i * v.sz) v.sz

/-- The elements of all vectors. -/
def TempSys.elems (y : TempSys) : List (List (List Nat)) := y.vecs.map (·.elems y.mem)

/-- What a thread does in one call of `parallel_for` with its temporary storage (parallel_for.hpp:26-37, 50): a vector is
created, storage for all batches reserved, the batches are put in; `inner` is what else the thread does until the end of the
scope. -/
def parallelForOps (sz al : Nat) (batches : List (List Nat)) (inner : List VecOp) : List VecOp :=
  .create sz al :: .reserve 0 batches.length :: batches.map (VecOp.emplace 0) ++ (inner ++ [.destroy])

end CoEcs.Alloc
