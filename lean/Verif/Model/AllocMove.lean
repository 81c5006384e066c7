import Verif.Model.Alloc

/-!
# Several stack and linear allocators that are moved
(/repo/include/co_ecs/detail/allocator/stack_allocator.hpp, linear_allocator.hpp)

Each allocator is kept with the live allocations from the buffer it holds (newest first).  The null pointer is address 0.
-/

namespace CoEcs.Alloc

namespace Stack

/-- Move constructor, stack_allocator.hpp:34-36: what is left of the source.  `_offset` is not changed. -/
def movedFrom (s : Stack) : Stack := ⟨0, s.offset, 0⟩

/-- Move assignment, stack_allocator.hpp:41-45: the target.  `_offset` is not changed. -/
def moveAssigned (d s : Stack) : Stack := ⟨s.start, d.offset, s.size⟩

end Stack

namespace Linear

/-- The defaulted move constructor and assignment, linear_allocator.hpp:29-32: the new object, or the target.  Pointers and
numbers are copied. -/
def moved (l : Linear) : Linear := l

/-- The same: what is left of the source. -/
def movedFrom (l : Linear) : Linear := l

end Linear

/-- A stack allocator and the live allocations in its buffer. -/
structure StackObj where
  alloc : Stack
  live : List Live
  deriving DecidableEq, Repr

/-- The allocators in the order of construction, and the memory. -/
structure StackWorld where
  objs : List StackObj
  mem : Mem

/-- What can be done with them. -/
inductive WorldOp where
  /-- `stack_allocator a(ptr, size)` -/
  | create (ptr size : Nat)
  /-- a member function called on allocator `i`, or a write to one of its allocations -/
  | use (i : Nat) (op : StackOp)
  /-- `stack_allocator a(std::move(b))` -/
  | moveNew (i : Nat)
  /-- `d = std::move(s)` -/
  | moveAssign (d s : Nat)
  deriving DecidableEq, Repr

/-- One action.  `none`: it is not possible or violates an assertion.  The allocations belong to the allocator that has the
buffer.  Assigning an allocator to itself exchanges a pointer with itself and changes nothing. -/
def StackWorld.step (w : StackWorld) : WorldOp → Option StackWorld
  | .create ptr size => some { w with objs := w.objs ++ [⟨Stack.mk' ptr size, []⟩] }
  | .use i op =>
    match w.objs[i]? with
    | none => none
    | some o =>
      match (⟨o.alloc, w.mem, o.live⟩ : StackSys).step op with
      | none => none
      | some y => some ⟨w.objs.set i ⟨y.alloc, y.live⟩, y.mem⟩
  | .moveNew i =>
    match w.objs[i]? with
    | none => none
    | some o => some { w with objs := w.objs.set i ⟨o.alloc.movedFrom, []⟩ ++ [⟨o.alloc.moved, o.live⟩] }
  | .moveAssign d s =>
    match w.objs[d]?, w.objs[s]? with
    | some a, some b =>
      if d = s then some w
      else some { w with objs := (w.objs.set s ⟨b.alloc.movedFrom, []⟩).set d ⟨a.alloc.moveAssigned b.alloc, b.live⟩ }
    | _, _ => none

def StackWorld.run (w : StackWorld) : List WorldOp → Option StackWorld
  | [] => some w
  | op :: ops =>
    match w.step op with
    | none => none
    | some w' => w'.run ops

end CoEcs.Alloc
