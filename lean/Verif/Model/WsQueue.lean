import Verif.Model.HashTable

/-!
# Model of `work_stealing_queue`
(/repo/include/co_ecs/detail/work_stealing_queue.hpp)

Indices (`int64_t`) are unbounded integers: wrapping needs 2^63 pushes.  Memory is sequentially consistent.  Cells
of a fresh array have never been stored to (`none`).
-/

namespace CoEcs

/-- `work_stealing_queue::array`, work_stealing_queue.hpp:134-171. -/
structure WsArr (V : Type) where
  cap : Nat
  data : Nat → Option V

namespace WsArr
variable {V : Type}

/-- `array(c)`, lines 139-143: nothing stored yet. -/
def new (c : Nat) : WsArr V := ⟨c, fun _ => none⟩

/-- `i & _mask` with `_mask = c - 1`, lines 141, 155, 159; indices are not negative where this is used. -/
def slot (a : WsArr V) (i : Int) : Nat := i.toNat &&& (a.cap - 1)

/-- `array::push`, lines 154-156. -/
def store (a : WsArr V) (i : Int) (v : Option V) : WsArr V :=
  ⟨a.cap, fun j => if j = a.slot i then v else a.data j⟩

/-- `array::pop`, lines 158-160. -/
def load (a : WsArr V) (i : Int) : Option V := a.data (a.slot i)

/-- The loop of `array::grow`, lines 165-167: `n` iterations from index `i` on. -/
def copy (a : WsArr V) : Nat → Int → WsArr V → WsArr V
  | 0, _, r => r
  | n + 1, i, r => copy a n (i + 1) (r.store i (a.load i))

/-- `array::grow`, lines 162-170. -/
def grow (a : WsArr V) (bottom top : Int) : WsArr V := a.copy (bottom - top).toNat top (new (2 * a.cap))

end WsArr

/-! ## Used by one thread -/

/-- `_top`, `_bottom` and the current array. -/
structure WsQueue (V : Type) where
  top : Int
  bottom : Int
  arr : WsArr V

namespace WsQueue
variable {V : Type}

/-- Constructor, lines 19-25: the assertion asks for an even capacity. -/
def new (c : Nat) : Option (WsQueue V) := if c % 2 = 0 then some ⟨0, 0, .new c⟩ else none

/-- `empty`, lines 45-49. -/
def empty (q : WsQueue V) : Bool := q.bottom ≤ q.top

/-- `size`, lines 53-57. -/
def size (q : WsQueue V) : Nat := if q.bottom ≥ q.top then (q.bottom - q.top).toNat else 0

/-- `push`, lines 61-76.  Undefined behaviour if the slot is outside of the array. -/
def push (q : WsQueue V) (v : V) : Run (WsQueue V) :=
  let arr := if (q.arr.cap : Int) - 1 < q.bottom - q.top then q.arr.grow q.bottom q.top else q.arr
  if arr.slot q.bottom < arr.cap then .ok ⟨q.top, q.bottom + 1, arr.store q.bottom (some v)⟩ else .ub

/-- `steal`, lines 80-96.  The outer option is the returned `optional`; the inner one is `none` if the cell has never been
stored to. -/
def steal (q : WsQueue V) : Option (Option V) × WsQueue V :=
  if q.top < q.bottom then (some (q.arr.load q.top), { q with top := q.top + 1 }) else (none, q)

/-- `pop`, lines 100-125. -/
def pop (q : WsQueue V) : Option (Option V) × WsQueue V :=
  let bottom := q.bottom - 1
  if q.top ≤ bottom then
    if q.top = bottom then (some (q.arr.load bottom), ⟨q.top + 1, bottom + 1, q.arr⟩)
    else (some (q.arr.load bottom), { q with bottom := bottom })
  else (none, { q with bottom := bottom + 1 })

end WsQueue

/-! ## One owner and any number of thieves -/

/-- Where the owner is.  `pushN` / `popN`: after the n-th atomic step of the function. -/
inductive OwnerPc (V : Type) where
  | idle
  /-- loaded `_bottom` (line 62) -/
  | push1 (v : V) (b : Int)
  /-- loaded `_top` (line 63) -/
  | push2 (v : V) (b t : Int)
  /-- array `a` is the grown copy, not yet published (line 67) -/
  | push3 (v : V) (b : Int) (a : Nat)
  /-- ready to store into the current array (line 73) -/
  | push4 (v : V) (b : Int)
  /-- stored; ready to publish `_bottom` (line 75) -/
  | push5 (v : V) (b : Int)
  /-- loaded `_bottom`; `b` is one less (line 101) -/
  | pop1 (b : Int)
  /-- loaded `_array` (line 102) -/
  | pop2 (b : Int) (a : Nat)
  /-- stored `_bottom` (line 103) -/
  | pop3 (b : Int) (a : Nat)
  /-- loaded `_top` (line 105) -/
  | pop4 (b : Int) (a : Nat) (t : Int)
  /-- loaded the item (line 110) -/
  | pop5 (b t : Int) (v : Option V)
  /-- after the compare-exchange (line 114); `r` is the result -/
  | pop6 (b : Int) (r : Option (Option V))

/-- Where a thief is. -/
inductive ThiefPc (V : Type) where
  | idle
  /-- loaded `_top` (line 81) -/
  | st1 (t : Int)
  /-- loaded `_bottom` and found `top < bottom` (lines 83, 87) -/
  | st2 (t : Int)
  /-- loaded `_array` (line 88) -/
  | st3 (t : Int) (a : Nat)
  /-- loaded the item (line 89) -/
  | st4 (t : Int) (v : Option V)

/-- Shared memory, the threads, and what has been observed: values pushed, and values returned by pop and steal. -/
structure WsState (V : Type) where
  top : Int
  bottom : Int
  arr : Nat
  /-- arrays ever allocated; replaced ones stay in `_garbage` (lines 68, 178) -/
  heap : Nat → WsArr V
  next : Nat
  owner : OwnerPc V
  thief : Nat → ThiefPc V
  pushed : List V
  returned : List (Option V)

/-- The fresh queue, lines 19-25. -/
def WsState.init (V : Type) (c : Nat) : WsState V :=
  ⟨0, 0, 0, fun _ => .new c, 1, .idle, fun _ => .idle, [], []⟩

/-- Assignment to one index of a function. -/
def upd {α : Type} (f : Nat → α) (i : Nat) (x : α) : Nat → α := fun j => if j = i then x else f j

variable {V : Type}

/-- One atomic step of one thread.  The copying loop of `grow` is one step: it reads an array that only the owner
stores to, and writes an array that nobody else can reach yet. -/
inductive WsStep : WsState V → WsState V → Prop
  /- push, lines 61-76 -/
  | push1 {s} (v : V) : s.owner = .idle → WsStep s { s with owner := .push1 v s.bottom }
  | push2 {s v b} : s.owner = .push1 v b → WsStep s { s with owner := .push2 v b s.top }
  | pushGrow {s v b t} : s.owner = .push2 v b t → ((s.heap s.arr).cap : Int) - 1 < b - t →
      WsStep s { s with owner := .push3 v b s.next, heap := upd s.heap s.next ((s.heap s.arr).grow b t), next := s.next + 1 }
  | pushFits {s v b t} : s.owner = .push2 v b t → ¬ ((s.heap s.arr).cap : Int) - 1 < b - t →
      WsStep s { s with owner := .push4 v b }
  | pushPublishArray {s v b a} : s.owner = .push3 v b a → WsStep s { s with owner := .push4 v b, arr := a }
  | pushStore {s v b} : s.owner = .push4 v b →
      WsStep s { s with owner := .push5 v b, heap := upd s.heap s.arr ((s.heap s.arr).store b (some v)) }
  | pushDone {s v b} : s.owner = .push5 v b →
      WsStep s { s with owner := .idle, bottom := b + 1, pushed := s.pushed ++ [v] }
  /- pop, lines 100-125 -/
  | pop1 {s} : s.owner = .idle → WsStep s { s with owner := .pop1 (s.bottom - 1) }
  | pop2 {s b} : s.owner = .pop1 b → WsStep s { s with owner := .pop2 b s.arr }
  | pop3 {s b a} : s.owner = .pop2 b a → WsStep s { s with owner := .pop3 b a, bottom := b }
  | pop4 {s b a} : s.owner = .pop3 b a → WsStep s { s with owner := .pop4 b a s.top }
  | popLoad {s b a t} : s.owner = .pop4 b a t → t ≤ b → WsStep s { s with owner := .pop5 b t ((s.heap a).load b) }
  | popEmpty {s b a t} : s.owner = .pop4 b a t → ¬ t ≤ b → WsStep s { s with owner := .idle, bottom := b + 1 }
  | popTake {s b t v} : s.owner = .pop5 b t v → t ≠ b →
      WsStep s { s with owner := .idle, returned := s.returned ++ [v] }
  | popCasWin {s b t v} : s.owner = .pop5 b t v → t = b → s.top = t →
      WsStep s { s with owner := .pop6 b (some v), top := t + 1 }
  | popCasLose {s b t v} : s.owner = .pop5 b t v → t = b → s.top ≠ t → WsStep s { s with owner := .pop6 b none }
  | popDone {s b r} : s.owner = .pop6 b r →
      WsStep s { s with owner := .idle, bottom := b + 1, returned := s.returned ++ r.toList }
  /- steal, lines 80-96 -/
  | steal1 {s} (i : Nat) : s.thief i = .idle → WsStep s { s with thief := upd s.thief i (.st1 s.top) }
  | stealSome {s t} (i : Nat) : s.thief i = .st1 t → t < s.bottom → WsStep s { s with thief := upd s.thief i (.st2 t) }
  | stealEmpty {s t} (i : Nat) : s.thief i = .st1 t → ¬ t < s.bottom → WsStep s { s with thief := upd s.thief i .idle }
  | steal3 {s t} (i : Nat) : s.thief i = .st2 t → WsStep s { s with thief := upd s.thief i (.st3 t s.arr) }
  | steal4 {s t a} (i : Nat) : s.thief i = .st3 t a →
      WsStep s { s with thief := upd s.thief i (.st4 t ((s.heap a).load t)) }
  | stealWin {s t v} (i : Nat) : s.thief i = .st4 t v → s.top = t →
      WsStep s { s with thief := upd s.thief i .idle, top := t + 1, returned := s.returned ++ [v] }
  | stealLose {s t v} (i : Nat) : s.thief i = .st4 t v → s.top ≠ t → WsStep s { s with thief := upd s.thief i .idle }

/-- States reachable from a fresh queue with initial capacity `c`. -/
inductive WsReach (V : Type) (c : Nat) : WsState V → Prop
  | init : WsReach V c (WsState.init V c)
  | step {s t} : WsReach V c s → WsStep s t → WsReach V c t

end CoEcs
