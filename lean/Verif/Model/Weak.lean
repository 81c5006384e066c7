/-!
# An operational machine for C++ atomics

The other models of concurrent code interleave sequentially consistent steps.  The code asks for less: most of its
atomic operations are `memory_order_relaxed`.  This machine gives the orders the meaning they have in C++20
(without out-of-thin-air values: what is read has been written before, as in RC11 and ORC11).

* Every atomic object has the list of all values ever written to it (its modification order).  A thread may read any
  of them that is not older than one it knows of.
* What a thread knows (`Know`) are positions in these lists, and how many non-atomic accesses of every thread happen
  before its next step.
* A message carries what its writer released.  An acquire operation that reads it takes that over; a relaxed
  one only keeps it for the next acquire fence.
* Read-modify-write operations read the last value, and pass on what the message they read carries (release sequences).
* `atomic_thread_fence(seq_cst)` exchanges known positions with all other such fences.  It does not by itself order
  non-atomic accesses.
* Two accesses of a non-atomic object by different threads of which one writes and none happens before the other
  are a data race: undefined behaviour.

Simplification: a store is placed at the end of the modification order.  That is exact for objects that only one thread
stores to, or that are changed by read-modify-write operations only; in general the machine has fewer behaviours than C++.
With `strong` a seq_cst read-modify-write is a seq_cst fence as well, which is more than C++ promises; without, it is only
an acq_rel operation, which is less.
-/

namespace CoEcs.Weak

/-- `std::memory_order`; `consume` is treated as `acquire`, which is stronger. -/
inductive Order where
  | rlx | acq | rel | ar | sc
  deriving DecidableEq

/-- The operation acquires when it reads. -/
def Order.acquires : Order → Bool
  | .acq | .ar | .sc => true
  | _ => false

/-- The operation releases when it writes. -/
def Order.releases : Order → Bool
  | .rel | .ar | .sc => true
  | _ => false

variable {L : Type}

/-- What happens before: for every atomic object, the position of the oldest value that may still be read; for every thread,
the number of its non-atomic accesses. -/
structure Know (L : Type) where
  seen : L → Nat
  done : Nat → Nat

namespace Know

def zero : Know L := ⟨fun _ => 0, fun _ => 0⟩

/-- Both. -/
def join (a b : Know L) : Know L := ⟨fun l => max (a.seen l) (b.seen l), fun t => max (a.done t) (b.done t)⟩

/-- The value at position `i` is known. -/
def saw [DecidableEq L] (k : Know L) (l : L) (i : Nat) : Know L :=
  { k with seen := fun x => if x = l then max (k.seen l) i else k.seen x }

/-- One more non-atomic access of thread `t`. -/
def did (k : Know L) (t : Nat) (n : Nat) : Know L := { k with done := fun x => if x = t then max (k.done t) n else k.done x }

end Know

/-- A value of an atomic object. -/
structure Msg (L : Type) where
  val : Int
  know : Know L

/-- A non-atomic access: the thread, its how many-th one it is, and whether it writes. -/
structure Acc where
  tid : Nat
  num : Nat
  wr : Bool

/-- Memory: the values of the atomic objects in modification order, the values of the others and the accesses to them, and
the positions the seq_cst fences have exchanged. -/
structure Mem (L : Type) where
  msgs : L → List (Msg L)
  cell : L → Int
  accs : L → List Acc
  sc : L → Nat

/-- Memory after initialisation, which happens before everything else. -/
def Mem.init (init : L → Int) : Mem L := ⟨fun l => [⟨init l, .zero⟩], init, fun _ => [], fun _ => 0⟩

/-- What a thread knows, what an acquire fence would add, what relaxed stores release. -/
structure View (L : Type) where
  cur : Know L
  acq : Know L
  rel : Know L

def View.init : View L := ⟨.zero, .zero, .zero⟩

/-- Operations on memory.  `rmw` fails where the function is undefined (`compare_exchange_strong`). -/
inductive Op (L : Type) where
  | load (o : Order) (l : L)
  | store (o : Order) (l : L) (v : Int)
  | rmw (o : Order) (l : L) (f : Int → Option Int)
  | fence (o : Order)
  | read (l : L)
  | write (l : L) (v : Int)

/-- The result of a step.  `no`: the choice is not possible. -/
inductive Eff (L : Type) where
  | ok (m : Mem L) (w : View L) (v : Int)
  | race
  | no

section
variable [DecidableEq L]

/-- What the thread knows after reading message `x` at position `c`. -/
def View.got (w : View L) (o : Order) (l : L) (c : Nat) (x : Msg L) : View L :=
  { w with cur := (if o.acquires then w.cur.join x.know else w.cur).saw l c, acq := (w.acq.join x.know).saw l c }

/-- What is released with a value written at position `i`. -/
def View.gives (w : View L) (o : Order) (l : L) (i : Nat) : Know L := (if o.releases then w.cur else w.rel).saw l i

/-- What the thread knows after writing position `i`. -/
def View.put (w : View L) (l : L) (i : Nat) : View L := { w with cur := w.cur.saw l i, acq := w.acq.saw l i }

/-- A seq_cst fence. -/
def fenceSc (m : Mem L) (w : View L) : Mem L × View L :=
  let k := (w.cur.join w.acq).join ⟨m.sc, fun _ => 0⟩
  ({ m with sc := k.seen }, ⟨k, k, k⟩)

/-- An access that does not happen after `a`, by thread `t`. -/
def clash (t : Nat) (k : Know L) (a : Acc) : Bool := a.tid != t && decide (k.done a.tid < a.num)

/-- One more access of a non-atomic object. -/
def access (t : Nat) (l : L) (wr : Bool) (m : Mem L) (w : View L) : Mem L × View L :=
  let n := w.cur.done t + 1
  ({ m with accs := fun x => if x = l then m.accs l ++ [⟨t, n, wr⟩] else m.accs x },
    { w with cur := w.cur.did t n, acq := w.acq.did t n })

/-- The value `x` is appended to the modification order of `l`. -/
def Mem.push (m : Mem L) (l : L) (x : Msg L) : Mem L :=
  { m with msgs := fun y => if y = l then m.msgs l ++ [x] else m.msgs y }

/-- A read-modify-write: it reads position `c`. -/
def execRmw (c : Nat) (o : Order) (l : L) (f : Int → Option Int) (m : Mem L) (w : View L) : Eff L :=
  match (m.msgs l)[c]? with
  | none => .no
  | some x =>
    if w.cur.seen l ≤ c then
      match f x.val with
      | none => .ok m (w.got .rlx l c x) x.val
      | some v =>
        if c + 1 = (m.msgs l).length then
          let w' := w.got o l c x
          .ok (m.push l ⟨v, (w'.gives o l (c + 1)).join x.know⟩) (w'.put l (c + 1)) x.val
        else .no
    else .no

/-- One operation of thread `t`; `c` chooses what is read. -/
def exec (strong : Bool) (t c : Nat) (op : Op L) (m : Mem L) (w : View L) : Eff L :=
  match op with
  | .load o l =>
    match (m.msgs l)[c]? with
    | none => .no
    | some x => if w.cur.seen l ≤ c then .ok m (w.got o l c x) x.val else .no
  | .store o l v => .ok (m.push l ⟨v, w.gives o l (m.msgs l).length⟩) (w.put l (m.msgs l).length) 0
  | .rmw o l f =>
    if strong && decide (o = .sc) then
      match execRmw c o l f (fenceSc m w).1 (fenceSc m w).2 with
      | .ok m' w' v => .ok (fenceSc m' w').1 (fenceSc m' w').2 v
      | e => e
    else execRmw c o l f m w
  | .fence o =>
    match o with
    | .rlx => .ok m w 0
    | .acq => .ok m { w with cur := w.cur.join w.acq } 0
    | .rel => .ok m { w with rel := w.cur } 0
    | .ar => .ok m ⟨w.cur.join w.acq, w.acq, w.cur.join w.acq⟩ 0
    | .sc => .ok (fenceSc m w).1 (fenceSc m w).2 0
  | .read l =>
    if (m.accs l).any fun a => a.wr && clash t w.cur a then .race
    else .ok (access t l false m w).1 (access t l false m w).2 (m.cell l)
  | .write l v =>
    if (m.accs l).any (clash t w.cur) then .race
    else .ok { (access t l true m w).1 with cell := fun x => if x = l then v else m.cell x } (access t l true m w).2 0

/-- The code of a thread: the operation it is at, and where it goes with the result. -/
structure Auto (L S : Type) where
  op : S → Option (Op L)
  next : S → Int → S

variable {S : Type}

/-- Memory and all threads. -/
structure St (L S : Type) where
  mem : Mem L
  th : Nat → S
  view : Nat → View L

/-- All threads start after initialisation. -/
def St.init (init : L → Int) (th : Nat → S) : St L S := ⟨.init init, th, fun _ => .init⟩

/-- The outcome of a step of the program. -/
inductive Out (L S : Type) where
  | ok (s : St L S)
  | race
  | no

/-- Thread `t` makes a step. -/
def St.step (A : Auto L S) (strong : Bool) (s : St L S) (t c : Nat) : Out L S :=
  match A.op (s.th t) with
  | none => .no
  | some op =>
    match exec strong t c op s.mem (s.view t) with
    | .no => .no
    | .race => .race
    | .ok m w v =>
      .ok ⟨m, fun i => if i = t then A.next (s.th t) v else s.th i, fun i => if i = t then w else s.view i⟩

/-- A schedule: which thread, and what it reads. -/
def St.run (A : Auto L S) (strong : Bool) : St L S → List (Nat × Nat) → Out L S
  | s, [] => .ok s
  | s, (t, c) :: l =>
    match s.step A strong t c with
    | .ok s' => s'.run A strong l
    | o => o

/-- States the program can get to. -/
inductive Reach (A : Auto L S) (strong : Bool) (s0 : St L S) : St L S → Prop
  | init : Reach A strong s0 s0
  | step {s s' : St L S} {t c : Nat} : Reach A strong s0 s → s.step A strong t c = .ok s' → Reach A strong s0 s'

end

/-! ## Programs -/

/-- Code with results of type `α`. -/
inductive Prog (L : Type) (α : Type) where
  | ret (a : α)
  | op (o : Op L) (k : Int → Prog L α)

namespace Prog
variable {α β : Type}

def bind : Prog L α → (α → Prog L β) → Prog L β
  | ret a, f => f a
  | op o k, f => op o fun v => bind (k v) f

instance : Monad (Prog L) where
  pure := ret
  bind := bind

/-- A thread that runs a program. -/
def auto (L : Type) : Auto L (Prog L Unit) where
  op
    | ret _ => none
    | op o _ => some o
  next
    | ret a, _ => ret a
    | op _ k, v => k v

/-- One operation. -/
def call (o : Op L) : Prog L Int := op o ret

end Prog
end CoEcs.Weak
