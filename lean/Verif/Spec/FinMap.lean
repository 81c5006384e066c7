import Verif.Model.SparseTable

/-!
# Specification: a finite map with natural-number keys

The state is a function from keys to optional values and the number of keys present.
-/

namespace CoEcs.Spec

structure FinMap (V : Type) where
  get : Nat → Option V
  count : Nat

namespace FinMap
variable {V : Type}

def empty : FinMap V := ⟨fun _ => none, 0⟩

/-- Bind `k` to `v`, whether or not it is bound already. -/
def put (m : FinMap V) (k : Nat) (v : V) : FinMap V :=
  ⟨fun k' => if k' = k then some v else m.get k',
   if (m.get k).isSome then m.count else m.count + 1⟩

/-- Bind `k` to `v` unless it is bound. -/
def putNew (m : FinMap V) (k : Nat) (v : V) : FinMap V :=
  if (m.get k).isSome then m else m.put k v

def del (m : FinMap V) (k : Nat) : FinMap V :=
  ⟨fun k' => if k' = k then none else m.get k',
   if (m.get k).isSome then m.count - 1 else m.count⟩

/-- The answers a finite map gives to the calls of the sparse map. -/
def step (m : FinMap V) : SparseOp V → FinMap V × SparseAns V
  | .emplace k v =>
    match m.get k with
    | some old => (m, .entry k old false)
    | none => (m.put k v, .entry k v true)
  | .assign k _ v => (m.put k v, .unit)
  | .erase k => (m.del k, .num (if (m.get k).isSome then 1 else 0))
  | .clear => (empty, .unit)
  | .reserveSparse _ => (m, .unit)
  | .contains k => (m, .bool (m.get k).isSome)
  | .at_ k =>
    match m.get k with
    | some v => (m, .value v)
    | none => (m, .notFound)
  | .index k d =>
    match m.get k with
    | some v => (m, .value v)
    | none => (m.put k d, .value d)
  | .size => (m, .num m.count)

def run (m : FinMap V) : List (SparseOp V) → FinMap V × List (SparseAns V)
  | [] => (m, [])
  | op :: ops =>
    let r := m.step op
    let r' := run r.1 ops
    (r'.1, r.2 :: r'.2)

end FinMap

/-- The key a call mentions fits a key type of `w` bits, and `key + 1` fits `std::size_t` (this
excludes only the largest key of a 64-bit key type). -/
def SparseOp.keyOk {V : Type} (w : Nat) : SparseOp V → Prop
  | .emplace k _ => k < 2 ^ w ∧ k + 1 < U64
  | .assign k _ _ => k < 2 ^ w ∧ k + 1 < U64
  | .erase k => k < 2 ^ w ∧ k + 1 < U64
  | .contains k => k < 2 ^ w ∧ k + 1 < U64
  | .at_ k => k < 2 ^ w ∧ k + 1 < U64
  | .index k _ => k < 2 ^ w ∧ k + 1 < U64
  | _ => True

/-- All keys fit and at no point does the map hold all `2^w` keys. -/
def SparseOps.Ok {V : Type} (w : Nat) (m : FinMap V) : List (SparseOp V) → Prop
  | [] => True
  | op :: ops => SparseOp.keyOk w op ∧ (m.step op).1.count < 2 ^ w ∧ SparseOps.Ok w (m.step op).1 ops

end CoEcs.Spec
