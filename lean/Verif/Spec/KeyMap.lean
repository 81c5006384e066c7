import Verif.Model.HashTable

/-!
# Specification: a finite map with keys of any type

The state is a function from keys to optional values and the number of keys present.
-/

namespace CoEcs.Spec

structure KeyMap (K V : Type) where
  get : K → Option V
  count : Nat

namespace KeyMap
variable {K V : Type} [DecidableEq K]

def empty : KeyMap K V := ⟨fun _ => none, 0⟩

/-- Bind `k` to `v`, whether or not it is bound already. -/
def put (m : KeyMap K V) (k : K) (v : V) : KeyMap K V :=
  ⟨fun k' => if k' = k then some v else m.get k',
   if (m.get k).isSome then m.count else m.count + 1⟩

def del (m : KeyMap K V) (k : K) : KeyMap K V :=
  ⟨fun k' => if k' = k then none else m.get k',
   if (m.get k).isSome then m.count - 1 else m.count⟩

/-- The answers a finite map gives to the calls of the hash map. -/
def step (m : KeyMap K V) : HashOp K V → KeyMap K V × HashAns K V
  | .emplace k v =>
    match m.get k with
    | some old => (m, .entry k old false)
    | none => (m.put k v, .entry k v true)
  | .insertOrAssign k v => (m.put k v, .entry k v (m.get k).isNone)
  | .index k d =>
    match m.get k with
    | some v => (m, .value v)
    | none => (m.put k d, .value d)
  | .assign k _ v => (m.put k v, .unit)
  | .at_ k =>
    match m.get k with
    | some v => (m, .value v)
    | none => (m, .notFound)
  | .contains k => (m, .bool (m.get k).isSome)
  | .erase k => (m.del k, .unit)
  | .clear => (empty, .unit)
  | .reserve _ => (m, .unit)
  | .size => (m, .num m.count)

def run (m : KeyMap K V) : List (HashOp K V) → KeyMap K V × List (HashAns K V)
  | [] => (m, [])
  | op :: ops => ((run (m.step op).1 ops).1, (m.step op).2 :: (run (m.step op).1 ops).2)

/-- How many of the calls erase a key that is present. -/
def erased (m : KeyMap K V) : List (HashOp K V) → Nat
  | [] => 0
  | op :: ops =>
    (match op with
     | .erase k => if (m.get k).isSome then 1 else 0
     | _ => 0) + erased (m.step op).1 ops

end KeyMap

/-- Bucket counts the hash table is designed for: powers of two, at least two. -/
def PowTwo (n : Nat) : Prop := ∃ k, 1 ≤ k ∧ n = 2 ^ k

/-- Explicit `reserve` calls use such a bucket count. -/
def HashOps.Ok {K V : Type} (ops : List (HashOp K V)) : Prop :=
  ∀ n, HashOp.reserve n ∈ ops → PowTwo n

end CoEcs.Spec
