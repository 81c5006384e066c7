import Verif.Model.TempAlloc

/-!
# What temporary vectors should do: they are vectors
-/

namespace CoEcs.Alloc

/-- A vector as its user sees it: size of an element in bytes, elements. -/
structure SVec where
  sz : Nat
  elems : List (List Nat)
  deriving DecidableEq, Repr

/-- An operation on the vectors in scope; none if it is not allowed. -/
def SVec.step (s : List SVec) : VecOp → Option (List SVec)
  | .create sz _ => some (⟨sz, []⟩ :: s)
  | .reserve k _ => if k < s.length then some s else none
  | .emplace k x => match s[k]? with
    | some v => if x.length = v.sz then some (s.set k ⟨v.sz, v.elems ++ [x]⟩) else none
    | none => none
  | .write k i x => match s[k]? with
    | some v => if i < v.elems.length ∧ x.length = v.sz then some (s.set k ⟨v.sz, v.elems.set i x⟩) else none
    | none => none
  | .destroy => match s with
    | [] => none
    | _ :: s => some s

/-- Several operations. -/
def SVec.run (s : List SVec) : List VecOp → Option (List SVec)
  | [] => some s
  | op :: ops => match SVec.step s op with
      | some s' => SVec.run s' ops
      | none => none

/-- The vectors hold what was put into them, and all storage has been given back if no vector is left. -/
def Faithful (y : TempSys) (s : List SVec) : Prop :=
  y.elems = s.map (·.elems) ∧ (s = [] → y.alloc.offset = 0)

/-- As long as the operations are allowed, no assertion is violated and the vectors hold what was put into them; an
operation that throws has no effect. -/
def Keeps (y : TempSys) (s : List SVec) : List VecOp → Prop
  | [] => Faithful y s
  | op :: ops => Faithful y s ∧ ∀ s', SVec.step s op = some s' →
      match y.step op with
      | .done y' => Keeps y' s' ops
      | .threw y' => Keeps y' s ops
      | .bad => False

/-- The operation has to take storage for the vector at position `k`. -/
def Takes (y : TempSys) (k : Nat) : VecOp → Prop
  | .reserve j n => j = k ∧ ∃ v, y.vecs[k]? = some v ∧ v.cap < n
  | .emplace j _ => j = k ∧ ∃ v, y.vecs[k]? = some v ∧ v.cap ≤ v.size
  | _ => False

/-- Element types have positive size and an alignment the stack allocator accepts (a power of two up to 128). -/
def GoodType (op : VecOp) : Prop := ∀ sz al, op = .create sz al → 0 < sz ∧ ∃ k, k ≤ 7 ∧ al = 2 ^ k

/-- Every operation that takes storage does so for a vector without storage, when no newer vector has storage, and when
at least one byte remains. -/
def Careful (y : TempSys) : List VecOp → Prop
  | [] => True
  | op :: ops => GoodType op ∧
      (∀ k, Takes y k op → (∀ j v, j ≤ k → y.vecs[j]? = some v → v.cap = 0) ∧ 0 < y.alloc.remaining) ∧
      match y.step op with
      | .done y' => Careful y' ops
      | .threw y' => Careful y' ops
      | .bad => True

/-- Nothing throws. -/
def NoThrow (y : TempSys) : List VecOp → Prop
  | [] => True
  | op :: ops => match y.step op with
      | .done y' => NoThrow y' ops
      | .threw _ => False
      | .bad => True

/-- Every operation that takes storage finds at least one byte left. -/
def SomeLeft (y : TempSys) : List VecOp → Prop
  | [] => True
  | op :: ops => (∀ k, Takes y k op → 0 < y.alloc.remaining) ∧
      match y.step op with
      | .done y' => SomeLeft y' ops
      | .threw y' => SomeLeft y' ops
      | .bad => True

/-- Calls of `parallel_for` one after another, each with further calls inside: while a thread waits for its tasks, it runs
tasks that may call `parallel_for` again (parallel_for.hpp:48, thread_pool.hpp:81-93), and these return first. -/
inductive Calls : List VecOp → Prop
  | nil : Calls []
  | call {sz al : Nat} {batches : List (List Nat)} {inner rest : List VecOp} :
      0 < sz → (∃ k, k ≤ 7 ∧ al = 2 ^ k) → (∀ b ∈ batches, b.length = sz) →
      Calls inner → Calls rest → Calls (parallelForOps sz al batches inner ++ rest)

/-- Run to the end; none if something throws or an assertion is violated. -/
def TempSys.run (y : TempSys) : List VecOp → Option TempSys
  | [] => some y
  | op :: ops => match y.step op with
      | .done y' => y'.run ops
      | _ => none

end CoEcs.Alloc
