import Verif.Model.Registry

/-!
# What a user may expect of registries

`SysOp` lists the public operations on a family of registries, `Sys.step` executes one on the model and
`World.step` says what it should do to the abstract contents, looking only at the operation and its
outcome.  `Reach` relates the two along all histories.
-/

namespace CoEcs.Spec
open CoEcs

/-- Operations on one registry.  `clone` may be given a placeholder (a reserved entity). -/
inductive RegOp (V : Type) where
  | create (args : List (Nat × V))
  | destroy (h : Handle)
  | set (h : Handle) (c : Nat) (v : V)
  | remove (h : Handle) (c : Nat)
  /-- `get<C>() = v` -/
  | assign (h : Handle) (c : Nat) (v : V)
  | getOrInsert (h : Handle) (c : Nat) (v : V)
  | clone (h : Handle) (ph : Option Handle)
  | reserve
  | sync

/-- Operations on a family of registries. -/
inductive SysOp (V : Type) where
  | on (i : Nat) (op : RegOp V)
  | copy (i : Nat) (h : Handle) (j : Nat) (ph : Option Handle)
  | move (i : Nat) (h : Handle) (j : Nat) (ph : Option Handle)

/-- How a call ended, with the handle it returned if any. -/
inductive Out where
  | ok (h : Option Handle)
  | throw (e : Exn)
  deriving DecidableEq

/-- Forget what a call returned. -/
def noHandle {σ α : Type} : Res σ α → Res σ (Option Handle)
  | .ok s _ => .ok s none
  | .throw s e => .throw s e
  | .ub => .ub

/-- Keep the handle a call returned. -/
def withHandle {σ : Type} : Res σ Handle → Res σ (Option Handle)
  | .ok s h => .ok s (some h)
  | .throw s e => .throw s e
  | .ub => .ub

/-- Execute an operation on one registry. -/
def RegOp.run {V : Type} (ty : Types) (r : Reg V) : RegOp V → Res (Reg V) (Option Handle)
  | .create args => withHandle (r.create ty args)
  | .destroy h => noHandle (r.destroy h)
  | .set h c v => noHandle (r.set ty h c v)
  | .remove h c => noHandle (r.remove ty h c)
  | .assign h c v => noHandle (r.assign h c v)
  | .getOrInsert h c v => noHandle (r.getOrInsert ty h c v)
  | .clone h none => withHandle (r.clone h)
  | .clone h (some ph) => withHandle (r.cloneInto h ph)
  | .reserve => withHandle r.reserve
  | .sync => .ok r.sync none

/-- A family of registries with the history variables that the protocol needs: the number of
reservations since the last `sync`, and the reserved entities that have not been used as placeholder. -/
structure Sys (V : Type) where
  reg : Nat → Reg V
  pend : Nat → Nat
  res : Nat → List Handle

namespace Sys
variable {V : Type}

def init : Sys V := ⟨fun _ => Reg.empty, fun _ => 0, fun _ => []⟩

def setReg (s : Sys V) (i : Nat) (r : Reg V) : Sys V := { s with reg := fun j => if j = i then r else s.reg j }

/-- The placeholder has been used. -/
def use (s : Sys V) (i : Nat) : Option Handle → Sys V
  | none => s
  | some ph => { s with res := fun j => if j = i then (s.res i).filter (· ≠ ph) else s.res j }

/-- Update of the history variables after a successful call. -/
def note (s : Sys V) (i : Nat) : RegOp V → Option Handle → Sys V
  | .reserve, some h =>
    { s with pend := fun j => if j = i then s.pend i + 1 else s.pend j
             res := fun j => if j = i then h :: s.res i else s.res j }
  | .sync, _ => { s with pend := fun j => if j = i then 0 else s.pend j }
  | .clone _ ph, _ => s.use i ph
  | _, _ => s

/-- Execute one operation; `none` is undefined behaviour.  After an exception the program continues
with the state the call left behind. -/
def step (ty : Types) (s : Sys V) : SysOp V → Option (Sys V × Out)
  | .on i op =>
    match op.run ty (s.reg i) with
    | .ub => none
    | .throw r e => some (s.setReg i r, .throw e)
    | .ok r h => some ((s.setReg i r).note i op h, .ok h)
  | .copy i h j ph =>
    match (match ph with
      | none => (s.reg i).copyTo h (s.reg j)
      | some p => (s.reg i).copyInto h (s.reg j) p) with
    | .ub => none
    | .throw d e => some (s.setReg j d, .throw e)
    | .ok d h' => some ((s.setReg j d).use j ph, .ok (some h'))
  | .move i h j ph =>
    match (match ph with
      | none => (s.reg i).moveTo h (s.reg j)
      | some p => (s.reg i).moveInto h (s.reg j) p) with
    | .ub => none
    | .throw (r, d) e => some ((s.setReg i r).setReg j d, .throw e)
    | .ok (r, d) h' => some (((s.setReg i r).setReg j d).use j ph, .ok (some h'))

/-- The protocol of the API: ids are not exhausted; entities are created or destroyed only when no
reservation is pending; placeholders are reserved entities that have not been used; component types in
a list are different; copies and moves go to another registry. -/
def Allowed (s : Sys V) : SysOp V → Prop
  | .on i (.create args) => (args.map Prod.fst).Nodup ∧ s.pend i = 0 ∧ (s.reg i).pool.nextId + 1 < U32
  | .on i (.destroy _) => s.pend i = 0
  | .on i (.clone _ none) => s.pend i = 0 ∧ (s.reg i).pool.nextId + 1 < U32
  | .on i (.clone _ (some ph)) => s.pend i = 0 ∧ ph ∈ s.res i
  | .on i .reserve => (s.reg i).pool.nextId + 1 < U32
  | .on _ _ => True
  | .copy i _ j none => i ≠ j ∧ s.pend j = 0 ∧ (s.reg j).pool.nextId + 1 < U32
  | .copy i _ j (some ph) => i ≠ j ∧ s.pend j = 0 ∧ ph ∈ s.res j
  | .move i _ j none => i ≠ j ∧ s.pend i = 0 ∧ s.pend j = 0 ∧ (s.reg j).pool.nextId + 1 < U32
  | .move i _ j (some ph) => i ≠ j ∧ s.pend i = 0 ∧ s.pend j = 0 ∧ ph ∈ s.res j

end Sys

/-- The abstract contents of the registries: for every handle of an entity its components. -/
abbrev World (V : Type) := Nat → Handle → Option (Nat → Option V)

namespace World
variable {V : Type}

def upd (W : World V) (i : Nat) (h : Handle) (d : Option (Nat → Option V)) : World V :=
  fun j h' => if j = i ∧ h' = h then d else W j h'

/-- The components listed in `args`. -/
def listed (args : List (Nat × V)) : Nat → Option V := fun c => (args.find? fun x => x.1 == c).map Prod.snd

def withComp (d : Nat → Option V) (c : Nat) (v : Option V) : Nat → Option V := fun x => if x = c then v else d x

/-- What a call that ended with the given outcome should have done. -/
def step (W : World V) : SysOp V → Out → World V
  | _, .throw _ => W
  | .on i (.create args), .ok (some h) => W.upd i h (some (listed args))
  | .on i (.destroy h), .ok _ => W.upd i h none
  | .on i (.set h c v), .ok _ => W.upd i h ((W i h).map fun d => withComp d c (some v))
  | .on i (.remove h c), .ok _ => W.upd i h ((W i h).map fun d => withComp d c none)
  | .on i (.assign h c v), .ok _ => W.upd i h ((W i h).map fun d => withComp d c (some v))
  | .on i (.getOrInsert h c v), .ok _ =>
    W.upd i h ((W i h).map fun d => match d c with | none => withComp d c (some v) | some _ => d)
  | .on i (.clone h _), .ok (some h') => W.upd i h' (W i h)
  | .copy i h j _, .ok (some h') => W.upd j h' (W i h)
  | .move i h j _, .ok (some h') => (W.upd j h' (W i h)).upd i h none
  | _, _ => W

end World

/-- Histories: systems reachable from empty registries by allowed operations that also satisfy `P`,
with the contents they should have. -/
inductive Reach {V : Type} (ty : Types) (P : Sys V → SysOp V → Prop) : Sys V → World V → Prop
  | init : Reach ty P Sys.init (fun _ _ => none)
  | step {s s' : Sys V} {W : World V} {op : SysOp V} {out : Out} :
      Reach ty P s W → s.Allowed op → P s op → s.step ty op = some (s', out) → Reach ty P s' (W.step op out)

/-- Two registry states give the same answers about a handle. -/
structure Same {V : Type} (r r' : Reg V) (h : Handle) : Prop where
  get : ∀ c, r'.get h c = r.get h c
  has : ∀ cs, r'.has h cs = r.has h cs
  alive : r'.alive h = r.alive h

/-- An entity of the first state is unchanged in the second: every value read, every presence test and
liveness are the same.  (Unlike `Same` this allows a handle that is no entity in either state to
change from one error to another.) -/
structure SameEntity {V : Type} (r r' : Reg V) (h : Handle) : Prop where
  get : ∀ c v, r'.get h c = .ok v ↔ r.get h c = .ok v
  has : ∀ cs b, r'.has h cs = .ok b ↔ r.has h cs = .ok b
  entity : r.has h [] = .ok true → Same r r' h

/-- An archetype whose last chunk, not being the only one, is empty. -/
def TrailingEmpty {V : Type} (a : Arch V) : Prop :=
  2 ≤ a.chunks.length ∧ ∃ last, a.chunks.getLast? = some last ∧ last.size = 0

/-- No archetype of any registry has more than two chunks. -/
def FewChunks {V : Type} (s : Sys V) : Prop :=
  ∀ (i j : Nat) (a : Arch V), (s.reg i).archs.arches[j]? = some a → a.chunks.length ≤ 2

/-- The operation does not end with the exception of copying a component that is not copyable. -/
def NoFailedCopy {V : Type} (ty : Types) (s : Sys V) (op : SysOp V) : Prop :=
  ∀ s', s.step ty op ≠ some (s', .throw .invalidArgument)

/-- All histories that respect the protocol. -/
abbrev Reachable {V : Type} (ty : Types) (s : Sys V) (W : World V) : Prop := Reach ty (fun _ _ => True) s W

end CoEcs.Spec
