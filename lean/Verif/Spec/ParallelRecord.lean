import Verif.Spec.Command

/-!
# Systems of one batch that record commands

A system receives a `command_writer` (system.hpp:262-295) and records commands in the buffer of the thread
that happens to run it (`command_buffer::get`, command.hpp:20-23; `command_writer` and
`command_entity_ref`, command.hpp:158-270).  A system is the list of its calls; a call may name an entity that
existed before, or the `n`-th entity that this system has created.  `BatchRun` are the executions of the
systems of one batch: `on k` is the buffer of the thread that runs system `k`, the calls of the systems are
interleaved in any way, and threads may make their buffers at any time.  One call is one step: a buffer is
used by one thread only, and the one shared object, the counter of reserved ids, is changed by one atomic
operation (see C27).
-/

namespace CoEcs.Spec
open CoEcs

variable {V : Type}

/-- What a system calls an entity. -/
inductive Name where
  | old (h : Handle)
  | mine (n : Nat)
  deriving DecidableEq, Repr

/-- A call of a system. -/
inductive SRec (V : Type) where
  | create (args : List (Nat × V))
  | clone (e : Name)
  | set (e : Name) (c : Nat) (v : V)
  | remove (e : Name) (c : Nat)
  | destroy (e : Name)

/-- The entity meant, given the entities the system has created. -/
def Name.resolve (made : List Handle) : Name → Option Handle
  | .old h => some h
  | .mine n => made[n]?

/-- The call with the entity meant. -/
def SRec.resolve (made : List Handle) : SRec V → Option (Rec V)
  | .create args => some (.create args)
  | .clone e => (e.resolve made).map .clone
  | .set e c v => (e.resolve made).map fun h => .set h c v
  | .remove e c => (e.resolve made).map fun h => .remove h c
  | .destroy e => (e.resolve made).map .destroy

/-- The entity a call names. -/
def SRec.name : SRec V → Option Name
  | .create _ => none
  | .clone e | .set e _ _ | .remove e _ | .destroy e => some e

/-- Note the entity created by system `k`, if any. -/
def addMade (m : Nat → List Handle) (k : Nat) (o : Option Handle) : Nat → List Handle :=
  fun j => if j = k then m k ++ o.toList else m j

/-- Executions in which the calls of all systems return. -/
inductive BatchRun (ty : Types) (husk : V → V) (i : Nat) (on : Nat → Nat) :
    CSys V → List (List (SRec V)) → (Nat → List Handle) → CSys V → (Nat → List Handle) → Prop
  | done {c : CSys V} {ps : List (List (SRec V))} {m : Nat → List Handle} : (∀ p ∈ ps, p = []) → BatchRun ty husk i on c ps m c m
  | start {c c1 c' : CSys V} {ps : List (List (SRec V))} {m m' : Nat → List Handle} {out : Out} :
      c.step ty husk .start = some (c1, out) → BatchRun ty husk i on c1 ps m c' m' → BatchRun ty husk i on c ps m c' m'
  | record {c c1 c' : CSys V} {ps : List (List (SRec V))} {m m' : Nat → List Handle} (k : Nat) {a : SRec V} {rest : List (SRec V)}
      {rc : Rec V} {o : Option Handle} :
      ps[k]? = some (a :: rest) → a.resolve (m k) = some rc → c.Allowed (.record (on k) i rc) →
      c.step ty husk (.record (on k) i rc) = some (c1, .ok o) →
      BatchRun ty husk i on c1 (ps.set k rest) (addMade m k o) c' m' → BatchRun ty husk i on c ps m c' m'

/-- The call looks at the existence of the entity `h` (`none`), or at one of its components, or changes it. -/
def SRec.Uses : SRec V → Handle → Option Nat → Prop
  | .create _, _, _ => False
  | .clone e, h, _ => e = .old h
  | .set e c _, h, x | .remove e c, h, x => e = .old h ∧ (x = none ∨ x = some c)
  | .destroy e, h, _ => e = .old h

/-- The call changes whether the entity `h` exists (`none`), or one of its components. -/
def SRec.Changes : SRec V → Handle → Option Nat → Prop
  | .create _, _, _ => False
  | .clone _, _, _ => False
  | .set e c _, h, x | .remove e c, h, x => e = .old h ∧ x = some c
  | .destroy e, h, _ => e = .old h

/-- No system changes what another one uses. -/
def Independent (ps : List (List (SRec V))) : Prop :=
  ∀ (k k' : Nat) (p p' : List (SRec V)), k ≠ k' → ps[k]? = some p → ps[k']? = some p' → ∀ a ∈ p, ∀ b ∈ p', ∀ h x, a.Changes h x → ¬ b.Uses h x

/-- Every entity that a system names and has not created is there. -/
def AllExist (C : ACmd.Content V) (ps : List (List (SRec V))) : Prop :=
  ∀ p ∈ ps, ∀ a ∈ p, ∀ h, a.name = some (.old h) → C h ≠ none

/-- Handle `h` in one registry answers as handle `h'` in another. -/
structure SameAs (r : Reg V) (h : Handle) (r' : Reg V) (h' : Handle) : Prop where
  get : ∀ c v, r.get h c = .ok v ↔ r'.get h' c = .ok v
  has : ∀ cs b, r.has h cs = .ok b ↔ r'.has h' cs = .ok b

/-- Two results of a batch agree: the systems have created equally many entities, corresponding ones have the
same components, and so has every handle that was created in neither. -/
structure SameEffect (r : Reg V) (m : Nat → List Handle) (r' : Reg V) (m' : Nat → List Handle) : Prop where
  count : ∀ k, (m k).length = (m' k).length
  made : ∀ (k n : Nat) (h h' : Handle), (m k)[n]? = some h → (m' k)[n]? = some h' → SameAs r h r' h'
  other : ∀ h, (∀ k, h ∉ m k) → (∀ k, h ∉ m' k) → SameAs r h r' h

end CoEcs.Spec
