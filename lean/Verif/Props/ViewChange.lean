import Verif.Proofs.ViewChange
import Verif.Props.Command
import Verif.Props.View

/-!
# Properties of iterations whose callback changes the registry (C78, C79)
-/

namespace CoEcs.Props
open CoEcs Spec

variable {V : Type} {ty : Types} {s : Sys V} {W : Spec.World V}

/-! ## C78 -/

/-- **C78 is violated**, for every history: when the entities of a matching archetype are in one chunk and there
are at least two of them, destroying from the callback the entity it is called for makes the iteration
undefined: it goes on to the end the chunk had before. -/
theorem C78_violated (hr : Reachable ty s W) (i : Nat) (hp : s.pend i = 0) {ai : Nat} {a : Arch V} {c : Chunk V} {bs : List BlockId}
    (ha : (s.reg i).archs.arches[ai]? = some a) (hm : ∀ b ∈ bs, Reg.matchArg a b = true) (hc : a.chunks = [c]) (h2 : 2 ≤ c.size) :
    (s.reg i).eachActing (none :: bs) Reg.destroyVisited = .ub := by
  have R := (hr.inv i).rep
  rw [hp] at R
  exact R.eachActing_destroy_ub ha (by simpa [Reg.matchArg] using hm) (k := c.size) (by simp [hc]) h2

/-- **C78 is violated**, for every history: when some chunk of a matching archetype holds at least two entities, such an
iteration never gets rid of all matching entities.  It is undefined or leaves one it has not visited. -/
theorem C78_never_all_violated (hr : Reachable ty s W) (i : Nat) (hp : s.pend i = 0) {ai : Nat} {a : Arch V} {c : Chunk V} {bs : List BlockId}
    {r' : Reg V} {calls : List (List (Val V))}
    (ha : (s.reg i).archs.arches[ai]? = some a) (hm : ∀ b ∈ bs, Reg.matchArg a b = true) (hc : c ∈ a.chunks) (h2 : 2 ≤ c.size)
    (he : (s.reg i).eachActing (none :: bs) Reg.destroyVisited = .ok r' calls) : ∃ h, r'.has h (compsOf (none :: bs)) = .ok true := by
  have R := (hr.inv i).rep
  rw [hp] at R
  exact R.eachActing_leaves ha (by simpa [Reg.matchArg] using hm) hc h2 he

/-- Two entities with one component. -/
def twoAlike : List (SysOp Nat) := [.on 0 (.create [(0, 10)]), .on 0 (.create [(0, 11)])]

theorem twoAlike_isSome : (exec smallTy twoAlike).isSome = true := by decide +kernel

/-- **C78 is violated**: two entities, both destroyed by the callback that is called for them. -/
theorem C78_two_entities_violated :
    ∃ (s : Sys Nat) (W : Spec.World Nat) (h1 h2 : Handle), Reachable smallTy s W ∧ (s.reg 0).get h1 0 = .ok 10 ∧ (s.reg 0).get h2 0 = .ok 11 ∧
      (s.reg 0).size = 2 ∧ (s.reg 0).eachActing [none, some 0] Reg.destroyVisited = .ub := by
  refine ⟨_, _, ⟨0, 0⟩, ⟨1, 0⟩, exec_get twoAlike twoAlike_isSome, by decide +kernel, by decide +kernel, by decide +kernel, ?_⟩
  have h1 : ((((exec smallTy twoAlike).get twoAlike_isSome).1.reg 0).archs.arches.map fun a => (a.contains 0, a.chunks.map Chunk.size)) = [(true, [2])] := by
    decide +kernel
  cases ha : ((((exec smallTy twoAlike).get twoAlike_isSome).1.reg 0).archs.arches) with
  | nil => rw [ha] at h1; cases h1
  | cons a as =>
    rw [ha] at h1
    simp only [List.map_cons, List.cons.injEq, Prod.mk.injEq] at h1
    obtain ⟨c, hc, h2⟩ := List.map_eq_singleton_iff.1 h1.1.2
    refine C78_violated (exec_get twoAlike twoAlike_isSome) 0 (by decide +kernel) (ai := 0) (a := a) (c := c) (by rw [ha]; rfl) ?_ hc (by omega)
    simpa [Reg.matchArg] using h1.1.1

/-- Three entities in two chunks. -/
def threeAlike : List (SysOp Nat) := [.on 0 (.create [(0, 10)]), .on 0 (.create [(0, 11)]), .on 0 (.create [(0, 12)])]

theorem threeAlike_isSome : (exec bigTy threeAlike).isSome = true := by decide +kernel

/-- **C78 is violated**: the iteration may also end without a trace after it has skipped entities: of three that
match, two are destroyed; the third one has taken the place of the first and is never visited. -/
theorem C78_survivor_violated :
    ∃ (s : Sys Nat) (W : Spec.World Nat) (r' : Reg Nat) (h : Handle), Reachable bigTy s W ∧ (s.reg 0).size = 3 ∧
      (s.reg 0).has h [0] = .ok true ∧
      (∃ calls, (s.reg 0).eachActing [none, some 0] Reg.destroyVisited = .ok r' calls ∧ calls.length = 2) ∧
      r'.has h [0] = .ok true ∧ r'.size = 1 := by
  have h0 : (match (((exec bigTy threeAlike).get threeAlike_isSome).1.reg 0).eachActing [none, some 0] Reg.destroyVisited with
      | .ok r' calls => decide (calls.length = 2) && decide (r'.has ⟨2, 0⟩ [0] = .ok true) && decide (r'.size = 1)
      | _ => false) = true := by decide +kernel
  split at h0
  · rename_i r' calls he
    simp only [Bool.and_eq_true, decide_eq_true_eq] at h0
    exact ⟨_, _, r', ⟨2, 0⟩, exec_get threeAlike threeAlike_isSome, by decide +kernel, by decide +kernel, ⟨calls, he, h0.1.1⟩, h0.1.2, h0.2⟩
  · cases h0

example : ∃ (s : Sys Nat) (W : Spec.World Nat) (a : Arch Nat) (c : Chunk Nat) (r' : Reg Nat) (calls : List (List (Val Nat))),
    Reachable bigTy s W ∧ s.pend 0 = 0 ∧ (s.reg 0).archs.arches[0]? = some a ∧ (∀ b ∈ [some 0], Reg.matchArg a b = true) ∧ c ∈ a.chunks ∧
      2 ≤ c.size ∧ (s.reg 0).eachActing [none, some 0] Reg.destroyVisited = .ok r' calls := by
  have h0 : (match (((exec bigTy threeAlike).get threeAlike_isSome).1.reg 0).archs.arches[0]?,
        (((exec bigTy threeAlike).get threeAlike_isSome).1.reg 0).eachActing [none, some 0] Reg.destroyVisited with
      | some a, .ok _ _ => a.contains 0 && (match a.chunks with | c :: _ => decide (2 ≤ c.size) | [] => false)
      | _, _ => false) = true := by decide +kernel
  split at h0
  · rename_i a r' calls ha he
    rw [Bool.and_eq_true] at h0
    split at h0
    · rename_i c cs hc
      exact ⟨_, _, a, c, r', calls, exec_get threeAlike threeAlike_isSome, by decide +kernel, ha, by simpa [Reg.matchArg] using h0.1,
        by rw [hc]; simp, by simpa using h0.2, he⟩
    · exact absurd h0.2 (by simp)
  · cases h0

/-- Three entities in two chunks; the two of the first one are destroyed, the chunk stays. -/
def lastOfThree : List (SysOp Nat) :=
  [.on 0 (.create [(0, 10)]), .on 0 (.create [(0, 11)]), .on 0 (.create [(0, 12)]), .on 0 (.destroy ⟨1, 0⟩), .on 0 (.destroy ⟨0, 0⟩)]

theorem lastOfThree_isSome : (exec bigTy lastOfThree).isSome = true := by decide +kernel

/-- **C78 is violated**: even one matching entity may be too many.  Its chunk is the last of several and is removed
with it while the iterator points to it. -/
theorem C78_one_entity_violated :
    ∃ (s : Sys Nat) (W : Spec.World Nat) (h : Handle), Reachable bigTy s W ∧ (s.reg 0).get h 0 = .ok 12 ∧ (s.reg 0).size = 1 ∧
      (s.reg 0).eachActing [none, some 0] Reg.destroyVisited = .ub := by
  refine ⟨_, _, ⟨2, 0⟩, exec_get lastOfThree lastOfThree_isSome, by decide +kernel, by decide +kernel, ?_⟩
  have h0 : (match (((exec bigTy lastOfThree).get lastOfThree_isSome).1.reg 0).eachActing [none, some 0] Reg.destroyVisited with
      | .ub => true | _ => false) = true := by decide +kernel
  split at h0
  · assumption
  · cases h0

/-- **C78** (partial; missing: entities that match the view): a callback may destroy entities that do not match the
view.  If destroying them one after the other succeeds, the iteration calls the callback exactly as it would
have without that, and leaves the registry as the destructions do. -/
theorem C78_others_partial (hr : Reachable ty s W) (i : Nat) (hp : s.pend i = 0) {args : List BlockId} {f : List (Val V) → Nat → V}
    {victims : List (Val V) → List Handle} {r0 r' : Reg V} {calls : List (List (Val V))}
    (he : (s.reg i).each args [] f = .ok r0 calls)
    (hv : ∀ t ∈ calls, ∀ h ∈ victims t, (s.reg i).has h (compsOf args) ≠ .ok true)
    (hd : destroyAll (s.reg i) (calls.flatMap victims) = .ok r' ()) :
    (s.reg i).eachActing args (fun t => (victims t).map fun h r => r.destroy h) = .ok r' calls := by
  have R := (hr.inv i).rep
  rw [hp] at R
  unfold Reg.each at he
  split at he
  · cases he
  · rename_i cs hcs
    obtain ⟨_, ht⟩ := eachLocs_plain he
    refine eachActing_still hcs ht ?_
    have := destroyAll_still (args := args) (W0 := W i) R (.refl _ _) (fun _ _ h => h) (fun h hh d hw hmt => ?_) hd
    · simpa only [List.map_flatMap] using this
    · obtain ⟨t, ht, hh⟩ := List.mem_flatMap.1 hh
      exact hv t ht h hh ((R.matches_iff h args).2 ⟨d, hw, hmt⟩)

/-- Entities 0 and 1 have component 0, entities 2 and 3 do not; the calls for 0 and 1 destroy 2 and 3. -/
def twoPairs : List (SysOp Nat) :=
  [.on 0 (.create [(0, 10)]), .on 0 (.create [(0, 11)]), .on 0 (.create [(1, 12)]), .on 0 (.create [(1, 13)])]

theorem twoPairs_isSome : (exec smallTy twoPairs).isSome = true := by decide +kernel

/-- The entity whose id is two higher. -/
def partner : List (Val Nat) → List Handle
  | .ent h :: _ => [⟨h.id + 2, 0⟩]
  | _ => []

example : ∃ (s : Sys Nat) (W : Spec.World Nat) (r0 r' : Reg Nat) (calls : List (List (Val Nat))), Reachable smallTy s W ∧ s.pend 0 = 0 ∧
    (s.reg 0).each [none, some 0] [] (fun _ _ => 0) = .ok r0 calls ∧ calls.length = 2 ∧
    (∀ t ∈ calls, ∀ h ∈ partner t, (s.reg 0).has h (compsOf [none, some 0]) ≠ .ok true) ∧
    destroyAll (s.reg 0) (calls.flatMap partner) = .ok r' () ∧ r'.size = 2 := by
  have h0 : (match (((exec smallTy twoPairs).get twoPairs_isSome).1.reg 0).each [none, some 0] [] (fun _ _ => 0) with
      | .ok _ calls => decide (calls.length = 2) &&
        calls.all (fun t => (partner t).all fun h => decide ((((exec smallTy twoPairs).get twoPairs_isSome).1.reg 0).has h (compsOf [none, some 0]) ≠ .ok true)) &&
        (match destroyAll (((exec smallTy twoPairs).get twoPairs_isSome).1.reg 0) (calls.flatMap partner) with
          | .ok r' _ => decide (r'.size = 2)
          | _ => false)
      | _ => false) = true := by decide +kernel
  split at h0
  · rename_i r0 calls he
    simp only [Bool.and_eq_true, decide_eq_true_eq] at h0
    obtain ⟨⟨h1, h2⟩, h3⟩ := h0
    split at h3
    · rename_i r' u hd
      refine ⟨_, _, r0, r', calls, exec_get twoPairs twoPairs_isSome, by decide +kernel, he, h1, ?_, hd, by simpa using h3⟩
      intro t ht h hh
      have := List.all_eq_true.1 (List.all_eq_true.1 h2 t ht) h hh
      simpa using this
    · cases h3
  · cases h0

end CoEcs.Props
