import Verif.Proofs.ViewOthers
import Verif.Props.ViewChange

/-!
# C80: a callback of a view changes entities the view does not show
-/

namespace CoEcs.Props
open CoEcs Spec

variable {V : Type} {ty : Types} {s : Sys V} {W : Spec.World V}

/-- The callback makes one entity for every listed component. -/
def createsEach (cs : List Nat) : List (Val Nat) → List (CbOp Nat) := fun _ => cs.map fun c => .create [(c, 0)]

theorem oneOfZero_isSome : (exec smallTy ([.on 0 (.create [(0, 10)])] : List (SysOp Nat))).isSome = true := by decide +kernel

theorem oneOfFive_isSome : (exec smallTy ([.on 0 (.create [(5, 10)])] : List (SysOp Nat))).isSome = true := by decide +kernel

/-- **C80** violated: one entity has component 0.  The callback of a view of component 0 creates five entities, one
for each of the components 1 to 5; all that succeeds when done outside of the iteration, and none of them matches the view.
Within the iteration it is undefined: the new archetypes displace the bucket the iterator of the view points to. -/
theorem C80_new_archetypes_violated : ∃ (s : Sys Nat) (W : Spec.World Nat), Reachable smallTy s W ∧ s.pend 0 = 0 ∧
    (∃ r' : Reg Nat, Reg.acts 0 (s.reg 0) true ((createsEach [1, 2, 3, 4, 5] []).map (CbOp.call smallTy)) = .ok (r', true) () ∧ r'.size = 6) ∧
    (s.reg 0).eachActing [none, some 0] (fun t => (createsEach [1, 2, 3, 4, 5] t).map (CbOp.call smallTy)) = .ub := by
  refine ⟨_, _, exec_get _ oneOfZero_isSome, by decide +kernel, ?_, ?_⟩
  · have h0 : (match Reg.acts 0 (((exec smallTy ([.on 0 (.create [(0, 10)])] : List (SysOp Nat))).get oneOfZero_isSome).1.reg 0) true
        ((createsEach [1, 2, 3, 4, 5] []).map (CbOp.call smallTy)) with
        | .ok (r', true) _ => decide (r'.size = 6)
        | _ => false) = true := by decide +kernel
    split at h0
    · rename_i r' u e
      exact ⟨r', e, by simpa using h0⟩
    · cases h0
  · have h0 : (match (((exec smallTy ([.on 0 (.create [(0, 10)])] : List (SysOp Nat))).get oneOfZero_isSome).1.reg 0).eachActing [none, some 0]
        (fun t => (createsEach [1, 2, 3, 4, 5] t).map (CbOp.call smallTy)) with | .ub => true | _ => false) = true := by decide +kernel
    split at h0
    · assumption
    · cases h0

/-- The components of fourteen other archetypes. -/
def fourteen : List Nat := [0, 1, 2, 3, 4, 6, 7, 8, 9, 10, 11, 12, 13, 14]

/-- **C80** violated, by growth of the table: the same with component 5 and fourteen new archetypes.  The map of archetypes
is moved to a larger table while the iterator of the view points into the old one; the first bucket still holds the
archetype of the view. -/
theorem C80_rehash_violated : ∃ (s : Sys Nat) (W : Spec.World Nat), Reachable smallTy s W ∧ s.pend 0 = 0 ∧
    (∃ r' : Reg Nat, Reg.acts 0 (s.reg 0) true ((createsEach fourteen []).map (CbOp.call smallTy)) = .ok (r', true) () ∧
      r'.size = 15 ∧ (s.reg 0).archs.map.n < r'.archs.map.n ∧
      (r'.archs.map.slots[0]?.map fun e => e.map HEntry.val) = ((s.reg 0).archs.map.slots[0]?.map fun e => e.map HEntry.val)) ∧
    (s.reg 0).eachActing [none, some 5] (fun t => (createsEach fourteen t).map (CbOp.call smallTy)) = .ub := by
  refine ⟨_, _, exec_get _ oneOfFive_isSome, by decide +kernel, ?_, ?_⟩
  · have h0 : (match Reg.acts 0 (((exec smallTy ([.on 0 (.create [(5, 10)])] : List (SysOp Nat))).get oneOfFive_isSome).1.reg 0) true
        ((createsEach fourteen []).map (CbOp.call smallTy)) with
        | .ok (r', true) _ => decide (r'.size = 15) &&
          (decide ((((exec smallTy ([.on 0 (.create [(5, 10)])] : List (SysOp Nat))).get oneOfFive_isSome).1.reg 0).archs.map.n < r'.archs.map.n) &&
          decide ((r'.archs.map.slots[0]?.map fun e => e.map HEntry.val) =
            ((((exec smallTy ([.on 0 (.create [(5, 10)])] : List (SysOp Nat))).get oneOfFive_isSome).1.reg 0).archs.map.slots[0]?.map fun e => e.map HEntry.val)))
        | _ => false) = true := by decide +kernel
    split at h0
    · rename_i r' u e
      simp only [Bool.and_eq_true, decide_eq_true_eq] at h0
      exact ⟨r', e, h0.1, h0.2.1, h0.2.2⟩
    · cases h0
  · have h0 : (match (((exec smallTy ([.on 0 (.create [(5, 10)])] : List (SysOp Nat))).get oneOfFive_isSome).1.reg 0).eachActing [none, some 5]
        (fun t => (createsEach fourteen t).map (CbOp.call smallTy)) with | .ub => true | _ => false) = true := by decide +kernel
    split at h0
    · assumption
    · cases h0

/-- **C80** (partial; missing: operations that need an archetype the registry does not have yet): a callback may create, destroy, set
and remove as it likes as long as the entities concerned match the view neither before nor after.  The callback is
called exactly as in an iteration without changes, and the registry is left as by the operations alone. -/
theorem C80_others_partial (hr : Reachable ty s W) (i : Nat) (hp : s.pend i = 0) {args : List BlockId} {f : List (Val V) → Nat → V}
    {cb : List (Val V) → List (CbOp V)} {r0 r' : Reg V} {calls : List (List (Val V))}
    (he : (s.reg i).each args [] f = .ok r0 calls) (hd : OthersRun ty args (s.reg i) (calls.flatMap cb) r') :
    (s.reg i).eachActing args (fun t => (cb t).map (CbOp.call ty)) = .ok r' calls := by
  have R := (hr.inv i).rep
  rw [hp] at R
  unfold Reg.each at he
  split at he
  · cases he
  · rename_i cs hcs
    obtain ⟨_, ht⟩ := eachLocs_plain he
    refine eachActing_still hcs ht ?_
    have := OthersRun.still R (.refl _ _) hd
    simpa only [List.map_flatMap] using this

/-- An archetype is only left with the table of archetypes as large as at the start. -/
theorem chunksFrom_n {args : List BlockId} {cb : List (Val V) → List (Reg.Act V)} {n p ai : Nat} : ∀ {k ci : Nat} {r r' : Reg V} {v : Bool}
    {ts : List (List (Val V))}, Reg.chunksFrom args cb n p ai k ci r v = .ok r' ts → r'.archs.map.n = n
  | 0, _, _, _, _, _, h => by cases h
  | k + 1, ci, r, r', v, ts, h => by
    unfold Reg.chunksFrom at h
    split at h
    · cases h
    · split at h
      · cases h
      · cases h
      · rename_i r1 v1 ts1 _
        split at h
        · rename_i hb
          split at h
          · cases h
            unfold Reg.bucketIs at hb
            simp only [Bool.and_eq_true, decide_eq_true_eq] at hb
            exact hb.1.2.1
          · split at h
            · cases h
            · cases h
            · rename_i hrec
              cases h
              exact chunksFrom_n hrec
        · cases h

theorem bucketsFrom_n {args : List BlockId} {cb : List (Val V) → List (Reg.Act V)} {n : Nat} : ∀ {k p : Nat} {r r' : Reg V}
    {ts : List (List (Val V))}, r.archs.map.n = n → Reg.bucketsFrom args cb n k p r = .ok r' ts → r'.archs.map.n = n
  | 0, _, _, _, _, hn, h => by cases h; exact hn
  | k + 1, p, r, r', ts, hn, h => by
    unfold Reg.bucketsFrom at h
    split at h
    · cases h
    · exact bucketsFrom_n hn h
    · split at h
      · cases h
      · split at h
        · cases h
        · split at h
          · split at h
            · cases h
            · cases h
            · rename_i r1 ts1 hc
              split at h
              · cases h
              · cases h
              · rename_i hrec
                cases h
                exact bucketsFrom_n (chunksFrom_n hc) hrec
          · exact bucketsFrom_n hn h

/-- **C80**, what is lost with growth, for all registries, views and callbacks: an iteration that ends normally leaves the map of
archetypes as large as it was.  So operations that together make it grow cannot all be done in callbacks of one view, whatever
entities they concern. -/
theorem C80_table {r r' : Reg V} {args : List BlockId} {cb : List (Val V) → List (Reg.Act V)} {calls : List (List (Val V))}
    (h : r.eachActing args cb = .ok r' calls) : r'.archs.map.n = r.archs.map.n :=
  bucketsFrom_n rfl h

/-- The entities 2 and 3 of `twoPairs` without component 0: in the call for entity 0, entity 2 is destroyed and another one is
created and its component is written; in the call for entity 1 the new one is destroyed. -/
def elsewhere : List (Val Nat) → List (CbOp Nat)
  | .ent h :: _ => if h.id = 0 then [.destroy ⟨2, 0⟩, .create [(1, 7)], .set ⟨2, 1⟩ 1 8] else [.destroy ⟨2, 1⟩]
  | _ => []

/-- Decides `OthersRun`. -/
def othersRun (ty : Types) (args : List BlockId) : Reg V → List (CbOp V) → Option (Reg V)
  | r, [] => some r
  | r, op :: ops =>
    let step : Reg V → Handle → Option (Reg V) := fun r1 h =>
      if r.has h (compsOf args) ≠ .ok true ∧ r1.has h (compsOf args) ≠ .ok true ∧ r1.archs.arches.length = r.archs.arches.length then
        othersRun ty args r1 ops
      else none
    match op with
    | .create vals =>
      match r.create ty vals with
      | .ok r1 h => if (vals.map Prod.fst).Nodup ∧ r.pool.nextId + 1 < U32 then step r1 h else none
      | _ => none
    | .destroy h => match r.destroy h with | .ok r1 _ => step r1 h | _ => none
    | .set h c v => match r.set ty h c v with | .ok r1 _ => step r1 h | _ => none
    | .remove h c => match r.remove ty h c with | .ok r1 _ => step r1 h | _ => none

theorem othersRun_sound {args : List BlockId} : ∀ {ops : List (CbOp V)} {r r' : Reg V}, othersRun ty args r ops = some r' → OthersRun ty args r ops r'
  | [], r, r', h => by cases h; exact .nil _
  | op :: ops, r, r', h => by
    unfold othersRun at h
    simp only at h
    cases op with
    | create vals =>
      simp only at h
      split at h
      · rename_i r1 g hc
        split at h
        · rename_i hb
          split at h
          · rename_i hq
            exact .cons (.create hb.1 hb.2 hc) hq.1 hq.2.1 hq.2.2 (othersRun_sound h)
          · cases h
        · cases h
      · cases h
    | destroy g =>
      simp only at h
      split at h
      · rename_i r1 _ hc
        split at h
        · rename_i hq
          exact .cons (.destroy hc) hq.1 hq.2.1 hq.2.2 (othersRun_sound h)
        · cases h
      · cases h
    | set g c v =>
      simp only at h
      split at h
      · rename_i r1 _ hc
        split at h
        · rename_i hq
          exact .cons (.set hc) hq.1 hq.2.1 hq.2.2 (othersRun_sound h)
        · cases h
      · cases h
    | remove g c =>
      simp only at h
      split at h
      · rename_i r1 _ hc
        split at h
        · rename_i hq
          exact .cons (.remove hc) hq.1 hq.2.1 hq.2.2 (othersRun_sound h)
        · cases h
      · cases h

example : ∃ (s : Sys Nat) (W : Spec.World Nat) (r0 r' : Reg Nat) (calls : List (List (Val Nat))), Reachable smallTy s W ∧ s.pend 0 = 0 ∧
    (s.reg 0).each [none, some 0] [] (fun _ _ => 0) = .ok r0 calls ∧ (calls.flatMap elsewhere).length = 4 ∧
    OthersRun smallTy [none, some 0] (s.reg 0) (calls.flatMap elsewhere) r' ∧ r'.size = 3 := by
  have h0 : (match (((exec smallTy twoPairs).get twoPairs_isSome).1.reg 0).each [none, some 0] [] (fun _ _ => 0) with
      | .ok _ calls => decide ((calls.flatMap elsewhere).length = 4) &&
        (match othersRun smallTy [none, some 0] (((exec smallTy twoPairs).get twoPairs_isSome).1.reg 0) (calls.flatMap elsewhere) with
          | some r' => decide (r'.size = 3)
          | _ => false)
      | _ => false) = true := by decide +kernel
  split at h0
  · rename_i r0 calls he
    simp only [Bool.and_eq_true, decide_eq_true_eq] at h0
    obtain ⟨h1, h3⟩ := h0
    split at h3
    · rename_i r' hd
      exact ⟨_, _, r0, r', calls, exec_get twoPairs twoPairs_isSome, by decide +kernel, he, h1, othersRun_sound hd, by simpa using h3⟩
    · cases h3
  · cases h0

end CoEcs.Props
