import Verif.Proofs.Deferred

/-!
# Properties of iterations that record changes (C79)
-/

namespace CoEcs.Props
open CoEcs Spec

variable {V : Type} {ty : Types} {husk : V → V} {c c1 c2 : CSys V} {W : Spec.World V} {b i : Nat}

/-! ## C79 -/

/-- **C79** (the iteration): for every callback that records commands of any kind, the iteration calls it exactly as
an iteration whose callback does nothing, and what is recorded is what the calls record, in their order. -/
theorem C79_iteration_undisturbed (args : List BlockId) (cb : List (Val V) → List (Rec V)) (f : List (Val V) → Nat → V)
    (calls : List (List (Val V))) :
    c.eachRec ty husk b i args cb = .ok c1 calls ↔
      (c.sys.reg i).each args [] f = .ok (c.sys.reg i) calls ∧ c.recordAll ty husk b i (calls.flatMap cb) = .ok c1 () :=
  eachRec_iff

/-- **C79** (partial; missing: the flush may be undefined, see below): when the buffers are empty, a callback records its
decisions about the entity it is called for, and the flush afterwards returns, every entity that matched
when the iteration began has been changed as the callback decided from its components at that time, and nothing
else has changed. -/
theorem C79_flush_applies_partial [Nonempty V] {bs : List BlockId} {dec : List (Val V) → List (Change V)} {calls : List (List (Val V))}
    {buf : Buf V} {o : Option Handle} (hr : CReach ty husk c W) (hq : c.todo.flatten = []) (hb : c.bufs[b]? = some (some buf))
    (he : c.eachRec ty husk b i (none :: bs) (recording dec) = .ok c1 calls)
    (ha : CSys.AllowedAll ty husk b i c (calls.flatMap (recording dec)))
    (hf : c1.step ty husk (.flush i) = some (c2, .ok o)) :
    Answers (c2.sys.reg i) (fun h =>
      match (c.sys.reg i).has h (compsOf (none :: bs)), callOf (c.sys.reg i) (none :: bs) h with
      | .ok true, some t => (dec t).foldl Change.effect (W i h)
      | _, _ => W i h) := by
  obtain ⟨hs, n1, n2, n3, n4, n5⟩ := eachRec_recorded hr hq hb he ha
  have hal : c1.Allowed (.flush i) := by
    intro x hx
    rw [n5, List.mem_map] at hx
    obtain ⟨y, _, rfl⟩ := hx
    rfl
  have := (C28_flush_applies_partial n4 hal hf).1
  rw [n5, List.map_map] at this
  have hid : (Prod.snd ∘ Prod.mk i : ACmd V → ACmd V) = id := rfl
  rw [hid, List.map_id] at this
  have key : (hs.flatMap fun h => ((callOf (c.sys.reg i) (none :: bs) h).elim [] dec).map (Change.cmd h)).foldl ACmd.apply (W i) = fun h =>
      match (c.sys.reg i).has h (compsOf (none :: bs)), callOf (c.sys.reg i) (none :: bs) h with
      | .ok true, some t => (dec t).foldl Change.effect (W i h)
      | _, _ => W i h := by
    funext h
    rw [foldl_cmds (fun h => (callOf (c.sys.reg i) (none :: bs) h).elim [] dec) hs _ n1]
    by_cases hh : h ∈ hs
    · rw [if_pos hh, (n2 h).1 hh]
      cases callOf (c.sys.reg i) (none :: bs) h with
      | none => rfl
      | some t => rfl
    · rw [if_neg hh]
      split
      · rename_i h1 _
        exact absurd ((n2 h).2 h1) hh
      · rfl
  rw [key] at this
  exact this

/-- **C79** (exceptions): if the callback decides nothing about an entity after its destruction, the flush throws only if
there is no room for one entity with a new set of components. -/
theorem C79_flush_throws_only [Nonempty V] {bs : List BlockId} {dec : List (Val V) → List (Change V)} {calls : List (List (Val V))}
    {buf : Buf V} {e : Exn} (hr : CReach ty husk c W) (hq : c.todo.flatten = []) (hb : c.bufs[b]? = some (some buf))
    (he : c.eachRec ty husk b i (none :: bs) (recording dec) = .ok c1 calls)
    (ha : CSys.AllowedAll ty husk b i c (calls.flatMap (recording dec)))
    (hd : ∀ t ∈ calls, DestroyLast (dec t))
    (hf : c1.step ty husk (.flush i) = some (c2, .throw e)) :
    e = .insufficientChunkSize ∧ ∃ t ∈ calls, ∃ x ∈ dec t, x ≠ .destroy := by
  obtain ⟨hs, n1, n2, n3, n4, n5⟩ := eachRec_recorded hr hq hb he ha
  have R := (hr.inv.sys i).rep
  have hal : c1.Allowed (.flush i) := by
    intro x hx
    rw [n5, List.mem_map] at hx
    obtain ⟨y, _, rfl⟩ := hx
    rfl
  have hcall : ∀ h ∈ hs, ∃ t ∈ calls, callOf (c.sys.reg i) (none :: bs) h = some t := by
    intro h hh
    have : callOf (c.sys.reg i) (none :: bs) h ∈ calls.map some := by rw [← n3]; exact List.mem_map_of_mem hh
    obtain ⟨t, h1, h2⟩ := List.mem_map.1 this
    exact ⟨t, h1, h2.symm⟩
  obtain ⟨done, bad, m1, _, _, m2, _⟩ := C63_failed_flush n4 hal hf
  have hready := allReady_cmds (fun h => (callOf (c.sys.reg i) (none :: bs) h).elim [] dec) hs (W i) n1
    (fun h hh => by
      obtain ⟨d, hw, _⟩ := (R.matches_iff h _).1 ((n2 h).1 hh)
      rw [hw]; exact Option.some_ne_none d)
    (fun h hh => by
      obtain ⟨t, ht, hc⟩ := hcall h hh
      rw [hc]; exact hd t ht)
  have hsnd : (hs.flatMap fun h => ((callOf (c.sys.reg i) (none :: bs) h).elim [] dec).map (Change.cmd h)) =
      done.map Prod.snd ++ bad.2 :: c2.todo.flatten.map Prod.snd := by
    have := congrArg (List.map Prod.snd) (n5.symm.trans m1)
    simpa [List.map_map, Function.comp_def] using this
  rw [hsnd, cmdsReady_append] at hready
  have hb2 := hready.2.1
  rcases m2 with ⟨g, g1, g2, _⟩ | ⟨_, g2, g3⟩ | ⟨_, _, g, ph, d, cp, v, g3, _⟩
  · exact absurd g2 (hb2 g g1)
  · refine ⟨g2, ?_⟩
    have hm : bad.2 ∈ hs.flatMap fun h => ((callOf (c.sys.reg i) (none :: bs) h).elim [] dec).map (Change.cmd h) := by rw [hsnd]; simp
    obtain ⟨h, hh, hx⟩ := List.mem_flatMap.1 hm
    obtain ⟨t, ht, hc⟩ := hcall h hh
    rw [hc] at hx
    obtain ⟨x, hx, hx'⟩ := List.mem_map.1 hx
    refine ⟨t, ht, x, hx, ?_⟩
    rintro rfl
    rw [← hx'] at g3
    rcases g3 with ⟨_, _, _, g3⟩ | ⟨_, _, g3⟩ <;> cases g3
  · exfalso
    have hm : bad.2 ∈ hs.flatMap fun h => ((callOf (c.sys.reg i) (none :: bs) h).elim [] dec).map (Change.cmd h) := by rw [hsnd]; simp
    obtain ⟨h, hh, hx⟩ := List.mem_flatMap.1 hm
    obtain ⟨x, hx, hx'⟩ := List.mem_map.1 hx
    rw [g3] at hx'
    cases x <;> cases hx'

/-- **C79** (partial; missing: the flush may be undefined): destroying from the callback, which is wrong if done directly
(C78), is right if recorded: after the flush exactly the entities that matched are gone. -/
theorem C79_destroy_matching_partial [Nonempty V] {bs : List BlockId} {calls : List (List (Val V))} {buf : Buf V} {out : Out}
    (hr : CReach ty husk c W) (hq : c.todo.flatten = []) (hb : c.bufs[b]? = some (some buf))
    (he : c.eachRec ty husk b i (none :: bs) (recording fun _ => [.destroy]) = .ok c1 calls)
    (ha : CSys.AllowedAll ty husk b i c (calls.flatMap (recording fun _ => [.destroy])))
    (hf : c1.step ty husk (.flush i) = some (c2, out)) :
    (∃ o, out = .ok o) ∧ (∀ h, (c.sys.reg i).has h (compsOf (none :: bs)) = .ok true → ∀ cs x, (c2.sys.reg i).has h cs ≠ .ok x) ∧
      (∀ h, (c.sys.reg i).has h (compsOf (none :: bs)) ≠ .ok true → SameEntity (c.sys.reg i) (c2.sys.reg i) h) ∧
      ∀ h, (c2.sys.reg i).has h (compsOf (none :: bs)) ≠ .ok true := by
  cases out with
  | throw e =>
    exfalso
    obtain ⟨_, t, _, x, hx, hne⟩ := C79_flush_throws_only hr hq hb he ha (fun t _ => by simp [DestroyLast]) hf
    simp only [List.mem_singleton] at hx
    exact hne hx
  | ok o =>
    refine ⟨⟨o, rfl⟩, ?_⟩
    have A := C79_flush_applies_partial hr hq hb he ha hf
    have R := (hr.inv.sys i).rep
    have gone : ∀ h, (c.sys.reg i).has h (compsOf (none :: bs)) = .ok true → ∀ cs x, (c2.sys.reg i).has h cs ≠ .ok x := by
      intro h hh cs x hx
      obtain ⟨d, hw, hm⟩ := (R.matches_iff h _).1 hh
      obtain ⟨t, ht⟩ := hm.tuple (h := h)
      have hcall : callOf (c.sys.reg i) (none :: bs) h = some t := by rw [R.callOf hw]; exact ht
      have := ((A h).1 (by simp [hh, hcall, Change.effect])).2 cs
      rw [this] at hx
      cases hx
    have stay : ∀ h, (c.sys.reg i).has h (compsOf (none :: bs)) ≠ .ok true → SameEntity (c.sys.reg i) (c2.sys.reg i) h := by
      intro h hh
      have hC : (match (c.sys.reg i).has h (compsOf (none :: bs)), callOf (c.sys.reg i) (none :: bs) h with
          | .ok true, some t => ([.destroy] : List (Change V)).foldl Change.effect (W i h)
          | _, _ => W i h) = W i h := by
        split
        · rename_i h1 _; exact absurd h1 hh
        · rfl
      cases hw : W i h with
      | none =>
        obtain ⟨g1, g2⟩ := (A h).1 (hC.trans hw)
        refine ⟨fun cp v => ?_, fun cs x => ?_, fun h0 => ?_⟩
        · rw [g1, R.get_none hw]; simp
        · rw [g2, R.has_none hw]; simp
        · rw [R.has_none hw] at h0; cases h0
      | some d =>
        obtain ⟨g0, g1, g2, g3⟩ := (A h).2 d (hC.trans hw)
        have hs : Same (c.sys.reg i) (c2.sys.reg i) h := by
          refine ⟨fun cp => ?_, fun cs => ?_, ?_⟩
          · cases hd : d cp with
            | none => rw [g2 cp hd, R.get_absent hw hd]
            | some v => rw [g1 cp v hd, R.get_some hw hd]
          · rw [g3, R.has_some hw]
          · rw [g0, R.alive hw]
        exact ⟨fun cp v => by rw [hs.1], fun cs x => by rw [hs.2], fun _ => hs⟩
    refine ⟨gone, stay, fun h hh => ?_⟩
    by_cases h0 : (c.sys.reg i).has h (compsOf (none :: bs)) = .ok true
    · exact gone h h0 _ _ hh
    · exact h0 (((stay h h0).has _ _).1 hh)

/-- Three entities with component 0, the second one with component 1 too, and one with component 1 only. -/
def deferOps : List (COp Nat) :=
  [.start, .direct (.on 0 (.create [(0, 10)])), .direct (.on 0 (.create [(0, 11), (1, 5)])), .direct (.on 0 (.create [(0, 12)])),
    .direct (.on 0 (.create [(1, 6)]))]

theorem deferOps_isSome : (cexec smallTy id deferOps).isSome = true := by decide +kernel

/-- Destroy what holds 11, mark what holds 12, lower the rest. -/
def decide11 : List (Val Nat) → List (Change Nat)
  | [_, .comp 11] => [.set 1 1, .destroy]
  | [_, .comp 12] => [.set 1 1, .remove 0]
  | [_, .comp v] => [.set 0 (v - 1)]
  | _ => []

def deferRun : Option (CSys Nat × List (List (Val Nat)) × CSys Nat × Out) :=
  match ((cexec smallTy id deferOps).get deferOps_isSome).1.eachRec smallTy id 0 0 [none, some 0] (recording decide11) with
  | .ok c1 calls =>
    if (recordRun smallTy id 0 0 ((cexec smallTy id deferOps).get deferOps_isSome).1 (calls.flatMap (recording decide11))).isSome then
      (c1.step smallTy id (.flush 0)).map fun x => (c1, calls, x.1, x.2)
    else none
  | _ => none

/-- The hypotheses of C79 hold for these decisions; the flush returns, entity 1 is gone, entity 2 has lost component 0 and
got component 1, entity 0 has a new value, entity 3 is as before. -/
example : ((cexec smallTy id deferOps).get deferOps_isSome).1.todo.flatten.isEmpty = true ∧
    (deferRun.map fun x => (x.2.1.length, x.2.2.2, (x.2.2.1.sys.reg 0).get ⟨0, 0⟩ 0, (x.2.2.1.sys.reg 0).has ⟨1, 0⟩ [])) =
      some (3, .ok none, .ok 9, .throw .entityNotFound) ∧
    (deferRun.map fun x => ((x.2.2.1.sys.reg 0).get ⟨2, 0⟩ 0, (x.2.2.1.sys.reg 0).get ⟨2, 0⟩ 1, (x.2.2.1.sys.reg 0).get ⟨3, 0⟩ 1)) =
      some (.throw .componentNotFound, .ok 1, .ok 6) := by decide +kernel

example (t : List (Val Nat)) : DestroyLast (decide11 t) := by
  unfold decide11 DestroyLast
  split <;> simp [List.dropLast]

/-- Five entities in three chunks; the second chunk and then the third one is emptied. -/
def emptiedOps : List (COp Nat) :=
  [.start, .direct (.on 0 (.create [(0, 10)])), .direct (.on 0 (.create [(0, 11)])), .direct (.on 0 (.create [(0, 12)])),
    .direct (.on 0 (.create [(0, 13)])), .direct (.on 0 (.create [(0, 14)])), .direct (.on 0 (.destroy ⟨3, 0⟩)),
    .direct (.on 0 (.destroy ⟨2, 0⟩)), .direct (.on 0 (.destroy ⟨4, 0⟩))]

theorem emptiedOps_isSome : (cexec bigTy id emptiedOps).isSome = true := by decide +kernel

/-- **C79 is violated**: two entities match, the callback records that they be destroyed; the flush is undefined (as the direct
call is, C19). -/
theorem C79_flush_undefined_violated :
    ∃ (c c1 : CSys Nat) (W : Spec.World Nat) (buf : Buf Nat) (calls : List (List (Val Nat))), CReach bigTy id c W ∧ c.todo.flatten = [] ∧
      c.bufs[0]? = some (some buf) ∧ c.eachRec bigTy id 0 0 [none, some 0] (recording fun _ => [.destroy]) = .ok c1 calls ∧
      CSys.AllowedAll bigTy id 0 0 c (calls.flatMap (recording fun _ => [.destroy])) ∧ calls.length = 2 ∧
      c1.step bigTy id (.flush 0) = none := by
  have h0 : (match ((cexec bigTy id emptiedOps).get emptiedOps_isSome).1.eachRec bigTy id 0 0 [none, some 0] (recording fun _ => [.destroy]) with
      | .ok c1 calls => decide (calls.length = 2) && (c1.step bigTy id (.flush 0)).isNone &&
        (recordRun bigTy id 0 0 ((cexec bigTy id emptiedOps).get emptiedOps_isSome).1 (calls.flatMap (recording fun _ => [.destroy]))).isSome
      | _ => false) = true := by decide +kernel
  split at h0
  · rename_i c1 calls he
    simp only [Bool.and_eq_true, decide_eq_true_eq, Option.isNone_iff_eq_none] at h0
    obtain ⟨c2, hc2⟩ := Option.isSome_iff_exists.1 h0.2
    have hb : (match ((cexec bigTy id emptiedOps).get emptiedOps_isSome).1.bufs[0]? with | some (some _) => true | _ => false) = true := by
      decide +kernel
    split at hb
    · rename_i buf hbuf
      exact ⟨_, c1, _, buf, calls, cexec_get emptiedOps emptiedOps_isSome, List.isEmpty_iff.1 (by decide +kernel), hbuf, he, (recordRun_some hc2).1,
        h0.1.1, h0.1.2⟩
    · cases hb
  · cases h0

end CoEcs.Props
