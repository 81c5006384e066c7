import Verif.Proofs.RepEnd
import Verif.Props.Registry

/-!
# Properties of the storage behind registries (C19, C22, C26, C53)
-/

namespace CoEcs.Props
open CoEcs Spec

variable {V : Type} {ty : Types} {s : Sys V} {W : Spec.World V}

/-! ## C19 -/

/-- Component types so large that a chunk holds two entities; type 3 is not copyable. -/
def bigTy : Types := ⟨fun c => ⟨c, 8100, 4, c != 3⟩, fun _ => rfl⟩

/-- Five entities in three chunks, then the second chunk and the third are emptied. -/
def threeChunks : List (SysOp Nat) :=
  [.on 0 (.create [(0, 0)]), .on 0 (.create [(0, 1)]), .on 0 (.create [(0, 2)]), .on 0 (.create [(0, 3)]), .on 0 (.create [(0, 4)]),
   .on 0 (.destroy ⟨3, 0⟩), .on 0 (.destroy ⟨2, 0⟩), .on 0 (.destroy ⟨4, 0⟩)]

theorem threeChunks_isSome : (exec bigTy threeChunks).isSome = true := by decide +kernel

/-- **C19 is violated**: a history of creations and destructions of live entities on one registry ends in
a state in which destroying a live entity reads a slot of an empty chunk. -/
theorem C19_live_storage_violated :
    ∃ (ty : Types) (s : Sys Nat) (W : Spec.World Nat) (h : Handle), Reachable ty s W ∧ s.Allowed (.on 0 (.destroy h)) ∧
      (s.reg 0).has h [] = .ok true ∧ (s.reg 0).destroy h = .ub ∧ s.step ty (.on 0 (.destroy h)) = none := by
  refine ⟨bigTy, _, _, ⟨0, 0⟩, exec_get threeChunks threeChunks_isSome, by decide +kernel, by decide +kernel, ?_, ?_⟩
  · have : (match (((exec bigTy threeChunks).get threeChunks_isSome).1.reg 0).destroy ⟨0, 0⟩ with | .ub => true | _ => false) = true := by
      decide +kernel
    split at this
    · assumption
    · cases this
  · have : (((exec bigTy threeChunks).get threeChunks_isSome).1.step bigTy (.on 0 (.destroy ⟨0, 0⟩))).isNone = true := by decide +kernel
    simpa using this

theorem lastOk_of {a : Arch V} (h : ¬ TrailingEmpty a) : a.LastOk := by
  intro last h1 h2
  apply Classical.byContradiction
  intro hl
  exact h ⟨by omega, last, h1, h2⟩

/-- **C19** (cause): the only undefined behaviour in any history of registry operations is an archetype
with an empty last chunk behind other chunks. -/
theorem C19_only_trailing_empty_partial (hr : Reachable ty s W) {op : SysOp V} (ha : s.Allowed op) (hu : s.step ty op = none) :
    ∃ (i j : Nat) (a : Arch V), (s.reg i).archs.arches[j]? = some a ∧ TrailingEmpty a := by
  have := step_spec hr.inv ha
  rw [hu] at this
  obtain ⟨j, i, a, h1, h2⟩ := this
  refine ⟨j, i, a, h1, ?_⟩
  apply Classical.byContradiction
  intro h
  exact h2 (lastOk_of h)

/-- **C19** (exactly when): destroying an entity is undefined behaviour exactly if the last chunk of its
archetype is empty and the entity is not the last one of its own chunk. -/
theorem C19_destroy_undefined_exactly_partial (hr : Reachable ty s W) {i : Nat} {h : Handle} (ha : s.Allowed (.on i (.destroy h)))
    (he : (s.reg i).has h [] = .ok true) :
    (s.reg i).destroy h = .ub ↔
      ∃ (l : Loc) (ai : Nat) (a : Arch V) (c last : Chunk V), (s.reg i).location h = .ok l ∧ l.arch = some ai ∧
        (s.reg i).archs.arches[ai]? = some a ∧ a.chunks[l.chunk]? = some c ∧ l.entry + 1 < c.size ∧
        a.chunks.getLast? = some last ∧ last.size = 0 := by
  have R := (hr.inv i).rep
  rw [show s.pend i = 0 from ha] at R
  obtain ⟨d, hw⟩ := R.entity_some he
  obtain ⟨l, ai, a, c, row, t⟩ := R.at_ hw
  constructor
  · intro hu
    have hns : ¬ a.Safe l.chunk l.entry := by
      intro hsafe
      rcases R.destroy' hw t hsafe with ⟨r', h1⟩
      rw [hu] at h1; cases h1
    unfold Arch.Safe at hns
    simp only [Classical.not_forall, Classical.not_not] at hns
    obtain ⟨c', hc', hlt, last, hl, h0⟩ := hns
    exact ⟨l, ai, a, c', last, t.loc, t.arch, t.get, hc', hlt, hl, h0⟩
  · rintro ⟨l', ai', a', c', last, h1, h2, h3, h4, h5, h6, h7⟩
    rw [t.loc] at h1; cases h1
    rw [t.arch] at h2; cases h2
    rw [t.get] at h3; cases h3
    unfold Reg.destroy
    simp only [t.loc, t.archOf]
    rw [Arch.Safe.swapErase_ub fun hs => hs c' h4 h5 last h6 h7]

theorem reach_last (hr : Reach ty (fun s op => FewChunks s ∧ NoFailedCopy ty s op) s W) : ∀ i, AllLast (s.reg i).archs := by
  induction hr with
  | init => intro i j a h; simp [Sys.init, Reg.empty, Archs.empty] at h
  | @step s s' W op out h1 h2 h3 h4 ih =>
    have := step_spec h1.inv h2
    rw [h4] at this
    obtain ⟨_, hk, _⟩ := this
    intro i
    refine (hk ?_ i).last (ih i) (h3.1 i)
    rintro rfl
    exact h3.2 _ h4

/-- **C19** (partial; missing: archetypes of three and more chunks, where it is false): while no archetype
has more than two chunks and no copy of a non-copyable component has been attempted, no operation is
undefined behaviour. -/
theorem C19_few_chunks_partial (hr : Reach ty (fun s op => FewChunks s ∧ NoFailedCopy ty s op) s W) {op : SysOp V} (ha : s.Allowed op) :
    s.step ty op ≠ none := by
  intro hu
  have := step_spec hr.inv ha
  rw [hu] at this
  obtain ⟨j, i, a, h1, h2⟩ := this
  exact h2 (reach_last hr j i a h1)

/-- Run operations on registry 0, checking that none ends with `invalid_argument` and that archetypes have
at most two chunks. -/
def exec0 (ty : Types) : Sys V → Spec.World V → List (RegOp V) → Option (Sys V × Spec.World V)
  | s, W, [] => some (s, W)
  | s, W, op :: ops =>
    if s.Allowed (.on 0 op) ∧ (s.reg 0).archs.arches.all (fun a => decide (a.chunks.length ≤ 2)) = true then
      match s.step ty (.on 0 op) with
      | none => none
      | some (s', out) => if out = .throw .invalidArgument then none else exec0 ty s' (W.step (.on 0 op) out) ops
    else none

theorem exec0_reach {s' : Sys V} {W' : Spec.World V} (ops : List (RegOp V))
    (h : Reach ty (fun s op => FewChunks s ∧ NoFailedCopy ty s op) s W) (h0 : ∀ i, i ≠ 0 → s.reg i = Reg.empty)
    (he : exec0 ty s W ops = some (s', W')) : Reach ty (fun s op => FewChunks s ∧ NoFailedCopy ty s op) s' W' := by
  induction ops generalizing s W with
  | nil => simp [exec0] at he; obtain ⟨rfl, rfl⟩ := he; exact h
  | cons op ops ih =>
    unfold exec0 at he
    split at he
    · rename_i ha
      cases hs : s.step ty (.on 0 op) with
      | none => rw [hs] at he; cases he
      | some x =>
        obtain ⟨s1, out⟩ := x
        rw [hs] at he
        simp only at he
        split at he
        · cases he
        · rename_i hout
          refine ih (.step h ha.1 ⟨?_, ?_⟩ hs) ?_ he
          · intro i j a hg
            by_cases hi : i = 0
            · subst hi
              have := List.all_eq_true.1 ha.2 a (List.mem_of_getElem? hg)
              simpa using this
            · rw [h0 i hi] at hg; simp [Reg.empty, Archs.empty] at hg
          · intro s2 h2
            rw [hs] at h2
            cases h2
            exact hout rfl
          · intro i hi
            have e0 : s.step ty (.on 0 op) = match op.run ty (s.reg 0) with
              | .ub => none
              | .throw r e => some (s.setReg 0 r, .throw e)
              | .ok r h => some ((s.setReg 0 r).note 0 op h, .ok h) := rfl
            rw [e0] at hs
            have hset : ∀ r, (s.setReg 0 r).reg i = Reg.empty := fun r => by simp [Sys.setReg, hi, h0 i hi]
            split at hs
            · cases hs
            · cases hs; exact hset _
            · cases hs
              rw [← hset]
              unfold Sys.note
              split
              · rfl
              · rfl
              · unfold Sys.use; split <;> rfl
              · rfl
    · cases he

theorem exec0_get (ops : List (RegOp V)) (h : (exec0 ty Sys.init (fun _ _ => none) ops).isSome = true) :
    Reach ty (fun s op => FewChunks s ∧ NoFailedCopy ty s op) ((exec0 ty Sys.init (fun _ _ => none) ops).get h).1
      ((exec0 ty Sys.init (fun _ _ => none) ops).get h).2 :=
  exec0_reach ops .init (fun _ _ => rfl) (Option.some_get h).symm

/-- Four entities in two chunks, one destroyed. -/
def twoChunks : List (RegOp Nat) := [.create [(0, 0)], .create [(0, 1)], .create [(0, 2)], .create [(0, 3)], .destroy ⟨0, 0⟩]

theorem twoChunks_isSome : (exec0 bigTy Sys.init (fun _ _ => none) twoChunks).isSome = true := by decide +kernel

example : ∃ (s : Sys Nat) (W : Spec.World Nat), Reach bigTy (fun s op => FewChunks s ∧ NoFailedCopy bigTy s op) s W ∧
    s.Allowed (.on 0 (.destroy ⟨1, 0⟩)) ∧ (s.reg 0).has ⟨1, 0⟩ [0] = .ok true ∧ (s.reg 0).size = 3 :=
  ⟨_, _, exec0_get twoChunks twoChunks_isSome, by decide +kernel, by decide +kernel, by decide +kernel⟩

/-! ## C22 -/

/-- **C22**: in every reachable registry two entities are in the same archetype exactly if they have the same
components, whatever the history. -/
theorem C22_archetype_iff_components (hr : Reachable ty s W) {i : Nat} {h h' : Handle} {l l' : Loc}
    (hl : (s.reg i).location h = .ok l) (hl' : (s.reg i).location h' = .ok l') :
    l.arch = l'.arch ↔ ∀ c, (s.reg i).has h [c] = (s.reg i).has h' [c] := by
  have R := (hr.inv i).rep
  cases hw : W i h with
  | none => rw [R.location_none hw] at hl; cases hl
  | some d =>
  cases hw' : W i h' with
  | none => rw [R.location_none hw'] at hl'; cases hl'
  | some d' =>
    obtain ⟨l1, ai, a, c, row, t⟩ := R.at_ hw
    obtain ⟨l2, ai', a', c', row', t'⟩ := R.at_ hw'
    rw [t.loc] at hl; cases hl
    rw [t'.loc] at hl'; cases hl'
    rw [t.arch, t'.arch]
    obtain ⟨_, d2, d3⟩ := Row.decode_some t.decode t.rowOk
    obtain ⟨_, d2', d3'⟩ := Row.decode_some t'.decode t'.rowOk
    constructor
    · intro he c
      rw [R.has_some hw, R.has_some hw']
      apply Classical.byContradiction
      intro hne
      refine t.arch_ne t' ⟨c, fun hc => hne ?_⟩ (by simpa using he)
      simp [hc]
    · intro he
      obtain ⟨m, hm⟩ := R.archs
      have hset : a.comps.set = a'.comps.set := by
        refine Bitset.canon_ext t.ok.inv.canon t'.ok.inv.canon fun p => ?_
        have hp := he p
        rw [R.has_some hw, R.has_some hw'] at hp
        simp only [List.all_cons, List.all_nil, Bool.and_true, Obs.ok.injEq] at hp
        have key : ∀ (b : Arch V) (e : Comps V), b.Ok → (∀ x, some x ∈ b.blocks → ∃ v, e x = some v) → (∀ x, some x ∉ b.blocks → e x = none) →
            b.comps.set.test p = (e p).isSome := by
          intro b e hb h1 h2
          by_cases hx : some p ∈ b.blocks
          · obtain ⟨v, hv⟩ := h1 p hx
            rw [hv, (hb.inv.test p).2 ((b.some_mem_blocks p).1 hx)]; rfl
          · rw [h2 p hx]
            cases ht : b.comps.set.test p
            · rfl
            · exact absurd ((b.some_mem_blocks p).2 ((hb.inv.test p).1 ht)) hx
        rw [key a d t.ok (fun x hx => let ⟨v, hv, _⟩ := d2 x hx; ⟨v, hv⟩) d3,
          key a' d' t'.ok (fun x hx => let ⟨v, hv, _⟩ := d2' x hx; ⟨v, hv⟩) d3', hp]
      rw [hm.inj t.get t'.get hset]

/-- In the sample `⟨1, 0⟩` was created with {1, 0} and lost 1; a new {0} shares its archetype, `⟨0, 0⟩` does not. -/
example : ∃ (s : Sys Nat) (W : Spec.World Nat) (l l1 l2 : Loc), Reachable smallTy s W ∧ (s.reg 0).location ⟨1, 0⟩ = .ok l ∧
    (s.reg 0).location ⟨4, 0⟩ = .ok l1 ∧ (s.reg 0).location ⟨0, 0⟩ = .ok l2 ∧ l.arch = l1.arch ∧ l.arch ≠ l2.arch := by
  let ops := sampleReg ++ [.on 0 (.create [(0, 1)]), .on 0 (.create [(0, 2)])]
  have hs : (exec smallTy ops).isSome = true := by decide +kernel
  exact ⟨_, _, _, _, _, exec_get ops hs, rfl, rfl, rfl, by decide +kernel, by decide +kernel⟩

/-! ## C26 -/

theorem reach_tight (hr : Reach ty (NoFailedCopy ty) s W) : ∀ i, AllTight (s.reg i).archs := by
  induction hr with
  | init => intro i j a h; simp [Sys.init, Reg.empty, Archs.empty] at h
  | @step s s' W op out h1 h2 h3 h4 ih =>
    have := step_spec h1.inv h2
    rw [h4] at this
    obtain ⟨_, hk, _⟩ := this
    intro i
    refine (hk ?_ i).tight (ih i)
    rintro rfl
    exact h3 _ h4

/-- **C26** (partial; missing: histories with a failed copy, where it is false): after any history without
a failed copy, destroying a registry destroys each component object of each type exactly as often as
such objects were constructed, never touches storage without an object, and no object was ever
constructed on top of another. -/
theorem C26_built_and_destroyed_once_partial (hr : Reach ty (NoFailedCopy ty) s W) (i : Nat) :
    ∃ ts, (s.reg i).destruct = some ts ∧ ts.length = (s.reg i).archs.arches.length ∧
      ∀ t ∈ ts, t.dup = 0 ∧ ∀ b, t.built b = t.freed b :=
  (hr.inv i).rep.destruct (reach_tight hr i)

/-- **C26** (no object is missing): destroying a registry never runs the destructor on storage without
an object, after any history whatsoever. -/
theorem C26_destruction_defined (hr : Reachable ty s W) (i : Nat) : (s.reg i).destruct ≠ none :=
  (hr.inv i).rep.destruct_defined

theorem Reach.mono {P Q : Sys V → SysOp V → Prop} (h : ∀ s op, P s op → Q s op) (hr : Reach ty P s W) : Reach ty Q s W := by
  induction hr with
  | init => exact .init
  | step _ h2 h3 h4 ih => exact .step ih h2 (h _ _ h3) h4

example : ∃ (s : Sys Nat) (W : Spec.World Nat), Reach bigTy (NoFailedCopy bigTy) s W ∧ (s.reg 0).size = 3 :=
  ⟨_, _, Reach.mono (fun _ _ h => h.2) (exec0_get twoChunks twoChunks_isSome), by decide +kernel⟩

/-- One entity with a copyable and a non-copyable component, and a failed clone. -/
def failedClone : List (SysOp Nat) := [.on 0 (.create [(0, 10), (3, 13)]), .on 0 (.clone ⟨0, 0⟩ none)]

theorem failedClone_isSome : (exec smallTy failedClone).isSome = true := by decide +kernel

/-- **C26 is violated**: after a failed clone, the copies made before the failure are never destroyed. -/
theorem C26_failed_copy_leaks_violated :
    ∃ (ty : Types) (s : Sys Nat) (W : Spec.World Nat), Reachable ty s W ∧
      ∃ ts, (s.reg 0).destruct = some ts ∧ ∃ t ∈ ts, ∃ b, t.freed b < t.built b := by
  refine ⟨smallTy, _, _, exec_get failedClone failedClone_isSome, ?_⟩
  have h : (((((exec smallTy failedClone).get failedClone_isSome).1.reg 0).destruct).any fun ts => ts.any fun t => t.freed (some 0) < t.built (some 0)) = true := by
    decide +kernel
  cases hd : (((exec smallTy failedClone).get failedClone_isSome).1.reg 0).destruct with
  | none => rw [hd] at h; cases h
  | some ts =>
    rw [hd] at h
    obtain ⟨t, h1, h2⟩ := List.any_eq_true.1 h
    exact ⟨ts, rfl, t, h1, some 0, by simpa using h2⟩

/-! ## C53 -/

/-- Two entities that fill the only chunk of their archetype; their component is not copyable. -/
def fullChunk : List (SysOp Nat) := [.on 0 (.create [(3, 0)]), .on 0 (.create [(3, 1)])]

theorem fullChunk_isSome : (exec bigTy fullChunk).isSome = true := by decide +kernel

/-- **C53 is violated**: in this state every entity can be destroyed; after a failed clone of one of them,
destroying the other is undefined behaviour. -/
theorem C53_failed_clone_breaks_destroy_violated :
    ∃ (ty : Types) (s s' : Sys Nat) (W W' : Spec.World Nat) (h h' : Handle), Reachable ty s W ∧ Reachable ty s' W' ∧
      s.Allowed (.on 0 (.clone h none)) ∧ s.step ty (.on 0 (.clone h none)) = some (s', .throw .invalidArgument) ∧
      (∃ r, (s.reg 0).destroy h' = .ok r ()) ∧ (s'.reg 0).has h' [] = .ok true ∧ s'.Allowed (.on 0 (.destroy h')) ∧
      (s'.reg 0).destroy h' = .ub := by
  have hst : ((((exec bigTy fullChunk).get fullChunk_isSome).1.step bigTy (.on 0 (.clone ⟨1, 0⟩ none))).map Prod.snd) = some (.throw .invalidArgument) := by
    decide +kernel
  have hnx : ((((exec bigTy fullChunk).get fullChunk_isSome).1.step bigTy (.on 0 (.clone ⟨1, 0⟩ none))).any fun x =>
      decide ((x.1.reg 0).has ⟨0, 0⟩ [] = .ok true) && decide (x.1.Allowed (.on 0 (.destroy ⟨0, 0⟩))) &&
      (match (x.1.reg 0).destroy ⟨0, 0⟩ with | .ub => true | _ => false)) = true := by decide +kernel
  cases hx : (((exec bigTy fullChunk).get fullChunk_isSome).1.step bigTy (.on 0 (.clone ⟨1, 0⟩ none))) with
  | none => rw [hx] at hst; cases hst
  | some x =>
    obtain ⟨s', out⟩ := x
    rw [hx] at hst hnx
    simp only [Option.map_some, Option.some.injEq] at hst
    subst hst
    simp only [Option.any_some, Bool.and_eq_true, decide_eq_true_eq] at hnx
    have hr := exec_get fullChunk fullChunk_isSome
    have hal : ((exec bigTy fullChunk).get fullChunk_isSome).1.Allowed (.on 0 (.clone ⟨1, 0⟩ none)) := by decide +kernel
    refine ⟨bigTy, _, s', _, _, ⟨1, 0⟩, ⟨0, 0⟩, hr, .step hr hal trivial hx, hal, hx, ?_, hnx.1.1, hnx.1.2, ?_⟩
    · obtain ⟨a, b, h⟩ := okOf_eq (x := (((exec bigTy fullChunk).get fullChunk_isSome).1.reg 0).destroy ⟨0, 0⟩) (by decide +kernel)
      exact ⟨a, h⟩
    · have := hnx.2
      split at this
      · assumption
      · cases this

/-- **C53 is violated** in a second way, by every failed clone: it takes a handle from the pool that nobody
receives, which is alive but has no storage. -/
theorem C53_failed_clone_leaks_id_violated (hr : Reachable ty s W) {i : Nat} {h : Handle} (ha : s.Allowed (.on i (.clone h none)))
    (he : (s.reg i).has h [] = .ok true) {r' : Reg V} {e : Exn} (hc : (s.reg i).clone h = .throw r' e) :
    ∃ h', (s.reg i).pool.create = some (r'.pool, h') ∧ r'.alive h' = true ∧ ∀ c, r'.get h' c = .throw .outOfRange := by
  obtain ⟨hp, hb⟩ := ha
  have R := (hr.inv i).rep
  rw [hp] at R
  obtain ⟨p, ph, hcr, R1, h3, hwp, h4, h5⟩ := R.create_pool hb
  obtain ⟨d, hw⟩ := R.entity_some he
  unfold Reg.clone at hc
  simp only [hcr, cloneInto_eq] at hc
  have key : ∀ q : Reg V, q.pool = p → Rep ty q 0 (W i) → ∃ h', (s.reg i).pool.create = some (q.pool, h') ∧ q.alive h' = true ∧ ∀ c, q.get h' c = .throw .outOfRange := by
    intro q hq Q
    have hal : q.alive ph = true := by unfold Reg.alive; rw [hq]; exact h3.alive
    exact ⟨ph, by rw [hq]; exact hcr, hal, fun c => by rw [Q.get_none hwp, hal]; rfl⟩
  rcases R1.copyInto R1 hw h3 hwp with ⟨q, q1, _⟩ | ⟨q, q1, _, q2, q3, _⟩
  · rw [hc] at q1; cases q1
  · rw [hc] at q1; cases q1; exact key r' q2 q3

/-- **C53** (partial; missing: later operations, where it is false): a failed clone is due to a component that
is not copyable; it changes no answer about any entity and not the number of entities. -/
theorem C53_failed_clone_same_answers_partial (hr : Reachable ty s W) {i : Nat} {h : Handle} (ha : s.Allowed (.on i (.clone h none)))
    (he : (s.reg i).has h [] = .ok true) {r' : Reg V} {e : Exn} (hc : (s.reg i).clone h = .throw r' e) :
    e = .invalidArgument ∧ (∃ c v, (s.reg i).get h c = .ok v ∧ (ty.info c).copyable = false) ∧
    (∀ h', SameEntity (s.reg i) r' h') ∧ r'.size = (s.reg i).size := by
  obtain ⟨hp, hb⟩ := ha
  have R := (hr.inv i).rep
  rw [hp] at R
  obtain ⟨p, ph, hcr, R1, h3, hwp, h4, h5⟩ := R.create_pool hb
  obtain ⟨d, hw⟩ := R.entity_some he
  unfold Reg.clone at hc
  simp only [hcr, cloneInto_eq] at hc
  rcases R1.copyInto R1 hw h3 hwp with ⟨q, q1, _⟩ | ⟨q, q1, qc, q2, q3, _⟩
  · rw [hc] at q1; cases q1
  · rw [hc] at q1
    cases q1
    refine ⟨rfl, ?_, fun h' => R.sameEntity q3 rfl, R.size_eq q3⟩
    apply Classical.byContradiction
    intro hn
    apply qc
    intro c v hv
    cases hcp : (ty.info c).copyable with
    | true => rfl
    | false => exact absurd ⟨c, v, R.get_some hw hv, hcp⟩ hn

example : ∃ (s : Sys Nat) (W : Spec.World Nat), Reachable bigTy s W ∧ s.Allowed (.on 0 (.clone ⟨1, 0⟩ none)) ∧
    (s.reg 0).has ⟨1, 0⟩ [] = .ok true ∧ ∃ r' e, (s.reg 0).clone ⟨1, 0⟩ = .throw r' e := by
  refine ⟨_, _, exec_get fullChunk fullChunk_isSome, by decide +kernel, by decide +kernel, ?_⟩
  have : (match (((exec bigTy fullChunk).get fullChunk_isSome).1.reg 0).clone ⟨1, 0⟩ with | .throw _ _ => true | _ => false) = true := by
    decide +kernel
  split at this
  · exact ⟨_, _, by assumption⟩
  · cases this

end CoEcs.Props
