import Verif.Proofs.BatchRun
import Verif.Props.Command
import Verif.Model.Schedule

/-!
# C93: commands recorded by the systems of one batch
-/

namespace CoEcs.Props
open CoEcs Spec

variable {V : Type} {ty : Types} {husk : V → V} {c c1 c2 : CSys V} {W : Spec.World V}

/-- **C93** (partial; missing: systems that change what another one uses, where it is false, see below; the
handles themselves).  Take any history after which the buffers are empty, and any systems of which none
changes an entity or component that another one uses, and that name only entities that exist or that they have
created.  Take two executions of these systems that differ in the threads that run them, in the order of the
buffers and in the order of the calls.  If the flush after the first returns, the flush after the second does
not end with an exception about a missing entity; it ends with another exception only if there is no room
for an entity or a component is not copyable, it is undefined only for the reasons of C28, and if it returns,
the contents of the registry are the same, entities created by a system corresponding to each other. -/
theorem C93_independent_partial (hr : CReach ty husk c W) (h0 : c.todo.flatten = []) {ps : List (List (SRec V))} {i : Nat}
    (hi : Independent ps) (ho : AllExist (W i) ps) {on1 on2 : Nat → Nat} {m1 m2 : Nat → List Handle}
    (r1 : BatchRun ty husk i on1 c ps (fun _ => []) c1 m1) (r2 : BatchRun ty husk i on2 c ps (fun _ => []) c2 m2)
    {c1' : CSys V} {o1 : Option Handle} (f1 : c1.step ty husk (.flush i) = some (c1', .ok o1)) :
    match c2.step ty husk (.flush i) with
    | none => none ∈ c2.bufs ∨ ∃ x ∈ flushStates ty husk c2.bufs (c2.sys.reg i).sync, HasTrailingEmpty x.1 ∨ HasTrailingEmpty x.2
    | some (_, .throw e) => e = .insufficientChunkSize ∨ e = .invalidArgument
    | some (c2', .ok _) => SameEffect (c1'.sys.reg i) m1 (c2'.sys.reg i) m2 := by
  obtain ⟨L1, E1⟩ := BatchRun.end r1 hr h0
  obtain ⟨L2, E2⟩ := BatchRun.end r2 hr h0
  have hone := corr_oneOne E1 E2
  have hlike := corr_like E1 E2 ho
  have hcont := corr_cont E1 E2
  have hi1 := E1.indep hi ho
  have hi2 := E2.indep hi ho
  obtain ⟨a1, b1, _⟩ := C28_flush_applies_partial E1.reach E1.allowed f1
  have e1 : c1.todo.flatten.map Prod.snd = L1.map Prod.snd := by rw [E1.todo, List.map_map]; rfl
  have e2 : c2.todo.flatten.map Prod.snd = L2.map Prod.snd := by rw [E2.todo, List.map_map]; rfl
  rw [e1] at a1 b1
  rw [← applyAll_eq] at a1
  split
  · rename_i hn
    by_cases hb : none ∈ c2.bufs
    · exact .inl hb
    · refine .inr (Classical.byContradiction fun hx => ?_)
      refine C28_flush_defined_partial E2.reach E2.allowed hb (fun x hm => ⟨fun h => hx ⟨x, hm, .inl h⟩, fun h => hx ⟨x, hm, .inr h⟩⟩) hn
  · rename_i c2' e f2
    obtain ⟨bs, r, hf, rfl⟩ := flush_throw f2
    have hsp := E2.reach.inv.flushSpec husk E2.allowed
    rw [hf] at hsp
    obtain ⟨g, a, _, h2, _, _, hfail, _⟩ := hsp
    rw [E2.todo] at h2
    obtain ⟨g', t', hL, hg, ht⟩ := List.map_eq_append_iff.1 (h2.trans (List.append_assoc ..))
    cases t' with
    | nil => cases ht
    | cons x t' =>
      simp only [List.map_cons, List.singleton_append, List.cons.injEq] at ht
      have hready := same_ready hone hi1 hi2 hlike hcont b1 hL
      have hag : applyAll (W i) g = applyAll (W i) g' := by
        rw [applyAll_eq, applyAll_eq, ← hg, List.map_map]; rfl
      rw [← ht.1, hag] at hfail
      rcases hfail with ⟨h, ht, hn, _⟩ | ⟨_, he, _⟩ | ⟨_, he, _⟩
      · exact absurd hn (hready h ht)
      · exact .inl he
      · exact .inr he
  · rename_i c2' o2 f2
    obtain ⟨a2, _⟩ := C28_flush_applies_partial E2.reach E2.allowed f2
    rw [e2, ← applyAll_eq] at a2
    have hsame := same_contents hone hi1 hi2 hlike hcont
    exact ⟨fun k => Denotes.count _ _ _ _ (E1.denotes k) (E2.denotes k),
      fun k n h h' h1 h2 => sameAs_of a1 a2 (hsame h h' (.inr ⟨k, n, h1, h2⟩)),
      fun h h1 h2 => sameAs_of a1 a2 (hsame h h (.inl ⟨rfl, h1, h2⟩))⟩

/-! ## Concrete executions -/

/-- Execute the calls of the systems in the given order. -/
def runBatch (ty : Types) (husk : V → V) (i : Nat) (on : Nat → Nat) : CSys V → List (List (SRec V)) → (Nat → List Handle) → List Nat →
    Option (CSys V × (Nat → List Handle))
  | c, ps, m, [] => if ps.all List.isEmpty then some (c, m) else none
  | c, ps, m, k :: ks =>
    match ps[k]? with
    | some (a :: rest) =>
      match a.resolve (m k) with
      | some rc =>
        if allowedB c (.record (on k) i rc) then
          match c.step ty husk (.record (on k) i rc) with
          | some (c1, .ok o) => runBatch ty husk i on c1 (ps.set k rest) (addMade m k o) ks
          | _ => none
        else none
      | none => none
    | _ => none

theorem runBatch_run {i : Nat} {on : Nat → Nat} : ∀ (ks : List Nat) (c : CSys V) (ps : List (List (SRec V))) (m : Nat → List Handle)
    (c' : CSys V) (m' : Nat → List Handle), runBatch ty husk i on c ps m ks = some (c', m') → BatchRun ty husk i on c ps m c' m' := by
  intro ks
  induction ks with
  | nil =>
    intro c ps m c' m' h
    simp only [runBatch] at h
    split at h
    · rename_i ha
      cases h
      refine .done fun p hp => ?_
      exact List.isEmpty_iff.1 (List.all_eq_true.1 ha p hp)
    · cases h
  | cons k ks ih =>
    intro c ps m c' m' h
    simp only [runBatch] at h
    split at h
    · rename_i a rest hk
      split at h
      · rename_i rc hrc
        split at h
        · rename_i hal
          split at h
          · rename_i c1 o hs
            exact .record k hk hrc (allowedB_allowed hal) hs (ih _ _ _ _ _ h)
          · cases h
        · cases h
      · cases h
    · cases h

theorem runBatch_get {i : Nat} {on : Nat → Nat} {ks : List Nat} {c : CSys V} {ps : List (List (SRec V))} 
    (h : (runBatch ty husk i on c ps (fun _ => []) ks).isSome = true) :
    BatchRun ty husk i on c ps (fun _ => []) ((runBatch ty husk i on c ps (fun _ => []) ks).get h).1
      ((runBatch ty husk i on c ps (fun _ => []) ks).get h).2 :=
  runBatch_run _ _ _ _ _ _ (Option.some_get h).symm

/-- Two threads with their buffers; two entities. -/
def batchOps : List (COp Nat) := [.start, .start, .direct (.on 0 (.create [(0, 1)])), .direct (.on 0 (.create [(0, 2), (1, 3)]))]

theorem batchOps_isSome : (cexec smallTy id batchOps).isSome = true := by decide +kernel

def batchState : CSys Nat := ((cexec smallTy id batchOps).get batchOps_isSome).1

/-- The other assignment of two systems to two threads. -/
def swap (k : Nat) : Nat := 1 - k

/-- Two systems that set the same component of the same entity. -/
def sameSet : List (List (SRec Nat)) := [[.set (.old ⟨0, 0⟩) 0 5], [.set (.old ⟨0, 0⟩) 0 6]]

/-- Two systems that destroy different entities. -/
def twoDestroy : List (List (SRec Nat)) := [[.destroy (.old ⟨0, 0⟩)], [.destroy (.old ⟨1, 0⟩)]]

/-- Two systems that create, set, clone and remove. -/
def twoMixed : List (List (SRec Nat)) :=
  [[.create [(1, 7)], .set (.mine 0) 0 8, .set (.old ⟨1, 0⟩) 0 9], [.clone (.old ⟨0, 0⟩), .remove (.old ⟨1, 0⟩) 1, .set (.mine 0) 1 4]]

/-- What a flush after the batch gives. -/
def batchResult (on : Nat → Nat) (ps : List (List (SRec Nat))) (ks : List Nat) : Option ((CSys Nat × Out) × (Nat → List Handle)) :=
  (runBatch smallTy id 0 on batchState ps (fun _ => []) ks).bind fun x => (x.1.step smallTy id (.flush 0)).map fun y => (y, x.2)

theorem batchResult_get {on : Nat → Nat} {ps : List (List (SRec Nat))} {ks : List Nat} (h : (batchResult on ps ks).isSome = true) :
    ∃ c1, BatchRun smallTy id 0 on batchState ps (fun _ => []) c1 ((batchResult on ps ks).get h).2 ∧
      c1.step smallTy id (.flush 0) = some ((batchResult on ps ks).get h).1 := by
  have hg := (Option.some_get h).symm
  generalize (batchResult on ps ks).get h = z at hg
  unfold batchResult at hg
  rw [Option.bind_eq_some_iff] at hg
  obtain ⟨x, h1, h2⟩ := hg
  rw [Option.map_eq_some_iff] at h2
  obtain ⟨y, h3, rfl⟩ := h2
  exact ⟨x.1, runBatch_run _ _ _ _ _ _ h1, h3⟩

theorem batchState_reach : CReach smallTy id batchState ((cexec smallTy id batchOps).get batchOps_isSome).2 := cexec_get batchOps batchOps_isSome

theorem batchState_empty : batchState.todo.flatten = [] := by
  have : batchState.todo.flatten.length = 0 := by decide +kernel
  exact List.eq_nil_of_length_eq_zero this

/-- Two executions of the same systems from the same state, and the flushes after them. -/
structure TwoRuns (ps : List (List (SRec Nat))) (m1 m2 : Nat → List Handle) (c1 c2 : CSys Nat) (o1 o2 : Out) : Prop where
  runs : ∃ (c : CSys Nat) (W : Spec.World Nat) (on1 on2 : Nat → Nat) (d1 d2 : CSys Nat), CReach smallTy id c W ∧ c.todo.flatten = [] ∧
    AllExist (W 0) ps ∧ BatchRun smallTy id 0 on1 c ps (fun _ => []) d1 m1 ∧ BatchRun smallTy id 0 on2 c ps (fun _ => []) d2 m2 ∧
    d1.step smallTy id (.flush 0) = some (c1, o1) ∧ d2.step smallTy id (.flush 0) = some (c2, o2)

/-- The entities of `batchState`. -/
theorem batchState_exist {ps : List (List (SRec Nat))} (h : (ps.all fun p => p.all fun a => match a.name with
      | some (.old h) => decide (h = ⟨0, 0⟩) || decide (h = ⟨1, 0⟩)
      | _ => true) = true) : AllExist (((cexec smallTy id batchOps).get batchOps_isSome).2 0) ps := by
  have h0 : (((cexec smallTy id batchOps).get batchOps_isSome).2 0 ⟨0, 0⟩).isSome = true := by decide +kernel
  have h1 : (((cexec smallTy id batchOps).get batchOps_isSome).2 0 ⟨1, 0⟩).isSome = true := by decide +kernel
  intro p hp a ha x hx
  have := List.all_eq_true.1 (List.all_eq_true.1 h p hp) a ha
  rw [hx] at this
  simp only [Bool.or_eq_true, decide_eq_true_eq] at this
  rcases this with rfl | rfl
  · intro hn; rw [hn] at h0; cases h0
  · intro hn; rw [hn] at h1; cases h1

theorem twoRuns_of {on1 on2 : Nat → Nat} {ps : List (List (SRec Nat))} {ks1 ks2 : List Nat} (ho : AllExist (((cexec smallTy id batchOps).get batchOps_isSome).2 0) ps)
    (h1 : (batchResult on1 ps ks1).isSome = true) (h2 : (batchResult on2 ps ks2).isSome = true) :
    TwoRuns ps ((batchResult on1 ps ks1).get h1).2 ((batchResult on2 ps ks2).get h2).2 ((batchResult on1 ps ks1).get h1).1.1
      ((batchResult on2 ps ks2).get h2).1.1 ((batchResult on1 ps ks1).get h1).1.2 ((batchResult on2 ps ks2).get h2).1.2 := by
  obtain ⟨d1, r1, f1⟩ := batchResult_get h1
  obtain ⟨d2, r2, f2⟩ := batchResult_get h2
  exact ⟨_, _, on1, on2, d1, d2, batchState_reach, batchState_empty, ho, r1, r2, f1, f2⟩

theorem sameSet_threads : (batchResult id sameSet [0, 1]).isSome = true ∧ (batchResult swap sameSet [0, 1]).isSome = true := by decide +kernel
theorem sameSet_order : (batchResult (fun _ => 0) sameSet [0, 1]).isSome = true ∧ (batchResult (fun _ => 0) sameSet [1, 0]).isSome = true := by
  decide +kernel

/-- Systems whose only argument is a `command_writer` are always put into one batch: their commands are not
part of the access pattern. -/
theorem C93_one_batch (ss main : List SysDesc) (hne : ss ≠ []) (hs : ∀ s ∈ ss, sysPattern [.commandWriter] = .ok s.pattern) :
    Stage.createExecutor 1 ⟨ss, main⟩ = .ok (⟨[], main⟩, ⟨[ss], main⟩) := by
  have hp : sysPattern [.commandWriter] = .ok Access.empty := rfl
  have pass : ∀ l : List SysDesc, (∀ s ∈ l, s.pattern = Access.empty) → Stage.pass Access.empty l = .ok (l, []) := by
    intro l
    induction l with
    | nil => intro _; rfl
    | cons s l ih =>
      intro h
      have ha : Access.empty.allows Access.empty = .ok true := rfl
      have hm : Access.empty.merge Access.empty = .ok Access.empty := rfl
      rw [Stage.pass, h s List.mem_cons_self, ha]
      simp only [hm]
      rw [ih fun s hs => h s (List.mem_cons_of_mem _ hs)]
      rfl
  have he : ∀ s ∈ ss, s.pattern = Access.empty := by
    intro s h
    have := hs s h
    rw [hp] at this
    exact (Obs.ok.inj this).symm
  unfold Stage.createExecutor
  cases ss with
  | nil => exact absurd rfl hne
  | cons s ss =>
    simp only [Stage.batches]
    rw [pass _ he]
    rfl

/-- **C93 is violated**: two systems of one batch set the same component of the same entity.  Which value
remains depends on which thread ran which system, even if the calls come in the same order. -/
theorem C93_threads_violated :
    ∃ ps m1 m2 c1 c2, ps = [[.set (.old ⟨0, 0⟩) 0 5], [.set (.old ⟨0, 0⟩) 0 6]] ∧ TwoRuns ps m1 m2 c1 c2 (.ok none) (.ok none) ∧
      (c1.sys.reg 0).get ⟨0, 0⟩ 0 = .ok 6 ∧ (c2.sys.reg 0).get ⟨0, 0⟩ 0 = .ok 5 := by
  have e1 : ((batchResult id sameSet [0, 1]).get sameSet_threads.1).1.2 = .ok none := by decide +kernel
  have e2 : ((batchResult swap sameSet [0, 1]).get sameSet_threads.2).1.2 = .ok none := by decide +kernel
  have := twoRuns_of (ps := sameSet) (batchState_exist (by decide)) sameSet_threads.1 sameSet_threads.2
  rw [e1, e2] at this
  exact ⟨sameSet, _, _, _, _, rfl, this, by decide +kernel, by decide +kernel⟩

/-- The same when one thread ran both, one after the other. -/
theorem C93_order_violated :
    ∃ ps m1 m2 c1 c2, ps = [[.set (.old ⟨0, 0⟩) 0 5], [.set (.old ⟨0, 0⟩) 0 6]] ∧ TwoRuns ps m1 m2 c1 c2 (.ok none) (.ok none) ∧
      (c1.sys.reg 0).get ⟨0, 0⟩ 0 = .ok 6 ∧ (c2.sys.reg 0).get ⟨0, 0⟩ 0 = .ok 5 := by
  have e1 : ((batchResult (fun _ => 0) sameSet [0, 1]).get sameSet_order.1).1.2 = .ok none := by decide +kernel
  have e2 : ((batchResult (fun _ => 0) sameSet [1, 0]).get sameSet_order.2).1.2 = .ok none := by decide +kernel
  have := twoRuns_of (ps := sameSet) (batchState_exist (by decide)) sameSet_order.1 sameSet_order.2
  rw [e1, e2] at this
  exact ⟨sameSet, _, _, _, _, rfl, this, by decide +kernel, by decide +kernel⟩

theorem twoDestroy_runs : (batchResult id twoDestroy [0, 1]).isSome = true ∧ (batchResult swap twoDestroy [0, 1]).isSome = true := by
  decide +kernel

/-- **C93, handles**: two systems destroy different entities.  The contents are the same afterwards, but the
handle of the next entity depends on which thread ran which system. -/
theorem C93_next_handle_violated :
    ∃ ps m1 m2 c1 c2, Independent ps ∧ TwoRuns ps m1 m2 c1 c2 (.ok none) (.ok none) ∧
      (c1.step smallTy id (.direct (.on 0 (.create [(0, 1)])))).map Prod.snd = some (.ok (some ⟨1, 1⟩)) ∧
      (c2.step smallTy id (.direct (.on 0 (.create [(0, 1)])))).map Prod.snd = some (.ok (some ⟨0, 1⟩)) := by
  have e1 : ((batchResult id twoDestroy [0, 1]).get twoDestroy_runs.1).1.2 = .ok none := by decide +kernel
  have e2 : ((batchResult swap twoDestroy [0, 1]).get twoDestroy_runs.2).1.2 = .ok none := by decide +kernel
  have := twoRuns_of (ps := twoDestroy) (batchState_exist (by decide)) twoDestroy_runs.1 twoDestroy_runs.2
  rw [e1, e2] at this
  refine ⟨twoDestroy, _, _, _, _, ?_, this, by decide +kernel, by decide +kernel⟩
  intro k k' p p' hk hp hp' a ha b hb h x hc hu
  have h1 := changes_name hc
  have h2 := uses_name hu
  match k, k', hk, hp, hp' with
  | 0, 1, _, hp, hp' =>
    cases hp; cases hp'
    simp only [List.mem_singleton] at ha hb
    subst ha; subst hb
    cases h1; cases h2
  | 1, 0, _, hp, hp' =>
    cases hp; cases hp'
    simp only [List.mem_singleton] at ha hb
    subst ha; subst hb
    cases h1; cases h2
  | 0, 0, hk, _, _ => exact hk rfl
  | 1, 1, hk, _, _ => exact hk rfl
  | k + 2, _, _, hp, _ => simp [twoDestroy] at hp
  | _, k' + 2, _, _, hp' => simp [twoDestroy] at hp'

theorem twoMixed_indep : Independent twoMixed := by
  intro k k' p p' hk hp hp' a ha b hb h x hc hu
  match k, k', hk, hp, hp' with
  | 0, 1, _, hp, hp' =>
    cases hp; cases hp'
    simp only [List.mem_cons, List.not_mem_nil, or_false] at ha hb
    rcases ha with rfl | rfl | rfl <;> rcases hb with rfl | rfl | rfl <;> simp only [SRec.Changes, SRec.Uses] at hc hu <;> grind
  | 1, 0, _, hp, hp' =>
    cases hp; cases hp'
    simp only [List.mem_cons, List.not_mem_nil, or_false] at ha hb
    rcases ha with rfl | rfl | rfl <;> rcases hb with rfl | rfl | rfl <;> simp only [SRec.Changes, SRec.Uses] at hc hu <;> grind
  | 0, 0, hk, _, _ => exact hk rfl
  | 1, 1, hk, _, _ => exact hk rfl
  | k + 2, _, _, hp, _ => simp [twoMixed] at hp
  | _, k' + 2, _, _, hp' => simp [twoMixed] at hp'

theorem twoMixed_runs : (batchResult id twoMixed [0, 0, 0, 1, 1, 1]).isSome = true ∧
    (batchResult (fun _ => 0) twoMixed [1, 0, 1, 0, 1, 0]).isSome = true := by decide +kernel

/-- The hypotheses of `C93_independent_partial` are satisfiable and its conclusion says something: two systems that
create, clone, set and remove, run by two threads and by one. -/
example : ∃ c W m1 m2 c1 c2 c1' c2', CReach smallTy id c W ∧ c.todo.flatten = [] ∧ Independent twoMixed ∧ AllExist (W 0) twoMixed ∧
    BatchRun smallTy id 0 id c twoMixed (fun _ => []) c1 m1 ∧ BatchRun smallTy id 0 (fun _ => 0) c twoMixed (fun _ => []) c2 m2 ∧
    c1.step smallTy id (.flush 0) = some (c1', .ok none) ∧ c2.step smallTy id (.flush 0) = some (c2', .ok none) ∧
    (c1'.sys.reg 0).get ⟨2, 0⟩ 0 = .ok 8 ∧ (c1'.sys.reg 0).get ⟨3, 0⟩ 1 = .ok 4 ∧ (c1'.sys.reg 0).get ⟨1, 0⟩ 0 = .ok 9 ∧
    (c2'.sys.reg 0).get ⟨3, 0⟩ 0 = .ok 8 ∧ (c2'.sys.reg 0).get ⟨2, 0⟩ 1 = .ok 4 ∧ (c2'.sys.reg 0).get ⟨1, 0⟩ 0 = .ok 9 ∧
    (c2'.sys.reg 0).has ⟨1, 0⟩ [1] = .ok false := by
  obtain ⟨d1, r1, f1⟩ := batchResult_get twoMixed_runs.1
  obtain ⟨d2, r2, f2⟩ := batchResult_get twoMixed_runs.2
  have e1 : ((batchResult id twoMixed [0, 0, 0, 1, 1, 1]).get twoMixed_runs.1).1.2 = .ok none := by decide +kernel
  have e2 : ((batchResult (fun _ => 0) twoMixed [1, 0, 1, 0, 1, 0]).get twoMixed_runs.2).1.2 = .ok none := by decide +kernel
  refine ⟨_, _, _, _, d1, d2, _, _, batchState_reach, batchState_empty, twoMixed_indep, batchState_exist (by decide), r1, r2,
    by rw [f1, ← e1], by rw [f2, ← e2], ?_⟩
  decide +kernel

/-- **C93, handles**: the handles of the entities that systems create depend on the order of the calls. -/
theorem C93_new_handles_violated :
    ∃ ps m1 m2 c1 c2, Independent ps ∧ TwoRuns ps m1 m2 c1 c2 (.ok none) (.ok none) ∧
      m1 0 = [⟨2, 0⟩] ∧ m1 1 = [⟨3, 0⟩] ∧ m2 0 = [⟨3, 0⟩] ∧ m2 1 = [⟨2, 0⟩] := by
  have e1 : ((batchResult id twoMixed [0, 0, 0, 1, 1, 1]).get twoMixed_runs.1).1.2 = .ok none := by decide +kernel
  have e2 : ((batchResult (fun _ => 0) twoMixed [1, 0, 1, 0, 1, 0]).get twoMixed_runs.2).1.2 = .ok none := by decide +kernel
  have := twoRuns_of (ps := twoMixed) (batchState_exist (by decide)) twoMixed_runs.1 twoMixed_runs.2
  rw [e1, e2] at this
  exact ⟨twoMixed, _, _, _, _, twoMixed_indep, this, by decide +kernel, by decide +kernel, by decide +kernel, by decide +kernel⟩

end CoEcs.Props
