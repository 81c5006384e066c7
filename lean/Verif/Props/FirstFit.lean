import Verif.Proofs.FirstFit
import Verif.Props.Schedule

/-!
# C35, C56: which conflicting systems get out of order, and which run together
-/

namespace CoEcs.Props
open Spec

/-- **C35**: the batches of a stage.  The systems are taken in the order they were added; each joins the first batch in which
it conflicts with no system (and which no system with access to the whole registry is in), or starts a new batch. -/
theorem C35_first_fit (st st' : Stage) (e : StageExec) (fuel : Nat) (hp : PatternsOk st.systems) (hn : NoRegRead st.systems)
    (h : st.createExecutor fuel = .ok (st', e)) :
    FirstFit (fun b s => ∃ k ∈ b, k.pattern.footprint.Conflict s.pattern.footprint ∨ k.pattern.reg = .write) st.systems e.batches :=
  batches_firstFit fuel _ hp hn _ (stage_batches h hp).1

/-- Nothing of `y` happens before the end of `x` in the trace. -/
private theorem runs_before {main : List SysDesc} {pre post : List (List SysDesc)} {x y : SysDesc} {tr : List SchedEvent}
    (hne : ∀ b ∈ pre ++ post, b ≠ []) (hnd : ((pre ++ post).flatten.map SysDesc.id).Nodup) (hx : x ∈ pre.flatten) (hy : y ∈ post.flatten)
    (htr : SchedTrace ((pre ++ post).flatMap (execBatch main)) tr) : RunsBefore tr x.id y.id := by
  rw [List.flatMap_append] at htr
  have hcl : Closed (pre.flatMap (execBatch main)) :=
    closed_flatMap _ _ fun b hb => closed_batch _ (hne b (List.mem_append_left _ hb))
  obtain ⟨t1, t2, rfl, k1, k2⟩ := hcl _ _ htr
  obtain ⟨a1, _, _⟩ := batches_trace_counts main pre k1 y.id
  obtain ⟨b1, b2, _⟩ := batches_trace_counts main post k2 x.id
  rw [List.flatten_append, List.map_append, List.nodup_append] at hnd
  have hyn : (pre.flatten.map SysDesc.id).count y.id = 0 := by
    rw [List.count_eq_zero]
    intro hm
    exact hnd.2.2 _ hm _ (List.mem_map_of_mem hy) rfl
  have hxn : (post.flatten.map SysDesc.id).count x.id = 0 := by
    rw [List.count_eq_zero]
    intro hm
    exact hnd.2.2 _ (List.mem_map_of_mem hx) _ hm rfl
  refine runsBefore_of_split ?_ ?_ ?_
  · rw [hyn] at a1; exact List.count_eq_zero.1 a1
  · rw [hxn] at b1; exact List.count_eq_zero.1 b1
  · rw [hxn] at b2; exact List.count_eq_zero.1 b2

private theorem split_at {bs : List (List SysDesc)} {i j : Nat} {b b' : List SysDesc} {x y : SysDesc} (hi : bs[i]? = some b) (hj : bs[j]? = some b')
    (hij : i < j) (hx : x ∈ b) (hy : y ∈ b') : ∃ pre post, bs = pre ++ post ∧ x ∈ pre.flatten ∧ y ∈ post.flatten := by
  refine ⟨bs.take j, bs.drop j, (List.take_append_drop j bs).symm, ?_, ?_⟩
  · refine List.mem_flatten.2 ⟨b, ?_, hx⟩
    exact List.mem_of_getElem? (i := i) (by rw [List.getElem?_take_of_lt hij]; exact hi)
  · refine List.mem_flatten.2 ⟨b', ?_, hy⟩
    exact List.mem_of_getElem? (i := 0) (by rw [List.getElem?_drop]; exact hj)

/-- **C35, exactly.**  Two conflicting systems are in different batches.  If the batch of `x` comes first, `x` has returned
before `y` starts in every execution; otherwise `y` has returned before `x` starts in every execution.  So the order is always
the same, and it is the order in which they were added exactly if the first fit puts the earlier one into the earlier batch. -/
theorem C35_order (st st' : Stage) (e : StageExec) (fuel : Nat) (hp : PatternsOk st.systems) (hn : NoRegRead st.systems)
    (hd : (st.systems.map SysDesc.id).Nodup) (h : st.createExecutor fuel = .ok (st', e)) (x y : SysDesc) (hx : x ∈ st.systems)
    (hy : y ∈ st.systems) (hne : x ≠ y) (hc : x.pattern.footprint.Conflict y.pattern.footprint) :
    ∃ (i j : Nat) (b b' : List SysDesc), e.batches[i]? = some b ∧ x ∈ b ∧ e.batches[j]? = some b' ∧ y ∈ b' ∧ i ≠ j ∧
      (i < j → ∀ tr, SchedTrace e.code tr → RunsBefore tr x.id y.id) ∧
      (j < i → ∀ tr, SchedTrace e.code tr → RunsBefore tr y.id x.id) := by
  obtain ⟨h1, _, _, h3, h4⟩ := stage_batches h hp
  have hbc := batches_conflict _ _ (Nat.le_refl _) hp hn _ _ h1
  have hnd : (e.batches.flatten.map SysDesc.id).Nodup := ((h4.map SysDesc.id).nodup_iff).2 hd
  obtain ⟨b, hb, hxb⟩ := List.mem_flatten.1 (h4.symm.subset hx)
  obtain ⟨b', hb', hyb⟩ := List.mem_flatten.1 (h4.symm.subset hy)
  obtain ⟨i, hi⟩ := List.mem_iff_getElem?.1 hb
  obtain ⟨j, hj⟩ := List.mem_iff_getElem?.1 hb'
  refine ⟨i, j, b, b', hi, hxb, hj, hyb, ?_, ?_, ?_⟩
  · rintro rfl
    rw [hi] at hj
    cases hj
    have hpw := hbc b hb
    obtain ⟨k, hk⟩ := List.mem_iff_getElem?.1 hxb
    obtain ⟨l, hl⟩ := List.mem_iff_getElem?.1 hyb
    obtain ⟨hk', ek⟩ := List.getElem?_eq_some_iff.1 hk
    obtain ⟨hl', el⟩ := List.getElem?_eq_some_iff.1 hl
    rw [List.pairwise_iff_getElem] at hpw
    rcases Nat.lt_trichotomy k l with hlt | rfl | hlt
    · have := hpw k l hk' hl' hlt
      rw [ek, el] at this
      exact this hc
    · rw [ek] at el
      exact hne el
    · have := hpw l k hl' hk' hlt
      rw [ek, el] at this
      exact this hc.symm
  · intro hij tr htr
    obtain ⟨pre, post, hs, g1, g2⟩ := split_at hi hj hij hxb hyb
    unfold StageExec.code at htr
    rw [hs] at htr h3 hnd
    exact runs_before h3 hnd g1 g2 htr
  · intro hij tr htr
    obtain ⟨pre, post, hs, g1, g2⟩ := split_at hj hi hij hyb hxb
    unfold StageExec.code at htr
    rw [hs] at htr h3 hnd
    exact runs_before h3 hnd g1 g2 htr

/-- **C35 is violated** by every stage in which the first fit puts the later of two conflicting systems into the earlier batch:
no execution of it runs them in the order they were added, and there are executions. -/
theorem C35_overtaken_violated (st st' : Stage) (e : StageExec) (fuel : Nat) (hp : PatternsOk st.systems)
    (hd : (st.systems.map SysDesc.id).Nodup) (h : st.createExecutor fuel = .ok (st', e)) (x y : SysDesc) (i j : Nat)
    (b b' : List SysDesc) (hi : e.batches[i]? = some b) (hj : e.batches[j]? = some b') (hx : x ∈ b) (hy : y ∈ b') (hij : j < i) :
    (∃ tr, SchedTrace e.code tr) ∧ ∀ tr, SchedTrace e.code tr → ¬ RunsBefore tr x.id y.id := by
  refine ⟨trace_exists _, fun tr htr hb => ?_⟩
  obtain ⟨_, _, _, h3, h4⟩ := stage_batches h hp
  have hnd : (e.batches.flatten.map SysDesc.id).Nodup := ((h4.map SysDesc.id).nodup_iff).2 hd
  have hxy : RunsBefore tr y.id x.id := by
    obtain ⟨pre, post, hs, g1, g2⟩ := split_at hj hi hij hy hx
    unfold StageExec.code at htr
    rw [hs] at htr h3 hnd
    exact runs_before h3 hnd g1 g2 htr
  have hcnt : ∀ z ∈ e.batches.flatten, SchedEvent.start z.id ∈ tr := by
    intro z hz
    have := (batches_trace_counts e.main e.batches htr z.id).1
    apply List.count_pos_iff.1
    rw [this]
    exact List.count_pos_iff.2 (List.mem_map_of_mem hz)
  have hs1 := hcnt x (List.mem_flatten.2 ⟨b, List.mem_of_getElem? hi, hx⟩)
  have hs2 := hcnt y (List.mem_flatten.2 ⟨b', List.mem_of_getElem? hj, hy⟩)
  have hne : x.id ≠ y.id := by
    obtain ⟨pre, post, hs, g1, g2⟩ := split_at hj hi hij hy hx
    rw [hs, List.flatten_append, List.map_append, List.nodup_append] at hnd
    exact fun he => hnd.2.2 _ (List.mem_map_of_mem g1) _ (List.mem_map_of_mem g2) he.symm
  obtain ⟨p, q, rfl⟩ := List.append_of_mem hs2
  have hq := (hb p q rfl).1
  have hp' : SchedEvent.start x.id ∈ p := by
    rcases List.mem_append.1 hs1 with h | h
    · exact h
    · rcases List.mem_cons.1 h with h | h
      · simp at h; exact absurd h hne
      · exact absurd h hq
  obtain ⟨p1, p2, rfl⟩ := List.append_of_mem hp'
  exact (hxy p1 (p2 ++ .start y.id :: q) (by simp)).1 (by simp)

/-- The stage of `C35_violated` is one: the third system is in the first batch, the second in the second. -/
example : (match badStage.createExecutor 3 with
    | .ok (_, e) => some (e.batches.map (·.map SysDesc.id))
    | _ => none) = some [[1, 3], [2]] := by decide

/-! ## C56 -/

/-- **C56 is violated** by every stage with a main-thread system that conflicts with a parallel one: any parallel and any
main-thread system of a stage are running at the same time in some execution, whatever they access. -/
theorem C56_any_pair_violated (st st' : Stage) (e : StageExec) (fuel : Nat) (hp : PatternsOk st.systems)
    (h : st.createExecutor fuel = .ok (st', e)) (x m : SysDesc) (hx : x ∈ st.systems) (hm : m ∈ st.main) :
    ∃ (tr : List SchedEvent) (s : SchedState) (c : List Instr), SchedSteps ⟨e.code, []⟩ tr s ∧ (x, true) ∈ s.tasks ∧
      s.code = .endMain m :: c := by
  obtain ⟨_, h2, _, _, h4⟩ := stage_batches h hp
  obtain ⟨tr, c, ts, h5, h6⟩ := run_together (e := e) (h4.symm.subset hx) (h2 ▸ hm) []
  rw [List.append_nil] at h5
  exact ⟨tr, _, c, h5, h6, rfl⟩

/-- **C56 (partial).**  Missing: stages with a main-thread system that conflicts with a parallel one, for which the property is
false (`C56_any_pair_violated`).  In all others, whenever a main-thread system runs, no parallel system that conflicts with
it is running, and of the parallel systems no two conflict. -/
theorem C56_no_conflict_partial (st st' : Stage) (e : StageExec) (fuel : Nat) (hp : PatternsOk st.systems)
    (hn : NoRegRead st.systems) (hc : ∀ x ∈ st.systems, ∀ m ∈ st.main, ¬ x.pattern.footprint.Conflict m.pattern.footprint)
    (h : st.createExecutor fuel = .ok (st', e)) (tr : List SchedEvent) (s : SchedState) (hs : SchedSteps ⟨e.code, []⟩ tr s) :
    (∀ m c, s.code = .endMain m :: c → ∀ k ∈ s.tasks, ¬ k.1.pattern.footprint.Conflict m.pattern.footprint) ∧
    (s.tasks.map (·.1)).Pairwise fun x y => ¬ x.pattern.footprint.Conflict y.pattern.footprint := by
  obtain ⟨h1, h2, _, h3, h4⟩ := stage_batches h hp
  have hb := batches_conflict _ _ (Nat.le_refl _) hp hn _ _ h1
  have hseg : SegOk [] e.code := by
    have := segOk_batches e.main e.batches [] (fun b hb' => ⟨h3 b hb', hb b hb'⟩) List.Pairwise.nil
    simpa [StageExec.code] using this
  refine ⟨?_, (segOk_steps hs hseg).pairwise⟩
  obtain ⟨k1, k2⟩ := steps_within (P := (· ∈ st.systems)) (M := (· ∈ st.main)) hs (fun i hi => by
    simp only [StageExec.code, List.mem_flatMap, execBatch, List.mem_append, List.mem_map] at hi
    obtain ⟨b, hb', (⟨x, hx, rfl⟩ | ⟨m, hm, rfl⟩) | hi⟩ := hi
    · refine ⟨fun y hy => ?_, fun m hm => by rcases hm with hm | hm <;> cases hm⟩
      cases hy
      exact h4.subset (List.mem_flatten.2 ⟨b, hb', hx⟩)
    · refine ⟨fun y hy => (by cases hy), fun m' hm' => ?_⟩
      rcases hm' with hm' | hm' <;> cases hm'
      exact h2 ▸ hm
    · split at hi
      · cases hi
      · rw [List.mem_singleton] at hi
        subst hi
        exact ⟨fun y hy => (by cases hy), fun m hm => by rcases hm with hm | hm <;> cases hm⟩) (fun k hk => by cases hk)
  intro m c hcode k hk
  exact hc _ (k2 k hk) _ ((k1 (.endMain m) (by rw [hcode]; simp)).2 m (.inr rfl))

/-- A parallel system that writes component 0 and one for the main thread that reads component 5. -/
example : ∀ x ∈ [wr 1 0], ∀ m ∈ [rd 2 5], ¬ x.pattern.footprint.Conflict m.pattern.footprint := by
  intro x hx m hm
  rw [List.mem_singleton] at hx hm
  subst hx hm
  rintro ⟨c, h⟩
  simp [Access.footprint, wr, rd] at h
  omega

end CoEcs.Props
