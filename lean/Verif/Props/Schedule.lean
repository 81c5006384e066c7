import Verif.Proofs.Schedule

/-!
# C33 - C37, C39, C56: batches, stages and schedules
-/

namespace CoEcs.Props
open Spec

/-! ## Sample systems -/

/-- A system made from parameters. -/
def ofArgs (id : Nat) (args : List SysArg) : Option SysDesc :=
  match sysPattern args with
  | .ok p => some ⟨id, p⟩
  | _ => none

/-- Systems obtainable from function parameters. -/
def FromArgs (s : SysDesc) : Prop := ∃ args : List SysArg, (∀ a ∈ args, a.Valid) ∧ sysPattern args = .ok s.pattern

theorem fromArgs_ok {s : SysDesc} (h : FromArgs s) : s.pattern.Ok ∧ s.pattern.reg ≠ .read := by
  obtain ⟨args, hv, hp⟩ := h
  obtain ⟨p, h1, h2, h3, _⟩ := sysPattern_ok args hv
  rw [hp] at h1
  cases h1
  exact ⟨h2, h3⟩

/-- Single-component patterns, for examples. -/
def wr (id c : Nat) : SysDesc := ⟨id, ⟨.none, ⟨[(c, .write)], (List.replicate c 0) ++ [0], 1, c + 1⟩⟩⟩
def rd (id c : Nat) : SysDesc := ⟨id, ⟨.none, ⟨[(c, .read)], (List.replicate c 0) ++ [0], 1, c + 1⟩⟩⟩
/-- reads component 0, writes component 1 -/
def rdwr (id : Nat) : SysDesc := ⟨id, ⟨.none, ⟨[(0, .read), (1, .write)], [0, 1], 2, 2⟩⟩⟩

theorem one_ok (c : Nat) (a : AccessType) (hc : c + 1 < 2 ^ 32) :
    (⟨.none, ⟨[(c, a)], (List.replicate c 0) ++ [0], 1, c + 1⟩⟩ : Access).Ok := by
  refine ⟨⟨by simp, rfl, (by decide : 1 < 2 ^ 32), ?_⟩, ?_⟩
  · intro i e he
    cases i with
    | zero => simp at he; subst he; simp
    | succ i => simp at he
  · intro e he
    simp at he; subst he; exact hc

private theorem rdwr_ok (id : Nat) : (rdwr id).pattern.Ok := by
  refine ⟨⟨rfl, rfl, (by decide : 2 < 2 ^ 32), ?_⟩, ?_⟩
  · intro i e he
    match i with
    | 0 => simp [rdwr] at he; subst he; rfl
    | 1 => simp [rdwr] at he; subst he; rfl
    | n + 2 => simp [rdwr] at he
  · intro e he
    simp [rdwr] at he
    rcases he with rfl | rfl <;> decide

/-! ## C33 -/

/-- **C33.**  Creating the executor of a stage with any systems terminates without undefined behaviour; the
batches together contain every system exactly as often as it was added; and in every execution of the
stage every parallel system starts and returns exactly as often as it was added. -/
theorem C33_each_system_once (st : Stage) (h : PatternsOk st.systems) :
    ∃ fuel e st', st.createExecutor fuel = .ok (st', e) ∧ e.batches.flatten.Perm st.systems ∧
      ∀ tr, SchedTrace e.code tr → ∀ id,
        tr.count (.start id) = (st.systems.map SysDesc.id).count id ∧
        tr.count (.finish id) = (st.systems.map SysDesc.id).count id := by
  obtain ⟨bs, h1, h2, h3⟩ := batches_ok _ st.systems (Nat.le_refl _) h st.systems.length (Nat.le_refl _)
  refine ⟨st.systems.length, ⟨bs, st.main⟩, { st with systems := [] }, ?_, h2, ?_⟩
  · simp only [Stage.createExecutor, h1, Run.bind]
  · intro tr htr id
    obtain ⟨h4, h5, _, _⟩ := batches_trace_counts st.main bs htr id
    have := (h2.map SysDesc.id).count_eq id
    exact ⟨h4.trans this, h5.trans this⟩

/-- Every amount of fuel from the number of systems on gives the same executor. -/
theorem C33_fuel_irrelevant (ss : List SysDesc) (h : PatternsOk ss) (fuel : Nat) (hf : ss.length ≤ fuel) :
    ∃ bs, Stage.batches fuel ss = .ok bs ∧ bs.flatten.Perm ss ∧ ∀ b ∈ bs, b ≠ [] :=
  batches_ok _ ss (Nat.le_refl _) h fuel hf

/-! ## C34 -/

private theorem segOk_stages : ∀ (es : List StageExec) (c : List Instr),
    (∀ e ∈ es, ∀ b ∈ e.batches, b ≠ [] ∧ b.Pairwise (fun x y => ¬ SysDesc.Conflict x y)) → SegOk [] c →
    SegOk [] (es.flatMap StageExec.code ++ c) := by
  intro es
  induction es with
  | nil => intro c _ h; exact h
  | cons e es ih =>
    intro c he hc
    rw [List.flatMap_cons, List.append_assoc]
    exact segOk_batches _ _ _ (he e (List.mem_cons_self ..)) (ih c (fun x hx => he x (List.mem_cons_of_mem _ hx)) hc)

theorem stage_batches {st st' : Stage} {e : StageExec} {fuel : Nat} (h : st.createExecutor fuel = .ok (st', e))
    (hp : PatternsOk st.systems) :
    Stage.batches fuel st.systems = .ok e.batches ∧ e.main = st.main ∧ st' = { st with systems := [] } ∧
    (∀ b ∈ e.batches, b ≠ []) ∧ e.batches.flatten.Perm st.systems := by
  simp only [Stage.createExecutor] at h
  have key : ∀ (f : Nat) (l : List SysDesc) (o : List (List SysDesc)), PatternsOk l →
      Stage.batches f l = .ok o → (∀ b ∈ o, b ≠ []) ∧ o.flatten.Perm l := by
    intro f
    induction f with
    | zero => intro l o _ h; cases l with | nil => cases h; simp | cons _ _ => cases h
    | succ f ihf =>
      intro l o hl h
      cases l with
      | nil => cases h; simp
      | cons a l =>
        obtain ⟨b, r, g1, g2, g3, _, g5⟩ := pass_head a l hl
        simp only [Stage.batches, g1, Run.bind] at h
        cases hq : Stage.batches f r with
        | ok q =>
          rw [hq] at h; cases h
          obtain ⟨k1, k2⟩ := ihf r q (fun x hx => hl x (List.mem_cons_of_mem _ (g5.subset hx))) hq
          refine ⟨?_, ?_⟩
          · intro x hx
            rcases List.mem_cons.1 hx with rfl | hx
            · simp
            · exact k1 x hx
          · rw [List.flatten_cons]
            exact (k2.append_left _).trans g2
        | ub => rw [hq] at h; cases h
        | stuck => rw [hq] at h; cases h
  cases hb : Stage.batches fuel st.systems with
  | ok bs =>
    rw [hb] at h; cases h
    exact ⟨rfl, rfl, rfl, key _ _ _ hp hb⟩
  | ub => rw [hb] at h; cases h
  | stuck => rw [hb] at h; cases h

theorem createAll_spec : ∀ (ss : List Stage) (fuel : Nat) (r : List Stage × List StageExec),
    createAll fuel ss = .ok r → r.2.length = ss.length ∧ r.1.length = ss.length ∧
    ∀ (i : Nat) (st : Stage), ss[i]? = some st → ∃ (st' : Stage) (e : StageExec), r.1[i]? = some st' ∧ r.2[i]? = some e ∧
      st.createExecutor fuel = .ok (st', e) := by
  intro ss
  induction ss with
  | nil => intro fuel r h; cases h; simp
  | cons s ss ih =>
    intro fuel r h
    simp only [createAll] at h
    cases h1 : s.createExecutor fuel with
    | ok x =>
      rw [h1] at h
      simp only [Run.bind] at h
      cases h2 : createAll fuel ss with
      | ok y =>
        rw [h2] at h; cases h
        obtain ⟨h3, h4, h5⟩ := ih fuel y h2
        refine ⟨by simp [h3], by simp [h4], ?_⟩
        intro i st hst
        cases i with
        | zero => simp at hst; subst hst; exact ⟨x.1, x.2, by simp, by simp, h1⟩
        | succ i => simp at hst; obtain ⟨st', e, a, b, c⟩ := h5 i st hst; exact ⟨st', e, by simp [a], by simp [b], c⟩
      | ub => rw [h2] at h; cases h
      | stuck => rw [h2] at h; cases h
    | ub => rw [h1] at h; cases h
    | stuck => rw [h1] at h; cases h

/-- The stages of an executor, by index. -/
theorem schedule_spec {sch sch' : Schedule} {e : ScheduleExec} {fuel : Nat}
    (h : sch.createExecutor fuel = .ok (sch', e)) :
    (∃ st', sch.init.createExecutor fuel = .ok (st', e.init) ∧ sch'.init = st') ∧
    e.stages.length = sch.stages.length ∧ sch'.stages.length = sch.stages.length ∧
    ∀ (i : Nat) (st : Stage), sch.stages[i]? = some st → ∃ (st' : Stage) (x : StageExec), sch'.stages[i]? = some st' ∧
      e.stages[i]? = some x ∧ st.createExecutor fuel = .ok (st', x) := by
  simp only [Schedule.createExecutor] at h
  cases h1 : createAll fuel sch.stages with
  | ok r =>
    rw [h1] at h
    simp only [Run.bind] at h
    cases h2 : sch.init.createExecutor fuel with
    | ok ri =>
      rw [h2] at h; cases h
      obtain ⟨a, b, c⟩ := createAll_spec _ _ _ h1
      exact ⟨⟨ri.1, rfl, rfl⟩, a, b, c⟩
    | ub => rw [h2] at h; cases h
    | stuck => rw [h2] at h; cases h
  | ub => rw [h1] at h; cases h
  | stuck => rw [h1] at h; cases h

/-- All systems of a schedule come from function parameters. -/
def ScheduleFromArgs (sch : Schedule) : Prop :=
  (∀ s ∈ sch.init.systems, FromArgs s) ∧ ∀ st ∈ sch.stages, ∀ s ∈ st.systems, FromArgs s

theorem exec_batches_ok {sch sch' : Schedule} {e : ScheduleExec} {fuel : Nat} (hf : ScheduleFromArgs sch)
    (h : sch.createExecutor fuel = .ok (sch', e)) :
    (∀ b ∈ e.init.batches, b ≠ [] ∧ b.Pairwise (fun x y => ¬ SysDesc.Conflict x y)) ∧
    ∀ x ∈ e.stages, ∀ b ∈ x.batches, b ≠ [] ∧ b.Pairwise (fun x y => ¬ SysDesc.Conflict x y) := by
  obtain ⟨⟨st', h1, _⟩, h2, h3, h4⟩ := schedule_spec h
  have key : ∀ (st st' : Stage) (x : StageExec), (∀ s ∈ st.systems, FromArgs s) →
      st.createExecutor fuel = .ok (st', x) →
      ∀ b ∈ x.batches, b ≠ [] ∧ b.Pairwise (fun x y => ¬ SysDesc.Conflict x y) := by
    intro st st' x hs hx b hb
    have hp : PatternsOk st.systems := fun s hs' => (fromArgs_ok (hs s hs')).1
    obtain ⟨k1, _, _, k2, _⟩ := stage_batches hx hp
    exact ⟨k2 b hb, batches_conflict _ _ (Nat.le_refl _) hp (fun s hs' => (fromArgs_ok (hs s hs')).2) _ _ k1 b hb⟩
  refine ⟨key _ _ _ hf.1 h1, ?_⟩
  intro x hx
  obtain ⟨i, hi, rfl⟩ := List.mem_iff_getElem.1 hx
  have hi' : i < sch.stages.length := by omega
  obtain ⟨st', y, k1, k2, k3⟩ := h4 i sch.stages[i] (List.getElem?_eq_getElem hi')
  rw [List.getElem?_eq_getElem hi] at k2
  cases k2
  exact key _ _ _ (hf.2 _ (List.getElem_mem hi')) k3

private theorem segOk_program {sch sch' : Schedule} {e : ScheduleExec} {fuel : Nat} (hf : ScheduleFromArgs sch)
    (h : sch.createExecutor fuel = .ok (sch', e)) (n : Nat) : SegOk [] (e.program n) := by
  obtain ⟨h1, h2⟩ := exec_batches_ok hf h
  have hrun : SegOk [] (List.replicate n e.runOnce).flatten := by
    induction n with
    | zero => exact List.Pairwise.nil
    | succ n ih =>
      rw [List.replicate_succ, List.flatten_cons]
      unfold ScheduleExec.runOnce
      rw [List.append_assoc]
      exact segOk_stages _ _ h2 ih
  unfold ScheduleExec.program ScheduleExec.construct StageExec.code
  rw [List.append_assoc]
  exact segOk_batches _ _ _ h1 hrun

/-- **C34.**  Whatever systems (with parameters the library accepts) a schedule has, in every reachable state of
every execution (construction followed by any number of runs) no two parallel systems that run at the same
time conflict. -/
theorem C34_no_conflict_at_the_same_time (sch sch' : Schedule) (e : ScheduleExec) (fuel n : Nat)
    (hf : ScheduleFromArgs sch) (h : sch.createExecutor fuel = .ok (sch', e))
    (tr : List SchedEvent) (s : SchedState) (hs : SchedSteps ⟨e.program n, []⟩ tr s)
    (i j : Nat) (x y : SysDesc) (hi : s.tasks[i]? = some (x, true)) (hj : s.tasks[j]? = some (y, true))
    (hij : i ≠ j) : ¬ x.pattern.footprint.Conflict y.pattern.footprint := by
  have hp := (segOk_steps hs (segOk_program hf h n)).pairwise
  rw [List.pairwise_map, List.pairwise_iff_getElem] at hp
  obtain ⟨hi', ei⟩ := List.getElem?_eq_some_iff.1 hi
  obtain ⟨hj', ej⟩ := List.getElem?_eq_some_iff.1 hj
  rcases Nat.lt_or_gt_of_ne hij with hlt | hlt
  · have := hp i j hi' hj' hlt
    rw [ei, ej] at this
    exact this
  · have := hp j i hj' hi' hlt
    rw [ei, ej] at this
    exact fun hc => this hc.symm

/-! ## C35 -/

/-- In the trace nothing of system `i` happens after a start of system `j`. -/
def RunsBefore (tr : List SchedEvent) (i j : Nat) : Prop :=
  ∀ pre post, tr = pre ++ .start j :: post → SchedEvent.start i ∉ post ∧ SchedEvent.finish i ∉ post

theorem runsBefore_of_split {t1 t2 : List SchedEvent} {i j : Nat} (h1 : SchedEvent.start j ∉ t1)
    (h2 : SchedEvent.start i ∉ t2) (h3 : SchedEvent.finish i ∉ t2) : RunsBefore (t1 ++ t2) i j := by
  intro pre post he
  rw [List.append_eq_append_iff] at he
  rcases he with ⟨a, ha, hb⟩ | ⟨a, ha, hb⟩
  · cases a with
    | nil =>
      simp only [List.nil_append] at hb
      subst hb
      simp only [List.mem_cons, not_or] at h2 h3
      exact ⟨h2.2, h3.2⟩
    | cons x a =>
      subst hb
      simp only [List.mem_append, List.mem_cons, not_or, List.cons_append] at h2 h3
      exact ⟨h2.2.2.2, h3.2.2.2⟩
  · cases a with
    | nil =>
      simp only [List.nil_append] at hb
      subst hb
      simp only [List.mem_cons, not_or] at h2 h3
      exact ⟨h2.2, h3.2⟩
    | cons x a =>
      simp only [List.cons_append, List.cons.injEq] at hb
      obtain ⟨rfl, hb⟩ := hb
      exfalso; apply h1; rw [ha]; simp

/-- A stage in which conflicting systems get out of order: `wr 1` writes component 0, `rdwr 2` reads
component 0 and writes component 1, `wr 3` writes component 1.  The third system runs in the first batch,
before the second one. -/
def badStage : Stage := ⟨[wr 1 0, rdwr 2, wr 3 1], []⟩

/-- **C35, as stated, is false.** -/
theorem C35_violated : ∃ (st st' : Stage) (e : StageExec) (tr : List SchedEvent) (x y : SysDesc),
    PatternsOk st.systems ∧ NoRegRead st.systems ∧ (st.systems.map SysDesc.id).Nodup ∧
    st.createExecutor 3 = .ok (st', e) ∧ SchedTrace e.code tr ∧
    [x, y].Sublist st.systems ∧ x.pattern.footprint.Conflict y.pattern.footprint ∧
    ¬ RunsBefore tr x.id y.id := by
  refine ⟨badStage, ⟨[], []⟩, ⟨[[wr 1 0, wr 3 1], [rdwr 2]], []⟩,
    [.start 1, .finish 1, .start 3, .finish 3, .start 2, .finish 2], rdwr 2, wr 3 1, ?_, ?_, by decide, rfl, ?_, ?_, ?_,
    ?_⟩
  · intro s hs
    simp only [badStage, List.mem_cons, List.not_mem_nil, or_false] at hs
    rcases hs with rfl | rfl | rfl
    · exact one_ok _ _ (by decide)
    · exact rdwr_ok _
    · exact one_ok _ _ (by decide)
  · intro s hs
    simp only [badStage, List.mem_cons, List.not_mem_nil, or_false] at hs
    rcases hs with rfl | rfl | rfl <;> decide
  · refine .step (.submit _ _ _) (.step (.submit _ _ _) ?_)
    refine .step (ev := some (.start 1)) (.start (wr 1 0) _ [] _) (.step (.finish (wr 1 0) _ [] _) ?_)
    refine .step (ev := some (.start 3)) (.start (wr 3 1) _ [] _) (.step (.finish (wr 3 1) _ [] _) ?_)
    refine .step (ev := none) (.wait _) (.step (ev := none) (.submit _ _ _) ?_)
    refine .step (ev := some (.start 2)) (.start (rdwr 2) _ [] _) (.step (.finish (rdwr 2) _ [] _) ?_)
    exact .step (.wait _) (.refl _)
  · exact List.Sublist.cons _ (List.Sublist.refl _)
  · exact ⟨1, Or.inl ⟨Or.inr (by decide), Or.inr ⟨.write, by decide⟩⟩⟩
  · intro h
    have := (h [.start 1, .finish 1] [.finish 3, .start 2, .finish 2] rfl).1
    exact this (by decide)

/-- **C35 (partial).**  Missing: stages in which conflicts do not carry over (`ConflictTransitive` fails), for
which the property is false.  If any two systems that conflict with a common third one conflict with each
other, conflicting systems run in the order they were added, in every execution. -/
theorem C35_in_order_partial (st st' : Stage) (e : StageExec) (fuel : Nat) (hp : PatternsOk st.systems)
    (hn : NoRegRead st.systems) (hd : (st.systems.map SysDesc.id).Nodup) (ht : ConflictTransitive st.systems)
    (h : st.createExecutor fuel = .ok (st', e)) (tr : List SchedEvent) (htr : SchedTrace e.code tr)
    (x y : SysDesc) (hxy : [x, y].Sublist st.systems) (hc : x.pattern.footprint.Conflict y.pattern.footprint) :
    RunsBefore tr x.id y.id := by
  obtain ⟨h1, h2, _, h3, h4⟩ := stage_batches h hp
  obtain ⟨pre, post, hb, hx, hy⟩ := batches_order _ _ (Nat.le_refl _) hp hn ht hd fuel _ h1 x y hxy hc
  unfold StageExec.code at htr
  have hnd : ((pre ++ post).flatten.map SysDesc.id).Nodup := by
    rw [← hb]
    exact ((h4.map SysDesc.id).nodup_iff).2 hd
  rw [hb] at htr h3
  rw [List.flatMap_append] at htr
  have hcl : Closed (pre.flatMap (execBatch e.main)) :=
    closed_flatMap _ _ fun b hb => closed_batch _ (h3 b (List.mem_append_left _ hb))
  obtain ⟨t1, t2, rfl, k1, k2⟩ := hcl _ _ htr
  obtain ⟨a1, _, _⟩ := batches_trace_counts e.main pre k1 y.id
  obtain ⟨b1, b2, _⟩ := batches_trace_counts e.main post k2 x.id
  rw [List.flatten_append, List.map_append, List.nodup_append] at hnd
  have hyn : (pre.flatten.map SysDesc.id).count y.id = 0 := by
    rw [List.count_eq_zero]
    intro hm
    exact hnd.2.2 _ hm _ (List.mem_map_of_mem hy) rfl
  have hxn : (post.flatten.map SysDesc.id).count x.id = 0 := by
    rw [List.count_eq_zero]
    intro hm
    exact hnd.2.2 _ (List.mem_map_of_mem hx) _ hm rfl
  refine runsBefore_of_split ?_ ?_ ?_
  · rw [hyn] at a1; exact List.count_eq_zero.1 a1
  · rw [hxn] at b1; exact List.count_eq_zero.1 b1
  · rw [hxn] at b2; exact List.count_eq_zero.1 b2

/-- Three systems writing the same component satisfy the condition of `C35_in_order_partial`. -/
example : ConflictTransitive [wr 1 0, wr 2 0, wr 3 0] := by
  intro x hx y hy z hz _ _ _
  have key : ∀ s ∈ [wr 1 0, wr 2 0, wr 3 0], s.pattern = (wr 1 0).pattern := by
    intro s hs
    simp only [List.mem_cons, List.not_mem_nil, or_false] at hs
    rcases hs with rfl | rfl | rfl <;> rfl
  refine ⟨0, Or.inl ⟨?_, ?_⟩⟩
  · rw [key x hx]; exact Or.inr (by decide)
  · rw [key z hz]; exact Or.inr ⟨.write, by decide⟩

/-! ## C36 -/

/-- **C36, as stated, is false**: with two batches a main-thread system runs twice, without parallel systems it
never runs. -/
theorem C36_violated : (∃ (st st' : Stage) (e : StageExec), PatternsOk st.systems ∧
      st.createExecutor 2 = .ok (st', e) ∧ st.main.map SysDesc.id = [7] ∧
      ∀ tr, SchedTrace e.code tr → tr.count (.mainStart 7) = 2) ∧
    (∃ (st st' : Stage) (e : StageExec), PatternsOk st.systems ∧
      st.createExecutor 2 = .ok (st', e) ∧ st.main.map SysDesc.id = [7] ∧
      ∀ tr, SchedTrace e.code tr → tr.count (.mainStart 7) = 0) := by
  constructor
  · refine ⟨⟨[wr 1 0, wr 2 0], [rd 7 4]⟩, ⟨[], [rd 7 4]⟩, ⟨[[wr 1 0], [wr 2 0]], [rd 7 4]⟩, ?_, rfl, rfl, ?_⟩
    · intro s hs
      simp only [List.mem_cons, List.not_mem_nil, or_false] at hs
      rcases hs with rfl | rfl <;> exact one_ok _ _ (by decide)
    · intro tr htr
      exact (batches_trace_counts [rd 7 4] [[wr 1 0], [wr 2 0]] htr 7).2.2.1
  · refine ⟨⟨[], [rd 7 4]⟩, ⟨[], [rd 7 4]⟩, ⟨[], [rd 7 4]⟩, (fun s hs => by cases hs), rfl, rfl, ?_⟩
    intro tr htr
    exact (batches_trace_counts [rd 7 4] [] htr 7).2.2.1

/-- **C36 (partial), exact count.**  Missing: the number of batches is not always one.  In every execution of a
stage a main-thread system runs as often as it was added times the number of batches; so the property holds
exactly for stages with one batch. -/
theorem C36_main_runs_partial (st st' : Stage) (e : StageExec) (fuel : Nat) (hp : PatternsOk st.systems)
    (h : st.createExecutor fuel = .ok (st', e)) (tr : List SchedEvent) (htr : SchedTrace e.code tr) (id : Nat) :
    tr.count (.mainStart id) = e.batches.length * (st.main.map SysDesc.id).count id := by
  obtain ⟨_, h2, _, _⟩ := stage_batches h hp
  rw [← h2]
  exact (batches_trace_counts e.main e.batches htr id).2.2.1

/-- There is exactly one batch if the stage has systems and no two of them conflict. -/
theorem C36_one_batch_partial (st st' : Stage) (e : StageExec) (fuel : Nat) (hp : PatternsOk st.systems)
    (hreg : ∀ s ∈ st.systems, s.pattern.reg = .none) (hne : st.systems ≠ [])
    (hc : st.systems.Pairwise fun x y => ¬ x.pattern.footprint.Conflict y.pattern.footprint)
    (h : st.createExecutor fuel = .ok (st', e)) : e.batches.length = 1 := by
  obtain ⟨h1, _⟩ := stage_batches h hp
  have key : ∀ (ss : List SysDesc) (acc : Access) (B : List SysDesc), AccRep acc B → acc.reg = .none → PatternsOk ss →
      (∀ s ∈ ss, s.pattern.reg = .none) → (∀ k ∈ B, ∀ s ∈ ss, ¬ SysDesc.Conflict k s) →
      ss.Pairwise (fun x y => ¬ SysDesc.Conflict x y) → Stage.pass acc ss = .ok (ss, []) := by
    intro ss
    induction ss with
    | nil => intros; rfl
    | cons s ss ih =>
      intro acc B hacc hr hp hreg hB hpw
      have hs := hp s (List.mem_cons_self ..)
      have hal : acc.allows s.pattern = .ok true := by
        refine Access.allows_complete hs hr ?_
        rintro ⟨c, ⟨g1, g2⟩ | ⟨g1, g2⟩⟩
        · obtain ⟨k, hk, hkc⟩ := (hacc.writes c).1 g1
          exact hB k hk s (List.mem_cons_self ..) ⟨c, Or.inl ⟨hkc, g2⟩⟩
        · obtain ⟨k, hk, hkc⟩ := (hacc.reads c).1 g2
          exact hB k hk s (List.mem_cons_self ..) ⟨c, Or.inr ⟨g1, hkc⟩⟩
      obtain ⟨acc', hm, hok, hreg', _⟩ := Access.merge_ok hacc.ok hs
      have hsr := hreg s (List.mem_cons_self ..)
      have := ih acc' (B ++ [s]) (hacc.merge hs (by rw [hsr]; decide) hm)
        (by rw [hreg', hr, hsr]; rfl)
        (fun x hx => hp x (List.mem_cons_of_mem _ hx)) (fun x hx => hreg x (List.mem_cons_of_mem _ hx))
        (by
          intro k hk x hx
          rcases List.mem_append.1 hk with hk | hk
          · exact hB k hk x (List.mem_cons_of_mem _ hx)
          · rw [List.mem_singleton] at hk
            subst hk
            exact List.rel_of_pairwise_cons hpw hx)
        (List.Pairwise.of_cons hpw)
      simp only [Stage.pass, hal, hm, this, Run.bind]
  cases hss : st.systems with
  | nil => exact absurd hss hne
  | cons s ss =>
    have hk := key st.systems Access.empty [] accRep_empty rfl hp hreg (fun k hk => by cases hk) hc
    rw [hss] at h1 hk
    cases fuel with
    | zero => cases h1
    | succ fuel =>
      simp only [Stage.batches, hk, Run.bind, Run.ok.injEq] at h1
      rw [← h1]
      rfl

/-! ## C37 -/

/-- **C37, as stated, is false**: creating an executor empties the stages, so a second executor has no parallel
systems at all — for every schedule. -/
theorem C37_violated (sch sch' sch'' : Schedule) (e e' : ScheduleExec) (f f' : Nat)
    (h : sch.createExecutor f = .ok (sch', e)) (h' : sch'.createExecutor f' = .ok (sch'', e')) :
    e'.init.batches = [] ∧ ∀ x ∈ e'.stages, x.batches = [] := by
  have key : ∀ (st st' st'' : Stage) (x x' : StageExec), st.createExecutor f = .ok (st', x) →
      st'.createExecutor f' = .ok (st'', x') → x'.batches = [] := by
    intro st st' st'' x x' h1 h2
    simp only [Stage.createExecutor] at h1
    cases hb : Stage.batches f st.systems with
    | ok bs =>
      rw [hb] at h1; cases h1
      have : Stage.batches f' [] = .ok [] := by cases f' <;> rfl
      simp only [Stage.createExecutor, this, Run.bind] at h2
      cases h2; rfl
    | ub => rw [hb] at h1; cases h1
    | stuck => rw [hb] at h1; cases h1
  obtain ⟨⟨a, h1, h2⟩, h3, h4, h5⟩ := schedule_spec h
  obtain ⟨⟨a', h1', h2'⟩, h3', h4', h5'⟩ := schedule_spec h'
  subst h2
  refine ⟨key _ _ _ _ _ h1 h1', ?_⟩
  intro x hx
  obtain ⟨i, hi, rfl⟩ := List.mem_iff_getElem.1 hx
  have hi' : i < sch.stages.length := by omega
  obtain ⟨st', y, k1, k2, k3⟩ := h5 i sch.stages[i] (List.getElem?_eq_getElem hi')
  obtain ⟨st'', y', k1', k2', k3'⟩ := h5' i st' k1
  rw [List.getElem?_eq_getElem hi] at k2'
  cases k2'
  exact key _ _ _ _ _ k3 k3'

/-- Concretely: the second executor of a schedule with one system runs nothing. -/
theorem C37_violated_example : ∃ (sch sch' sch'' : Schedule) (e e' : ScheduleExec),
    sch.createExecutor 1 = .ok (sch', e) ∧ sch'.createExecutor 1 = .ok (sch'', e') ∧
    e.stages.map (fun x => x.batches.map (fun b => b.map SysDesc.id)) = [[[1]]] ∧
    e'.stages.map (fun x => x.batches.map (fun b => b.map SysDesc.id)) = [[]] :=
  ⟨⟨⟨[], []⟩, [⟨[wr 1 0], []⟩]⟩, _, _, _, _, rfl, rfl, rfl, rfl⟩

/-! ## C39 -/

/-- The events of one run of a stage: exactly the starts and returns of its systems, and no flush. -/
structure StageEvents (st : Stage) (t : List SchedEvent) : Prop where
  starts : ∀ id, t.count (.start id) = (st.systems.map SysDesc.id).count id
  finishes : ∀ id, t.count (.finish id) = (st.systems.map SysDesc.id).count id
  noFlush : SchedEvent.flush ∉ t
  mains : ∀ id, SchedEvent.mainStart id ∈ t → id ∈ st.main.map SysDesc.id

private theorem stageEvents_of_trace {st st' : Stage} {e : StageExec} {fuel : Nat} (hp : PatternsOk st.systems)
    (h : st.createExecutor fuel = .ok (st', e)) {t : List SchedEvent} (ht : SchedTrace e.code t) :
    StageEvents st t := by
  obtain ⟨h1, h2, _, h3, h4⟩ := stage_batches h hp
  have hc := fun id => batches_trace_counts e.main e.batches ht id
  refine ⟨fun id => ?_, fun id => ?_, ?_, ?_⟩
  · exact (hc id).1.trans ((h4.map SysDesc.id).count_eq id)
  · exact (hc id).2.1.trans ((h4.map SysDesc.id).count_eq id)
  · exact List.count_eq_zero.1 (hc 0).2.2.2
  · intro id hm
    have h5 := (hc id).2.2.1
    have h6 : 0 < t.count (.mainStart id) := List.count_pos_iff.2 hm
    rw [h5, h2] at h6
    exact List.count_pos_iff.1 (Nat.pos_of_mul_pos_left h6)

/-- **C39.**  In every complete execution of "construct an executor, then call `run_once` `n` times" the events
split into consecutive pieces: the init stage, one flush, and for every run the stages in order followed by one
flush; each piece contains exactly the starts and returns of the systems of its stage.  (So a stage starts
after all parallel systems of the previous one returned, and commands are flushed exactly once at the end of
construction and of each run.) -/
theorem C39_stages_are_barriers (sch sch' : Schedule) (e : ScheduleExec) (fuel n : Nat)
    (hi : PatternsOk sch.init.systems) (hp : ∀ st ∈ sch.stages, PatternsOk st.systems)
    (h : sch.createExecutor fuel = .ok (sch', e)) (tr : List SchedEvent) (htr : SchedTrace (e.program n) tr) :
    ∃ (t0 : List SchedEvent) (runs : List (List (List SchedEvent))),
      tr = t0 ++ [.flush] ++ (runs.map fun r => r.flatten ++ [.flush]).flatten ∧
      StageEvents sch.init t0 ∧ runs.length = n ∧
      ∀ r ∈ runs, r.length = sch.stages.length ∧
        ∀ (i : Nat) (st : Stage) (t : List SchedEvent), sch.stages[i]? = some st → r[i]? = some t →
          StageEvents st t := by
  obtain ⟨⟨si, h1, _⟩, h3, _, h5⟩ := schedule_spec h
  obtain ⟨_, _, _, hne0, _⟩ := stage_batches h1 hi
  have hst : ∀ x ∈ e.stages, ∃ st st', st ∈ sch.stages ∧ st.createExecutor fuel = .ok (st', x) := by
    intro x hx
    obtain ⟨i, hi, rfl⟩ := List.mem_iff_getElem.1 hx
    have hi' : i < sch.stages.length := by omega
    obtain ⟨st', y, k1, k2, k3⟩ := h5 i sch.stages[i] (List.getElem?_eq_getElem hi')
    rw [List.getElem?_eq_getElem hi] at k2
    cases k2
    exact ⟨_, st', List.getElem_mem hi', k3⟩
  have hcl : ∀ x ∈ e.stages, Closed x.code := by
    intro x hx
    obtain ⟨st, st', k1, k2⟩ := hst x hx
    obtain ⟨_, _, _, hne, _⟩ := stage_batches k2 (hp st k1)
    exact closed_stage x hne
  have hclr : Closed e.runOnce := (closed_flatMap _ _ hcl).append closed_flush
  have flush_trace : ∀ t, SchedTrace [.flush] t → t = [.flush] := by
    intro t ht
    obtain ⟨t1, t2, rfl, k1, k2⟩ := closed_flush [] t (by simpa using ht)
    have c1 := steps_counts k1 0
    unfold SchedTrace at k1 k2
    have hnil : ∀ {s u : SchedState} {tr}, SchedSteps s tr u → s = ⟨[], []⟩ → tr = [] := by
      intro s u tr h hs
      cases h with
      | refl => rfl
      | step hst _ => subst hs; generalize hs' : (⟨[], []⟩ : SchedState) = s at hst; cases hst <;> simp at hs'
    rw [hnil k2 rfl, List.append_nil]
    generalize hs : (⟨[Instr.flush], []⟩ : SchedState) = s at k1
    cases k1 with
    | refl => cases hs
    | step hst hr =>
      subst hs
      generalize hs' : (⟨[Instr.flush], []⟩ : SchedState) = s at hst
      cases hst with
      | flush c ts =>
        simp only [SchedState.mk.injEq, List.cons.injEq, true_and] at hs'
        obtain ⟨rfl, rfl⟩ := hs'
        rw [hnil hr rfl]
        rfl
      | submit => simp at hs'
      | mainStart => simp at hs'
      | mainFinish => simp at hs'
      | wait => simp at hs'
      | start => simp at hs'
      | finish => simp at hs'
  unfold ScheduleExec.program ScheduleExec.construct at htr
  obtain ⟨tc, tr', rfl, hc1, hc2⟩ := ((closed_stage e.init hne0).append closed_flush) _ _ htr
  obtain ⟨t0, tf, rfl, hc3, hc4⟩ := closed_stage e.init hne0 _ _ hc1
  have hc4 := flush_trace tf hc4
  subst hc4
  have hruns : ∀ (k : Nat) (t : List SchedEvent), SchedTrace (List.replicate k e.runOnce).flatten t →
      ∃ runs : List (List (List SchedEvent)), t = (runs.map fun r => r.flatten ++ [.flush]).flatten ∧
        runs.length = k ∧ ∀ r ∈ runs, r.length = sch.stages.length ∧
        ∀ (i : Nat) (st : Stage) (t : List SchedEvent), sch.stages[i]? = some st → r[i]? = some t →
          StageEvents st t := by
    intro k
    induction k with
    | zero =>
      intro t ht
      obtain ⟨ts, h1, h2, _⟩ := split_flatMap (fun _ : Unit => ([] : List Instr)) [] t (by simp) (by simpa using ht)
      have : ts = [] := List.length_eq_zero_iff.1 (by simpa using h2)
      subst this
      exact ⟨[], h1, rfl, by simp⟩
    | succ k ih =>
      intro t ht
      rw [List.replicate_succ, List.flatten_cons] at ht
      obtain ⟨t1, t2, rfl, k1, k2⟩ := hclr _ _ ht
      obtain ⟨runs, rfl, hl, hr⟩ := ih t2 k2
      obtain ⟨ts, tf, rfl, k3, k4⟩ := (closed_flatMap _ _ hcl) _ _ k1
      have k4 := flush_trace tf k4
      subst k4
      obtain ⟨r, rfl, hrl, hrs⟩ := split_flatMap _ _ _ hcl k3
      refine ⟨r :: runs, by simp, by simp [hl], ?_⟩
      intro r' hr'
      rcases List.mem_cons.1 hr' with rfl | hr'
      · refine ⟨by omega, ?_⟩
        intro i st t hst' ht'
        obtain ⟨st', x, g1, g2, g3⟩ := h5 i st hst'
        exact stageEvents_of_trace (hp st (List.mem_of_getElem? hst')) g3 (hrs i x t g2 ht')
      · exact hr r' hr'
  obtain ⟨runs, rfl, hl, hr⟩ := hruns n tr' hc2
  exact ⟨t0, runs, rfl, stageEvents_of_trace hi h1 hc3, hl, hr⟩

/-- `create_executor` on any schedule with well-formed patterns succeeds, so the theorems about executors are
not about nothing. -/
theorem C39_executor_exists (sch : Schedule) (hi : PatternsOk sch.init.systems)
    (hp : ∀ st ∈ sch.stages, PatternsOk st.systems) : ∃ fuel sch' e, sch.createExecutor fuel = .ok (sch', e) := by
  have key : ∀ (ss : List Stage), (∀ st ∈ ss, PatternsOk st.systems) →
      ∃ F, ∀ f, F ≤ f → ∃ r, createAll f ss = .ok r := by
    intro ss
    induction ss with
    | nil => intro _; exact ⟨0, fun f _ => ⟨_, rfl⟩⟩
    | cons s ss ih =>
      intro h
      obtain ⟨F, hF⟩ := ih (fun x hx => h x (List.mem_cons_of_mem _ hx))
      refine ⟨F + s.systems.length, fun f hf => ?_⟩
      obtain ⟨r, hr⟩ := hF f (by omega)
      obtain ⟨bs, hb, _⟩ := batches_ok _ s.systems (Nat.le_refl _) (h s (List.mem_cons_self ..)) f (by omega)
      simp only [createAll, Stage.createExecutor, hb, hr, Run.bind]
      exact ⟨_, rfl⟩
  obtain ⟨F, hF⟩ := key sch.stages hp
  obtain ⟨r, hr⟩ := hF (F + sch.init.systems.length) (by omega)
  obtain ⟨bs, hb, _⟩ := batches_ok _ sch.init.systems (Nat.le_refl _) hi (F + sch.init.systems.length) (by omega)
  refine ⟨F + sch.init.systems.length, ?_⟩
  simp only [Schedule.createExecutor, Stage.createExecutor, hb, hr, Run.bind]
  exact ⟨_, _, rfl⟩

/-! ## C56 -/

/-- **C56, as stated, is false**: main-thread systems take no part in the conflict check and run while the
batch runs.  A parallel and a main-thread system that both write component 0 are running together. -/
theorem C56_violated : ∃ (st st' : Stage) (e : StageExec) (tr : List SchedEvent) (s : SchedState) (x m : SysDesc)
    (c : List Instr), PatternsOk st.systems ∧ PatternsOk st.main ∧ st.createExecutor 1 = .ok (st', e) ∧
    SchedSteps ⟨e.code, []⟩ tr s ∧ (x, true) ∈ s.tasks ∧ s.code = .endMain m :: c ∧
    x.pattern.footprint.Conflict m.pattern.footprint := by
  refine ⟨⟨[wr 1 0], [wr 2 0]⟩, ⟨[], [wr 2 0]⟩, ⟨[[wr 1 0]], [wr 2 0]⟩, [.start 1, .mainStart 2],
    ⟨[.endMain (wr 2 0), .wait], [(wr 1 0, true)]⟩, wr 1 0, wr 2 0, [.wait], ?_, ?_, rfl, ?_, by simp, rfl, ?_⟩
  · intro s hs
    rw [List.mem_singleton] at hs; subst hs
    exact one_ok _ _ (by decide)
  · intro s hs
    rw [List.mem_singleton] at hs; subst hs
    exact one_ok _ _ (by decide)
  · refine .step (.submit _ _ _) ?_
    refine .step (ev := some (.start 1)) (.start (wr 1 0) _ [] _) ?_
    exact .step (ev := some (.mainStart 2)) (.mainStart (wr 2 0) _ _) (.refl _)
  · exact ⟨0, Or.inl ⟨Or.inr (by decide), Or.inr ⟨.write, by decide⟩⟩⟩

/-- **C56 (partial).**  Missing: stages with both kinds of systems.  Without main-thread systems the property is
C34; without parallel systems nothing runs in parallel. -/
theorem C56_no_main_partial (st st' : Stage) (e : StageExec) (fuel : Nat) (hp : PatternsOk st.systems)
    (hn : NoRegRead st.systems) (hm : st.main = []) (h : st.createExecutor fuel = .ok (st', e))
    (tr : List SchedEvent) (s : SchedState) (hs : SchedSteps ⟨e.code, []⟩ tr s) :
    (∀ m c, s.code ≠ .endMain m :: c) ∧
    (s.tasks.map (·.1)).Pairwise fun x y => ¬ x.pattern.footprint.Conflict y.pattern.footprint := by
  obtain ⟨h1, h2, _, h3, h4⟩ := stage_batches h hp
  have hb := batches_conflict _ _ (Nat.le_refl _) hp hn _ _ h1
  have hseg : SegOk [] e.code := by
    have := segOk_batches e.main e.batches [] (fun b hb' => ⟨h3 b hb', hb b hb'⟩) List.Pairwise.nil
    simpa [StageExec.code] using this
  refine ⟨?_, (segOk_steps hs hseg).pairwise⟩
  have hno : ∀ {a b : SchedState} {tr}, SchedSteps a tr b →
      (∀ i ∈ a.code, ∀ m, i ≠ .runMain m ∧ i ≠ .endMain m) → ∀ i ∈ b.code, ∀ m, i ≠ .runMain m ∧ i ≠ .endMain m := by
    intro a b tr h
    induction h with
    | refl => exact id
    | step hst _ ih =>
      intro ha
      apply ih
      cases hst with
      | submit x c ts => exact fun i hi => ha i (List.mem_cons_of_mem _ hi)
      | mainStart m c ts => exact absurd rfl (ha _ (List.mem_cons_self ..) m).1
      | mainFinish m c ts => exact absurd rfl (ha _ (List.mem_cons_self ..) m).2
      | wait c => exact fun i hi => ha i (List.mem_cons_of_mem _ hi)
      | flush c ts => exact fun i hi => ha i (List.mem_cons_of_mem _ hi)
      | start x c l r => exact ha
      | finish x c l r => exact ha
  intro m c hc
  refine (hno hs ?_ (.endMain m) (by rw [hc]; simp) m).2 rfl
  intro i hi m
  simp only [StageExec.code, List.mem_flatMap, h2, hm, execBatch, List.map_nil, List.append_nil, List.mem_append,
    List.mem_map] at hi
  obtain ⟨b, _, ⟨x, _, rfl⟩ | hi⟩ := hi
  · simp
  · split at hi
    · cases hi
    · rw [List.mem_singleton] at hi; subst hi; simp

/-! ### Examples -/

example : PatternsOk [wr 1 0, rd 2 5, rdwr 3] := by
  intro s hs
  simp only [List.mem_cons, List.not_mem_nil, or_false] at hs
  rcases hs with rfl | rfl | rfl
  · exact one_ok _ _ (by decide)
  · exact one_ok _ _ (by decide)
  · exact rdwr_ok _

example : (Stage.batches 5 [wr 1 0, rd 2 5, rdwr 3, rd 4 0]).bind (fun bs => .ok (bs.map (·.map SysDesc.id))) =
    .ok [[1, 2], [3, 4]] := by decide

end CoEcs.Props
