import Verif.Proofs.Readers
import Verif.Props.Determinism

/-!
# C57: conflicts with systems that only read

`C57_schedule_deterministic_partial` needs stages without conflicts between main-thread and parallel systems, and
`C57_conflict_violated` refutes the property if both systems of a conflict write something.  Here: the remaining case, a conflict
between a system that writes and one that only reads.
-/

namespace CoEcs.Props
open Spec

variable {V L : Type}

/-- Whenever a main-thread system conflicts with a parallel system of the stage, one of them writes nothing. -/
def ReadersOnly (st : Stage) : Prop := ∀ m ∈ st.main, ∀ s ∈ st.systems, s.pattern.footprint.Conflict m.pattern.footprint →
  (∀ c, ¬ s.pattern.footprint.writes c) ∨ ∀ c, ¬ m.pattern.footprint.writes c

private theorem keep_stages {bodies : SysDesc → Body V L} : ∀ (es : List StageExec) (c : List Instr),
    (∀ x ∈ es, (∀ s ∈ x.main, (bodies s).Respects s.pattern.footprint) ∧
      ∀ b ∈ x.batches, b ≠ [] ∧ b.Pairwise (fun x y => ¬ SysDesc.Conflict x y) ∧
      (∀ s ∈ b, (bodies s).Respects s.pattern.footprint) ∧
      ∀ m ∈ x.main, ∀ a ∈ b, SysDesc.Conflict a m → a.writer = false ∨ m.writer = false) →
    DetOk bodies [] (c.filter Instr.keep) → DetOk bodies [] ((es.flatMap StageExec.code ++ c).filter Instr.keep) := by
  intro es
  induction es with
  | nil => intro c _ hc; exact hc
  | cons x es ih =>
    intro c hx hc
    rw [List.flatMap_cons, List.append_assoc]
    obtain ⟨h1, h2⟩ := hx x (List.mem_cons_self ..)
    exact keep_batches x.main h1 x.batches _ h2 (ih c (fun y hy => hx y (List.mem_cons_of_mem _ hy)) hc)

private theorem writer_false {s : SysDesc} (h : ∀ c, ¬ s.pattern.footprint.writes c) : s.writer = false := by
  rw [Bool.eq_false_iff, ne_eq, SysDesc.writer_iff]
  rintro ⟨c, hc⟩
  exact h c hc

/-- **C57 (partial).**  Missing: schedules in which two systems conflict that both write something, for which the property is false,
and the effect of recorded commands, which here is any fixed function of the component data.  If in every conflict between a
main-thread system and a parallel system of its stage one of the two writes nothing, all executions of the executor that end, end
with the same component data: that of a single thread that executes everything, without the systems that write nothing. -/
theorem C57_readers_partial (sch sch' : Schedule) (e : ScheduleExec) (fuel n : Nat)
    (hf : ScheduleFromArgs sch) (h : sch.createExecutor fuel = .ok (sch', e)) (bodies : SysDesc → Body V L)
    (fl : Store V → Store V) (hm : ∀ st, st = sch.init ∨ st ∈ sch.stages → ReadersOnly st)
    (hr : ∀ st, st = sch.init ∨ st ∈ sch.stages → BodiesRespect bodies st) (σ : Store V)
    {j k : Nat} {s t : PState V L} (hs : PSteps bodies fl j ⟨e.program n, none, [], σ⟩ s) (hsf : s.Finished)
    (ht : PSteps bodies fl k ⟨e.program n, none, [], σ⟩ t) (htf : t.Finished) :
    s.store = t.store ∧ SeqExec bodies fl ((e.program n).filter Instr.keep) σ s.store := by
  obtain ⟨b1, b2⟩ := exec_batches_ok hf h
  obtain ⟨⟨si, h1, _⟩, h2, h3, h4⟩ := schedule_spec h
  have key : ∀ (st st' : Stage) (x : StageExec), (st = sch.init ∨ st ∈ sch.stages) →
      st.createExecutor fuel = .ok (st', x) → (∀ b ∈ x.batches, b ≠ [] ∧ b.Pairwise (fun x y => ¬ SysDesc.Conflict x y)) →
      (∀ s ∈ x.main, (bodies s).Respects s.pattern.footprint) ∧
      ∀ b ∈ x.batches, b ≠ [] ∧ b.Pairwise (fun x y => ¬ SysDesc.Conflict x y) ∧
      (∀ s ∈ b, (bodies s).Respects s.pattern.footprint) ∧
      ∀ m ∈ x.main, ∀ a ∈ b, SysDesc.Conflict a m → a.writer = false ∨ m.writer = false := by
    intro st st' x hst hx hb
    have hp : ∀ s ∈ st.systems, s.pattern.Ok := by
      intro s hs
      rcases hst with rfl | hst
      · exact (fromArgs_ok (hf.1 s hs)).1
      · exact (fromArgs_ok (hf.2 st hst s hs)).1
    obtain ⟨_, k1, _, _, k2⟩ := stage_batches hx hp
    have hmem : ∀ b ∈ x.batches, ∀ s ∈ b, s ∈ st.systems := fun b hb s hs =>
      k2.subset (List.mem_flatten.2 ⟨b, hb, hs⟩)
    rw [k1]
    refine ⟨fun s hs => hr st hst s (List.mem_append_right _ hs), fun b hb' => ⟨(hb b hb').1, (hb b hb').2, ?_, ?_⟩⟩
    · exact fun s hs => hr st hst s (List.mem_append_left _ (hmem b hb' s hs))
    · exact fun m hm' a ha hc => (hm st hst m hm' a (hmem b hb' a ha) hc).imp writer_false writer_false
  have hstages : ∀ x ∈ e.stages, (∀ s ∈ x.main, (bodies s).Respects s.pattern.footprint) ∧
      ∀ b ∈ x.batches, b ≠ [] ∧ b.Pairwise (fun x y => ¬ SysDesc.Conflict x y) ∧
      (∀ s ∈ b, (bodies s).Respects s.pattern.footprint) ∧
      ∀ m ∈ x.main, ∀ a ∈ b, SysDesc.Conflict a m → a.writer = false ∨ m.writer = false := by
    intro x hx
    obtain ⟨i, hi, rfl⟩ := List.mem_iff_getElem.1 hx
    have hi' : i < sch.stages.length := by omega
    obtain ⟨st', y, k1, k2, k3⟩ := h4 i sch.stages[i] (List.getElem?_eq_getElem hi')
    rw [List.getElem?_eq_getElem hi] at k2
    cases k2
    exact key _ _ _ (Or.inr (List.getElem_mem hi')) k3 (b2 _ hx)
  obtain ⟨i1, i2⟩ := key _ _ _ (Or.inl rfl) h1 b1
  have hruns : DetOk bodies [] ((List.replicate n e.runOnce).flatten.filter Instr.keep) := by
    clear hs ht
    induction n with
    | zero => exact List.Pairwise.nil
    | succ n ih =>
      rw [List.replicate_succ, List.flatten_cons]
      unfold ScheduleExec.runOnce
      rw [List.append_assoc]
      exact keep_stages _ _ hstages (by
        rw [List.singleton_append, List.filter_cons_of_pos (show Instr.flush.keep = true from rfl)]
        exact detOk_append_flush ih)
  have hok : DetOk bodies [] ((e.program n).filter Instr.keep) := by
    unfold ScheduleExec.program ScheduleExec.construct StageExec.code
    rw [List.append_assoc]
    exact keep_batches _ i1 _ _ i2 (by
      rw [List.singleton_append, List.filter_cons_of_pos (show Instr.flush.keep = true from rfl)]
      exact detOk_append_flush hruns)
  refine same_end hok (fun d hd hw => ?_) hs hsf ht htf
  have hin : ∀ x : StageExec, (∀ s ∈ x.main, (bodies s).Respects s.pattern.footprint) →
      (∀ b ∈ x.batches, ∀ s ∈ b, (bodies s).Respects s.pattern.footprint) →
      (.submit d ∈ x.code ∨ .runMain d ∈ x.code) → (bodies d).Respects d.pattern.footprint := by
    intro x hx1 hx2 hd
    unfold StageExec.code at hd
    simp only [List.mem_flatMap, execBatch] at hd
    rcases hd with ⟨b, hb, hd⟩ | ⟨b, hb, hd⟩
    · refine hx2 b hb d ?_
      cases b <;> simpa using hd
    · refine hx1 d ?_
      cases b <;> simpa using hd
  refine quiet_of_respects ?_ hw
  have hcode : (.submit d ∈ e.init.code ∨ .runMain d ∈ e.init.code) ∨ ∃ x ∈ e.stages, .submit d ∈ x.code ∨ .runMain d ∈ x.code := by
    have : ∀ i : Instr, i ≠ .flush → i ∈ e.program n → i ∈ e.init.code ∨ ∃ x ∈ e.stages, i ∈ x.code := by
      intro i hi hmem
      simp only [ScheduleExec.program, ScheduleExec.construct, ScheduleExec.runOnce, List.mem_append, List.mem_singleton,
        List.mem_flatten, List.mem_replicate, List.mem_flatMap] at hmem
      rcases hmem with (hmem | hmem) | ⟨l, ⟨_, rfl⟩, hmem⟩
      · exact .inl hmem
      · exact absurd hmem hi
      · rcases List.mem_append.1 hmem with hmem | hmem
        · exact .inr (List.mem_flatMap.1 hmem)
        · exact absurd (List.mem_singleton.1 hmem) hi
    rcases hd with hd | hd
    · rcases this _ (by simp) hd with h | ⟨x, hx, h⟩
      · exact .inl (.inl h)
      · exact .inr ⟨x, hx, .inl h⟩
    · rcases this _ (by simp) hd with h | ⟨x, hx, h⟩
      · exact .inl (.inr h)
      · exact .inr ⟨x, hx, .inr h⟩
  rcases hcode with hc | ⟨x, hx, hc⟩
  · exact hin _ i1 (fun b hb => (i2 b hb).2.2.1) hc
  · exact hin x (hstages x hx).1 (fun b hb => ((hstages x hx).2 b hb).2.2.1) hc

/-! ## Whether a reader returns may depend on the order -/

/-- Returns if component 0 is 0, otherwise never. -/
def pollBody : Body Nat Bool := ⟨false, fun x σ => if σ 0 = 0 then none else some (x, σ)⟩

/-- System 2 polls, the others set component 0 to their ids. -/
def pollBodies (d : SysDesc) : Body Nat Bool := if d.id = 2 then pollBody else setBody d

theorem pollBody_respects (fp : Footprint) (h : fp.reads 0) (hwr : ∀ c, fp.writes c → fp.reads c) : pollBody.Respects fp := by
  refine ⟨?_, ?_, ?_⟩
  · intro x σ x' σ' hst c _
    simp only [pollBody] at hst
    split at hst
    · cases hst
    · cases hst; rfl
  · intro x σ τ hag hst
    simp only [pollBody] at hst ⊢
    rw [← hag 0 h]
    split at hst
    · rename_i h0; rw [if_pos h0]
    · cases hst
  · intro x σ τ x' σ' hag hst
    simp only [pollBody] at hst
    split at hst
    · cases hst
    · rename_i h0
      cases hst
      exact ⟨τ, by simp only [pollBody]; rw [← hag 0 h, if_neg h0], fun c hc => hag c (hwr c hc)⟩

/-- The main thread polls, component 0 is 1, and all tasks would set it to 1. -/
private def Stuck (s : PState Nat Bool) : Prop :=
  s.cur = some (rd 2 0, false) ∧ s.store 0 = 1 ∧ ∀ t ∈ s.tasks, t.1.id = 1

private theorem Stuck.step {s t : PState Nat Bool} (h : Stuck s) (hs : PStep pollBodies id s t) : Stuck t := by
  obtain ⟨h1, h2, h3⟩ := h
  cases hs with
  | main hm =>
    have e : taskStep (pollBodies (rd 2 0)) false s.store = (some false, s.store) := by
      simp [taskStep, pollBodies, rd, pollBody, h2]
    simp only [PState.main, h1, e, Option.map_some] at hm
    cases hm
    exact ⟨rfl, h2, h3⟩
  | task i hi =>
    unfold PState.taskAt at hi
    split at hi
    · rename_i d x hd
      cases hi
      have hid : d.id = 1 := h3 _ (List.mem_of_getElem? hd)
      refine ⟨h1, ?_, fun t ht => ?_⟩
      · have hb : pollBodies d = setBody d := by simp [pollBodies, hid]
        simp only [hb, taskStep, setBody]
        cases x <;> simp [h2, hid]
      · rcases List.mem_or_eq_of_mem_set ht with ht | rfl
        · exact h3 t ht
        · exact hid
    · cases hi

/-- **C57 is violated** even if the conflicting main-thread system only reads, in that it depends on the order whether the run ends:
one execution ends, another reaches a state that no execution ends from. -/
theorem C57_reader_ends_violated : ∃ (sch sch' : Schedule) (e : ScheduleExec),
    sch.createExecutor 1 = .ok (sch', e) ∧ (∀ st, st = sch.init ∨ st ∈ sch.stages → ReadersOnly st ∧ BodiesRespect pollBodies st) ∧
    (∃ k t, PSteps pollBodies id k ⟨e.program 1, none, [], fun _ => 0⟩ t ∧ t.Finished) ∧
    ∃ k u, PSteps pollBodies id k ⟨e.program 1, none, [], fun _ => 0⟩ u ∧ ∀ j t, PSteps pollBodies id j u t → ¬ t.Finished := by
  refine ⟨⟨⟨[], []⟩, [⟨[wr 1 0], [rd 2 0]⟩]⟩, ⟨⟨[], []⟩, [⟨[], [rd 2 0]⟩]⟩, ⟨⟨[], []⟩, [⟨[[wr 1 0]], [rd 2 0]⟩]⟩, rfl, ?_, ?_, ?_⟩
  · intro st hst
    rcases hst with rfl | hst
    · exact ⟨(fun m hm => by cases hm), fun s hs => by cases hs⟩
    · rw [List.mem_singleton] at hst
      subst hst
      refine ⟨fun m hm s hs _ => .inr fun c hc => ?_, fun s hs => ?_⟩
      · rw [List.mem_singleton] at hm
        subst hm
        rcases hc with hc | hc <;> simp [rd] at hc
      · simp only [List.cons_append, List.nil_append, List.mem_cons, List.not_mem_nil, or_false] at hs
        rcases hs with rfl | rfl
        · exact setBody_respects _ _ (Or.inr (by decide)) (fun _ => Access.writes_reads)
        · exact pollBody_respects _ (Or.inr ⟨.read, by decide⟩) (fun _ => Access.writes_reads)
  · refine ⟨8, ⟨[], none, [], fun c => if c = 0 then 1 else 0⟩, ?_, rfl, rfl, by simp⟩
    refine .step (.main rfl) (.step (.main rfl) ?_)
    refine .step (.main rfl) (.step (.main rfl) ?_)
    refine .step (.task 0 rfl) (.step (.task 0 rfl) ?_)
    refine .step (.main rfl) (.step (.main rfl) (.refl _))
  · refine ⟨4, ⟨[.wait, .flush], some (rd 2 0, false), [(wr 1 0, some true)], fun c => if c = 0 then 1 else 0⟩, ?_, ?_⟩
    · refine .step (.main rfl) (.step (.main rfl) ?_)
      exact .step (.main rfl) (.step (.task 0 rfl) (.refl _))
    · intro j t ht hfin
      have key : ∀ {j : Nat} {s t : PState Nat Bool}, PSteps pollBodies id j s t → Stuck s → Stuck t := by
        intro j s t h
        induction h with
        | refl => exact fun h => h
        | step h1 _ ih => exact fun h => ih (h.step h1)
      have := key ht ⟨rfl, rfl, by simp [wr]⟩
      have h1 := hfin.2.1.symm.trans this.1
      cases h1

/-- The hypothesis on the stages can be met by one with a conflict. -/
example : ReadersOnly ⟨[wr 1 0], [rd 2 0]⟩ ∧ (wr 1 0).pattern.footprint.Conflict (rd 2 0).pattern.footprint := by
  refine ⟨fun m hm s hs _ => .inr fun c hc => ?_, 0, .inl ⟨.inr (by decide), .inr ⟨.read, by decide⟩⟩⟩
  rw [List.mem_singleton] at hm
  subst hm
  rcases hc with hc | hc <;> simp [rd] at hc

end CoEcs.Props
