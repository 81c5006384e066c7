import Verif.Proofs.ParallelExec
import Verif.Props.Schedule

/-!
# C38, C57: parallel execution is deterministic
-/

namespace CoEcs.Props
open Spec

variable {V L : Type}

/-! ## C38 -/

/-- **C38.**  Take any batch of any executor of any schedule of function systems, and bodies that touch only what
the systems declare.  For every start state:
if running the bodies one after another ends in `ρ`, then every interleaving of their atomic steps
is bounded in length, can be continued to the end, and ends in `ρ`; and if any interleaving ends, it ends
in a state in which running them one after another ends. -/
theorem C38_batch_deterministic (sch sch' : Schedule) (e : ScheduleExec) (fuel : Nat) (hf : ScheduleFromArgs sch)
    (h : sch.createExecutor fuel = .ok (sch', e)) (x : StageExec) (hx : x = e.init ∨ x ∈ e.stages)
    (b : List SysDesc) (hb : b ∈ x.batches) (bodies : SysDesc → Body V L) (fl : Store V → Store V)
    (hr : ∀ s ∈ b, (bodies s).Respects s.pattern.footprint) (σ : Store V) :
    (∀ ρ, SeqRun (b.map bodies) σ ρ → ∃ N, ∀ n u, PSteps bodies fl n ⟨execBatch [] b, none, [], σ⟩ u →
      n ≤ N ∧ (∃ t, PSteps bodies fl (N - n) u t ∧ t.Finished ∧ t.store = ρ) ∧ (u.Finished → u.store = ρ)) ∧
    (∀ n t, PSteps bodies fl n ⟨execBatch [] b, none, [], σ⟩ t → t.Finished → SeqRun (b.map bodies) σ t.store) := by
  obtain ⟨h1, h2⟩ := exec_batches_ok hf h
  have hbo : b ≠ [] ∧ b.Pairwise (fun x y => ¬ SysDesc.Conflict x y) := by
    rcases hx with rfl | hx
    · exact h1 b hb
    · exact h2 x hx b hb
  have hcode : execBatch [] b = b.map .submit ++ [.wait] := by
    unfold execBatch
    cases b with
    | nil => exact absurd rfl hbo.1
    | cons => simp
  have hok : DetOk bodies [] (execBatch [] b) := by
    rw [hcode]
    exact detOk_submits _ _ _ hr ⟨hbo.2, List.Pairwise.nil⟩
  have hse := seqExec_batch (bodies := bodies) (fl := fl) b [.wait] seqExec_wait
  rw [← hcode] at hse
  exact ⟨fun ρ hρ => det_all hok ((hse σ ρ).2 hρ), fun n t ht hfin => (hse σ _).1 (det_conv hok ht hfin)⟩

/-! ## C57 -/

/-- Sets component 0 to the system's id and returns. -/
def setBody (d : SysDesc) : Body Nat Bool :=
  ⟨false, fun x σ => if x then none else some (true, fun c => if c = 0 then d.id else σ c)⟩

theorem setBody_respects (d : SysDesc) (fp : Footprint) (h : fp.writes 0)
    (hwr : ∀ c, fp.writes c → fp.reads c) : (setBody d).Respects fp := by
  refine ⟨?_, ?_, ?_⟩
  · intro x σ x' σ' hst c hc
    have hc0 : c ≠ 0 := fun h0 => hc (h0 ▸ h)
    cases x with
    | true => cases hst
    | false =>
      simp only [setBody, Bool.false_eq_true, if_false, Option.some.injEq, Prod.mk.injEq] at hst
      rw [← hst.2]
      exact if_neg hc0
  · intro x σ τ _ hst
    cases x with
    | true => rfl
    | false => cases hst
  · intro x σ τ x' σ' hag hst
    cases x with
    | true => cases hst
    | false =>
      simp only [setBody, Bool.false_eq_true, if_false, Option.some.injEq, Prod.mk.injEq] at hst
      refine ⟨fun c => if c = 0 then d.id else τ c, ?_, ?_⟩
      · simp [setBody, hst.1]
      · intro c hc
        rw [← hst.2]
        by_cases h0 : c = 0
        · simp [h0]
        · simp only [h0, if_false]
          exact hag c (hwr c hc)

/-- **C57, as stated, is false**: a stage with one parallel and one main-thread system, both writing component 0
and respecting what they declare; two executions of it end in different states. -/
theorem C57_violated : ∃ (sch sch' : Schedule) (e : ScheduleExec) (t u : PState Nat Bool) (n m : Nat),
    sch.createExecutor 1 = .ok (sch', e) ∧
    (∀ st ∈ sch.stages, ∀ s ∈ st.systems ++ st.main, s.pattern.Ok ∧ (setBody s).Respects s.pattern.footprint) ∧
    PSteps setBody id n ⟨e.program 1, none, [], fun _ => 0⟩ t ∧ t.Finished ∧
    PSteps setBody id m ⟨e.program 1, none, [], fun _ => 0⟩ u ∧ u.Finished ∧ t.store 0 ≠ u.store 0 := by
  refine ⟨⟨⟨[], []⟩, [⟨[wr 1 0], [wr 2 0]⟩]⟩, ⟨⟨[], []⟩, [⟨[], [wr 2 0]⟩]⟩, ⟨⟨[], []⟩, [⟨[[wr 1 0]], [wr 2 0]⟩]⟩,
    ⟨[], none, [], fun c => if c = 0 then 2 else if c = 0 then 1 else 0⟩,
    ⟨[], none, [], fun c => if c = 0 then 1 else if c = 0 then 2 else 0⟩, 9, 9, rfl, ?_, ?_,
    ⟨rfl, rfl, by simp⟩, ?_, ⟨rfl, rfl, by simp⟩, by simp⟩
  · intro st hst s hs
    rw [List.mem_singleton] at hst
    subst hst
    simp only [List.cons_append, List.nil_append, List.mem_cons, List.not_mem_nil, or_false] at hs
    rcases hs with rfl | rfl
    · exact ⟨one_ok _ _ (by decide), setBody_respects _ _ (Or.inr (by decide)) (fun _ => Access.writes_reads)⟩
    · exact ⟨one_ok _ _ (by decide), setBody_respects _ _ (Or.inr (by decide)) (fun _ => Access.writes_reads)⟩
  · -- the task runs first
    refine .step (.main rfl) (.step (.main rfl) ?_)
    refine .step (.task 0 rfl) (.step (.task 0 rfl) ?_)
    refine .step (.main rfl) (.step (.main rfl) (.step (.main rfl) (.step (.main rfl) (.step (.main rfl) (.refl _)))))
  · -- the main-thread system runs first
    refine .step (.main rfl) (.step (.main rfl) ?_)
    refine .step (.main rfl) (.step (.main rfl) (.step (.main rfl) ?_))
    refine .step (.task 0 rfl) (.step (.task 0 rfl) ?_)
    refine .step (.main rfl) (.step (.main rfl) (.refl _))

/-- Main-thread systems of a stage do not conflict with its parallel systems. -/
def MainCompatible (st : Stage) : Prop := ∀ m ∈ st.main, ∀ s ∈ st.systems, ¬ s.pattern.footprint.Conflict m.pattern.footprint

/-- All bodies of a stage touch only what is declared. -/
def BodiesRespect (bodies : SysDesc → Body V L) (st : Stage) : Prop :=
  ∀ s ∈ st.systems ++ st.main, (bodies s).Respects s.pattern.footprint

private theorem detOk_stages {bodies : SysDesc → Body V L} : ∀ (es : List StageExec) (c : List Instr),
    (∀ x ∈ es, (∀ s ∈ x.main, (bodies s).Respects s.pattern.footprint) ∧
      ∀ b ∈ x.batches, b ≠ [] ∧ b.Pairwise (fun x y => ¬ SysDesc.Conflict x y) ∧
      (∀ s ∈ b, (bodies s).Respects s.pattern.footprint) ∧ ∀ m ∈ x.main, ∀ a ∈ b, ¬ SysDesc.Conflict a m) →
    DetOk bodies [] c → DetOk bodies [] (es.flatMap StageExec.code ++ c) := by
  intro es
  induction es with
  | nil => intro c _ h; exact h
  | cons x es ih =>
    intro c hx hc
    rw [List.flatMap_cons, List.append_assoc]
    obtain ⟨h1, h2⟩ := hx x (List.mem_cons_self ..)
    exact detOk_batches x.main h1 x.batches _ h2 (ih c (fun y hy => hx y (List.mem_cons_of_mem _ hy)) hc)

/-- **C57 (partial).**  Missing: schedules in which a main-thread system conflicts with a parallel system of its
stage, for which the property is false, and the effect of recorded commands, which here is any fixed function
of the component data.  In every other case, constructing the executor and running it `n` times has exactly one
outcome, the one of a single thread executing everything in submission order: if that terminates with
`ρ`, every execution is bounded in length, never blocks forever and ends in `ρ`; and every execution
that ends, ends in the state of the single-threaded one. -/
theorem C57_schedule_deterministic_partial (sch sch' : Schedule) (e : ScheduleExec) (fuel n : Nat)
    (hf : ScheduleFromArgs sch) (h : sch.createExecutor fuel = .ok (sch', e)) (bodies : SysDesc → Body V L)
    (fl : Store V → Store V) (hm : ∀ st, st = sch.init ∨ st ∈ sch.stages → MainCompatible st)
    (hr : ∀ st, st = sch.init ∨ st ∈ sch.stages → BodiesRespect bodies st) (σ : Store V) :
    (∀ ρ, SeqExec bodies fl (e.program n) σ ρ → ∃ N, ∀ k u, PSteps bodies fl k ⟨e.program n, none, [], σ⟩ u →
      k ≤ N ∧ (∃ t, PSteps bodies fl (N - k) u t ∧ t.Finished ∧ t.store = ρ) ∧ (u.Finished → u.store = ρ)) ∧
    (∀ k t, PSteps bodies fl k ⟨e.program n, none, [], σ⟩ t → t.Finished → SeqExec bodies fl (e.program n) σ t.store) := by
  obtain ⟨b1, b2⟩ := exec_batches_ok hf h
  obtain ⟨⟨si, h1, _⟩, h2, h3, h4⟩ := schedule_spec h
  have key : ∀ (st st' : Stage) (x : StageExec), (st = sch.init ∨ st ∈ sch.stages) →
      st.createExecutor fuel = .ok (st', x) → (∀ b ∈ x.batches, b ≠ [] ∧ b.Pairwise (fun x y => ¬ SysDesc.Conflict x y)) →
      (∀ s ∈ x.main, (bodies s).Respects s.pattern.footprint) ∧
      ∀ b ∈ x.batches, b ≠ [] ∧ b.Pairwise (fun x y => ¬ SysDesc.Conflict x y) ∧
      (∀ s ∈ b, (bodies s).Respects s.pattern.footprint) ∧ ∀ m ∈ x.main, ∀ a ∈ b, ¬ SysDesc.Conflict a m := by
    intro st st' x hst hx hb
    have hp : PatternsOk st.systems := by
      intro s hs
      rcases hst with rfl | hst
      · exact (fromArgs_ok (hf.1 s hs)).1
      · exact (fromArgs_ok (hf.2 st hst s hs)).1
    obtain ⟨_, k1, _, _, k2⟩ := stage_batches hx hp
    have hmem : ∀ b ∈ x.batches, ∀ s ∈ b, s ∈ st.systems := fun b hb s hs =>
      k2.subset (List.mem_flatten.2 ⟨b, hb, hs⟩)
    rw [k1]
    refine ⟨fun s hs => hr st hst s (List.mem_append_right _ hs), fun b hb' => ⟨(hb b hb').1, (hb b hb').2, ?_, ?_⟩⟩
    · exact fun s hs => hr st hst s (List.mem_append_left _ (hmem b hb' s hs))
    · exact fun m hm' a ha => hm st hst m hm' a (hmem b hb' a ha)
  have hstages : ∀ x ∈ e.stages, (∀ s ∈ x.main, (bodies s).Respects s.pattern.footprint) ∧
      ∀ b ∈ x.batches, b ≠ [] ∧ b.Pairwise (fun x y => ¬ SysDesc.Conflict x y) ∧
      (∀ s ∈ b, (bodies s).Respects s.pattern.footprint) ∧ ∀ m ∈ x.main, ∀ a ∈ b, ¬ SysDesc.Conflict a m := by
    intro x hx
    obtain ⟨i, hi, rfl⟩ := List.mem_iff_getElem.1 hx
    have hi' : i < sch.stages.length := by omega
    obtain ⟨st', y, k1, k2, k3⟩ := h4 i sch.stages[i] (List.getElem?_eq_getElem hi')
    rw [List.getElem?_eq_getElem hi] at k2
    cases k2
    exact key _ _ _ (Or.inr (List.getElem_mem hi')) k3 (b2 _ hx)
  have hruns : DetOk bodies [] (List.replicate n e.runOnce).flatten := by
    induction n with
    | zero => exact List.Pairwise.nil
    | succ n ih =>
      rw [List.replicate_succ, List.flatten_cons]
      unfold ScheduleExec.runOnce
      rw [List.append_assoc]
      exact detOk_stages _ _ hstages (detOk_append_flush ih)
  have hok : DetOk bodies [] (e.program n) := by
    unfold ScheduleExec.program ScheduleExec.construct StageExec.code
    rw [List.append_assoc]
    obtain ⟨k1, k2⟩ := key _ _ _ (Or.inl rfl) h1 b1
    exact detOk_batches _ k1 _ _ k2 (detOk_append_flush hruns)
  exact ⟨fun ρ hρ => det_all hok hρ, fun k t ht hfin => det_conv hok ht hfin⟩

/-! ### Examples -/

/-- Bodies that respect the pattern of a system that writes component 0. -/
example : (setBody (wr 1 0)).Respects (wr 1 0).pattern.footprint :=
  setBody_respects _ _ (Or.inr (by decide)) (fun _ => Access.writes_reads)

/-- The single-threaded run of that system terminates. -/
example : SeqRun [setBody (wr 1 0)] (fun _ => 0) (fun c => if c = 0 then 1 else 0) :=
  .cons (.more rfl (.done rfl)) .nil

end CoEcs.Props
