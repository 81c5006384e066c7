import Verif.Model.Schedule
import Verif.Proofs.Access

namespace CoEcs
open Spec

/-! ## Batches -/

/-- All patterns well-formed. -/
def PatternsOk (ss : List SysDesc) : Prop := ∀ s ∈ ss, s.pattern.Ok

theorem pass_ok : ∀ (ss : List SysDesc) (acc : Access), acc.Ok → PatternsOk ss →
    ∃ b r, Stage.pass acc ss = .ok (b, r) ∧ (b ++ r).Perm ss ∧ b.Sublist ss ∧ r.Sublist ss := by
  intro ss
  induction ss with
  | nil => intro acc _ _; exact ⟨[], [], rfl, by simp, by simp, by simp⟩
  | cons s ss ih =>
    intro acc ha hp
    have hs := hp s (List.mem_cons_self ..)
    have hp' : PatternsOk ss := fun x hx => hp x (List.mem_cons_of_mem _ hx)
    rcases Access.allows_total (p := acc) hs with h | h
    · obtain ⟨acc', hm, hok, _⟩ := Access.merge_ok ha hs
      obtain ⟨b, r, h1, h2, h3, h4⟩ := ih acc' hok hp'
      refine ⟨s :: b, r, by simp only [Stage.pass, h, hm, h1, Run.bind], ?_, h3.cons₂ s, h4.cons s⟩
      simpa using h2.cons s
    · obtain ⟨b, r, h1, h2, h3, h4⟩ := ih acc ha hp'
      refine ⟨b, s :: r, by simp only [Stage.pass, h, h1, Run.bind], ?_, h3.cons s, h4.cons₂ s⟩
      exact (List.perm_middle).trans (h2.cons s)

/-- The empty pattern allows everything. -/
theorem empty_allows (q : Access) : Access.empty.allows q = .ok true := rfl

theorem pass_head (s : SysDesc) (ss : List SysDesc) (hp : PatternsOk (s :: ss)) :
    ∃ b r, Stage.pass Access.empty (s :: ss) = .ok (s :: b, r) ∧ (s :: b ++ r).Perm (s :: ss) ∧
      r.length ≤ ss.length ∧ (s :: b).Sublist (s :: ss) ∧ r.Sublist ss := by
  obtain ⟨acc', hm, hok, _⟩ := Access.merge_ok Access.empty_ok (hp s (List.mem_cons_self ..))
  obtain ⟨b, r, h1, h2, h3, h4⟩ := pass_ok ss acc' hok (fun x hx => hp x (List.mem_cons_of_mem _ hx))
  refine ⟨b, r, by simp only [Stage.pass, empty_allows, hm, h1, Run.bind], by simpa using h2.cons s, ?_,
    h3.cons₂ s, h4⟩
  exact h4.length_le

theorem batches_ok : ∀ (n : Nat) (ss : List SysDesc), ss.length ≤ n → PatternsOk ss →
    ∀ fuel, ss.length ≤ fuel → ∃ bs, Stage.batches fuel ss = .ok bs ∧ bs.flatten.Perm ss ∧
      (∀ b ∈ bs, b ≠ []) := by
  intro n
  induction n with
  | zero =>
    intro ss hl _ fuel _
    have : ss = [] := List.length_eq_zero_iff.1 (by omega)
    subst this
    cases fuel <;> exact ⟨[], rfl, by simp, by simp⟩
  | succ n ih =>
    intro ss hl hp fuel hf
    cases ss with
    | nil => cases fuel <;> exact ⟨[], rfl, by simp, by simp⟩
    | cons s ss =>
      cases fuel with
      | zero => simp at hf
      | succ fuel =>
        obtain ⟨b, r, h1, h2, h3, _, h5⟩ := pass_head s ss hp
        simp only [List.length_cons] at hl hf
        obtain ⟨bs, h6, h7, h8⟩ := ih r (by omega)
          (fun x hx => hp x (List.mem_cons_of_mem _ (h5.subset hx))) fuel (by omega)
        refine ⟨(s :: b) :: bs, by simp only [Stage.batches, h1, h6, Run.bind], ?_, ?_⟩
        · rw [List.flatten_cons]
          exact (h7.append_left (s :: b)).trans h2
        · intro x hx
          rcases List.mem_cons.1 hx with rfl | hx
          · simp
          · exact h8 x hx

/-! ## Conflicts inside a batch -/

/-- No whole-registry read access without write access (what system arguments can declare). -/
def NoRegRead (ss : List SysDesc) : Prop := ∀ s ∈ ss, s.pattern.reg ≠ .read

def SysDesc.Conflict (a b : SysDesc) : Prop := a.pattern.footprint.Conflict b.pattern.footprint

/-- Every member of the batch is compatible with the accumulated pattern and with later members. -/
theorem pass_conflict : ∀ (ss : List SysDesc) (acc : Access), acc.Ok → PatternsOk ss → NoRegRead ss →
    acc.reg ≠ .read → ∀ {b r}, Stage.pass acc ss = .ok (b, r) →
    (∀ s ∈ b, ¬ acc.footprint.Conflict s.pattern.footprint) ∧
    b.Pairwise (fun x y => ¬ SysDesc.Conflict x y) := by
  intro ss
  induction ss with
  | nil => intro acc _ _ _ _ b r h; cases h; exact ⟨fun s hs => (by cases hs), List.Pairwise.nil⟩
  | cons s ss ih =>
    intro acc ha hp hn hr b r h
    have hs := hp s (List.mem_cons_self ..)
    have hp' : PatternsOk ss := fun x hx => hp x (List.mem_cons_of_mem _ hx)
    have hn' : NoRegRead ss := fun x hx => hn x (List.mem_cons_of_mem _ hx)
    rcases Access.allows_total (p := acc) hs with hal | hal
    · obtain ⟨acc', hm, hok, hreg, hrd, hwr⟩ := Access.merge_ok ha hs
      obtain ⟨b', r', h1, _⟩ := pass_ok ss acc' hok hp'
      simp only [Stage.pass, hal, hm, h1, Run.bind, Run.ok.injEq, Prod.mk.injEq] at h
      obtain ⟨rfl, rfl⟩ := h
      have hreg' : acc'.reg ≠ .read := by
        rw [hreg]
        have := hn s (List.mem_cons_self ..)
        revert hr this
        cases acc.reg <;> cases s.pattern.reg <;> simp [AccessType.max]
      obtain ⟨h2, h3⟩ := ih acc' hok hp' hn' hreg' h1
      have h0 := Access.allows_sound hs hr hal
      refine ⟨?_, List.Pairwise.cons ?_ h3⟩
      · intro x hx
        rcases List.mem_cons.1 hx with rfl | hx
        · exact h0
        · rintro ⟨c, h | h⟩
          · exact h2 x hx ⟨c, Or.inl ⟨(hwr c).2 (Or.inl h.1), h.2⟩⟩
          · exact h2 x hx ⟨c, Or.inr ⟨h.1, (hrd c).2 (Or.inl h.2)⟩⟩
      · intro x hx
        rintro ⟨c, h | h⟩
        · exact h2 x hx ⟨c, Or.inl ⟨(hwr c).2 (Or.inr h.1), h.2⟩⟩
        · exact h2 x hx ⟨c, Or.inr ⟨h.1, (hrd c).2 (Or.inr h.2)⟩⟩
    · obtain ⟨b', r', h1, _⟩ := pass_ok ss acc ha hp'
      simp only [Stage.pass, hal, h1, Run.bind, Run.ok.injEq, Prod.mk.injEq] at h
      obtain ⟨rfl, rfl⟩ := h
      exact ih acc ha hp' hn' hr h1

theorem batches_conflict : ∀ (n : Nat) (ss : List SysDesc), ss.length ≤ n → PatternsOk ss → NoRegRead ss →
    ∀ fuel bs, Stage.batches fuel ss = .ok bs → ∀ b ∈ bs, b.Pairwise (fun x y => ¬ SysDesc.Conflict x y) := by
  intro n
  induction n with
  | zero =>
    intro ss hl _ _ fuel bs h b hb
    have : ss = [] := List.length_eq_zero_iff.1 (by omega)
    subst this
    cases fuel <;> cases h <;> cases hb
  | succ n ih =>
    intro ss hl hp hn fuel bs h b hb
    cases ss with
    | nil => cases fuel <;> cases h <;> cases hb
    | cons s ss =>
      cases fuel with
      | zero => cases h
      | succ fuel =>
        obtain ⟨b', r, h1, h2, h3, _, h5⟩ := pass_head s ss hp
        simp only [Stage.batches, h1, Run.bind] at h
        cases hb' : Stage.batches fuel r with
        | ok bs' =>
          rw [hb'] at h
          cases h
          simp only [List.length_cons] at hl
          rcases List.mem_cons.1 hb with rfl | hb
          · exact (pass_conflict _ _ Access.empty_ok hp hn (by decide) h1).2
          · exact ih r (by omega) (fun x hx => hp x (List.mem_cons_of_mem _ (h5.subset hx)))
              (fun x hx => hn x (List.mem_cons_of_mem _ (h5.subset hx))) fuel bs' hb' b hb
        | ub => rw [hb'] at h; cases h
        | stuck => rw [hb'] at h; cases h

/-! ## Executions -/

theorem SchedSteps.append {s t u : SchedState} {a b : List SchedEvent} (h1 : SchedSteps s a t)
    (h2 : SchedSteps t b u) : SchedSteps s (a ++ b) u := by
  induction h1 with
  | refl => exact h2
  | step hs _ ih =>
    rw [List.append_assoc]
    exact .step hs (ih h2)

/-- How often a system is still to be started / finished. -/
def toStart (id : Nat) (s : SchedState) : Nat :=
  s.code.countP (fun i => match i with | .submit x => x.id == id | _ => false) +
  s.tasks.countP (fun t => t.1.id == id && !t.2)

def toFinish (id : Nat) (s : SchedState) : Nat :=
  s.code.countP (fun i => match i with | .submit x => x.id == id | _ => false) +
  s.tasks.countP (fun t => t.1.id == id)

def toMainStart (id : Nat) (s : SchedState) : Nat :=
  s.code.countP (fun i => match i with | .runMain x => x.id == id | _ => false)

def toMainFinish (id : Nat) (s : SchedState) : Nat :=
  s.code.countP (fun i => match i with | .runMain x => x.id == id | .endMain x => x.id == id | _ => false)

def toFlush (s : SchedState) : Nat :=
  s.code.countP (fun i => match i with | .flush => true | _ => false)

theorem steps_counts {s t : SchedState} {tr : List SchedEvent} (h : SchedSteps s tr t) (id : Nat) :
    toStart id s = tr.count (.start id) + toStart id t ∧
    toFinish id s = tr.count (.finish id) + toFinish id t ∧
    toMainStart id s = tr.count (.mainStart id) + toMainStart id t ∧
    toMainFinish id s = tr.count (.mainFinish id) + toMainFinish id t ∧
    toFlush s = tr.count .flush + toFlush t := by
  induction h with
  | refl => simp
  | step hs _ ih =>
    obtain ⟨h1, h2, h3, h4, h5⟩ := ih
    cases hs <;>
      simp only [Option.toList_none, Option.toList_some, List.nil_append, List.singleton_append, List.count_cons,
        toStart, toFinish, toMainStart, toMainFinish, toFlush, List.countP_cons, List.countP_append,
        List.countP_nil] at * <;>
      refine ⟨?_, ?_, ?_, ?_, ?_⟩ <;> simp only [SchedEvent.start.injEq, SchedEvent.finish.injEq,
        SchedEvent.mainStart.injEq, SchedEvent.mainFinish.injEq, beq_iff_eq, reduceCtorEq, if_false, Nat.add_zero,
        Bool.not_true, Bool.not_false, Bool.and_false, Bool.and_true, Bool.false_eq_true] at * <;> grind

/-! ## Splitting executions at `wait` -/

/-- Steps of some code can also be taken with more code behind it. -/
theorem SchedStep.extend {s t : SchedState} {ev : Option SchedEvent} (h : SchedStep s ev t)
    (q : List Instr) : (s.code = .wait :: t.code → s.tasks = []) →
    SchedStep ⟨s.code ++ q, s.tasks⟩ ev ⟨t.code ++ q, t.tasks⟩ := by
  intro _
  cases h
  · exact .submit _ _ _
  · exact .mainStart _ _ _
  · exact .mainFinish _ _ _
  · exact .wait _
  · exact .flush _ _
  · exact .start _ _ _ _
  · exact .finish _ _ _ _

theorem SchedSteps.extend {s t : SchedState} {tr : List SchedEvent} (h : SchedSteps s tr t) (q : List Instr) :
    SchedSteps ⟨s.code ++ q, s.tasks⟩ tr ⟨t.code ++ q, t.tasks⟩ := by
  induction h with
  | refl => exact .refl _
  | step hs _ ih =>
    refine .step (hs.extend q ?_) ih
    intro _
    cases hs <;> simp_all

theorem split_wait {s u : SchedState} {tr : List SchedEvent} (h : SchedSteps s tr u) (hu : u = ⟨[], []⟩) :
    ∀ p q, s.code = p ++ .wait :: q →
    ∃ t1 t2, tr = t1 ++ t2 ∧ SchedSteps ⟨p, s.tasks⟩ t1 ⟨[], []⟩ ∧ SchedSteps ⟨q, []⟩ t2 ⟨[], []⟩ := by
  induction h with
  | refl => intro p q hc; subst hu; simp at hc
  | @step s t u ev tr hs hr ih =>
    intro p q hc
    have ih := ih hu
    cases hs with
    | submit x c ts =>
      cases p with
      | nil => simp at hc
      | cons i p =>
        simp only [List.cons_append, List.cons.injEq] at hc
        obtain ⟨rfl, rfl⟩ := hc
        obtain ⟨t1, t2, h1, h2, h3⟩ := ih p q rfl
        exact ⟨t1, t2, by simp [h1], .step (.submit x p ts) h2, h3⟩
    | mainStart m c ts =>
      cases p with
      | nil => simp at hc
      | cons i p =>
        simp only [List.cons_append, List.cons.injEq] at hc
        obtain ⟨rfl, rfl⟩ := hc
        obtain ⟨t1, t2, h1, h2, h3⟩ := ih (.endMain m :: p) q rfl
        exact ⟨.mainStart m.id :: t1, t2, by simp [h1], .step (.mainStart m p ts) h2, h3⟩
    | mainFinish m c ts =>
      cases p with
      | nil => simp at hc
      | cons i p =>
        simp only [List.cons_append, List.cons.injEq] at hc
        obtain ⟨rfl, rfl⟩ := hc
        obtain ⟨t1, t2, h1, h2, h3⟩ := ih p q rfl
        exact ⟨.mainFinish m.id :: t1, t2, by simp [h1], .step (.mainFinish m p ts) h2, h3⟩
    | wait c =>
      cases p with
      | nil =>
        simp only [List.nil_append, List.cons.injEq, true_and] at hc
        subst hc
        subst hu
        exact ⟨[], tr, rfl, .refl _, hr⟩
      | cons i p =>
        simp only [List.cons_append, List.cons.injEq] at hc
        obtain ⟨rfl, rfl⟩ := hc
        obtain ⟨t1, t2, h1, h2, h3⟩ := ih p q rfl
        exact ⟨t1, t2, by simp [h1], .step (.wait p) h2, h3⟩
    | flush c ts =>
      cases p with
      | nil => simp at hc
      | cons i p =>
        simp only [List.cons_append, List.cons.injEq] at hc
        obtain ⟨rfl, rfl⟩ := hc
        obtain ⟨t1, t2, h1, h2, h3⟩ := ih p q rfl
        exact ⟨.flush :: t1, t2, by simp [h1], .step (.flush p ts) h2, h3⟩
    | start x c l r =>
      obtain ⟨t1, t2, h1, h2, h3⟩ := ih p q hc
      exact ⟨.start x.id :: t1, t2, by simp [h1], .step (.start x p l r) h2, h3⟩
    | finish x c l r =>
      obtain ⟨t1, t2, h1, h2, h3⟩ := ih p q hc
      exact ⟨.finish x.id :: t1, t2, by simp [h1], .step (.finish x p l r) h2, h3⟩

/-- Code after which no task is left over: executions of more code split behind it. -/
def Closed (p : List Instr) : Prop :=
  ∀ q tr, SchedTrace (p ++ q) tr → ∃ t1 t2, tr = t1 ++ t2 ∧ SchedTrace p t1 ∧ SchedTrace q t2

theorem closed_nil : Closed [] := fun q tr h => ⟨[], tr, rfl, .refl _, h⟩

theorem closed_wait (p : List Instr) : Closed (p ++ [.wait]) := by
  intro q tr h
  rw [List.append_assoc] at h
  obtain ⟨t1, t2, h1, h2, h3⟩ := split_wait h rfl p q rfl
  refine ⟨t1, t2, h1, ?_, h3⟩
  have := (h2.extend [.wait]).append (.step (.wait []) (.refl _))
  simp only [List.nil_append, Option.toList_none, List.append_nil] at this
  exact this

theorem closed_flush : Closed [.flush] := by
  intro q tr h
  unfold SchedTrace at h
  generalize hs : (⟨[Instr.flush] ++ q, []⟩ : SchedState) = s at h
  cases h with
  | refl => cases hs
  | step hst hr =>
    subst hs
    generalize hs' : (⟨[Instr.flush] ++ q, []⟩ : SchedState) = s at hst
    cases hst with
    | flush c ts =>
      simp only [List.singleton_append, SchedState.mk.injEq, List.cons.injEq, true_and] at hs'
      obtain ⟨rfl, rfl⟩ := hs'
      exact ⟨[.flush], _, rfl, .step (.flush [] []) (.refl _), hr⟩
    | submit => simp at hs'
    | mainStart => simp at hs'
    | mainFinish => simp at hs'
    | wait => simp at hs'
    | start => simp at hs'
    | finish => simp at hs'

theorem Closed.append {p q : List Instr} (hp : Closed p) (hq : Closed q) : Closed (p ++ q) := by
  intro r tr h
  rw [List.append_assoc] at h
  obtain ⟨t1, t2, rfl, h1, h2⟩ := hp _ _ h
  obtain ⟨t3, t4, rfl, h3, h4⟩ := hq _ _ h2
  refine ⟨t1 ++ t3, t4, by simp, ?_, h4⟩
  have := (h1.extend q).append h3
  exact this

theorem closed_flatMap {α : Type} (f : α → List Instr) (l : List α) (h : ∀ a ∈ l, Closed (f a)) :
    Closed (l.flatMap f) := by
  induction l with
  | nil => exact closed_nil
  | cons a l ih =>
    rw [List.flatMap_cons]
    exact (h a (List.mem_cons_self ..)).append (ih fun x hx => h x (List.mem_cons_of_mem _ hx))

theorem closed_batch (main : List SysDesc) {b : List SysDesc} (hb : b ≠ []) : Closed (execBatch main b) := by
  unfold execBatch
  cases b with
  | nil => exact absurd rfl hb
  | cons x b => exact closed_wait _

theorem closed_stage (e : StageExec) (h : ∀ b ∈ e.batches, b ≠ []) : Closed e.code :=
  closed_flatMap _ _ fun b hb => closed_batch _ (h b hb)

/-- Splitting an execution of a list of closed blocks. -/
theorem split_flatMap {α : Type} (f : α → List Instr) : ∀ (l : List α) (tr : List SchedEvent),
    (∀ a ∈ l, Closed (f a)) → SchedTrace (l.flatMap f) tr →
    ∃ ts : List (List SchedEvent), tr = ts.flatten ∧ ts.length = l.length ∧
      ∀ (i : Nat) (a : α) (t : List SchedEvent), l[i]? = some a → ts[i]? = some t → SchedTrace (f a) t := by
  intro l
  induction l with
  | nil =>
    intro tr _ h
    refine ⟨[], ?_, rfl, fun i a t h => by simp at h⟩
    unfold SchedTrace at h
    simp only [List.flatMap_nil] at h
    generalize hs : (⟨[], []⟩ : SchedState) = s at h
    cases h with
    | refl => rfl
    | step hst _ => subst hs; generalize hs' : (⟨[], []⟩ : SchedState) = s at hst; cases hst <;> simp at hs'
  | cons a l ih =>
    intro tr hc h
    rw [List.flatMap_cons] at h
    obtain ⟨t1, t2, rfl, h1, h2⟩ := hc a (List.mem_cons_self ..) _ _ h
    obtain ⟨ts, rfl, hl, hts⟩ := ih t2 (fun x hx => hc x (List.mem_cons_of_mem _ hx)) h2
    refine ⟨t1 :: ts, rfl, by simp [hl], ?_⟩
    intro i b t hb ht
    cases i with
    | zero => simp only [List.getElem?_cons_zero, Option.some.injEq] at hb ht; subst hb ht; exact h1
    | succ i => simp only [List.getElem?_cons_succ] at hb ht; exact hts i b t hb ht

/-! ## What a trace of a stage contains -/

theorem countP_flatMap {α β : Type} (p : β → Bool) (f : α → List β) (l : List α) :
    (l.flatMap f).countP p = (l.map fun a => (f a).countP p).sum := by
  induction l with
  | nil => rfl
  | cons a l ih => simp [List.flatMap_cons, List.countP_append, ih]

theorem batch_submits (main b : List SysDesc) (id : Nat) :
    (execBatch main b).countP (fun i => match i with | .submit x => x.id == id | _ => false) =
      (b.map SysDesc.id).count id := by
  unfold execBatch
  simp only [List.countP_append, List.countP_map, List.count_eq_countP]
  have h1 : List.countP ((fun i : Instr => match i with | .submit x => x.id == id | _ => false) ∘ Instr.runMain) main = 0 := by
    simp
  have h2 : List.countP (fun i : Instr => match i with | .submit x => x.id == id | _ => false)
      (if b.isEmpty then [] else [Instr.wait]) = 0 := by split <;> simp
  rw [h1, h2]
  rfl

theorem batch_mains (main b : List SysDesc) (id : Nat) :
    (execBatch main b).countP (fun i => match i with | .runMain x => x.id == id | _ => false) =
      (main.map SysDesc.id).count id := by
  unfold execBatch
  simp only [List.countP_append, List.countP_map, List.count_eq_countP]
  have h1 : List.countP ((fun i : Instr => match i with | .runMain x => x.id == id | _ => false) ∘ Instr.submit) b = 0 := by
    simp
  have h2 : List.countP (fun i : Instr => match i with | .runMain x => x.id == id | _ => false)
      (if b.isEmpty then [] else [Instr.wait]) = 0 := by split <;> simp
  rw [h1, h2, Nat.zero_add, Nat.add_zero]
  rfl

theorem batch_flush (main b : List SysDesc) :
    (execBatch main b).countP (fun i => match i with | .flush => true | _ => false) = 0 := by
  unfold execBatch
  simp only [List.countP_append, List.countP_map]
  have h2 : List.countP (fun i : Instr => match i with | .flush => true | _ => false)
      (if b.isEmpty then [] else [Instr.wait]) = 0 := by split <;> simp
  rw [h2]
  simp

theorem flatten_map_count (bs : List (List SysDesc)) (id : Nat) :
    (bs.map fun b => (b.map SysDesc.id).count id).sum = (bs.flatten.map SysDesc.id).count id := by
  induction bs with
  | nil => rfl
  | cons b bs ih => simp [ih]

theorem sum_map_const {α : Type} (l : List α) (n : Nat) : (l.map fun _ => n).sum = l.length * n := by
  induction l with
  | nil => simp
  | cons b l ih => simp only [List.map_cons, List.sum_cons, ih, List.length_cons, Nat.add_mul]; omega

/-- Counting the events of an execution of some batches. -/
theorem batches_trace_counts (main : List SysDesc) (bs : List (List SysDesc)) {tr : List SchedEvent}
    (h : SchedTrace (bs.flatMap (execBatch main)) tr) (id : Nat) :
    tr.count (.start id) = (bs.flatten.map SysDesc.id).count id ∧
    tr.count (.finish id) = (bs.flatten.map SysDesc.id).count id ∧
    tr.count (.mainStart id) = bs.length * (main.map SysDesc.id).count id ∧
    tr.count .flush = 0 := by
  obtain ⟨h1, h2, h3, h4, h5⟩ := steps_counts h id
  simp only [toStart, toFinish, toMainStart, toFlush, countP_flatMap, batch_submits, batch_mains, batch_flush,
    List.countP_nil, Nat.add_zero, flatten_map_count, sum_map_const] at h1 h2 h3 h5
  exact ⟨h1.symm, h2.symm, h3.symm, by simpa using h5.symm⟩

/-! ## Order of conflicting systems -/

/-- The accumulated pattern describes exactly the batch so far. -/
structure AccRep (acc : Access) (B : List SysDesc) : Prop where
  ok : acc.Ok
  reads : ∀ c, acc.footprint.reads c ↔ ∃ k ∈ B, k.pattern.footprint.reads c
  writes : ∀ c, acc.footprint.writes c ↔ ∃ k ∈ B, k.pattern.footprint.writes c
  reg : acc.reg = .none ∨ (acc.reg = .write ∧ ∃ k ∈ B, k.pattern.reg = .write)

theorem accRep_empty : AccRep Access.empty [] := by
  refine ⟨Access.empty_ok, ?_, ?_, Or.inl rfl⟩ <;> intro c <;>
    simp [Access.footprint, Access.empty, SparseTable.empty]

theorem AccRep.merge {acc acc' : Access} {B : List SysDesc} {s : SysDesc} (h : AccRep acc B)
    (hs : s.pattern.Ok) (hr : s.pattern.reg ≠ .read) (hm : acc.merge s.pattern = .ok acc') :
    AccRep acc' (B ++ [s]) := by
  obtain ⟨a, h1, h2, h3, h4, h5⟩ := Access.merge_ok h.ok hs
  rw [hm] at h1
  cases h1
  refine ⟨h2, ?_, ?_, ?_⟩
  · intro c; rw [h4, h.reads]; simp [or_and_right, exists_or]
  · intro c; rw [h5, h.writes]; simp [or_and_right, exists_or]
  · rw [h3]
    rcases h.reg with hreg | ⟨hreg, k, hk, hkw⟩
    · rw [hreg]
      cases hsr : s.pattern.reg with
      | none => left; rfl
      | read => exact absurd hsr hr
      | write => right; exact ⟨rfl, s, by simp, hsr⟩
    · right
      rw [hreg]
      exact ⟨rfl, k, by simp [hk], hkw⟩

theorem footprint_writes_reads {p : Access} {c : Nat} (h : p.footprint.writes c) : p.footprint.reads c := by
  rcases h with h | h
  · left; rw [h]; decide
  · right; exact ⟨_, h⟩

/-- A system that was put off conflicts with one of the batch, unless it accesses nothing. -/
theorem AccRep.blocked {acc : Access} {B : List SysDesc} {x y : SysDesc} (h : AccRep acc B)
    (hx : x.pattern.Ok) (hal : acc.allows x.pattern = .ok false) (hc : SysDesc.Conflict x y) :
    ∃ k ∈ B, SysDesc.Conflict k x := by
  rcases h.reg with hreg | ⟨hreg, k, hk, hkw⟩
  · have : acc.footprint.Conflict x.pattern.footprint := by
      apply Classical.byContradiction
      intro hn
      rw [Access.allows_complete hx hreg hn] at hal
      cases hal
    obtain ⟨c, ⟨h1, h2⟩ | ⟨h1, h2⟩⟩ := this
    · obtain ⟨k, hk, hkc⟩ := (h.writes c).1 h1
      exact ⟨k, hk, c, Or.inl ⟨hkc, h2⟩⟩
    · obtain ⟨k, hk, hkc⟩ := (h.reads c).1 h2
      exact ⟨k, hk, c, Or.inr ⟨h1, hkc⟩⟩
  · refine ⟨k, hk, ?_⟩
    obtain ⟨c, ⟨h1, h2⟩ | ⟨h1, h2⟩⟩ := hc
    · exact ⟨c, Or.inl ⟨Or.inl hkw, footprint_writes_reads h1⟩⟩
    · exact ⟨c, Or.inl ⟨Or.inl hkw, h2⟩⟩

/-- Conflicts carry over: two systems in conflict with a third one are in conflict. -/
def ConflictTransitive (ss : List SysDesc) : Prop :=
  ∀ x ∈ ss, ∀ y ∈ ss, ∀ z ∈ ss, x.id ≠ z.id → SysDesc.Conflict x y → SysDesc.Conflict y z → SysDesc.Conflict x z

theorem pass_order : ∀ (ss : List SysDesc) (acc : Access) (B : List SysDesc), AccRep acc B → PatternsOk ss →
    NoRegRead ss → ConflictTransitive (B ++ ss) → ((B ++ ss).map SysDesc.id).Nodup →
    ∀ {b r}, Stage.pass acc ss = .ok (b, r) → ∀ x y, [x, y].Sublist ss → SysDesc.Conflict x y → y ∉ b := by
  intro ss
  induction ss with
  | nil => intro acc B _ _ _ _ _ b r _ x y hxy; cases hxy
  | cons s ss ih =>
    intro acc B hacc hp hn ht hd b r h x y hxy hc
    have hs := hp s (List.mem_cons_self ..)
    have hsr := hn s (List.mem_cons_self ..)
    have hp' : PatternsOk ss := fun x hx => hp x (List.mem_cons_of_mem _ hx)
    have hn' : NoRegRead ss := fun x hx => hn x (List.mem_cons_of_mem _ hx)
    have hreg : acc.reg ≠ .read := by
      rcases hacc.reg with h | ⟨h, _⟩ <;> rw [h] <;> decide
    have hpc := pass_conflict (s :: ss) acc hacc.ok hp hn hreg h
    have hyss : y ∈ ss := by
      cases hxy with
      | cons _ h => exact h.subset (by simp)
      | cons_cons _ h => exact h.subset (by simp)
    have hys : s ≠ y := by
      rintro rfl
      rw [List.map_append, List.map_cons] at hd
      have := (List.nodup_append.1 hd).2.1
      exact (List.nodup_cons.1 this).1 (List.mem_map_of_mem hyss)
    rcases Access.allows_total (p := acc) hs with hal | hal
    · obtain ⟨acc', hm, hok, _⟩ := Access.merge_ok hacc.ok hs
      obtain ⟨b', r', h1, _⟩ := pass_ok ss acc' hok hp'
      have h' := h
      simp only [Stage.pass, hal, hm, h1, Run.bind, Run.ok.injEq, Prod.mk.injEq] at h'
      obtain ⟨rfl, rfl⟩ := h'
      have hacc' := hacc.merge hs hsr hm
      cases hxy with
      | cons _ hxy =>
        have := ih acc' (B ++ [s]) hacc' hp' hn' (by simpa using ht) (by simpa using hd) h1 x y hxy hc
        intro hy
        rcases List.mem_cons.1 hy with rfl | hy
        · exact hys rfl
        · exact this hy
      | cons_cons _ hxy =>
        intro hy
        rcases List.mem_cons.1 hy with rfl | hy
        · exact hys rfl
        · have := List.rel_of_pairwise_cons hpc.2 hy
          exact this hc
    · obtain ⟨b', r', h1, _⟩ := pass_ok ss acc hacc.ok hp'
      have h' := h
      simp only [Stage.pass, hal, h1, Run.bind, Run.ok.injEq, Prod.mk.injEq] at h'
      obtain ⟨rfl, rfl⟩ := h'
      cases hxy with
      | cons _ hxy =>
        refine ih acc B hacc hp' hn' ?_ ?_ h1 x y hxy hc
        · intro x hx y hy z hz
          refine ht x ?_ y ?_ z ?_ <;> simp only [List.mem_append, List.mem_cons] at * <;> grind
        · exact hd.sublist ((List.Sublist.append_left (List.sublist_cons_self ..) B).map _)
      | cons_cons _ hxy =>
        obtain ⟨k, hk, hkx⟩ := hacc.blocked hs hal hc
        have hky : k.id ≠ y.id := by
          rw [List.map_append] at hd
          exact (List.nodup_append.1 hd).2.2 _ (List.mem_map_of_mem hk) _
            (List.mem_map_of_mem (List.mem_cons_of_mem _ hyss))
        have hkc := ht k (by simp [hk]) s (by simp) y (by simp [hyss]) hky hkx hc
        intro hy
        refine hpc.1 y hy ?_
        obtain ⟨c, ⟨h1, h2⟩ | ⟨h1, h2⟩⟩ := hkc
        · exact ⟨c, Or.inl ⟨(hacc.writes c).2 ⟨k, hk, h1⟩, h2⟩⟩
        · exact ⟨c, Or.inr ⟨h1, (hacc.reads c).2 ⟨k, hk, h2⟩⟩⟩

/-- A pair that stays together in the rest keeps its order there. -/
theorem pass_pairs : ∀ (ss : List SysDesc) (acc : Access) {b r}, acc.Ok → PatternsOk ss →
    Stage.pass acc ss = .ok (b, r) →
    ∀ x y, [x, y].Sublist ss → x ∈ b ∨ y ∈ b ∨ [x, y].Sublist r := by
  intro ss
  induction ss with
  | nil => intro acc b r _ _ _ x y h; cases h
  | cons s ss ih =>
    intro acc b r ha hp h x y hxy
    have hs := hp s (List.mem_cons_self ..)
    have hp' : PatternsOk ss := fun x hx => hp x (List.mem_cons_of_mem _ hx)
    rcases Access.allows_total (p := acc) hs with hal | hal
    · obtain ⟨acc', hm, hok, _⟩ := Access.merge_ok ha hs
      obtain ⟨b', r', h1, h2, _⟩ := pass_ok ss acc' hok hp'
      simp only [Stage.pass, hal, hm, h1, Run.bind, Run.ok.injEq, Prod.mk.injEq] at h
      obtain ⟨rfl, rfl⟩ := h
      cases hxy with
      | cons _ hxy => have := ih acc' hok hp' h1 x y hxy; grind
      | cons_cons _ _ => left; simp
    · obtain ⟨b', r', h1, h2, _⟩ := pass_ok ss acc ha hp'
      simp only [Stage.pass, hal, h1, Run.bind, Run.ok.injEq, Prod.mk.injEq] at h
      obtain ⟨rfl, rfl⟩ := h
      cases hxy with
      | cons _ hxy =>
        rcases ih acc ha hp' h1 x y hxy with h | h | h
        · exact Or.inl h
        · exact Or.inr (Or.inl h)
        · exact Or.inr (Or.inr (h.cons s))
      | cons_cons _ hxy =>
        have hy : y ∈ b' ++ r' := h2.symm.subset (hxy.subset (by simp))
        rcases List.mem_append.1 hy with hy | hy
        · exact Or.inr (Or.inl hy)
        · right; right
          exact List.Sublist.cons_cons s (List.singleton_sublist.2 hy)

theorem batches_order : ∀ (n : Nat) (ss : List SysDesc), ss.length ≤ n → PatternsOk ss → NoRegRead ss →
    ConflictTransitive ss → (ss.map SysDesc.id).Nodup → ∀ fuel bs, Stage.batches fuel ss = .ok bs →
    ∀ x y, [x, y].Sublist ss → SysDesc.Conflict x y →
    ∃ pre post, bs = pre ++ post ∧ x ∈ pre.flatten ∧ y ∈ post.flatten := by
  intro n
  induction n with
  | zero =>
    intro ss hl _ _ _ _ fuel bs _ x y hxy
    have : ss = [] := List.length_eq_zero_iff.1 (by omega)
    subst this
    cases hxy
  | succ n ih =>
    intro ss hl hp hn ht hd fuel bs h x y hxy hc
    cases ss with
    | nil => cases hxy
    | cons s ss =>
      cases fuel with
      | zero => cases h
      | succ fuel =>
        obtain ⟨b', r, h1, h2, h3, _, h5⟩ := pass_head s ss hp
        simp only [Stage.batches, h1, Run.bind] at h
        cases hb' : Stage.batches fuel r with
        | ok bs' =>
          rw [hb'] at h
          cases h
          simp only [List.length_cons] at hl
          have hy := pass_order (s :: ss) _ [] accRep_empty hp hn ht hd h1 x y hxy hc
          have hpr : PatternsOk r := fun x hx => hp x (List.mem_cons_of_mem _ (h5.subset hx))
          have hfl : r.length ≤ fuel ∨ True := Or.inr trivial
          have hyr : y ∈ r := by
            have : y ∈ s :: b' ++ r := h2.symm.subset (hxy.subset (by simp))
            rcases List.mem_append.1 this with h | h
            · exact absurd h hy
            · exact h
          rcases pass_pairs (s :: ss) _ Access.empty_ok hp h1 x y hxy with hx | hy' | hxy'
          · refine ⟨[s :: b'], bs', rfl, by simpa using hx, ?_⟩
            -- `y` is in the rest, hence in some later batch
            have : bs'.flatten.Perm r := by
              have key : ∀ (f : Nat) (l : List SysDesc) (o : List (List SysDesc)), PatternsOk l →
                  Stage.batches f l = .ok o → o.flatten.Perm l := by
                intro f
                induction f with
                | zero => intro l o _ h; cases l with | nil => cases h; simp | cons _ _ => cases h
                | succ f ihf =>
                  intro l o hl h
                  cases l with
                  | nil => cases h; simp
                  | cons a l =>
                    obtain ⟨b, r, g1, g2, g3, _, g5⟩ := pass_head a l hl
                    simp only [Stage.batches, g1, Run.bind] at h
                    cases hq : Stage.batches f r with
                    | ok q =>
                      rw [hq] at h; cases h
                      rw [List.flatten_cons]
                      exact ((ihf r q (fun x hx => hl x (List.mem_cons_of_mem _ (g5.subset hx))) hq).append_left
                        _).trans g2
                    | ub => rw [hq] at h; cases h
                    | stuck => rw [hq] at h; cases h
              exact key fuel r bs' hpr hb'
            exact this.symm.subset hyr
          · exact absurd hy' hy
          · obtain ⟨pre, post, e, hx, hy⟩ := ih r (by omega) hpr
              (fun x hx => hn x (List.mem_cons_of_mem _ (h5.subset hx)))
              (fun x hx y hy z hz => ht x (List.mem_cons_of_mem _ (h5.subset hx)) y
                (List.mem_cons_of_mem _ (h5.subset hy)) z (List.mem_cons_of_mem _ (h5.subset hz)))
              ((List.nodup_cons.1 hd).2.sublist (h5.map _)) fuel bs' hb' x y hxy' hc
            exact ⟨(s :: b') :: pre, post, by simp [e], by
              rw [List.flatten_cons]; exact List.mem_append_right _ hx, hy⟩
        | ub => rw [hb'] at h; cases h
        | stuck => rw [hb'] at h; cases h

/-! ## Systems running at the same time -/

/-- No two systems that can be outstanding together conflict. -/
def SegOk : List SysDesc → List Instr → Prop
  | acc, [] => acc.Pairwise (fun x y => ¬ SysDesc.Conflict x y)
  | acc, .submit s :: c => SegOk (acc ++ [s]) c
  | acc, .wait :: c => acc.Pairwise (fun x y => ¬ SysDesc.Conflict x y) ∧ SegOk [] c
  | acc, .runMain _ :: c => SegOk acc c
  | acc, .endMain _ :: c => SegOk acc c
  | acc, .flush :: c => SegOk acc c

theorem SegOk.mono : ∀ {code : List Instr} {a b : List SysDesc}, SegOk a code → b.Sublist a → SegOk b code := by
  intro code
  induction code with
  | nil => intro a b h hs; exact h.sublist hs
  | cons i code ih =>
    intro a b h hs
    cases i with
    | submit s => exact ih (a := a ++ [s]) h (hs.append (List.Sublist.refl _))
    | wait => exact ⟨h.1.sublist hs, h.2⟩
    | runMain => exact ih (a := a) h hs
    | endMain => exact ih (a := a) h hs
    | flush => exact ih (a := a) h hs

theorem SegOk.pairwise : ∀ {code : List Instr} {a : List SysDesc}, SegOk a code →
    a.Pairwise (fun x y => ¬ SysDesc.Conflict x y) := by
  intro code
  induction code with
  | nil => intro a h; exact h
  | cons i code ih =>
    intro a h
    cases i with
    | submit s => exact (ih (a := a ++ [s]) h).sublist (List.sublist_append_left _ _)
    | wait => exact h.1
    | runMain => exact ih (a := a) h
    | endMain => exact ih (a := a) h
    | flush => exact ih (a := a) h

theorem segOk_steps {s t : SchedState} {tr : List SchedEvent} (h : SchedSteps s tr t)
    (hs : SegOk (s.tasks.map (·.1)) s.code) : SegOk (t.tasks.map (·.1)) t.code := by
  induction h with
  | refl => exact hs
  | step hst _ ih =>
    apply ih
    cases hst with
    | submit x c ts => simpa [SegOk] using hs
    | mainStart m c ts => exact hs
    | mainFinish m c ts => exact hs
    | wait c => exact hs.2
    | flush c ts => exact hs
    | start x c l r => simpa using hs
    | finish x c l r =>
      refine hs.mono ?_
      simp

theorem segOk_submits : ∀ (b acc : List SysDesc) (c : List Instr), SegOk acc (b.map .submit ++ c) ↔ SegOk (acc ++ b) c := by
  intro b
  induction b with
  | nil => intro acc c; simp
  | cons x b ih => intro acc c; simp [SegOk, ih]

theorem segOk_mains : ∀ (m acc : List SysDesc) (c : List Instr), SegOk acc (m.map .runMain ++ c) ↔ SegOk acc c := by
  intro m
  induction m with
  | nil => intro acc c; simp
  | cons x m ih => intro acc c; simp [SegOk, ih]

theorem segOk_batches (main : List SysDesc) : ∀ (bs : List (List SysDesc)) (c : List Instr),
    (∀ b ∈ bs, b ≠ [] ∧ b.Pairwise (fun x y => ¬ SysDesc.Conflict x y)) → SegOk [] c →
    SegOk [] (bs.flatMap (execBatch main) ++ c) := by
  intro bs
  induction bs with
  | nil => intro c _ h; exact h
  | cons b bs ih =>
    intro c hb hc
    obtain ⟨h1, h2⟩ := hb b (List.mem_cons_self ..)
    have h3 := ih c (fun x hx => hb x (List.mem_cons_of_mem _ hx)) hc
    rw [List.flatMap_cons]
    unfold execBatch
    rw [List.append_assoc, List.append_assoc, List.append_assoc, segOk_submits, segOk_mains]
    cases b with
    | nil => exact absurd rfl h1
    | cons x b => exact ⟨h2, h3⟩

end CoEcs
