import Verif.Proofs.UnwindUb

/-!
# Schedules in which no system runs beside another one, and the other schedules
-/

namespace CoEcs

/-- Nothing is executed by the main thread while a task is there, and there is one task at most; the flag says that there
is one. -/
def Solo : Bool → List Instr → Prop
  | p, [] => p = false
  | p, .submit _ :: c => p = false ∧ Solo true c
  | p, .runMain _ :: c => p = false ∧ Solo p c
  | p, .endMain _ :: c => Solo p c
  | _, .wait :: c => Solo false c
  | p, .flush :: c => Solo p c

theorem solo_batch (main b : List SysDesc) (c : List Instr) (hb : b = [] ∨ b.length = 1 ∧ main = []) (h : Solo false c) : Solo false (execBatch main b ++ c) := by
  rcases hb with rfl | ⟨hb, rfl⟩
  · simp only [execBatch, List.map_nil, List.nil_append, List.isEmpty_nil, if_true, List.append_nil]
    induction main with
    | nil => exact h
    | cons m ms ih => exact ⟨rfl, ih⟩
  · match b, hb with
    | [x], _ => exact ⟨rfl, h⟩

theorem solo_stage (e : StageExec) (c : List Instr) (hb : ∀ b ∈ e.batches, b = [] ∨ b.length = 1 ∧ e.main = []) (h : Solo false c) : Solo false (e.code ++ c) := by
  unfold StageExec.code
  revert hb
  generalize e.batches = bs
  intro hb
  induction bs with
  | nil => simpa using h
  | cons b bs ih =>
    simp only [List.flatMap_cons, List.append_assoc]
    exact solo_batch _ _ _ (hb b (by simp)) (ih fun b h => hb b (by simp [h]))

theorem solo_callCode (prog : Nat → ScheduleExec)
    (h : ∀ e, (∀ b ∈ (prog e).init.batches, b = [] ∨ b.length = 1 ∧ (prog e).init.main = []) ∧
      ∀ st ∈ (prog e).stages, ∀ b ∈ st.batches, b = [] ∨ b.length = 1 ∧ st.main = []) (x : Nat × Bool) : Solo false (callCode prog x) := by
  obtain ⟨e, b⟩ := x
  cases b
  · simp only [callCode, ScheduleExec.runOnce]
    have := (h e).2
    revert this
    generalize (prog e).stages = ss
    intro hs
    induction ss with
    | nil => simp [Solo]
    | cons st ss ih =>
      simp only [List.flatMap_cons, List.append_assoc]
      exact solo_stage _ _ (hs st (by simp)) (ih fun st h => hs st (by simp [h]))
  · simp only [callCode, ScheduleExec.construct]
    exact solo_stage _ _ (h e).1 (by simp [Solo])

namespace UState
variable {prog : Nat → ScheduleExec} {n : Nat} {s t : UState}

/-- In such schedules: tasks of earlier batches and calls are over, and the main thread executes systems only if there
is no task. -/
structure SoloInv (s : UState) : Prop where
  rest : ∀ j st, stAt s.tasks j = some st → (j < s.base ∨ s.main = .idle) → st = .done ∨ st = .failed
  base : s.base ≤ s.tasks.length
  len : s.main ≠ .idle → s.tasks.length ≤ s.base + 1
  code : s.main ≠ .idle → Solo (decide (s.base < s.tasks.length)) s.code
  sys : ∀ d, s.main = .system d → s.tasks.length = s.base

theorem SoloInv.step (hp : ∀ x, Solo false (callCode prog x)) (I : SoloInv s) (Q : QInv s) (h : Tr prog n s t) : SoloInv t := by
  obtain ⟨r, bs, ln, cd, sy⟩ := I
  have upd : ∀ {j : Nat} {u : UTask} {st' : UStatus}, s.tasks[j]? = some u → u.st ≠ .done → u.st ≠ .failed → s.main ≠ .idle ∧ s.base ≤ j ∧
      ∀ i st, stAt (s.tasks.modify j (UTask.to st')) i = some st → (i < s.base ∨ s.main = .idle) → st = .done ∨ st = .failed := by
    intro j u st' hu h1 h2
    have hm : s.main ≠ .idle := fun hm => by rcases r j _ (stAt_of hu) (Or.inr hm) with h | h <;> contradiction
    have hj : s.base ≤ j := by
      refine Nat.le_of_not_lt fun hj => ?_
      rcases r j _ (stAt_of hu) (Or.inl hj) with h | h <;> contradiction
    refine ⟨hm, hj, fun i st hi hb => ?_⟩
    rw [stAt_modify] at hi
    rcases hb with hb | hb
    · rw [if_neg (by omega)] at hi
      exact r i st hi (Or.inl hb)
    · exact absurd hb hm
  have some_of : ∀ {j st}, stAt s.tasks j = some st → ∃ u, s.tasks[j]? = some u ∧ u.st = st := by
    intro j st h
    simpa [stAt] using h
  cases h with
  | construct e hm =>
    refine ⟨fun j st h _ => r j st h (Or.inr hm), Nat.le_refl _, fun _ => by simp, fun _ => ?_, fun d h => by cases h⟩
    simpa using hp _
  | run e hm =>
    refine ⟨fun j st h _ => r j st h (Or.inr hm), Nat.le_refl _, fun _ => by simp, fun _ => ?_, fun d h => by cases h⟩
    simpa using hp _
  | destroy e hm => exact ⟨r, bs, ln, cd, sy⟩
  | ret hm hc =>
    have hm' : s.main ≠ .idle := by rw [hm]; simp
    refine ⟨fun j st h _ => ?_, bs, fun h => absurd rfl h, fun h => absurd rfl h, fun d h => by cases h⟩
    have h1 := cd hm'
    rw [hc] at h1
    simp only [Solo, decide_eq_false_iff_not] at h1
    exact r j st h (Or.inl (by have h2 : j < s.tasks.length := stAt_lt h; show j < s.base; omega))
  | submit d c e b hm hc he =>
    have hm' : s.main ≠ .idle := by rw [hm]; simp
    have h1 := cd hm'
    rw [hc] at h1
    simp only [Solo, decide_eq_false_iff_not] at h1
    have hl : s.tasks.length = s.base := by omega
    refine ⟨fun j st h hb => ?_, by simp; omega, fun _ => by simp; omega, fun _ => ?_, fun d h => by have h' : s.main = .system d := h; rw [hm] at h'; cases h'⟩
    · simp only [stAt_append] at h
      split at h
      · rename_i hj
        rcases hb with hb | hb
        · have hb : j < s.base := hb
          omega
        · exact absurd hb hm'
      · exact r j st h hb
    · simpa [hl] using h1.2
  | runMain d c hm hc =>
    have hm' : s.main ≠ .idle := by rw [hm]; simp
    have h1 := cd hm'
    rw [hc] at h1
    simp only [Solo, decide_eq_false_iff_not] at h1
    refine ⟨fun j st h hb => r j st h (Or.inl ?_), bs, fun _ => ln hm', fun _ => h1.2, fun d _ => ?_⟩
    · have h2 : j < s.tasks.length := stAt_lt h
      have h1 := h1.1
      show j < s.base
      omega
    · have h1 := h1.1
      show s.tasks.length = s.base
      omega
  | endMain d c hm hc =>
    have hm' : s.main ≠ .idle := by rw [hm]; simp
    have h1 := cd hm'
    rw [hc] at h1
    exact ⟨r, bs, ln, fun _ => h1, fun d h => by have h' : s.main = .system d := h; rw [hm] at h'; cases h'⟩
  | waited c hm hc hbd =>
    have hm' : s.main ≠ .idle := by rw [hm]; simp
    have h1 := cd hm'
    rw [hc] at h1
    refine ⟨fun j st h hb => ?_, Nat.le_refl _, fun _ => by simp, fun _ => by simpa [Solo] using h1, fun _ h => by have h' := hm.symm.trans h; cases h'⟩
    by_cases hj : j < s.base
    · exact r j st h (Or.inl hj)
    · obtain ⟨u, hu, hs⟩ := some_of h
      unfold batchDone at hbd
      rw [List.all_eq_true] at hbd
      have := hbd u (List.mem_of_getElem? (i := j - s.base) (by rw [List.getElem?_drop, show s.base + (j - s.base) = j by omega]; exact hu))
      left; rw [← hs]; simpa using this
  | help c j u hm hc hbd hj hu ha =>
    have hm' : s.main ≠ .idle := by rw [hm]; simp
    have hjq : stAt s.tasks j = some .queued := (Q.q j).1 (by obtain ⟨l', hl⟩ := List.getLast?_eq_some_iff.1 hj; rw [hl]; simp)
    rw [stAt_of hu] at hjq
    have hq : u.st = .queued := by injection hjq
    obtain ⟨_, _, h3⟩ := upd (st' := .running 0) hu (by rw [hq]; simp) (by rw [hq]; simp)
    refine ⟨fun i st h hb => h3 i st h (hb.imp id fun h => by cases h), by simpa using bs, fun _ => by simpa using ln hm', fun _ => by simpa using cd hm', fun d h => by cases h⟩
  | flush c hm hc =>
    have hm' : s.main ≠ .idle := by rw [hm]; simp
    have h1 := cd hm'
    rw [hc] at h1
    exact ⟨r, bs, ln, fun _ => h1, fun d h => by have h' : s.main = .system d := h; rw [hm] at h'; cases h'⟩
  | sysRet d hm =>
    have hm' : s.main ≠ .idle := by rw [hm]; simp
    exact ⟨fun j st h hb => r j st h (hb.imp id fun h => by cases h), bs, fun _ => ln hm', fun _ => cd hm', fun d h => by cases h⟩
  | helped j u hm hu =>
    have hm' : s.main ≠ .idle := by rw [hm]; simp
    have hjq := (Q.m j).1 hm
    rw [stAt_of hu] at hjq
    have hq : u.st = .running 0 := by injection hjq
    obtain ⟨_, _, h3⟩ := upd (st' := .done) hu (by rw [hq]; simp) (by rw [hq]; simp)
    refine ⟨fun i st h hb => h3 i st h (hb.imp id fun h => by cases h), by simpa using bs, fun _ => by simpa using ln hm', fun _ => by simpa using cd hm', fun d h => by cases h⟩
  | throwSys d al hm _ =>
    have hl := sy d hm
    refine ⟨fun j st h _ => r j st h (Or.inl ?_), bs, fun h => absurd rfl h, fun h => absurd rfl h, fun d h => by cases h⟩
    have h2 : j < s.tasks.length := stAt_lt h
    show j < s.base
    omega
  | throwTask j al hm _ =>
    have hm' : s.main ≠ .idle := by rw [hm]; simp
    obtain ⟨u, hu, hq⟩ := some_of ((Q.m j).1 hm)
    obtain ⟨_, h2, h3⟩ := upd (st' := .failed) hu (by rw [hq]; simp) (by rw [hq]; simp)
    refine ⟨fun i st h _ => ?_, by simpa using bs, fun h => absurd rfl h, fun h => absurd rfl h, fun d h => by cases h⟩
    by_cases hi : i < s.base
    · exact h3 i st h (Or.inl hi)
    · have h : stAt (s.tasks.modify j (UTask.to .failed)) i = some st := h
      have h4 := stAt_lt h
      have h5 := stAt_lt (stAt_of hu)
      have h6 := ln hm'
      simp at h4
      have : i = j := by omega
      subst this
      rw [stAt_modify, if_pos rfl, stAt_of hu] at h
      simp at h
      exact Or.inr h.symm
  | take w j qs u hw hn hq hu ha =>
    have hjq : stAt s.tasks j = some .queued := (Q.q j).1 (by rw [hq]; simp)
    rw [stAt_of hu] at hjq
    have hst : u.st = .queued := by injection hjq
    obtain ⟨hm', _, h3⟩ := upd (st' := .running w) hu (by rw [hst]; simp) (by rw [hst]; simp)
    exact ⟨h3, by simpa using bs, fun _ => by simpa using ln hm', fun _ => by simpa using cd hm', fun d h => by simpa using sy d h⟩
  | finish w j u hw hu hst =>
    obtain ⟨hm', _, h3⟩ := upd (st' := .done) hu (by rw [hst]; simp) (by rw [hst]; simp)
    exact ⟨h3, by simpa using bs, fun _ => by simpa using ln hm', fun _ => by simpa using cd hm', fun d h => by simpa using sy d h⟩
  | terminate => exact ⟨r, bs, ln, cd, sy⟩

theorem _root_.CoEcs.UReach.solo (hp : ∀ x, Solo false (callCode prog x)) (h : UReach prog n s) : SoloInv s := by
  refine UReach.induction ?_ (fun s t hr I hst => I.step hp hr.qinv hst) h
  exact ⟨fun j w h => by simp [UState.init, stAt] at h, by simp [UState.init], fun h => absurd rfl h, fun h => absurd rfl h, fun d h => by cases h⟩

theorem _root_.CoEcs.UReach.solo_mine (hp : ∀ x, Solo false (callCode prog x)) (h : UReach prog n s) {j : Nat} {u : UTask} (hu : s.tasks[j]? = some u)
    (h1 : u.st ≠ .done) (h2 : u.st ≠ .failed) : s.main ≠ .idle ∧ u.call = s.call := by
  have I := h.solo hp
  have hm : s.main ≠ .idle := fun hm => by rcases I.rest j _ (stAt_of hu) (Or.inr hm) with h | h <;> contradiction
  have hj : s.base ≤ j := by
    refine Nat.le_of_not_lt fun hj => ?_
    rcases I.rest j _ (stAt_of hu) (Or.inl hj) with h | h <;> contradiction
  obtain ⟨e, b, past, C⟩ := h.kinv.cur hm
  exact ⟨hm, C.mine j u hj hu⟩

/-- In such schedules none of the systems of a call starts or ends after the call. -/
theorem _root_.CoEcs.UReach.solo_after_end (hp : ∀ x, Solo false (callCode prog x)) (h : UReach prog n s) : Before Works Ends s.log := by
  refine UReach.induction (P := fun s => Before Works Ends s.log) ?_ (fun s t hr B hst => ?_) h
  · intro pre post e k h0; simp [UState.init] at h0
  · refine before_step B hst (fun j u hu hs => ?_) hr.qinv
    have Q := hr.qinv
    have key : u.st ≠ .failed → ∀ f ∈ s.log, ¬ Ends u.call f := by
      intro hf f hl he
      obtain ⟨hm, hc⟩ := hr.solo_mine hp hu hs hf
      obtain ⟨h1, h2⟩ := hr.cur_open hm
      rw [hc] at he
      rcases he with rfl | rfl
      · exact h1 hl
      · exact h2 hl
    have at_ : ∀ {st}, stAt s.tasks j = some st → u.st = st := by
      intro st h
      rw [stAt_of hu] at h; injection h
    refine ⟨fun hm hb hj => key ?_, fun hm => key ?_, fun w q h0 h1 hq => key ?_, fun w h0 hw => key ?_⟩
    · rw [at_ ((Q.q j).1 (by obtain ⟨l', hl⟩ := List.getLast?_eq_some_iff.1 hj; rw [hl]; simp))]; simp
    · rw [at_ ((Q.m j).1 hm)]; simp
    · rw [at_ ((Q.q j).1 (by rw [hq]; simp))]; simp
    · rw [hw]; simp

/-- In such schedules nothing is undefined. -/
theorem _root_.CoEcs.UReach.solo_ub (hp : ∀ x, Solo false (callCode prog x)) (hr : UReach prog n s) (l : ULabel) : s.step prog n l ≠ .ub := by
  intro h
  obtain ⟨j, u, hu, hs, ha, _⟩ := hr.ub h
  obtain ⟨hm, hc⟩ := hr.solo_mine hp hu hs.1 hs.2
  rw [hr.alive_task hm hu hc] at ha; cases ha

/-! ## Driving the main thread -/

/-- The main thread is between two instructions of a call, no worker executes anything, and `q` tasks of the batch are in
the queue. -/
structure Drv (s : UState) (e : Nat) (b : Bool) (q : Nat) : Prop where
  dead : s.dead = false
  main : s.main = .code
  last : s.calls.getLast? = some (e, b)
  alive : s.alive e = true
  queue : s.queue = List.range' s.base q
  len : s.base + q ≤ s.tasks.length
  st : ∀ (i : Nat) (u : UTask), s.tasks[i]? = some u → (u.st = if s.base ≤ i ∧ i < s.base + q then .queued else .done) ∧ (s.base ≤ i → u.exec = e ∧ u.call = s.call)

variable {e q : Nat} {b : Bool} {c : List Instr}

theorem Drv.submit (D : Drv s e b q) (hr : UReach prog n s) {d : SysDesc} (hl : s.base + q = s.tasks.length) (hc : s.code = .submit d :: c) :
    ∃ t, UReach prog n t ∧ Drv t e b (q + 1) ∧ t.base + (q + 1) = t.tasks.length ∧ t.code = c ∧ t.calls = s.calls := by
  refine ⟨_, .step .main hr (t := { s with code := c, tasks := s.tasks ++ [⟨d, e, s.call, .queued⟩], queue := s.queue ++ [s.tasks.length] }) ?_,
    ⟨D.dead, D.main, D.last, D.alive, ?_, ?_, ?_⟩, ?_, rfl, rfl⟩
  · simp [UState.step, D.dead, mainStep, D.main, hc, D.last]
  · show s.queue ++ [s.tasks.length] = List.range' s.base (q + 1)
    rw [D.queue, ← hl, List.range'_concat]; simp
  · simp; omega
  · intro i u hu
    simp only [List.getElem?_append] at hu
    split at hu
    · rename_i hi
      obtain ⟨h1, h2⟩ := D.st i u hu
      refine ⟨?_, h2⟩
      rw [h1]
      by_cases hb : s.base ≤ i
      · rw [if_pos ⟨hb, by omega⟩, if_pos ⟨hb, by show i < s.base + (q + 1); omega⟩]
      · rw [if_neg (fun h => hb h.1), if_neg (fun h => hb h.1)]
    · rename_i hi
      have hi' : i = s.tasks.length := by
        cases hk : i - s.tasks.length with
        | zero => omega
        | succ k => rw [hk] at hu; simp at hu
      subst hi'
      simp at hu
      subst hu
      exact ⟨by rw [if_pos ⟨by show s.base ≤ _; omega, by show _ < s.base + (q + 1); omega⟩], fun _ => ⟨rfl, rfl⟩⟩
  · simp; omega

theorem Drv.submits (hr : UReach prog n s) (D : Drv s e b q) (ds : List SysDesc) (hl : s.base + q = s.tasks.length) (hc : s.code = ds.map .submit ++ c) :
    ∃ t, UReach prog n t ∧ Drv t e b (q + ds.length) ∧ t.base + (q + ds.length) = t.tasks.length ∧ t.code = c ∧ t.calls = s.calls := by
  induction ds generalizing s q with
  | nil => exact ⟨s, hr, D, hl, hc, rfl⟩
  | cons d ds ih =>
    obtain ⟨t, h1, h2, h3, h4, h5⟩ := D.submit hr hl hc
    obtain ⟨u, g1, g2, g3, g4, g5⟩ := ih h1 h2 h3 h4
    rw [show q + 1 + ds.length = q + (d :: ds).length by simp; omega] at g2 g3
    exact ⟨u, g1, g2, g3, g4, by rw [g5, h5]⟩

/-- The main thread takes the newest task. -/
theorem Drv.help (D : Drv s e b (q + 1)) (hr : UReach prog n s) (hc : s.code = .wait :: c) :
    ∃ u t, s.tasks[s.base + q]? = some u ∧ UReach prog n t ∧ t = { s with main := .task (s.base + q), queue := List.range' s.base q, pending := s.pending ++ [(u.call, u.sys.id)], tasks := s.tasks.modify (s.base + q) (UTask.to (.running 0)), log := s.log ++ [.start u.call u.sys.id] } := by
  have hlt : s.base + q < s.tasks.length := by have := D.len; omega
  obtain ⟨u, hu⟩ : ∃ u, s.tasks[s.base + q]? = some u := ⟨_, List.getElem?_eq_getElem hlt⟩
  obtain ⟨h1, h2⟩ := D.st _ u hu
  rw [if_pos ⟨by omega, by omega⟩] at h1
  have hbd : s.batchDone = false := by
    unfold batchDone
    rw [List.all_eq_false]
    exact ⟨u, List.mem_of_getElem? (i := q) (by rw [List.getElem?_drop]; exact hu), by rw [h1]; simp⟩
  have hq : s.queue.getLast? = some (s.base + q) ∧ s.queue.dropLast = List.range' s.base q := by
    rw [D.queue, List.range'_concat]; simp
  refine ⟨u, _, hu, .step .main hr ?_, rfl⟩
  simp [UState.step, D.dead, mainStep, D.main, hc, hbd, hq.1, hq.2, startTask, hu, (h2 (by omega)).1, D.alive, setSt, say, UTask.to]
  rfl

theorem Drv.wait (hr : UReach prog n s) (D : Drv s e b q) (hc : s.code = .wait :: c) :
    ∃ t, UReach prog n t ∧ Drv t e b 0 ∧ t.base = t.tasks.length ∧ t.code = c ∧ t.calls = s.calls := by
  induction q generalizing s with
  | zero =>
    have hbd : s.batchDone = true := by
      unfold batchDone
      rw [List.all_eq_true]
      intro u hu
      obtain ⟨i, hi⟩ := List.mem_iff_getElem?.1 hu
      rw [List.getElem?_drop] at hi
      have := (D.st _ u hi).1
      rw [if_neg (by omega)] at this
      rw [this]; rfl
    refine ⟨{ s with code := c, base := s.tasks.length }, .step .main hr ?_, ⟨D.dead, D.main, D.last, D.alive, ?_, by simp, ?_⟩, rfl, rfl, rfl⟩
    · simp [UState.step, D.dead, mainStep, D.main, hc, hbd]
    · have := D.queue
      simpa using this
    · intro i u hu
      have hi := (List.getElem?_eq_some_iff.1 hu).1
      have h1 := (D.st i u hu).1
      rw [if_neg (by omega)] at h1
      refine ⟨by rw [h1, if_neg (by omega)], fun h => ?_⟩
      have h : s.tasks.length ≤ i := h
      have hi : i < s.tasks.length := hi
      omega
  | succ q ih =>
    obtain ⟨u, t, hu, ht, rfl⟩ := D.help hr hc
    obtain ⟨h1, h2⟩ := D.st _ u hu
    have hr2 : UReach prog n { s with main := .code, queue := List.range' s.base q, pending := s.pending ++ [(u.call, u.sys.id)], tasks := (s.tasks.modify (s.base + q) (UTask.to (.running 0))).modify (s.base + q) (UTask.to .done), log := s.log ++ [.start u.call u.sys.id] ++ [.finish u.call u.sys.id] } := by
      refine .step .main ht ?_
      simp only [UState.step, D.dead, mainStep, finishTask, List.getElem?_modify_eq, hu]
      simp [UTask.to, (h2 (by omega)).1, D.alive, setSt, say]
      rfl
    obtain ⟨v, g1, g2, g3, g4, g5⟩ := ih hr2 ⟨D.dead, rfl, D.last, D.alive, rfl, by have := D.len; simp; omega, by
      intro i v hv
      simp only [List.getElem?_modify] at hv
      by_cases hi : s.base + q = i
      · subst hi
        rw [hu] at hv
        simp at hv
        subst hv
        exact ⟨by rw [if_neg (fun h => by have := h.2; simp at this)]; rfl, h2⟩
      · simp [hi] at hv
        obtain ⟨k1, k2⟩ := D.st i v hv
        refine ⟨?_, k2⟩
        rw [k1]
        by_cases hb : s.base ≤ i ∧ i < s.base + q
        · rw [if_pos ⟨hb.1, by omega⟩, if_pos hb]
        · rw [if_neg (by omega), if_neg hb]⟩ hc
    exact ⟨v, g1, g2, g3, g4, g5⟩

/-- Without exceptions the main thread gets through its code alone. -/
theorem Drv.drive (hr : UReach prog n s) (D : Drv s e b q) (hl : s.base + q = s.tasks.length) (c1 : List Instr) (hc : s.code = c1 ++ c) :
    ∃ t q', UReach prog n t ∧ Drv t e b q' ∧ t.base + q' = t.tasks.length ∧ t.code = c ∧ t.calls = s.calls := by
  induction c1 generalizing s q with
  | nil => exact ⟨s, q, hr, D, hl, hc, rfl⟩
  | cons i c1 ih =>
    have adv : ∀ (t : UState) (q' : Nat), UReach prog n t → Drv t e b q' → t.base + q' = t.tasks.length → t.code = c1 ++ c → t.calls = s.calls →
        ∃ t q', UReach prog n t ∧ Drv t e b q' ∧ t.base + q' = t.tasks.length ∧ t.code = c ∧ t.calls = s.calls := by
      intro t q' h1 h2 h3 h4 h5
      obtain ⟨u, q2, g1, g2, g3, g4, g5⟩ := ih h1 h2 h3 h4
      exact ⟨u, q2, g1, g2, g3, g4, by rw [g5, h5]⟩
    cases i with
    | submit d =>
      obtain ⟨t, h1, h2, h3, h4, h5⟩ := D.submit hr hl hc
      exact adv t _ h1 h2 h3 h4 h5
    | runMain d =>
      have h1 : UReach prog n { s with code := c1 ++ c, main := .system d, pending := s.pending ++ [(s.call, d.id)], log := s.log ++ [.mainStart s.call d.id] } := by
        refine .step .main hr ?_
        simp [UState.step, D.dead, mainStep, D.main, hc, say, call]
      have h2 : UReach prog n { s with code := c1 ++ c, main := .code, pending := s.pending ++ [(s.call, d.id)], log := s.log ++ [.mainStart s.call d.id] ++ [.mainFinish s.call d.id] } := by
        refine .step .main h1 ?_
        simp [UState.step, D.dead, mainStep, say, call]
      exact adv _ q h2 ⟨D.dead, rfl, D.last, D.alive, D.queue, D.len, D.st⟩ hl rfl rfl
    | endMain d =>
      have h1 : UReach prog n { s with code := c1 ++ c } := by
        refine .step .main hr ?_
        simp [UState.step, D.dead, mainStep, D.main, hc]
      exact adv _ q h1 ⟨D.dead, D.main, D.last, D.alive, D.queue, D.len, D.st⟩ hl rfl rfl
    | wait =>
      obtain ⟨t, h1, h2, h3, h4, h5⟩ := D.wait hr hc
      exact adv t 0 h1 h2 h3 h4 h5
    | flush =>
      have h1 : UReach prog n { s with code := c1 ++ c, pending := [], flushed := s.flushed ++ s.pending, log := s.log ++ [.flush s.call] } := by
        refine .step .main hr ?_
        simp [UState.step, D.dead, mainStep, D.main, hc, say, call]
      exact adv _ q h1 ⟨D.dead, D.main, D.last, D.alive, D.queue, D.len, D.st⟩ hl rfl rfl

/-- A call has ended with an exception, and the oldest task in the queue is one of its tasks. -/
structure Left (s : UState) (e : Nat) (b : Bool) (k : Nat) : Prop where
  dead : s.dead = false
  main : s.main = .idle
  queue : ∃ j q u, s.queue = j :: q ∧ s.tasks[j]? = some u ∧ u.exec = e ∧ u.call = k
  idle : s.taskOf 1 = none
  log : ∃ l, s.log = l ++ [.threw k]
  alive : s.alive e = !b

theorem taskOf_none {w : Nat} (h : ∀ (i : Nat) (u : UTask), s.tasks[i]? = some u → u.st ≠ .running w) : s.taskOf w = none := by
  unfold taskOf
  rw [List.findIdx?_eq_none_iff]
  intro u hu
  obtain ⟨i, hi⟩ := List.mem_iff_getElem?.1 hu
  simpa using h i u hi

theorem unwind_alive (hl : s.calls.getLast? = some (e, b)) (ha : s.alive e = true) : s.unwind.alive e = !b := by
  unfold unwind
  rw [hl]
  cases b <;> simp [say, ha]

theorem throw_sys_step {d : SysDesc} (hd : s.dead = false) (hm : s.main = .system d) : s.step prog n .throw = .ok s.unwind := by
  simp [UState.step, hd, throwStep, hm]

theorem throw_task_step {j : Nat} (hd : s.dead = false) (hm : s.main = .task j) : s.step prog n .throw = .ok (s.setSt j .failed).unwind := by
  simp [UState.step, hd, throwStep, hm]

/-- A main-thread system throws while tasks of the batch are in the queue. -/
theorem Drv.throwSys (hr : UReach prog n s) (D : Drv s e b (q + 1)) {d : SysDesc} (hc : s.code = .runMain d :: c) :
    ∃ t, UReach prog n t ∧ Left t e b s.call := by
  have h1 : UReach prog n { s with code := c, main := .system d, pending := s.pending ++ [(s.call, d.id)], log := s.log ++ [.mainStart s.call d.id] } := by
    refine .step .main hr ?_
    simp [UState.step, D.dead, mainStep, D.main, hc, say, call]
  refine ⟨_, .step .throw h1 (throw_sys_step D.dead rfl), ?_⟩
  have hlt : s.base < s.tasks.length := by have := D.len; omega
  obtain ⟨u, hu⟩ : ∃ u, s.tasks[s.base]? = some u := ⟨_, List.getElem?_eq_getElem hlt⟩
  obtain ⟨g1, g2⟩ := D.st _ u hu
  obtain ⟨al, _, he⟩ := unwind_eq ({ s with code := c, main := .system d, pending := s.pending ++ [(s.call, d.id)], log := s.log ++ [.mainStart s.call d.id] } : UState)
  refine ⟨by rw [he]; exact D.dead, by rw [he], ⟨s.base, List.range' (s.base + 1) q, u, ?_, ?_, (g2 (by omega)).1, (g2 (by omega)).2⟩, ?_, ?_, unwind_alive D.last D.alive⟩
  · rw [he]; simp only [D.queue, List.range'_succ]
  · rw [he]; exact hu
  · refine taskOf_none fun i v hv => ?_
    rw [he] at hv
    rw [(D.st i v hv).1]
    split <;> simp
  · rw [he]; exact ⟨_, rfl⟩

/-- A task the main thread executes throws while other tasks of the batch are in the queue. -/
theorem Drv.throwTask (hr : UReach prog n s) (D : Drv s e b (q + 2)) (hc : s.code = .wait :: c) : ∃ t, UReach prog n t ∧ Left t e b s.call := by
  obtain ⟨v, t, hv, ht, rfl⟩ := D.help hr hc
  refine ⟨_, .step .throw ht (throw_task_step D.dead rfl), ?_⟩
  have hlt : s.base < s.tasks.length := by have := D.len; omega
  obtain ⟨u, hu⟩ : ∃ u, s.tasks[s.base]? = some u := ⟨_, List.getElem?_eq_getElem hlt⟩
  obtain ⟨g1, g2⟩ := D.st _ u hu
  obtain ⟨al, _, he⟩ := unwind_eq (({ s with main := .task (s.base + (q + 1)), queue := List.range' s.base (q + 1), pending := s.pending ++ [(v.call, v.sys.id)], tasks := s.tasks.modify (s.base + (q + 1)) (UTask.to (.running 0)), log := s.log ++ [.start v.call v.sys.id] } : UState).setSt (s.base + (q + 1)) .failed)
  refine ⟨by rw [he]; exact D.dead, by rw [he], ⟨s.base, List.range' (s.base + 1) q, u, ?_, ?_, (g2 (by omega)).1, (g2 (by omega)).2⟩, ?_, ?_, unwind_alive D.last D.alive⟩
  · rw [he]; simp only [setSt, List.range'_succ]
  · rw [he]; simp [setSt, List.getElem?_modify, hu]
  · refine taskOf_none fun i x hx => ?_
    rw [he] at hx
    simp only [setSt, List.getElem?_modify] at hx
    by_cases hi : s.base + (q + 1) = i
    · subst hi
      rw [hv] at hx
      simp at hx
      subst hx
      simp
    · simp [hi] at hx
      rw [(D.st i x hx).1]
      split <;> simp
  · rw [he]; exact ⟨_, rfl⟩

/-- What is left of a call of `run_once` can be started. -/
theorem Left.start (hn : 2 ≤ n) (hr : UReach prog n s) {k : Nat} (L : Left s e false k) : ∃ t pre id, UReach prog n t ∧ t.log = pre ++ [.threw k, .start k id] := by
  obtain ⟨j, q, u, hq, hu, he, hk⟩ := L.queue
  obtain ⟨l, hl⟩ := L.log
  have ha : s.alive e = true := L.alive
  refine ⟨_, l, u.sys.id, .step (.take 1) hr (t := (({ s with queue := q, pending := s.pending ++ [(u.call, u.sys.id)] } : UState).setSt j (.running 1)).say (.start u.call u.sys.id)) ?_, ?_⟩
  · simp [UState.step, L.dead, L.idle, hq, startTask, hu, he, ha, show 1 < n by omega]
  · simp [say, setSt, hl, hk]

/-- If the executor is gone, that is undefined. -/
theorem Left.ub (hn : 2 ≤ n) {k : Nat} (L : Left s e true k) : s.step prog n (.take 1) = .ub := by
  obtain ⟨j, q, u, hq, hu, he, hk⟩ := L.queue
  have ha : s.alive e = false := L.alive
  simp [UState.step, L.dead, L.idle, hq, startTask, hu, he, ha, show 1 < n by omega]

theorem Left.destroyed (hn : 2 ≤ n) (hr : UReach prog n s) {k : Nat} (L : Left s e false k) : ∃ t, UReach prog n t ∧ t.main = .idle ∧ t.step prog n (.take 1) = .ub := by
  have ha : s.alive e = true := L.alive
  refine ⟨_, .step (.destroy e) hr (t := { s with alive := fun x => if x = e then false else s.alive x }) ?_, L.main, ?_⟩
  · simp [UState.step, L.dead, L.main, ha]
  · refine Left.ub (e := e) (k := k) hn ⟨L.dead, L.main, L.queue, L.idle, L.log, by simp⟩

/-- The end of a batch in which systems run beside each other. -/
theorem Drv.batch (hr : UReach prog n s) (D : Drv s e b q) (hl : s.base + q = s.tasks.length) {main ds : List SysDesc}
    (hc : s.code = execBatch main ds ++ c) (h : ds ≠ [] ∧ main ≠ [] ∨ 2 ≤ ds.length) : ∃ t, UReach prog n t ∧ Left t e b s.call := by
  have hne : ds ≠ [] := by
    rcases h with h | h
    · exact h.1
    · intro h0; subst h0; simp at h
  have hemp : ds.isEmpty = false := by simpa using hne
  unfold execBatch at hc
  rw [hemp, List.append_assoc, List.append_assoc] at hc
  obtain ⟨t, h1, h2, h3, h4, h5⟩ := D.submits hr ds hl hc
  have hcall : t.call = s.call := by unfold call; rw [h5]
  rw [← hcall]
  cases main with
  | nil =>
    have h : 2 ≤ ds.length := by
      rcases h with h | h
      · exact absurd rfl h.2
      · exact h
    obtain ⟨m, hm⟩ : ∃ m, q + ds.length = m + 2 := ⟨q + ds.length - 2, by omega⟩
    rw [hm] at h2
    exact h2.throwTask h1 h4
  | cons d main =>
    have h : 0 < ds.length := List.length_pos_iff.2 hne
    obtain ⟨m, hm⟩ : ∃ m, q + ds.length = m + 1 := ⟨q + ds.length - 1, by omega⟩
    rw [hm] at h2
    exact h2.throwSys h1 h4

theorem Drv.stage (hr : UReach prog n s) (D : Drv s e b q) (hl : s.base + q = s.tasks.length) {st : StageExec} {ds : List SysDesc}
    (hc : s.code = st.code ++ c) (hd : ds ∈ st.batches) (h : ds ≠ [] ∧ st.main ≠ [] ∨ 2 ≤ ds.length) : ∃ t, UReach prog n t ∧ Left t e b s.call := by
  obtain ⟨l1, l2, hb⟩ := List.append_of_mem hd
  have : s.code = l1.flatMap (execBatch st.main) ++ (execBatch st.main ds ++ (l2.flatMap (execBatch st.main) ++ c)) := by
    rw [hc, StageExec.code, hb]; simp
  obtain ⟨t, q', h1, h2, h3, h4, h5⟩ := D.drive hr hl _ this
  have hcall : t.call = s.call := by unfold call; rw [h5]
  rw [← hcall]
  exact h2.batch h1 h3 h4 h

/-- The beginning of a program: executor `e` is created. -/
theorem drv_construct (prog : Nat → ScheduleExec) (n e : Nat) : ∃ s, UReach prog n s ∧ Drv s e true 0 ∧ s.base + 0 = s.tasks.length ∧ s.code = (prog e).construct := by
  refine ⟨_, .step (.construct e) .init (t := ({ UState.init with alive := fun x => if x = e then true else false, used := fun x => if x = e then true else false } : UState).enter prog e true) ?_,
    ⟨rfl, rfl, by simp [enter, say], by simp [enter, say], rfl, by simp [enter, say, UState.init], ?_⟩, by simp [enter, say, UState.init], rfl⟩
  · simp [UState.step, UState.init]
  · intro i u hu
    simp [enter, say, UState.init] at hu

theorem drv_run (prog : Nat → ScheduleExec) (n e : Nat) : ∃ s, UReach prog n s ∧ Drv s e false 0 ∧ s.base + 0 = s.tasks.length ∧ s.code = (prog e).runOnce := by
  obtain ⟨s, hr, D, hl, hc⟩ := drv_construct prog n e
  obtain ⟨t, q, h1, h2, h3, h4, _⟩ := D.drive (c := []) hr hl (prog e).construct (by rw [hc]; simp)
  have hq : UReach prog n { t with main := .idle, log := t.log ++ [.returned t.call] } := by
    refine .step .main h1 ?_
    simp [UState.step, h2.dead, mainStep, h2.main, h4, say, call]
  have hq0 : q = 0 := by
    obtain ⟨_, _, _, C⟩ := h1.kinv.cur (by rw [h2.main]; simp)
    have := C.waits
    rw [h4] at this
    simp only [Waits, decide_eq_false_iff_not] at this
    omega
  subst hq0
  have ha : t.alive e = true := h2.alive
  refine ⟨_, .step (.run e) hq (t := ({ t with main := .idle, log := t.log ++ [.returned t.call] } : UState).enter prog e false) ?_,
    ⟨h2.dead, rfl, by simp [enter, say], ha, ?_, by simp [enter, say], ?_⟩, by simp [enter, say], rfl⟩
  · simp [UState.step, h2.dead, ha]
  · have := h2.queue
    simpa [enter, say] using this
  · intro i u hu
    have hu : t.tasks[i]? = some u := hu
    have hi := (List.getElem?_eq_some_iff.1 hu).1
    have := (h2.st i u hu).1
    rw [if_neg (by omega)] at this
    refine ⟨?_, fun h => ?_⟩
    · rw [this, if_neg (by omega)]
    · have h : t.tasks.length ≤ i := h
      omega

end UState
end CoEcs
