import Verif.Proofs.UnwindAlone

/-!
# When a step is undefined; commands
-/

namespace CoEcs.UState
variable {prog : Nat → ScheduleExec} {n : Nat} {s t : UState}

theorem startTask_ub {j w : Nat} {q : List Nat} (h : s.startTask j w q = .ub) : ∀ u, s.tasks[j]? = some u → s.alive u.exec = false := by
  intro u hu
  unfold startTask at h
  rw [hu] at h
  simp only at h
  split at h
  · cases h
  · rename_i ha; simpa using ha

theorem finishTask_ub {j : Nat} (h : s.finishTask j = .ub) : ∀ u, s.tasks[j]? = some u → s.alive u.exec = false := by
  intro u hu
  unfold finishTask at h
  rw [hu] at h
  simp only at h
  split at h
  · cases h
  · rename_i ha; simpa using ha

/-- A step is undefined only if an unfinished task of a destroyed executor is started or ends. -/
theorem _root_.CoEcs.UReach.ub (hr : UReach prog n s) {l : ULabel} (h : s.step prog n l = .ub) :
    ∃ (j : Nat) (u : UTask), s.tasks[j]? = some u ∧ (u.st ≠ .done ∧ u.st ≠ .failed) ∧ s.alive u.exec = false ∧
      (s.main = .code ∧ s.batchDone = false ∧ s.queue.getLast? = some j ∨ s.main = .task j ∨ ∃ w, 0 < w ∧ (w < n ∨ u.st = .running w)) := by
  have Q := hr.qinv
  have some_of : ∀ {j st}, stAt s.tasks j = some st → ∃ u, s.tasks[j]? = some u ∧ u.st = st := by
    intro j st h
    simpa [stAt] using h
  unfold step at h
  split at h
  · cases h
  · cases l with
    | construct e =>
      simp only at h
      split at h
      · split at h <;> cases h
      · cases h
    | run e =>
      simp only at h
      split at h
      · split at h <;> cases h
      · cases h
    | destroy e =>
      simp only at h
      split at h
      · split at h <;> cases h
      · cases h
    | main =>
      simp only [mainStep] at h
      split at h
      · cases h
      · cases h
      · rename_i j hm
        obtain ⟨u, hu, hs⟩ := some_of ((Q.m j).1 hm)
        exact ⟨j, u, hu, ⟨by rw [hs]; simp, by rw [hs]; simp⟩, finishTask_ub h u hu, Or.inr (Or.inl hm)⟩
      · rename_i hm
        split at h
        · cases h
        · split at h <;> cases h
        · cases h
        · cases h
        · split at h
          · cases h
          · rename_i hb
            split at h
            · cases h
            · rename_i j hj
              have hjq : stAt s.tasks j = some .queued := (Q.q j).1 (by obtain ⟨l', hl⟩ := List.getLast?_eq_some_iff.1 hj; rw [hl]; simp)
              obtain ⟨u, hu, hs⟩ := some_of hjq
              exact ⟨j, u, hu, ⟨by rw [hs]; simp, by rw [hs]; simp⟩, startTask_ub h u hu, Or.inl ⟨hm, by simpa using hb, hj⟩⟩
        · cases h
    | throw =>
      simp only [throwStep] at h
      split at h <;> cases h
    | take w =>
      simp only at h
      split at h
      · rename_i hw
        split at h
        · cases h
        · rename_i j q hq
          have hjq : stAt s.tasks j = some .queued := (Q.q j).1 (by rw [hq]; simp)
          obtain ⟨u, hu, hs⟩ := some_of hjq
          exact ⟨j, u, hu, ⟨by rw [hs]; simp, by rw [hs]; simp⟩, startTask_ub h u hu, Or.inr (Or.inr ⟨w, hw.1, Or.inl hw.2.1⟩)⟩
      · cases h
    | finish w =>
      simp only at h
      split at h
      · rename_i hw
        split at h
        · cases h
        · rename_i j hj
          obtain ⟨u, hu, hs⟩ := taskOf_some hj
          exact ⟨j, u, hu, ⟨by rw [hs]; simp, by rw [hs]; simp⟩, finishTask_ub h u hu, Or.inr (Or.inr ⟨w, hw, Or.inr hs⟩)⟩
      · cases h
    | throws w =>
      simp only at h
      split at h
      · split at h <;> cases h
      · cases h

/-- Nothing is undefined before an exception has left a call. -/
theorem _root_.CoEcs.UReach.ub_threw (hr : UReach prog n s) {l : ULabel} (h : s.step prog n l = .ub) : ∃ k, .threw k ∈ s.log := by
  obtain ⟨j, u, hu, hs, ha, _⟩ := hr.ub h
  rcases hr.left hu hs.1 with ⟨hm, hc⟩ | h1
  · rw [hr.alive_task hm hu hc] at ha; cases ha
  · exact ⟨_, h1⟩

/-- With one worker nothing is undefined. -/
theorem _root_.CoEcs.UReach.alone_ub (hr : UReach prog 1 s) (l : ULabel) : s.step prog 1 l ≠ .ub := by
  intro h
  obtain ⟨j, u, hu, hs, ha, hwhy⟩ := hr.ub h
  have key : s.main ≠ .idle → u.call = s.call → False := fun hm hc => by rw [hr.alive_task hm hu hc] at ha; cases ha
  rcases hwhy with ⟨hm, hb, hj⟩ | hm | ⟨w, hw, h1 | h1⟩
  · exact key (by rw [hm]; simp) (hr.help_mine hm hb hj hu)
  · obtain ⟨e, b, past, C⟩ := hr.kinv.cur (by rw [hm]; simp)
    exact key (by rw [hm]; simp) (C.mine j u (hr.ainv.inBatch j hm) hu)
  · omega
  · have := hr.ainv.only j w (by rw [stAt_of hu, h1])
    omega

/-! ## Commands -/

/-- How often system `id` of call `k` was started. -/
def begun (l : List UEvent) (k id : Nat) : Nat := l.count (.start k id) + l.count (.mainStart k id)

theorem begun_append (a b : List UEvent) (k id : Nat) : begun (a ++ b) k id = begun a k id + begun b k id := by
  simp only [begun, List.count_append]; omega

/-- What was flushed is what was recorded up to the last flush. -/
def FInv (s : UState) : Prop :=
  ∃ pre post, s.log = pre ++ post ∧ (∀ m, .flush m ∉ post) ∧ ∀ k id, s.flushed.count (k, id) = begun pre k id

theorem FInv.snoc {s t : UState} (I : FInv s) (hf : t.flushed = s.flushed) (hl : t.log = s.log ∨ ∃ e, (∀ m, e ≠ .flush m) ∧ t.log = s.log ++ [e]) : FInv t := by
  obtain ⟨pre, post, h1, h2, h3⟩ := I
  rcases hl with hl | ⟨e, he, hl⟩
  · exact ⟨pre, post, by rw [hl, h1], h2, by rw [hf]; exact h3⟩
  · refine ⟨pre, post ++ [e], by rw [hl, h1, List.append_assoc], fun m hm => ?_, by rw [hf]; exact h3⟩
    rcases List.mem_append.1 hm with h | h
    · exact h2 m h
    · simp at h; exact he m h.symm

theorem FInv.step (C : CInv s) (I : FInv s) (h : Tr prog n s t) : FInv t := by
  cases h with
  | construct e hm => exact I.snoc rfl (Or.inr ⟨_, by simp, rfl⟩)
  | run e hm => exact I.snoc rfl (Or.inr ⟨.enter s.calls.length, by simp, rfl⟩)
  | destroy e hm => exact I.snoc rfl (Or.inl rfl)
  | ret hm => exact I.snoc rfl (Or.inr ⟨.returned s.call, by simp, rfl⟩)
  | submit d c e b hm hc he => exact I.snoc rfl (Or.inl rfl)
  | runMain d c hm hc => exact I.snoc rfl (Or.inr ⟨.mainStart s.call d.id, by simp, rfl⟩)
  | endMain d c hm hc => exact I.snoc rfl (Or.inl rfl)
  | waited c hm hc hbd => exact I.snoc rfl (Or.inl rfl)
  | help c j u hm hc hbd hj hu ha => exact I.snoc rfl (Or.inr ⟨.start u.call u.sys.id, by simp, rfl⟩)
  | flush c hm hc =>
    refine ⟨s.log ++ [.flush s.call], [], by simp, by simp, fun k id => ?_⟩
    have := C.cmds k id
    rw [begun_append]
    simp [begun] at this ⊢
    exact this
  | sysRet d hm => exact I.snoc rfl (Or.inr ⟨.mainFinish s.call d.id, by simp, rfl⟩)
  | helped j u hm hu => exact I.snoc rfl (Or.inr ⟨.finish u.call u.sys.id, by simp, rfl⟩)
  | throwSys d al hm _ => exact I.snoc rfl (Or.inr ⟨.threw s.call, by simp, rfl⟩)
  | throwTask j al hm _ => exact I.snoc rfl (Or.inr ⟨.threw s.call, by simp, rfl⟩)
  | take w j qs u hw hn hq hu ha => exact I.snoc rfl (Or.inr ⟨.start u.call u.sys.id, by simp, rfl⟩)
  | finish w j u hw hu hst => exact I.snoc rfl (Or.inr ⟨.finish u.call u.sys.id, by simp, rfl⟩)
  | terminate => exact I.snoc rfl (Or.inl rfl)

theorem _root_.CoEcs.UReach.finv (h : UReach prog n s) : FInv s :=
  h.induction ⟨[], [], rfl, by simp, fun _ _ => rfl⟩ fun _ _ hr I hst => I.step hr.cinv hst

/-- Whatever was recorded before a flush is flushed. -/
theorem FInv.kept (I : FInv s) {a b : List UEvent} {m : Nat} (h : s.log = a ++ .flush m :: b) (k id : Nat) : begun a k id ≤ s.flushed.count (k, id) := by
  obtain ⟨pre, post, h1, h2, h3⟩ := I
  rw [h3 k id]
  have : ∃ c, pre = a ++ .flush m :: c := by
    rw [h1] at h
    rcases List.append_eq_append_iff.1 h with ⟨x, hx1, hx2⟩ | ⟨x, hx1, hx2⟩
    · exfalso
      apply h2 m
      rw [hx2]; simp
    · cases x with
      | nil =>
        exfalso
        apply h2 m
        simp at hx2
        rw [← hx2]; simp
      | cons y ys =>
        simp at hx2
        exact ⟨ys, by rw [hx1, ← hx2.1]⟩
  obtain ⟨c, rfl⟩ := this
  rw [begun_append]
  omega

end CoEcs.UState
