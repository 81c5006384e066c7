import Verif.Model.Unwind

/-!
# Lemmas about runs of schedules in which systems throw
-/

namespace CoEcs

/-! ## Lists -/

theorem countP_modify_at {α : Type} (p : α → Bool) (f : α → α) : ∀ (l : List α) (j : Nat) (a : α), l[j]? = some a →
    (l.modify j f).countP p + (if p a then 1 else 0) = l.countP p + (if p (f a) then 1 else 0)
  | [], j, a, h => by simp at h
  | x :: l, 0, a, h => by
    simp at h; subst h
    simp only [List.modify_zero_cons, List.countP_cons]
    omega
  | x :: l, j + 1, a, h => by
    have h' : l[j]? = some a := by simpa using h
    have := countP_modify_at p f l j a h'
    simp only [List.modify_succ_cons, List.countP_cons]
    omega

theorem filterMap_modify_keep {α β : Type} (g : α → Option β) (f : α → α) (h : ∀ a, g (f a) = g a) : ∀ (l : List α) (j : Nat),
    (l.modify j f).filterMap g = l.filterMap g
  | [], j => by simp
  | x :: l, 0 => by simp [List.filterMap_cons, h]
  | x :: l, j + 1 => by simp [List.filterMap_cons, filterMap_modify_keep g f h l j]

namespace UState

/-! ## Steps in normal form -/

/-- Setting the status. -/
def UTask.to (st : UStatus) (t : UTask) : UTask := { t with st := st }

/-- The transitions, with the new state written out. -/
inductive Tr (prog : Nat → ScheduleExec) (n : Nat) (s : UState) : UState → Prop
  | construct (e : Nat) : s.main = .idle → s.used e = false →
      Tr prog n s { s with code := callCode prog (e, true), main := .code, calls := s.calls ++ [(e, true)], base := s.tasks.length,
                           alive := fun x => if x = e then true else s.alive x, used := fun x => if x = e then true else s.used x,
                           log := s.log ++ [.enter s.calls.length] }
  | run (e : Nat) : s.main = .idle → s.alive e = true →
      Tr prog n s { s with code := callCode prog (e, false), main := .code, calls := s.calls ++ [(e, false)], base := s.tasks.length,
                           log := s.log ++ [.enter s.calls.length] }
  | destroy (e : Nat) : s.main = .idle → s.alive e = true → Tr prog n s { s with alive := fun x => if x = e then false else s.alive x }
  | ret : s.main = .code → s.code = [] → Tr prog n s { s with main := .idle, log := s.log ++ [.returned s.call] }
  | submit (d : SysDesc) (c : List Instr) (e : Nat) (b : Bool) : s.main = .code → s.code = .submit d :: c → s.calls.getLast? = some (e, b) →
      Tr prog n s { s with code := c, tasks := s.tasks ++ [⟨d, e, s.call, .queued⟩], queue := s.queue ++ [s.tasks.length] }
  | runMain (d : SysDesc) (c : List Instr) : s.main = .code → s.code = .runMain d :: c →
      Tr prog n s { s with code := c, main := .system d, pending := s.pending ++ [(s.call, d.id)], log := s.log ++ [.mainStart s.call d.id] }
  | endMain (d : SysDesc) (c : List Instr) : s.main = .code → s.code = .endMain d :: c → Tr prog n s { s with code := c }
  | waited (c : List Instr) : s.main = .code → s.code = .wait :: c → s.batchDone = true → Tr prog n s { s with code := c, base := s.tasks.length }
  | help (c : List Instr) (j : Nat) (t : UTask) : s.main = .code → s.code = .wait :: c → s.batchDone = false → s.queue.getLast? = some j →
      s.tasks[j]? = some t → s.alive t.exec = true →
      Tr prog n s { s with main := .task j, queue := s.queue.dropLast, pending := s.pending ++ [(t.call, t.sys.id)],
                           tasks := s.tasks.modify j (UTask.to (.running 0)), log := s.log ++ [.start t.call t.sys.id] }
  | flush (c : List Instr) : s.main = .code → s.code = .flush :: c →
      Tr prog n s { s with code := c, pending := [], flushed := s.flushed ++ s.pending, log := s.log ++ [.flush s.call] }
  | sysRet (d : SysDesc) : s.main = .system d → Tr prog n s { s with main := .code, log := s.log ++ [.mainFinish s.call d.id] }
  | helped (j : Nat) (t : UTask) : s.main = .task j → s.tasks[j]? = some t →
      Tr prog n s { s with main := .code, tasks := s.tasks.modify j (UTask.to .done), log := s.log ++ [.finish t.call t.sys.id] }
  | throwSys (d : SysDesc) (al : Nat → Bool) : s.main = .system d →
      (al = s.alive ∨ ∃ e, s.calls.getLast? = some (e, true) ∧ al = fun x => if x = e then false else s.alive x) →
      Tr prog n s { s with main := .idle, code := [], alive := al, log := s.log ++ [.threw s.call] }
  | throwTask (j : Nat) (al : Nat → Bool) : s.main = .task j →
      (al = s.alive ∨ ∃ e, s.calls.getLast? = some (e, true) ∧ al = fun x => if x = e then false else s.alive x) →
      Tr prog n s { s with main := .idle, code := [], alive := al, tasks := s.tasks.modify j (UTask.to .failed), log := s.log ++ [.threw s.call] }
  | take (w j : Nat) (q : List Nat) (t : UTask) : 0 < w → w < n → s.queue = j :: q → s.tasks[j]? = some t → s.alive t.exec = true →
      Tr prog n s { s with queue := q, pending := s.pending ++ [(t.call, t.sys.id)],
                           tasks := s.tasks.modify j (UTask.to (.running w)), log := s.log ++ [.start t.call t.sys.id] }
  | finish (w j : Nat) (t : UTask) : 0 < w → s.tasks[j]? = some t → t.st = .running w →
      Tr prog n s { s with tasks := s.tasks.modify j (UTask.to .done), log := s.log ++ [.finish t.call t.sys.id] }
  | terminate : Tr prog n s { s with dead := true }

theorem taskOf_some {s : UState} {w j : Nat} (h : s.taskOf w = some j) : ∃ t, s.tasks[j]? = some t ∧ t.st = .running w := by
  unfold taskOf at h
  rw [List.findIdx?_eq_some_iff_getElem] at h
  obtain ⟨hj, h1, _⟩ := h
  exact ⟨s.tasks[j], List.getElem?_eq_getElem hj, by simpa using h1⟩

theorem unwind_eq (s : UState) : ∃ al : Nat → Bool, (al = s.alive ∨ ∃ e, s.calls.getLast? = some (e, true) ∧ al = fun x => if x = e then false else s.alive x) ∧
    s.unwind = { s with main := .idle, code := [], alive := al, log := s.log ++ [.threw s.call] } := by
  unfold unwind
  cases h : s.calls.getLast? with
  | none => exact ⟨s.alive, Or.inl rfl, by simp [say, call]⟩
  | some x =>
    obtain ⟨e, b⟩ := x
    cases b with
    | false => exact ⟨s.alive, Or.inl rfl, by simp [say, call]⟩
    | true => exact ⟨_, Or.inr ⟨e, rfl, rfl⟩, by simp [say, call]⟩

theorem step_tr {prog : Nat → ScheduleExec} {n : Nat} {s t : UState} {l : ULabel} (h : s.step prog n l = .ok t) : Tr prog n s t := by
  unfold step at h
  split at h
  · cases h
  · cases l with
    | construct e =>
      simp only at h
      split at h
      · rename_i hm
        split at h
        · cases h
        · rename_i hu
          cases h
          exact .construct e hm (by simpa using hu)
      · cases h
    | run e =>
      simp only at h
      split at h
      · rename_i hm
        split at h
        · rename_i hu
          cases h
          exact .run e hm hu
        · cases h
      · cases h
    | destroy e =>
      simp only at h
      split at h
      · rename_i hm
        split at h
        · rename_i hu
          cases h
          exact .destroy e hm hu
        · cases h
      · cases h
    | main =>
      simp only [mainStep] at h
      split at h
      · cases h
      · rename_i d hm; cases h; exact .sysRet d hm
      · rename_i j hm
        unfold finishTask at h
        simp only at h
        split at h
        · cases h
        · rename_i q hq
          split at h
          · cases h; exact .helped j q hm hq
          · cases h
      · rename_i hm
        split at h
        · rename_i hc; cases h; exact .ret hm hc
        · rename_i d c hc
          split at h
          · cases h
          · rename_i e b he; cases h; exact .submit d c e b hm hc he
        · rename_i d c hc; cases h; exact .runMain d c hm hc
        · rename_i d c hc; cases h; exact .endMain d c hm hc
        · rename_i c hc
          split at h
          · rename_i hb; cases h; exact .waited c hm hc hb
          · rename_i hb
            split at h
            · cases h
            · rename_i j hj
              unfold startTask at h
              simp only at h
              split at h
              · cases h
              · rename_i q hq
                split at h
                · rename_i ha; cases h; exact .help c j q hm hc (by simpa using hb) hj hq ha
                · cases h
        · rename_i c hc; cases h; exact .flush c hm hc
    | throw =>
      simp only [throwStep] at h
      split at h
      · rename_i d hm
        obtain ⟨al, h1, h2⟩ := unwind_eq s
        rw [h2] at h
        cases h
        exact .throwSys d al hm h1
      · rename_i j hm
        obtain ⟨al, h1, h2⟩ := unwind_eq (s.setSt j .failed)
        rw [h2] at h
        cases h
        exact .throwTask j al hm h1
      · cases h
    | take w =>
      simp only at h
      split at h
      · rename_i hw
        split at h
        · cases h
        · rename_i j q hq
          unfold startTask at h
          split at h
          · cases h
          · rename_i t ht
            split at h
            · rename_i ha; cases h; exact .take w j q t hw.1 hw.2.1 hq ht ha
            · cases h
      · cases h
    | finish w =>
      simp only at h
      split at h
      · rename_i hw
        split at h
        · cases h
        · rename_i j hj
          obtain ⟨t0, h0, h0'⟩ := taskOf_some hj
          unfold finishTask at h
          split at h
          · cases h
          · rename_i q hq
            rw [h0] at hq; cases hq
            split at h
            · cases h; exact .finish w j t0 hw h0 h0'
            · cases h
      · cases h
    | throws w =>
      simp only at h
      split at h
      · split at h
        · cases h
        · cases h; exact .terminate
      · cases h

theorem _root_.CoEcs.UReach.induction {prog : Nat → ScheduleExec} {n : Nat} {P : UState → Prop} (h0 : P UState.init)
    (hs : ∀ s t, UReach prog n s → P s → Tr prog n s t → P t) {s : UState} (h : UReach prog n s) : P s := by
  induction h with
  | init => exact h0
  | step l hr hst ih => exact hs _ _ hr ih (step_tr hst)

end UState
end CoEcs
