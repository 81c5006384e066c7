import Verif.Proofs.ParThrow

/-!
# C106: parallel iteration with functions that throw
-/

namespace CoEcs.Props
open CoEcs

variable {α : Type} {bad : α → Bool} {n : Nat} {s : FState α}

/-! ## Plans -/

/-- The plan of some call in a pool of `n` workers. -/
def IsPlan (n : Nat) (p : ParPlan α) : Prop := (∃ l, parallelFor n l = .ok p) ∨ ∃ cs, parEach n cs = .ok p

private theorem enter_ok {r : Run (ParPlan α)} {t : FState α} (h : s.enter r = .ok t) : r = .ok t.plan ∧ t.past = s.past := by
  cases r with
  | ok p => simp only [FState.enter, FOut.ok.injEq] at h; subst h; exact ⟨rfl, rfl⟩
  | ub => simp [FState.enter] at h
  | stuck => simp [FState.enter] at h

private theorem start_plan {j w : Nat} {q : List Nat} {t : FState α} (h : s.start j w q = .ok t) : t.plan = s.plan ∧ t.past = s.past := by
  simp only [FState.start] at h
  split at h
  · cases h
  · split at h
    · cases h
    · cases h; exact ⟨rfl, rfl⟩

private theorem visit_plan (bad : α → Bool) (s : FState α) (j : Nat) :
    match s.visit bad j with
    | .ub => True
    | .done t => t.plan = s.plan ∧ t.past = s.past
    | .more t => t.plan = s.plan ∧ t.past = s.past
    | .threw t => t.plan = s.plan ∧ t.past = s.past := by
  simp only [FState.visit]
  cases s.tasks[j]? with
  | none => trivial
  | some t =>
    simp only
    cases s.over j with
    | true => simp
    | false =>
      simp only [Bool.false_eq_true, if_false]
      cases t.rest with
      | nil => exact ⟨rfl, rfl⟩
      | cons x r =>
        simp only
        cases bad x <;> exact ⟨rfl, rfl⟩

theorem plans (hn : 0 < n) (h : FReach bad n s) : IsPlan n s.plan ∧ ∀ c ∈ s.past, IsPlan n c.plan := by
  induction h with
  | init => exact ⟨.inl ⟨[], by simp [parallelFor, show ¬ n = 0 by omega, FState.init]⟩, by simp [FState.init]⟩
  | @step s t l _ h ih =>
    unfold FState.step at h
    split at h
    · cases h
    cases l with
    | parFor l =>
      simp only at h
      split at h
      · obtain ⟨h1, h2⟩ := enter_ok h
        exact ⟨.inl ⟨l, h1⟩, h2 ▸ ih.2⟩
      · cases h
    | parEach cs =>
      simp only at h
      split at h
      · obtain ⟨h1, h2⟩ := enter_ok h
        exact ⟨.inr ⟨cs, h1⟩, h2 ▸ ih.2⟩
      · cases h
    | take w =>
      simp only at h
      split at h
      · split at h
        · cases h
        · obtain ⟨h1, h2⟩ := start_plan h
          rw [h1, h2]; exact ih
      · cases h
    | work w =>
      simp only at h
      split at h
      · split at h
        · cases h
        · rename_i j _
          have V := visit_plan bad s j
          split at h <;> rename_i hv <;> simp only [hv] at V
          · cases h
          · cases h; rw [V.1, V.2]; exact ih
          · cases h; rw [V.1, V.2]; exact ih
          · cases h; simp only [V.1, V.2]; exact ih
      · cases h
    | main =>
      have fin : ∀ (u : FState α) (e : FEnd), u.plan = s.plan → u.past = s.past →
          IsPlan n (u.finish e).plan ∧ ∀ c ∈ (u.finish e).past, IsPlan n c.plan := by
        intro u e h1 h2
        refine ⟨by simp only [FState.finish, h1]; exact ih.1, fun c hc => ?_⟩
        simp only [FState.finish, List.mem_append, List.mem_singleton, h2] at hc
        rcases hc with hc | rfl
        · exact ih.2 c hc
        · simp only [h1]; exact ih.1
      simp only [FState.mainStep] at h
      split at h
      · cases h
      · cases h; exact fin _ _ rfl rfl
      · split at h
        · cases h; exact fin _ _ rfl rfl
        · cases h; exact ih
      · cases h; exact ih
      · cases h; exact ih
      · split at h
        · cases h; exact fin _ _ rfl rfl
        · split at h
          · cases h
          · obtain ⟨h1, h2⟩ := start_plan h
            rw [h1, h2]; exact ih
      · rename_i j _
        have V := visit_plan bad s j
        split at h <;> rename_i hv <;> simp only [hv] at V
        · cases h
        · cases h; simp only [V.1, V.2]; exact ih
        · cases h; rw [V.1, V.2]; exact ih
        · cases h; exact fin _ _ V.1 V.2

private theorem parBatches_length (size : Nat) : ∀ (k : Nat) (l : List α) (bs : List (List α)), parBatches n size k l = .ok bs → bs.length = k := by
  intro k
  induction k with
  | zero => intro l bs h; simp [parBatches] at h; simp [← h]
  | succ k ih =>
    intro l bs h
    unfold parBatches at h
    split at h
    · split at h
      · cases h1 : parBatches n size k (l.drop size) with
        | ok bs' => rw [h1] at h; simp [Run.bind] at h; rw [← h]; simp [ih _ _ h1]
        | ub => rw [h1] at h; simp [Run.bind] at h
        | stuck => rw [h1] at h; simp [Run.bind] at h
      · cases h
    · simp at h; rw [← h]; simp; omega

private theorem parallelFor_length {l : List α} {bs : List (List α)} (h : parallelFor n l = .ok (.tasks bs)) : bs.length = n := by
  unfold parallelFor at h
  split at h
  · cases h
  split at h
  · cases h
  cases h1 : parBatches n (l.length / n) n l with
  | ok bs' => rw [h1] at h; simp [Run.bind] at h; rw [← h]; exact parBatches_length _ _ _ _ h1
  | ub => rw [h1] at h; simp [Run.bind] at h
  | stuck => rw [h1] at h; simp [Run.bind] at h

/-- There is one batch for each worker. -/
theorem IsPlan.length {bs : List (List α)} (h : IsPlan n (.tasks bs)) : bs.length = n := by
  rcases h with ⟨l, h⟩ | ⟨cs, h⟩
  · exact parallelFor_length h
  · unfold parEach at h
    cases h1 : parallelFor n cs with
    | ok p =>
      rw [h1] at h
      cases p with
      | inline l => simp [Run.bind] at h
      | tasks bs' => simp [Run.bind] at h; rw [← h]; simp [parallelFor_length h1]
    | ub => rw [h1] at h; simp [Run.bind] at h
    | stuck => rw [h1] at h; simp [Run.bind] at h

/-! ## What holds -/

/-- **C106, the outcome of a call.**  A call returns only if the function was called with every element of the range
exactly as often as it occurs, and it throws for none of them; if a call ended with an exception, the function threw
one, and was called for no element more often than it occurs. -/
theorem C106_outcome (hn : 0 < n) (h : FReach bad n s) {c : FCall α} (hc : c ∈ s.past) :
    (c.ended = .returned → c.called.Perm (planElems c.plan) ∧ ∀ x ∈ planElems c.plan, bad x = false) ∧
    (c.ended = .threw → (∃ x ∈ c.called, bad x = true) ∧ ∃ r, (c.called ++ r).Perm (planElems c.plan)) :=
  ⟨((h.inv hn).past_ok c hc).returned, ((h.inv hn).past_ok c hc).threw⟩

/-- **C106, no exception is lost.**  A call goes on only as long as the function has not thrown, unless the program was
terminated; and it is terminated only if the function threw, in a pool with background workers. -/
theorem C106_no_exception_lost (hn : 0 < n) (h : FReach bad n s) :
    (s.dead = false → s.main ≠ .idle → ∀ x ∈ s.called, bad x = false) ∧ (s.dead = true → 2 ≤ n ∧ ∃ x ∈ s.called, bad x = true) := by
  have I := h.inv hn
  refine ⟨fun hd hm => ?_, fun hd => (I.dead_ok hd).2⟩
  cases hs : s.main with
  | idle => exact absurd hs hm
  | inline r => exact (I.inline_ok r hs).2.2
  | _ => exact (I.fine hd (by rw [hs]; rfl)).2

private theorem start_ub (I : PFInv bad n s) {j w : Nat} {q : List Nat} {m : FMain α} (hm : m = s.main ∨ m.busy = true ∧ s.main.busy = true) (hj : j ∈ s.queue)
    (h : ({ s with main := m } : FState α).start j w q = .ub) (hold : ∀ c ∈ s.past, c.ended = .threw → c.plan.BadFirst bad) : False := by
  obtain ⟨a, ha, hst⟩ := (I.q_mem j).1 hj
  simp only [FState.start, ha] at h
  split at h
  · rename_i hov
    have : s.over j = true := by
      rcases hm with rfl | ⟨h1, h2⟩
      · exact hov
      · have hlt : j < s.base := by
          simp only [FState.over] at hov
          split at hov
          · cases h1
          · simpa using hov
        simp only [FState.over]
        cases s.main <;> simp [hlt]
    rcases I.old hold j a this ha with h | h <;> rw [hst] at h <;> cases h
  · cases h

private theorem visit_ub (I : PFInv bad n s) (hd : s.dead = false) {j w : Nat} {a : FTask α} (ha : s.tasks[j]? = some a) (hst : a.st = .running w)
    (h : s.visit bad j = .ub) (hold : ∀ c ∈ s.past, c.ended = .threw → c.plan.BadFirst bad) : False := by
  have V := I.visit hd ha hst
  rw [h] at V
  rcases I.old hold j a V ha with h | h <;> rw [hst] at h <;> cases h

/-- **C106, when the behaviour is defined.**  As long as every call that ended with an exception had all elements for
which the function throws in its first batch, or was on the fast path, no step is undefined: nothing of a call is used
after its end. -/
theorem C106_defined_partial (hn : 0 < n) (h : FReach bad n s) (hold : ∀ c ∈ s.past, c.ended = .threw → c.plan.BadFirst bad) (l : FLabel α) :
    s.step bad n l ≠ .ub := by
  have I := h.inv hn
  intro hu
  unfold FState.step at hu
  split at hu
  · cases hu
  rename_i hd
  have hd : s.dead = false := by simpa using hd
  cases l with
  | parFor l =>
    simp only at hu
    split at hu
    · obtain ⟨p, hp, _⟩ := parallelFor_elems n l hn
      rw [hp] at hu; simp [FState.enter] at hu
    · cases hu
  | parEach cs =>
    simp only at hu
    split at hu
    · obtain ⟨p, hp, _⟩ := parEach_elems n cs hn
      rw [hp] at hu; simp [FState.enter] at hu
    · cases hu
  | take w =>
    simp only at hu
    split at hu
    · split at hu
      · cases hu
      · rename_i j q hq
        exact start_ub I (m := s.main) (.inl rfl) (by rw [hq]; exact List.mem_cons_self) hu hold
    · cases hu
  | work w =>
    simp only at hu
    split at hu
    · split at hu
      · cases hu
      · rename_i j hj
        obtain ⟨a, ha, hst⟩ := PFInv.taskOf_some hj
        split at hu <;> rename_i hv
        · exact visit_ub I hd ha hst hv hold
        all_goals cases hu
    · cases hu
  | main =>
    simp only [FState.mainStep] at hu
    split at hu
    · cases hu
    · cases hu
    · split at hu <;> cases hu
    · cases hu
    · cases hu
    · rename_i hm
      split at hu
      · cases hu
      · split at hu
        · cases hu
        · rename_i j hj
          exact start_ub I (.inr ⟨rfl, by rw [hm]; rfl⟩) (List.mem_of_getLast? hj) hu hold
    · rename_i j hm
      obtain ⟨_, a, ha, hst⟩ := I.main_task j hm
      split at hu <;> rename_i hv
      · exact visit_ub I hd ha hst hv hold
      all_goals cases hu

/-- **C106, nothing is left.**  Under the same condition nothing of a call is queued or executed when it has ended. -/
theorem C106_over_partial (hn : 0 < n) (h : FReach bad n s) (hold : ∀ c ∈ s.past, c.ended = .threw → c.plan.BadFirst bad) (hm : s.main = .idle) :
    s.queue = [] ∧ ∀ t ∈ s.tasks, t.st = .done ∨ t.st = .failed := by
  have I := h.inv hn
  have hall : ∀ (j : Nat) (t : FTask α), s.tasks[j]? = some t → t.st = .done ∨ t.st = .failed :=
    fun j t ht => I.old hold j t (by simp [FState.over, hm]) ht
  refine ⟨?_, fun t ht => ?_⟩
  · cases hq : s.queue with
    | nil => rfl
    | cons j q =>
      obtain ⟨a, ha, hst⟩ := (I.q_mem j).1 (by rw [hq]; exact List.mem_cons_self)
      rcases hall j a ha with h | h <;> rw [hst] at h <;> cases h
  · obtain ⟨j, hj⟩ := List.mem_iff_getElem?.1 ht
    exact hall j t hj

/-- **C106 holds without background workers**: the program is never terminated, no step is undefined, and when a call
has ended nothing of it is left. -/
theorem C106_alone_partial (h : FReach bad 1 s) :
    s.dead = false ∧ (∀ l, s.step bad 1 l ≠ .ub) ∧ (s.main = .idle → s.queue = [] ∧ ∀ t ∈ s.tasks, t.st = .done ∨ t.st = .failed) := by
  have hold : ∀ c ∈ s.past, c.ended = .threw → c.plan.BadFirst bad := by
    intro c hc _
    have hp := (plans (by decide) h).2 c hc
    cases hcp : c.plan with
    | inline l => trivial
    | tasks bs =>
      rw [hcp] at hp
      have := hp.length
      match bs, this with
      | [b], _ => simp [ParPlan.BadFirst]
  refine ⟨?_, C106_defined_partial (by decide) h hold, C106_over_partial (by decide) h hold⟩
  cases hd : s.dead with
  | false => rfl
  | true => exact absurd ((h.inv (by decide)).dead_ok hd).2.1 (by decide)

/-! ## What does not hold -/

/-- Nothing is queued or executed. -/
def Clean (s : FState α) : Prop := s.main = .idle ∧ s.dead = false ∧ s.queue = [] ∧ ∀ t ∈ s.tasks, ∀ w, t.st ≠ .running w

/-- A task in the queue. -/
private def queuedTask (b : List α) : FTask α := ⟨b, .queued⟩

private theorem submits (bs : List (List α)) : ∀ (s : FState α), FReach bad n s → s.main = .submit bs → s.dead = false →
    FReach bad n { s with main := .wait, tasks := s.tasks ++ bs.map queuedTask, queue := s.queue ++ List.range' s.tasks.length bs.length } := by
  induction bs with
  | nil =>
    intro s h hm hd
    refine .step .main h ?_
    simp [FState.step, FState.mainStep, hm, hd]
  | cons b bs ih =>
    intro s h hm hd
    have h1 : FReach bad n { s with main := .submit bs, tasks := s.tasks ++ [⟨b, .queued⟩], queue := s.queue ++ [s.tasks.length] } := by
      refine .step .main h ?_
      simp [FState.step, FState.mainStep, hm, hd]
    have h2 := ih _ h1 rfl hd
    have e : s.tasks ++ [⟨b, .queued⟩] ++ bs.map queuedTask = s.tasks ++ (b :: bs).map queuedTask := by simp [queuedTask]
    have e2 : s.queue ++ [s.tasks.length] ++ List.range' (s.tasks ++ [(⟨b, .queued⟩ : FTask α)]).length bs.length =
        s.queue ++ List.range' s.tasks.length (b :: bs).length := by simp [List.range'_succ]
    simp only [e, e2] at h2
    exact h2

/-- All batches have been submitted, nothing else has happened. -/
private theorem submitted {bs : List (List α)} {l : FLabel α} (h : FReach bad n s) (hc : Clean s)
    (hl : (∃ r, l = .parFor r ∧ parallelFor n r = .ok (.tasks bs)) ∨ ∃ cs, l = .parEach cs ∧ parEach n cs = .ok (.tasks bs)) :
    FReach bad n { s with main := .wait, base := s.tasks.length, plan := .tasks bs, called := [], tasks := s.tasks ++ bs.map queuedTask,
                          queue := List.range' s.tasks.length bs.length } := by
  obtain ⟨h1, h2, h3, h4⟩ := hc
  have e : FReach bad n { s with main := .submit bs, base := s.tasks.length, plan := .tasks bs, called := [] } := by
    refine .step l h ?_
    rcases hl with ⟨r, rfl, hr⟩ | ⟨cs, rfl, hr⟩ <;> simp [FState.step, h1, h2, hr, FState.enter]
  have := submits bs _ e rfl h2
  simpa [h3] using this

private theorem taskOf_mid {pre post : List (FTask α)} {r : List α} {w : Nat} {s : FState α} (hs : s.tasks = pre ++ ⟨r, .running w⟩ :: post)
    (hp : ∀ t ∈ pre, t.st ≠ .running w) : s.taskOf w = some pre.length := by
  unfold FState.taskOf
  rw [hs, List.findIdx?_eq_some_iff_getElem]
  refine ⟨by simp, by simp, fun j hj => ?_⟩
  rw [List.getElem_append_left hj]
  simpa using hp _ (List.getElem_mem hj)

private theorem set_mid {pre post : List (FTask α)} {a b : FTask α} : (pre ++ a :: post).set pre.length b = pre ++ b :: post := by
  simp

private theorem work_batch : ∀ (r : List α) (s : FState α) (pre post : List (FTask α)), FReach bad n s → s.main = .wait → s.dead = false →
    s.base ≤ pre.length → s.tasks = pre ++ ⟨r, .running 1⟩ :: post → (∀ t ∈ pre, t.st ≠ .running 1) →
    (∃ t, FReach bad n t ∧ t.dead = true) ∨
      ((∀ x ∈ r, bad x = false) ∧ FReach bad n { s with tasks := pre ++ ⟨[], .done⟩ :: post, called := s.called ++ r }) := by
  intro r
  induction r with
  | nil =>
    intro s pre post h hm hd hb hs hp
    refine .inr ⟨by simp, .step (.work 1) h ?_⟩
    have ho : s.over pre.length = false := by simp [FState.over, hm, hb]
    have ht : s.tasks[pre.length]? = some ⟨[], .running 1⟩ := by rw [hs]; simp
    simp [FState.step, hd, taskOf_mid hs hp, FState.visit, ht, ho, FState.setTask, hs]
  | cons x r ih =>
    intro s pre post h hm hd hb hs hp
    have ho : s.over pre.length = false := by simp [FState.over, hm, hb]
    have ht : s.tasks[pre.length]? = some ⟨x :: r, .running 1⟩ := by rw [hs]; simp
    by_cases hx : bad x = true
    · refine .inl ⟨_, .step (.work 1) h (t := { s with tasks := pre ++ ⟨r, .failed⟩ :: post, called := s.called ++ [x], dead := true }) ?_, rfl⟩
      simp [FState.step, hd, taskOf_mid hs hp, FState.visit, ht, ho, FState.setTask, hs, hx]
    · have h1 : FReach bad n { s with tasks := pre ++ ⟨r, .running 1⟩ :: post, called := s.called ++ [x] } := by
        refine .step (.work 1) h ?_
        simp [FState.step, hd, taskOf_mid hs hp, FState.visit, ht, ho, FState.setTask, hs, hx]
      rcases ih _ pre post h1 hm hd hb rfl hp with h2 | ⟨h2, h3⟩
      · exact .inl h2
      · refine .inr ⟨fun y hy => ?_, ?_⟩
        · rcases List.mem_cons.1 hy with rfl | hy
          · simpa using hx
          · exact h2 y hy
        · simpa using h3

private theorem work_all : ∀ (bs : List (List α)) (s : FState α) (pre : List (FTask α)), FReach bad n s → 1 < n → s.main = .wait → s.dead = false →
    s.base ≤ pre.length → s.tasks = pre ++ bs.map queuedTask → s.queue = List.range' pre.length bs.length → (∀ t ∈ pre, t.st ≠ .running 1) →
    (∃ x ∈ bs.flatten, bad x = true) → ∃ t, FReach bad n t ∧ t.dead = true := by
  intro bs
  induction bs with
  | nil => intro s pre _ _ _ _ _ _ _ _ h; simp at h
  | cons b bs ih =>
    intro s pre h hn hm hd hb hs hq hp hx
    have hnone : s.taskOf 1 = none := by
      unfold FState.taskOf
      rw [List.findIdx?_eq_none_iff, hs]
      intro t ht
      rcases List.mem_append.1 ht with ht | ht
      · simpa using hp t ht
      · obtain ⟨b, _, rfl⟩ := List.mem_map.1 ht
        rfl
    have h1 : FReach bad n { s with tasks := pre ++ ⟨b, .running 1⟩ :: bs.map queuedTask, queue := List.range' (pre.length + 1) bs.length } := by
      refine .step (.take 1) h ?_
      have ho : s.over pre.length = false := by simp [FState.over, hm, hb]
      have ht : s.tasks[pre.length]? = some ⟨b, .queued⟩ := by rw [hs]; simp [queuedTask]
      have hq' : s.queue = pre.length :: List.range' (pre.length + 1) bs.length := by rw [hq]; simp [List.range'_succ]
      simp [FState.step, hd, hn, hnone, hq', FState.start, ht, ho, FState.setTask, hs]
      rfl
    rcases work_batch b _ pre (bs.map queuedTask) h1 hm hd hb rfl hp with h2 | ⟨h2, h3⟩
    · exact h2
    · refine ih _ (pre ++ [⟨[], .done⟩]) h3 hn hm hd (by simp; exact Nat.le_succ_of_le hb) (by simp) (by simp) ?_ ?_
      · intro t ht
        rcases List.mem_append.1 ht with ht | ht
        · exact hp t ht
        · simp at ht; rw [ht]; simp
      · obtain ⟨x, hx1, hx2⟩ := hx
        rw [List.flatten_cons, List.mem_append] at hx1
        rcases hx1 with hx1 | hx1
        · rw [h2 x hx1] at hx2; cases hx2
        · exact ⟨x, hx1, hx2⟩

/-- **C106 is violated in every pool with background workers: the exception need not reach the caller.**  From every state
in which nothing is queued or executed, a call whose function throws for some element, of a range that is not shorter
than the number of workers, can terminate the program. -/
theorem C106_terminated_violated {bs : List (List α)} {l : FLabel α} (hn : 2 ≤ n) (h : FReach bad n s) (hc : Clean s)
    (hl : (∃ r, l = .parFor r ∧ parallelFor n r = .ok (.tasks bs)) ∨ ∃ cs, l = .parEach cs ∧ parEach n cs = .ok (.tasks bs))
    (hx : ∃ x ∈ bs.flatten, bad x = true) : ∃ t, FReach bad n t ∧ t.dead = true :=
  work_all bs _ s.tasks (submitted h hc hl) (by omega) rfl hc.2.1 (Nat.le_refl _) rfl rfl (fun t ht => hc.2.2.2 t ht 1) hx

private theorem main_batch : ∀ (r : List α) (s : FState α) (pre post : List (FTask α)), FReach bad n s → s.main = .task pre.length → s.dead = false →
    s.base ≤ pre.length → s.tasks = pre ++ ⟨r, .running 0⟩ :: post →
    (∃ q c, FReach bad n (({ s with tasks := pre ++ ⟨q, .failed⟩ :: post, called := c } : FState α).finish .threw)) ∨
      ((∀ x ∈ r, bad x = false) ∧ FReach bad n { s with tasks := pre ++ ⟨[], .done⟩ :: post, main := .wait, called := s.called ++ r }) := by
  intro r
  induction r with
  | nil =>
    intro s pre post h hm hd hb hs
    refine .inr ⟨by simp, .step .main h ?_⟩
    have ho : s.over pre.length = false := by simp [FState.over, hm, hb]
    have ht : s.tasks[pre.length]? = some ⟨[], .running 0⟩ := by rw [hs]; simp
    simp [FState.step, FState.mainStep, hm, hd, FState.visit, ht, ho, FState.setTask, hs]
  | cons x r ih =>
    intro s pre post h hm hd hb hs
    have ho : s.over pre.length = false := by simp [FState.over, hm, hb]
    have ht : s.tasks[pre.length]? = some ⟨x :: r, .running 0⟩ := by rw [hs]; simp
    by_cases hx : bad x = true
    · refine .inl ⟨r, s.called ++ [x], .step .main h ?_⟩
      simp [FState.step, FState.mainStep, hm, hd, FState.visit, ht, ho, FState.setTask, hs, hx]
    · have h1 : FReach bad n { s with tasks := pre ++ ⟨r, .running 0⟩ :: post, called := s.called ++ [x] } := by
        refine .step .main h ?_
        simp [FState.step, FState.mainStep, hm, hd, FState.visit, ht, ho, FState.setTask, hs, hx]
      rcases ih _ pre post h1 hm hd hb rfl with h2 | ⟨h2, h3⟩
      · exact .inl h2
      · refine .inr ⟨fun y hy => ?_, ?_⟩
        · rcases List.mem_cons.1 hy with rfl | hy
          · simpa using hx
          · exact h2 y hy
        · simpa using h3

private theorem main_all (b0 : List α) (old : List (FTask α)) (hold : ∀ t ∈ old, t.st ≠ .running 1) : ∀ (m : Nat) (bs : List (List α)) (s : FState α)
    (post : List (FTask α)), bs.length = m →
    FReach bad n s → s.main = .wait → s.dead = false → s.base = old.length → s.tasks = (old ++ (b0 :: bs).map queuedTask) ++ post →
    s.queue = List.range' old.length (b0 :: bs).length → (∀ t ∈ post, t.st ≠ .running 1) → (∃ x ∈ bs.flatten, bad x = true) →
    ∃ (t : FState α) (q : List Nat), FReach bad n t ∧ t.main = .idle ∧ t.dead = false ∧ t.queue = old.length :: q ∧ t.tasks[old.length]? = some ⟨b0, .queued⟩ ∧
      t.taskOf 1 = none := by
  intro m
  induction m with
  | zero => intro bs s post hl _ _ _ _ _ _ _ hx; simp [List.length_eq_zero_iff.1 hl] at hx
  | succ m ih =>
    intro bs s post hl h hm hd hb hs hq hp hx
    obtain ⟨bs', b, rfl⟩ : ∃ bs' b, bs = bs' ++ [b] := by
      rcases List.eq_nil_or_concat bs with rfl | ⟨bs', b, h⟩
      · simp at hl
      · exact ⟨bs', b, by simpa using h⟩
    have hl' : bs'.length = m := by simp at hl; exact hl
    -- the newest task
    let pre := old ++ (b0 :: bs').map queuedTask
    have hs' : s.tasks = pre ++ queuedTask b :: post := by rw [hs]; simp [pre]
    have hq' : s.queue = List.range' old.length (b0 :: bs').length ++ [pre.length] := by
      rw [hq]
      have e1 : (b0 :: (bs' ++ [b])).length = (b0 :: bs').length + 1 := by simp
      rw [e1, List.range'_concat]; simp [pre]
    have hpl : s.base ≤ pre.length := by rw [hb]; simp [pre]
    have hnd : s.allDone = false := by
      unfold FState.allDone
      rw [hs, hb]
      simp [queuedTask]
    have h1 : FReach bad n { s with main := .task pre.length, tasks := pre ++ ⟨b, .running 0⟩ :: post, queue := List.range' old.length (b0 :: bs').length } := by
      refine .step .main h ?_
      have ho : ({ s with main := .task pre.length } : FState α).over pre.length = false := by simp [FState.over, hpl]
      have ht : s.tasks[pre.length]? = some (queuedTask b) := by rw [hs']; simp
      have hgl : s.queue.getLast? = some pre.length := by rw [hq']; simp
      have hdl : s.queue.dropLast = List.range' old.length (b0 :: bs').length := by rw [hq']; simp
      simp only [FState.step, hd, FState.mainStep, hm, hnd, hgl, FState.start, ht, hdl, FState.setTask]
      rw [if_neg (by simp), if_neg (by simp), if_neg (by rw [← hd]; simp [ho])]
      simp [queuedTask, hs', hd]
    rcases main_batch b _ pre post h1 rfl hd hpl rfl with ⟨q, c, h2⟩ | ⟨h2, h3⟩
    · refine ⟨_, List.range' (old.length + 1) bs'.length, h2, rfl, hd, ?_, ?_, ?_⟩
      · simp [FState.finish, List.range'_succ]
      · simp [FState.finish, pre, queuedTask]
      · unfold FState.taskOf
        rw [List.findIdx?_eq_none_iff]
        intro t ht
        simp only [FState.finish, List.mem_append, List.mem_cons, pre] at ht
        rcases ht with (ht | ht) | rfl | ht
        · simpa using hold t ht
        · obtain ⟨b, _, rfl⟩ := List.mem_map.1 ht
          rfl
        · rfl
        · simpa using hp t ht
    · refine ih bs' _ (⟨[], .done⟩ :: post) hl' h3 rfl hd hb rfl rfl ?_ ?_
      · intro t ht
        rcases List.mem_cons.1 ht with rfl | ht
        · simp
        · exact hp t ht
      · obtain ⟨x, hx1, hx2⟩ := hx
        simp only [List.flatten_append, List.flatten_cons, List.flatten_nil, List.append_nil, List.mem_append] at hx1
        rcases hx1 with hx1 | hx1
        · exact ⟨x, hx1, hx2⟩
        · rw [h2 x hx1] at hx2; cases hx2

/-- **C106 is violated in every pool with background workers: a call that has ended is not over.**  From every state in
which nothing is queued or executed, a call whose function throws for an element outside of the first batch can end
with an exception while a task is left in the queue, and the next worker that takes it uses what the call has
destroyed. -/
theorem C106_dangling_violated {b0 : List α} {bs : List (List α)} {l : FLabel α} (hn : 2 ≤ n) (h : FReach bad n s) (hc : Clean s)
    (hl : (∃ r, l = .parFor r ∧ parallelFor n r = .ok (.tasks (b0 :: bs))) ∨ ∃ cs, l = .parEach cs ∧ parEach n cs = .ok (.tasks (b0 :: bs)))
    (hx : ∃ x ∈ bs.flatten, bad x = true) : ∃ t, FReach bad n t ∧ t.main = .idle ∧ t.step bad n (.take 1) = .ub := by
  obtain ⟨t, q, h1, h2, h3, h4, h5, h6⟩ := main_all b0 s.tasks (fun t ht => hc.2.2.2 t ht 1) bs.length bs _ [] rfl (submitted h hc hl) rfl hc.2.1 rfl
    (by simp) rfl (by simp) hx
  refine ⟨t, h1, h2, ?_⟩
  simp [FState.step, h3, h4, h6, show 1 < n by omega, FState.start, h5, FState.over, h2]

/-- The state the program starts in, and a call with four elements in a pool of two workers: the function throws for the
last one. -/
example : Clean (FState.init : FState Nat) ∧ parEach 2 [[1, 2], [3], [4]] = .ok (.tasks [[1, 2], [3, 4]]) ∧
    (∃ t : FState Nat, FReach (· == 4) 2 t ∧ t.dead = true) ∧ ∃ t : FState Nat, FReach (· == 4) 2 t ∧ t.main = .idle ∧ t.step (· == 4) 2 (.take 1) = .ub := by
  have hc : Clean (FState.init : FState Nat) := ⟨rfl, rfl, rfl, by simp [FState.init]⟩
  have hp : parEach 2 [[1, 2], [3], [4]] = .ok (.tasks [[1, 2], [3, 4]]) := rfl
  exact ⟨hc, hp, C106_terminated_violated (by decide) .init hc (.inr ⟨_, rfl, hp⟩) ⟨4, by decide, rfl⟩,
    C106_dangling_violated (by decide) .init hc (.inr ⟨_, rfl, hp⟩) ⟨4, by decide, rfl⟩⟩

/-- A call with three elements in the only batch of a pool of one worker: it throws for the second one, the third is not
visited. -/
example : ∃ s : FState Nat, FReach (· == 2) 1 s ∧ s.main = .idle ∧ s.past.map (fun c => (c.called, c.ended)) = [([1, 2], .threw)] := by
  have h := FReach.init (bad := (· == 2)) (n := 1)
  have h1 := h.step (.parFor [1, 2, 3]) rfl
  have h2 := h1.step .main rfl
  have h3 := h2.step .main rfl
  have h4 := h3.step .main rfl
  have h5 := h4.step .main rfl
  have h6 := h5.step .main rfl
  exact ⟨_, h6, rfl, rfl⟩

end CoEcs.Props
