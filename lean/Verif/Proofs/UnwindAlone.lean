import Verif.Proofs.UnwindCalls

/-!
# What is left of a call, pools without background workers, commands
-/

namespace CoEcs.UState
variable {prog : Nat → ScheduleExec} {n : Nat} {s t : UState}

theorem tally_all {l : List UTask} {k : Nat} {p : UStatus → Bool} (h : ∀ (i : Nat) (t : UTask), l[i]? = some t → t.call = k → p t.st = true) (id : Nat) :
    tally l k id p = sysCount (subs l k) id := by
  induction l with
  | nil => rfl
  | cons x l ih =>
    have ih := ih (fun i t hi => h (i + 1) t (by simpa using hi))
    have hx := h 0 x rfl
    unfold tally sysCount subs at ih ⊢
    rw [List.countP_cons, ih, List.filterMap_cons]
    by_cases hc : x.call = k
    · simp only [hc, hx hc, if_true, List.map_cons, List.count_cons]
      by_cases hi : x.sys.id = id <;> simp [hi]
    · simp [hc]

/-! ## Executors -/

/-- The executor of the current call exists. -/
theorem _root_.CoEcs.UReach.alive (h : UReach prog n s) : s.main ≠ .idle → ∃ e b, s.calls.getLast? = some (e, b) ∧ s.alive e = true := by
  refine UReach.induction (P := fun s => s.main ≠ .idle → ∃ e b, s.calls.getLast? = some (e, b) ∧ s.alive e = true) ?_ ?_ h
  · intro h; exact absurd rfl h
  · intro s t _ I hst
    cases hst with
    | construct e hm => exact fun _ => ⟨e, true, by simp, by simp⟩
    | run e hm ha => exact fun _ => ⟨e, false, by simp, ha⟩
    | destroy e hm => exact fun h => absurd hm h
    | ret hm => exact fun h => absurd rfl h
    | throwSys d al hm _ => exact fun h => absurd rfl h
    | throwTask j al hm _ => exact fun h => absurd rfl h
    | submit d c e b hm hc he => exact fun _ => I (by rw [hm]; simp)
    | runMain d c hm hc => exact fun _ => I (by rw [hm]; simp)
    | endMain d c hm hc => exact fun _ => I (by rw [hm]; simp)
    | waited c hm hc hb => exact fun _ => I (by rw [hm]; simp)
    | help c j u hm hc hb hj hu ha => exact fun _ => I (by rw [hm]; simp)
    | flush c hm hc => exact fun _ => I (by rw [hm]; simp)
    | sysRet d hm => exact fun _ => I (by rw [hm]; simp)
    | helped j u hm hu => exact fun _ => I (by rw [hm]; simp)
    | take w j qs u hw hn hq hu ha => exact I
    | finish w j u hw hu hst => exact I
    | terminate => exact I

/-- A task of the current call refers to an executor that exists. -/
theorem _root_.CoEcs.UReach.alive_task (h : UReach prog n s) (hm : s.main ≠ .idle) {j : Nat} {u : UTask} (hu : s.tasks[j]? = some u) (hc : u.call = s.call) :
    s.alive u.exec = true := by
  obtain ⟨e, b, he, ha⟩ := h.alive hm
  obtain ⟨b', hb'⟩ := h.kinv.old j u hu
  rw [hc] at hb'
  rw [List.getLast?_eq_getElem?] at he
  have : s.calls[s.call]? = some (e, b) := he
  rw [this] at hb'
  injection hb' with hb'
  injection hb' with h1 h2
  exact h1 ▸ ha

/-! ## What is left -/

/-- A task that has not finished belongs to the current call or to one that threw. -/
theorem _root_.CoEcs.UReach.left (h : UReach prog n s) {j : Nat} {u : UTask} (hu : s.tasks[j]? = some u) (hst : u.st ≠ .done) :
    s.main ≠ .idle ∧ u.call = s.call ∨ .threw u.call ∈ s.log := by
  have K := h.kinv
  obtain ⟨b, hb⟩ := K.old j u hu
  have hlt : u.call < s.calls.length := by
    by_cases h : u.call < s.calls.length
    · exact h
    · rw [List.getElem?_eq_none (by omega)] at hb; cases hb
  by_cases hcur : s.main ≠ .idle ∧ u.call = s.call
  · exact Or.inl hcur
  · right
    rcases K.ended u.call hlt (fun h1 => Classical.byContradiction fun h2 => hcur ⟨h2, h1⟩) with h1 | h1
    · obtain ⟨x, C⟩ := K.ret _ h1
      exact absurd (C.done j u hu rfl) hst
    · exact h1

/-! ## Pools without background workers -/

/-- With one worker: tasks are executed by the main thread only, and none of the current batch has failed. -/
structure AInv (s : UState) : Prop where
  only : ∀ j w, stAt s.tasks j = some (.running w) → w = 0
  fine : s.main ≠ .idle → ∀ j, s.base ≤ j → stAt s.tasks j ≠ some .failed
  inBatch : ∀ j, s.main = .task j → s.base ≤ j

/-- The task the main thread helps with is one of the current batch: the batch has unfinished tasks, they are in the
queue, and nothing is newer. -/
theorem AInv.help_base (A : AInv s) (Q : QInv s) {j : Nat} (hm : s.main = .code) (hb : s.batchDone = false) (hj : s.queue.getLast? = some j) :
    s.base ≤ j := by
  unfold batchDone at hb
  rw [List.all_eq_false] at hb
  obtain ⟨v, hv, hvs⟩ := hb
  obtain ⟨i, hi⟩ := List.mem_iff_getElem?.1 hv
  rw [List.getElem?_drop] at hi
  have hq : v.st = .queued := by
    cases hs : v.st with
    | queued => rfl
    | running w =>
      have h0 := stAt_of hi
      rw [hs] at h0
      have := A.only _ _ h0
      subst this
      have := (Q.m _).2 h0
      rw [hm] at this
      cases this
    | done => rw [hs] at hvs; simp at hvs
    | failed =>
      have h0 := stAt_of hi
      rw [hs] at h0
      exact absurd h0 (A.fine (by rw [hm]; simp) _ (by omega))
  have hmem : s.base + i ∈ s.queue := (Q.q _).2 (by rw [stAt_of hi, hq])
  have hle : s.base + i ≤ j := by
    have so := Q.sorted
    obtain ⟨l', hl⟩ := List.getLast?_eq_some_iff.1 hj
    rw [hl] at so hmem
    rw [List.pairwise_append] at so
    rcases List.mem_append.1 hmem with h1 | h1
    · have := so.2.2 _ h1 j (by simp); omega
    · simp at h1; omega
  omega

theorem AInv.step (I : AInv s) (Q : QInv s) (hb : s.base ≤ s.tasks.length) (h : Tr prog 1 s t) : AInv t := by
  have hbase := fun j => I.help_base Q (j := j)
  obtain ⟨a, f, ib⟩ := I
  have fresh : ∀ j, s.tasks.length ≤ j → stAt s.tasks j ≠ some .failed := by
    intro j hj h
    have := stAt_lt h
    omega
  cases h with
  | construct e hm => exact ⟨a, fun _ => fresh, fun j h => by cases h⟩
  | run e hm => exact ⟨a, fun _ => fresh, fun j h => by cases h⟩
  | destroy e hm => exact ⟨a, f, ib⟩
  | ret hm => exact ⟨a, fun h => absurd rfl h, fun j h => by cases h⟩
  | submit d c e b hm hc he =>
    refine ⟨fun j w => ?_, fun _ j hj => ?_, fun j h => by have h' : s.main = .task j := h; rw [hm] at h'; cases h'⟩
    · simp only [stAt_append]
      split
      · intro h; cases h
      · exact a j w
    · simp only [stAt_append]
      split
      · simp
      · exact f (by rw [hm]; simp) j hj
  | runMain d c hm hc => exact ⟨a, fun _ => f (by rw [hm]; simp), fun j h => by first | cases h | (have h' : s.main = .task j := h; rw [hm] at h'; cases h')⟩
  | endMain d c hm hc => exact ⟨a, fun _ => f (by rw [hm]; simp), fun j h => by first | cases h | (have h' : s.main = .task j := h; rw [hm] at h'; cases h')⟩
  | waited c hm hc hbd => exact ⟨a, fun _ => fresh, fun j h => by have h' : s.main = .task j := h; rw [hm] at h'; cases h'⟩
  | help c j u hm hc hbd hj hu ha =>
    refine ⟨fun i w => ?_, fun _ i hi => ?_, fun i h => by cases h; exact hbase j hm hbd hj⟩
    · simp only [stAt_modify]
      split
      · rw [stAt_of hu]; simp; exact Eq.symm
      · exact a i w
    · simp only [stAt_modify]
      split
      · rw [stAt_of hu]; simp
      · exact f (by rw [hm]; simp) i hi
  | flush c hm hc => exact ⟨a, fun _ => f (by rw [hm]; simp), fun j h => by first | cases h | (have h' : s.main = .task j := h; rw [hm] at h'; cases h')⟩
  | sysRet d hm => exact ⟨a, fun _ => f (by rw [hm]; simp), fun j h => by first | cases h | (have h' : s.main = .task j := h; rw [hm] at h'; cases h')⟩
  | helped j u hm hu =>
    refine ⟨fun i w => ?_, fun _ i hi => ?_, fun i h => by cases h⟩
    · simp only [stAt_modify]
      split
      · rw [stAt_of hu]; simp
      · exact a i w
    · simp only [stAt_modify]
      split
      · rw [stAt_of hu]; simp
      · exact f (by rw [hm]; simp) i hi
  | throwSys d al hm _ => exact ⟨a, fun h => absurd rfl h, fun j h => by cases h⟩
  | throwTask j al hm _ =>
    refine ⟨fun i w => ?_, fun h => absurd rfl h, fun i h => by cases h⟩
    simp only [stAt_modify]
    split
    · cases stAt s.tasks j <;> simp
    · exact a i w
  | take w j qs u hw hn hq hu ha => omega
  | finish w j u hw hu hst =>
    have := a j w (by rw [stAt_of hu, hst])
    omega
  | terminate => exact ⟨a, f, ib⟩

theorem _root_.CoEcs.UReach.ainv (h : UReach prog 1 s) : AInv s := by
  refine UReach.induction ?_ (fun s t hr I hst => I.step hr.qinv hr.kinv.base hst) h
  exact ⟨fun j w h => by simp [UState.init, stAt] at h, fun h => absurd rfl h, fun j h => by cases h⟩

/-- With one worker the main thread helps only with tasks of the current call. -/
theorem _root_.CoEcs.UReach.help_mine (h : UReach prog 1 s) {j : Nat} {u : UTask} (hm : s.main = .code) (hb : s.batchDone = false)
    (hj : s.queue.getLast? = some j) (hu : s.tasks[j]? = some u) : u.call = s.call := by
  have Q := h.qinv
  obtain ⟨e, b, past, C⟩ := h.kinv.cur (by rw [hm]; simp)
  exact C.mine j u (h.ainv.help_base Q hm hb hj) hu

theorem _root_.CoEcs.UReach.cur_open (h : UReach prog n s) (hm : s.main ≠ .idle) : .returned s.call ∉ s.log ∧ .threw s.call ∉ s.log := by
  obtain ⟨e, b, past, C⟩ := h.kinv.cur hm
  exact C.open_

/-! ## No events of a call after its end -/

/-- Every event that satisfies `ev k` comes before all events that satisfy `fin k`. -/
def Before (ev fin : Nat → UEvent → Prop) (log : List UEvent) : Prop :=
  ∀ (pre post : List UEvent) (e : UEvent) (k : Nat), log = pre ++ e :: post → ev k e → ∀ f ∈ pre, ¬ fin k f

theorem Before.snoc {ev fin : Nat → UEvent → Prop} {log : List UEvent} (h : Before ev fin log) {a : UEvent} (ha : ∀ k, ev k a → ∀ f ∈ log, ¬ fin k f) :
    Before ev fin (log ++ [a]) := by
  intro pre post e k he hk f hf
  rcases List.eq_nil_or_concat post with rfl | ⟨post', x, rfl⟩
  · have h1 := congrArg List.dropLast he
    have h2 := congrArg List.getLast? he
    simp at h1 h2
    subst h1; subst h2
    exact ha k hk f hf
  · have h1 := congrArg List.dropLast he
    rw [List.dropLast_concat, List.concat_eq_append] at h1
    rw [show pre ++ e :: (post' ++ [x]) = (pre ++ e :: post') ++ [x] by simp, List.dropLast_concat] at h1
    exact h pre post' e k h1 hk f hf

/-- The events of the systems of call `k`. -/
def Works (k : Nat) (e : UEvent) : Prop := (∃ id, e = .start k id) ∨ (∃ id, e = .finish k id)
/-- The end of call `k`. -/
def Ends (k : Nat) (e : UEvent) : Prop := e = .returned k ∨ e = .threw k

theorem before_step {fin : Nat → UEvent → Prop} (B : Before Works fin s.log) (h : Tr prog n s t)
    (hw : ∀ (j : Nat) (u : UTask), s.tasks[j]? = some u → u.st ≠ .done → (s.main = .code → s.batchDone = false → s.queue.getLast? = some j → ∀ f ∈ s.log, ¬ fin u.call f) ∧
      (s.main = .task j → ∀ f ∈ s.log, ¬ fin u.call f) ∧ (∀ w q, 0 < w → w < n → s.queue = j :: q → ∀ f ∈ s.log, ¬ fin u.call f) ∧
      (∀ w, 0 < w → u.st = .running w → ∀ f ∈ s.log, ¬ fin u.call f)) (Q : QInv s) : Before Works fin t.log := by
  have other : ∀ a : UEvent, (∀ k, ¬ Works k a) → Before Works fin (s.log ++ [a]) := fun a ha => B.snoc fun k hk => absurd hk (ha k)
  cases h with
  | construct e hm => exact other _ (by simp [Works])
  | run e hm => exact other _ (by simp [Works])
  | destroy e hm => exact B
  | ret hm => exact other _ (by simp [Works])
  | submit d c e b hm hc he => exact B
  | runMain d c hm hc => exact other _ (by simp [Works])
  | endMain d c hm hc => exact B
  | waited c hm hc hbd => exact B
  | help c j u hm hc hbd hj hu ha =>
    have hjq : stAt s.tasks j = some .queued := (Q.q j).1 (by obtain ⟨l', hl⟩ := List.getLast?_eq_some_iff.1 hj; rw [hl]; simp)
    rw [stAt_of hu] at hjq
    refine B.snoc fun k hk => ?_
    have : k = u.call := by simp [Works] at hk; exact hk.symm
    subst this
    exact (hw j u hu (by injection hjq with h; rw [h]; simp)).1 hm hbd hj
  | flush c hm hc => exact other _ (by simp [Works])
  | sysRet d hm => exact other _ (by simp [Works])
  | helped j u hm hu =>
    have hjq := (Q.m j).1 hm
    rw [stAt_of hu] at hjq
    refine B.snoc fun k hk => ?_
    have : k = u.call := by simp [Works] at hk; exact hk.symm
    subst this
    exact (hw j u hu (by injection hjq with h; rw [h]; simp)).2.1 hm
  | throwSys d al hm _ => exact other _ (by simp [Works])
  | throwTask j al hm _ => exact other _ (by simp [Works])
  | take w j qs u h0 hn hq hu ha =>
    have hjq : stAt s.tasks j = some .queued := (Q.q j).1 (by rw [hq]; simp)
    rw [stAt_of hu] at hjq
    refine B.snoc fun k hk => ?_
    have : k = u.call := by simp [Works] at hk; exact hk.symm
    subst this
    exact (hw j u hu (by injection hjq with h; rw [h]; simp)).2.2.1 w qs h0 hn hq
  | finish w j u h0 hu hst =>
    refine B.snoc fun k hk => ?_
    have : k = u.call := by simp [Works] at hk; exact hk.symm
    subst this
    exact (hw j u hu (by rw [hst]; simp)).2.2.2 w h0 hst
  | terminate => exact B

/-- After a call has returned, none of its systems starts or ends. -/
theorem _root_.CoEcs.UReach.not_after_return (h : UReach prog n s) : Before Works (fun k f => f = .returned k) s.log := by
  refine UReach.induction (P := fun s => Before Works (fun k f => f = .returned k) s.log) ?_ (fun s t hr B hst => ?_) h
  · intro pre post e k h0; simp [UState.init] at h0
  · refine before_step B hst (fun j u hu hst => ?_) hr.qinv
    have key : ∀ f ∈ s.log, ¬ f = .returned u.call := by
      rintro f hf rfl
      obtain ⟨x, C⟩ := hr.kinv.ret _ hf
      exact hst (C.done j u hu rfl)
    exact ⟨fun _ _ _ => key, fun _ => key, fun _ _ _ _ _ => key, fun _ _ _ => key⟩

/-- With one worker: after a call has ended in any way, none of its systems starts or ends. -/
theorem _root_.CoEcs.UReach.not_after_end (h : UReach prog 1 s) : Before Works Ends s.log := by
  refine UReach.induction (P := fun s => Before Works Ends s.log) ?_ (fun s t hr B hst => ?_) h
  · intro pre post e k h0; simp [UState.init] at h0
  · refine before_step B hst (fun j u hu hs => ?_) hr.qinv
    have key : s.main ≠ .idle → u.call = s.call → ∀ f ∈ s.log, ¬ Ends u.call f := by
      intro hm hc f hf he
      obtain ⟨h1, h2⟩ := hr.cur_open hm
      rw [hc] at he
      rcases he with rfl | rfl
      · exact h1 hf
      · exact h2 hf
    refine ⟨fun hm hb hj => key (by rw [hm]; simp) (hr.help_mine hm hb hj hu), fun hm => key (by rw [hm]; simp) ?_, fun w q h0 h1 _ => by omega, fun w h0 hw => ?_⟩
    · obtain ⟨e, b, past, C⟩ := hr.kinv.cur (by rw [hm]; simp)
      exact C.mine j u (hr.ainv.inBatch j hm) hu
    · have := hr.ainv.only j w (by rw [stAt_of hu, hw])
      omega

end CoEcs.UState
