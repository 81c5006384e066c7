import Verif.Proofs.Unwind

/-!
# Invariants of runs of schedules in which systems throw
-/

namespace CoEcs.UState
variable {prog : Nat → ScheduleExec} {n : Nat} {s t : UState}

/-- The status of task `i`. -/
def stAt (l : List UTask) (i : Nat) : Option UStatus := l[i]?.map (·.st)

theorem stAt_modify (l : List UTask) (j i : Nat) (st : UStatus) :
    stAt (l.modify j (UTask.to st)) i = if i = j then (stAt l j).map (fun _ => st) else stAt l i := by
  unfold stAt
  rw [List.getElem?_modify]
  by_cases h : j = i
  · subst h; simp; cases l[j]? <;> simp [UTask.to]
  · have : ¬ i = j := fun e => h e.symm
    simp [h, this]

theorem stAt_append (l : List UTask) (t : UTask) (i : Nat) :
    stAt (l ++ [t]) i = if i = l.length then some t.st else stAt l i := by
  unfold stAt
  rw [List.getElem?_append]
  by_cases h : i < l.length
  · have : ¬ i = l.length := by omega
    simp [h, this]
  · by_cases h2 : i = l.length
    · subst h2; simp
    · have : i - l.length ≠ 0 := by omega
      rw [if_neg h, if_neg h2, List.getElem?_eq_none (by simp; omega), List.getElem?_eq_none (by omega)]

theorem stAt_lt {l : List UTask} {i : Nat} {st : UStatus} (h : stAt l i = some st) : i < l.length := by
  unfold stAt at h
  by_cases hi : i < l.length
  · exact hi
  · rw [List.getElem?_eq_none (by omega)] at h; cases h

theorem stAt_of {l : List UTask} {i : Nat} {t : UTask} (h : l[i]? = some t) : stAt l i = some t.st := by
  simp [stAt, h]

/-- The queue holds the queued tasks in the order of submission, and the main thread is in at most one task. -/
structure QInv (s : UState) : Prop where
  q : ∀ j, j ∈ s.queue ↔ stAt s.tasks j = some .queued
  sorted : s.queue.Pairwise (· < ·)
  m : ∀ j, s.main = .task j ↔ stAt s.tasks j = some (.running 0)

theorem QInv.init : QInv UState.init := by
  refine ⟨?_, ?_, ?_⟩
  · intro j; simp [UState.init, stAt]
  · simp [UState.init]
  · intro j; simp [UState.init, stAt]

theorem mem_dropLast_sorted {l : List Nat} (h : l.Pairwise (· < ·)) {j : Nat} (hj : l.getLast? = some j) (i : Nat) :
    i ∈ l.dropLast ↔ i ∈ l ∧ i ≠ j := by
  obtain ⟨l', rfl⟩ := List.getLast?_eq_some_iff.1 hj
  rw [List.dropLast_concat]
  rw [List.pairwise_append] at h
  constructor
  · intro hi
    exact ⟨List.mem_append_left _ hi, fun e => by have := h.2.2 i hi j (by simp); omega⟩
  · rintro ⟨hi, hne⟩
    rcases List.mem_append.1 hi with hi | hi
    · exact hi
    · simp at hi; exact absurd hi hne

theorem QInv.step (I : QInv s) (h : Tr prog n s t) : QInv t := by
  obtain ⟨q, so, m⟩ := I
  cases h with
  | construct e hm => exact ⟨q, so, fun j => by rw [← m j, hm]; simp⟩
  | run e hm => exact ⟨q, so, fun j => by rw [← m j, hm]; simp⟩
  | destroy e hm => exact ⟨q, so, m⟩
  | ret hm => exact ⟨q, so, fun j => by rw [← m j, hm]; simp⟩
  | submit d c e b hm hc he =>
    refine ⟨fun j => ?_, ?_, fun j => ?_⟩
    · simp only [List.mem_append, List.mem_singleton, stAt_append]
      rw [q j]
      by_cases h : j = s.tasks.length
      · simp [h]
      · simp [h]
    · rw [List.pairwise_append]
      refine ⟨so, by simp, fun a ha b hb => ?_⟩
      simp at hb; subst hb
      exact stAt_lt ((q a).1 ha)
    · simp only [stAt_append]
      by_cases h : j = s.tasks.length
      · rw [if_pos h, hm]; simp
      · rw [if_neg h]; exact m j
  | runMain d c hm hc => exact ⟨q, so, fun j => by rw [← m j, hm]; simp⟩
  | endMain d c hm hc => exact ⟨q, so, m⟩
  | waited c hm hc hb => exact ⟨q, so, m⟩
  | help c j u hm hc hb hj hu ha =>
    have hq := stAt_of hu
    have hjq : stAt s.tasks j = some .queued := (q j).1 (by obtain ⟨l', hl⟩ := List.getLast?_eq_some_iff.1 hj; rw [hl]; simp)
    refine ⟨fun i => ?_, so.sublist (List.dropLast_sublist _), fun i => ?_⟩
    · simp only [stAt_modify]
      rw [mem_dropLast_sorted so hj, q i]
      by_cases h : i = j
      · simp [h, hjq]
      · simp [h]
    · simp only [stAt_modify]
      by_cases h : i = j
      · subst h; simp [hjq]
      · simp only [if_neg h]
        rw [← m i, hm]
        simp [Ne.symm h]
  | flush c hm hc => exact ⟨q, so, m⟩
  | sysRet d hm => exact ⟨q, so, fun j => by rw [← m j, hm]; simp⟩
  | helped j u hm hu =>
    have hj := (m j).1 hm
    refine ⟨fun i => ?_, so, fun i => ?_⟩
    · simp only [stAt_modify]
      rw [q i]
      by_cases h : i = j
      · subst h; simp [hj]
      · simp [h]
    · simp only [stAt_modify]
      by_cases h : i = j
      · subst h; simp [hj]
      · simp only [if_neg h]
        rw [← m i, hm]
        simp [Ne.symm h]
  | throwSys d al hm _ => exact ⟨q, so, fun j => by rw [← m j, hm]; simp⟩
  | throwTask j al hm _ =>
    have hj := (m j).1 hm
    refine ⟨fun i => ?_, so, fun i => ?_⟩
    · simp only [stAt_modify]
      rw [q i]
      by_cases h : i = j
      · subst h; simp [hj]
      · simp [h]
    · simp only [stAt_modify]
      by_cases h : i = j
      · subst h; simp [hj]
      · simp only [if_neg h]
        rw [← m i, hm]
        simp [Ne.symm h]
  | take w j qs u hw hn hq hu ha =>
    have hjq : stAt s.tasks j = some .queued := (q j).1 (by rw [hq]; simp)
    rw [hq] at so
    refine ⟨fun i => ?_, so.tail, fun i => ?_⟩
    · have hq' : i ∈ qs ↔ i ∈ s.queue ∧ i ≠ j := by
        rw [hq]
        rw [List.pairwise_cons] at so
        constructor
        · intro hi; exact ⟨List.mem_cons_of_mem _ hi, fun e => by have := so.1 i hi; omega⟩
        · rintro ⟨hi, hne⟩
          rcases List.mem_cons.1 hi with h | h
          · exact absurd h hne
          · exact h
      simp only [stAt_modify]
      rw [hq', q i]
      by_cases h : i = j
      · subst h; simp [hjq]
      · simp [h]
    · simp only [stAt_modify]
      by_cases h : i = j
      · subst h
        rw [m i, hjq]
        simp; omega
      · simp only [if_neg h]; exact m i
  | finish w j u hw hu hst =>
    have hj := stAt_of hu
    rw [hst] at hj
    refine ⟨fun i => ?_, so, fun i => ?_⟩
    · simp only [stAt_modify]
      rw [q i]
      by_cases h : i = j
      · subst h; simp [hj]
      · simp [h]
    · simp only [stAt_modify]
      rw [m i]
      by_cases h : i = j
      · subst h; simp [hj]; omega
      · simp [h]
  | terminate => exact ⟨q, so, m⟩

theorem _root_.CoEcs.UReach.qinv (h : UReach prog n s) : QInv s := h.induction QInv.init fun _ _ _ I hst => I.step hst

/-! ## Counting -/

/-- The tasks call `k` submitted for system `id` that satisfy `p`. -/
def tally (l : List UTask) (k id : Nat) (p : UStatus → Bool) : Nat := l.countP fun t => decide (t.call = k) && decide (t.sys.id = id) && p t.st

theorem tally_append (l : List UTask) (t : UTask) (k id : Nat) (p : UStatus → Bool) :
    tally (l ++ [t]) k id p = tally l k id p + if t.call = k ∧ t.sys.id = id ∧ p t.st = true then 1 else 0 := by
  unfold tally
  rw [List.countP_append, List.countP_singleton]
  congr 1
  by_cases h1 : t.call = k <;> by_cases h2 : t.sys.id = id <;> simp [h1, h2]

theorem tally_modify {l : List UTask} {j : Nat} {t : UTask} (h : l[j]? = some t) (st : UStatus) (k id : Nat) (p : UStatus → Bool) :
    tally (l.modify j (UTask.to st)) k id p + (if t.call = k ∧ t.sys.id = id ∧ p t.st = true then 1 else 0) =
      tally l k id p + if t.call = k ∧ t.sys.id = id ∧ p st = true then 1 else 0 := by
  unfold tally
  have := countP_modify_at (fun t : UTask => decide (t.call = k) && decide (t.sys.id = id) && p t.st) (UTask.to st) l j t h
  by_cases h1 : t.call = k <;> by_cases h2 : t.sys.id = id <;> simp [h1, h2, UTask.to] at this ⊢ <;> exact this

/-- What is in the log about tasks and commands. -/
structure CInv (s : UState) : Prop where
  starts : ∀ k id, s.log.count (.start k id) = tally s.tasks k id (· != .queued)
  finishes : ∀ k id, s.log.count (.finish k id) = tally s.tasks k id (· == .done)
  cmds : ∀ k id, (s.flushed ++ s.pending).count (k, id) = s.log.count (.start k id) + s.log.count (.mainStart k id)

theorem CInv.init : CInv UState.init := ⟨fun _ _ => rfl, fun _ _ => rfl, fun _ _ => rfl⟩

theorem count_snoc {α : Type} [BEq α] [LawfulBEq α] [DecidableEq α] (l : List α) (a b : α) : (l ++ [a]).count b = l.count b + if a = b then 1 else 0 := by
  rw [List.count_append, List.count_singleton]
  by_cases h : a = b <;> simp [h]

theorem CInv.step (Q : QInv s) (I : CInv s) (h : Tr prog n s t) : CInv t := by
  obtain ⟨a, b, c⟩ := I
  have plain : ∀ e : UEvent, (∀ k id, e ≠ .start k id ∧ e ≠ .finish k id ∧ e ≠ .mainStart k id) →
      ∀ k id, (s.log ++ [e]).count (.start k id) = s.log.count (.start k id) ∧ (s.log ++ [e]).count (.finish k id) = s.log.count (.finish k id) ∧
        (s.log ++ [e]).count (.mainStart k id) = s.log.count (.mainStart k id) := by
    intro e he k id
    simp [count_snoc, he]
  cases h with
  | construct e hm =>
    have p := plain (.enter s.calls.length) (by simp)
    exact ⟨fun k id => by rw [(p k id).1]; exact a k id, fun k id => by rw [(p k id).2.1]; exact b k id, fun k id => by rw [(p k id).1, (p k id).2.2]; exact c k id⟩
  | run e hm =>
    have p := plain (.enter s.calls.length) (by simp)
    exact ⟨fun k id => by rw [(p k id).1]; exact a k id, fun k id => by rw [(p k id).2.1]; exact b k id, fun k id => by rw [(p k id).1, (p k id).2.2]; exact c k id⟩
  | destroy e hm => exact ⟨a, b, c⟩
  | ret hm =>
    have p := plain (.returned s.call) (by simp)
    exact ⟨fun k id => by rw [(p k id).1]; exact a k id, fun k id => by rw [(p k id).2.1]; exact b k id, fun k id => by rw [(p k id).1, (p k id).2.2]; exact c k id⟩
  | submit d cs e bb hm hc he =>
    refine ⟨fun k id => ?_, fun k id => ?_, c⟩
    · simp only [tally_append]; rw [a k id]; simp
    · simp only [tally_append]; rw [b k id]; simp
  | runMain d cs hm hc =>
    refine ⟨fun k id => ?_, fun k id => ?_, fun k id => ?_⟩
    · simp only [count_snoc]; rw [a k id]; simp
    · simp only [count_snoc]; rw [b k id]; simp
    · have := c k id
      simp only [List.count_append] at this ⊢
      simp only [List.count_singleton]
      simp at this ⊢
      omega
  | endMain d cs hm hc => exact ⟨a, b, c⟩
  | waited cs hm hc hb => exact ⟨a, b, c⟩
  | help cs j u hm hc hb hj hu ha =>
    have hjq : stAt s.tasks j = some .queued := (Q.q j).1 (by obtain ⟨l', hl⟩ := List.getLast?_eq_some_iff.1 hj; rw [hl]; simp)
    rw [stAt_of hu] at hjq
    have hst : u.st = .queued := by injection hjq
    refine ⟨fun k id => ?_, fun k id => ?_, fun k id => ?_⟩
    · have := tally_modify hu (.running 0) k id (· != .queued)
      simp only [count_snoc]; rw [a k id]
      simp [hst] at this ⊢
      exact this.symm
    · have := tally_modify hu (.running 0) k id (· == .done)
      simp only [count_snoc]; rw [b k id]
      simp [hst] at this ⊢
      exact this.symm
    · have := c k id
      simp only [List.count_append] at this ⊢
      simp only [List.count_singleton]
      simp at this ⊢
      omega
  | flush cs hm hc =>
    have p := plain (.flush s.call) (by simp)
    exact ⟨fun k id => by rw [(p k id).1]; exact a k id, fun k id => by rw [(p k id).2.1]; exact b k id, fun k id => by rw [(p k id).1, (p k id).2.2, List.append_nil]; exact c k id⟩
  | sysRet d hm =>
    have p := plain (.mainFinish s.call d.id) (by simp)
    exact ⟨fun k id => by rw [(p k id).1]; exact a k id, fun k id => by rw [(p k id).2.1]; exact b k id, fun k id => by rw [(p k id).1, (p k id).2.2]; exact c k id⟩
  | helped j u hm hu =>
    have hst := (Q.m j).1 hm
    rw [stAt_of hu] at hst
    have hst : u.st = .running 0 := by injection hst
    refine ⟨fun k id => ?_, fun k id => ?_, fun k id => ?_⟩
    · have := tally_modify hu .done k id (· != .queued)
      simp only [count_snoc]; rw [a k id]
      simp [hst] at this ⊢
      exact this.symm
    · have := tally_modify hu .done k id (· == .done)
      simp only [count_snoc]; rw [b k id]
      simp [hst] at this ⊢
      exact this.symm
    · simp only [count_snoc]; rw [c k id]; simp
  | throwSys d al hm _ =>
    have p := plain (.threw s.call) (by simp)
    exact ⟨fun k id => by rw [(p k id).1]; exact a k id, fun k id => by rw [(p k id).2.1]; exact b k id, fun k id => by rw [(p k id).1, (p k id).2.2]; exact c k id⟩
  | throwTask j al hm _ =>
    have hst := (Q.m j).1 hm
    obtain ⟨u, hu, hst⟩ : ∃ u, s.tasks[j]? = some u ∧ u.st = .running 0 := by simpa [stAt] using hst
    have p := plain (.threw s.call) (by simp)
    refine ⟨fun k id => ?_, fun k id => ?_, fun k id => by rw [(p k id).1, (p k id).2.2]; exact c k id⟩
    · have := tally_modify hu .failed k id (· != .queued)
      rw [(p k id).1, a k id]
      simp [hst] at this ⊢
      exact this.symm
    · have := tally_modify hu .failed k id (· == .done)
      rw [(p k id).2.1, b k id]
      simp [hst] at this ⊢
      exact this.symm
  | take w j qs u hw hn hq hu ha =>
    have hjq : stAt s.tasks j = some .queued := (Q.q j).1 (by rw [hq]; simp)
    rw [stAt_of hu] at hjq
    have hst : u.st = .queued := by injection hjq
    refine ⟨fun k id => ?_, fun k id => ?_, fun k id => ?_⟩
    · have := tally_modify hu (.running w) k id (· != .queued)
      simp only [count_snoc]; rw [a k id]
      simp [hst] at this ⊢
      exact this.symm
    · have := tally_modify hu (.running w) k id (· == .done)
      simp only [count_snoc]; rw [b k id]
      simp [hst] at this ⊢
      exact this.symm
    · have := c k id
      simp only [List.count_append] at this ⊢
      simp only [List.count_singleton]
      simp at this ⊢
      omega
  | finish w j u hw hu hst =>
    refine ⟨fun k id => ?_, fun k id => ?_, fun k id => ?_⟩
    · have := tally_modify hu .done k id (· != .queued)
      simp only [count_snoc]; rw [a k id]
      simp [hst] at this ⊢
      exact this.symm
    · have := tally_modify hu .done k id (· == .done)
      simp only [count_snoc]; rw [b k id]
      simp [hst] at this ⊢
      exact this.symm
    · simp only [count_snoc]; rw [c k id]; simp
  | terminate => exact ⟨a, b, c⟩

theorem _root_.CoEcs.UReach.cinv (h : UReach prog n s) : CInv s := h.induction CInv.init fun _ _ hr I hst => I.step hr.qinv hst

end CoEcs.UState
