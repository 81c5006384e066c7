import Verif.Model.ParallelFor

/-!
# C25: parallel iteration
-/

namespace CoEcs.Props

variable {α : Type}

private theorem parBatches_ok (n size : Nat) : ∀ (k : Nat) (l : List α), 0 < k → size * k ≤ l.length →
    ∃ bs, parBatches n size k l = .ok bs ∧ bs.flatten = l ∧ bs.length = k := by
  intro k
  induction k with
  | zero => intro l h; omega
  | succ k ih =>
    intro l _ h
    unfold parBatches
    by_cases hk : k > 0
    · have hs : size * (k + 1) = size * k + size := Nat.mul_succ size k
      have hle : size ≤ l.length := by omega
      obtain ⟨bs, h1, h2, h3⟩ := ih (l.drop size) hk (by rw [List.length_drop]; omega)
      rw [if_pos hk, if_pos hle, h1]
      exact ⟨_, rfl, by rw [List.flatten_cons, h2, List.take_append_drop], by simp [h3]⟩
    · rw [if_neg hk]
      exact ⟨_, rfl, by simp, by simp; omega⟩

/-- All elements of the plan, each batch in order. -/
def planElems : ParPlan α → List α
  | .inline l => l
  | .tasks bs => bs.flatten

private theorem parSteps_perm {s t : ParState α} (h : ParSteps s t) :
    (t.log ++ t.tasks.flatten).Perm (s.log ++ s.tasks.flatten) := by
  induction h with
  | refl => exact List.Perm.refl _
  | step hst _ ih =>
    refine ih.trans ?_
    cases hst with
    | visit pre post x l log =>
      simp only [List.flatten_append, List.flatten_cons, List.append_assoc, List.cons_append]
      refine List.Perm.append_left _ ?_
      exact (List.perm_middle (l₁ := pre.flatten)).symm

private theorem executes_perm {p : ParPlan α} {log : List α} (h : p.Executes log) : log.Perm (planElems p) := by
  cases h with
  | inline => exact List.Perm.refl _
  | tasks hs hd =>
    rename_i bs ts
    have h1 := parSteps_perm hs
    have h2 : ts.flatten = [] := List.flatten_eq_nil_iff.2 hd
    rw [h2] at h1
    simpa [planElems] using h1

theorem parallelFor_elems (workers : Nat) (l : List α) (h : 0 < workers) :
    ∃ p, parallelFor workers l = .ok p ∧ planElems p = l := by
  unfold parallelFor
  rw [if_neg (by omega)]
  by_cases hs : l.length / workers < 1
  · rw [if_pos hs]; exact ⟨_, rfl, rfl⟩
  · rw [if_neg hs]
    obtain ⟨bs, h1, h2, _⟩ := parBatches_ok workers (l.length / workers) workers l h (Nat.div_mul_le_self _ _)
    rw [h1]
    exact ⟨_, rfl, h2⟩

theorem parEach_elems (workers : Nat) (chunks : List (List α)) (h : 0 < workers) :
    ∃ p, parEach workers chunks = .ok p ∧ planElems p = chunks.flatten := by
  obtain ⟨p, h1, h2⟩ := parallelFor_elems workers chunks h
  unfold parEach
  rw [h1]
  refine ⟨_, rfl, ?_⟩
  cases p with
  | inline l => rw [show l = chunks from h2]; rfl
  | tasks bs =>
    have h3 : bs.flatten = chunks := h2
    rw [← h3, List.flatten_flatten]; rfl

/-- **C25, `parallel_for`.**  For every number of workers from 1 on and every range: no undefined behaviour, and every
execution calls the function with exactly the elements of the range, each as often as it occurs in it. -/
theorem C25_parallel_for (workers : Nat) (l : List α) (h : 0 < workers) :
    ∃ p, parallelFor workers l = .ok p ∧ ∀ log, p.Executes log → log.Perm l := by
  obtain ⟨p, h1, h2⟩ := parallelFor_elems workers l h
  exact ⟨p, h1, fun log hl => h2 ▸ executes_perm hl⟩

/-- **C25, `par_each`.** -/
theorem C25_par_each (workers : Nat) (chunks : List (List α)) (h : 0 < workers) :
    ∃ p, parEach workers chunks = .ok p ∧ ∀ log, p.Executes log → log.Perm chunks.flatten := by
  obtain ⟨p, h1, h2⟩ := parallelFor_elems workers chunks h
  unfold parEach
  rw [h1]
  refine ⟨_, rfl, fun log hl => ?_⟩
  have h3 := executes_perm hl
  cases p with
  | inline l => rw [show l = chunks from h2] at h3; exact h3
  | tasks bs =>
    have h4 : (bs.map List.flatten).flatten = chunks.flatten := by
      rw [← List.flatten_flatten]; exact congrArg _ h2
    rw [← h4]; exact h3

private theorem parSteps_complete : ∀ (n : Nat) (ts : List (List α)) (log : List α), ts.flatten.length = n →
    ∃ log' ts', ParSteps ⟨ts, log⟩ ⟨ts', log'⟩ ∧ ∀ t ∈ ts', t = [] := by
  intro n
  induction n with
  | zero =>
    intro ts log h
    exact ⟨log, ts, .refl _, List.flatten_eq_nil_iff.1 (List.length_eq_zero_iff.1 h)⟩
  | succ n ih =>
    intro ts log h
    have : ∃ t ∈ ts, t ≠ [] := by
      apply Classical.byContradiction
      intro hc
      have : ts.flatten = [] := List.flatten_eq_nil_iff.2 fun t ht =>
        Classical.byContradiction fun hn => hc ⟨t, ht, hn⟩
      rw [this] at h; simp at h
    obtain ⟨t, ht, hne⟩ := this
    obtain ⟨pre, post, rfl⟩ := List.append_of_mem ht
    cases t with
    | nil => exact absurd rfl hne
    | cons x l =>
      obtain ⟨log', ts', h1, h2⟩ := ih (pre ++ l :: post) (log ++ [x]) (by
        simp only [List.flatten_append, List.flatten_cons, List.length_append, List.length_cons] at h ⊢; omega)
      exact ⟨log', ts', .step (.visit pre post x l log) h1, h2⟩

/-- Every plan has complete executions, so the theorems above are not about nothing; unless the range is shorter
than the number of workers, there is one task per worker. -/
theorem C25_executions_exist (workers : Nat) (l : List α) (h : 0 < workers) :
    ∃ p log, parallelFor workers l = .ok p ∧ p.Executes log ∧
      (workers ≤ l.length → ∃ bs, p = .tasks bs ∧ bs.length = workers) := by
  unfold parallelFor
  rw [if_neg (by omega)]
  by_cases hs : l.length / workers < 1
  · rw [if_pos hs]
    refine ⟨_, _, rfl, .inline l, fun hle => ?_⟩
    have := Nat.div_pos hle h
    omega
  · rw [if_neg hs]
    obtain ⟨bs, h1, h2, h3⟩ := parBatches_ok workers (l.length / workers) workers l h (Nat.div_mul_le_self _ _)
    rw [h1]
    obtain ⟨log, ts, h4, h5⟩ := parSteps_complete _ bs [] rfl
    exact ⟨_, log, rfl, .tasks h4 h5, fun _ => ⟨bs, rfl, h3⟩⟩

/-- The same for `par_each`. -/
theorem C25_par_each_executions_exist (workers : Nat) (chunks : List (List α)) (h : 0 < workers) :
    ∃ p log, parEach workers chunks = .ok p ∧ p.Executes log := by
  obtain ⟨p, log, h1, _, _⟩ := C25_executions_exist workers chunks h
  unfold parEach
  rw [h1]
  cases p with
  | inline l => exact ⟨_, _, rfl, .inline _⟩
  | tasks bs =>
    obtain ⟨log, ts, h4, h5⟩ := parSteps_complete _ (bs.map List.flatten) [] rfl
    exact ⟨_, log, rfl, .tasks h4 h5⟩

example : parallelFor 3 [1, 2, 3, 4, 5, 6, 7, 8] = .ok (.tasks [[1, 2], [3, 4], [5, 6, 7, 8]]) := rfl

/-- An execution in which the tasks overlap. -/
example : (ParPlan.tasks [[1, 2], [3]]).Executes [3, 1, 2] :=
  .tasks (.step (.visit [[1, 2]] [] 3 [] []) (.step (.visit [] [[]] 1 [2] [3]) (.step (.visit [] [[]] 2 [] [3, 1]) (.refl _))))
    (by simp)

end CoEcs.Props
