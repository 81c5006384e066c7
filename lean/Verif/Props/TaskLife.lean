import Verif.Model.TaskLife
import Verif.Props.Task

/-!
# C110: a task that has been completed releases what its function holds
-/

namespace CoEcs.Props
open CoEcs Closures

theorem slotOf_eq (k : Nat) : slotOf k = k % 4096 := Nat.and_two_pow_sub_one_eq_mod k 12

/-- Invariant of programs in which storing a function never throws. -/
structure LifeInv (s : Closures) : Prop where
  ring : ∀ t, ∃ n, s.ring t = allocations n
  gone : ∀ t i, s.gone t i = false
  dead : ∀ t k, (t, k) ∈ s.destroyed ↔ k < (s.ring t).counter ∧ (s.ended t = true ∨ k + 4096 < (s.ring t).counter)
  nodup : s.destroyed.Nodup

theorem LifeInv.init : LifeInv Closures.init :=
  ⟨fun _ => ⟨0, rfl⟩, fun _ _ => rfl, fun t k => by simp [Closures.init, TaskRing.init], List.nodup_nil⟩

theorem LifeInv.slots {s : Closures} (h : LifeInv s) (t i k : Nat) :
    (s.ring t).slots i = some k ↔ k < (s.ring t).counter ∧ k % 4096 = i ∧ (s.ring t).counter ≤ k + 4096 := by
  obtain ⟨n, hn⟩ := h.ring t
  rw [hn, allocations_slots, allocations_counter]

theorem LifeInv.inRing {s : Closures} (h : LifeInv s) (t u k : Nat) :
    (u, k) ∈ s.inRing t ↔ u = t ∧ k < (s.ring t).counter ∧ (s.ring t).counter ≤ k + 4096 := by
  unfold Closures.inRing
  simp only [List.mem_map, List.mem_filterMap, List.mem_range, Prod.mk.injEq]
  constructor
  · rintro ⟨k', ⟨i, _, h2⟩, rfl, rfl⟩
    obtain ⟨q1, _, q3⟩ := (h.slots t i k').1 h2
    exact ⟨rfl, q1, q3⟩
  · rintro ⟨rfl, h1, h2⟩
    exact ⟨k, ⟨k % 4096, Nat.mod_lt _ (by decide), (h.slots u _ k).2 ⟨h1, rfl, h2⟩⟩, rfl, rfl⟩

theorem LifeInv.inRing_nodup {s : Closures} (h : LifeInv s) (t : Nat) : (s.inRing t).Nodup := by
  unfold Closures.inRing
  have hmap : ∀ l : List Nat, l.Nodup → (l.map fun k => (t, k)).Nodup := by
    intro l hl
    refine List.pairwise_map.2 (List.Pairwise.imp ?_ hl)
    intro a b hab he
    exact hab (Prod.mk.inj he).2
  refine hmap _ ?_
  · have : ∀ l : List Nat, l.Nodup → (l.filterMap (s.ring t).slots).Nodup := by
      intro l
      induction l with
      | nil => intro _; exact List.nodup_nil
      | cons i l ih =>
        intro hl
        rw [List.nodup_cons] at hl
        cases hs : (s.ring t).slots i with
        | none => rw [List.filterMap_cons_none hs]; exact ih hl.2
        | some k =>
          rw [List.filterMap_cons_some hs, List.nodup_cons]
          refine ⟨?_, ih hl.2⟩
          rw [List.mem_filterMap]
          rintro ⟨j, hj, hjk⟩
          have e1 := ((h.slots t i k).1 hs).2.1
          have e2 := ((h.slots t j k).1 hjk).2.1
          rw [e1] at e2
          subst e2
          exact hl.1 hj
    exact this _ List.nodup_range

theorem LifeInv.submit {s s' : Closures} (h : LifeInv s) {t : Nat} (hp : s.ended t = false) (ha : s.apply (.submit t) = .ok s') :
    LifeInv s' ∧ (s'.ring t).counter = (s.ring t).counter + 1 := by
  simp only [Closures.apply, h.gone, Bool.false_eq_true, if_false, Out.ok.injEq] at ha
  subst ha
  obtain ⟨n, hn⟩ := h.ring t
  have hcn : (s.ring t).counter = n := by rw [hn, allocations_counter]
  have halloc : (s.ring t).allocate.2 = allocations (n + 1) := by rw [hn]; rfl
  have hold : ∀ k, (s.ring t).slots (slotOf (s.ring t).counter) = some k ↔ n = k + 4096 := by
    intro k
    rw [h.slots, hcn, slotOf_eq]
    constructor
    · rintro ⟨h1, h2, h3⟩; omega
    · rintro rfl; exact ⟨by omega, by omega, by omega⟩
  have hmem : ∀ u k, (u, k) ∈ ((s.ring t).slots (slotOf (s.ring t).counter)).toList.map (fun k => (t, k)) ↔ u = t ∧ n = k + 4096 := by
    intro u k
    simp only [List.mem_map, Option.mem_toList, Prod.mk.injEq, Option.mem_def]
    constructor
    · rintro ⟨k', h1, rfl, rfl⟩; exact ⟨rfl, (hold k').1 h1⟩
    · rintro ⟨rfl, h1⟩; exact ⟨k, (hold k).2 h1, rfl, rfl⟩
  refine ⟨⟨?_, h.gone, ?_, ?_⟩, ?_⟩
  · intro u
    by_cases hu : u = t
    · exact ⟨n + 1, by simp only [if_pos hu, halloc]⟩
    · obtain ⟨m, hm⟩ := h.ring u
      exact ⟨m, by simp only [if_neg hu, hm]⟩
  · intro u k
    simp only [List.mem_append, hmem, h.dead u k]
    by_cases hu : u = t
    · subst hu
      simp only [if_true, halloc, allocations_counter, hp, hcn, true_and, Bool.false_eq_true, false_or]
      omega
    · simp only [hu, if_false, false_and, false_or]
  · rw [List.nodup_append]
    refine ⟨?_, h.nodup, ?_⟩
    · cases (s.ring t).slots (slotOf (s.ring t).counter) <;> simp
    · rintro ⟨u, k⟩ h1 ⟨u', k'⟩ h2 he
      cases he
      obtain ⟨rfl, h3⟩ := (hmem u k).1 h1
      have h4 := (h.dead u k).1 h2
      rw [hp, hcn] at h4
      simp only [Bool.false_eq_true, false_or] at h4
      omega
  · simp only [if_true, halloc, allocations_counter, hcn]

theorem LifeInv.step {s s' : Closures} (h : LifeInv s) {op : Op} (hp : op.Possible s) (ha : s.apply op = .ok s') : LifeInv s' := by
  cases op with
  | submit t => exact (h.submit hp ha).1
  | submitThrows t => simp only [Closures.apply] at ha; split at ha <;> cases ha
  | execute t k =>
    simp only [Closures.apply] at ha
    split at ha
    · cases ha
    · split at ha
      · cases ha; exact ⟨h.ring, h.gone, h.dead, h.nodup⟩
      · cases ha
  | exit t =>
    have hp' : s.ended t = false := hp
    simp only [Closures.apply] at ha
    split at ha
    · cases ha
    · cases ha
      refine ⟨h.ring, h.gone, ?_, ?_⟩
      · intro u k
        simp only [List.mem_append, h.inRing, h.dead u k]
        by_cases hu : u = t
        · subst hu
          simp only [if_true, hp', true_and, Bool.false_eq_true, false_or, true_or, and_true]
          omega
        · simp only [hu, if_false, false_and, false_or]
      · rw [List.nodup_append]
        refine ⟨h.inRing_nodup t, h.nodup, ?_⟩
        rintro ⟨u, k⟩ h1 ⟨u', k'⟩ h2 he
        cases he
        obtain ⟨rfl, h3, h5⟩ := (h.inRing t u k).1 h1
        have h4 := (h.dead u k).1 h2
        rw [hp'] at h4
        simp only [Bool.false_eq_true, false_or] at h4
        omega

theorem reach_life {s : Closures} (h : Closures.Reach False s) : LifeInv s := by
  induction h with
  | init => exact .init
  | ok op _ hp ha ih => exact ih.step hp ha
  | threw op _ hf => exact hf.elim

/-- **C110, exactly**: when the function of a task is destroyed does not depend on whether the task has been executed.  It is
destroyed by the 4096th submission of its thread after its own, or by the end of the thread. -/
theorem C110_exact {s : Closures} (h : Closures.Reach False s) (t k : Nat) :
    (t, k) ∈ s.destroyed ↔ k < (s.ring t).counter ∧ (s.ended t = true ∨ k + 4096 < (s.ring t).counter) :=
  (reach_life h).dead t k

/-- **C110** (partial; missing: that it happens when the task is completed, which is false): no function is destroyed twice, and
after the end of a thread every function it has submitted has been destroyed. -/
theorem C110_once_partial {s : Closures} (h : Closures.Reach False s) :
    s.destroyed.Nodup ∧ ∀ t k, s.ended t = true → k < (s.ring t).counter → s.destroyed.count (t, k) = 1 := by
  have i := reach_life h
  refine ⟨i.nodup, fun t k he hk => ?_⟩
  have hm : (t, k) ∈ s.destroyed := (i.dead t k).2 ⟨hk, Or.inl he⟩
  have h1 := List.nodup_iff_count.1 i.nodup (t, k)
  have h2 := List.count_pos_iff.2 hm
  omega

/-- **C110, violated in every state**: a thread that has not ended holds the functions of its last 4096 tasks (or all, if fewer),
all of them executed or not. -/
theorem C110_violated {s : Closures} (h : Closures.Reach False s) {t : Nat} (he : s.ended t = false) :
    ((List.range (s.ring t).counter).filter fun k => decide ((t, k) ∉ s.destroyed)).length = min (s.ring t).counter 4096 ∧
    ∀ k, (t, k) ∈ s.called → (s.ring t).counter ≤ k + 4096 → (t, k) ∉ s.destroyed := by
  have i := reach_life h
  constructor
  · have : ((List.range (s.ring t).counter).filter fun k => decide ((t, k) ∉ s.destroyed)) =
        (List.range (s.ring t).counter).filter fun k => decide ((s.ring t).counter - 4096 ≤ k) := by
      refine List.filter_congr ?_
      intro k hk
      rw [List.mem_range] at hk
      simp only [i.dead, he, hk, true_and, Bool.false_eq_true, false_or, decide_eq_decide]
      omega
    rw [this]
    have key : ∀ n m : Nat, ((List.range n).filter fun k => decide (m ≤ k)).length = n - m := by
      intro n m
      induction n with
      | zero => simp
      | succ n ih =>
        rw [List.range_succ, List.filter_append, List.length_append, ih]
        by_cases hm : m ≤ n
        · simp only [hm, decide_true, List.filter_cons_of_pos, List.filter_nil, List.length_cons, List.length_nil]; omega
        · simp only [hm, decide_false, Bool.false_eq_true, not_false_eq_true, List.filter_cons_of_neg, List.filter_nil,
            List.length_nil]; omega
    rw [key]
    omega
  · intro k _ hk hd
    have := (i.dead t k).1 hd
    rw [he] at this
    simp only [Bool.false_eq_true, false_or] at this
    omega

/-- What a program can reach from `s`. -/
inductive ClosuresFrom (s : Closures) : Closures → Prop
  | refl : ClosuresFrom s s
  | ok {u u' : Closures} (op : Op) : ClosuresFrom s u → op.Possible u → u.apply op = .ok u' → ClosuresFrom s u'
  | threw {u u' : Closures} (op : Op) : ClosuresFrom s u → op.Possible u → u.apply op = .threw u' → ClosuresFrom s u'

/-- **C110, violated at the end of threads** (main returns while tasks are pending: its `thread_local` objects are destroyed
before the pool, a static object, waits for its workers): from then on executing a task of the thread is undefined. -/
theorem C110_ended_violated {s : Closures} (h : Closures.Reach False s) {t : Nat} (he : s.ended t = false) :
    ∃ s', s.apply (.exit t) = .ok s' ∧ ∀ u, ClosuresFrom s' u → ∀ k, u.apply (.execute t k) = .ub := by
  have i := reach_life h
  have hany : (List.range maxTasks).any (s.gone t) = false := by
    rw [List.any_eq_false]
    intro x _
    rw [i.gone]; exact Bool.false_ne_true
  refine ⟨_, by simp only [Closures.apply, hany, Bool.false_eq_true, if_false]; rfl, ?_⟩
  intro u hu
  have : u.ended t = true := by
    induction hu with
    | refl => simp
    | ok op _ _ ha ih =>
      cases op with
      | submit v => simp only [Closures.apply] at ha; split at ha <;> cases ha; exact ih
      | submitThrows v => simp only [Closures.apply] at ha; split at ha <;> cases ha
      | execute v k =>
        simp only [Closures.apply] at ha
        split at ha
        · cases ha
        · split at ha <;> cases ha; exact ih
      | exit v =>
        simp only [Closures.apply] at ha
        split at ha
        · cases ha
        · cases ha
          simp only [ih]
          split <;> rfl
    | threw op _ _ ha ih =>
      cases op with
      | submit v => simp only [Closures.apply] at ha; split at ha <;> cases ha
      | submitThrows v => simp only [Closures.apply] at ha; split at ha <;> cases ha; exact ih
      | execute v k =>
        simp only [Closures.apply] at ha
        split at ha
        · cases ha
        · split at ha <;> cases ha
      | exit v => simp only [Closures.apply] at ha; split at ha <;> cases ha
  intro k
  simp only [Closures.apply, this, Bool.true_or, if_true]

/-- A slot that has lost its object never gets another one. -/
theorem gone_forever {s u : Closures} (hu : ClosuresFrom s u) {t i : Nat} (hg : s.gone t i = true) : u.gone t i = true := by
  induction hu with
  | refl => exact hg
  | ok op _ _ ha ih =>
    cases op with
    | submit v => simp only [Closures.apply] at ha; split at ha <;> cases ha; exact ih
    | submitThrows v => simp only [Closures.apply] at ha; split at ha <;> cases ha
    | execute v k =>
      simp only [Closures.apply] at ha
      split at ha
      · cases ha
      · split at ha <;> cases ha; exact ih
    | exit v => simp only [Closures.apply] at ha; split at ha <;> cases ha; exact ih
  | threw op _ _ ha ih =>
    cases op with
    | submit v => simp only [Closures.apply] at ha; split at ha <;> cases ha
    | submitThrows v =>
      simp only [Closures.apply] at ha
      split at ha <;> cases ha
      simp only [ih]
      split <;> rfl
    | execute v k =>
      simp only [Closures.apply] at ha
      split at ha
      · cases ha
      · split at ha <;> cases ha
    | exit v => simp only [Closures.apply] at ha; split at ha <;> cases ha

/-- **C110, violated by a function that cannot be stored**, after every history in which this did not happen before: the slot
keeps an object that was destroyed and not replaced.  Whatever the program does, the end of the thread is undefined, and so is
every further submission that comes to the slot. -/
theorem C110_throw_violated {s : Closures} (h : Closures.Reach False s) (t : Nat) :
    ∃ s', s.apply (.submitThrows t) = .threw s' ∧ ∀ u, ClosuresFrom s' u → u.apply (.exit t) = .ub ∧
      ((u.ring t).counter % 4096 = (s.ring t).counter % 4096 → u.apply (.submit t) = .ub) := by
  have i := reach_life h
  refine ⟨_, by simp only [Closures.apply, i.gone, Bool.false_eq_true, if_false]; rfl, ?_⟩
  intro u hu
  have hg := gone_forever (t := t) (i := slotOf (s.ring t).counter) hu (by simp)
  constructor
  · have : (List.range maxTasks).any (u.gone t) = true := by
      rw [List.any_eq_true]
      refine ⟨_, ?_, hg⟩
      rw [slotOf_eq, List.mem_range]
      exact Nat.mod_lt _ (by decide)
    simp only [Closures.apply, this, if_true]
  · intro hc
    have : slotOf (u.ring t).counter = slotOf (s.ring t).counter := by rw [slotOf_eq, slotOf_eq, hc]
    simp only [Closures.apply, this, hg, if_true]

/-- **C110, what is executed**: before the end of its thread, and with fewer than 4096 later submissions, executing a task calls
the function it was submitted with. -/
theorem C110_called {s : Closures} (h : Closures.Reach False s) {t k : Nat} (he : s.ended t = false) (hk : k < (s.ring t).counter)
    (hn : (s.ring t).counter ≤ k + 4096) : s.apply (.execute t k) = .ok { s with called := (t, k) :: s.called } := by
  have i := reach_life h
  have : (s.ring t).slots (slotOf k) = some k := (i.slots t _ k).2 ⟨hk, (slotOf_eq k).symm, hn⟩
  simp only [Closures.apply, he, i.gone, Bool.or_self, Bool.false_eq_true, if_false, this]

/-- A task is submitted and executed. -/
theorem life_example : ∃ s : Closures, Closures.Reach False s ∧ s.ended 0 = false ∧ (0, 0) ∈ s.called ∧ (s.ring 0).counter = 1 := by
  have h1 : Closures.Reach False _ := .ok (.submit 0) .init rfl (by simp only [Closures.apply]; rfl)
  have h2 := h1.ok (.execute 0 0) (by show (0 : Nat) < 0 + 1; decide) (C110_called h1 rfl (by show (0 : Nat) < 0 + 1; decide)
    (by show 0 + 1 ≤ 0 + 4096; decide))
  exact ⟨_, h2, rfl, List.mem_cons_self .., rfl⟩

/-- Its function has not been destroyed. -/
example : ∃ s : Closures, Closures.Reach False s ∧ (0, 0) ∈ s.called ∧ (0, 0) ∉ s.destroyed := by
  obtain ⟨s, h1, h2, h3, h4⟩ := life_example
  exact ⟨s, h1, h3, (C110_violated h1 h2).2 0 h3 (by rw [h4]; decide)⟩

end CoEcs.Props
