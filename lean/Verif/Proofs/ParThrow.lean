import Verif.Model.ParThrow
import Verif.Props.ParallelFor

/-!
# The invariant of parallel iteration with functions that throw
-/

namespace CoEcs
open Props

variable {α : Type} {bad : α → Bool} {n : Nat}

/-- The elements for which the function throws are in the first batch, or the call takes the fast path. -/
def ParPlan.BadFirst (bad : α → Bool) : ParPlan α → Prop
  | .inline _ => True
  | .tasks bs => ∀ b ∈ bs.tail, ∀ x ∈ b, bad x = false

/-- What holds of a call that is over. -/
structure FCall.Ok (bad : α → Bool) (c : FCall α) : Prop where
  returned : c.ended = .returned → c.called.Perm (planElems c.plan) ∧ ∀ x ∈ planElems c.plan, bad x = false
  threw : c.ended = .threw → (∃ x ∈ c.called, bad x = true) ∧ ∃ r, (c.called ++ r).Perm (planElems c.plan)

/-- What the batches not yet submitted are. -/
def FMain.unsent : FMain α → List (List α)
  | .submit bs => bs
  | _ => []

/-- The main thread is in a call that submits tasks. -/
def FMain.busy : FMain α → Bool
  | .submit _ => true
  | .wait => true
  | .task _ => true
  | _ => false

/-- The invariant. -/
structure PFInv (bad : α → Bool) (n : Nat) (s : FState α) : Prop where
  base_le : s.base ≤ s.tasks.length
  q_sorted : s.queue.Pairwise (· < ·)
  q_mem : ∀ j, j ∈ s.queue ↔ ∃ t, s.tasks[j]? = some t ∧ t.st = .queued
  run_lt : ∀ (j : Nat) (t : FTask α) (w : Nat), s.tasks[j]? = some t → t.st = .running w → w < n
  run0 : ∀ (j : Nat) (t : FTask α), s.tasks[j]? = some t → t.st = .running 0 → s.main = .task j
  main_task : ∀ (j : Nat), s.main = .task j → s.base ≤ j ∧ ∃ t, s.tasks[j]? = some t ∧ t.st = .running 0
  past_ok : ∀ c ∈ s.past, c.Ok bad
  inline_ok : ∀ r, s.main = .inline r → s.plan = .inline (s.called ++ r) ∧ s.dead = false ∧ ∀ x ∈ s.called, bad x = false
  no_new : ∀ r, s.main = .inline r → s.tasks.length = s.base
  split : s.main.busy = true → ∃ bs, s.plan = .tasks bs ∧ bs.length = (s.tasks.length - s.base) + s.main.unsent.length ∧
    s.main.unsent = bs.drop (s.tasks.length - s.base) ∧
    (∀ (i : Nat) (t : FTask α), s.tasks[s.base + i]? = some t → ∃ b, bs[i]? = some b ∧ ∀ x ∈ t.rest, x ∈ b) ∧
    (s.called ++ (((s.tasks.drop s.base).map (·.rest)).flatten ++ s.main.unsent.flatten)).Perm bs.flatten
  done_nil : ∀ (j : Nat) (t : FTask α), s.tasks[j]? = some t → t.st = .done → t.rest = []
  fine : s.dead = false → s.main.busy = true → (∀ (j : Nat) (t : FTask α), s.base ≤ j → s.tasks[j]? = some t → t.st ≠ .failed) ∧
    ∀ x ∈ s.called, bad x = false
  dead_ok : s.dead = true → s.main.busy = true ∧ 2 ≤ n ∧ ∃ x ∈ s.called, bad x = true
  first_queued : ∀ t, s.tasks[s.base]? = some t → t.st = .queued →
    ∀ (j : Nat) (u : FTask α) (w : Nat), s.base ≤ j → s.tasks[j]? = some u → u.st = .running w → w = 0
  first_main : s.main = .task s.base → ∀ (j : Nat) (u : FTask α), s.base < j → s.tasks[j]? = some u → u.st = .done
  old : (∀ c ∈ s.past, c.ended = .threw → c.plan.BadFirst bad) → ∀ (j : Nat) (t : FTask α), s.over j = true → s.tasks[j]? = some t →
    t.st = .done ∨ t.st = .failed

namespace PFInv

theorem init : PFInv bad n (FState.init : FState α) := by
  constructor <;> simp [FState.init, FMain.busy]

private theorem flatten_set {l : List (FTask α)} {j : Nat} {t u : FTask α} (h : l[j]? = some t) (x : List α) (hx : t.rest = x ++ u.rest) :
    (x ++ ((l.set j u).map (·.rest)).flatten).Perm ((l.map (·.rest)).flatten) := by
  induction l generalizing j with
  | nil => simp at h
  | cons a l ih =>
    cases j with
    | zero =>
      simp at h; subst h
      simp [hx]
    | succ j =>
      simp only [List.getElem?_cons_succ] at h
      simp only [List.set_cons_succ, List.map_cons, List.flatten_cons]
      have := ih h
      have h1 : (x ++ (a.rest ++ ((l.set j u).map (·.rest)).flatten)).Perm (a.rest ++ (x ++ ((l.set j u).map (·.rest)).flatten)) := by
        rw [← List.append_assoc, ← List.append_assoc]
        exact List.Perm.append_right _ List.perm_append_comm
      exact h1.trans (List.Perm.append_left _ this)

private theorem drop_set {l : List (FTask α)} {b j : Nat} (hj : b ≤ j) (u : FTask α) : (l.set j u).drop b = (l.drop b).set (j - b) u := by
  rw [List.drop_set]
  simp [show ¬ j < b by omega]

variable {s t : FState α}

/-- A call begins. -/
theorem enter (I : PFInv bad n s) (hi : s.main = .idle) (hd : s.dead = false) {r : Run (ParPlan α)} (he : s.enter r = .ok t) : PFInv bad n t := by
  cases r with
  | ub => simp [FState.enter] at he
  | stuck => simp [FState.enter] at he
  | ok p =>
    simp only [FState.enter, FOut.ok.injEq] at he
    subst he
    cases p with
    | inline l =>
      have e : ∀ (j : Nat) (t : FTask α), s.tasks.length ≤ j → ¬ s.tasks[j]? = some t := by
        intro j t hj h; rw [List.getElem?_eq_none hj] at h; cases h
      refine ⟨by simp, I.q_sorted, I.q_mem, I.run_lt, ?_, by simp, I.past_ok, by simp [hd], by simp, by simp [FMain.busy], I.done_nil,
        by simp [FMain.busy], by simp [hd], ?_, by simp, ?_⟩
      · intro j t h1 h2; have := I.run0 j t h1 h2; rw [hi] at this; cases this
      · intro t h; exact absurd h (e _ _ (by simp))
      · intro h j t _ h2; exact I.old h j t (by simp [FState.over, hi]) h2
    | tasks bs =>
      have e : ∀ (j : Nat) (t : FTask α), s.tasks.length ≤ j → ¬ s.tasks[j]? = some t := by
        intro j t hj h; rw [List.getElem?_eq_none hj] at h; cases h
      refine ⟨by simp, I.q_sorted, I.q_mem, I.run_lt, ?_, by simp, I.past_ok, by simp, by simp, ?_, I.done_nil, ?_, by simp [hd], ?_, by simp, ?_⟩
      · intro j t h1 h2; have := I.run0 j t h1 h2; rw [hi] at this; cases this
      · intro _
        refine ⟨bs, rfl, by simp [FMain.unsent], by simp [FMain.unsent], ?_, by simp [FMain.unsent]⟩
        intro i t h; exact absurd h (e _ _ (by simp))
      · intro _ _
        exact ⟨fun j t hj h => absurd h (e _ _ hj), by simp⟩
      · intro t h; exact absurd h (e _ _ (by simp))
      · intro h j t _ h2; exact I.old h j t (by simp [FState.over, hi]) h2

/-- A batch is submitted. -/
theorem submit (I : PFInv bad n s) (hd : s.dead = false) {b : List α} {bs : List (List α)} (hm : s.main = .submit (b :: bs)) :
    PFInv bad n { s with main := .submit bs, tasks := s.tasks ++ [⟨b, .queued⟩], queue := s.queue ++ [s.tasks.length] } := by
  have hb : s.main.busy = true := by simp [hm, FMain.busy]
  obtain ⟨bs0, p1, p2, p3, p4, p5⟩ := I.split hb
  have B := I.base_le
  -- looking up a task of the longer list
  have look : ∀ (j : Nat) (t : FTask α), (s.tasks ++ [⟨b, .queued⟩])[j]? = some t →
      s.tasks[j]? = some t ∨ (j = s.tasks.length ∧ t = ⟨b, .queued⟩) := by
    intro j t h
    rw [List.getElem?_append] at h
    split at h
    · exact .inl h
    · rename_i hj
      by_cases he : j - s.tasks.length = 0
      · simp [he] at h; exact .inr ⟨by omega, h.symm⟩
      · rw [List.getElem?_eq_none (by simp; omega)] at h; cases h
  refine ⟨by simp; omega, ?_, ?_, ?_, ?_, by simp, I.past_ok, by simp, by simp, ?_, ?_, ?_, by simp [hd], ?_, by simp, ?_⟩
  · refine List.pairwise_append.2 ⟨I.q_sorted, by simp, ?_⟩
    intro j hj x hx
    obtain ⟨t, h1, _⟩ := (I.q_mem j).1 hj
    simp at hx; subst hx
    exact (List.getElem?_eq_some_iff.1 h1).1
  · intro j
    simp only [List.mem_append, List.mem_singleton]
    constructor
    · rintro (hj | rfl)
      · obtain ⟨t, h1, h2⟩ := (I.q_mem j).1 hj
        have := (List.getElem?_eq_some_iff.1 h1).1
        exact ⟨t, by rw [List.getElem?_append_left this]; exact h1, h2⟩
      · exact ⟨⟨b, .queued⟩, by simp, rfl⟩
    · rintro ⟨t, h1, h2⟩
      rcases look j t h1 with h | ⟨rfl, _⟩
      · exact .inl ((I.q_mem j).2 ⟨t, h, h2⟩)
      · exact .inr rfl
  · intro j t w h1 h2
    rcases look j t h1 with h | ⟨_, rfl⟩
    · exact I.run_lt j t w h h2
    · cases h2
  · intro j t h1 h2
    rcases look j t h1 with h | ⟨_, rfl⟩
    · have := I.run0 j t h h2; rw [hm] at this; cases this
    · cases h2
  · intro _
    rw [hm] at p2 p3 p5
    simp only [FMain.unsent] at p2 p3 p5
    refine ⟨bs0, p1, ?_, ?_, ?_, ?_⟩
    · simp only [FMain.unsent, List.length_append, List.length_cons, List.length_nil] at p2 ⊢
      omega
    · simp only [FMain.unsent, List.length_append, List.length_cons, List.length_nil]
      have : bs = (bs0.drop (s.tasks.length - s.base)).tail := by rw [← p3]; rfl
      rw [this, List.tail_drop]
      congr 1; omega
    · intro i t h
      rcases look _ t h with h | ⟨h1, rfl⟩
      · exact p4 i t h
      · refine ⟨b, ?_, fun x hx => hx⟩
        have h1 : s.base + i = s.tasks.length := h1
        have h2 : i = s.tasks.length - s.base := by omega
        have h3 : (bs0.drop (s.tasks.length - s.base))[0]? = some b := by rw [← p3]; rfl
        rw [List.getElem?_drop] at h3
        rw [h2]; simpa using h3
    · have : ((s.tasks ++ [(⟨b, .queued⟩ : FTask α)]).drop s.base) = s.tasks.drop s.base ++ [⟨b, .queued⟩] := List.drop_append_of_le_length B
      simp only [this, FMain.unsent, List.map_append, List.flatten_append]
      simpa [List.append_assoc] using p5
  · intro j t h1 h2
    rcases look j t h1 with h | ⟨_, rfl⟩
    · exact I.done_nil j t h h2
    · cases h2
  · intro _ _
    refine ⟨fun j t hj h => ?_, (I.fine hd hb).2⟩
    rcases look j t h with h | ⟨_, rfl⟩
    · exact (I.fine hd hb).1 j t hj h
    · simp
  · intro t h1 h2 j u w hj hu hw
    rcases look j u hu with hu | ⟨_, rfl⟩
    · rcases look _ t h1 with h | ⟨he, _⟩
      · exact I.first_queued t h h2 j u w hj hu hw
      · rw [List.getElem?_eq_none (by omega)] at hu; cases hu
    · cases hw
  · intro h j t ho h1
    rcases look j t h1 with h1 | ⟨rfl, _⟩
    · refine I.old h j t ?_ h1
      simp only [FState.over, hm] at ho ⊢
      exact ho
    · simp only [FState.over] at ho
      have := of_decide_eq_true ho
      omega

/-- A task is begun. -/
theorem start (I : PFInv bad n s) (hd : s.dead = false) {j w : Nat} {q : List Nat} {m : FMain α} (hn : w < n)
    (hq : (w = 0 ∧ s.main = .wait ∧ m = .task j ∧ s.queue = q ++ [j]) ∨ (0 < w ∧ m = s.main ∧ s.queue = j :: q))
    (hs : ({ s with main := m } : FState α).start j w q = .ok t) : PFInv bad n t := by
  have hjq : j ∈ s.queue := by rcases hq with ⟨_, _, _, h⟩ | ⟨_, _, h⟩ <;> simp [h]
  obtain ⟨a, ha, hst⟩ := (I.q_mem j).1 hjq
  have hlt := (List.getElem?_eq_some_iff.1 ha).1
  simp only [FState.start, ha] at hs
  split at hs
  · cases hs
  rename_i hov
  simp only [FState.setTask, FOut.ok.injEq] at hs
  subst hs
  have hmb : m.busy = true := by
    rcases hq with ⟨_, _, rfl, _⟩ | ⟨_, rfl, _⟩
    · rfl
    · cases hm : s.main with
      | idle => simp [FState.over, hm] at hov
      | inline r =>
        have := I.no_new r hm
        simp [FState.over, hm] at hov
        omega
      | _ => simp [FMain.busy]
  have hbj : s.base ≤ j := by
    rcases hq with ⟨_, _, rfl, _⟩ | ⟨_, rfl, _⟩
    · simp [FState.over] at hov; exact hov
    · cases hm : s.main with
      | idle => simp [hm, FMain.busy] at hmb
      | inline r => simp [hm, FMain.busy] at hmb
      | _ => simp [FState.over, hm] at hov; exact hov
  have hsb : s.main.busy = true := by
    rcases hq with ⟨_, h, _, _⟩ | ⟨_, rfl, _⟩
    · simp [h, FMain.busy]
    · exact hmb
  have hun : m.unsent = s.main.unsent := by
    rcases hq with ⟨_, h, rfl, _⟩ | ⟨_, rfl, _⟩
    · simp [h, FMain.unsent]
    · rfl
  -- looking up
  have look : ∀ (i : Nat) (u : FTask α), (s.tasks.set j { a with st := .running w })[i]? = some u →
      (i = j ∧ u = { a with st := .running w }) ∨ (i ≠ j ∧ s.tasks[i]? = some u) := by
    intro i u h
    rw [List.getElem?_set] at h
    by_cases hij : j = i
    · subst hij; rw [if_pos rfl, if_pos hlt] at h; exact .inl ⟨rfl, (Option.some.inj h).symm⟩
    · rw [if_neg hij] at h; exact .inr ⟨fun h => hij h.symm, h⟩
  have S := I.q_sorted
  have hqq : q.Pairwise (· < ·) ∧ ∀ i, i ∈ q ↔ i ∈ s.queue ∧ i ≠ j := by
    rcases hq with ⟨_, _, _, h⟩ | ⟨_, _, h⟩
    · rw [h] at S ⊢
      obtain ⟨s1, _, s3⟩ := List.pairwise_append.1 S
      refine ⟨s1, fun i => ⟨fun hi => ⟨by simp [hi], ?_⟩, fun hi => ?_⟩⟩
      · have := s3 i hi j (by simp); omega
      · simpa [hi.2] using hi.1
    · rw [h] at S ⊢
      obtain ⟨s1, s2⟩ := List.pairwise_cons.1 S
      refine ⟨s2, fun i => ⟨fun hi => ⟨by simp [hi], ?_⟩, fun hi => ?_⟩⟩
      · have := s1 i hi; omega
      · simpa [hi.2] using hi.1
  refine ⟨by simpa using I.base_le, hqq.1, ?_, ?_, ?_, ?_, I.past_ok, ?_, ?_, ?_, ?_, ?_, by simp [hd], ?_, ?_, ?_⟩
  · intro i
    rw [hqq.2 i]
    constructor
    · rintro ⟨h1, h2⟩
      obtain ⟨u, h3, h4⟩ := (I.q_mem i).1 h1
      exact ⟨u, by simp only [List.getElem?_set, if_neg (Ne.symm h2)]; exact h3, h4⟩
    · rintro ⟨u, h3, h4⟩
      rcases look i u h3 with ⟨_, rfl⟩ | ⟨h5, h6⟩
      · cases h4
      · exact ⟨(I.q_mem i).2 ⟨u, h6, h4⟩, h5⟩
  · intro i u w' h1 h2
    rcases look i u h1 with ⟨_, rfl⟩ | ⟨h5, h6⟩
    · simp only [UStatus.running.injEq] at h2; omega
    · exact I.run_lt i u w' h6 h2
  · intro i u h1 h2
    rcases look i u h1 with ⟨rfl, rfl⟩ | ⟨h5, h6⟩
    · simp only [UStatus.running.injEq] at h2
      rcases hq with ⟨_, _, h, _⟩ | ⟨h, _, _⟩
      · exact h
      · omega
    · have := I.run0 i u h6 h2
      rcases hq with ⟨_, h, _, _⟩ | ⟨_, h, _⟩
      · rw [h] at this; cases this
      · show m = _; rw [h]; exact this
  · intro i hi
    have hi : m = .task i := hi
    rcases hq with ⟨rfl, _, h, _⟩ | ⟨_, h, _⟩
    · rw [h] at hi; cases hi
      exact ⟨hbj, { a with st := .running 0 }, by simp [hlt], rfl⟩
    · rw [h] at hi
      obtain ⟨h1, u, h2, h3⟩ := I.main_task i hi
      refine ⟨h1, u, ?_, h3⟩
      have : j ≠ i := by rintro rfl; rw [ha] at h2; cases h2; rw [hst] at h3; cases h3
      simp only [List.getElem?_set, if_neg this]; exact h2
  · intro r hr
    have hr : m = .inline r := hr
    rw [hr] at hmb; cases hmb
  · intro r hr
    have hr : m = .inline r := hr
    rw [hr] at hmb; cases hmb
  · intro _
    obtain ⟨bs, p1, p2, p3, p4, p5⟩ := I.split hsb
    refine ⟨bs, p1, ?_, ?_, ?_, ?_⟩
    · show bs.length = ((s.tasks.set _ _).length - s.base) + m.unsent.length
      rw [List.length_set, hun]; exact p2
    · show m.unsent = bs.drop ((s.tasks.set _ _).length - s.base)
      rw [List.length_set, hun]; exact p3
    · intro i u h1
      rcases look _ u h1 with ⟨h2, rfl⟩ | ⟨h5, h6⟩
      · rw [← h2] at ha; exact p4 i a ha
      · exact p4 i u h6
    · show (s.called ++ ((((s.tasks.set j _).drop s.base).map (·.rest)).flatten ++ m.unsent.flatten)).Perm bs.flatten
      rw [hun, drop_set hbj]
      have h1 : (s.tasks.drop s.base)[j - s.base]? = some a := by rw [List.getElem?_drop]; rw [show s.base + (j - s.base) = j by omega]; exact ha
      have h2 := flatten_set (u := { a with st := .running w }) h1 [] (by simp)
      exact (List.Perm.append_left _ (List.Perm.append_right _ h2)).trans p5
  · intro i u h1 h2
    rcases look i u h1 with ⟨_, rfl⟩ | ⟨h5, h6⟩
    · cases h2
    · exact I.done_nil i u h6 h2
  · intro _ _
    obtain ⟨f1, f2⟩ := I.fine hd hsb
    refine ⟨fun i u hi h1 => ?_, f2⟩
    rcases look i u h1 with ⟨_, rfl⟩ | ⟨h5, h6⟩
    · simp
    · exact f1 i u hi h6
  · intro u h1 h2 i v w' hi h3 h4
    rcases look _ u h1 with ⟨_, rfl⟩ | ⟨h5, h6⟩
    · cases h2
    · rcases look _ v h3 with ⟨rfl, rfl⟩ | ⟨h7, h8⟩
      · simp only [UStatus.running.injEq] at h4
        subst h4
        rcases hq with ⟨h, _⟩ | ⟨_, _, h⟩
        · exact h
        · -- the oldest task was taken, and it is not the first one of the call
          exfalso
          have : s.base ∈ s.queue := (I.q_mem _).2 ⟨u, h6, h2⟩
          rw [h] at this S
          rcases List.mem_cons.1 this with h9 | h9
          · exact h5 h9
          · have := (List.pairwise_cons.1 S).1 _ h9; omega
      · exact I.first_queued u h6 h2 i v w' hi h8 h4
  · intro hm i v hi h3
    have hm : m = .task s.base := hm
    have hi : s.base < i := hi
    rcases look _ v h3 with ⟨h8, rfl⟩ | ⟨h7, h8⟩
    · exfalso
      rcases hq with ⟨_, _, h, _⟩ | ⟨hw, h, h9⟩
      · rw [h] at hm; cases hm; omega
      · rw [h] at hm
        have := I.first_main hm j a (by omega) ha
        rw [hst] at this; cases this
    · rcases hq with ⟨_, hw, h, h9⟩ | ⟨_, h, _⟩
      · rw [h] at hm; cases hm
        -- the first task is the newest one: the others are not in the queue
        cases hv : v.st with
        | queued =>
          exfalso
          have : i ∈ s.queue := (I.q_mem _).2 ⟨v, h8, hv⟩
          rw [h9] at this S
          rcases List.mem_append.1 this with h | h
          · have := (List.pairwise_append.1 S).2.2 i h s.base (by simp); omega
          · simp at h; omega
        | running w' =>
          exfalso
          have h10 := I.first_queued a ha hst i v w' (by omega) h8 hv
          subst h10
          have := I.run0 i v h8 hv
          rw [hw] at this; cases this
        | done => rfl
        | failed => exact absurd hv ((I.fine hd hsb).1 i v (by omega) h8)
      · rw [h] at hm; exact I.first_main hm i v hi h8
  · intro h i u ho h1
    have ho' : i < s.base := by
      simp only [FState.over] at ho
      split at ho
      · cases hmb
      · simpa using ho
    rcases look _ u h1 with ⟨h8, rfl⟩ | ⟨h7, h8⟩
    · omega
    · refine I.old h i u ?_ h8
      simp only [FState.over]
      cases s.main <;> simp [ho']

/-- A task that is being executed makes a step. -/
theorem put (I : PFInv bad n s) (hd : s.dead = false) {j w : Nat} {a u : FTask α} {x : List α} {m : FMain α} (ha : s.tasks[j]? = some a)
    (hbj : s.base ≤ j) (hsb : s.main.busy = true) (hst : a.st = .running w) (hx : a.rest = x ++ u.rest) (hf : ∀ y ∈ x, bad y = false)
    (hu : (u.st = a.st ∧ m = s.main) ∨ (u.st = .done ∧ u.rest = [] ∧ ((w = 0 ∧ m = .wait) ∨ (0 < w ∧ m = s.main)))) :
    PFInv bad n { s with tasks := s.tasks.set j u, called := s.called ++ x, main := m } := by
  have hlt := (List.getElem?_eq_some_iff.1 ha).1
  have look : ∀ (i : Nat) (v : FTask α), (s.tasks.set j u)[i]? = some v → (i = j ∧ v = u) ∨ (i ≠ j ∧ s.tasks[i]? = some v) := by
    intro i v h
    rw [List.getElem?_set] at h
    by_cases hij : j = i
    · subst hij; rw [if_pos rfl, if_pos hlt] at h; exact .inl ⟨rfl, (Option.some.inj h).symm⟩
    · rw [if_neg hij] at h; exact .inr ⟨fun h => hij h.symm, h⟩
  have h0 : w = 0 → s.main = .task j := fun h => I.run0 j a ha (h ▸ hst)
  have hm : m = s.main ∨ (w = 0 ∧ m = .wait ∧ u.st = .done) := by
    rcases hu with ⟨_, h⟩ | ⟨h1, _, ⟨h2, h3⟩ | ⟨_, h⟩⟩
    · exact .inl h
    · exact .inr ⟨h2, h3, h1⟩
    · exact .inl h
  have hmb : m.busy = true := by
    rcases hm with h | ⟨_, h, _⟩
    · rw [h]; exact hsb
    · rw [h]; rfl
  have hun : m.unsent = s.main.unsent := by
    rcases hm with h | ⟨h1, h, _⟩
    · rw [h]
    · rw [h, h0 h1]; rfl
  have hus : u.st = .running w ∨ u.st = .done := by
    rcases hu with ⟨h, _⟩ | ⟨h, _⟩
    · exact .inl (h.trans hst)
    · exact .inr h
  refine ⟨by simpa using I.base_le, I.q_sorted, ?_, ?_, ?_, ?_, I.past_ok, ?_, ?_, ?_, ?_, ?_, by simp [hd], ?_, ?_, ?_⟩
  · intro i
    rw [I.q_mem i]
    constructor
    · rintro ⟨v, h3, h4⟩
      have : j ≠ i := by rintro rfl; rw [ha] at h3; cases h3; rw [hst] at h4; cases h4
      exact ⟨v, by simp only [List.getElem?_set, if_neg this]; exact h3, h4⟩
    · rintro ⟨v, h3, h4⟩
      rcases look i v h3 with ⟨_, rfl⟩ | ⟨h5, h6⟩
      · rcases hus with h | h <;> rw [h] at h4 <;> cases h4
      · exact ⟨v, h6, h4⟩
  · intro i v w' h1 h2
    rcases look i v h1 with ⟨_, rfl⟩ | ⟨h5, h6⟩
    · rcases hus with h | h <;> rw [h] at h2
      · cases h2; exact I.run_lt j a _ ha hst
      · cases h2
    · exact I.run_lt i v w' h6 h2
  · intro i v h1 h2
    show m = _
    rcases look i v h1 with ⟨rfl, rfl⟩ | ⟨h5, h6⟩
    · rcases hu with ⟨h, h'⟩ | ⟨h, _⟩
      · rw [h'] ; exact I.run0 i a ha (h ▸ h2)
      · rw [h] at h2; cases h2
    · have h7 := I.run0 i v h6 h2
      rcases hm with h | ⟨h, _⟩
      · rw [h]; exact h7
      · rw [h0 h] at h7; cases h7; exact absurd rfl h5
  · intro i hi
    have hi : m = .task i := hi
    rcases hm with h | ⟨_, h, _⟩
    · rw [h] at hi
      obtain ⟨h1, v, h2, h3⟩ := I.main_task i hi
      refine ⟨h1, ?_⟩
      by_cases hij : i = j
      · subst hij
        rw [ha] at h2; cases h2
        refine ⟨u, by simp [hlt], ?_⟩
        rcases hu with ⟨h4, _⟩ | ⟨_, _, ⟨_, h4⟩ | ⟨h4, _⟩⟩
        · rw [h4]; exact h3
        · have h6 : m = .task i := hi
          rw [h4] at h6; cases h6
        · rw [hst] at h3; cases h3; omega
      · exact ⟨v, by simp only [List.getElem?_set, if_neg (Ne.symm hij)]; exact h2, h3⟩
    · rw [h] at hi; cases hi
  · intro r hr
    have hr : m = .inline r := hr
    rw [hr] at hmb; cases hmb
  · intro r hr
    have hr : m = .inline r := hr
    rw [hr] at hmb; cases hmb
  · intro _
    obtain ⟨bs, p1, p2, p3, p4, p5⟩ := I.split hsb
    refine ⟨bs, p1, ?_, ?_, ?_, ?_⟩
    · show bs.length = ((s.tasks.set _ _).length - s.base) + m.unsent.length
      rw [List.length_set, hun]; exact p2
    · show m.unsent = bs.drop ((s.tasks.set _ _).length - s.base)
      rw [List.length_set, hun]; exact p3
    · intro i v h1
      rcases look _ v h1 with ⟨h2, rfl⟩ | ⟨h5, h6⟩
      · rw [← h2] at ha
        obtain ⟨b, h3, h4⟩ := p4 i a ha
        exact ⟨b, h3, fun y hy => h4 y (by rw [hx]; simp [hy])⟩
      · exact p4 i v h6
    · show (s.called ++ x ++ ((((s.tasks.set j _).drop s.base).map (·.rest)).flatten ++ m.unsent.flatten)).Perm bs.flatten
      rw [hun, drop_set hbj]
      have h1 : (s.tasks.drop s.base)[j - s.base]? = some a := by rw [List.getElem?_drop]; rw [show s.base + (j - s.base) = j by omega]; exact ha
      have h2 := flatten_set (u := u) h1 x hx
      rw [List.append_assoc, ← List.append_assoc x]
      exact (List.Perm.append_left _ (List.Perm.append_right _ h2)).trans p5
  · intro i v h1 h2
    rcases look i v h1 with ⟨_, rfl⟩ | ⟨h5, h6⟩
    · rcases hu with ⟨h, _⟩ | ⟨_, h, _⟩
      · rw [h, hst] at h2; cases h2
      · exact h
    · exact I.done_nil i v h6 h2
  · intro _ _
    obtain ⟨f1, f2⟩ := I.fine hd hsb
    refine ⟨fun i v hi h1 => ?_, ?_⟩
    · rcases look i v h1 with ⟨_, rfl⟩ | ⟨h5, h6⟩
      · rcases hus with h | h <;> rw [h] <;> simp
      · exact f1 i v hi h6
    · intro y hy
      rcases List.mem_append.1 hy with hy | hy
      · exact f2 y hy
      · exact hf y hy
  · intro v h1 h2 i v' w' hi h3 h4
    rcases look _ v h1 with ⟨_, rfl⟩ | ⟨h5, h6⟩
    · rcases hus with h | h <;> rw [h] at h2 <;> cases h2
    · rcases look _ v' h3 with ⟨rfl, rfl⟩ | ⟨h7, h8⟩
      · rcases hus with h | h <;> rw [h] at h4
        · cases h4; exact I.first_queued v h6 h2 i a w hi ha hst
        · cases h4
      · exact I.first_queued v h6 h2 i v' w' hi h8 h4
  · intro hm' i v hi h3
    have hm' : m = .task s.base := hm'
    rcases hm with h | ⟨_, h, _⟩
    · have hm2 : s.main = .task s.base := h ▸ hm'
      rcases look _ v h3 with ⟨rfl, rfl⟩ | ⟨h7, h8⟩
      · have := I.first_main hm2 i a hi ha
        rw [hst] at this; cases this
      · exact I.first_main hm2 i v hi h8
    · rw [h] at hm'; cases hm'
  · intro h i v ho h1
    have ho' : i < s.base := by
      simp only [FState.over] at ho
      split at ho
      · cases hmb
      · simpa using ho
    rcases look _ v h1 with ⟨h8, rfl⟩ | ⟨h7, h8⟩
    · omega
    · refine I.old h i v ?_ h8
      simp only [FState.over]
      cases s.main <;> simp [ho']

/-- The function throws in a background worker. -/
theorem kill (I : PFInv bad n s) {j w : Nat} {a : FTask α} {x : α} {r : List α} (ha : s.tasks[j]? = some a)
    (hbj : s.base ≤ j) (hsb : s.main.busy = true) (hst : a.st = .running w) (hw : 0 < w) (hx : a.rest = x :: r) (hbad : bad x = true) :
    PFInv bad n { s with tasks := s.tasks.set j ⟨r, .failed⟩, called := s.called ++ [x], dead := true } := by
  have hlt := (List.getElem?_eq_some_iff.1 ha).1
  have look : ∀ (i : Nat) (v : FTask α), (s.tasks.set j ⟨r, .failed⟩)[i]? = some v → (i = j ∧ v = ⟨r, .failed⟩) ∨ (i ≠ j ∧ s.tasks[i]? = some v) := by
    intro i v h
    rw [List.getElem?_set] at h
    by_cases hij : j = i
    · subst hij; rw [if_pos rfl, if_pos hlt] at h; exact .inl ⟨rfl, (Option.some.inj h).symm⟩
    · rw [if_neg hij] at h; exact .inr ⟨fun h => hij h.symm, h⟩
  refine ⟨by simpa using I.base_le, I.q_sorted, ?_, ?_, ?_, ?_, I.past_ok, ?_, ?_, ?_, ?_, by simp, ?_, ?_, ?_, ?_⟩
  · intro i
    rw [I.q_mem i]
    constructor
    · rintro ⟨v, h3, h4⟩
      have : j ≠ i := by rintro rfl; rw [ha] at h3; cases h3; rw [hst] at h4; cases h4
      exact ⟨v, by simp only [List.getElem?_set, if_neg this]; exact h3, h4⟩
    · rintro ⟨v, h3, h4⟩
      rcases look i v h3 with ⟨_, rfl⟩ | ⟨h5, h6⟩
      · cases h4
      · exact ⟨v, h6, h4⟩
  · intro i v w' h1 h2
    rcases look i v h1 with ⟨_, rfl⟩ | ⟨h5, h6⟩
    · cases h2
    · exact I.run_lt i v w' h6 h2
  · intro i v h1 h2
    rcases look i v h1 with ⟨rfl, rfl⟩ | ⟨h5, h6⟩
    · cases h2
    · exact I.run0 i v h6 h2
  · intro i hi
    obtain ⟨h1, v, h2, h3⟩ := I.main_task i hi
    refine ⟨h1, v, ?_, h3⟩
    have : j ≠ i := by rintro rfl; rw [ha] at h2; cases h2; rw [hst] at h3; cases h3; omega
    simp only [List.getElem?_set, if_neg this]; exact h2
  · intro q hq
    have hq : s.main = .inline q := hq
    rw [hq] at hsb; cases hsb
  · intro q hq
    have hq : s.main = .inline q := hq
    rw [hq] at hsb; cases hsb
  · intro _
    obtain ⟨bs, p1, p2, p3, p4, p5⟩ := I.split hsb
    refine ⟨bs, p1, ?_, ?_, ?_, ?_⟩
    · show bs.length = ((s.tasks.set _ _).length - s.base) + s.main.unsent.length
      rw [List.length_set]; exact p2
    · show s.main.unsent = bs.drop ((s.tasks.set _ _).length - s.base)
      rw [List.length_set]; exact p3
    · intro i v h1
      rcases look _ v h1 with ⟨h2, rfl⟩ | ⟨h5, h6⟩
      · rw [← h2] at ha
        obtain ⟨b, h3, h4⟩ := p4 i a ha
        exact ⟨b, h3, fun y hy => h4 y (by rw [hx]; exact List.mem_cons_of_mem _ hy)⟩
      · exact p4 i v h6
    · show (s.called ++ [x] ++ ((((s.tasks.set j _).drop s.base).map (·.rest)).flatten ++ s.main.unsent.flatten)).Perm bs.flatten
      rw [drop_set hbj]
      have h1 : (s.tasks.drop s.base)[j - s.base]? = some a := by rw [List.getElem?_drop]; rw [show s.base + (j - s.base) = j by omega]; exact ha
      have h2 := flatten_set (u := ⟨r, .failed⟩) h1 [x] hx
      rw [List.append_assoc, ← List.append_assoc [x]]
      exact (List.Perm.append_left _ (List.Perm.append_right _ h2)).trans p5
  · intro i v h1 h2
    rcases look i v h1 with ⟨_, rfl⟩ | ⟨h5, h6⟩
    · cases h2
    · exact I.done_nil i v h6 h2
  · intro _
    exact ⟨hsb, by have := I.run_lt j a w ha hst; omega, x, by simp, hbad⟩
  · intro v h1 h2 i v' w' hi h3 h4
    rcases look _ v h1 with ⟨_, rfl⟩ | ⟨h5, h6⟩
    · cases h2
    · rcases look _ v' h3 with ⟨rfl, rfl⟩ | ⟨h7, h8⟩
      · cases h4
      · exact I.first_queued v h6 h2 i v' w' hi h8 h4
  · intro hm' i v hi h3
    rcases look _ v h3 with ⟨rfl, rfl⟩ | ⟨h7, h8⟩
    · have := I.first_main hm' i a hi ha
      rw [hst] at this; cases this
    · exact I.first_main hm' i v hi h8
  · intro h i v ho h1
    rcases look _ v h1 with ⟨h8, rfl⟩ | ⟨h7, h8⟩
    · exact .inr rfl
    · exact I.old h i v ho h8

/-- The call ends with an exception of a task. -/
theorem unwind (I : PFInv bad n s) (hd : s.dead = false) {j : Nat} {a : FTask α} {x : α} {r : List α} (ha : s.tasks[j]? = some a)
    (hm : s.main = .task j) (hx : a.rest = x :: r) (hbad : bad x = true) :
    PFInv bad n (({ s with tasks := s.tasks.set j ⟨r, .failed⟩, called := s.called ++ [x] } : FState α).finish .threw) := by
  have hlt := (List.getElem?_eq_some_iff.1 ha).1
  have hsb : s.main.busy = true := by rw [hm]; rfl
  obtain ⟨hbj, a', ha', hst⟩ := I.main_task j hm
  rw [ha] at ha'; cases ha'
  have look : ∀ (i : Nat) (v : FTask α), (s.tasks.set j ⟨r, .failed⟩)[i]? = some v → (i = j ∧ v = ⟨r, .failed⟩) ∨ (i ≠ j ∧ s.tasks[i]? = some v) := by
    intro i v h
    rw [List.getElem?_set] at h
    by_cases hij : j = i
    · subst hij; rw [if_pos rfl, if_pos hlt] at h; exact .inl ⟨rfl, (Option.some.inj h).symm⟩
    · rw [if_neg hij] at h; exact .inr ⟨fun h => hij h.symm, h⟩
  obtain ⟨bs, p1, p2, p3, p4, p5⟩ := I.split hsb
  refine ⟨by simpa [FState.finish] using I.base_le, I.q_sorted, ?_, ?_, ?_, by simp [FState.finish], ?_, by simp [FState.finish], by simp [FState.finish],
    by simp [FState.finish, FMain.busy], ?_, by simp [FState.finish, FMain.busy], ?_, ?_, by simp [FState.finish], ?_⟩
  · intro i
    show i ∈ s.queue ↔ _
    rw [I.q_mem i]
    constructor
    · rintro ⟨v, h3, h4⟩
      have : j ≠ i := by rintro rfl; rw [ha] at h3; cases h3; rw [hst] at h4; cases h4
      exact ⟨v, by simp only [FState.finish, List.getElem?_set, if_neg this]; exact h3, h4⟩
    · rintro ⟨v, h3, h4⟩
      rcases look i v h3 with ⟨_, rfl⟩ | ⟨h5, h6⟩
      · cases h4
      · exact ⟨v, h6, h4⟩
  · intro i v w' h1 h2
    rcases look i v h1 with ⟨_, rfl⟩ | ⟨h5, h6⟩
    · cases h2
    · exact I.run_lt i v w' h6 h2
  · intro i v h1 h2
    rcases look i v h1 with ⟨rfl, rfl⟩ | ⟨h5, h6⟩
    · cases h2
    · have := I.run0 i v h6 h2
      rw [hm] at this; cases this; exact absurd rfl h5
  · intro c hc
    simp only [FState.finish, List.mem_append, List.mem_singleton] at hc
    rcases hc with hc | rfl
    · exact I.past_ok c hc
    · refine ⟨(fun h => by cases h), fun _ => ⟨⟨x, by simp, hbad⟩, ?_⟩⟩
      refine ⟨((((s.tasks.set j ⟨r, .failed⟩).drop s.base).map (·.rest)).flatten ++ s.main.unsent.flatten), ?_⟩
      show (s.called ++ [x] ++ _).Perm (planElems s.plan)
      rw [p1, drop_set hbj]
      have h1 : (s.tasks.drop s.base)[j - s.base]? = some a := by rw [List.getElem?_drop]; rw [show s.base + (j - s.base) = j by omega]; exact ha
      have h2 := flatten_set (u := ⟨r, .failed⟩) h1 [x] hx
      rw [List.append_assoc, ← List.append_assoc [x]]
      exact (List.Perm.append_left _ (List.Perm.append_right _ h2)).trans p5
  · intro i v h1 h2
    rcases look i v h1 with ⟨_, rfl⟩ | ⟨h5, h6⟩
    · cases h2
    · exact I.done_nil i v h6 h2
  · intro h
    have h : s.dead = true := h
    rw [hd] at h; cases h
  · intro v h1 h2 i v' w' hi h3 h4
    rcases look _ v h1 with ⟨_, rfl⟩ | ⟨h5, h6⟩
    · cases h2
    · rcases look _ v' h3 with ⟨rfl, rfl⟩ | ⟨h7, h8⟩
      · cases h4
      · exact I.first_queued v h6 h2 i v' w' hi h8 h4
  · intro h i v _ h1
    rcases look _ v h1 with ⟨h8, rfl⟩ | ⟨h7, h8⟩
    · exact .inr rfl
    · by_cases hi : i < s.base
      · refine I.old (fun c hc => h c (by simp [FState.finish, hc])) i v (by simp [FState.over, hm, hi]) h8
      · have hB := h ⟨s.plan, s.called ++ [x], .threw⟩ (by simp [FState.finish]) rfl
        simp only [p1, ParPlan.BadFirst] at hB
        obtain ⟨b, h3, h4⟩ := p4 (j - s.base) a (by rw [show s.base + (j - s.base) = j by omega]; exact ha)
        have hxb : x ∈ b := h4 x (by rw [hx]; exact List.mem_cons_self)
        have hj0 : j - s.base = 0 := by
          apply Classical.byContradiction
          intro hne
          obtain ⟨k, hk⟩ : ∃ k, j - s.base = k + 1 := ⟨j - s.base - 1, by omega⟩
          rw [hk] at h3
          have : b ∈ bs.tail := by
            cases bs with
            | nil => simp at h3
            | cons b0 bs => simp at h3; exact List.mem_of_getElem? h3
          rw [hB b this x hxb] at hbad; cases hbad
        have hjb : j = s.base := by omega
        rw [hjb] at hm
        exact .inl (I.first_main hm i v (by omega) h8)

/-- The call returns. -/
theorem ret (I : PFInv bad n s) (hd : s.dead = false)
    (hm : s.main = .inline [] ∨ (s.main = .wait ∧ s.allDone = true)) : PFInv bad n (s.finish .returned) := by
  have hdone : s.main.busy = true → ∀ (i : Nat) (t : FTask α), s.base ≤ i → s.tasks[i]? = some t → t.st = .done := by
    intro hb i t hi h
    rcases hm with h1 | ⟨_, h1⟩
    · rw [h1] at hb; cases hb
    · have := List.all_eq_true.1 h1 t (List.mem_of_getElem? (i := i - s.base) (by rw [List.getElem?_drop, show s.base + (i - s.base) = i by omega]; exact h))
      simpa using this
  refine ⟨I.base_le, I.q_sorted, I.q_mem, I.run_lt, ?_, by simp [FState.finish], ?_, by simp [FState.finish], by simp [FState.finish],
    by simp [FState.finish, FMain.busy], I.done_nil, by simp [FState.finish, FMain.busy], ?_, I.first_queued, by simp [FState.finish], ?_⟩
  · intro i v h1 h2
    have := I.run0 i v h1 h2
    rcases hm with h | ⟨h, _⟩ <;> rw [h] at this <;> cases this
  · intro c hc
    simp only [FState.finish, List.mem_append, List.mem_singleton] at hc
    rcases hc with hc | rfl
    · exact I.past_ok c hc
    · refine ⟨fun _ => ?_, (fun h => by cases h)⟩
      rcases hm with h | ⟨h, h'⟩
      · obtain ⟨p1, p2, p3⟩ := I.inline_ok [] h
        simp only [List.append_nil] at p1
        simp only [p1, planElems]
        exact ⟨List.Perm.refl _, p3⟩
      · have hb : s.main.busy = true := by rw [h]; rfl
        obtain ⟨bs, p1, p2, p3, p4, p5⟩ := I.split hb
        simp only [p1, planElems]
        have e : ((s.tasks.drop s.base).map (·.rest)).flatten = [] := by
          refine List.flatten_eq_nil_iff.2 fun l hl => ?_
          obtain ⟨t, ht, rfl⟩ := List.mem_map.1 hl
          obtain ⟨i, hi⟩ := List.mem_iff_getElem?.1 ht
          rw [List.getElem?_drop] at hi
          exact I.done_nil _ t hi (hdone hb _ t (by omega) hi)
        have hp : s.called.Perm bs.flatten := by
          rw [e, h] at p5; simpa [FMain.unsent] using p5
        exact ⟨hp, fun x hx => (I.fine hd hb).2 x (hp.mem_iff.2 hx)⟩
  · intro h
    have h : s.dead = true := h
    rw [hd] at h; cases h
  · intro h i v _ h1
    have hp : ∀ c ∈ s.past, c.ended = .threw → c.plan.BadFirst bad := fun c hc => h c (by simp [FState.finish, hc])
    by_cases hi : i < s.base
    · refine I.old hp i v ?_ h1
      simp only [FState.over]
      cases s.main <;> simp [hi]
    · rcases hm with h' | ⟨h', _⟩
      · have h2 := I.no_new [] h'
        have h1 : s.tasks[i]? = some v := h1
        rw [List.getElem?_eq_none (by omega)] at h1; cases h1
      · exact .inl (hdone (by rw [h']; rfl) i v (by omega) h1)

/-- A step on the fast path. -/
theorem inl (I : PFInv bad n s) (hd : s.dead = false) {x : α} {r : List α} (hm : s.main = .inline (x :: r)) (hb : bad x = false) :
    PFInv bad n { s with called := s.called ++ [x], main := .inline r } := by
  obtain ⟨p1, p2, p3⟩ := I.inline_ok _ hm
  refine ⟨I.base_le, I.q_sorted, I.q_mem, I.run_lt, ?_, by simp, I.past_ok, ?_, ?_, by simp [FMain.busy], I.done_nil, by simp [FMain.busy], by simp [hd],
    I.first_queued, by simp, ?_⟩
  · intro i v h1 h2
    have := I.run0 i v h1 h2
    rw [hm] at this; cases this
  · intro q hq
    cases hq
    refine ⟨by simp [p1], hd, fun y hy => ?_⟩
    rcases List.mem_append.1 hy with hy | hy
    · exact p3 y hy
    · simp at hy; rw [hy]; exact hb
  · intro q _
    exact I.no_new _ hm
  · intro h i v ho h1
    refine I.old h i v ?_ h1
    simp only [FState.over, hm] at ho ⊢
    exact ho

/-- An exception on the fast path. -/
theorem inlThrow (I : PFInv bad n s) (hd : s.dead = false) {x : α} {r : List α} (hm : s.main = .inline (x :: r)) (hb : bad x = true) :
    PFInv bad n (({ s with called := s.called ++ [x] } : FState α).finish .threw) := by
  obtain ⟨p1, p2, p3⟩ := I.inline_ok _ hm
  have hno := I.no_new _ hm
  refine ⟨I.base_le, I.q_sorted, I.q_mem, I.run_lt, ?_, by simp [FState.finish], ?_, by simp [FState.finish], by simp [FState.finish],
    by simp [FState.finish, FMain.busy], I.done_nil, by simp [FState.finish, FMain.busy], by simp [FState.finish, hd], I.first_queued, by simp [FState.finish], ?_⟩
  · intro i v h1 h2
    have := I.run0 i v h1 h2
    rw [hm] at this; cases this
  · intro c hc
    simp only [FState.finish, List.mem_append, List.mem_singleton] at hc
    rcases hc with hc | rfl
    · exact I.past_ok c hc
    · refine ⟨(fun h => by cases h), fun _ => ⟨⟨x, by simp, hb⟩, r, ?_⟩⟩
      simp [p1, planElems]
  · intro h i v _ h1
    have hp : ∀ c ∈ s.past, c.ended = .threw → c.plan.BadFirst bad := fun c hc => h c (by simp [FState.finish, hc])
    have h1 : s.tasks[i]? = some v := h1
    have hi := (List.getElem?_eq_some_iff.1 h1).1
    refine I.old hp i v ?_ h1
    simp only [FState.over, hm, decide_eq_true_eq]
    omega

/-- The loop that submits has ended. -/
theorem sent (I : PFInv bad n s) (hd : s.dead = false) (hm : s.main = .submit []) : PFInv bad n { s with main := .wait } := by
  have hb : s.main.busy = true := by rw [hm]; rfl
  refine ⟨I.base_le, I.q_sorted, I.q_mem, I.run_lt, ?_, by simp, I.past_ok, by simp, by simp, ?_, I.done_nil, fun _ _ => I.fine hd hb, by simp [hd],
    I.first_queued, by simp, ?_⟩
  · intro i v h1 h2
    have := I.run0 i v h1 h2
    rw [hm] at this; cases this
  · intro _
    have := I.split hb
    rw [hm] at this
    exact this
  · intro h i v ho h1
    refine I.old h i v ?_ h1
    simp only [FState.over, hm] at ho ⊢
    exact ho

/-- Going on with a task that is being executed. -/
theorem visit (I : PFInv bad n s) (hd : s.dead = false) {j w : Nat} {a : FTask α} (ha : s.tasks[j]? = some a) (hst : a.st = .running w) :
    match s.visit bad j with
    | .ub => s.over j = true
    | .done t => PFInv bad n (if w = 0 then { t with main := .wait } else t)
    | .more t => PFInv bad n t
    | .threw t => if w = 0 then PFInv bad n (t.finish .threw) else PFInv bad n { t with dead := true } := by
  simp only [FState.visit, ha]
  by_cases hov : s.over j = true
  · simp [hov]
  · have hbj : s.base ≤ j := by
      simp only [FState.over] at hov
      split at hov
      · exact absurd rfl hov
      · simpa using hov
    have hlt := (List.getElem?_eq_some_iff.1 ha).1
    have hsb : s.main.busy = true := by
      cases hm : s.main with
      | idle => simp [FState.over, hm] at hov
      | inline r => have := I.no_new r hm; omega
      | _ => rfl
    rw [if_neg hov]
    cases hr : a.rest with
    | nil =>
      simp only
      by_cases hw : w = 0
      · rw [if_pos hw]
        have := I.put hd (u := ⟨[], .done⟩) (x := []) (m := .wait) ha hbj hsb hst (by simp [hr]) (by simp) (.inr ⟨rfl, rfl, .inl ⟨hw, rfl⟩⟩)
        simpa [FState.setTask] using this
      · rw [if_neg hw]
        have := I.put hd (u := ⟨[], .done⟩) (x := []) (m := s.main) ha hbj hsb hst (by simp [hr]) (by simp) (.inr ⟨rfl, rfl, .inr ⟨by omega, rfl⟩⟩)
        simpa [FState.setTask] using this
    | cons x r =>
      simp only
      by_cases hb : bad x = true
      · simp only [hb, if_true]
        by_cases hw : w = 0
        · rw [if_pos hw]
          exact I.unwind hd ha (I.run0 j a ha (hw ▸ hst)) hr hb
        · rw [if_neg hw]
          exact I.kill ha hbj hsb hst (by omega) hr hb
      · simp only [hb, Bool.false_eq_true, if_false]
        have := I.put hd (u := ⟨r, a.st⟩) (x := [x]) (m := s.main) ha hbj hsb hst (by simp [hr]) (by simpa using hb) (.inl ⟨rfl, rfl⟩)
        exact this

theorem taskOf_some {w j : Nat} (h : s.taskOf w = some j) : ∃ a, s.tasks[j]? = some a ∧ a.st = .running w := by
  obtain ⟨hj, h1, _⟩ := List.findIdx?_eq_some_iff_getElem.1 h
  exact ⟨_, List.getElem?_eq_getElem hj, by simpa using h1⟩

/-- The invariant is kept. -/
theorem step (hn : 0 < n) (I : PFInv bad n s) {l : FLabel α} (h : s.step bad n l = .ok t) : PFInv bad n t := by
  unfold FState.step at h
  split at h
  · cases h
  rename_i hd
  have hd : s.dead = false := by simpa using hd
  cases l with
  | parFor l =>
    simp only at h
    split at h
    · rename_i hm; exact I.enter hm hd h
    · cases h
  | parEach cs =>
    simp only at h
    split at h
    · rename_i hm; exact I.enter hm hd h
    · cases h
  | take w =>
    simp only at h
    split at h
    · rename_i hw
      split at h
      · cases h
      · rename_i j q hq
        exact I.start hd (m := s.main) hw.2.1 (.inr ⟨hw.1, rfl, hq⟩) h
    · cases h
  | work w =>
    simp only at h
    split at h
    · rename_i hw
      split at h
      · cases h
      · rename_i j hj
        obtain ⟨a, ha, hst⟩ := taskOf_some hj
        have V := I.visit hd ha hst
        split at h <;> rename_i hv <;> simp only [hv] at V
        · cases h
        · cases h; rwa [if_neg (by omega)] at V
        · cases h; exact V
        · cases h; rwa [if_neg (by omega)] at V
    · cases h
  | main =>
    simp only [FState.mainStep] at h
    split at h
    · cases h
    · rename_i hm; cases h; exact I.ret hd (.inl hm)
    · rename_i x r hm
      split at h
      · rename_i hb; cases h; exact I.inlThrow hd hm hb
      · rename_i hb; cases h; exact I.inl hd hm (by simpa using hb)
    · rename_i hm; cases h; exact I.sent hd hm
    · rename_i b bs hm; cases h; exact I.submit hd hm
    · rename_i hm
      split at h
      · rename_i ha; cases h; exact I.ret hd (.inr ⟨hm, ha⟩)
      · split at h
        · cases h
        · rename_i j hj
          refine I.start hd hn (.inl ⟨rfl, hm, rfl, ?_⟩) h
          obtain ⟨q, hq⟩ := List.getLast?_eq_some_iff.1 hj
          rw [hq]; simp
    · rename_i j hm
      obtain ⟨_, a, ha, hst⟩ := I.main_task j hm
      have V := I.visit hd ha hst
      split at h <;> rename_i hv <;> simp only [hv] at V
      · cases h
      · cases h; rwa [if_pos trivial] at V
      · cases h; exact V
      · cases h; rwa [if_pos trivial] at V

end PFInv

theorem FReach.inv (hn : 0 < n) {s : FState α} (h : FReach bad n s) : PFInv bad n s := by
  induction h with
  | init => exact .init
  | step l _ hst ih => exact ih.step hn hst

end CoEcs
