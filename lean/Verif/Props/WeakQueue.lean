import Verif.Proofs.WeakQueueInv

/-!
# C82: the queue with the memory orders the code asks for, until it grows

The full statement fails when the queue grows (`C82_growth_violated` in `Props/WeakPool.lean`).
-/

namespace CoEcs.Props
open CoEcs.Weak

/-- **C82** (partial: until the queue grows for the first time; capacities that are powers of two).  For every sequence of `push` and `pop`
of the owner, any number of thieves with any number of attempts, and every execution:
* the next step of no thread is a data race, so a thief finds the array initialised, and what the owner did before it pushed an item
  happens before what the receiver does with it;
* each variable is unprepared (0), ready (1), or received exactly once (2), never more often;
* when all threads are done, every item pushed has been received or is in the queue, whose indices `[T, B)` are given by the last
  values of `_top` and `_bottom` and which holds nothing else. -/
theorem C82_partial {c : Nat} (hc : ∃ e, c = 2 ^ e) {strong : Bool} {ops : List OwnerOp} {n : Nat → Nat} {s : St Loc (Prog Loc Unit)}
    (h : Reach (Prog.auto Loc) strong (dequeStart c ops n) s) (hg : NotGrown s.mem) :
    (∀ t ch, s.step (Prog.auto Loc) strong t ch ≠ .race) ∧
    (∀ k, s.mem.cell (.user k) = 0 ∨ s.mem.cell (.user k) = 1 ∨ s.mem.cell (.user k) = 2) ∧
    ((∀ t, (Prog.auto Loc).op (s.th t) = none) → ∃ T B : Nat, (s.mem.msgs (.top 0)).length = T + 1 ∧
      ((s.mem.msgs (.bottom 0)).getLast?.map Msg.val) = some (B : Int) ∧ T ≤ B ∧ B ≤ T + c ∧
      (∀ k, k < pushes ops → s.mem.cell (.user k) = 2 ∨
        s.mem.cell (.user k) = 1 ∧ ∃ i, T ≤ i ∧ i < B ∧ ((s.mem.msgs (.cell 1 (i % c))).getLast?.map Msg.val) = some (k : Int)) ∧
      ∀ i, T ≤ i → i < B → ∃ k, k < pushes ops ∧ ((s.mem.msgs (.cell 1 (i % c))).getLast?.map Msg.val) = some (k : Int) ∧
        s.mem.cell (.user k) = 1) :=
  deque_sound hc h hg

/-- **C82** (partial: no more items than the capacity).  Then the queue never grows, and no execution has a data race. -/
theorem C82_small_partial {c : Nat} (hc : ∃ e, c = 2 ^ e) {strong : Bool} {ops : List OwnerOp} (hp : ops.count .push ≤ c) {n : Nat → Nat}
    (sched : List (Nat × Nat)) : (dequeStart c ops n).run (Prog.auto Loc) strong sched ≠ .race := by
  suffices H : ∀ (sched : List (Nat × Nat)) (s : St Loc (Prog Loc Unit)), Reach (Prog.auto Loc) strong (dequeStart c ops n) s →
      s.run (Prog.auto Loc) strong sched ≠ .race from H sched _ .init
  intro sched
  induction sched with
  | nil => intro s _ h; cases h
  | cons x l ih =>
    obtain ⟨t, ch⟩ := x
    intro s hs h
    simp only [St.run] at h
    cases he : s.step (Prog.auto Loc) strong t ch with
    | ok s' => rw [he] at h; exact ih s' (.step hs he) h
    | race => exact (deque_sound hc hs (small_never_grows hc hp hs)).1 t ch he
    | no => rw [he] at h; cases h

/-- An execution with capacity 2 in which the thief gets the first item and the owner, with a compare-exchange, the second. -/
def schedDeque : List (Nat × Nat) :=
  [(0, 0), (0, 0), (0, 0), (0, 0), (0, 0), (0, 0), (0, 0), (0, 0), (0, 0), (0, 0),
   (0, 0), (0, 1), (0, 0), (0, 0), (0, 0), (0, 0), (0, 0), (0, 0), (0, 0), (0, 0),
   (1, 0), (1, 0), (1, 1), (1, 0), (1, 0), (1, 0), (1, 1), (1, 0), (1, 0), (1, 0),
   (0, 2), (0, 0), (0, 0), (0, 0), (0, 1), (0, 0), (0, 0), (0, 1), (0, 1), (0, 0), (0, 0), (0, 0)]

/-- The hypotheses of `C82_partial` hold after this execution, in which both variables are received. -/
example (strong : Bool) : ∃ s, Reach (Prog.auto Loc) strong (dequeStart 2 [.push, .push, .pop] fun _ => 1) s ∧ NotGrown s.mem ∧
    s.mem.cell (.user 0) = 2 ∧ s.mem.cell (.user 1) = 2 := by
  have hrun : ∀ (sched : List (Nat × Nat)) (s s' : St Loc (Prog Loc Unit)),
      Reach (Prog.auto Loc) strong (dequeStart 2 [.push, .push, .pop] fun _ => 1) s → s.run (Prog.auto Loc) strong sched = .ok s' →
      Reach (Prog.auto Loc) strong (dequeStart 2 [.push, .push, .pop] fun _ => 1) s' := by
    intro sched
    induction sched with
    | nil => intro s s' hr h; cases h; exact hr
    | cons x l ih =>
      obtain ⟨t, ch⟩ := x
      intro s s' hr h
      simp only [St.run] at h
      cases he : s.step (Prog.auto Loc) strong t ch with
      | ok s1 => rw [he] at h; exact ih s1 s' (.step hr he) h
      | race => rw [he] at h; cases h
      | no => rw [he] at h; cases h
  have h : (match (dequeStart 2 [.push, .push, .pop] fun _ => 1).run (Prog.auto Loc) strong schedDeque with
      | .ok s => decide (s.mem.cell (.user 0) = 2) && decide (s.mem.cell (.user 1) = 2)
      | _ => false) = true := by cases strong <;> decide +kernel
  split at h
  · rename_i s hs
    simp only [Bool.and_eq_true, decide_eq_true_eq] at h
    have hr := hrun _ _ _ .init hs
    exact ⟨s, hr, small_never_grows ⟨1, rfl⟩ (by decide) hr, h.1, h.2⟩
  · cases h

end CoEcs.Props
