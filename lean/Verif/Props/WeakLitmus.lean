import Verif.Model.Weak

/-!
# The machine of `Model/Weak.lean` on the usual small programs

These theorems are not about the code of the library.  They check that the machine on which C81 to C87 and C89 are proved gives
the memory orders the meaning they have in C++20: each says of a small program, for all orders, whether an outcome exists.
Positive statements are about all executions; the programs have no loops, so that `explore` visits every one of them.
-/

namespace CoEcs.Props
open CoEcs.Weak

section
variable {L S : Type} [DecidableEq L]

/-- How many choices an operation has: which value is read. -/
def width (m : Mem L) : Op L → Nat
  | .load _ l => (m.msgs l).length
  | .rmw _ l _ => (m.msgs l).length
  | _ => 1

/-- All executions of threads `0 … T-1` of at most `n` steps end by themselves, without a data race, in states with `ok`. -/
def explore (A : Auto L S) (strong : Bool) (T : Nat) (ok : St L S → Bool) : Nat → St L S → Bool
  | 0, s => ok s && (List.range T).all fun t => (A.op (s.th t)).isNone
  | n + 1, s => ok s && (List.range T).all fun t =>
    match A.op (s.th t) with
    | none => true
    | some op => (List.range (width s.mem op)).all fun c =>
      match s.step A strong t c with
      | .ok s' => explore A strong T ok n s'
      | .race => false
      | .no => true

theorem fenceSc_msgs {L : Type} (m : Mem L) (w : View L) : (fenceSc m w).1.msgs = m.msgs := rfl

theorem exec_width {strong : Bool} {t c : Nat} {op : Op L} {m : Mem L} {w : View L} (h : exec strong t c op m w ≠ .no) :
    ∃ c' < width m op, exec strong t c op m w = exec strong t c' op m w := by
  cases op with
  | load o l =>
    refine ⟨c, ?_, rfl⟩
    simp only [exec] at h
    split at h
    · exact absurd rfl h
    · rename_i x hx; exact (List.getElem?_eq_some_iff.1 hx).1
  | rmw o l f =>
    refine ⟨c, ?_, rfl⟩
    simp only [width]
    have key : ∀ (m' : Mem L) (w' : View L), execRmw c o l f m' w' ≠ .no → c < (m'.msgs l).length := by
      intro m' w' h'
      simp only [execRmw] at h'
      split at h'
      · exact absurd rfl h'
      · rename_i x hx; exact (List.getElem?_eq_some_iff.1 hx).1
    simp only [exec] at h
    split at h
    · refine fenceSc_msgs m w ▸ key _ (fenceSc m w).2 fun e => h ?_
      rw [e]
    · exact key _ _ h
  | store o l v => exact ⟨0, by simp [width], rfl⟩
  | fence o => exact ⟨0, by simp [width], rfl⟩
  | read l => exact ⟨0, by simp [width], rfl⟩
  | write l v => exact ⟨0, by simp [width], rfl⟩

/-- `explore` is complete. -/
theorem explore_sound {A : Auto L S} {strong : Bool} {T : Nat} {ok : St L S → Bool} {n : Nat} {s : St L S}
    (hT : ∀ t, T ≤ t → A.op (s.th t) = none) (h : explore A strong T ok n s = true) (sched : List (Nat × Nat)) :
    match s.run A strong sched with
    | .ok s' => ok s' = true
    | .race => False
    | .no => True := by
  induction sched generalizing n s with
  | nil =>
    cases n <;> simp only [explore, Bool.and_eq_true] at h <;> exact h.1
  | cons x l ih =>
    obtain ⟨t, c⟩ := x
    simp only [St.run]
    cases hop : A.op (s.th t) with
    | none => simp [St.step, hop]
    | some op =>
      have ht : t < T := Nat.lt_of_not_le fun hh => by rw [hT t hh] at hop; cases hop
      cases n with
      | zero =>
        simp only [explore, Bool.and_eq_true, List.all_eq_true, List.mem_range] at h
        have := h.2 t ht
        rw [hop] at this; cases this
      | succ n =>
        simp only [explore, Bool.and_eq_true, List.all_eq_true, List.mem_range] at h
        have h2 := h.2 t ht
        rw [hop] at h2
        simp only [List.all_eq_true, List.mem_range] at h2
        by_cases hno : exec strong t c op s.mem (s.view t) = .no
        · simp [St.step, hop, hno]
        · obtain ⟨c', hc', he⟩ := exec_width hno
          have e : s.step A strong t c = s.step A strong t c' := by simp only [St.step, hop, he]
          have h3 := h2 c' hc'
          rw [e]
          cases hs : s.step A strong t c' with
          | no => trivial
          | race => rw [hs] at h3; cases h3
          | ok s' =>
            rw [hs] at h3
            refine ih (fun t' ht' => ?_) h3
            have hne : t' ≠ t := by omega
            simp only [St.step, hop] at hs
            split at hs <;> cases hs
            simp only [hne, if_false]
            exact hT t' ht'

end

/-- Two threads with programs on numbered objects, all of them zero. -/
def two (p q : Prog Nat Unit) : St Nat (Prog Nat Unit) := .init (fun _ => 0) fun t => if t = 0 then p else if t = 1 then q else .ret ()

/-- Some execution has a data race. -/
def Races (strong : Bool) (s : St Nat (Prog Nat Unit)) : Prop := ∃ sched, s.run (Prog.auto Nat) strong sched = .race

/-- Some execution ends in a state with `ok`. -/
def Can (strong : Bool) (s : St Nat (Prog Nat Unit)) (ok : St Nat (Prog Nat Unit) → Bool) : Prop :=
  ∃ sched s', s.run (Prog.auto Nat) strong sched = .ok s' ∧ ok s' = true

theorem two_idle {p q : Prog Nat Unit} : ∀ t, 2 ≤ t → (Prog.auto Nat).op ((two p q).th t) = none := by
  intro t ht
  have h0 : t ≠ 0 := by omega
  have h1 : t ≠ 1 := by omega
  simp [two, St.init, h0, h1, Prog.auto]

theorem not_races {strong : Bool} {p q : Prog Nat Unit} (n : Nat)
    (h : explore (Prog.auto Nat) strong 2 (fun _ => true) n (two p q) = true) : ¬ Races strong (two p q) := by
  rintro ⟨sched, hs⟩
  have := explore_sound two_idle h sched
  rw [hs] at this; exact this

theorem cannot {strong : Bool} {p q : Prog Nat Unit} {ok : St Nat (Prog Nat Unit) → Bool} (n : Nat)
    (h : explore (Prog.auto Nat) strong 2 (fun s => !ok s) n (two p q) = true) : ¬ Can strong (two p q) ok := by
  rintro ⟨sched, s', hs, hok⟩
  have := explore_sound two_idle h sched
  rw [hs] at this; simp [hok] at this

theorem races {strong : Bool} {s : St Nat (Prog Nat Unit)} (sched : List (Nat × Nat))
    (h : (match s.run (Prog.auto Nat) strong sched with | .race => true | _ => false) = true) : Races strong s := by
  refine ⟨sched, ?_⟩
  split at h
  · assumption
  · cases h

theorem can {strong : Bool} {s : St Nat (Prog Nat Unit)} {ok : St Nat (Prog Nat Unit) → Bool} (sched : List (Nat × Nat))
    (h : (match s.run (Prog.auto Nat) strong sched with | .ok s' => ok s' | _ => false) = true) : Can strong s ok := by
  split at h
  · rename_i s' hs; exact ⟨sched, s', hs, h⟩
  · cases h

/-! ### Message passing -/

/-- A thread writes object 0 and then raises flag 1; another one reads object 0 if it sees the flag. -/
def passing (o o' : Order) : St Nat (Prog Nat Unit) :=
  two (.op (.write 0 7) fun _ => .op (.store o 1 1) fun _ => .ret ())
    (.op (.load o' 1) fun v => if v = 1 then .op (.read 0) fun _ => .ret () else .ret ())

/-- The flag must be raised with release (or acq_rel, seq_cst) and looked at with acquire (or acq_rel, seq_cst). -/
theorem litmus_message_passing (strong : Bool) (o o' : Order) :
    Races strong (passing o o') ↔ ¬ ((o = .rel ∨ o = .ar ∨ o = .sc) ∧ (o' = .acq ∨ o' = .ar ∨ o' = .sc)) := by
  by_cases h : (o = .rel ∨ o = .ar ∨ o = .sc) ∧ (o' = .acq ∨ o' = .ar ∨ o' = .sc)
  · simp only [h, and_self, not_true, iff_false]
    refine not_races 4 ?_
    rcases h with ⟨rfl | rfl | rfl, rfl | rfl | rfl⟩ <;> cases strong <;> decide +kernel
  · simp only [h, not_false_eq_true, iff_true]
    refine races [(0, 0), (0, 0), (1, 1), (1, 0)] ?_
    revert h
    cases o <;> cases o' <;> cases strong <;> decide +kernel

/-- With a read-modify-write that raises the flag. -/
def passingRmw (o o' : Order) : St Nat (Prog Nat Unit) :=
  two (.op (.write 0 7) fun _ => .op (.rmw o 1 fun x => some (x + 1)) fun _ => .ret ())
    (.op (.rmw o' 1 fun x => some (x + 1)) fun v => if v = 1 then .op (.read 0) fun _ => .ret () else .ret ())

theorem litmus_message_passing_rmw (o o' : Order) :
    Races false (passingRmw o o') ↔ ¬ ((o = .rel ∨ o = .ar ∨ o = .sc) ∧ (o' = .acq ∨ o' = .ar ∨ o' = .sc)) := by
  by_cases h : (o = .rel ∨ o = .ar ∨ o = .sc) ∧ (o' = .acq ∨ o' = .ar ∨ o' = .sc)
  · simp only [h, and_self, not_true, iff_false]
    refine not_races 4 ?_
    rcases h with ⟨rfl | rfl | rfl, rfl | rfl | rfl⟩ <;> decide +kernel
  · simp only [h, not_false_eq_true, iff_true]
    refine races [(0, 0), (0, 0), (1, 1), (1, 0)] ?_
    revert h
    cases o <;> cases o' <;> decide +kernel

/-- With fences. -/
def passingFences (o o' : Order) : St Nat (Prog Nat Unit) :=
  two (.op (.write 0 7) fun _ => .op (.fence o) fun _ => .op (.store .rlx 1 1) fun _ => .ret ())
    (.op (.load .rlx 1) fun v => .op (.fence o') fun _ => if v = 1 then .op (.read 0) fun _ => .ret () else .ret ())

theorem litmus_message_passing_fences (strong : Bool) (o o' : Order) :
    Races strong (passingFences o o') ↔ ¬ ((o = .rel ∨ o = .ar ∨ o = .sc) ∧ (o' = .acq ∨ o' = .ar ∨ o' = .sc)) := by
  by_cases h : (o = .rel ∨ o = .ar ∨ o = .sc) ∧ (o' = .acq ∨ o' = .ar ∨ o' = .sc)
  · simp only [h, and_self, not_true, iff_false]
    refine not_races 6 ?_
    rcases h with ⟨rfl | rfl | rfl, rfl | rfl | rfl⟩ <;> cases strong <;> decide +kernel
  · simp only [h, not_false_eq_true, iff_true]
    refine races [(0, 0), (0, 0), (0, 0), (1, 1), (1, 0), (1, 0)] ?_
    revert h
    cases o <;> cases o' <;> cases strong <;> decide +kernel

/-- A third thread counts the flag up with a relaxed read-modify-write. -/
def releaseSequence (o : Order) (mid : Op Nat) : St Nat (Prog Nat Unit) :=
  .init (fun _ => 0) fun t =>
    if t = 0 then .op (.write 0 7) fun _ => .op (.store .rel 1 1) fun _ => .ret ()
    else if t = 1 then .op (.load o 1) fun v => if v = 2 then .op (.read 0) fun _ => .ret () else .ret ()
    else if t = 2 then .op mid fun _ => .ret ()
    else .ret ()

/-- A relaxed read-modify-write continues the release sequence, -/
theorem litmus_release_sequence (strong : Bool) :
    ¬ Races strong (releaseSequence .acq (.rmw .rlx 1 fun x => if x = 1 then some 2 else none)) := by
  rintro ⟨sched, hs⟩
  have := explore_sound (A := Prog.auto Nat) (strong := strong) (T := 3) (ok := fun _ => true) (n := 5) ?_
    (by cases strong <;> decide +kernel) sched (s := releaseSequence .acq (.rmw .rlx 1 fun x => if x = 1 then some 2 else none))
  · rw [hs] at this; exact this
  · intro t ht
    have h0 : t ≠ 0 := by omega
    have h1 : t ≠ 1 := by omega
    have h2 : t ≠ 2 := by omega
    simp [releaseSequence, St.init, h0, h1, h2, Prog.auto]

/-- a store of another thread does not. -/
theorem litmus_release_sequence_store (strong : Bool) : Races strong (releaseSequence .acq (.store .rlx 1 2)) :=
  races [(0, 0), (0, 0), (2, 0), (1, 2), (1, 0)] (by cases strong <;> decide +kernel)

/-! ### Store buffering -/

/-- Each thread raises its flag and looks at that of the other; what it sees plus one is noted. -/
def buffering (o o' : Order) : St Nat (Prog Nat Unit) :=
  two (.op (.store .rlx 0 1) fun _ => .op (.fence o) fun _ => .op (.load .rlx 1) fun v => .op (.write 2 (v + 1)) fun _ => .ret ())
    (.op (.store .rlx 1 1) fun _ => .op (.fence o') fun _ => .op (.load .rlx 0) fun v => .op (.write 3 (v + 1)) fun _ => .ret ())

/-- Both may miss the flag of the other, unless both have a seq_cst fence. -/
theorem litmus_store_buffering (strong : Bool) (o o' : Order) :
    Can strong (buffering o o') (fun s => decide (s.mem.cell 2 = 1) && decide (s.mem.cell 3 = 1)) ↔ ¬ (o = .sc ∧ o' = .sc) := by
  by_cases h : o = .sc ∧ o' = .sc
  · simp only [h, and_self, not_true, iff_false]
    exact cannot 8 (by cases strong <;> decide +kernel)
  · simp only [h, not_false_eq_true, iff_true]
    refine can [(0, 0), (1, 0), (0, 0), (0, 0), (0, 0), (1, 0), (1, 0), (1, 0)] ?_
    revert h
    cases o <;> cases o' <;> cases strong <;> decide +kernel

/-! ### Coherence and atomicity -/

/-- One thread stores 1 and then 2; another one loads twice and notes what it gets. -/
def coherence (o o' : Order) : St Nat (Prog Nat Unit) :=
  two (.op (.store o 0 1) fun _ => .op (.store o 0 2) fun _ => .ret ())
    (.op (.load o' 0) fun v => .op (.load o' 0) fun v' => .op (.write 1 v) fun _ => .op (.write 2 v') fun _ => .ret ())

/-- What is read never goes back in time, whatever the orders. -/
theorem litmus_coherence (strong : Bool) (o o' : Order) :
    ¬ Can strong (coherence o o') (fun s => decide (s.mem.cell 2 < s.mem.cell 1) && !(s.mem.accs 2).isEmpty) :=
  cannot 6 (by cases o <;> cases o' <;> cases strong <;> decide +kernel)

/-- It may be an old value although a newer one exists. -/
theorem litmus_stale (strong : Bool) (o o' : Order) :
    Can strong (coherence o o') (fun s => decide (s.mem.cell 1 = 0) && (decide (s.mem.cell 2 = 1) && decide ((s.mem.msgs 0).length = 3))) :=
  can [(0, 0), (0, 0), (1, 0), (1, 1), (1, 0), (1, 0)] (by cases o <;> cases o' <;> cases strong <;> decide +kernel)

/-- Two threads count up and note what they find. -/
def counting (o o' : Order) : St Nat (Prog Nat Unit) :=
  two (.op (.rmw o 0 fun x => some (x + 1)) fun v => .op (.write 1 v) fun _ => .ret ())
    (.op (.rmw o' 0 fun x => some (x + 1)) fun v => .op (.write 2 v) fun _ => .ret ())

/-- They never find the same, whatever the orders. -/
theorem litmus_atomicity (strong : Bool) (o o' : Order) :
    ¬ Can strong (counting o o') (fun s => decide (s.mem.cell 1 = s.mem.cell 2) && (!(s.mem.accs 1).isEmpty && !(s.mem.accs 2).isEmpty)) :=
  cannot 4 (by cases o <;> cases o' <;> cases strong <;> decide +kernel)

/-! ### Data races -/

/-- Two threads that access the same object. -/
def touching (a b : Op Nat) : St Nat (Prog Nat Unit) := two (.op a fun _ => .ret ()) (.op b fun _ => .ret ())

/-- It is a data race unless both read. -/
theorem litmus_race (strong : Bool) : Races strong (touching (.write 0 1) (.read 0)) ∧ Races strong (touching (.read 0) (.write 0 1)) ∧
    Races strong (touching (.write 0 1) (.write 0 1)) ∧ ¬ Races strong (touching (.read 0) (.read 0)) := by
  refine ⟨races [(0, 0), (1, 0)] ?_, races [(0, 0), (1, 0)] ?_, races [(0, 0), (1, 0)] ?_, not_races 2 ?_⟩ <;> cases strong <;> decide +kernel

end CoEcs.Props
