import Verif.Model.Weak

/-! # The machine: knowledge only grows -/

namespace CoEcs.Weak
variable {L S : Type} [DecidableEq L]

namespace Know

/-- Less is known. -/
def Le (a b : Know L) : Prop := (∀ l, a.seen l ≤ b.seen l) ∧ ∀ t, a.done t ≤ b.done t

theorem Le.refl (a : Know L) : a.Le a := ⟨fun _ => Nat.le_refl _, fun _ => Nat.le_refl _⟩

theorem Le.trans {a b c : Know L} (h : a.Le b) (h' : b.Le c) : a.Le c :=
  ⟨fun l => Nat.le_trans (h.1 l) (h'.1 l), fun t => Nat.le_trans (h.2 t) (h'.2 t)⟩

theorem le_join_left (a b : Know L) : a.Le (a.join b) := ⟨fun _ => Nat.le_max_left .., fun _ => Nat.le_max_left ..⟩
theorem le_join_right (a b : Know L) : b.Le (a.join b) := ⟨fun _ => Nat.le_max_right .., fun _ => Nat.le_max_right ..⟩

theorem le_saw (a : Know L) (l : L) (i : Nat) : a.Le (a.saw l i) := by
  refine ⟨fun x => ?_, fun _ => Nat.le_refl _⟩
  show _ ≤ (if x = l then _ else _)
  split
  · subst_vars; exact Nat.le_max_left ..
  · exact Nat.le_refl _

theorem saw_self (a : Know L) (l : L) (i : Nat) : i ≤ (a.saw l i).seen l := by
  show _ ≤ (if l = l then _ else _)
  rw [if_pos rfl]; exact Nat.le_max_right ..

theorem le_did (a : Know L) (t n : Nat) : a.Le (a.did t n) := by
  refine ⟨fun _ => Nat.le_refl _, fun x => ?_⟩
  show _ ≤ (if x = t then _ else _)
  split
  · subst_vars; exact Nat.le_max_left ..
  · exact Nat.le_refl _

theorem did_self (a : Know L) (t n : Nat) : n ≤ (a.did t n).done t := by
  show _ ≤ (if t = t then _ else _)
  rw [if_pos rfl]; exact Nat.le_max_right ..

end Know

/-- What the thread knows grows, and what it releases either grows or becomes all it knew. -/
structure View.Le (w w' : View L) : Prop where
  cur : w.cur.Le w'.cur
  rel : w.rel.Le w'.rel ∨ w.cur.Le w'.rel

theorem View.Le.refl (w : View L) : w.Le w := ⟨.refl _, .inl (.refl _)⟩

theorem View.le_got (w : View L) (o : Order) (l : L) (c : Nat) (x : Msg L) : w.Le (w.got o l c x) := by
  refine ⟨?_, .inl (.refl _)⟩
  simp only [View.got]
  split
  · exact (Know.le_join_left ..).trans (Know.le_saw ..)
  · exact Know.le_saw ..

theorem View.got_seen (w : View L) (o : Order) (l : L) (c : Nat) (x : Msg L) : c ≤ (w.got o l c x).cur.seen l := by
  simp only [View.got]
  exact Know.saw_self ..

theorem View.got_acq (w : View L) {o : Order} (h : o.acquires = true) (l : L) (c : Nat) (x : Msg L) :
    x.know.Le (w.got o l c x).cur := by
  simp only [View.got, h, if_true]
  exact (Know.le_join_right ..).trans (Know.le_saw ..)

theorem View.le_put (w : View L) (l : L) (i : Nat) : w.Le (w.put l i) := ⟨Know.le_saw .., .inl (.refl _)⟩

theorem View.put_seen (w : View L) (l : L) (i : Nat) : i ≤ (w.put l i).cur.seen l := Know.saw_self ..

theorem fenceSc_le (m : Mem L) (w : View L) : w.Le (fenceSc m w).2 :=
  have h : w.cur.Le (fenceSc m w).2.cur := (Know.le_join_left ..).trans (Know.le_join_left ..)
  ⟨h, .inr h⟩

theorem fenceSc_sc (m : Mem L) (w : View L) (l : L) : m.sc l ≤ (fenceSc m w).1.sc l := Nat.le_max_right ..
theorem fenceSc_out (m : Mem L) (w : View L) (l : L) : w.cur.seen l ≤ (fenceSc m w).1.sc l := (fenceSc_le m w).cur.1 l
theorem fenceSc_in (m : Mem L) (w : View L) (l : L) : m.sc l ≤ (fenceSc m w).2.cur.seen l := Nat.le_max_right ..

theorem View.Le.trans {w w' w'' : View L} (h : w.Le w') (h' : w'.Le w'') : w.Le w'' := by
  refine ⟨h.cur.trans h'.cur, ?_⟩
  rcases h'.rel with h1 | h1
  · rcases h.rel with h2 | h2
    · exact .inl (h2.trans h1)
    · exact .inr (h2.trans h1)
  · exact .inr (h.cur.trans h1)

theorem access_le (t : Nat) (l : L) (wr : Bool) (m : Mem L) (w : View L) : w.Le (access t l wr m w).2 :=
  ⟨Know.le_did .., .inl (.refl _)⟩

/-- What a schedule leads to can be reached. -/
theorem Reach.run {A : Auto L S} {strong : Bool} {s0 : St L S} : ∀ {sched : List (Nat × Nat)} {s s' : St L S}, Reach A strong s0 s →
    s.run A strong sched = .ok s' → Reach A strong s0 s'
  | [], _, _, hr, h => by cases h; exact hr
  | (t, ch) :: sched, s, s', hr, h => by
    simp only [St.run] at h
    cases he : s.step A strong t ch with
    | ok s1 => rw [he] at h; exact Reach.run (hr.step he) h
    | race => rw [he] at h; cases h
    | no => rw [he] at h; cases h

end CoEcs.Weak
