import Verif.Model.Archetype

/-!
# Row loops of a chunk
-/

namespace CoEcs
variable {V : Type}

/-- The cell after its object has been moved from. -/
def Cell.leave : Cell V → Cell V
  | .live v => v.leave
  | c => c

@[simp] theorem Row.set_same (r : Row V) (b : BlockId) (c : Cell V) : r.set b c b = c := by simp [Row.set]
theorem Row.set_ne (r : Row V) {b b' : BlockId} (c : Cell V) (h : b' ≠ b) : r.set b c b' = r b' := by
  simp [Row.set, h]

theorem Cell.leave_occupied {c : Cell V} (h : c.occupied = true) : c.leave.occupied = true := by
  cases c with
  | raw => cases h
  | moved => rfl
  | live v => cases v <;> rfl

theorem Cell.read_some {c : Cell V} {v : Val V} (h : c.read = some v) : c = .live v := by
  cases c <;> simp_all [Cell.read]

/-- Number of objects added to a block by going once through `l`. -/
def one (l : List BlockId) (b : BlockId) : Nat := if b ∈ l then 1 else 0

namespace Row

theorem destroy_spec : ∀ (bs : List BlockId) (r : Row V) (t : Tally), bs.Nodup → (∀ b ∈ bs, (r b).occupied = true) →
    ∃ r' t', destroy bs r t = some (r', t') ∧ (∀ b, r' b = if b ∈ bs then .raw else r b) ∧
      (∀ b, t'.built b = t.built b) ∧ (∀ b, t'.freed b = t.freed b + one bs b) ∧ t'.dup = t.dup := by
  intro bs
  induction bs with
  | nil => intro r t _ _; exact ⟨r, t, rfl, by simp, by simp, by simp [one], rfl⟩
  | cons a bs ih =>
    intro r t hnd ho
    rw [List.nodup_cons] at hnd
    obtain ⟨r', t', h1, h2, h3, h4, h5⟩ := ih (r.set a .raw) (t.free a) hnd.2 (by
      intro b hb
      have hne : b ≠ a := fun h => hnd.1 (h ▸ hb)
      rw [Row.set_ne _ _ hne]
      exact ho b (List.mem_cons_of_mem _ hb))
    refine ⟨r', t', by simp [destroy, ho a (List.mem_cons_self ..), h1], ?_, ?_, ?_, by rw [h5]; rfl⟩
    · intro b
      rw [h2]
      by_cases hb : b = a
      · subst hb; simp [hnd.1]
      · simp [Row.set_ne _ _ hb, hb]
    · intro b; rw [h3]; rfl
    · intro b
      rw [h4]
      by_cases hb : b = a
      · subst hb; simp [Tally.free, one, hnd.1]
      · simp [Tally.free, one, hb]

theorem moveAssign_spec : ∀ (bs : List BlockId) (s d : Row V), bs.Nodup → (∀ b ∈ bs, ∃ v, s b = .live v) →
    (∀ b ∈ bs, (d b).occupied = true) →
    ∃ s' d', moveAssign bs s d = some (s', d') ∧ (∀ b, s' b = if b ∈ bs then (s b).leave else s b) ∧
      (∀ b, d' b = if b ∈ bs then s b else d b) := by
  intro bs
  induction bs with
  | nil => intro s d _ _ _; exact ⟨s, d, rfl, by simp, by simp⟩
  | cons a bs ih =>
    intro s d hnd hs hd
    rw [List.nodup_cons] at hnd
    obtain ⟨v, hv⟩ := hs a (List.mem_cons_self ..)
    have hne : ∀ b ∈ bs, b ≠ a := fun b hb h => hnd.1 (h ▸ hb)
    obtain ⟨s', d', h1, h2, h3⟩ := ih (s.set a v.leave) (d.set a (.live v)) hnd.2
      (by intro b hb; rw [Row.set_ne _ _ (hne b hb)]; exact hs b (List.mem_cons_of_mem _ hb))
      (by intro b hb; rw [Row.set_ne _ _ (hne b hb)]; exact hd b (List.mem_cons_of_mem _ hb))
    refine ⟨s', d', ?_, ?_, ?_⟩
    · simp [moveAssign, hv, Cell.read, hd a (List.mem_cons_self ..), h1]
    · intro b
      rw [h2]
      by_cases hb : b = a
      · subst hb; simp [hnd.1, hv, Cell.leave]
      · simp [Row.set_ne _ _ hb, hb]
    · intro b
      rw [h3]
      by_cases hb : b = a
      · subst hb; simp [hnd.1, hv]
      · simp [Row.set_ne _ _ hb, hb]

theorem build_built (t : Tally) (a : BlockId) (o : Bool) (b : BlockId) :
    (t.build a o).built b = t.built b + one [a] b := by
  simp only [Tally.build, one, List.mem_singleton]
  split <;> simp

theorem moveConstruct_spec (ds : List BlockId) : ∀ (bs : List BlockId) (s d : Row V) (t : Tally), bs.Nodup →
    (∀ b ∈ bs, b ∈ ds → ∃ v, s b = .live v) →
    ∃ s' d' t', moveConstruct ds bs s d t = some (s', d', t') ∧
      (∀ b, s' b = if b ∈ bs ∧ b ∈ ds then (s b).leave else s b) ∧
      (∀ b, d' b = if b ∈ bs ∧ b ∈ ds then s b else d b) ∧
      (∀ b, t'.built b = t.built b + (if b ∈ bs ∧ b ∈ ds then 1 else 0)) ∧ (∀ b, t'.freed b = t.freed b) ∧
      ((∀ b ∈ bs, d b = .raw) → t'.dup = t.dup) := by
  intro bs
  induction bs with
  | nil => intro s d t _ _; exact ⟨s, d, t, rfl, by simp, by simp, by simp, by simp, by simp⟩
  | cons a bs ih =>
    intro s d t hnd hs
    rw [List.nodup_cons] at hnd
    have hne : ∀ b ∈ bs, b ≠ a := fun b hb h => hnd.1 (h ▸ hb)
    by_cases ha : a ∈ ds
    · obtain ⟨v, hv⟩ := hs a (List.mem_cons_self ..) ha
      obtain ⟨s', d', t', h1, h2, h3, h4, h5, h6⟩ := ih (s.set a v.leave) (d.construct t a v).1 (d.construct t a v).2
        hnd.2 (by intro b hb hbd; rw [Row.set_ne _ _ (hne b hb)]; exact hs b (List.mem_cons_of_mem _ hb) hbd)
      refine ⟨s', d', t', ?_, ?_, ?_, ?_, ?_, ?_⟩
      · simp [moveConstruct, ha, hv, Cell.read, h1]
      · intro b
        rw [h2]
        by_cases hb : b = a
        · subst hb; simp [hnd.1, hv, Cell.leave, ha]
        · simp [Row.set_ne _ _ hb, hb]
      · intro b
        rw [h3]
        by_cases hb : b = a
        · subst hb; simp [hnd.1, hv, ha, construct]
        · simp [construct, Row.set_ne _ _ hb, hb]
      · intro b
        rw [h4]
        by_cases hb : b = a
        · subst hb; simp [hnd.1, ha, construct, Tally.build]
        · simp [construct, Tally.build, hb]
      · intro b; rw [h5]; rfl
      · intro hr
        rw [h6]
        · simp [construct, Tally.build, hr a (List.mem_cons_self ..), Cell.occupied]
        · intro b hb
          simp only [construct]
          rw [Row.set_ne _ _ (hne b hb)]
          exact hr b (List.mem_cons_of_mem _ hb)
    · obtain ⟨s', d', t', h1, h2, h3, h4, h5, h6⟩ := ih s d t hnd.2 (by
        intro b hb hbd; exact hs b (List.mem_cons_of_mem _ hb) hbd)
      have hiff : ∀ b, (b ∈ a :: bs ∧ b ∈ ds) ↔ (b ∈ bs ∧ b ∈ ds) := by
        intro b
        constructor
        · rintro ⟨hb, hd⟩
          rcases List.mem_cons.1 hb with rfl | hb
          · exact absurd hd ha
          · exact ⟨hb, hd⟩
        · rintro ⟨hb, hd⟩; exact ⟨List.mem_cons_of_mem _ hb, hd⟩
      refine ⟨s', d', t', by simp [moveConstruct, ha, h1], ?_, ?_, ?_, h5, ?_⟩
      · intro b; rw [h2]; simp only [hiff]
      · intro b; rw [h3]; simp only [hiff]
      · intro b; rw [h4]; simp only [hiff]
      · intro hr; exact h6 fun b hb => hr b (List.mem_cons_of_mem _ hb)

/-- Copying when every component is copyable. -/
theorem copyConstruct_ok (ds : List BlockId) (s : Row V) : ∀ (bs : List (BlockId × Bool)) (d : Row V) (t : Tally),
    (bs.map Prod.fst).Nodup → (∀ x ∈ bs, x.1 ∈ ds) → (∀ x ∈ bs, ∃ v, s x.1 = .live v) → (∀ x ∈ bs, x.2 = true) →
    ∃ d' t', copyConstruct ds s bs d t = .ok (d', t') () ∧
      (∀ b, d' b = if b ∈ bs.map Prod.fst then s b else d b) ∧
      (∀ b, t'.built b = t.built b + one (bs.map Prod.fst) b) ∧ (∀ b, t'.freed b = t.freed b) ∧
      ((∀ x ∈ bs, d x.1 = .raw) → t'.dup = t.dup) := by
  intro bs
  induction bs with
  | nil => intro d t _ _ _ _; exact ⟨d, t, rfl, by simp, by simp [one], by simp, by simp⟩
  | cons a bs ih =>
    obtain ⟨a, ca⟩ := a
    intro d t hnd hin hs hc
    rw [List.map_cons, List.nodup_cons] at hnd
    obtain ⟨v, hv⟩ := hs _ (List.mem_cons_self ..)
    have ha := hin _ (List.mem_cons_self ..)
    have hca := hc _ (List.mem_cons_self ..)
    simp only at hv ha hca hnd
    obtain ⟨d', t', h1, h2, h3, h4, h5⟩ := ih (d.construct t a v).1 (d.construct t a v).2 hnd.2
      (fun x hx => hin x (List.mem_cons_of_mem _ hx)) (fun x hx => hs x (List.mem_cons_of_mem _ hx))
      (fun x hx => hc x (List.mem_cons_of_mem _ hx))
    refine ⟨d', t', ?_, ?_, ?_, ?_, ?_⟩
    · simp [copyConstruct, ha, hca, hv, Cell.read, h1]
    · intro b
      rw [h2]
      by_cases hb : b = a
      · subst hb; simp [hnd.1, hv, construct]
      · rw [List.map_cons]; simp only [construct, Row.set_ne _ _ hb, List.mem_cons, hb, false_or]
    · intro b
      rw [h3]
      by_cases hb : b = a
      · subst hb; simp only [List.map_cons, one, hnd.1, construct, Tally.build]; simp
      · rw [List.map_cons]; simp only [construct, Tally.build, one, List.mem_cons, hb, false_or, if_false]
    · intro b; rw [h4]; rfl
    · intro hr
      rw [h5]
      · have := hr _ (List.mem_cons_self ..)
        simp only at this
        simp [construct, Tally.build, this, Cell.occupied]
      · intro x hx
        simp only [construct]
        have hne : x.1 ≠ a := fun h => hnd.1 (h ▸ List.mem_map_of_mem hx)
        rw [Row.set_ne _ _ hne]
        exact hr x (List.mem_cons_of_mem _ hx)

/-- Copying never runs into undefined behaviour when the source cells are live, and changes only cells
of the blocks. -/
theorem copyConstruct_throw (ds : List BlockId) (s : Row V) : ∀ (bs : List (BlockId × Bool)) (d : Row V) (t : Tally),
    (∀ x ∈ bs, x.1 ∈ ds) → (∀ x ∈ bs, ∃ v, s x.1 = .live v) → (∃ x ∈ bs, x.2 = false) →
    ∃ d' t', copyConstruct ds s bs d t = .throw (d', t') .invalidArgument := by
  intro bs
  induction bs with
  | nil => rintro d t _ _ ⟨x, hx, _⟩; simp at hx
  | cons a bs ih =>
    obtain ⟨a, ca⟩ := a
    intro d t hin hs hc
    obtain ⟨v, hv⟩ := hs _ (List.mem_cons_self ..)
    have ha := hin _ (List.mem_cons_self ..)
    simp only at hv ha
    cases ca with
    | false => exact ⟨d, t, by simp [copyConstruct, ha]⟩
    | true =>
      have hc' : ∃ x ∈ bs, x.2 = false := by
        obtain ⟨x, hx, hf⟩ := hc
        rcases List.mem_cons.1 hx with rfl | hx
        · cases hf
        · exact ⟨x, hx, hf⟩
      obtain ⟨d', t', h1⟩ := ih (d.construct t a v).1 (d.construct t a v).2
        (fun x hx => hin x (List.mem_cons_of_mem _ hx)) (fun x hx => hs x (List.mem_cons_of_mem _ hx)) hc'
      exact ⟨d', t', by simp [copyConstruct, ha, hv, Cell.read, h1]⟩

/-- Value given to component `c` by an argument list. -/
def argVal (args : List (Nat × V)) (c : Nat) : Option V := (args.find? fun x => x.1 == c).map Prod.snd

theorem emplaceArgs_spec (blocks : List BlockId) : ∀ (args : List (Nat × V)) (r : Row V) (t : Tally),
    (args.map Prod.fst).Nodup → (∀ x ∈ args, some x.1 ∈ blocks) →
    ∃ r' t', emplaceArgs blocks args r t = .ok (r', t') () ∧ r' none = r none ∧
      (∀ c, r' (some c) = match argVal args c with | some v => .live (.comp v) | none => r (some c)) ∧
      (∀ b, t'.built b = t.built b + one (args.map fun x => some x.1) b) ∧ (∀ b, t'.freed b = t.freed b) ∧
      ((∀ x ∈ args, r (some x.1) = .raw) → t'.dup = t.dup) := by
  intro args
  induction args with
  | nil => intro r t _ _; exact ⟨r, t, rfl, rfl, by simp [argVal], by simp [one], by simp, by simp⟩
  | cons a args ih =>
    obtain ⟨a, va⟩ := a
    intro r t hnd hin
    rw [List.map_cons, List.nodup_cons] at hnd
    have ha := hin _ (List.mem_cons_self ..)
    simp only at ha hnd
    obtain ⟨r', t', h1, h2, h3, h4, h5, h6⟩ := ih (r.construct t (some a) (.comp va)).1
      (r.construct t (some a) (.comp va)).2 hnd.2 (fun x hx => hin x (List.mem_cons_of_mem _ hx))
    have hnone : argVal args a = none := by
      simp only [argVal, Option.map_eq_none_iff, List.find?_eq_none, beq_iff_eq]
      intro x hx he
      exact hnd.1 (he ▸ List.mem_map_of_mem hx)
    refine ⟨r', t', ?_, ?_, ?_, ?_, ?_, ?_⟩
    · simp [emplaceArgs, ha, h1]
    · rw [h2]; simp only [construct]; rw [Row.set_ne _ _ (by simp)]
    · intro c
      rw [h3]
      by_cases hc : c = a
      · subst hc
        rw [hnone]
        simp [argVal, construct]
      · have : argVal ((a, va) :: args) c = argVal args c := by
          unfold argVal
          rw [List.find?_cons_of_neg]
          simp only [beq_iff_eq]; exact fun h => hc h.symm
        rw [this]
        simp only [construct]
        rw [Row.set_ne _ _ (by simpa using hc)]
    · intro b
      rw [h4]
      have hnot : (some a : BlockId) ∉ args.map fun x => some x.1 := by
        intro hm
        obtain ⟨x, hx, he⟩ := List.mem_map.1 hm
        simp only [Option.some.injEq] at he
        exact hnd.1 (he ▸ List.mem_map_of_mem hx)
      by_cases hb : b = some a
      · subst hb
        simp only [List.map_cons, one, hnot, construct, Tally.build]
        simp
      · rw [List.map_cons]
        simp only [construct, Tally.build, one, List.mem_cons, hb, false_or, if_false]
    · intro b; rw [h5]; rfl
    · intro hr
      rw [h6]
      · have := hr _ (List.mem_cons_self ..)
        simp only at this
        simp [construct, Tally.build, this, Cell.occupied]
      · intro x hx
        simp only [construct]
        rw [Row.set_ne _ _ (by
          simp only [ne_eq, Option.some.injEq]
          exact fun h => hnd.1 (h ▸ List.mem_map_of_mem hx))]
        exact hr x (List.mem_cons_of_mem _ hx)

end Row
end CoEcs
