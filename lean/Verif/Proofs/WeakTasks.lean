import Verif.Proofs.WeakUse
import Verif.Spec.WeakTasks

/-! # Tasks in plain memory: helper lemmas -/

namespace CoEcs.Weak

/-! ## Calls in turns, in general -/

section
variable {C σ : Type} (prog : Nat → C → P (Int × Int)) (ref : σ → C → Option (σ × (Int × Int)))

def callsProg (t : Nat) : Nat → Nat → List C → P Unit
  | _, _, [] => pure ()
  | n, k, c :: cs => do
    let a ← prog n c
    let _ ← write (noteId t k) a.1
    let _ ← write (noteGen t k) a.2
    callsProg t (n + 1) (k + 1) cs

def callsRef : σ → List C → Option (σ × List (Int × Int))
  | x, [] => some (x, [])
  | x, c :: cs => (ref x c).bind fun r => (callsRef r.1 cs).map fun r' => (r'.1, r.2 :: r'.2)

def callsRefAll : σ → List (List C) → Option (σ × List (List (Int × Int)))
  | x, [] => some (x, [])
  | x, cs :: css => (callsRef ref x cs).bind fun r => (callsRefAll r.1 css).map fun r' => (r'.1, r.2 :: r'.2)

/-- A way to keep states in memory that the first `N` calls respect. -/
structure CallRep (N : Nat) (R : Nat → σ → Store Loc → Prop) : Prop where
  step : ∀ {n x s c x' a}, n < N → R n x s → ref x c = some (x', a) → ∃ s', (prog n c).seq s = (a, s') ∧ R (n + 1) x' s' ∧ NotesEq s s'
  frame : ∀ {n x s s'}, R n x s → (∀ l, l ≠ turn → s'.atom l = s.atom l) →
    (∀ l, (∀ t k, l ≠ noteId t k ∧ l ≠ noteGen t k) → s'.cell l = s.cell l) → R n x s'

variable {prog ref} {N : Nat} {R : Nat → σ → Store Loc → Prop}

theorem CallRep.calls (H : CallRep prog ref N R) : ∀ (cs : List C) {n : Nat} {x x' : σ} {as : List (Int × Int)} {s : Store Loc} (t k : Nat), n + cs.length ≤ N → R n x s →
    callsRef ref x cs = some (x', as) →
    R (n + cs.length) x' ((callsProg prog t n k cs).seq s).2 ∧ NotedFrom ((callsProg prog t n k cs).seq s).2 t k as ∧
    ∀ t' k', t' ≠ t ∨ k' < k → ((callsProg prog t n k cs).seq s).2.cell (noteId t' k') = s.cell (noteId t' k') ∧
      ((callsProg prog t n k cs).seq s).2.cell (noteGen t' k') = s.cell (noteGen t' k')
  | [], n, x, x', as, s, t, k, _, h, hc => by
    simp only [callsRef, Option.some.injEq, Prod.mk.injEq] at hc
    obtain ⟨rfl, rfl⟩ := hc
    exact ⟨h, fun i a hi => by simp at hi, fun _ _ _ => ⟨rfl, rfl⟩⟩
  | c :: cs, n, x, x', as, s, t, k, hN, h, hc => by
    simp only [List.length_cons] at hN
    simp only [callsRef, Option.bind_eq_some_iff, Option.map_eq_some_iff] at hc
    obtain ⟨⟨x1, a⟩, hc1, ⟨x2, as'⟩, hc2, e⟩ := hc
    cases e
    obtain ⟨s1, e1, h1, n1⟩ := H.step (by omega) h hc1
    have h2 : R (n + 1) x1 ((s1.setCell (noteId t k) a.1).setCell (noteGen t k) a.2) :=
      H.frame h1 (fun _ _ => rfl) fun l hl => by simp [Store.setCell, (hl t k).1, (hl t k).2]
    obtain ⟨h3, h4, h5⟩ := H.calls cs t (k + 1) (by omega) h2 hc2
    have e2 : (callsProg prog t n k (c :: cs)).seq s =
        (callsProg prog t (n + 1) (k + 1) cs).seq ((s1.setCell (noteId t k) a.1).setCell (noteGen t k) a.2) := by
      simp only [callsProg, Prog.seq_bind', e1, seq_write]
    rw [e2]
    refine ⟨?_, ?_, ?_⟩
    · rw [show n + (c :: cs).length = n + 1 + cs.length by simp; omega]; exact h3
    · intro i b hi
      cases i with
      | zero =>
        simp only [List.getElem?_cons_zero, Option.some.injEq] at hi
        subst hi
        have := h5 t k (.inr (by omega))
        simp only [Nat.add_zero]
        rw [this.1, this.2]
        simp [Store.setCell, noteId, noteGen]
      | succ i =>
        have := h4 i b (by simpa using hi)
        rw [show k + 1 + i = k + (i + 1) by omega] at this
        exact this
    · intro t' k' hk
      have := h5 t' k' (by omega)
      rw [this.1, this.2, ← (n1 t' k').1, ← (n1 t' k').2]
      have hne : ¬ (t' = t ∧ k' = k) := by omega
      simp [Store.setCell, noteId, noteGen, hne]

/-- The programs of the threads from number `j` on, when `n` calls have been made. -/
def callsProgsFrom (prog : Nat → C → P (Int × Int)) (j : Nat) : Nat → List (List C) → List (P Unit)
  | _, [] => []
  | n, cs :: css => handing .rel turn j (callsProg prog j n 0 cs) :: callsProgsFrom prog (j + 1) (n + cs.length) css

theorem callsProgsFrom_eq : ∀ (css : List (List C)) (j n : Nat), callsProgsFrom prog j n css =
    css.mapIdx fun t cs => handing .rel turn (j + t) (callsProg prog (j + t) (n + (css.take t).flatten.length) 0 cs)
  | [], _, _ => rfl
  | cs :: css, j, n => by
    rw [callsProgsFrom, callsProgsFrom_eq css, List.mapIdx_cons]
    simp only [List.take_zero, List.flatten_nil, List.length_nil, Nat.add_zero, List.cons.injEq, true_and]
    apply List.ext_getElem?
    intro i
    simp only [List.getElem?_mapIdx, List.take_succ_cons, List.flatten_cons, List.length_append]
    rw [show j + 1 + i = j + (i + 1) by omega, Nat.add_assoc]

theorem CallRep.callsAll (H : CallRep prog ref N R) : ∀ (css : List (List C)) {n : Nat} {x x' : σ} {ass : List (List (Int × Int))} {s : Store Loc} (j : Nat),
    n + css.flatten.length ≤ N → R n x s → callsRefAll ref x css = some (x', ass) →
    (R (n + css.flatten.length) x' (seqAll (callsProgsFrom prog j n css) s)) ∧
    (∀ (i : Nat) as, ass[i]? = some as → NotedFrom (seqAll (callsProgsFrom prog j n css) s) (j + i) 0 as) ∧
    ∀ t k, t < j → (seqAll (callsProgsFrom prog j n css) s).cell (noteId t k) = s.cell (noteId t k) ∧
      (seqAll (callsProgsFrom prog j n css) s).cell (noteGen t k) = s.cell (noteGen t k)
  | [], n, x, x', ass, s, j, _, h, hc => by
    simp only [callsRefAll, Option.some.injEq, Prod.mk.injEq] at hc
    obtain ⟨rfl, rfl⟩ := hc
    exact ⟨h, fun i a hi => by simp at hi, fun _ _ _ => ⟨rfl, rfl⟩⟩
  | cs :: css, n, x, x', ass, s, j, hN, h, hc => by
    simp only [List.flatten_cons, List.length_append] at hN
    simp only [callsRefAll, Option.bind_eq_some_iff, Option.map_eq_some_iff] at hc
    obtain ⟨⟨x1, as⟩, hc1, ⟨x2, ass'⟩, hc2, e⟩ := hc
    cases e
    obtain ⟨h1, h2, h3⟩ := H.calls cs j 0 (by omega) h hc1
    have h1' : R (n + cs.length) x1 (((callsProg prog j n 0 cs).seq s).2.setAtom turn ((j + 1 : Nat) : Int)) :=
      H.frame h1 (fun l hl => by simp [Store.setAtom, hl]) (fun _ _ => rfl)
    obtain ⟨h4, h5, h6⟩ := H.callsAll css (j + 1) (by omega) h1' hc2
    have e : seqAll (callsProgsFrom prog j n (cs :: css)) s =
        seqAll (callsProgsFrom prog (j + 1) (n + cs.length) css) (((callsProg prog j n 0 cs).seq s).2.setAtom turn ((j + 1 : Nat) : Int)) := by
      simp only [callsProgsFrom, seqAll, handing_seq]
    rw [e]
    refine ⟨?_, ?_, ?_⟩
    · rw [List.flatten_cons, List.length_append, ← Nat.add_assoc]; exact h4
    · intro i as' hi
      cases i with
      | zero =>
        simp only [List.getElem?_cons_zero, Option.some.injEq] at hi
        subst hi
        intro k a hk
        have := h6 j (0 + k) (by omega)
        simp only [Nat.zero_add, Nat.add_zero] at this ⊢
        rw [this.1, this.2]
        have := h2 k a hk
        simp only [Nat.zero_add] at this
        exact this
      | succ i =>
        have := h5 i as' (by simpa using hi)
        rw [show j + (i + 1) = j + 1 + i by omega]
        exact this
    · intro t k ht
      have h7 := h6 t k (by omega)
      rw [h7.1, h7.2]
      exact h3 t k (.inl (by omega))

theorem callsProg_avoids (hp : ∀ n c, (prog n c).Avoids turn) (t : Nat) : ∀ (n k : Nat) (cs : List C), (callsProg prog t n k cs).Avoids turn
  | _, _, [] => trivial
  | n, k, c :: cs => (hp n c).bind fun _ => (avoids_op (by simp [Op.loc, noteId, turn])).bind fun _ =>
    (avoids_op (by simp [Op.loc, noteGen, turn])).bind fun _ => callsProg_avoids hp t (n + 1) (k + 1) cs

end

theorem tasking_eq (t : Nat) : ∀ (n k : Nat) (cs : List TCall), tasking t n k cs = callsProg TCall.prog t n k cs
  | _, _, [] => rfl
  | n, k, c :: cs => by
    simp only [tasking, callsProg]
    congr 1; funext a; congr 1; funext _; congr 1; funext _
    exact tasking_eq t (n + 1) (k + 1) cs

theorem refs_eq : ∀ (cs : List TCall) (ts : List TaskSpec), TCall.refs ts cs = callsRef TCall.ref ts cs
  | [], _ => rfl
  | c :: cs, ts => by
    simp only [TCall.refs, callsRef]
    congr 1; funext r; rw [refs_eq cs]

theorem refsAll_eq : ∀ (css : List (List TCall)) (ts : List TaskSpec), TCall.refsAll ts css = callsRefAll TCall.ref ts css
  | [], _ => rfl
  | cs :: css, ts => by
    simp only [TCall.refsAll, callsRefAll, refs_eq]
    congr 1; funext r; rw [refsAll_eq css]

/-! ## Counters -/

/-- The counter of task `i`. -/
def leftOf (s : Store Loc) (i : Nat) : Int := s.atom (.left (taskAddr i))

/-- How many children of `i` have not been completed. -/
def openKids (ts : List TaskSpec) (s : Store Loc) (i : Nat) : Nat :=
  (List.range ts.length).countP fun j => (match ts[j]? with | some x => decide (x.parent = some i) | none => false) && decide (leftOf s j ≠ 0)

/-- What the counter of `i` should be. -/
def ideal (ts : List TaskSpec) (s : Store Loc) (i : Nat) : Nat :=
  (match ts[i]? with | some x => if x.returned then 0 else 1 | none => 0) + openKids ts s i

/-- Parents have smaller numbers and are noted in memory. -/
structure TShape (ts : List TaskSpec) (s : Store Loc) : Prop where
  parent : ∀ (i : Nat) (x : TaskSpec), ts[i]? = some x → s.cell (.parent (taskAddr i)) = parentAddr x.parent
  lt : ∀ (i p : Nat) (x : TaskSpec), ts[i]? = some x → x.parent = some p → p < i

/-- The tasks are in memory. -/
structure TRep (n : Nat) (ts : List TaskSpec) (s : Store Loc) : Prop extends TShape ts s where
  count : ts.length ≤ n
  left : ∀ i, i < ts.length → leftOf s i = ideal ts s i

theorem countP_range_flip {p p' : Nat → Bool} {m j0 : Nat} (h0 : j0 < m) (h1 : p j0 = true) (h2 : p' j0 = false)
    (h : ∀ j, j < m → j ≠ j0 → p' j = p j) : (List.range m).countP p = (List.range m).countP p' + 1 := by
  induction m with
  | zero => omega
  | succ m ih =>
    simp only [List.range_succ, List.countP_append, List.countP_singleton]
    by_cases hm : j0 = m
    · subst hm
      have : (List.range j0).countP p' = (List.range j0).countP p :=
        List.countP_congr fun x hx => by
          rw [h x (by have := List.mem_range.1 hx; omega) (by have := List.mem_range.1 hx; omega)]
      simp [this, h1, h2]
    · rw [ih (by omega) fun j hj hne => h j (by omega) hne, h m (by omega) (by omega)]
      omega

theorem countP_range_congr {p p' : Nat → Bool} {m : Nat} (h : ∀ j, j < m → p' j = p j) : (List.range m).countP p' = (List.range m).countP p :=
  List.countP_congr fun x hx => by rw [h x (List.mem_range.1 hx)]

theorem openKids_le (ts : List TaskSpec) (s : Store Loc) (i : Nat) : openKids ts s i ≤ ts.length :=
  Nat.le_trans List.countP_le_length (by simp)

theorem ideal_le (ts : List TaskSpec) (s : Store Loc) (i : Nat) : ideal ts s i ≤ 1 + ts.length := by
  have := openKids_le ts s i
  simp only [ideal]
  split
  · split <;> omega
  · omega

/-- Only whether counters are zero matters. -/
theorem ideal_congr {ts : List TaskSpec} {s s' : Store Loc} (h : ∀ j, j < ts.length → (leftOf s' j ≠ 0 ↔ leftOf s j ≠ 0)) (i : Nat) :
    ideal ts s' i = ideal ts s i := by
  simp only [ideal]
  congr 1
  refine countP_range_congr fun j hj => ?_
  have := h j hj
  congr 1
  exact decide_eq_decide.2 this

/-- Task `x` becomes completed. -/
theorem ideal_flip {ts : List TaskSpec} {s s' : Store Loc} {x p : Nat} {y : TaskSpec} (hx : ts[x]? = some y) (hp : y.parent = some p)
    (h0 : leftOf s x ≠ 0) (h1 : leftOf s' x = 0) (h : ∀ j, j ≠ x → leftOf s' j = leftOf s j) (i : Nat) :
    ideal ts s i = ideal ts s' i + if i = p then 1 else 0 := by
  simp only [ideal, Nat.add_assoc]
  congr 1
  split
  · rename_i hi
    subst hi
    refine countP_range_flip (List.getElem?_eq_some_iff.1 hx).1 ?_ ?_ fun j _ hj => ?_
    · simp [hx, hp, h0]
    · simp [h1]
    · rw [h j hj]
  · rename_i hi
    refine (countP_range_congr fun j hj => ?_)
    by_cases hj : j = x
    · subst hj
      have hne : ¬ p = i := fun he => hi he.symm
      simp [hx, hp, hne]
    · rw [h j hj]

theorem leftOf_set {s : Store Loc} {x : Nat} {v : Int} (j : Nat) :
    leftOf (s.setAtom (.left (taskAddr x)) v) j = if j = x then v else leftOf s j := by
  simp only [leftOf, Store.setAtom, Loc.left.injEq, taskAddr]
  by_cases h : j = x
  · subst h; simp
  · have : ¬ ((j : Int) + 1 = (x : Int) + 1) := by omega
    simp [h, this]

/-- The counter of `x` is too large by one, everything else is right. -/
structure Off (ts : List TaskSpec) (x : Nat) (s : Store Loc) : Prop extends TShape ts s where
  few : ts.length < 65535
  lt' : x < ts.length
  here : leftOf s x = (ideal ts s x : Int) + 1
  rest : ∀ i, i < ts.length → i ≠ x → leftOf s i = ideal ts s i

theorem Off.finish {ts : List TaskSpec} : ∀ (f x : Nat) {s : Store Loc}, x < f → Off ts x s →
    ∃ s', (Weak.finish f (taskAddr x)).seq s = ((), s') ∧ TShape ts s' ∧ s'.cell = s.cell ∧ ∀ i, i < ts.length → leftOf s' i = ideal ts s' i
  | 0, _, _, h, _ => by omega
  | f + 1, x, s, hf, h => by
    obtain ⟨y, hy⟩ : ∃ y, ts[x]? = some y := ⟨_, List.getElem?_eq_getElem h.lt'⟩
    have hle := ideal_le ts s x
    have hfew := h.few
    have hdec : (leftOf s x + 65535) % 65536 = (ideal ts s x : Int) := by rw [h.here]; omega
    have hpar : s.cell (.parent (taskAddr x)) = parentAddr y.parent := h.parent x y hy
    have hset : ∀ v, TShape ts (s.setAtom (.left (taskAddr x)) v) := fun v => ⟨h.parent, h.lt⟩
    have hn0 : leftOf s x ≠ 0 := by rw [h.here]; omega
    have e1 : (Weak.finish (f + 1) (taskAddr x)).seq s = (if ideal ts s x = 0 then
        (if parentAddr y.parent ≠ 0 then Weak.finish f (parentAddr y.parent) else pure ()) else pure () : P Unit).seq
          (s.setAtom (.left (taskAddr x)) (ideal ts s x)) := by
      have e2 : (rmw .rlx (.left (taskAddr x)) fun x => some ((x + 65535) % 65536)).seq s =
          (leftOf s x, s.setAtom (.left (taskAddr x)) (ideal ts s x)) := by
        rw [← hdec]; rfl
      have e3 : (isCompleted (taskAddr x)).seq (s.setAtom (.left (taskAddr x)) (ideal ts s x)) =
          (decide (ideal ts s x = 0), s.setAtom (.left (taskAddr x)) (ideal ts s x)) := by
        simp [isCompleted, Prog.seq_bind', Store.setAtom]
      have e4 : (read (.parent (taskAddr x))).seq (s.setAtom (.left (taskAddr x)) (ideal ts s x)) =
          (parentAddr y.parent, s.setAtom (.left (taskAddr x)) (ideal ts s x)) := by rw [← hpar]; rfl
      rw [Weak.finish, Prog.seq_bind', e2, Prog.seq_bind', e3]
      by_cases h0 : ideal ts s x = 0
      · simp only [h0, decide_true, if_true] at e4 ⊢
        rw [Prog.seq_bind', e4]
      · simp only [h0, decide_false, Bool.false_eq_true, if_false]
    by_cases h0 : ideal ts s x = 0
    · have hl1 : leftOf (s.setAtom (.left (taskAddr x)) (ideal ts s x)) x = 0 := by rw [leftOf_set, if_pos rfl, h0]; rfl
      have hl2 : ∀ j, j ≠ x → leftOf (s.setAtom (.left (taskAddr x)) (ideal ts s x)) j = leftOf s j := fun j hj => by rw [leftOf_set, if_neg hj]
      cases hp : y.parent with
      | none =>
        refine ⟨_, ?_, hset (ideal ts s x), rfl, fun i hi => ?_⟩
        · rw [e1]
          rw [if_pos h0, hp]; rfl
        · have hi' : ideal ts (s.setAtom (.left (taskAddr x)) (ideal ts s x)) i = ideal ts s i := by
            simp only [ideal]
            congr 1
            refine countP_range_congr fun j hj => ?_
            by_cases hj : j = x
            · subst hj; simp [hy, hp]
            · rw [← ideal, hl2 j hj]
          rw [hi', leftOf_set]
          split
          · rename_i hix; rw [hix]
          · rename_i hix; exact h.rest i hi hix
      | some p =>
        have hpx := h.lt x p y hy hp
        have hfl := ideal_flip hy hp hn0 hl1 hl2
        have hoff : Off ts p (s.setAtom (.left (taskAddr x)) (ideal ts s x)) := by
          refine ⟨hset _, h.few, by have := h.lt'; omega, ?_, fun i hi hip => ?_⟩
          · rw [hl2 p (by omega), h.rest p (by have := h.lt'; omega) (by omega), hfl p, if_pos rfl]; rfl
          · have := hfl i
            rw [if_neg hip, Nat.add_zero] at this
            rw [leftOf_set]
            split
            · rename_i hix; rw [← this, hix]
            · rename_i hix; rw [h.rest i hi hix, this]
        obtain ⟨s', hs', ht, hc, hall⟩ := Off.finish f p (by omega) hoff
        refine ⟨s', ?_, ht, hc, hall⟩
        rw [e1]
        have : parentAddr (some p) ≠ 0 := by simp only [parentAddr, taskAddr]; omega
        rw [if_pos h0, hp, if_pos this]
        exact hs'
    · refine ⟨s.setAtom (.left (taskAddr x)) (ideal ts s x), ?_, hset _, rfl, fun i hi => ?_⟩
      · rw [e1]
        rw [if_neg h0]; rfl
      · rw [ideal_congr (s := s) (s' := s.setAtom (.left (taskAddr x)) (ideal ts s x)), leftOf_set]
        · split
          · rename_i hix; rw [hix]
          · rename_i hix; exact h.rest i hi hix
        · intro j _
          rw [leftOf_set]
          split
          · rename_i hjx; subst hjx; simp [hn0, h0]
          · exact Iff.rfl

/-! ## Completed means that everything under the task has returned -/

section
variable {ts : List TaskSpec} {s : Store Loc}

theorem under_fuel (h : ∀ (i p : Nat) (x : TaskSpec), ts[i]? = some x → x.parent = some p → p < i) (i : Nat) :
    ∀ (j n : Nat), j ≤ n → under ts n j i = under ts j j i := by
  intro j
  induction j using Nat.strongRecOn with
  | _ j ih =>
    intro n hn
    cases j with
    | zero =>
      cases n with
      | zero => rfl
      | succ n =>
        simp only [under]
        cases hx : ts[0]? with
        | none => simp
        | some x =>
          obtain ⟨xp, r⟩ := x
          cases xp with
          | none => simp
          | some p => exact absurd (h 0 p _ hx rfl) (by omega)
    | succ j =>
      obtain ⟨n, rfl⟩ : ∃ m, n = m + 1 := ⟨n - 1, by omega⟩
      simp only [under]
      cases hx : ts[j + 1]? with
      | none => rfl
      | some x =>
        obtain ⟨xp, r⟩ := x
        cases xp with
        | none => rfl
        | some p =>
          have := h (j + 1) p _ hx rfl
          simp only
          rw [ih p this n (by omega), ih p this j (by omega)]

theorem under_iff (h : ∀ (i p : Nat) (x : TaskSpec), ts[i]? = some x → x.parent = some p → p < i) (i j : Nat) :
    under ts j j i = true ↔ j = i ∨ ∃ p x, ts[j]? = some x ∧ x.parent = some p ∧ under ts p p i = true := by
  have hf : under ts j j i = under ts (j + 1) j i := (under_fuel h i j (j + 1) (by omega)).symm
  rw [hf]
  simp only [under, Bool.or_eq_true, beq_iff_eq]
  refine or_congr Iff.rfl ?_
  cases hx : ts[j]? with
  | none => simp
  | some x =>
    obtain ⟨xp, r⟩ := x
    cases xp with
    | none => simp
    | some p =>
      have := h j p _ hx rfl
      simp only [under_fuel h i p j (by omega)]
      constructor
      · intro hu; exact ⟨p, _, rfl, rfl, hu⟩
      · rintro ⟨p', x', e1, e2, hu⟩
        cases e1; cases e2; exact hu

theorem under_trans (h : ∀ (i p : Nat) (x : TaskSpec), ts[i]? = some x → x.parent = some p → p < i) {i j : Nat} {x : TaskSpec}
    (hj : ts[j]? = some x) (hp : x.parent = some i) : ∀ k, under ts k k j = true → under ts k k i = true := by
  intro k
  induction k using Nat.strongRecOn with
  | _ k ih =>
    intro hk
    rw [under_iff h] at hk ⊢
    rcases hk with rfl | ⟨p, y, e1, e2, hu⟩
    · exact .inr ⟨i, x, hj, hp, (under_iff h i i).2 (.inl rfl)⟩
    · exact .inr ⟨p, y, e1, e2, ih p (h k p y e1 e2) hu⟩

theorem openKids_zero {i : Nat} : openKids ts s i = 0 ↔ ∀ j x, ts[j]? = some x → x.parent = some i → leftOf s j = 0 := by
  simp only [openKids, List.countP_eq_zero, List.mem_range, Bool.and_eq_true, decide_eq_true_eq, not_and, Classical.not_not]
  constructor
  · intro h j x hj hp
    refine h j (List.getElem?_eq_some_iff.1 hj).1 ?_
    simp [hj, hp]
  · intro h j hj hp
    have hx : ts[j]? = some ts[j] := List.getElem?_eq_getElem hj
    refine h j _ hx ?_
    simpa [hx] using hp

theorem zero_iff (ht : TShape ts s) (hl : ∀ i, i < ts.length → leftOf s i = ideal ts s i) {i : Nat} (hi : i < ts.length) :
    leftOf s i = 0 ↔ allReturned ts i = true := by
  have hreturned : ∀ j x, ts[j]? = some x → leftOf s j = 0 → x.returned = true := by
    intro j x hx h0
    have hj := (List.getElem?_eq_some_iff.1 hx).1
    have := hl j hj
    rw [h0] at this
    simp only [ideal, hx] at this
    cases hr : x.returned with
    | true => rfl
    | false => simp [hr] at this; omega
  simp only [allReturned, List.all_eq_true, List.mem_range, Bool.or_eq_true, Bool.not_eq_true']
  constructor
  · intro h0
    have key : ∀ j, j < ts.length → under ts j j i = true → leftOf s j = 0 := by
      intro j
      induction j using Nat.strongRecOn with
      | _ j ih =>
        intro hj hu
        rcases (under_iff ht.lt i j).1 hu with rfl | ⟨p, x, e1, e2, hu'⟩
        · exact h0
        · have hp := ht.lt j p x e1 e2
          have h1 := ih p hp (by omega) hu'
          have h2 := hl p (by omega)
          rw [h1] at h2
          exact openKids_zero.1 (by simp only [ideal] at h2; omega) j x e1 e2
    intro j hj
    cases hu : under ts j j i with
    | false => exact .inl rfl
    | true =>
      have hx : ts[j]? = some ts[j] := List.getElem?_eq_getElem hj
      simp only [hx]
      exact .inr (hreturned j _ hx (key j hj hu))
  · intro h
    have key : ∀ n i, i < ts.length → ts.length - i ≤ n → (∀ j, j < ts.length → under ts j j i = true → ∀ x, ts[j]? = some x → x.returned = true) →
        leftOf s i = 0 := by
      intro n
      induction n with
      | zero => intro i hi hn; omega
      | succ n ih =>
        intro i hi hn hall
        have hx : ts[i]? = some ts[i] := List.getElem?_eq_getElem hi
        rw [hl i hi]
        have hkids : openKids ts s i = 0 := openKids_zero.2 fun j x hj hp => by
          have hij := ht.lt j i x hj hp
          have hjl := (List.getElem?_eq_some_iff.1 hj).1
          exact ih j hjl (by omega) fun k hk hu y hy => hall k hk (under_trans ht.lt hj hp k hu) y hy
        have hr := hall i hi ((under_iff ht.lt i i).2 (.inl rfl)) _ hx
        simp [ideal, hx, hr, hkids]
    refine key _ i hi (Nat.le_refl _) fun j hj hu x hx => ?_
    rcases h j hj with h1 | h1
    · rw [hu] at h1; cases h1
    · simpa [hx] using h1

end

/-! ## The calls -/

theorem TRep.frame {n : Nat} {ts : List TaskSpec} {s s' : Store Loc} (h : TRep n ts s) (h1 : ∀ l, l ≠ turn → s'.atom l = s.atom l)
    (h2 : ∀ l, (∀ t k, l ≠ noteId t k ∧ l ≠ noteGen t k) → s'.cell l = s.cell l) : TRep n ts s' := by
  have hl : ∀ i, leftOf s' i = leftOf s i := fun i => h1 _ (by simp [turn])
  refine ⟨⟨fun i x hx => ?_, h.lt⟩, h.count, fun i hi => ?_⟩
  · rw [h2 _ (by simp [noteId, noteGen])]; exact h.parent i x hx
  · rw [hl, h.left i hi, ideal_congr fun j _ => by rw [hl]]

/-- A new task, whose parent has not been completed. -/
theorem TRep.made {n : Nat} {ts : List TaskSpec} {s s' : Store Loc} {po : Option Nat} (h : TRep n ts s) (hn : ts.length ≤ n)
    (hpo : ∀ p, po = some p → p < ts.length ∧ leftOf s p ≠ 0) (hnew : leftOf s' ts.length = 1)
    (hold : ∀ i, i < ts.length → leftOf s' i = leftOf s i + if po = some i then 1 else 0)
    (hpar : s'.cell (.parent (taskAddr ts.length)) = parentAddr po)
    (hpars : ∀ i, i < ts.length → s'.cell (.parent (taskAddr i)) = s.cell (.parent (taskAddr i))) : TRep (n + 1) (ts ++ [⟨po, false⟩]) s' := by
  have hget : ∀ j, j < ts.length → (ts ++ [⟨po, false⟩])[j]? = ts[j]? := fun j hj => List.getElem?_append_left hj
  have hstat : ∀ j, j < ts.length → (leftOf s' j ≠ 0 ↔ leftOf s j ≠ 0) := by
    intro j hj
    rw [hold j hj]
    split
    · rename_i he
      have := (hpo j he).2
      have h0 := h.left j hj
      omega
    · simp
  have hkids : ∀ i, openKids (ts ++ [⟨po, false⟩]) s' i = openKids ts s i + if po = some i then 1 else 0 := by
    intro i
    simp only [openKids, List.length_append, List.length_singleton, List.range_succ, List.countP_append, List.countP_singleton]
    congr 1
    · refine countP_range_congr fun j hj => ?_
      rw [hget j hj]
      congr 1
      exact decide_eq_decide.2 (hstat j hj)
    · simp [hnew]
  refine ⟨⟨fun i x hx => ?_, fun i p x hx hp => ?_⟩, by simp; omega, fun i hi => ?_⟩
  · by_cases hi : i < ts.length
    · rw [hget i hi] at hx
      rw [hpars i hi]; exact h.parent i x hx
    · have hi' : i = ts.length := by
        have := (List.getElem?_eq_some_iff.1 hx).1
        simp at this; omega
      subst hi'
      simp at hx; subst hx
      exact hpar
  · by_cases hi : i < ts.length
    · rw [hget i hi] at hx
      exact h.lt i p x hx hp
    · have hi' : i = ts.length := by
        have := (List.getElem?_eq_some_iff.1 hx).1
        simp at this; omega
      subst hi'
      simp at hx; subst hx
      exact (hpo p hp).1
  · simp only [List.length_append, List.length_singleton] at hi
    by_cases hlt : i < ts.length
    · rw [hold i hlt, h.left i hlt]
      simp only [ideal, hkids, hget i hlt]
      by_cases he : po = some i
      · simp only [if_pos he]; omega
      · simp only [if_neg he]; omega
    · have hi' : i = ts.length := by omega
      subst hi'
      rw [hnew]
      have h0 : openKids ts s ts.length = 0 := openKids_zero.2 fun j x hj hp => by
        have := h.lt j _ x hj hp
        have := (List.getElem?_eq_some_iff.1 hj).1
        omega
      have h1 : po ≠ some ts.length := fun he => by have := (hpo _ he).1; omega
      simp [ideal, hkids, h0, h1]

theorem TRep.finished {n : Nat} {ts : List TaskSpec} {s : Store Loc} (h : TRep n ts s) (hn : ts.length < 65535) {i : Nat} {po : Option Nat}
    (hi : ts[i]? = some ⟨po, false⟩) : Off (ts.set i ⟨po, true⟩) i s := by
  have hil := (List.getElem?_eq_some_iff.1 hi).1
  have hpars : ∀ (j : Nat) (x : TaskSpec), (ts.set i ⟨po, true⟩)[j]? = some x → ∃ y, ts[j]? = some y ∧ y.parent = x.parent := by
    intro j x hx
    rw [List.getElem?_set] at hx
    split at hx
    · rename_i hij
      subst hij
      simp only [hil, if_true, Option.some.injEq] at hx
      subst hx
      exact ⟨_, hi, rfl⟩
    · exact ⟨x, hx, rfl⟩
  have hkids : ∀ j, openKids (ts.set i ⟨po, true⟩) s j = openKids ts s j := by
    intro j
    simp only [openKids, List.length_set]
    refine countP_range_congr fun k hk => ?_
    congr 1
    rw [List.getElem?_set]
    by_cases hik : i = k
    · subst hik; simp only [hil, if_true, hi]
    · simp [hik]
  refine ⟨⟨fun j x hx => ?_, fun j p x hx hp => ?_⟩, by simpa using hn, by simpa using hil, ?_, fun j hj hne => ?_⟩
  · obtain ⟨y, hy, he⟩ := hpars j x hx
    rw [← he]; exact h.parent j y hy
  · obtain ⟨y, hy, he⟩ := hpars j x hx
    exact h.lt j p y hy (he.trans hp)
  · rw [h.left i hil]
    have : (ts.set i ⟨po, true⟩)[i]? = some ⟨po, true⟩ := by rw [List.getElem?_set]; simp [hil]
    simp only [ideal, hkids, hi, this]
    simp; omega
  · simp only [List.length_set] at hj
    rw [h.left j hj]
    have : (ts.set i ⟨po, true⟩)[j]? = ts[j]? := by rw [List.getElem?_set]; simp [Ne.symm hne]
    simp only [ideal, hkids, this]

theorem taskAddr_ne {i j : Nat} (h : i ≠ j) : taskAddr i ≠ taskAddr j := by simp only [taskAddr]; omega

/-- The store after the members of a new task have been initialised. -/
def newTask (s : Store Loc) (i : Nat) (po : Option Nat) : Store Loc :=
  ((s.setCell (.func (taskAddr i)) 0).setCell (.parent (taskAddr i)) (parentAddr po)).setAtom (.left (taskAddr i)) 1

theorem newTask_left (s : Store Loc) (i : Nat) (po : Option Nat) (j : Nat) : leftOf (newTask s i po) j = if j = i then 1 else leftOf s j := by
  rw [newTask, leftOf_set]; rfl

theorem newTask_parent (s : Store Loc) (i : Nat) (po : Option Nat) (j : Nat) :
    (newTask s i po).cell (.parent (taskAddr j)) = if j = i then parentAddr po else s.cell (.parent (taskAddr j)) := by
  by_cases h : j = i
  · subst h; simp [newTask, Store.setCell, Store.setAtom]
  · simp [newTask, Store.setCell, Store.setAtom, h, taskAddr_ne h]

theorem newTask_notes (s : Store Loc) (i : Nat) (po : Option Nat) : NotesEq s (newTask s i po) :=
  fun t k => by simp [newTask, Store.setCell, Store.setAtom, noteId, noteGen]

theorem taskNew_none (s : Store Loc) (i : Nat) : (taskNew (taskAddr i) 0 (parentAddr none)).seq s = ((), newTask s i none) := by
  simp only [taskNew, Prog.seq_bind', seq_write]
  rfl

theorem taskNew_some (s : Store Loc) (i p : Nat) : (taskNew (taskAddr i) 0 (parentAddr (some p))).seq s =
    ((), (newTask s i (some p)).setAtom (.left (taskAddr p)) ((leftOf (newTask s i (some p)) p + 1) % 65536)) := by
  have : parentAddr (some p) ≠ 0 := by simp only [parentAddr, taskAddr]; omega
  simp only [taskNew, Prog.seq_bind', seq_write, if_pos this]
  rfl

theorem taskCalls : CallRep TCall.prog TCall.ref 65534 TRep where
  step := by
    intro n ts s c ts' a hn h hc
    have hcount := h.count
    cases c with
    | make i po =>
      have hpo : i = ts.length ∧ (ts', a) = (ts ++ [⟨po, false⟩], (0, 0)) ∧ ∀ p, po = some p → p < ts.length ∧ leftOf s p ≠ 0 := by
        cases po with
        | none =>
          simp only [TCall.ref] at hc
          split at hc
          · rename_i hi; cases hc; exact ⟨hi, rfl, nofun⟩
          · cases hc
        | some p =>
          simp only [TCall.ref] at hc
          split at hc
          · rename_i hi
            cases hc
            refine ⟨hi.1, rfl, fun p' hp' => ?_⟩
            cases hp'
            refine ⟨hi.2.1, fun h0 => ?_⟩
            have := (zero_iff h.toTShape h.left hi.2.1).1 h0
            rw [hi.2.2] at this; cases this
          · cases hc
      obtain ⟨rfl, he, hpo⟩ := hpo
      cases he
      cases po with
      | none =>
        refine ⟨newTask s ts.length none, by simp only [TCall.prog, Prog.seq_bind', taskNew_none]; rfl, ?_, newTask_notes _ _ _⟩
        refine h.made hcount hpo (by simp [newTask_left]) (fun i hi => ?_) (by simp [newTask_parent]) fun i hi => ?_
        · rw [newTask_left, if_neg (by omega)]; simp
        · rw [newTask_parent, if_neg (by omega)]
      | some p =>
        obtain ⟨hp, hp0⟩ := hpo p rfl
        have hpl : leftOf (newTask s ts.length (some p)) p = leftOf s p := by rw [newTask_left, if_neg (by omega)]
        have hle := ideal_le ts s p
        have hlp := h.left p hp
        have hmod : (leftOf (newTask s ts.length (some p)) p + 1) % 65536 = leftOf s p + 1 := by rw [hpl]; omega
        refine ⟨(newTask s ts.length (some p)).setAtom (.left (taskAddr p)) (leftOf s p + 1), ?_, ?_, fun t k => newTask_notes s ts.length (some p) t k⟩
        · simp only [TCall.prog, Prog.seq_bind', taskNew_some, hmod]; rfl
        refine h.made hcount hpo ?_ (fun i hi => ?_) ?_ fun i hi => ?_
        · rw [leftOf_set, if_neg (by omega), newTask_left, if_pos rfl]
        · rw [leftOf_set]
          by_cases hip : i = p
          · subst hip; simp
          · rw [if_neg hip, newTask_left, if_neg (by omega), if_neg (by simpa using fun he => hip he.symm)]; simp
        · exact (newTask_parent s ts.length (some p) ts.length).trans (if_pos rfl)
        · exact (newTask_parent s ts.length (some p) i).trans (if_neg (by omega))
    | finish i =>
      simp only [TCall.ref] at hc
      split at hc
      · rename_i po hi
        cases hc
        have hil := (List.getElem?_eq_some_iff.1 hi).1
        obtain ⟨s', e, ht, hcell, hl⟩ := (h.finished (by omega) hi).finish n i (by omega)
        refine ⟨s', by simp only [TCall.prog, Prog.seq_bind', e]; rfl, ⟨ht, by simp; omega, hl⟩, fun t k => ?_⟩
        rw [hcell]; exact ⟨rfl, rfl⟩
      · cases hc
    | completed i =>
      simp only [TCall.ref] at hc
      split at hc
      · rename_i hi
        cases hc
        refine ⟨s, ?_, ⟨h.toTShape, by omega, h.left⟩, .refl _⟩
        have hz := zero_iff h.toTShape h.left hi
        have e : (isCompleted (taskAddr i)).seq s = (decide (leftOf s i = 0), s) := rfl
        simp only [TCall.prog, Prog.seq_bind', e]
        cases hr : allReturned ts i with
        | true => simp [hz.2 hr]
        | false =>
          have : leftOf s i ≠ 0 := fun h0 => by rw [hz.1 h0] at hr; cases hr
          simp [this]
      · cases hc
  frame := fun h h1 h2 => h.frame h1 h2

theorem finish_avoids : ∀ (f : Nat) (t : Int), (Weak.finish f t).Avoids turn
  | 0, _ => trivial
  | f + 1, t => by
    refine Prog.Avoids.bind (p := rmw _ _ _) (avoids_op (by simp [turn, Op.loc])) fun _ => ?_
    refine Prog.Avoids.bind (p := isCompleted t) ?_ fun b => ?_
    · exact Prog.Avoids.bind (p := load _ _) (avoids_op (by simp [turn, Op.loc])) fun _ => trivial
    · split
      · refine Prog.Avoids.bind (p := read _) (avoids_op (by simp [turn, Op.loc])) fun p => ?_
        split
        · exact finish_avoids f p
        · exact trivial
      · exact trivial

theorem taskCall_avoids (n : Nat) : ∀ c : TCall, (c.prog n).Avoids turn
  | .make i p => by
    refine Prog.Avoids.bind (p := taskNew _ _ _) ?_ fun _ => trivial
    refine Prog.Avoids.bind (p := write _ _) (avoids_op (by simp [turn, Op.loc])) fun _ => ?_
    refine Prog.Avoids.bind (p := write _ _) (avoids_op (by simp [turn, Op.loc])) fun _ => ?_
    refine Prog.Avoids.bind (p := store _ _ _) (avoids_op (by simp [turn, Op.loc])) fun _ => ?_
    split
    · exact Prog.Avoids.bind (p := rmw _ _ _) (avoids_op (by simp [turn, Op.loc])) fun _ => trivial
    · exact trivial
  | .finish i => Prog.Avoids.bind (p := Weak.finish _ _) (finish_avoids _ _) fun _ => trivial
  | .completed i => by
    refine Prog.Avoids.bind (p := isCompleted _) ?_ fun b => ?_
    · exact Prog.Avoids.bind (p := load _ _) (avoids_op (by simp [turn, Op.loc])) fun _ => trivial
    · split <;> exact trivial

theorem TRep.start : TRep 0 [] ⟨fun _ => 0, fun _ => 0⟩ :=
  ⟨⟨fun i x h => by simp at h, fun i p x h => by simp at h⟩, Nat.le_refl _, fun i h => by simp at h⟩

end CoEcs.Weak
