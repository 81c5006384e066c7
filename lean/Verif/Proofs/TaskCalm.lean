import Verif.Spec.TaskTree

/-!
# The invariant of calm histories: what every counter counts
-/

namespace CoEcs

open Spec

/-- The sum over all tasks of a number that depends on the task and its index. -/
def tsum (g : Nat → TaskRec → Nat) (s : Tasks) : Nat := (s.zipIdx.map fun x => g x.2 x.1).sum

theorem sum_map_change {α : Type} (f g : α → Nat) : ∀ (l l' : List α), l.length = l'.length → ∀ (j : Nat) (d e : Nat),
    (∀ (i : Nat) (x y : α), i ≠ j → l[i]? = some x → l'[i]? = some y → f x = g y) →
    (∃ x y, l[j]? = some x ∧ l'[j]? = some y ∧ f x + d = g y + e) →
    (l.map f).sum + d = (l'.map g).sum + e := by
  intro l
  induction l with
  | nil =>
    rintro l' _ j d e _ ⟨x, y, hx, _⟩
    simp at hx
  | cons a l ih =>
    intro l' hl j d e hne hj
    cases l' with
    | nil => simp at hl
    | cons b l' =>
      have hl' : l.length = l'.length := by simpa using hl
      simp only [List.map_cons, List.sum_cons]
      cases j with
      | zero =>
        obtain ⟨x, y, hx, hy, hxy⟩ := hj
        simp only [List.getElem?_cons_zero, Option.some.injEq] at hx hy
        subst hx hy
        have : l.map f = l'.map g := by
          apply List.ext_getElem (by simp [hl'])
          intro i h1 h2
          simp only [List.length_map] at h1 h2
          simp only [List.getElem_map]
          exact hne (i + 1) l[i] l'[i] (by omega) (by simp) (by simp)
        rw [this]; omega
      | succ j =>
        have h0 : f a = g b := hne 0 a b (by omega) rfl rfl
        have := ih l' hl' j d e (fun i x y hi hx hy => hne (i + 1) x y (by omega) (by simpa using hx) (by simpa using hy))
          (by simpa using hj)
        omega

/-- Two lists of tasks of the same length that differ, in what is summed, at one index. -/
theorem tsum_change {f g : Nat → TaskRec → Nat} {s t : Tasks} (hl : s.length = t.length) (j d e : Nat)
    (hne : ∀ (i : Nat) (x y : TaskRec), i ≠ j → s[i]? = some x → t[i]? = some y → f i x = g i y)
    (hj : ∃ x y : TaskRec, s[j]? = some x ∧ t[j]? = some y ∧ f j x + d = g j y + e) :
    tsum f s + d = tsum g t + e := by
  unfold tsum
  refine sum_map_change (fun x : TaskRec × Nat => f x.2 x.1) (fun x : TaskRec × Nat => g x.2 x.1) _ _
    (by rw [List.length_zipIdx, List.length_zipIdx]; exact hl) j d e ?_ ?_
  · rintro i ⟨x, k⟩ ⟨y, k'⟩ hi hx hy
    simp only [List.getElem?_zipIdx, Nat.zero_add, Option.map_eq_some_iff, Prod.mk.injEq] at hx hy
    obtain ⟨x', hx1, rfl, rfl⟩ := hx
    obtain ⟨y', hy1, rfl, rfl⟩ := hy
    exact hne _ _ _ hi hx1 hy1
  · obtain ⟨x, y, hx, hy, h⟩ := hj
    exact ⟨(x, j), (y, j), by simp [List.getElem?_zipIdx, hx], by simp [List.getElem?_zipIdx, hy], h⟩

theorem tsum_eq {f g : Nat → TaskRec → Nat} {s t : Tasks} (hl : s.length = t.length)
    (h : ∀ (i : Nat) (x y : TaskRec), s[i]? = some x → t[i]? = some y → f i x = g i y) : tsum f s = tsum g t := by
  cases hs : s with
  | nil =>
    have : t = [] := by rw [hs] at hl; exact List.length_eq_zero_iff.1 hl.symm
    rw [this]; rfl
  | cons a s' =>
    rw [← hs]
    have h0 : 0 < s.length := by rw [hs]; simp
    have := tsum_change (f := f) (g := g) hl 0 0 0 (fun i x y _ hx hy => h i x y hx hy)
      ⟨s[0], t[0]'(by omega), List.getElem?_eq_getElem h0, List.getElem?_eq_getElem (by omega),
        by rw [h 0 _ _ (List.getElem?_eq_getElem h0) (List.getElem?_eq_getElem (by omega))]⟩
    omega

theorem tsum_append (g : Nat → TaskRec → Nat) (s : Tasks) (x : TaskRec) :
    tsum g (s ++ [x]) = tsum g s + g s.length x := by
  unfold tsum
  rw [List.zipIdx_append]
  simp

theorem tsum_zero {g : Nat → TaskRec → Nat} {s : Tasks}
    (h : ∀ (i : Nat) (r : TaskRec), s[i]? = some r → g i r = 0) : tsum g s = 0 := by
  unfold tsum
  rw [List.sum_eq_zero_iff_forall_eq_nat]
  intro n hn
  obtain ⟨⟨r, i⟩, hx, rfl⟩ := List.mem_map.1 hn
  exact h i r (List.mem_zipIdx_iff_getElem?.1 hx)

theorem le_sum_of_mem : ∀ (l : List Nat) (a : Nat), a ∈ l → a ≤ l.sum := by
  intro l a h
  induction l with
  | nil => cases h
  | cons b l ih =>
    rw [List.sum_cons]
    rcases List.mem_cons.1 h with rfl | h
    · omega
    · have := ih h
      omega

theorem tsum_pos {g : Nat → TaskRec → Nat} {s : Tasks} {i : Nat} {r : TaskRec} (h : s[i]? = some r) :
    g i r ≤ tsum g s := by
  unfold tsum
  exact le_sum_of_mem _ _ (List.mem_map.2 ⟨(r, i), List.mem_zipIdx_iff_getElem?.2 h, rfl⟩)

/-- What the thread executing task `i` still owes to the counter of `p`. -/
def owes (p i : Nat) (r : TaskRec) : Nat :=
  (if r.pc = .running ∧ i = p then 1 else 0) + (if r.pc = .sub p then 1 else 0)

/-- What task `i` as a child still owes to the counter of `p`: one if it is not complete, and otherwise one for each of the
`k` threads about to find that out. -/
def pends (p k : Nat) (r : TaskRec) : Nat :=
  if r.parent = some p then (if r.counter = 0 then k else 1) else 0

/-- What the counter of `p` counts. -/
def due (s : Tasks) (p : Nat) : Nat := tsum (owes p) s + tsum (fun i r => pends p (checkers s i) r) s

theorem pends_goto (p k : Nat) (r : TaskRec) (pc : TaskPc) : pends p k (r.goto pc) = pends p k r := rfl

theorem next_sub {q : TaskRec} {p : Nat} (h : q.parent = some p) (h0 : q.counter = 0) : q.next = .sub p := by
  unfold TaskRec.next TaskRec.completed
  rw [h, h0]
  rfl

theorem next_done {q : TaskRec} (h : q.parent = none ∨ q.counter ≠ 0) : q.next = .done := by
  unfold TaskRec.next TaskRec.completed
  split
  · rename_i h1 h2
    rw [h2] at h
    simp_all
  · rfl

structure CalmInv (s : Tasks) : Prop where
  up : ∀ (i : Nat) (r : TaskRec) (p : Nat), s[i]? = some r → r.parent = some p → p < i
  pcSub : ∀ (i : Nat) (r : TaskRec) (j : Nat), s[i]? = some r → r.pc = .sub j → j < s.length
  pcCheck : ∀ (i : Nat) (r : TaskRec) (j : Nat), s[i]? = some r → r.pc = .check j → j < s.length
  counts : ∀ (i : Nat) (r : TaskRec), s[i]? = some r → r.counter = due s i
  few : ∀ (i : Nat) (r : TaskRec), s[i]? = some r → r.counter ≤ 1 + childCount s i

theorem checkers_set {s : Tasks} {i : Nat} {r : TaskRec} (h : s[i]? = some r) (r' : TaskRec) (j : Nat) :
    checkers (s.set i r') j + (if r.pc = .check j then 1 else 0) = checkers s j + (if r'.pc = .check j then 1 else 0) := by
  obtain ⟨hi, he⟩ := List.getElem?_eq_some_iff.1 h
  unfold checkers
  rw [List.countP_set hi, he]
  have h2 : r.pc = .check j → 0 < s.countP fun r => r.pc == .check j := fun hc =>
    List.countP_pos_iff.2 ⟨r, List.mem_of_getElem? h, by simp [hc]⟩
  by_cases hc : r.pc = .check j
  · have := h2 hc
    simp only [hc, BEq.rfl, if_true, beq_iff_eq]
    omega
  · simp [hc]

theorem checkers_append (s : Tasks) (x : TaskRec) (j : Nat) (hx : x.pc = .running) :
    checkers (s ++ [x]) j = checkers s j := by
  unfold checkers
  rw [List.countP_append]
  simp [List.countP_cons, hx]

theorem checkers_pos {s : Tasks} {i j : Nat} {r : TaskRec} (h : s[i]? = some r) (hr : r.pc = .check j) :
    0 < checkers s j :=
  List.countP_pos_iff.2 ⟨r, List.mem_of_getElem? h, by simp [hr]⟩

/-- A new task owes to nobody but its parent and itself. -/
theorem due_append {s : Tasks} (x : TaskRec) (hx : x.pc = .running) (hc : x.counter = 1) (p : Nat) :
    due (s ++ [x]) p = due s p + (if s.length = p then 1 else 0) + (if x.parent = some p then 1 else 0) := by
  unfold due
  rw [tsum_append, tsum_append]
  have h1 : tsum (fun i r => pends p (checkers (s ++ [x]) i) r) s = tsum (fun i r => pends p (checkers s i) r) s := by
    congr 1
    funext i r
    rw [checkers_append s x i hx]
  rw [h1]
  simp only [owes, hx, pends, hc]
  simp
  omega

theorem due_fresh {s : Tasks} (hs : CalmInv s) {p : Nat} (hp : s.length ≤ p) : due s p = 0 := by
  unfold due
  rw [tsum_zero, tsum_zero]
  · intro i r hi
    have hlt := (List.getElem?_eq_some_iff.1 hi).1
    unfold pends
    rw [if_neg]
    intro he
    have := hs.up i r p hi he
    omega
  · intro i r hi
    have hlt := (List.getElem?_eq_some_iff.1 hi).1
    unfold owes
    rw [if_neg (by omega), if_neg]
    intro he
    have := hs.pcSub i r p hi he
    omega

/-- Replacing the record of one task, and the number of threads about to load counters. -/
theorem due_set {s : Tasks} {i : Nat} {r r' : TaskRec} (h : s[i]? = some r) (p : Nat)
    (ho : owes p i r' = owes p i r)
    (hp : pends p (checkers (s.set i r') i) r' = pends p (checkers s i) r)
    (hc : ∀ (k : Nat) (x : TaskRec), k ≠ i → s[k]? = some x → pends p (checkers (s.set i r') k) x = pends p (checkers s k) x) :
    due (s.set i r') p = due s p := by
  unfold due
  congr 1
  · refine tsum_eq (by simp) ?_
    intro k x y hx hy
    rw [get_set h] at hx
    rcases hx with ⟨rfl, rfl⟩ | ⟨_, hx⟩
    · rw [h] at hy; cases hy; exact ho
    · rw [hx] at hy; cases hy; rfl
  · refine tsum_eq (by simp) ?_
    intro k x y hx hy
    rw [get_set h] at hx
    rcases hx with ⟨rfl, rfl⟩ | ⟨hne, hx⟩
    · rw [h] at hy; cases hy; exact hp
    · rw [hx] at hy; cases hy; exact hc k x hne hx

theorem set_same_get {s : Tasks} {i : Nat} {r : TaskRec} (h : s[i]? = some r) (x : TaskRec) :
    (s.set i x)[i]? = some x := (get_set h x x i).2 (Or.inl ⟨rfl, rfl⟩)

theorem CalmInv.step {s t : Tasks} (hs : CalmInv s) (h : TaskStep s t) (hcalm : Calm s t) (hfew : Few t) :
    CalmInv t := by
  have hcc := h.childCount_le
  have hlt : ∀ (i : Nat) (r : TaskRec), s[i]? = some r → r.counter < 65536 := by
    intro i r hi
    have h1 := hs.few i r hi
    have h2 := hcc i
    have h3 := hfew i
    omega
  cases h with
  | submitRoot =>
    refine ⟨?_, ?_, ?_, ?_, ?_⟩
    · intro i r p hi hp
      rw [get_append] at hi
      rcases hi with hi | ⟨_, rfl⟩
      · exact hs.up i r p hi hp
      · cases hp
    · intro i r j hi hp
      rw [get_append] at hi
      rcases hi with hi | ⟨_, rfl⟩
      · have := hs.pcSub i r j hi hp
        simp; omega
      · cases hp
    · intro i r j hi hp
      rw [get_append] at hi
      rcases hi with hi | ⟨_, rfl⟩
      · have := hs.pcCheck i r j hi hp
        simp; omega
      · cases hp
    · intro i r hi
      rw [due_append _ rfl rfl]
      rw [get_append] at hi
      rcases hi with hi | ⟨rfl, rfl⟩
      · have hl := (List.getElem?_eq_some_iff.1 hi).1
        rw [hs.counts i r hi, if_neg (by omega), if_neg (by simp)]; rfl
      · rw [due_fresh hs (Nat.le_refl _)]; simp
    · intro i r hi
      rw [childCount_append]
      rw [get_append] at hi
      rcases hi with hi | ⟨rfl, rfl⟩
      · have := hs.few i r hi
        omega
      · simp
  | submitChild p x hx =>
    have hpl := (List.getElem?_eq_some_iff.1 hx).1
    have hcx : x.counter < 65535 := by
      have h1 := hs.few p x hx
      have h3 := hfew p
      rw [childCount_append, childCount_set hx x.inc_parent] at h3
      simp at h3
      omega
    have hinc : x.inc.counter = x.counter + 1 := TaskRec.inc_counter hcx
    have hdue : ∀ k, due (s.set p x.inc) k = due s k := by
      intro k
      refine due_set hx k ?_ ?_ ?_
      · unfold owes; rw [x.inc_pc]
      · unfold pends
        rw [x.inc_parent]
        by_cases hk : x.parent = some k
        · rw [if_pos hk, if_pos hk, hinc, if_neg (by omega)]
          have hne : x.counter ≠ 0 := by
            intro h0
            have h1 := (hcalm p x x.inc hx (by rw [get_append]; exact Or.inl (set_same_get hx _))
              (by rw [hk]; simp)).1 h0
            omega
          rw [if_neg hne]
        · rw [if_neg hk, if_neg hk]
      · intro i y _ _
        have := checkers_set hx x.inc i
        rw [x.inc_pc] at this
        rw [show checkers (s.set p x.inc) i = checkers s i by omega]
    refine ⟨?_, ?_, ?_, ?_, ?_⟩
    · intro i r q hi hq
      rw [get_append, get_set hx] at hi
      rcases hi with (⟨rfl, rfl⟩ | ⟨_, hi⟩) | ⟨rfl, rfl⟩
      · rw [x.inc_parent] at hq; exact hs.up _ _ _ hx hq
      · exact hs.up _ _ _ hi hq
      · cases hq; rw [List.length_set]; exact hpl
    · intro i r j hi hq
      simp only [List.length_append, List.length_set, List.length_cons, List.length_nil]
      rw [get_append, get_set hx] at hi
      rcases hi with (⟨rfl, rfl⟩ | ⟨_, hi⟩) | ⟨rfl, rfl⟩
      · rw [x.inc_pc] at hq
        have := hs.pcSub _ _ _ hx hq
        omega
      · have := hs.pcSub _ _ _ hi hq
        omega
      · cases hq
    · intro i r j hi hq
      simp only [List.length_append, List.length_set, List.length_cons, List.length_nil]
      rw [get_append, get_set hx] at hi
      rcases hi with (⟨rfl, rfl⟩ | ⟨_, hi⟩) | ⟨rfl, rfl⟩
      · rw [x.inc_pc] at hq
        have := hs.pcCheck _ _ _ hx hq
        omega
      · have := hs.pcCheck _ _ _ hi hq
        omega
      · cases hq
    · intro i r hi
      rw [due_append _ rfl rfl, hdue, List.length_set]
      rw [get_append, get_set hx, List.length_set] at hi
      rcases hi with (⟨rfl, rfl⟩ | ⟨hne, hi⟩) | ⟨rfl, rfl⟩
      · rw [hinc, hs.counts _ _ hx, if_neg (by omega), if_pos rfl]
      · have hl := (List.getElem?_eq_some_iff.1 hi).1
        rw [hs.counts _ _ hi, if_neg (by omega), if_neg (by simp; omega)]; rfl
      · rw [due_fresh hs (Nat.le_refl _), if_pos rfl, if_neg (by simp; omega)]
    · intro i r hi
      rw [childCount_append, childCount_set hx x.inc_parent]
      rw [get_append, get_set hx, List.length_set] at hi
      rcases hi with (⟨rfl, rfl⟩ | ⟨hne, hi⟩) | ⟨rfl, rfl⟩
      · have := hs.few _ _ hx
        rw [hinc]; simp; omega
      · have := hs.few _ _ hi
        omega
      · show 1 ≤ _
        omega
  | ret i r hi hr =>
    have hil := (List.getElem?_eq_some_iff.1 hi).1
    have hdue : ∀ k, due (s.set i (r.goto (.sub i))) k = due s k := by
      intro k
      have hch : ∀ j, checkers (s.set i (r.goto (.sub i))) j = checkers s j := by
        intro j
        have := checkers_set hi (r.goto (.sub i)) j
        simp [hr] at this
        exact this
      refine due_set hi k ?_ ?_ ?_
      · unfold owes; rw [hr]; simp
      · rw [hch, pends_goto]
      · intro j y _ _; rw [hch]
    refine ⟨?_, ?_, ?_, ?_, ?_⟩
    · intro k x q hk hq
      rw [get_set hi] at hk
      rcases hk with ⟨rfl, rfl⟩ | ⟨_, hk⟩
      · exact hs.up _ _ _ hi hq
      · exact hs.up _ _ _ hk hq
    · intro k x q hk hq
      rw [List.length_set]
      rw [get_set hi] at hk
      rcases hk with ⟨rfl, rfl⟩ | ⟨_, hk⟩
      · cases hq; exact hil
      · exact hs.pcSub _ _ _ hk hq
    · intro k x q hk hq
      rw [List.length_set]
      rw [get_set hi] at hk
      rcases hk with ⟨rfl, rfl⟩ | ⟨_, hk⟩
      · cases hq
      · exact hs.pcCheck _ _ _ hk hq
    · intro k x hk
      rw [hdue]
      rw [get_set hi] at hk
      rcases hk with ⟨rfl, rfl⟩ | ⟨_, hk⟩
      · exact hs.counts _ r hi
      · exact hs.counts _ _ hk
    · intro k x hk
      rw [childCount_set hi (r.goto_parent _)]
      rw [get_set hi] at hk
      rcases hk with ⟨rfl, rfl⟩ | ⟨_, hk⟩
      · exact hs.few _ r hi
      · exact hs.few _ _ hk
  | check i j r q hi hr hj =>
    have hil := (List.getElem?_eq_some_iff.1 hi).1
    have hjl := (List.getElem?_eq_some_iff.1 hj).1
    have hnext : ∀ k, q.next ≠ .check k := by
      intro k; unfold TaskRec.next; split <;> simp
    have hch : ∀ k, checkers (s.set i (r.goto q.next)) k + (if k = j then 1 else 0) = checkers s k := by
      intro k
      have := checkers_set hi (r.goto q.next) k
      rw [hr] at this
      simp only [TaskRec.goto_pc, TaskPc.check.injEq, hnext, if_false, Nat.add_zero] at this
      by_cases hk : k = j
      · subst hk; simpa using this
      · rw [if_neg (fun h => hk h.symm)] at this
        rw [if_neg hk]; exact this
    have hdue : ∀ k, due (s.set i (r.goto q.next)) k = due s k := by
      intro k
      -- what the thread owes afterwards is what the task was pending before
      have hA : tsum (owes k) s + (if q.parent = some k ∧ q.counter = 0 then 1 else 0) =
          tsum (owes k) (s.set i (r.goto q.next)) + 0 := by
        refine tsum_change (by simp) i _ _ ?_ ⟨r, _, hi, set_same_get hi _, ?_⟩
        · intro k' x y hk' hx hy
          rw [get_set hi] at hy
          rcases hy with ⟨rfl, _⟩ | ⟨_, hy⟩
          · exact absurd rfl hk'
          · rw [hx] at hy; cases hy; rfl
        · unfold owes
          rw [hr]
          rw [TaskRec.goto_pc]
          by_cases h0 : q.counter = 0
          · cases hq : q.parent with
            | none => rw [next_done (Or.inl hq)]; simp
            | some p' => rw [next_sub hq h0]; simp [h0]
          · rw [next_done (Or.inr h0)]; simp [h0]
      have hB : tsum (fun i r => pends k (checkers s i) r) s + 0 =
          tsum (fun i' x => pends k (checkers (s.set i (r.goto q.next)) i') x) (s.set i (r.goto q.next)) +
            (if q.parent = some k ∧ q.counter = 0 then 1 else 0) := by
        have hrec : ∀ (k' : Nat) (x y : TaskRec), s[k']? = some x → (s.set i (r.goto q.next))[k']? = some y →
            ∀ n, pends k n x = pends k n y := by
          intro k' x y hx hy n
          rw [get_set hi] at hy
          rcases hy with ⟨rfl, rfl⟩ | ⟨_, hy⟩
          · rw [hi] at hx; cases hx; rfl
          · rw [hx] at hy; cases hy; rfl
        have hyj : ∃ y : TaskRec, (s.set i (r.goto q.next))[j]? = some y :=
          ⟨_, List.getElem?_eq_getElem (by rw [List.length_set]; exact hjl)⟩
        obtain ⟨y, hy⟩ := hyj
        refine tsum_change (by simp) j _ _ ?_ ⟨q, y, hj, hy, ?_⟩
        · intro k' x y hk' hx hy
          have := hch k'
          rw [if_neg hk', Nat.add_zero] at this
          rw [this]
          exact hrec k' x y hx hy _
        · show pends k (checkers s j) q + 0 = pends k (checkers (s.set i (r.goto q.next)) j) y + _
          rw [← hrec j q y hj hy]
          have := hch j
          rw [if_pos rfl] at this
          unfold pends
          by_cases hp : q.parent = some k
          · by_cases h0 : q.counter = 0
            · simp only [hp, h0, if_true, and_self]; omega
            · simp [hp, h0]
          · simp [hp]
      unfold due
      omega
    refine ⟨?_, ?_, ?_, ?_, ?_⟩
    · intro k x p' hk hq
      rw [get_set hi] at hk
      rcases hk with ⟨rfl, rfl⟩ | ⟨_, hk⟩
      · exact hs.up _ _ _ hi hq
      · exact hs.up _ _ _ hk hq
    · intro k x p' hk hq
      rw [List.length_set]
      rw [get_set hi] at hk
      rcases hk with ⟨rfl, rfl⟩ | ⟨_, hk⟩
      · rw [TaskRec.goto_pc] at hq
        unfold TaskRec.next at hq
        split at hq
        · cases hq
          have := hs.up _ _ _ hj ‹_›
          omega
        · cases hq
      · exact hs.pcSub _ _ _ hk hq
    · intro k x p' hk hq
      rw [List.length_set]
      rw [get_set hi] at hk
      rcases hk with ⟨rfl, rfl⟩ | ⟨_, hk⟩
      · exact absurd hq (hnext p')
      · exact hs.pcCheck _ _ _ hk hq
    · intro k x hk
      rw [hdue]
      rw [get_set hi] at hk
      rcases hk with ⟨rfl, rfl⟩ | ⟨_, hk⟩
      · exact hs.counts _ r hi
      · exact hs.counts _ _ hk
    · intro k x hk
      rw [childCount_set hi (r.goto_parent _)]
      rw [get_set hi] at hk
      rcases hk with ⟨rfl, rfl⟩ | ⟨_, hk⟩
      · exact hs.few _ r hi
      · exact hs.few _ _ hk
  | sub i j r q hi hr hj =>
    have hil := (List.getElem?_eq_some_iff.1 hi).1
    have hjl := hs.pcSub i r j hi hr
    -- the finished task before the step
    obtain ⟨q0, hq0, hpar, hcnt⟩ : ∃ q0 : TaskRec, s[j]? = some q0 ∧ q.parent = q0.parent ∧ q.counter = q0.counter := by
      rw [get_set hi] at hj
      rcases hj with ⟨rfl, rfl⟩ | ⟨_, hj⟩
      · exact ⟨r, hi, rfl, rfl⟩
      · exact ⟨q, hj, rfl, rfl⟩
    have hpos : 0 < q.counter := by
      rw [hcnt, hs.counts j q0 hq0]
      have h1 := tsum_pos (g := owes j) hi
      have h2 : 1 ≤ owes j i r := by unfold owes; rw [hr]; simp
      unfold due
      omega
    have hdec : q.dec.counter = q.counter - 1 := TaskRec.dec_counter hpos (by rw [hcnt]; exact hlt j q0 hq0)
    -- reading the state after the step
    have hget : ∀ (k : Nat) (x : TaskRec), s[k]? = some x → ∃ y : TaskRec,
        ((s.set i (r.goto (.check j))).set j q.dec)[k]? = some y ∧ y.parent = x.parent ∧
        y.pc = (if k = i then .check j else x.pc) ∧ y.counter = (if k = j then x.counter - 1 else x.counter) := by
      intro k x hx
      by_cases hkj : k = j
      · subst hkj
        rw [hq0] at hx; cases hx
        refine ⟨q.dec, set_same_get hj _, by rw [q.dec_parent, hpar], ?_, by rw [hdec, hcnt, if_pos rfl]⟩
        rw [q.dec_pc]
        rw [get_set hi] at hj
        rcases hj with ⟨rfl, rfl⟩ | ⟨hne, hj⟩
        · simp
        · rw [hq0] at hj; cases hj; rw [if_neg hne]
      · by_cases hki : k = i
        · subst hki
          rw [hi] at hx; cases hx
          refine ⟨r.goto (.check j), ?_, rfl, by simp, by simp [hkj]⟩
          rw [get_set hj]
          exact Or.inr ⟨hkj, set_same_get hi _⟩
        · refine ⟨x, ?_, rfl, by simp [hki], by simp [hkj]⟩
          rw [get_set hj, get_set hi]
          exact Or.inr ⟨hkj, Or.inr ⟨hki, hx⟩⟩
    have hback : ∀ (k : Nat) (y : TaskRec), ((s.set i (r.goto (.check j))).set j q.dec)[k]? = some y →
        ∃ x : TaskRec, s[k]? = some x ∧ y.parent = x.parent ∧ y.pc = (if k = i then .check j else x.pc) ∧
          y.counter = (if k = j then x.counter - 1 else x.counter) := by
      intro k y hy
      have hkl : k < s.length := by
        have := (List.getElem?_eq_some_iff.1 hy).1
        simpa using this
      obtain ⟨y', h1, h2⟩ := hget k s[k] (List.getElem?_eq_getElem hkl)
      rw [hy] at h1; cases h1
      exact ⟨s[k], List.getElem?_eq_getElem hkl, h2⟩
    have hch : ∀ k, checkers ((s.set i (r.goto (.check j))).set j q.dec) k = checkers s k + (if k = j then 1 else 0) := by
      intro k
      have h1 := checkers_set hi (r.goto (.check j)) k
      have h2 := checkers_set hj q.dec k
      rw [q.dec_pc] at h2
      rw [hr] at h1
      simp only [TaskRec.goto_pc, TaskPc.check.injEq] at h1
      simp only [reduceCtorEq, if_false, Nat.add_zero] at h1
      by_cases hk : k = j
      · subst hk; simp only [if_true] at h1 ⊢; omega
      · rw [if_neg (fun h => hk h.symm)] at h1
        rw [if_neg hk]; omega
    have hdue : ∀ k, due s k = due ((s.set i (r.goto (.check j))).set j q.dec) k + (if k = j then 1 else 0) := by
      intro k
      have hA : tsum (owes k) s + 0 = tsum (owes k) ((s.set i (r.goto (.check j))).set j q.dec) +
          (if k = j then 1 else 0) := by
        obtain ⟨y, hy, _, hy2, _⟩ := hget i r hi
        refine tsum_change (by simp) i _ _ ?_ ⟨r, y, hi, hy, ?_⟩
        · intro k' x y hk' hx hy
          obtain ⟨y', h1, _, h3, _⟩ := hget k' x hx
          rw [hy] at h1; cases h1
          unfold owes
          rw [h3, if_neg hk']
        · unfold owes
          rw [hy2, if_pos rfl, hr]
          by_cases hk : k = j
          · simp [hk]
          · have : ¬ j = k := fun h => hk h.symm
            simp [hk, this]
      have hB : tsum (fun i r => pends k (checkers s i) r) s =
          tsum (fun i' x => pends k (checkers ((s.set i (r.goto (.check j))).set j q.dec) i') x)
            ((s.set i (r.goto (.check j))).set j q.dec) := by
        refine tsum_eq (by simp) ?_
        intro k' x y hx hy
        obtain ⟨y', h1, h2, _, h4⟩ := hget k' x hx
        rw [hy] at h1; cases h1
        rw [hch]
        unfold pends
        rw [h2]
        by_cases hk' : k' = j
        · subst hk'
          rw [if_pos rfl] at h4 ⊢
          rw [hq0] at hx; cases hx
          by_cases hp : q0.parent = some k
          · rw [if_pos hp, if_pos hp, if_neg (by omega)]
            by_cases h0 : y.counter = 0
            · rw [if_pos h0]
              have h1 := (hcalm k' q0 y hq0 hy (by rw [hp]; simp)).2 (by omega) h0
              rw [hch, if_pos rfl] at h1
              omega
            · rw [if_neg h0]
          · rw [if_neg hp, if_neg hp]
        · rw [if_neg hk'] at h4 ⊢
          rw [h4, Nat.add_zero]
      unfold due
      omega
    refine ⟨?_, ?_, ?_, ?_, ?_⟩
    · intro k y p' hk hq
      obtain ⟨x, h1, h2, _⟩ := hback k y hk
      rw [h2] at hq
      exact hs.up _ _ _ h1 hq
    · intro k y p' hk hq
      obtain ⟨x, h1, _, h3, _⟩ := hback k y hk
      rw [h3] at hq
      simp only [List.length_set]
      split at hq
      · cases hq
      · exact hs.pcSub _ _ _ h1 hq
    · intro k y p' hk hq
      obtain ⟨x, h1, _, h3, _⟩ := hback k y hk
      rw [h3] at hq
      simp only [List.length_set]
      split at hq
      · cases hq; exact hjl
      · exact hs.pcCheck _ _ _ h1 hq
    · intro k y hk
      obtain ⟨x, h1, _, _, h4⟩ := hback k y hk
      have h5 := hdue k
      have h6 := hs.counts k x h1
      rw [h4]
      split <;> simp_all <;> omega
    · intro k y hk
      obtain ⟨x, h1, _, _, h4⟩ := hback k y hk
      rw [childCount_set hj q.dec_parent, childCount_set hi (r.goto_parent _)]
      have h6 := hs.few k x h1
      rw [h4]
      split <;> omega

theorem Spec.CalmReach.reach {s : Tasks} (h : CalmReach s) : TaskReach s := by
  induction h with
  | init => exact .init
  | step _ h2 _ ih => exact .step ih h2

theorem Spec.CalmReach.inv {s : Tasks} (h : CalmReach s) (hf : Few s) : CalmInv s := by
  induction h with
  | init => exact ⟨by simp, by simp, by simp, by simp, by simp⟩
  | step _ h2 h3 ih =>
    have hfs : Few _ := fun p => Nat.lt_of_le_of_lt (h2.childCount_le p) (hf p)
    exact (ih hfs).step h2 h3 hf

end CoEcs
