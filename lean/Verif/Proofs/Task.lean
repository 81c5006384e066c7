import Verif.Model.Task

namespace CoEcs

@[simp] theorem TaskRec.inc_parent (r : TaskRec) : r.inc.parent = r.parent := by unfold TaskRec.inc; rfl
@[simp] theorem TaskRec.inc_pc (r : TaskRec) : r.inc.pc = r.pc := by unfold TaskRec.inc; rfl
@[simp] theorem TaskRec.dec_parent (r : TaskRec) : r.dec.parent = r.parent := by unfold TaskRec.dec; rfl
@[simp] theorem TaskRec.dec_pc (r : TaskRec) : r.dec.pc = r.pc := by unfold TaskRec.dec; rfl
@[simp] theorem TaskRec.goto_parent (r : TaskRec) (pc : TaskPc) : (r.goto pc).parent = r.parent := rfl
@[simp] theorem TaskRec.goto_pc (r : TaskRec) (pc : TaskPc) : (r.goto pc).pc = pc := rfl
@[simp] theorem TaskRec.goto_counter (r : TaskRec) (pc : TaskPc) : (r.goto pc).counter = r.counter := rfl

theorem TaskRec.inc_counter {r : TaskRec} (h : r.counter < 65535) : r.inc.counter = r.counter + 1 := by
  unfold TaskRec.inc
  exact Nat.mod_eq_of_lt (by omega)

theorem TaskRec.dec_counter {r : TaskRec} (h : 0 < r.counter) (h' : r.counter < 65536) :
    r.dec.counter = r.counter - 1 := by
  unfold TaskRec.dec
  show (r.counter + 65535) % 65536 = _
  omega

/-- Every parent is itself without a parent. -/
def Flat (s : Tasks) : Prop := ∀ (i : Nat) (r : TaskRec) (p : Nat), s[i]? = some r → r.parent = some p →
  ∃ q : TaskRec, s[p]? = some q ∧ q.parent = none

/-- Number of children. -/
def childCount (s : Tasks) (p : Nat) : Nat := s.countP fun r => r.parent == some p

/-- No parent has 65535 or more children. -/
def Few (s : Tasks) : Prop := ∀ p, childCount s p < 65535

/-- Task `i` still has to decrement the counter of `p`. -/
def contrib (p i : Nat) (r : TaskRec) : Bool :=
  if i = p then r.pc == .running || r.pc == .sub p
  else r.parent == some p && (r.pc == .running || r.pc == .sub i || r.pc == .check i || r.pc == .sub p)

/-- How many tasks still have to decrement the counter of `p`. -/
def load (s : Tasks) (p : Nat) : Nat := s.zipIdx.countP fun x => contrib p x.2 x.1

theorem zipIdx_set (s : Tasks) (i : Nat) (r : TaskRec) : (s.set i r).zipIdx = s.zipIdx.set i (r, i) := by
  apply List.ext_getElem?
  intro j
  simp only [List.getElem?_zipIdx, List.getElem?_set, List.length_zipIdx, Nat.zero_add]
  by_cases h : i = j
  · subst h
    by_cases hl : i < s.length <;> simp [hl]
  · simp [h]

theorem load_set {s : Tasks} {i : Nat} {r : TaskRec} (h : s[i]? = some r) (r' : TaskRec) (p : Nat) :
    load (s.set i r') p + (if contrib p i r then 1 else 0) = load s p + (if contrib p i r' then 1 else 0) := by
  obtain ⟨hi, he⟩ := List.getElem?_eq_some_iff.1 h
  have hl : i < s.zipIdx.length := by rw [List.length_zipIdx]; exact hi
  unfold load
  rw [zipIdx_set, List.countP_set hl]
  have h1 : s.zipIdx[i] = (r, i) := by simp [he]
  rw [h1]
  have h2 : contrib p i r = true → 0 < s.zipIdx.countP fun x => contrib p x.2 x.1 := by
    intro hc
    exact List.countP_pos_iff.2 ⟨(r, i), List.mem_zipIdx_iff_getElem?.2 h, hc⟩
  by_cases hc : contrib p i r = true
  · have := h2 hc
    simp only [hc, if_true]
    omega
  · simp only [hc, if_false, Bool.false_eq_true]
    omega

theorem load_set_eq {s : Tasks} {i : Nat} {r : TaskRec} (h : s[i]? = some r) {r' : TaskRec} {p : Nat}
    (hc : contrib p i r' = contrib p i r) : load (s.set i r') p = load s p := by
  have := load_set h r' p
  rw [hc] at this
  omega

theorem load_append (s : Tasks) (r : TaskRec) (p : Nat) :
    load (s ++ [r]) p = load s p + (if contrib p s.length r then 1 else 0) := by
  unfold load
  rw [List.zipIdx_append, List.countP_append]
  simp [List.countP_cons]

theorem childCount_set {s : Tasks} {i : Nat} {r r' : TaskRec} (h : s[i]? = some r) (hp : r'.parent = r.parent) (p : Nat) :
    childCount (s.set i r') p = childCount s p := by
  obtain ⟨hi, he⟩ := List.getElem?_eq_some_iff.1 h
  unfold childCount
  rw [List.countP_set hi, he, hp]
  have h2 : (r.parent == some p) = true → 0 < s.countP fun r => r.parent == some p := fun hc =>
    List.countP_pos_iff.2 ⟨r, List.mem_of_getElem? h, hc⟩
  by_cases hc : (r.parent == some p) = true
  · have := h2 hc
    simp only [hc, if_true]
    omega
  · simp only [hc, if_false, Bool.false_eq_true]
    omega

theorem childCount_append (s : Tasks) (r : TaskRec) (p : Nat) :
    childCount (s ++ [r]) p = childCount s p + (if r.parent == some p then 1 else 0) := by
  unfold childCount
  rw [List.countP_append]
  simp [List.countP_cons]

private theorem countP_one_more : ∀ (s : Tasks) (k p : Nat), ((s.zipIdx k).countP fun x => contrib p x.2 x.1) ≤
    (s.countP fun r => r.parent == some p) + (if k ≤ p then 1 else 0) := by
  intro s
  induction s with
  | nil => intro k p; simp
  | cons r s ih =>
    intro k p
    rw [List.zipIdx_cons, List.countP_cons, List.countP_cons]
    have h := ih (k + 1) p
    by_cases hk : k = p
    · subst hk
      rw [if_neg (by omega)] at h
      rw [if_pos (Nat.le_refl _)]
      have : (if contrib k k r = true then 1 else 0) ≤ 1 := by split <;> omega
      simp only at this ⊢
      omega
    · have h2 : contrib p k r = true → (r.parent == some p) = true := by
        intro hc
        unfold contrib at hc
        rw [if_neg hk] at hc
        simp only [Bool.and_eq_true] at hc
        exact hc.1
      have h3 : (if contrib p k r = true then 1 else 0) ≤ (if (r.parent == some p) = true then 1 else 0) := by
        by_cases hc : contrib p k r = true
        · rw [if_pos hc, if_pos (h2 hc)]; exact Nat.le_refl _
        · rw [if_neg hc]; exact Nat.zero_le _
      have h4 : (if k + 1 ≤ p then 1 else 0) = (if k ≤ p then 1 else 0) := by
        by_cases hle : k ≤ p
        · rw [if_pos hle, if_pos (by omega)]
        · rw [if_neg hle, if_neg (by omega)]
      rw [h4] at h
      simp only at h3 ⊢
      omega

theorem load_le (s : Tasks) (p : Nat) : load s p ≤ childCount s p + 1 := by
  have := countP_one_more s 0 p
  rw [if_pos (Nat.zero_le _)] at this
  exact this

/-- The invariant for tasks without grandchildren. -/
structure TInv (s : Tasks) : Prop where
  pcRoot : ∀ (i : Nat) (r : TaskRec), s[i]? = some r → r.parent = none →
    r.pc = .running ∨ r.pc = .sub i ∨ r.pc = .check i ∨ r.pc = .done
  pcLeaf : ∀ (i : Nat) (r : TaskRec) (p : Nat), s[i]? = some r → r.parent = some p →
    r.pc = .running ∨ r.pc = .sub i ∨ r.pc = .check i ∨ r.pc = .sub p ∨ r.pc = .check p ∨ r.pc = .done
  root : ∀ (i : Nat) (r : TaskRec), s[i]? = some r → r.parent = none → r.counter = load s i
  leaf : ∀ (i : Nat) (r : TaskRec) (p : Nat), s[i]? = some r → r.parent = some p →
    r.counter = if r.pc = .running ∨ r.pc = .sub i then 1 else 0

/-- A step changes no parents; the tasks before remain. -/
theorem TaskStep.parents {s t : Tasks} (h : TaskStep s t) : ∀ (i : Nat) (r : TaskRec), s[i]? = some r →
    ∃ r' : TaskRec, t[i]? = some r' ∧ r'.parent = r.parent := by
  intro i r hi
  have hset : ∀ (u : Tasks) (j : Nat) (x y : TaskRec), u[j]? = some x → y.parent = x.parent →
      ∀ (r : TaskRec), u[i]? = some r → ∃ r' : TaskRec, (u.set j y)[i]? = some r' ∧ r'.parent = r.parent := by
    intro u j x y hj hy r hr
    by_cases hij : j = i
    · subst hij
      rw [hj] at hr; cases hr
      exact ⟨y, by simp [(List.getElem?_eq_some_iff.1 hj).1], hy⟩
    · exact ⟨r, by rw [List.getElem?_set_ne hij]; exact hr, rfl⟩
  have happ : ∀ (u : Tasks) (x r : TaskRec), u[i]? = some r → (u ++ [x])[i]? = some r := by
    intro u x r hr
    rw [List.getElem?_append_left (List.getElem?_eq_some_iff.1 hr).1]; exact hr
  cases h with
  | submitRoot => exact ⟨r, happ _ _ _ hi, rfl⟩
  | submitChild p q hp =>
    obtain ⟨r', h1, h2⟩ := hset s p q q.inc hp q.inc_parent r hi
    exact ⟨r', happ _ _ _ h1, h2⟩
  | ret j q hj hq => exact hset s j q _ hj (q.goto_parent (.sub j)) r hi
  | sub j k q x hj hq hk =>
    obtain ⟨r', h1, h2⟩ := hset s j q (q.goto (.check k)) hj rfl r hi
    obtain ⟨r'', h3, h4⟩ := hset _ k x x.dec hk x.dec_parent r' h1
    exact ⟨r'', h3, h4.trans h2⟩
  | check j k q x hj hq hk => exact hset s j q _ hj (q.goto_parent x.next) r hi

theorem TaskStep.flat {s t : Tasks} (h : TaskStep s t) (ht : Flat t) : ∀ (i : Nat) (r : TaskRec) (p : Nat),
    s[i]? = some r → r.parent = some p → ∀ q : TaskRec, s[p]? = some q → q.parent = none := by
  intro i r p hi hp q hq
  obtain ⟨r', h1, h2⟩ := h.parents i r hi
  obtain ⟨q', h3, h4⟩ := h.parents p q hq
  obtain ⟨q'', h5, h6⟩ := ht i r' p h1 (h2.trans hp)
  rw [h3] at h5; cases h5
  rw [← h4]; exact h6

theorem TaskStep.childCount_le {s t : Tasks} (h : TaskStep s t) (p : Nat) : childCount s p ≤ childCount t p := by
  cases h with
  | submitRoot => rw [childCount_append]; omega
  | submitChild q r hq => rw [childCount_append, childCount_set hq r.inc_parent]; omega
  | ret j q hj hq => rw [childCount_set hj (q.goto_parent _)]; exact Nat.le_refl _
  | sub j k q x hj hq hk =>
    rw [childCount_set hk x.dec_parent, childCount_set hj (q.goto_parent _)]
    exact Nat.le_refl _
  | check j k q x hj hq hk => rw [childCount_set hj (q.goto_parent _)]; exact Nat.le_refl _

/-- Parents exist. -/
def ParentsExist (s : Tasks) : Prop := ∀ (i : Nat) (r : TaskRec) (p : Nat), s[i]? = some r → r.parent = some p → p < s.length

theorem get_set {s : Tasks} {i : Nat} {r : TaskRec} (h : s[i]? = some r) (x y : TaskRec) (k : Nat) :
    (s.set i x)[k]? = some y ↔ (k = i ∧ y = x) ∨ (k ≠ i ∧ s[k]? = some y) := by
  have hi := (List.getElem?_eq_some_iff.1 h).1
  rw [List.getElem?_set]
  by_cases hk : i = k
  · subst hk
    simp only [if_true, hi, true_and, ne_eq, not_true_eq_false, false_and, or_false, Option.some.injEq]
    exact eq_comm
  · rw [if_neg hk]
    have : ¬ k = i := fun h => hk h.symm
    simp [this]

theorem get_append {s : Tasks} (x y : TaskRec) (k : Nat) :
    (s ++ [x])[k]? = some y ↔ s[k]? = some y ∨ (k = s.length ∧ y = x) := by
  by_cases hk : k < s.length
  · rw [List.getElem?_append_left hk]
    constructor
    · exact Or.inl
    · rintro (h | ⟨h, _⟩)
      · exact h
      · omega
  · rw [List.getElem?_append_right (by omega)]
    by_cases he : k = s.length
    · subst he
      simp [eq_comm]
    · have h1 : k - s.length ≠ 0 := by omega
      have h2 : s[k]? = none := List.getElem?_eq_none_iff.2 (by omega)
      rw [h2, List.getElem?_eq_none_iff.2 (by simp; omega)]
      simp [he]

theorem ParentsExist.step {s t : Tasks} (hs : ParentsExist s) (h : TaskStep s t) : ParentsExist t := by
  intro i r p hi hp
  cases h with
  | submitRoot =>
    rw [get_append] at hi
    rcases hi with hi | ⟨_, rfl⟩
    · have := hs i r p hi hp
      simp; omega
    · cases hp
  | submitChild q x hq =>
    have hlt := (List.getElem?_eq_some_iff.1 hq).1
    rw [get_append, get_set hq] at hi
    simp only [List.length_append, List.length_set, List.length_cons, List.length_nil]
    rcases hi with (⟨rfl, rfl⟩ | ⟨_, hi⟩) | ⟨_, rfl⟩
    · rw [TaskRec.inc_parent] at hp
      have := hs _ _ _ hq hp
      omega
    · have := hs _ _ _ hi hp
      omega
    · cases hp
      omega
  | ret j q hj hq =>
    rw [get_set hj] at hi
    rw [List.length_set]
    rcases hi with ⟨rfl, rfl⟩ | ⟨_, hi⟩
    · exact hs _ _ _ hj hp
    · exact hs _ _ _ hi hp
  | sub j k q x hj hq hk =>
    rw [get_set hk] at hi
    rw [List.length_set, List.length_set]
    rcases hi with ⟨rfl, rfl⟩ | ⟨_, hi⟩
    · rw [TaskRec.dec_parent] at hp
      rw [get_set hj] at hk
      rcases hk with ⟨rfl, rfl⟩ | ⟨_, hk⟩
      · exact hs _ _ _ hj hp
      · exact hs _ _ _ hk hp
    · rw [get_set hj] at hi
      rcases hi with ⟨rfl, rfl⟩ | ⟨_, hi⟩
      · exact hs _ _ _ hj hp
      · exact hs _ _ _ hi hp
  | check j k q x hj hq hk =>
    rw [get_set hj] at hi
    rw [List.length_set]
    rcases hi with ⟨rfl, rfl⟩ | ⟨_, hi⟩
    · exact hs _ _ _ hj hp
    · exact hs _ _ _ hi hp

theorem contrib_counter (p i : Nat) {r r' : TaskRec} (h1 : r'.parent = r.parent) (h2 : r'.pc = r.pc) :
    contrib p i r' = contrib p i r := by
  unfold contrib
  rw [h1, h2]

/-- Replacing one task. -/
theorem TInv.set1 {s : Tasks} (hs : TInv s) {j : Nat} {q q' : TaskRec} (hj : s[j]? = some q)
    (hp : q'.parent = q.parent)
    (hroot : q.parent = none → q'.pc = .running ∨ q'.pc = .sub j ∨ q'.pc = .check j ∨ q'.pc = .done)
    (hleaf : ∀ p, q.parent = some p →
      (q'.pc = .running ∨ q'.pc = .sub j ∨ q'.pc = .check j ∨ q'.pc = .sub p ∨ q'.pc = .check p ∨ q'.pc = .done) ∧
      q'.counter = if q'.pc = .running ∨ q'.pc = .sub j then 1 else 0)
    (hc : q.parent = none → q'.counter = load (s.set j q') j)
    (hother : ∀ p, p ≠ j → contrib p j q' = contrib p j q) : TInv (s.set j q') := by
  refine ⟨?_, ?_, ?_, ?_⟩
  · intro i r hi hr
    rw [get_set hj] at hi
    rcases hi with ⟨rfl, rfl⟩ | ⟨_, hi⟩
    · exact hroot (hp.symm.trans hr)
    · exact hs.pcRoot _ _ hi hr
  · intro i r p hi hr
    rw [get_set hj] at hi
    rcases hi with ⟨rfl, rfl⟩ | ⟨_, hi⟩
    · exact (hleaf p (hp.symm.trans hr)).1
    · exact hs.pcLeaf _ _ _ hi hr
  · intro i r hi hr
    rw [get_set hj] at hi
    rcases hi with ⟨rfl, rfl⟩ | ⟨hne, hi⟩
    · exact hc (hp.symm.trans hr)
    · rw [load_set_eq hj (hother i hne), hs.root _ _ hi hr]
  · intro i r p hi hr
    rw [get_set hj] at hi
    rcases hi with ⟨rfl, rfl⟩ | ⟨_, hi⟩
    · exact (hleaf p (hp.symm.trans hr)).2
    · exact hs.leaf _ _ _ hi hr

theorem TInv.step {s t : Tasks} (hs : TInv s) (hpe : ParentsExist s)
    (hflat : ∀ (i : Nat) (r : TaskRec) (p : Nat), s[i]? = some r → r.parent = some p →
      ∀ q : TaskRec, s[p]? = some q → q.parent = none)
    (h : TaskStep s t) (hft : Flat t) (hfew : Few t) : TInv t := by
  have hcount : ∀ (i : Nat) (r : TaskRec), s[i]? = some r → r.parent = none → r.counter ≤ 65535 := by
    intro i r hi hr
    rw [hs.root i r hi hr]
    have h1 := load_le s i
    have h2 := h.childCount_le i
    have h3 := hfew i
    omega
  have hpne : ∀ (i : Nat) (r : TaskRec) (p : Nat), s[i]? = some r → r.parent = some p → p ≠ i := by
    intro i r p hi hp he
    subst he
    rw [hflat _ r _ hi hp r hi] at hp
    cases hp
  cases h with
  | submitRoot =>
    have hz : load s s.length = 0 := by
      unfold load
      rw [List.countP_eq_zero]
      rintro ⟨x, k⟩ hx hc
      rw [List.mem_zipIdx_iff_getElem?] at hx
      have hk := (List.getElem?_eq_some_iff.1 hx).1
      simp only [contrib] at hc hk hx
      rw [if_neg (by omega)] at hc
      simp only [Bool.and_eq_true, beq_iff_eq] at hc
      have := hpe k x _ hx hc.1
      omega
    refine ⟨?_, ?_, ?_, ?_⟩
    · intro i r hi hr
      rw [get_append] at hi
      rcases hi with hi | ⟨rfl, rfl⟩
      · exact hs.pcRoot i r hi hr
      · exact Or.inl rfl
    · intro i r p hi hp
      rw [get_append] at hi
      rcases hi with hi | ⟨rfl, rfl⟩
      · exact hs.pcLeaf i r p hi hp
      · cases hp
    · intro i r hi hr
      rw [load_append]
      rw [get_append] at hi
      rcases hi with hi | ⟨rfl, rfl⟩
      · have hk := (List.getElem?_eq_some_iff.1 hi).1
        have : contrib i s.length ⟨none, 1, .running⟩ = false := by
          unfold contrib
          rw [if_neg (by omega)]
          rfl
        rw [this, hs.root i r hi hr]
        rfl
      · have : contrib s.length s.length ⟨none, 1, .running⟩ = true := by
          unfold contrib
          rw [if_pos rfl]
          rfl
        rw [this, hz]
        rfl
    · intro i r p hi hp
      rw [get_append] at hi
      rcases hi with hi | ⟨rfl, rfl⟩
      · exact hs.leaf i r p hi hp
      · cases hp
  | submitChild q x hq =>
    have hql := (List.getElem?_eq_some_iff.1 hq).1
    have hxr : x.parent = none := by
      obtain ⟨y, h1, h2⟩ := hft s.length ⟨some q, 1, .running⟩ q (by
        rw [get_append]
        exact Or.inr ⟨by simp, rfl⟩) rfl
      rw [get_append, get_set hq] at h1
      rcases h1 with (⟨_, rfl⟩ | ⟨h1, _⟩) | ⟨h1, _⟩
      · exact h2
      · exact absurd rfl h1
      · simp at h1; omega
    have hxc : x.counter < 65535 := by
      rw [hs.root q x hq hxr]
      have h1 := load_le s q
      have h3 := hfew q
      rw [childCount_append, childCount_set hq x.inc_parent] at h3
      simp only [beq_self_eq_true, if_true] at h3
      omega
    have hload : ∀ p, p ≠ s.length →
        load (s.set q x.inc ++ [⟨some q, 1, .running⟩]) p = load s p + if p = q then 1 else 0 := by
      intro p hpl
      rw [load_append, load_set_eq hq (contrib_counter p q x.inc_parent x.inc_pc), List.length_set]
      by_cases hp : p = q
      · subst hp
        have : contrib p s.length ⟨some p, 1, .running⟩ = true := by
          unfold contrib
          rw [if_neg (by omega)]
          simp
        rw [this, if_pos rfl, if_pos rfl]
      · have : contrib p s.length ⟨some q, 1, .running⟩ = false := by
          unfold contrib
          rw [if_neg (by omega)]
          have : (some q == some p) = false := by simp; omega
          rw [this]; rfl
        rw [this, if_neg hp]
        rfl
    refine ⟨?_, ?_, ?_, ?_⟩
    · intro i r hi hr
      rw [get_append, get_set hq] at hi
      rcases hi with (⟨rfl, rfl⟩ | ⟨_, hi⟩) | ⟨_, rfl⟩
      · rw [TaskRec.inc_pc]; exact hs.pcRoot _ _ hq hxr
      · exact hs.pcRoot _ _ hi hr
      · cases hr
    · intro i r p hi hp
      rw [get_append, get_set hq] at hi
      rcases hi with (⟨rfl, rfl⟩ | ⟨_, hi⟩) | ⟨_, rfl⟩
      · rw [TaskRec.inc_parent, hxr] at hp; cases hp
      · exact hs.pcLeaf _ _ _ hi hp
      · exact Or.inl rfl
    · intro i r hi hr
      rw [get_append, get_set hq] at hi
      rcases hi with (⟨rfl, rfl⟩ | ⟨hne, hi⟩) | ⟨_, rfl⟩
      · rw [hload _ (by omega), if_pos rfl, TaskRec.inc_counter hxc, hs.root _ _ hq hxr]
      · have := (List.getElem?_eq_some_iff.1 hi).1
        rw [hload _ (by omega), if_neg hne, hs.root _ _ hi hr]; rfl
      · cases hr
    · intro i r p hi hp
      rw [get_append, get_set hq] at hi
      rcases hi with (⟨rfl, rfl⟩ | ⟨_, hi⟩) | ⟨_, rfl⟩
      · rw [TaskRec.inc_parent, hxr] at hp; cases hp
      · exact hs.leaf _ _ _ hi hp
      · simp
  | ret j q hj hq =>
    refine hs.set1 hj rfl ?_ ?_ ?_ ?_
    · intro _; exact Or.inr (Or.inl rfl)
    · intro p hp
      refine ⟨Or.inr (Or.inl rfl), ?_⟩
      rw [TaskRec.goto_counter, hs.leaf j q p hj hp]
      simp [hq]
    · intro hp
      rw [TaskRec.goto_counter, hs.root j q hj hp, load_set_eq hj]
      rw [Bool.eq_iff_iff]; simp [contrib, hq]
    · intro p hp
      rw [Bool.eq_iff_iff]; simp [contrib, hq, Ne.symm hp]
  | sub j k q x hj hq hk =>
    have hjl := (List.getElem?_eq_some_iff.1 hj).1
    cases hqp : q.parent with
    | none =>
      have hkj : k = j := by
        rcases hs.pcRoot j q hj hqp with h | h | h | h <;> rw [hq] at h <;> cases h; rfl
      subst hkj
      rw [get_set hj] at hk
      rcases hk with ⟨_, rfl⟩ | ⟨hk, _⟩
      rotate_left
      · exact absurd rfl hk
      rw [List.set_set]
      have hl := load_set hj (q.goto (.check k)).dec k
      have h1 : contrib k k q = true := by simp [contrib, hq]
      have h2 : contrib k k (q.goto (.check k)).dec = false := by simp [contrib]
      rw [h1, h2] at hl
      simp only [if_true, Bool.false_eq_true, if_false] at hl
      have hc := hs.root k q hj hqp
      have hb := hcount k q hj hqp
      refine hs.set1 hj (by simp) ?_ ?_ ?_ ?_
      · intro _; simp
      · intro p hp; rw [hqp] at hp; cases hp
      · intro _
        rw [TaskRec.dec_counter (by rw [TaskRec.goto_counter]; omega) (by rw [TaskRec.goto_counter]; omega),
          TaskRec.goto_counter]
        omega
      · intro p hp
        unfold contrib
        rw [if_neg (Ne.symm hp), if_neg (Ne.symm hp)]
        simp [hqp]
    | some p0 =>
      have hp0 := hpne j q p0 hj hqp
      have hk' : k = j ∨ k = p0 := by
        rcases hs.pcLeaf j q p0 hj hqp with h | h | h | h | h | h <;> rw [hq] at h <;> cases h
        · exact Or.inl rfl
        · exact Or.inr rfl
      rcases hk' with rfl | rfl
      · rw [get_set hj] at hk
        rcases hk with ⟨_, rfl⟩ | ⟨hk, _⟩
        rotate_left
        · exact absurd rfl hk
        rw [List.set_set]
        have hc := hs.leaf k q p0 hj hqp
        rw [if_pos (Or.inr hq)] at hc
        refine hs.set1 hj (by simp) ?_ ?_ ?_ ?_
        · intro h; rw [hqp] at h; cases h
        · intro p hp
          refine ⟨by simp, ?_⟩
          rw [TaskRec.dec_counter (by rw [TaskRec.goto_counter]; omega) (by rw [TaskRec.goto_counter]; omega),
            TaskRec.goto_counter, hc]
          simp
        · intro h; rw [hqp] at h; cases h
        · intro p hp
          unfold contrib
          rw [if_neg (Ne.symm hp), if_neg (Ne.symm hp), Bool.eq_iff_iff]
          simp [hqp, hq]
      · have hks := hk
        rw [get_set hj] at hk
        rcases hk with ⟨hk, _⟩ | ⟨_, hk⟩
        · exact absurd hk hp0
        have hxr := hflat j q k hj hqp x hk
        have hc := hs.root k x hk hxr
        have hb := hcount k x hk hxr
        have hl : ∀ p, p ≠ j → load ((s.set j (q.goto (.check k))).set k x.dec) p + (if p = k then 1 else 0) = load s p := by
          intro p hp
          rw [load_set_eq hks (contrib_counter p k x.dec_parent x.dec_pc)]
          have h0 := load_set hj (q.goto (.check k)) p
          by_cases hpk : p = k
          · subst hpk
            have h1 : contrib p j q = true := by
              unfold contrib; rw [if_neg (Ne.symm hp)]; simp [hqp, hq]
            have h2 : contrib p j (q.goto (.check p)) = false := by
              unfold contrib; rw [if_neg (Ne.symm hp)]; simp; intro _; exact hp
            rw [h1, h2] at h0
            simp only [if_true, Bool.false_eq_true, if_false] at h0 ⊢
            omega
          · have h1 : contrib p j q = false := by
              unfold contrib; rw [if_neg (Ne.symm hp)]; simp [hqp, Ne.symm hpk]
            have h2 : contrib p j (q.goto (.check k)) = false := by
              unfold contrib; rw [if_neg (Ne.symm hp)]; simp [hqp, Ne.symm hpk]
            rw [h1, h2] at h0
            simp only [Bool.false_eq_true, if_false, if_neg hpk] at h0 ⊢
            omega
        have hlk := hl k hp0
        rw [if_pos rfl] at hlk
        refine ⟨?_, ?_, ?_, ?_⟩
        · intro i r hi hr
          rw [get_set hks, get_set hj] at hi
          rcases hi with ⟨rfl, rfl⟩ | ⟨_, ⟨rfl, rfl⟩ | ⟨_, hi⟩⟩
          · rw [TaskRec.dec_pc]; exact hs.pcRoot _ _ hk hxr
          · rw [TaskRec.goto_parent, hqp] at hr; cases hr
          · exact hs.pcRoot _ _ hi hr
        · intro i r p hi hp
          rw [get_set hks, get_set hj] at hi
          rcases hi with ⟨rfl, rfl⟩ | ⟨_, ⟨rfl, rfl⟩ | ⟨_, hi⟩⟩
          · rw [TaskRec.dec_parent, hxr] at hp; cases hp
          · rw [TaskRec.goto_parent, hqp] at hp; cases hp; simp
          · exact hs.pcLeaf _ _ _ hi hp
        · intro i r hi hr
          rw [get_set hks, get_set hj] at hi
          rcases hi with ⟨rfl, rfl⟩ | ⟨hik, ⟨rfl, rfl⟩ | ⟨hij, hi⟩⟩
          · rw [TaskRec.dec_counter (by omega) (by omega)]
            omega
          · rw [TaskRec.goto_parent, hqp] at hr; cases hr
          · have := hl i hij
            rw [if_neg hik] at this
            rw [hs.root _ _ hi hr]; omega
        · intro i r p hi hp
          rw [get_set hks, get_set hj] at hi
          rcases hi with ⟨rfl, rfl⟩ | ⟨_, ⟨rfl, rfl⟩ | ⟨_, hi⟩⟩
          · rw [TaskRec.dec_parent, hxr] at hp; cases hp
          · rw [TaskRec.goto_counter, hs.leaf _ _ _ hj hqp, TaskRec.goto_pc, hq]
            simp [hp0]
          · exact hs.leaf _ _ _ hi hp
  | check j k q x hj hq hk =>
    cases hqp : q.parent with
    | none =>
      have hkj : k = j := by
        rcases hs.pcRoot j q hj hqp with h | h | h | h <;> rw [hq] at h <;> cases h; rfl
      subst hkj
      rw [hj] at hk; cases hk
      have hn : q.next = .done := by unfold TaskRec.next; rw [hqp]; cases q.completed <;> rfl
      rw [hn]
      refine hs.set1 hj (by simp) ?_ ?_ ?_ ?_
      · intro _; simp
      · intro p hp; rw [hqp] at hp; cases hp
      · intro _
        rw [TaskRec.goto_counter, hs.root _ _ hj hqp, load_set_eq hj]
        rw [Bool.eq_iff_iff]; simp [contrib, hq]
      · intro p hp
        unfold contrib
        rw [if_neg (Ne.symm hp), if_neg (Ne.symm hp)]
        simp [hqp]
    | some p0 =>
      have hp0 := hpne j q p0 hj hqp
      have hk' : k = j ∨ k = p0 := by
        rcases hs.pcLeaf j q p0 hj hqp with h | h | h | h | h | h <;> rw [hq] at h <;> cases h
        · exact Or.inl rfl
        · exact Or.inr rfl
      rcases hk' with rfl | rfl
      · rw [hj] at hk; cases hk
        have hc := hs.leaf k q p0 hj hqp
        rw [if_neg (by rw [hq]; simp)] at hc
        have hn : q.next = .sub p0 := by
          unfold TaskRec.next TaskRec.completed; rw [hqp, hc]; rfl
        rw [hn]
        refine hs.set1 hj (by simp) ?_ ?_ ?_ ?_
        · intro h; rw [hqp] at h; cases h
        · intro p hp
          rw [hqp] at hp; cases hp
          refine ⟨by simp, ?_⟩
          rw [TaskRec.goto_counter, hc]
          simp [hp0]
        · intro h; rw [hqp] at h; cases h
        · intro p hp
          unfold contrib
          rw [if_neg (Ne.symm hp), if_neg (Ne.symm hp)]
          by_cases hpp : p0 = p
          · subst hpp; rw [Bool.eq_iff_iff]; simp [hqp, hq]
          · rw [Bool.eq_iff_iff]; simp [hqp, hpp]
      · have hxr := hflat j q k hj hqp x hk
        have hn : x.next = .done := by unfold TaskRec.next; rw [hxr]; cases x.completed <;> rfl
        rw [hn]
        refine hs.set1 hj (by simp) ?_ ?_ ?_ ?_
        · intro h; rw [hqp] at h; cases h
        · intro p hp
          refine ⟨by simp, ?_⟩
          rw [TaskRec.goto_counter, hs.leaf _ _ _ hj hqp, hq]
          simp
        · intro h; rw [hqp] at h; cases h
        · intro p hp
          unfold contrib
          rw [if_neg (Ne.symm hp), if_neg (Ne.symm hp)]
          by_cases hpp : k = p
          · subst hpp; rw [Bool.eq_iff_iff]; simp [hqp, hq, hp0]
          · rw [Bool.eq_iff_iff]; simp [hqp, hpp]

theorem Few.back {s t : Tasks} (h : TaskStep s t) (ht : Few t) : Few s := fun p =>
  Nat.lt_of_le_of_lt (h.childCount_le p) (ht p)

theorem TaskReach.parents {s : Tasks} (h : TaskReach s) : ParentsExist s := by
  induction h with
  | init => intro i r p hi; simp at hi
  | step _ hs ih => exact ih.step hs

theorem Flat.back {s t : Tasks} (h : TaskStep s t) (hp : ParentsExist s) (ht : Flat t) : Flat s := by
  intro i r p hi hr
  have hl := hp i r p hi hr
  exact ⟨s[p], List.getElem?_eq_getElem hl, h.flat ht i r p hi hr _ (List.getElem?_eq_getElem hl)⟩

theorem TaskReach.inv {s : Tasks} (h : TaskReach s) : Flat s → Few s → TInv s := by
  induction h with
  | init =>
    intro _ _
    refine ⟨?_, ?_, ?_, ?_⟩ <;> intros <;> simp at *
  | step hr hs ih =>
    intro hf hw
    exact (ih (hf.back hs hr.parents) (hw.back hs)).step hr.parents (hs.flat hf) hs hf hw

end CoEcs
