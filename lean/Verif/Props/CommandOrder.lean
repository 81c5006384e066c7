import Verif.Props.Command

/-!
# The order in which commands are executed (C64)
-/

namespace CoEcs.Props
open CoEcs Spec

variable {V : Type} {ty : Types} {husk : V → V} {c c1 c2 c3 : CSys V} {W : Spec.World V}

private theorem flatten_one {X : Type} {l : List (List X)} (h : l.flatten = []) (x : X) : ∀ {b : Nat}, b < l.length → (l.modify b (· ++ [x])).flatten = [x] := by
  induction l with
  | nil => intro b hb; simp at hb
  | cons q l ih =>
    intro b hb
    simp only [List.flatten_cons, List.append_eq_nil_iff] at h
    cases b with
    | zero => simp [h.1, h.2]
    | succ b =>
      simp only [List.modify_succ_cons, List.flatten_cons, h.1, List.nil_append]
      exact ih h.2 (by simpa using hb)

private theorem flatten_two {X : Type} {l : List (List X)} (h : l.flatten = []) (x y : X) : ∀ {a b : Nat}, a < b → b < l.length →
    ((l.modify b (· ++ [x])).modify a (· ++ [y])).flatten = [y, x] := by
  induction l with
  | nil => intro a b _ hb; simp at hb
  | cons q l ih =>
    intro a b hab hb
    simp only [List.flatten_cons, List.append_eq_nil_iff] at h
    cases b with
    | zero => omega
    | succ b =>
      cases a with
      | zero =>
        simp only [List.modify_succ_cons, List.modify_zero_cons, List.flatten_cons, h.1, List.nil_append]
        rw [flatten_one h.2 x (by simpa using hb)]; rfl
      | succ a =>
        simp only [List.modify_succ_cons, List.flatten_cons, h.1, List.nil_append]
        exact ih h.2 (by omega) (by simpa using hb)

private theorem record_set {b i : Nat} {h : Handle} {cp : Nat} {v : V} {o : Option Handle}
    (hs : c.step ty husk (.record b i (.set h cp v)) = some (c1, .ok o)) : c1.todo = c.todo.modify b (· ++ [(i, .set h cp v)]) := by
  simp only [CSys.step] at hs
  split at hs
  · simp only [CSys.record] at hs
    split at hs <;> cases hs
    rfl
  · cases hs

/-- **C64 is violated in every state with two threads and nothing recorded.**  The thread of a later buffer assigns a component, then the
thread of an earlier buffer assigns it: whatever the values are, a flush that returns leaves the one that was recorded
first. -/
theorem C64_last_value_violated (hr : CReach ty husk c W) (ht : c.todo.flatten = []) {a b i : Nat} (hab : a < b) {h : Handle} (hh : W i h ≠ none)
    {cp : Nat} {v w : V} {o1 o2 o3 : Option Handle}
    (a1 : c.Allowed (.record b i (.set h cp v))) (s1 : c.step ty husk (.record b i (.set h cp v)) = some (c1, .ok o1))
    (a2 : c1.Allowed (.record a i (.set h cp w))) (s2 : c1.step ty husk (.record a i (.set h cp w)) = some (c2, .ok o2))
    (s3 : c2.step ty husk (.flush i) = some (c3, .ok o3)) : (c3.sys.reg i).get h cp = .ok v := by
  have hb : b < c.todo.length := by
    obtain ⟨buf, h1, _⟩ := a1
    have h2 := (List.getElem?_eq_some_iff.1 h1).1
    obtain ⟨q, h3, _⟩ := hr.inv.bufs.get h1
    exact (List.getElem?_eq_some_iff.1 h3).1
  have e : c2.todo.flatten = [(i, .set h cp w), (i, .set h cp v)] := by
    rw [record_set s2, record_set s1]; exact flatten_two ht _ _ hab hb
  have r1 := CReach.step hr a1 s1
  have r2 := CReach.step r1 a2 s2
  have ha : c2.Allowed (.flush i) := by
    intro x hx; rw [e] at hx
    simp only [List.mem_cons, List.not_mem_nil, or_false] at hx
    rcases hx with rfl | rfl <;> rfl
  have := (C28_flush_applies_partial r2 ha s3).1
  rw [e] at this
  obtain ⟨d, hd⟩ := Option.ne_none_iff_exists'.1 hh
  have hw : ((W.cstep c c1 (.record b i (.set h cp v)) (.ok o1)).cstep c1 c2 (.record a i (.set h cp w)) (.ok o2)) i h = some d := hd
  refine (((this h).2 (World.withComp (World.withComp d cp (some w)) cp (some v)) ?_).2.1 cp v ?_)
  · simp [ACmd.apply, ACmd.put, hw]
  · simp [World.withComp]

/-- Two threads have made their buffers, and there is an entity with a component. -/
def twoBufs : List (COp Nat) := [.start, .start, .direct (.on 0 (.create [(0, 1)]))]

theorem twoBufs_isSome : (cexec smallTy id twoBufs).isSome = true := by decide +kernel

/-- Thread 1 assigns 5, then thread 0 assigns 7. -/
def twoSets : List (COp Nat) := twoBufs ++ [.record 1 0 (.set ⟨0, 0⟩ 0 5), .record 0 0 (.set ⟨0, 0⟩ 0 7)]

theorem twoSets_isSome : (cexec smallTy id twoSets).isSome = true := by decide +kernel

/-- The hypotheses are met, and the flush returns and leaves 5. -/
example : (∃ W, CReach smallTy id ((cexec smallTy id twoBufs).get twoBufs_isSome).1 W ∧ W 0 ⟨0, 0⟩ ≠ none) ∧
    ((cexec smallTy id twoBufs).get twoBufs_isSome).1.todo.flatten.length = 0 ∧
    (((cexec smallTy id twoSets).get twoSets_isSome).1.step smallTy id (.flush 0)).map (fun x => (x.2, (x.1.sys.reg 0).get ⟨0, 0⟩ 0)) =
      some (.ok none, .ok 5) := by
  refine ⟨⟨_, cexec_get twoBufs twoBufs_isSome, ?_⟩, by decide +kernel, by decide +kernel⟩
  have : ((((cexec smallTy id twoBufs).get twoBufs_isSome).2 0 ⟨0, 0⟩).isSome) = true := by decide +kernel
  intro h; rw [h] at this; cases this

/-! ## Commands about different entities -/

/-- The entities a command is about. -/
def ACmd.About (a : ACmd V) (h : Handle) : Prop := a.target = some h ∨ a.placeholder = some h

/-- `r` is an order of all the recorded commands, each with its thread, that keeps the order of every thread. -/
def Interleaves (r : List (Nat × Nat × ACmd V)) (todo : List (List (Nat × ACmd V))) : Prop :=
  ∀ b, (r.filter (·.1 = b)).map (·.2) = (todo[b]?).getD []

private theorem apply_other {C : ACmd.Content V} {a : ACmd V} {h : Handle} (hn : ¬ ACmd.About a h) : a.apply C h = C h := by
  cases a <;> simp only [ACmd.apply, ACmd.put] <;> (split <;> first | rfl | (rename_i he; subst he; exact absurd (by simp [ACmd.About, ACmd.target, ACmd.placeholder]) hn))

private theorem apply_same {C C' : ACmd.Content V} {a : ACmd V} {h : Handle} (hC : ∀ k, ACmd.About a k → C k = C' k) (hh : C h = C' h) : a.apply C h = a.apply C' h := by
  cases a <;> simp only [ACmd.apply, ACmd.put] <;> split <;> first | rfl | exact hh | (rw [hC _ (by simp [ACmd.About, ACmd.target, ACmd.placeholder])])

/-- The commands about a set of entities decide about these. -/
private theorem fold_filter (P : Nat → Handle → Prop) (b : Nat) (hP : ∀ a k, P a k → P b k → a = b) : ∀ (r : List (Nat × Nat × ACmd V)) (C C' : ACmd.Content V),
    (∀ x ∈ r, ∀ h, ACmd.About x.2.2 h → P x.1 h) → (∀ h, P b h → C h = C' h) → ∀ h, P b h →
    (r.foldl (fun C x => x.2.2.apply C) C) h = (((r.filter (·.1 = b)).map (·.2)).foldl (fun C x => x.2.apply C) C') h := by
  intro r
  induction r with
  | nil => intro C C' _ hC h hh; exact hC h hh
  | cons x r ih =>
    intro C C' ho hC h hh
    have ho' : ∀ y ∈ r, ∀ h, ACmd.About y.2.2 h → P y.1 h := fun y hy => ho y (List.mem_cons_of_mem _ hy)
    by_cases hx : x.1 = b
    · simp only [List.filter_cons, hx, decide_true, if_true, List.map_cons, List.foldl_cons]
      refine ih _ _ ho' (fun k hk => apply_same (fun k' hk' => hC k' ?_) (hC k hk)) h hh
      exact hx ▸ ho x List.mem_cons_self k' hk'
    · simp only [List.filter_cons, hx, decide_false, Bool.false_eq_true, if_false, List.foldl_cons]
      refine ih _ _ ho' (fun k hk => ?_) h hh
      rw [apply_other]
      · exact hC k hk
      · intro hk'
        exact hx (hP _ _ (ho x List.mem_cons_self k hk') hk)

private def tagged : Nat → List (List (Nat × ACmd V)) → List (Nat × Nat × ACmd V)
  | _, [] => []
  | k, q :: qs => q.map (fun x => (k, x)) ++ tagged (k + 1) qs

private theorem tagged_ge : ∀ (qs : List (List (Nat × ACmd V))) (k : Nat), ∀ x ∈ tagged k qs, k ≤ x.1 := by
  intro qs
  induction qs with
  | nil => intro k x hx; simp [tagged] at hx
  | cons q qs ih =>
    intro k x hx
    simp only [tagged, List.mem_append, List.mem_map] at hx
    rcases hx with ⟨y, _, rfl⟩ | hx
    · exact Nat.le_refl _
    · have := ih (k + 1) x hx; omega

private theorem tagged_interleaves : ∀ (qs : List (List (Nat × ACmd V))) (k b : Nat),
    ((tagged k qs).filter (·.1 = b)).map (·.2) = if k ≤ b then (qs[b - k]?).getD [] else [] := by
  intro qs
  induction qs with
  | nil => intro k b; simp [tagged]
  | cons q qs ih =>
    intro k b
    simp only [tagged, List.filter_append, List.map_append, ih]
    by_cases hk : k = b
    · subst hk
      have : (q.map fun x => (k, x)).filter (·.1 = k) = q.map fun x => (k, x) := List.filter_eq_self.2 (fun x hx => by obtain ⟨y, _, rfl⟩ := List.mem_map.1 hx; simp)
      rw [this]
      simp [show ¬ k + 1 ≤ k by omega, Function.comp_def]
    · have : (q.map fun x => (k, x)).filter (·.1 = b) = [] := List.filter_eq_nil_iff.2 (fun x hx => by obtain ⟨y, _, rfl⟩ := List.mem_map.1 hx; simp [hk])
      rw [this]
      by_cases hle : k ≤ b
      · rw [if_pos (by omega), if_pos hle, show b - k = (b - (k + 1)) + 1 by omega]; simp
      · rw [if_neg (by omega), if_neg hle]; simp

private theorem tagged_flatten : ∀ (qs : List (List (Nat × ACmd V))) (k : Nat), (tagged k qs).map (·.2) = qs.flatten := by
  intro qs
  induction qs with
  | nil => intro k; rfl
  | cons q qs ih => intro k; simp [tagged, ih, Function.comp_def]

private theorem tagged_mem {qs : List (List (Nat × ACmd V))} {x : Nat × Nat × ACmd V} (h : x ∈ tagged 0 qs) : ∃ q, qs[x.1]? = some q ∧ x.2 ∈ q := by
  have h1 : x.2 ∈ ((tagged 0 qs).filter (·.1 = x.1)).map (·.2) := List.mem_map_of_mem (List.mem_filter.2 ⟨h, by simp⟩)
  rw [tagged_interleaves] at h1
  simp only [Nat.zero_le, if_true, Nat.sub_zero] at h1
  cases hq : qs[x.1]? with
  | none => rw [hq] at h1; simp at h1
  | some q => rw [hq] at h1; exact ⟨q, rfl, by simpa using h1⟩

private theorem interleaves_mem {qs : List (List (Nat × ACmd V))} {r : List (Nat × Nat × ACmd V)} (hi : Interleaves r qs) {x : Nat × Nat × ACmd V} (h : x ∈ r) :
    ∃ q, qs[x.1]? = some q ∧ x.2 ∈ q := by
  have h1 : x.2 ∈ (r.filter (·.1 = x.1)).map (·.2) := List.mem_map_of_mem (List.mem_filter.2 ⟨h, by simp⟩)
  rw [hi x.1] at h1
  cases hq : qs[x.1]? with
  | none => rw [hq] at h1; simp at h1
  | some q => rw [hq] at h1; exact ⟨q, rfl, by simpa using h1⟩

/-- **C64** (partial; missing: commands of several threads about one entity, where it is false): if no entity is the
subject of commands of two threads, a flush that returns has the effect of the commands in every order that keeps the
order of each thread, hence in the order in which they were recorded. -/
theorem C64_different_entities_partial (hr : CReach ty husk c W) {i : Nat} (ha : c.Allowed (.flush i)) {o : Option Handle}
    (hs : c.step ty husk (.flush i) = some (c1, .ok o))
    (hd : ∀ (a b : Nat) (p q : List (Nat × ACmd V)), a ≠ b → c.todo[a]? = some p → c.todo[b]? = some q → ∀ x ∈ p, ∀ y ∈ q, ∀ h,
      ¬ (ACmd.About x.2 h ∧ ACmd.About y.2 h))
    {r : List (Nat × Nat × ACmd V)} (hi : Interleaves r c.todo) :
    Answers (c1.sys.reg i) (r.foldl (fun C x => x.2.2.apply C) (W i)) := by
  have h0 := (C28_flush_applies_partial hr ha hs).1
  have : r.foldl (fun C x => x.2.2.apply C) (W i) = (c.todo.flatten.map Prod.snd).foldl ACmd.apply (W i) := by
    -- `P b h`: thread `b` has a command about `h`
    let P : Nat → Handle → Prop := fun b h => ∃ q, c.todo[b]? = some q ∧ ∃ x ∈ q, ACmd.About x.2 h
    have hP : ∀ b a k, P a k → P b k → a = b := by
      rintro b a k ⟨p, h1, x, h2, h3⟩ ⟨q, h4, y, h5, h6⟩
      exact Classical.byContradiction fun hne => hd a b p q hne h1 h4 x h2 y h5 k ⟨h3, h6⟩
    have e1 : (c.todo.flatten.map Prod.snd).foldl ACmd.apply (W i) = (tagged 0 c.todo).foldl (fun C x => x.2.2.apply C) (W i) := by
      rw [← tagged_flatten c.todo 0, List.map_map, List.foldl_map]; rfl
    rw [e1]
    funext h
    by_cases hh : ∃ b, P b h
    · obtain ⟨b, hb⟩ := hh
      rw [fold_filter P b (hP b) r (W i) (W i) (fun x hx k hk => (interleaves_mem hi hx).elim fun q hq => ⟨q, hq.1, x.2, hq.2, hk⟩) (fun _ _ => rfl) h hb,
        fold_filter P b (hP b) (tagged 0 c.todo) (W i) (W i) (fun x hx k hk => (tagged_mem hx).elim fun q hq => ⟨q, hq.1, x.2, hq.2, hk⟩) (fun _ _ => rfl) h hb,
        hi b, tagged_interleaves]
      simp
    · -- no command is about `h`
      have none : ∀ (l : List (Nat × Nat × ACmd V)) (C : ACmd.Content V), (∀ x ∈ l, ¬ ACmd.About x.2.2 h) → (l.foldl (fun C x => x.2.2.apply C) C) h = C h := by
        intro l
        induction l with
        | nil => intro C _; rfl
        | cons x l ih =>
          intro C hl
          rw [List.foldl_cons, ih _ (fun y hy => hl y (List.mem_cons_of_mem _ hy)), apply_other (hl x List.mem_cons_self)]
      rw [none r _ fun x hx hk => hh ⟨x.1, (interleaves_mem hi hx).elim fun q hq => ⟨q, hq.1, x.2, hq.2, hk⟩⟩,
        none _ _ fun x hx hk => hh ⟨x.1, (tagged_mem hx).elim fun q hq => ⟨q, hq.1, x.2, hq.2, hk⟩⟩]
  rw [this]; exact h0

/-- Two entities; thread 1 changes the first, thread 0 changes the second one and destroys it. -/
def apartOps : List (COp Nat) :=
  [.start, .start, .direct (.on 0 (.create [(0, 1)])), .direct (.on 0 (.create [(0, 2)])),
    .record 1 0 (.set ⟨0, 0⟩ 0 5), .record 0 0 (.set ⟨1, 0⟩ 0 7), .record 1 0 (.remove ⟨0, 0⟩ 0), .record 0 0 (.destroy ⟨1, 0⟩)]

theorem apartOps_isSome : (cexec smallTy id apartOps).isSome = true := by decide +kernel

/-- The order in which they were recorded is one of the orders in question, no entity is the subject of two threads, and
the flush returns. -/
example : ((cexec smallTy id apartOps).get apartOps_isSome).1.todo = [[(0, .set ⟨1, 0⟩ 0 7), (0, .destroy ⟨1, 0⟩)], [(0, .set ⟨0, 0⟩ 0 5), (0, .remove ⟨0, 0⟩ 0)]] ∧
    Interleaves [(1, 0, .set ⟨0, 0⟩ 0 5), (0, 0, .set ⟨1, 0⟩ 0 7), (1, 0, .remove ⟨0, 0⟩ 0), (0, 0, .destroy ⟨1, 0⟩)]
      ((cexec smallTy id apartOps).get apartOps_isSome).1.todo ∧
    (((cexec smallTy id apartOps).get apartOps_isSome).1.step smallTy id (.flush 0)).map (·.2) = some (.ok none) := by
  have e : ((cexec smallTy id apartOps).get apartOps_isSome).1.todo = [[(0, .set ⟨1, 0⟩ 0 7), (0, .destroy ⟨1, 0⟩)], [(0, .set ⟨0, 0⟩ 0 5), (0, .remove ⟨0, 0⟩ 0)]] := rfl
  refine ⟨e, ?_, by decide +kernel⟩
  rw [e]
  intro b
  match b with
  | 0 => rfl
  | 1 => rfl
  | b + 2 => simp

end CoEcs.Props
