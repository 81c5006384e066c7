import Verif.Spec.ParallelRecord
import Verif.Proofs.CommandMore

/-!
# Independence of the commands of several systems
-/

namespace CoEcs
open Spec

variable {V : Type}

/-! ## Parts of the contents -/

/-- What a command looks at or changes; `none` is the existence of the entity. -/
def ACmd.Uses : ACmd V → Handle → Option Nat → Prop
  | .create ph _, h, _ => h = ph
  | .clone s ph, h, _ => h = s ∨ h = ph
  | .set e c _, h, x | .remove e c, h, x => h = e ∧ (x = none ∨ x = some c)
  | .destroy e, h, _ => h = e

/-- What a command changes. -/
def ACmd.Changes : ACmd V → Handle → Option Nat → Prop
  | .create ph _, h, _ => h = ph
  | .clone _ ph, h, _ => h = ph
  | .set e c _, h, x | .remove e c, h, x => h = e ∧ x = some c
  | .destroy e, h, _ => h = e

/-- One part of the contents: the existence of an entity, or a component. -/
def part (C : ACmd.Content V) (h : Handle) : Option Nat → Option (Option V)
  | none => (C h).map fun _ => none
  | some c => (C h).bind fun d => (d c).map some

theorem part_eq {C C' : ACmd.Content V} {h h' : Handle} (hp : ∀ x, part C h x = part C' h' x) : C h = C' h' := by
  have h0 := hp none
  cases hc : C h with
  | none =>
    cases hc' : C' h' with
    | none => rfl
    | some d => simp [part, hc, hc'] at h0
  | some d =>
    cases hc' : C' h' with
    | none => simp [part, hc, hc'] at h0
    | some d' =>
      congr 1
      funext c
      have := hp (some c)
      simp only [part, hc, hc', Option.bind_some] at this
      cases hd : d c <;> cases hd' : d' c <;> simp_all

def AgreeOn (U : Handle → Option Nat → Prop) (C C' : ACmd.Content V) : Prop := ∀ h x, U h x → part C h x = part C' h x

theorem part_congr {C C' : ACmd.Content V} {h h' : Handle} (e : C h = C' h') (x : Option Nat) : part C h x = part C' h' x := by
  cases x <;> simp [part, e]

/-- A command leaves alone what it does not change. -/
theorem part_apply {C : ACmd.Content V} {a : ACmd V} {h : Handle} {x : Option Nat} (hn : ¬ ACmd.Changes a h x) :
    part (a.apply C) h x = part C h x := by
  cases a with
  | create ph d => exact part_congr (by simp only [ACmd.Changes] at hn; simp [ACmd.apply, ACmd.put, hn]) x
  | clone s ph => exact part_congr (by simp only [ACmd.Changes] at hn; simp [ACmd.apply, ACmd.put, hn]) x
  | destroy e => exact part_congr (by simp only [ACmd.Changes] at hn; simp [ACmd.apply, ACmd.put, hn]) x
  | set e c v =>
    simp only [ACmd.Changes] at hn
    by_cases he : h = e
    · subst he
      cases x with
      | none => cases hc : C h <;> simp [part, ACmd.apply, ACmd.put, hc]
      | some c' =>
        have : c' ≠ c := fun h => hn ⟨rfl, by rw [h]⟩
        cases hc : C h <;> simp [part, ACmd.apply, ACmd.put, hc, World.withComp, this]
    · exact part_congr (by simp [ACmd.apply, ACmd.put, he]) x
  | remove e c =>
    simp only [ACmd.Changes] at hn
    by_cases he : h = e
    · subst he
      cases x with
      | none => cases hc : C h <;> simp [part, ACmd.apply, ACmd.put, hc]
      | some c' =>
        have : c' ≠ c := fun h => hn ⟨rfl, by rw [h]⟩
        cases hc : C h <;> simp [part, ACmd.apply, ACmd.put, hc, World.withComp, this]
    · exact part_congr (by simp [ACmd.apply, ACmd.put, he]) x

/-- The new contents of what a command changes depend only on what it uses. -/
theorem AgreeOn.apply {U : Handle → Option Nat → Prop} {C C' : ACmd.Content V} (hA : AgreeOn U C C') {a : ACmd V}
    (hu : ∀ h x, ACmd.Uses a h x → U h x) : AgreeOn U (a.apply C) (a.apply C') := by
  intro h x hx
  by_cases hc : ACmd.Changes a h x
  · cases a with
    | create ph d =>
      simp only [ACmd.Changes] at hc; subst hc
      exact part_congr (by simp [ACmd.apply, ACmd.put]) x
    | destroy e =>
      simp only [ACmd.Changes] at hc; subst hc
      exact part_congr (by simp [ACmd.apply, ACmd.put]) x
    | clone s ph =>
      simp only [ACmd.Changes] at hc; subst hc
      have : C s = C' s := part_eq fun x => hA s x (hu s x (.inl rfl))
      exact part_congr (by simp [ACmd.apply, ACmd.put, this]) x
    | set e c v =>
      obtain ⟨rfl, rfl⟩ := hc
      have := hA h none (hu h none ⟨rfl, .inl rfl⟩)
      cases h1 : C h <;> cases h2 : C' h <;> simp_all [part, ACmd.apply, ACmd.put, World.withComp]
    | remove e c =>
      obtain ⟨rfl, rfl⟩ := hc
      have := hA h none (hu h none ⟨rfl, .inl rfl⟩)
      cases h1 : C h <;> cases h2 : C' h <;> simp_all [part, ACmd.apply, ACmd.put, World.withComp]
  · rw [part_apply hc, part_apply hc]
    exact hA h x hx

/-! ## Commands of several systems -/

/-- Commands with the number of the system that recorded them. -/
abbrev Tagged (V : Type) := List (Nat × ACmd V)

/-- The commands of one system. -/
def proj (k : Nat) (L : Tagged V) : List (ACmd V) := (L.filter fun x => x.1 == k).map Prod.snd

theorem proj_append (k : Nat) (L L' : Tagged V) : proj k (L ++ L') = proj k L ++ proj k L' := by simp [proj]

theorem mem_proj {k : Nat} {L : Tagged V} {a : ACmd V} : a ∈ proj k L ↔ (k, a) ∈ L := by
  simp only [proj, List.mem_map, List.mem_filter, beq_iff_eq]
  constructor
  · rintro ⟨⟨j, b⟩, ⟨h1, h2⟩, rfl⟩
    simp only at h2; subst h2; exact h1
  · intro h
    exact ⟨(k, a), ⟨h, rfl⟩, rfl⟩

/-- No system changes what another uses. -/
def IndepCmds (L : Tagged V) : Prop :=
  ∀ x ∈ L, ∀ y ∈ L, x.1 ≠ y.1 → ∀ h p, ACmd.Changes x.2 h p → ¬ ACmd.Uses y.2 h p

def usedBy (k : Nat) (L : Tagged V) (h : Handle) (p : Option Nat) : Prop := ∃ a ∈ proj k L, ACmd.Uses a h p

theorem frame_aux {U : Handle → Option Nat → Prop} {k : Nat} : ∀ (L : Tagged V) (C C' : ACmd.Content V), AgreeOn U C C' →
    (∀ x ∈ L, x.1 = k → ∀ h p, ACmd.Uses x.2 h p → U h p) → (∀ x ∈ L, x.1 ≠ k → ∀ h p, U h p → ¬ ACmd.Changes x.2 h p) →
    AgreeOn U (applyAll C L) ((proj k L).foldl ACmd.apply C') := by
  intro L
  induction L with
  | nil => intro C C' h _ _; exact h
  | cons x L ih =>
    intro C C' hA h1 h2
    by_cases hk : x.1 = k
    · have : proj k (x :: L) = x.2 :: proj k L := by simp [proj, hk]
      rw [this]
      exact ih _ _ (hA.apply (h1 x List.mem_cons_self hk)) (fun y hy => h1 y (List.mem_cons_of_mem _ hy))
        fun y hy => h2 y (List.mem_cons_of_mem _ hy)
    · have : proj k (x :: L) = proj k L := by simp [proj, hk]
      rw [this]
      refine ih _ _ (fun h p hp => ?_) (fun y hy => h1 y (List.mem_cons_of_mem _ hy))
        fun y hy => h2 y (List.mem_cons_of_mem _ hy)
      show part (x.2.apply C) h p = _
      rw [part_apply (h2 x List.mem_cons_self hk h p hp)]
      exact hA h p hp

/-- What system `k` uses is, after the commands of all, as if only `k` had recorded; also after any first
part of the commands. -/
theorem frame {k : Nat} {L g t : Tagged V} (hi : IndepCmds L) (hg : L = g ++ t) (C : ACmd.Content V) :
    AgreeOn (usedBy k L) (applyAll C g) ((proj k g).foldl ACmd.apply C) := by
  have hm : ∀ x ∈ g, x ∈ L := fun x hx => by rw [hg]; exact List.mem_append_left _ hx
  refine frame_aux g C C (fun h p _ => rfl) ?_ ?_
  · intro x hx hk h p hu
    refine ⟨x.2, mem_proj.2 ?_, hu⟩
    rw [← hk]
    exact hm x hx
  · rintro x hx hk h p ⟨a, ha, hu⟩ hc
    exact hi x (hm x hx) (k, a) (mem_proj.1 ha) hk h p hc hu

/-- What no command changes is unchanged. -/
theorem unchanged {h : Handle} {p : Option Nat} : ∀ (L : Tagged V) (C : ACmd.Content V), (∀ x ∈ L, ¬ ACmd.Changes x.2 h p) →
    part (applyAll C L) h p = part C h p := by
  intro L
  induction L with
  | nil => intro C _; rfl
  | cons x L ih =>
    intro C hn
    show part (applyAll (x.2.apply C) L) h p = _
    rw [ih _ fun y hy => hn y (List.mem_cons_of_mem _ hy), part_apply (hn x List.mem_cons_self)]

theorem changes_uses {a : ACmd V} {h : Handle} {p : Option Nat} (hc : ACmd.Changes a h p) : ACmd.Uses a h p := by
  cases a with
  | create => exact hc
  | clone => exact .inr hc
  | set => exact ⟨hc.1, .inr hc.2⟩
  | remove => exact ⟨hc.1, .inr hc.2⟩
  | destroy => exact hc

theorem target_uses {a : ACmd V} {h : Handle} (ht : a.target = some h) : ACmd.Uses a h none := by
  cases a with
  | create => cases ht
  | clone => cases ht; exact .inl rfl
  | set => cases ht; exact ⟨rfl, .inl rfl⟩
  | remove => cases ht; exact ⟨rfl, .inl rfl⟩
  | destroy => cases ht; rfl

theorem ready_congr {U : Handle → Option Nat → Prop} {C C' : ACmd.Content V} (hA : AgreeOn U C C') {a : ACmd V}
    (hu : ∀ h x, ACmd.Uses a h x → U h x) : a.Ready C ↔ a.Ready C' := by
  have : ∀ h, a.target = some h → (C h = none ↔ C' h = none) := by
    intro h ht
    have := hA h none (hu h none (target_uses ht))
    cases h1 : C h <;> cases h2 : C' h <;> simp_all [part]
  constructor
  · intro hr h ht hn
    exact hr h ht ((this h ht).2 hn)
  · intro hr h ht hn
    exact hr h ht ((this h ht).1 hn)

theorem ready_append {C : ACmd.Content V} : ∀ (g t : List (ACmd V)), ACmd.AllReady C (g ++ t) ↔
    ACmd.AllReady C g ∧ ACmd.AllReady (g.foldl ACmd.apply C) t := by
  intro g
  induction g generalizing C with
  | nil => intro t; simp [ACmd.AllReady]
  | cons a g ih => intro t; simp [ACmd.AllReady, ih, and_assoc]

theorem allReady_at {C : ACmd.Content V} {q g t : List (ACmd V)} {a : ACmd V} (hr : ACmd.AllReady C q) (hq : q = g ++ a :: t) :
    a.Ready (g.foldl ACmd.apply C) := by
  rw [hq, ready_append] at hr
  exact hr.2.1

theorem allReady_of {C : ACmd.Content V} : ∀ (q : List (ACmd V)),
    (∀ g a t, q = g ++ a :: t → a.Ready (g.foldl ACmd.apply C)) → ACmd.AllReady C q := by
  intro q
  induction q generalizing C with
  | nil => intro _; trivial
  | cons a q ih =>
    intro h
    refine ⟨h [] a q rfl, ih fun g b t hg => ?_⟩
    exact h (a :: g) b t (by rw [hg]; rfl)

theorem applyAll_eq (C : ACmd.Content V) (L : Tagged V) : applyAll C L = (L.map Prod.snd).foldl ACmd.apply C := by
  rw [List.foldl_map]; rfl

/-- A command is ready among all exactly when it is ready among those of its own system. -/
theorem ready_proj {L g t : Tagged V} {x : Nat × ACmd V} (hi : IndepCmds L) (hg : L = g ++ x :: t) (C : ACmd.Content V) :
    x.2.Ready (applyAll C g) ↔ x.2.Ready ((proj x.1 g).foldl ACmd.apply C) := by
  refine ready_congr (frame hi hg C) fun h p hu => ⟨x.2, mem_proj.2 ?_, hu⟩
  rw [hg]
  simp

/-- The commands of a system split where those of all split. -/
theorem proj_split {k : Nat} {L : Tagged V} : ∀ (g : List (ACmd V)) (a : ACmd V) (t : List (ACmd V)), proj k L = g ++ a :: t →
    ∃ g' t', L = g' ++ (k, a) :: t' ∧ proj k g' = g := by
  induction L with
  | nil => intro g a t h; simp [proj] at h
  | cons x L ih =>
    intro g a t h
    by_cases hk : x.1 = k
    · have : proj k (x :: L) = x.2 :: proj k L := by simp [proj, hk]
      rw [this] at h
      cases g with
      | nil =>
        simp only [List.nil_append, List.cons.injEq] at h
        refine ⟨[], L, ?_, rfl⟩
        rw [← h.1, ← hk]
        rfl
      | cons b g =>
        simp only [List.cons_append, List.cons.injEq] at h
        obtain ⟨g', t', h1, h2⟩ := ih g a t h.2
        refine ⟨x :: g', t', by rw [h1]; rfl, ?_⟩
        have : proj k (x :: g') = x.2 :: proj k g' := by simp [proj, hk]
        rw [this, h2, h.1]
    · have : proj k (x :: L) = proj k L := by simp [proj, hk]
      rw [this] at h
      obtain ⟨g', t', h1, h2⟩ := ih g a t h
      refine ⟨x :: g', t', by rw [h1]; rfl, ?_⟩
      have : proj k (x :: g') = proj k g' := by simp [proj, hk]
      rw [this, h2]

theorem allReady_proj {L : Tagged V} (hi : IndepCmds L) {C : ACmd.Content V} (hr : ACmd.AllReady C (L.map Prod.snd)) (k : Nat) :
    ACmd.AllReady C (proj k L) := by
  refine allReady_of _ fun g a t hg => ?_
  obtain ⟨g', t', h1, h2⟩ := proj_split g a t hg
  rw [← h2]
  refine (ready_proj hi h1 C).1 ?_
  rw [applyAll_eq]
  refine allReady_at (t := t'.map Prod.snd) hr ?_
  rw [h1]
  simp

/-! ## The same systems, with other names for the new entities -/

/-- The same command up to a relation of handles. -/
def LikeCmd (R : Handle → Handle → Prop) : ACmd V → ACmd V → Prop
  | .create ph d, .create ph' d' => R ph ph' ∧ d = d'
  | .clone h ph, .clone h' ph' => R h h' ∧ R ph ph'
  | .set h c v, .set h' c' v' => R h h' ∧ c = c' ∧ v = v'
  | .remove h c, .remove h' c' => R h h' ∧ c = c'
  | .destroy h, .destroy h' => R h h'
  | _, _ => False

/-- Both lists, element by element. -/
def LikeCmds (R : Handle → Handle → Prop) : List (ACmd V) → List (ACmd V) → Prop
  | [], [] => True
  | a :: as, b :: bs => LikeCmd R a b ∧ LikeCmds R as bs
  | _, _ => False

/-- A relation that is a function in both directions. -/
structure OneOne (R : Handle → Handle → Prop) : Prop where
  fwd : ∀ {a b b'}, R a b → R a b' → b = b'
  bwd : ∀ {a a' b}, R a b → R a' b → a = a'

def ContRel (R : Handle → Handle → Prop) (C C' : ACmd.Content V) : Prop := ∀ h h', R h h' → C h = C' h'

theorem OneOne.eq_iff {R : Handle → Handle → Prop} (o : OneOne R) {a a' b b' : Handle} (h : R a b) (h' : R a' b') : a = a' ↔ b = b' :=
  ⟨fun e => by subst e; exact o.fwd h h', fun e => by subst e; exact o.bwd h h'⟩

theorem ContRel.put {R : Handle → Handle → Prop} (o : OneOne R) {C C' : ACmd.Content V} (hc : ContRel R C C') {h h' : Handle}
    (hr : R h h') {d d' : Option (Nat → Option V)} (hd : d = d') : ContRel R (ACmd.put C h d) (ACmd.put C' h' d') := by
  subst hd
  intro x x' hx
  unfold ACmd.put
  by_cases he : x = h
  · rw [if_pos he, if_pos ((o.eq_iff hx hr).1 he)]
  · rw [if_neg he, if_neg fun e => he ((o.eq_iff hx hr).2 e)]
    exact hc x x' hx

theorem ContRel.apply {R : Handle → Handle → Prop} (o : OneOne R) {C C' : ACmd.Content V} (hc : ContRel R C C') {a b : ACmd V}
    (hr : LikeCmd R a b) : ContRel R (a.apply C) (b.apply C') := by
  cases a <;> cases b <;> simp only [LikeCmd] at hr
  · exact hc.put o hr.1 (by rw [hr.2])
  · exact hc.put o hr.2 (hc _ _ hr.1)
  · refine hc.put o hr.1 ?_
    rw [hc _ _ hr.1, hr.2.1, hr.2.2]
  · refine hc.put o hr.1 ?_
    rw [hc _ _ hr.1, hr.2]
  · exact hc.put o hr rfl

theorem LikeCmd.ready {R : Handle → Handle → Prop} {C C' : ACmd.Content V} (hc : ContRel R C C') {a b : ACmd V}
    (hr : LikeCmd R a b) (ha : a.Ready C) : b.Ready C' := by
  cases a <;> cases b <;> simp only [LikeCmd] at hr <;> intro h ht <;> cases ht
  · rw [← hc _ _ hr.1]; exact ha _ rfl
  · rw [← hc _ _ hr.1]; exact ha _ rfl
  · rw [← hc _ _ hr.1]; exact ha _ rfl
  · rw [← hc _ _ hr]; exact ha _ rfl

theorem LikeCmd.changes {R : Handle → Handle → Prop} (o : OneOne R) {a b : ACmd V} (hr : LikeCmd R a b) {h h' : Handle} (hh : R h h')
    (x : Option Nat) : ACmd.Changes a h x ↔ ACmd.Changes b h' x := by
  cases a <;> cases b <;> simp only [LikeCmd] at hr <;> simp only [ACmd.Changes]
  · exact o.eq_iff hh hr.1
  · exact o.eq_iff hh hr.2
  · rw [o.eq_iff hh hr.1, hr.2.1]
  · rw [o.eq_iff hh hr.1, hr.2]
  · exact o.eq_iff hh hr

theorem LikeCmds.run {R : Handle → Handle → Prop} (o : OneOne R) : ∀ (q q' : List (ACmd V)) (C C' : ACmd.Content V), LikeCmds R q q' →
    ContRel R C C' → ContRel R (q.foldl ACmd.apply C) (q'.foldl ACmd.apply C') := by
  intro q
  induction q with
  | nil => intro q' C C' h hc; cases q' with | nil => exact hc | cons => exact h.elim
  | cons a q ih =>
    intro q' C C' h hc
    cases q' with
    | nil => exact h.elim
    | cons b q' => exact ih q' _ _ h.2 (hc.apply o h.1)

theorem LikeCmds.allReady {R : Handle → Handle → Prop} (o : OneOne R) : ∀ (q q' : List (ACmd V)) (C C' : ACmd.Content V), LikeCmds R q q' →
    ContRel R C C' → ACmd.AllReady C q → ACmd.AllReady C' q' := by
  intro q
  induction q with
  | nil => intro q' C C' h hc _; cases q' with | nil => trivial | cons => exact h.elim
  | cons a q ih =>
    intro q' C C' h hc hr
    cases q' with
    | nil => exact h.elim
    | cons b q' => exact ⟨h.1.ready hc hr.1, ih q' _ _ h.2 (hc.apply o h.1) hr.2⟩

theorem LikeCmds.changes {R : Handle → Handle → Prop} (o : OneOne R) {h h' : Handle} (hh : R h h') (x : Option Nat) :
    ∀ (q q' : List (ACmd V)), LikeCmds R q q' → ((∃ a ∈ q, ACmd.Changes a h x) ↔ ∃ a ∈ q', ACmd.Changes a h' x) := by
  intro q
  induction q with
  | nil => intro q' h; cases q' with | nil => simp | cons => exact h.elim
  | cons a q ih =>
    intro q' h
    cases q' with
    | nil => exact h.elim
    | cons b q' =>
      simp only [List.mem_cons, exists_eq_or_imp, h.1.changes o hh x, ih q' h.2]

/-- The main step: independent systems, the same up to names, have the same effect up to names. -/
theorem same_contents {R : Handle → Handle → Prop} (o : OneOne R) {L L' : Tagged V} (hi : IndepCmds L) (hi' : IndepCmds L')
    (hl : ∀ k, LikeCmds R (proj k L) (proj k L')) {C : ACmd.Content V} (hc : ContRel R C C) :
    ContRel R (applyAll C L) (applyAll C L') := by
  intro h h' hh
  refine part_eq fun x => ?_
  by_cases hch : ∃ y ∈ L, ACmd.Changes y.2 h x
  · obtain ⟨⟨k, a⟩, hy, hya⟩ := hch
    have hm : a ∈ proj k L := mem_proj.2 hy
    obtain ⟨b, hb, hbc⟩ := (LikeCmds.changes o hh x _ _ (hl k)).1 ⟨a, hm, hya⟩
    rw [frame (k := k) hi (List.append_nil L).symm C h x ⟨a, hm, changes_uses hya⟩,
      frame (k := k) hi' (List.append_nil L').symm C h' x ⟨b, hb, changes_uses hbc⟩]
    exact part_congr (LikeCmds.run o _ _ _ _ (hl k) hc h h' hh) x
  · have h2 : ¬ ∃ y ∈ L', ACmd.Changes y.2 h' x := by
      rintro ⟨⟨k, b⟩, hy, hyb⟩
      obtain ⟨a, ha, hac⟩ := (LikeCmds.changes o hh x _ _ (hl k)).2 ⟨b, mem_proj.2 hy, hyb⟩
      exact hch ⟨(k, a), mem_proj.1 ha, hac⟩
    rw [unchanged L C fun y hy hc => hch ⟨y, hy, hc⟩, unchanged L' C fun y hy hc => h2 ⟨y, hy, hc⟩]
    exact part_congr (hc h h' hh) x

theorem same_ready {R : Handle → Handle → Prop} (o : OneOne R) {L L' : Tagged V} (hi : IndepCmds L) (hi' : IndepCmds L')
    (hl : ∀ k, LikeCmds R (proj k L) (proj k L')) {C : ACmd.Content V} (hc : ContRel R C C) (hr : ACmd.AllReady C (L.map Prod.snd))
    {g t : Tagged V} {x : Nat × ACmd V} (hg : L' = g ++ x :: t) : x.2.Ready (applyAll C g) := by
  rw [ready_proj hi' hg C]
  have := LikeCmds.allReady o _ _ _ _ (hl x.1) hc (allReady_proj hi hr x.1)
  refine allReady_at (t := proj x.1 t) this ?_
  rw [hg, proj_append]
  congr 1
  simp [proj]

end CoEcs
