import Verif.Spec.Builder

/-!
# Lifetimes while schedules are built: helper lemmas for C85
-/

namespace CoEcs
open Spec

theorem set_some_cases {α : Type} {l : List (Option α)} {s t : Nat} {y : Option α} {x : α}
    (h : (l.set s y)[t]? = some (some x)) : (t = s ∧ y = some x ∧ s < l.length) ∨ (t ≠ s ∧ l[t]? = some (some x)) := by
  rw [List.getElem?_set] at h
  by_cases hst : s = t
  · rw [if_pos hst] at h
    split at h
    · exact .inl ⟨hst.symm, by simpa using h, by omega⟩
    · cases h
  · rw [if_neg hst] at h
    exact .inr ⟨Ne.symm hst, h⟩

theorem app_some_cases {α : Type} {l : List (Option α)} {t : Nat} {x y : α}
    (h : (l ++ [some y])[t]? = some (some x)) : (t = l.length ∧ y = x) ∨ (t < l.length ∧ l[t]? = some (some x)) := by
  rw [List.getElem?_append] at h
  split at h
  · exact .inr ⟨by assumption, h⟩
  · rcases Nat.eq_zero_or_pos (t - l.length) with h0 | h0
    · rw [h0] at h
      simp at h
      exact .inl ⟨by omega, h⟩
    · rw [List.getElem?_eq_none (by simp; omega)] at h; cases h

theorem lt_of_get {α : Type} {l : List α} {i : Nat} {x : α} (h : l[i]? = some x) : i < l.length :=
  (List.getElem?_eq_some_iff.1 h).1

/-- A system in a stage as the code has it. -/
def Spec.SSys.conc (s : SSys) : Callable :=
  match s.src with
  | none => .own s.id
  | some o => .ref s.id o

theorem conc_of (id : Nat) (f : SysForm) : SSys.conc (.of id f) = .store id f := by cases f <;> rfl

theorem conc_id (s : SSys) : s.conc.id = s.id := by
  unfold SSys.conc; split <;> rfl

/-- The stage has the systems. -/
structure StRel (a : SStage) (b : BStage) : Prop where
  systems : b.systems = a.systems.map SSys.conc
  main : b.main = a.main.map SSys.conc

theorem StRel.invoked {a : SStage} {b : BStage} (h : StRel a b) : CoEcs.invoked b = a.invoked.map SSys.conc := by
  unfold CoEcs.invoked SStage.invoked
  rw [h.systems, h.main]
  cases a.systems <;> simp

structure SchRel (x : SSched) (y : BSched) : Prop where
  init : StRel x.init y.init
  len : y.stages.length = x.stages.length
  stages : ∀ (i : Nat) (a : SStage) (b : BStage), x.stages[i]? = some a → y.stages[i]? = some b → StRel a b

theorem SchRel.invoked {x : SSched} {y : BSched} (h : SchRel x y) :
    y.stages.map CoEcs.invoked = (x.stages.map SStage.invoked).map (·.map SSys.conc) := by
  apply List.ext_getElem?
  intro i
  simp only [List.getElem?_map]
  cases hx : x.stages[i]? with
  | none =>
    have := List.getElem?_eq_none_iff.1 hx
    rw [List.getElem?_eq_none (by rw [h.len]; exact this)]; rfl
  | some a =>
    have hi := lt_of_get hx
    have hi' : i < y.stages.length := by rw [h.len]; exact hi
    rw [List.getElem?_eq_getElem hi']
    simp only [Option.map_some, Option.some.injEq]
    exact (h.stages i a _ hx (List.getElem?_eq_getElem hi')).invoked

/-- The program and its ideal. -/
structure BRel (m : BState) (S : SState) : Prop where
  objs : m.objs = S.objs
  execs : m.execs = S.execs.map (·.map (·.map SSys.conc))
  len : m.scheds.length = S.scheds.length
  sch : ∀ (s : Nat) (x : SSched), S.scheds[s]? = some (some x) → ∃ y, m.scheds[s]? = some (some y) ∧ SchRel x y
  has : ∀ (s : Nat) (y : BSched), m.scheds[s]? = some (some y) → y.stages.length < y.cap → y.buf ≠ none
  old : ∀ (s : Nat) (y : BSched) (b : Nat), m.scheds[s]? = some (some y) → y.buf = some b → b < m.nextBuf
  uniq : ∀ (s t : Nat) (y z : BSched) (b : Nat), m.scheds[s]? = some (some y) → m.scheds[t]? = some (some z) →
    y.buf = some b → z.buf = some b → s = t
  rlen : m.refs.length = S.refs.length
  bound : ∀ (r : Nat) (z : SRef), S.refs[r]? = some z → z.sched < S.scheds.length ∧
    ∀ x, S.scheds[z.sched]? = some (some x) → z.pos < x.stages.length
  newest : ∀ (r : Nat) (z : SRef) (x : SSched) (y : BSched), S.refs[r]? = some z → S.scheds[z.sched]? = some (some x) →
    z.pos + 1 = x.stages.length → m.scheds[z.sched]? = some (some y) → ∃ b, m.refs[r]? = some (b, z.pos) ∧ y.buf = some b
  home : ∀ (r : Nat) (z : SRef) (y : BSched) (st : BStage), S.refs[r]? = some z → m.scheds[z.sched]? = some (some y) →
    y.stages[z.pos]? = some st → st.sched = z.home

theorem BRel.start : BRel .start .start :=
  ⟨rfl, rfl, rfl, fun s x h => by simp [SState.start] at h, fun s y h => by simp [BState.start] at h,
    fun s y b h => by simp [BState.start] at h, fun s t y z b h => by simp [BState.start] at h, rfl,
    fun r z h => by simp [SState.start] at h, fun r z x y h => by simp [SState.start] at h,
    fun r z y st h => by simp [SState.start] at h⟩

theorem SState.sched_some {S : SState} {s : Nat} {x : SSched} (h : S.sched s = some x) : S.scheds[s]? = some (some x) := by
  unfold SState.sched at h
  cases hs : S.scheds[s]? with
  | none => simp [hs] at h
  | some z => rw [hs] at h; simp at h; rw [h]

theorem BRel.sched {m : BState} {S : SState} (R : BRel m S) {s : Nat} {x : SSched} (h : S.sched s = some x) :
    ∃ y, m.sched s = .ok y ∧ m.scheds[s]? = some (some y) ∧ SchRel x y := by
  obtain ⟨y, h1, h2⟩ := R.sch s x (SState.sched_some h)
  exact ⟨y, by simp [BState.sched, h1], h1, h2⟩

theorem owner_of {b : Nat} : ∀ {l : List (Option BSched)} {s : Nat} {y : BSched}, l[s]? = some (some y) → y.buf = some b →
    (∀ t z, l[t]? = some (some z) → z.buf = some b → t = s) → BState.owner b l = some s
  | [], s, y, h, _, _ => by simp at h
  | x :: l, 0, y, h, hb, _ => by
    simp at h
    subst h
    simp [BState.owner, hb]
  | x :: l, s + 1, y, h, hb, hu => by
    have ih := owner_of (l := l) (s := s) (by simpa using h) hb (fun t z ht hz => by
      have := hu (t + 1) z (by simpa using ht) hz; omega)
    cases x with
    | none => simp [BState.owner, ih]
    | some z =>
      have : z.buf ≠ some b := fun hz => by have := hu 0 z rfl hz; omega
      simp [BState.owner, ih, this]

/-- The reference to the newest stage is good. -/
theorem BRel.stage {m : BState} {S : SState} (R : BRel m S) {r : Nat} {z : SRef} {x : SSched} {st : SStage}
    (h : S.stage r = some (z, x, st)) (hn : z.pos + 1 = x.stages.length) :
    ∃ y st', m.stage r = .ok (z.sched, z.pos, y, st') ∧ m.scheds[z.sched]? = some (some y) ∧ SchRel x y ∧
      S.refs[r]? = some z ∧ S.scheds[z.sched]? = some (some x) ∧ x.stages[z.pos]? = some st ∧
      y.stages[z.pos]? = some st' := by
  unfold SState.stage at h
  cases hr : S.refs[r]? with
  | none => simp [hr] at h
  | some z' =>
    cases hs : S.sched z'.sched with
    | none => simp [hr, hs] at h
    | some x' =>
      cases ht : x'.stages[z'.pos]? with
      | none => simp [hr, hs, ht] at h
      | some st'' =>
        simp [hr, hs, ht] at h
        obtain ⟨rfl, rfl, rfl⟩ := h
        obtain ⟨y, h1, h2, h3⟩ := R.sched hs
        obtain ⟨b, h4, h5⟩ := R.newest r z' x' y hr (SState.sched_some hs) hn h2
        have hp : z'.pos < y.stages.length := by rw [h3.len]; exact lt_of_get ht
        have h6 := owner_of h2 h5 (fun t w hw hb => R.uniq t z'.sched w y b hw h2 hb h5)
        exact ⟨y, y.stages[z'.pos], by simp [BState.stage, h4, h6, h1, Run.bind, List.getElem?_eq_getElem hp], h2, h3, rfl,
          SState.sched_some hs, ht, List.getElem?_eq_getElem hp⟩

theorem BRel.invoke {m : BState} {S : SState} (R : BRel m S) {cs : List (List SSys)} (h : S.SourcesLive cs) :
    m.invoke (cs.map (·.map SSys.conc)) = .ok (ids cs) := by
  have : (cs.map (·.map SSys.conc)).all (·.all (Callable.live m.objs)) = true := by
    simp only [List.all_eq_true, List.mem_map]
    rintro _ ⟨c, hc, rfl⟩ _ hx
    obtain ⟨s, hs, rfl⟩ := List.mem_map.1 hx
    unfold SSys.conc
    cases hsrc : s.src with
    | none => rfl
    | some o => simp [Callable.live, R.objs, h c hc s hs o hsrc]
  unfold BState.invoke
  rw [if_pos this]
  simp [ids, conc_id, Function.comp_def]

/-- A schedule is replaced by one with the same stages, differing in the systems only. -/
theorem BRel.replace {m : BState} {S : SState} (R : BRel m S) {s : Nat} {x x' : SSched} {y y' : BSched}
    (hx : S.scheds[s]? = some (some x)) (hy : m.scheds[s]? = some (some y)) (hr : SchRel x' y')
    (hl : x'.stages.length = x.stages.length) (hc : y'.cap = y.cap) (hb : y'.buf = y.buf)
    (hh : ∀ (i : Nat) (st' : BStage), y'.stages[i]? = some st' → ∃ st : BStage, y.stages[i]? = some st ∧ st.sched = st'.sched)
    {E : List (List (List Callable))} {E' : List (List (List SSys))} (hE : E = E'.map (·.map (·.map SSys.conc))) :
    BRel { m with scheds := m.scheds.set s (some y'), execs := E } { S with scheds := S.scheds.set s (some x'), execs := E' } := by
  obtain ⟨y0, hy0, r0⟩ := R.sch s x hx
  rw [hy] at hy0
  cases hy0
  have hsl : s < S.scheds.length := lt_of_get hx
  have hsl' : s < m.scheds.length := lt_of_get hy
  have hyl : y'.stages.length = y.stages.length := by rw [hr.len, r0.len, hl]
  refine ⟨R.objs, hE, by simp [R.len], ?_, ?_, ?_, ?_, R.rlen, ?_, ?_, ?_⟩
  · intro t w hw
    rcases set_some_cases hw with ⟨rfl, e, _⟩ | ⟨hne, e⟩
    · cases e
      exact ⟨y', by simp [List.getElem?_set, hsl'], hr⟩
    · obtain ⟨v, h1, h2⟩ := R.sch t w e
      exact ⟨v, by simp only [List.getElem?_set, if_neg (Ne.symm hne), h1], h2⟩
  · intro t v hv
    rcases set_some_cases hv with ⟨rfl, e, _⟩ | ⟨hne, e⟩
    · cases e
      rw [hyl, hc, hb]; exact R.has t y hy
    · exact R.has t v e
  · intro t v b hv
    rcases set_some_cases hv with ⟨rfl, e, _⟩ | ⟨hne, e⟩
    · cases e
      rw [hb]; exact R.old t y b hy
    · exact R.old t v b e
  · intro t u v w b hv hw hbv hbw
    rcases set_some_cases hv with ⟨rfl, e, _⟩ | ⟨hne, e⟩ <;> rcases set_some_cases hw with ⟨rfl, e', _⟩ | ⟨hne', e'⟩
    · rfl
    · cases e
      exact R.uniq t u y w b hy e' (by rw [← hb]; exact hbv) hbw
    · cases e'
      exact R.uniq t u v y b e hy hbv (by rw [← hb]; exact hbw)
    · exact R.uniq t u v w b e e' hbv hbw
  · intro r z hz
    obtain ⟨h1, h2⟩ := R.bound r z hz
    refine ⟨by simpa using h1, fun w hw => ?_⟩
    rcases set_some_cases hw with ⟨e0, e, _⟩ | ⟨hne, e⟩
    · cases e
      rw [hl]; exact h2 x (e0 ▸ hx)
    · exact h2 w e
  · intro r z w v hz hw hp hv
    rcases set_some_cases hw with ⟨e0, e, _⟩ | ⟨hne, e⟩
    · cases e
      have hv' : v = y' := by
        rw [e0] at hv
        simp [List.getElem?_set, hsl'] at hv
        exact hv.symm
      subst hv'
      rw [hb]
      exact R.newest r z x y hz (e0 ▸ hx) (by rw [← hl]; exact hp) (e0 ▸ hy)
    · simp only [List.getElem?_set, if_neg (Ne.symm hne)] at hv
      exact R.newest r z w v hz e hp hv
  · intro r z v st hz hv hst
    rcases set_some_cases hv with ⟨e0, e, _⟩ | ⟨hne, e⟩
    · cases e
      obtain ⟨st0, h1, h2⟩ := hh _ _ hst
      rw [← h2]
      exact R.home r z y st0 hz (e0 ▸ hy) h1
    · exact R.home r z v st hz e hst

theorem BRel.formOk {m : BState} {S : SState} (R : BRel m S) (f : SysForm) : m.formOk f = S.formOk f := by
  cases f <;> simp [BState.formOk, SState.formOk, R.objs]

/-- A stage is begun. -/
theorem BRel.begun {m : BState} {S : SState} (R : BRel m S) {s : Nat} {x : SSched} {y y' : BSched}
    (hx : S.scheds[s]? = some (some x)) (hy : m.scheds[s]? = some (some y)) {b n : Nat}
    (hs' : y'.stages = y.stages ++ [⟨s, [], []⟩]) (hi : y'.init = y.init) (hb : y'.buf = some b)
    (hbn : (b < n ∧ y.buf = some b ∧ n = m.nextBuf) ∨ (b = m.nextBuf ∧ n = m.nextBuf + 1)) :
    BRel { m with scheds := m.scheds.set s (some y'), nextBuf := n, refs := m.refs ++ [(b, y.stages.length)] }
      { S with scheds := S.scheds.set s (some { x with stages := x.stages ++ [⟨[], []⟩] })
               refs := S.refs ++ [⟨s, x.stages.length, s⟩] } := by
  obtain ⟨y0, hy0, r0⟩ := R.sch s x hx
  rw [hy] at hy0
  cases hy0
  have hsl : s < S.scheds.length := lt_of_get hx
  have hsl' : s < m.scheds.length := lt_of_get hy
  -- no other schedule has the buffer
  have hoth : ∀ t v, t ≠ s → m.scheds[t]? = some (some v) → v.buf ≠ some b := by
    intro t v hne hv hvb
    rcases hbn with ⟨_, h2, _⟩ | ⟨h1, _⟩
    · exact hne (R.uniq t s v y b hv hy hvb h2)
    · have := R.old t v b hv hvb; omega
  refine ⟨R.objs, R.execs, by simp [R.len], ?_, ?_, ?_, ?_, by simp [R.rlen], ?_, ?_, ?_⟩
  · intro t w hw
    rcases set_some_cases hw with ⟨rfl, e, _⟩ | ⟨hne, e⟩
    · cases e
      refine ⟨y', by simp [List.getElem?_set, hsl'], hi ▸ r0.init, by simp [hs', r0.len], fun i a st ha hst => ?_⟩
      rw [hs'] at hst
      rcases Nat.lt_trichotomy i x.stages.length with hlt | rfl | hgt
      · rw [List.getElem?_append_left hlt] at ha
        rw [List.getElem?_append_left (by rw [r0.len]; exact hlt)] at hst
        exact r0.stages i a st ha hst
      · rw [List.getElem?_append_right (Nat.le_refl _)] at ha
        rw [List.getElem?_append_right (by rw [r0.len]; exact Nat.le_refl _)] at hst
        simp [r0.len] at ha hst
        subst ha; subst hst
        exact ⟨rfl, rfl⟩
      · rw [List.getElem?_eq_none (by simp; omega)] at ha; cases ha
    · obtain ⟨v, h1, h2⟩ := R.sch t w e
      exact ⟨v, by simp only [List.getElem?_set, if_neg (Ne.symm hne), h1], h2⟩
  · intro t v hv
    rcases set_some_cases hv with ⟨rfl, e, _⟩ | ⟨hne, e⟩
    · cases e
      rw [hb]; intro _ h; cases h
    · exact R.has t v e
  · intro t v c hv hc
    show c < n
    rcases set_some_cases hv with ⟨rfl, e, _⟩ | ⟨hne, e⟩
    · cases e
      rw [hb] at hc
      cases hc
      omega
    · have := R.old t v c e hc
      omega
  · intro t u v w c hv hw hbv hbw
    rcases set_some_cases hv with ⟨rfl, e, _⟩ | ⟨hne, e⟩ <;> rcases set_some_cases hw with ⟨rfl, e', _⟩ | ⟨hne', e'⟩
    · rfl
    · cases e
      rw [hb] at hbv
      cases hbv
      exact absurd hbw (hoth u w hne' e')
    · cases e'
      rw [hb] at hbw
      cases hbw
      exact absurd hbv (hoth t v hne e)
    · exact R.uniq t u v w c e e' hbv hbw
  · intro r z hz
    rcases Nat.lt_trichotomy r S.refs.length with hlt | rfl | hgt
    · rw [List.getElem?_append_left hlt] at hz
      obtain ⟨h1, h2⟩ := R.bound r z hz
      refine ⟨by simpa using h1, fun w hw => ?_⟩
      rcases set_some_cases hw with ⟨e0, e, _⟩ | ⟨hne, e⟩
      · cases e
        have := h2 x (e0 ▸ hx)
        simp; omega
      · exact h2 w e
    · rw [List.getElem?_append_right (Nat.le_refl _)] at hz
      simp at hz
      subst hz
      refine ⟨by simpa using hsl, fun w hw => ?_⟩
      rcases set_some_cases hw with ⟨e0, e, _⟩ | ⟨hne, e⟩
      · cases e; simp
      · exact absurd rfl hne
    · rw [List.getElem?_eq_none (by simp; omega)] at hz; cases hz
  · intro r z w v hz hw hp hv
    rcases Nat.lt_trichotomy r S.refs.length with hlt | rfl | hgt
    · rw [List.getElem?_append_left hlt] at hz
      rcases set_some_cases hw with ⟨e0, e, _⟩ | ⟨hne, e⟩
      · cases e
        have := (R.bound r z hz).2 x (e0 ▸ hx)
        simp at hp
        omega
      · simp only [List.getElem?_set, if_neg (Ne.symm hne)] at hv
        obtain ⟨c, h1, h2⟩ := R.newest r z w v hz e hp hv
        exact ⟨c, by simp only; rw [List.getElem?_append_left (by rw [R.rlen]; exact hlt)]; exact h1, h2⟩
    · rw [List.getElem?_append_right (Nat.le_refl _)] at hz
      simp at hz
      subst hz
      simp [List.getElem?_set, hsl'] at hv
      subst hv
      refine ⟨b, ?_, hb⟩
      simp only
      rw [List.getElem?_append_right (by rw [R.rlen]; exact Nat.le_refl _)]
      simp [R.rlen, r0.len]
    · rw [List.getElem?_eq_none (by simp; omega)] at hz; cases hz
  · intro r z v st hz hv hst
    rcases Nat.lt_trichotomy r S.refs.length with hlt | rfl | hgt
    · rw [List.getElem?_append_left hlt] at hz
      rcases set_some_cases hv with ⟨e0, e, _⟩ | ⟨hne, e⟩
      · cases e
        have := (R.bound r z hz).2 x (e0 ▸ hx)
        rw [hs', List.getElem?_append_left (by rw [r0.len]; exact this)] at hst
        exact R.home r z y st hz (e0 ▸ hy) hst
      · exact R.home r z v st hz e hst
    · rw [List.getElem?_append_right (Nat.le_refl _)] at hz
      simp at hz
      subst hz
      rcases set_some_cases hv with ⟨e0, e, _⟩ | ⟨hne, e⟩
      · cases e
        rw [hs', List.getElem?_append_right (by rw [r0.len]; exact Nat.le_refl _)] at hst
        simp [r0.len] at hst
        subst hst
        rfl
      · exact absurd rfl hne
    · rw [List.getElem?_eq_none (by simp; omega)] at hz; cases hz

/-- A new schedule. -/
theorem BRel.created {m : BState} {S : SState} (R : BRel m S) (k : Nat) :
    BRel { m with scheds := m.scheds ++ [some ⟨⟨k, [], []⟩, [], 0, none⟩] }
      { S with scheds := S.scheds ++ [some ⟨⟨[], []⟩, []⟩] } := by
  refine ⟨R.objs, R.execs, by simp [R.len], ?_, ?_, ?_, ?_, R.rlen, ?_, ?_, ?_⟩
  · intro t w hw
    rcases app_some_cases hw with ⟨rfl, e⟩ | ⟨hl, e⟩
    · subst e
      exact ⟨⟨⟨k, [], []⟩, [], 0, none⟩, by rw [← R.len]; simp, ⟨rfl, rfl⟩, rfl, fun i a b ha => by simp at ha⟩
    · obtain ⟨v, h1, h2⟩ := R.sch t w e
      exact ⟨v, by simp only; rw [List.getElem?_append_left (by rw [R.len]; exact hl)]; exact h1, h2⟩
  · intro t v hv
    rcases app_some_cases hv with ⟨rfl, e⟩ | ⟨hl, e⟩
    · subst e; intro h; simp at h
    · exact R.has t v e
  · intro t v b hv
    rcases app_some_cases hv with ⟨rfl, e⟩ | ⟨hl, e⟩
    · subst e; intro h; simp at h
    · exact R.old t v b e
  · intro t u v w b hv hw hbv hbw
    rcases app_some_cases hv with ⟨rfl, e⟩ | ⟨hl, e⟩
    · subst e; simp at hbv
    · rcases app_some_cases hw with ⟨rfl, e'⟩ | ⟨hl', e'⟩
      · subst e'; simp at hbw
      · exact R.uniq t u v w b e e' hbv hbw
  · intro r z hz
    obtain ⟨h1, h2⟩ := R.bound r z hz
    refine ⟨by simp; omega, fun w hw => ?_⟩
    rcases app_some_cases hw with ⟨e0, e⟩ | ⟨hl, e⟩
    · omega
    · exact h2 w e
  · intro r z w v hz hw hp hv
    have hb := (R.bound r z hz).1
    simp only at hw hv
    rw [List.getElem?_append_left hb] at hw
    rw [List.getElem?_append_left (by rw [R.len]; exact hb)] at hv
    exact R.newest r z w v hz hw hp hv
  · intro r z v st hz hv hst
    have hb := (R.bound r z hz).1
    simp only at hv
    rw [List.getElem?_append_left (by rw [R.len]; exact hb)] at hv
    exact R.home r z v st hz hv hst

/-- A schedule is destroyed. -/
theorem BRel.destroyed {m : BState} {S : SState} (R : BRel m S) (s : Nat) :
    BRel { m with scheds := m.scheds.set s none } { S with scheds := S.scheds.set s none } := by
  have hc : ∀ {α : Type} {l : List (Option α)} {t : Nat} {x : α}, (l.set s none)[t]? = some (some x) → t ≠ s ∧ l[t]? = some (some x) := by
    intro α l t x h
    rcases set_some_cases h with ⟨_, e, _⟩ | h
    · cases e
    · exact h
  refine ⟨R.objs, R.execs, by simp [R.len], ?_, ?_, ?_, ?_, R.rlen, ?_, ?_, ?_⟩
  · intro t w hw
    obtain ⟨hne, e⟩ := hc hw
    obtain ⟨v, h1, h2⟩ := R.sch t w e
    exact ⟨v, by simp only [List.getElem?_set, if_neg (Ne.symm hne), h1], h2⟩
  · intro t v hv; exact R.has t v (hc hv).2
  · intro t v b hv; exact R.old t v b (hc hv).2
  · intro t u v w b hv hw; exact R.uniq t u v w b (hc hv).2 (hc hw).2
  · intro r z hz
    obtain ⟨h1, h2⟩ := R.bound r z hz
    exact ⟨by simpa using h1, fun w hw => h2 w (hc hw).2⟩
  · intro r z w v hz hw hp hv; exact R.newest r z w v hz (hc hw).2 hp (hc hv).2
  · intro r z v st hz hv hst; exact R.home r z v st hz (hc hv).2 hst

/-- A schedule is moved to a new address. -/
theorem BRel.moved {m : BState} {S : SState} (R : BRel m S) {s : Nat} {x : SSched} {y : BSched}
    (hx : S.scheds[s]? = some (some x)) (hy : m.scheds[s]? = some (some y)) (k : Nat) :
    BRel { m with scheds := m.scheds.set s (some ⟨⟨k, [], []⟩, [], 0, none⟩) ++ [some y] }
      { S with scheds := S.scheds.set s (some ⟨⟨[], []⟩, []⟩) ++ [some x]
               refs := S.refs.map fun z => if z.sched = s then { z with sched := S.scheds.length } else z } := by
  obtain ⟨y0, hy0, r0⟩ := R.sch s x hx
  rw [hy] at hy0
  cases hy0
  have hsl : s < S.scheds.length := lt_of_get hx
  have hsl' : s < m.scheds.length := lt_of_get hy
  -- where a schedule is now
  have hS : ∀ {t : Nat} {w : SSched}, (S.scheds.set s (some ⟨⟨[], []⟩, []⟩) ++ [some x])[t]? = some (some w) →
      (t = S.scheds.length ∧ x = w) ∨ (t = s ∧ w = ⟨⟨[], []⟩, []⟩) ∨ (t ≠ s ∧ t < S.scheds.length ∧ S.scheds[t]? = some (some w)) := by
    intro t w h
    rcases app_some_cases h with ⟨h1, h2⟩ | ⟨h1, h2⟩
    · exact .inl ⟨by simpa using h1, h2⟩
    · rcases set_some_cases h2 with ⟨h3, h4, _⟩ | ⟨h3, h4⟩
      · cases h4; exact .inr (.inl ⟨h3, rfl⟩)
      · exact .inr (.inr ⟨h3, lt_of_get h4, h4⟩)
  have hM : ∀ {t : Nat} {w : BSched}, (m.scheds.set s (some ⟨⟨k, [], []⟩, [], 0, none⟩) ++ [some y])[t]? = some (some w) →
      (t = S.scheds.length ∧ y = w) ∨ (t = s ∧ w = ⟨⟨k, [], []⟩, [], 0, none⟩) ∨
        (t ≠ s ∧ t < S.scheds.length ∧ m.scheds[t]? = some (some w)) := by
    intro t w h
    rcases app_some_cases h with ⟨h1, h2⟩ | ⟨h1, h2⟩
    · exact .inl ⟨by simpa [R.len] using h1, h2⟩
    · rcases set_some_cases h2 with ⟨h3, h4, _⟩ | ⟨h3, h4⟩
      · cases h4; exact .inr (.inl ⟨h3, rfl⟩)
      · exact .inr (.inr ⟨h3, by rw [← R.len]; exact lt_of_get h4, h4⟩)
  -- where a reference leads now
  have hR : ∀ {r : Nat} {z : SRef}, (S.refs.map fun z => if z.sched = s then { z with sched := S.scheds.length } else z)[r]? = some z →
      ∃ z0, S.refs[r]? = some z0 ∧ z.pos = z0.pos ∧ z.home = z0.home ∧
        ((z0.sched = s ∧ z.sched = S.scheds.length) ∨ (z0.sched ≠ s ∧ z.sched = z0.sched)) := by
    intro r z h
    rw [List.getElem?_map] at h
    cases hr : S.refs[r]? with
    | none => simp [hr] at h
    | some z0 =>
      rw [hr] at h
      simp only [Option.map_some, Option.some.injEq] at h
      refine ⟨z0, rfl, ?_⟩
      by_cases hs : z0.sched = s
      · rw [if_pos hs] at h; subst h; exact ⟨rfl, rfl, .inl ⟨hs, rfl⟩⟩
      · rw [if_neg hs] at h; subst h; exact ⟨rfl, rfl, .inr ⟨hs, rfl⟩⟩
  refine ⟨R.objs, R.execs, by simp [R.len], ?_, ?_, ?_, ?_, by simp [R.rlen], ?_, ?_, ?_⟩
  · intro t w hw
    rcases hS hw with ⟨rfl, rfl⟩ | ⟨rfl, rfl⟩ | ⟨hne, hl, e⟩
    · exact ⟨y, by simp [← R.len], r0⟩
    · refine ⟨⟨⟨k, [], []⟩, [], 0, none⟩, ?_, ⟨rfl, rfl⟩, rfl, fun i a b ha => by simp at ha⟩
      simp only
      rw [List.getElem?_append_left (by simpa using hsl')]
      simp [List.getElem?_set, hsl']
    · obtain ⟨v, h1, h2⟩ := R.sch t w e
      refine ⟨v, ?_, h2⟩
      simp only
      rw [List.getElem?_append_left (by simp [R.len]; exact hl)]
      simp only [List.getElem?_set, if_neg (Ne.symm hne), h1]
  · intro t v hv
    rcases hM hv with ⟨rfl, rfl⟩ | ⟨rfl, rfl⟩ | ⟨hne, hl, e⟩
    · exact R.has s y hy
    · intro h; simp at h
    · exact R.has t v e
  · intro t v b hv
    rcases hM hv with ⟨rfl, rfl⟩ | ⟨rfl, rfl⟩ | ⟨hne, hl, e⟩
    · exact R.old s y b hy
    · intro h; simp at h
    · exact R.old t v b e
  · intro t u v w b hv hw hbv hbw
    rcases hM hv with ⟨rfl, rfl⟩ | ⟨rfl, rfl⟩ | ⟨hne, hl, e⟩
    · rcases hM hw with ⟨rfl, rfl⟩ | ⟨rfl, rfl⟩ | ⟨hne', hl', e'⟩
      · rfl
      · simp at hbw
      · exact absurd (R.uniq u s w y b e' hy hbw hbv) hne'
    · simp at hbv
    · rcases hM hw with ⟨rfl, rfl⟩ | ⟨rfl, rfl⟩ | ⟨hne', hl', e'⟩
      · exact absurd (R.uniq t s v y b e hy hbv hbw) hne
      · simp at hbw
      · exact R.uniq t u v w b e e' hbv hbw
  · intro r z hz
    obtain ⟨z0, h1, h2, _, h4⟩ := hR hz
    obtain ⟨b1, b2⟩ := R.bound r z0 h1
    refine ⟨by simp; omega, fun w hw => ?_⟩
    rw [h2]
    rcases hS hw with ⟨e0, rfl⟩ | ⟨e0, rfl⟩ | ⟨hne, hl, e⟩
    · rcases h4 with ⟨h5, h6⟩ | ⟨h5, h6⟩
      · exact b2 x (h5 ▸ hx)
      · omega
    · omega
    · rcases h4 with ⟨h5, h6⟩ | ⟨h5, h6⟩
      · omega
      · exact b2 w (h6 ▸ e)
  · intro r z w v hz hw hp hv
    obtain ⟨z0, h1, h2, _, h4⟩ := hR hz
    obtain ⟨b1, b2⟩ := R.bound r z0 h1
    rw [h2] at hp ⊢
    rcases h4 with ⟨h5, h6⟩ | ⟨h5, h6⟩
    · rcases hS hw with ⟨e0, rfl⟩ | ⟨e0, rfl⟩ | ⟨hne, hl, e⟩
      · rcases hM hv with ⟨_, rfl⟩ | ⟨e1, _⟩ | ⟨_, _, _⟩
        · exact R.newest r z0 x y h1 (h5 ▸ hx) hp (h5 ▸ hy)
        · omega
        · omega
      · omega
      · omega
    · rcases hS hw with ⟨e0, rfl⟩ | ⟨e0, rfl⟩ | ⟨hne, hl, e⟩
      · omega
      · omega
      · rcases hM hv with ⟨e1, _⟩ | ⟨e1, _⟩ | ⟨_, _, e'⟩
        · omega
        · omega
        · exact R.newest r z0 w v h1 (h6 ▸ e) hp (h6 ▸ e')
  · intro r z v st hz hv hst
    obtain ⟨z0, h1, h2, h3, h4⟩ := hR hz
    obtain ⟨b1, b2⟩ := R.bound r z0 h1
    rw [h2] at hst
    rw [h3]
    rcases h4 with ⟨h5, h6⟩ | ⟨h5, h6⟩
    · rcases hM hv with ⟨_, rfl⟩ | ⟨e1, _⟩ | ⟨_, _, _⟩
      · exact R.home r z0 y st h1 (h5 ▸ hy) hst
      · omega
      · omega
    · rcases hM hv with ⟨e1, _⟩ | ⟨e1, _⟩ | ⟨_, _, e'⟩
      · omega
      · omega
      · exact R.home r z0 v st h1 (h6 ▸ e') hst

theorem BRel.step {m : BState} {S S' : SState} (R : BRel m S) (grow : Nat → Nat) {op : BOp} {a : BAns} (hc : S.Careful op)
    (h : S.step op = some (S', a)) : ∃ m', m.step grow op = .ok (m', a) ∧ BRel m' S' := by
  cases op with
  | create =>
    simp only [SState.step, Option.some.injEq, Prod.mk.injEq] at h
    obtain ⟨rfl, rfl⟩ := h
    exact ⟨_, rfl, R.created _⟩
  | begin_ s =>
    cases hs : S.sched s with
    | none => simp [SState.step, hs] at h
    | some x =>
      simp only [SState.step, hs, Option.map_some, Option.some.injEq, Prod.mk.injEq] at h
      obtain ⟨rfl, rfl⟩ := h
      obtain ⟨y, h1, h2, h3⟩ := R.sched hs
      by_cases hl : y.stages.length < y.cap
      · cases hb : y.buf with
        | none => exact absurd hb (R.has s y h2 hl)
        | some b =>
          refine ⟨_, by simp only [BState.step, h1, Run.bind, if_pos hl, hb]; rfl, ?_⟩
          have := R.begun (SState.sched_some hs) h2 (y' := { y with stages := y.stages ++ [⟨s, [], []⟩] }) (b := b) (n := m.nextBuf)
            rfl rfl hb (.inl ⟨R.old s y b h2 hb, hb, rfl⟩)
          rw [hb] at this
          exact this
      · refine ⟨_, by simp only [BState.step, h1, Run.bind, if_neg hl]; rfl, ?_⟩
        have := R.begun (SState.sched_some hs) h2 (y' := { y with stages := y.stages ++ [⟨s, [], []⟩], cap := grow y.stages.length, buf := some m.nextBuf })
          (b := m.nextBuf) (n := m.nextBuf + 1) rfl rfl rfl (.inr ⟨rfl, rfl⟩)
        exact this
  | add r main id form =>
    cases hs : S.stage r with
    | none => simp [SState.step, hs] at h
    | some w =>
      obtain ⟨z, x, st⟩ := w
      have hn := hc z x st hs
      obtain ⟨y, st', g1, g2, g3, g4, g5, g6, g7⟩ := R.stage hs hn
      by_cases hf : S.formOk form
      · simp only [SState.step, hs, Option.bind_some, if_pos hf, Option.some.injEq, Prod.mk.injEq] at h
        obtain ⟨rfl, rfl⟩ := h
        have hst := g3.stages _ _ _ g6 g7
        refine ⟨_, by simp only [BState.step, g1, Run.bind, R.formOk, if_pos hf]; rfl, ?_⟩
        refine R.replace g5 g2 ?_ ?_ ?_ ?_ ?_ R.execs
        rotate_left
        · simp
        · rfl
        · rfl
        rotate_left
        refine ⟨g3.init, by simp [g3.len], ?_⟩
        · intro i a b ha hb
          simp only [List.getElem?_set] at ha hb
          by_cases hi : z.pos = i
          · rw [if_pos hi, if_pos (lt_of_get g6)] at ha
            rw [if_pos hi, if_pos (lt_of_get g7)] at hb
            simp only [Option.some.injEq] at ha hb
            subst ha; subst hb
            cases main
            · exact ⟨by simp [hst.systems, conc_of], hst.main⟩
            · exact ⟨hst.systems, by simp [hst.main, conc_of]⟩
          · rw [if_neg hi] at ha hb
            exact g3.stages i a b ha hb
        · intro i b hb
          simp only [List.getElem?_set] at hb
          by_cases hi : z.pos = i
          · rw [if_pos hi, if_pos (lt_of_get g7)] at hb
            simp only [Option.some.injEq] at hb
            subst hb
            exact ⟨st', hi ▸ g7, by cases main <;> rfl⟩
          · rw [if_neg hi] at hb
            exact ⟨b, hb, rfl⟩
      · simp [SState.step, hs, hf] at h
  | addInit s id form =>
    cases hs : S.sched s with
    | none => simp [SState.step, hs] at h
    | some x =>
      obtain ⟨y, h1, h2, h3⟩ := R.sched hs
      by_cases hf : S.formOk form
      · simp only [SState.step, hs, Option.bind_some, if_pos hf, Option.some.injEq, Prod.mk.injEq] at h
        obtain ⟨rfl, rfl⟩ := h
        refine ⟨_, by simp only [BState.step, h1, Run.bind, R.formOk, if_pos hf]; rfl, ?_⟩
        refine R.replace (SState.sched_some hs) h2 ?_ ?_ ?_ ?_ ?_ R.execs
        · exact ⟨⟨by simp [h3.init.systems, conc_of], h3.init.main⟩, h3.len, h3.stages⟩
        · rfl
        · rfl
        · rfl
        · exact fun i st hi => ⟨st, hi, rfl⟩
      · simp [SState.step, hs, hf] at h
  | end_ r =>
    cases hs : S.stage r with
    | none => simp [SState.step, hs] at h
    | some w =>
      obtain ⟨z, x, st⟩ := w
      obtain ⟨y, st', g1, g2, g3, g4, g5, g6, g7⟩ := R.stage hs (hc.1 z x st hs)
      simp only [SState.step, hs, Option.map_some, Option.some.injEq, Prod.mk.injEq] at h
      obtain ⟨rfl, rfl⟩ := h
      have := R.home r z y st' g4 g2 g7
      exact ⟨m, by simp only [BState.step, g1, Run.bind, this, hc.2 z g4], R⟩
  | move s =>
    cases hs : S.sched s with
    | none => simp [SState.step, hs] at h
    | some x =>
      simp only [SState.step, hs, Option.map_some, Option.some.injEq, Prod.mk.injEq] at h
      obtain ⟨rfl, rfl⟩ := h
      obtain ⟨y, h1, h2, h3⟩ := R.sched hs
      exact ⟨_, by simp only [BState.step, h1, Run.bind]; rfl, R.moved (SState.sched_some hs) h2 _⟩
  | destroy s =>
    cases hs : S.sched s with
    | none => simp [SState.step, hs] at h
    | some x =>
      simp only [SState.step, hs, Option.map_some, Option.some.injEq, Prod.mk.injEq] at h
      obtain ⟨rfl, rfl⟩ := h
      obtain ⟨y, h1, h2, h3⟩ := R.sched hs
      exact ⟨_, by simp only [BState.step, h1, Run.bind], R.destroyed s⟩
  | exec s =>
    cases hs : S.sched s with
    | none => simp [SState.step, hs] at h
    | some x =>
      simp only [SState.step, hs, Option.map_some, Option.some.injEq, Prod.mk.injEq] at h
      obtain ⟨rfl, rfl⟩ := h
      obtain ⟨y, h1, h2, h3⟩ := R.sched hs
      have hi := R.invoke (hc x hs)
      simp only [List.map_cons, List.map_nil, ← h3.init.invoked] at hi
      refine ⟨_, by simp only [BState.step, h1, Run.bind, hi]; rfl, ?_⟩
      refine R.replace (SState.sched_some hs) h2 ?_ ?_ ?_ ?_ ?_ ?_
      · refine ⟨⟨rfl, h3.init.main⟩, by simp [h3.len], ?_⟩
        intro i a b ha hb
        simp only [List.getElem?_map] at ha hb
        cases ga : x.stages[i]? with
        | none => simp [ga] at ha
        | some a0 =>
          cases gb : y.stages[i]? with
          | none => simp [gb] at hb
          | some b0 =>
            simp [ga] at ha
            simp [gb] at hb
            subst ha; subst hb
            exact ⟨rfl, (h3.stages i a0 b0 ga gb).main⟩
      · simp
      · rfl
      · rfl
      rotate_left
      · simp [R.execs, h3.invoked]
      · intro i b hb
        simp only [List.getElem?_map] at hb
        cases gb : y.stages[i]? with
        | none => simp [gb] at hb
        | some b0 =>
          simp [gb] at hb
          subst hb
          exact ⟨b0, rfl, rfl⟩
  | run e =>
    cases he : S.execs[e]? with
    | none => simp [SState.step, he] at h
    | some cs =>
      simp only [SState.step, he, Option.map_some, Option.some.injEq, Prod.mk.injEq] at h
      obtain ⟨rfl, rfl⟩ := h
      have hm : m.execs[e]? = some (cs.map (·.map SSys.conc)) := by rw [R.execs, List.getElem?_map, he]; rfl
      exact ⟨m, by simp only [BState.step, hm, R.invoke (hc cs he), Run.bind], R⟩
  | obj =>
    simp only [SState.step, Option.some.injEq, Prod.mk.injEq] at h
    obtain ⟨rfl, rfl⟩ := h
    exact ⟨_, rfl, { R with objs := by simp [R.objs] }⟩
  | drop o =>
    by_cases ho : S.objs[o]? = some true
    · simp only [SState.step, if_pos ho, Option.some.injEq, Prod.mk.injEq] at h
      obtain ⟨rfl, rfl⟩ := h
      have e : m.step grow (.drop o) = .ok ({ m with objs := m.objs.set o false }, .done) := by
        simp only [BState.step, R.objs, if_pos ho]
      exact ⟨_, e, { R with objs := by simp [R.objs] }⟩
    · simp [SState.step, ho] at h

theorem BRel.runAll (grow : Nat → Nat) (ops : List BOp) : ∀ {m : BState} {S S' : SState} {as : List BAns}, BRel m S →
    S.CarefulAll ops → S.runAll ops = some (S', as) → ∃ m', m.runAll grow ops = .ok (m', as) ∧ BRel m' S' := by
  induction ops with
  | nil =>
    intro m S S' as R _ h
    simp only [SState.runAll, Option.some.injEq, Prod.mk.injEq] at h
    obtain ⟨rfl, rfl⟩ := h
    exact ⟨m, rfl, R⟩
  | cons op ops ih =>
    intro m S S' as R hc h
    cases h1 : S.step op with
    | none => simp [SState.runAll, h1] at h
    | some r =>
      obtain ⟨S1, a⟩ := r
      cases h2 : S1.runAll ops with
      | none => simp [SState.runAll, h1, h2] at h
      | some r2 =>
        obtain ⟨S2, as2⟩ := r2
        simp [SState.runAll, h1, h2] at h
        obtain ⟨rfl, rfl⟩ := h
        obtain ⟨m1, k1, R1⟩ := R.step grow hc.1 h1
        obtain ⟨m2, k2, R2⟩ := ih R1 (hc.2 _ h1) h2
        exact ⟨m2, by simp [BState.runAll, k1, Run.bind, k2], R2⟩

end CoEcs
