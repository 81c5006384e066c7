import Verif.Proofs.ParallelRecord

/-!
# What the systems of a batch leave in the buffers
-/

namespace CoEcs
open Spec

variable {V : Type} {ty : Types} {husk : V → V}

/-- The commands of a system, given the entities it has created; `n` of them before. -/
def Denotes (made : List Handle) : Nat → List (SRec V) → List (ACmd V) → Prop
  | n, [], [] => n = made.length
  | n, .create args :: p, .create ph d :: q => made[n]? = some ph ∧ d = World.listed args ∧ Denotes made (n + 1) p q
  | n, .clone e :: p, .clone h ph :: q => e.resolve made = some h ∧ made[n]? = some ph ∧ Denotes made (n + 1) p q
  | n, .set e c v :: p, .set h c' v' :: q => e.resolve made = some h ∧ c = c' ∧ v = v' ∧ Denotes made n p q
  | n, .remove e c :: p, .remove h c' :: q => e.resolve made = some h ∧ c = c' ∧ Denotes made n p q
  | n, .destroy e :: p, .destroy h :: q => e.resolve made = some h ∧ Denotes made n p q
  | _, _, _ => False

/-- The queues with the number of the system for every command. -/
structure Ghost (i : Nat) (on : Nat → Nat) (c : CSys V) (T : List (Tagged V)) : Prop where
  todo : c.todo = T.map fun q => q.map fun x => (i, x.2)
  place : ∀ (b : Nat) (q : Tagged V), T[b]? = some q → ∀ x ∈ q, on x.1 = b

theorem proj_none {k : Nat} {q : Tagged V} (h : ∀ x ∈ q, x.1 ≠ k) : proj k q = [] := by
  unfold proj
  rw [List.map_eq_nil_iff, List.filter_eq_nil_iff]
  intro x hx
  simp [h x hx]

theorem proj_modify {k : Nat} {a : ACmd V} (k' : Nat) : ∀ (T : List (Tagged V)) (b : Nat), b < T.length →
    (∀ (b' : Nat) (q : Tagged V), T[b']? = some q → ∀ x ∈ q, x.1 = k → b' = b) →
    proj k' (T.modify b (· ++ [(k, a)])).flatten = proj k' T.flatten ++ (if k' = k then [a] else []) := by
  intro T
  induction T with
  | nil => intro b hb; simp at hb
  | cons q T ih =>
    intro b hb hp
    cases b with
    | zero =>
      have hrest : k' = k → proj k' T.flatten = [] := by
        intro hk
        refine proj_none fun x hx hxk => ?_
        obtain ⟨q', hq', hx⟩ := List.mem_flatten.1 hx
        obtain ⟨j, hj⟩ := List.mem_iff_getElem?.1 hq'
        have := hp (j + 1) q' (by simpa using hj) x hx (by rw [hxk, hk])
        omega
      simp only [List.modify_zero_cons, List.flatten_cons, proj_append]
      by_cases hk : k' = k
      · rw [hrest hk]
        simp [hk, proj]
      · have : k ≠ k' := fun e => hk e.symm
        simp [hk, proj, this]
    | succ b =>
      simp only [List.modify_succ_cons, List.flatten_cons, proj_append]
      rw [ih b (by simpa using hb) fun b' q' h x hx hk => by
        have := hp (b' + 1) q' (by simpa using h) x hx hk
        omega]
      rw [List.append_assoc]

theorem BufsRel_length : ∀ (bs : List (Option (Buf V))) (qs : List (List (Nat × ACmd V))), BufsRel ty bs qs → bs.length = qs.length := by
  intro bs
  induction bs with
  | nil => intro qs h; cases qs with | nil => rfl | cons => exact h.elim
  | cons b bs ih =>
    intro qs h
    cases qs with
    | nil => cases b <;> exact absurd h id
    | cons q qs => simp only [List.length_cons]; rw [ih qs (by cases b <;> exact h.2)]

/-- The command that a call records. -/
def CmdOf : Rec V → Option Handle → ACmd V → Prop
  | .create args, some ph, a => a = .create ph (World.listed args)
  | .clone h, some ph, a => a = .clone h ph
  | .set h c v, none, a => a = .set h c v
  | .remove h c, none, a => a = .remove h c
  | .destroy h, none, a => a = .destroy h
  | _, _, _ => False

theorem record_cmd {c c' : CSys V} {b i : Nat} {rc : Rec V} {o : Option Handle}
    (hs : c.step ty husk (.record b i rc) = some (c', .ok o)) :
    b < c.bufs.length ∧ ∃ a, c'.todo = c.todo.modify b (· ++ [(i, a)]) ∧ CmdOf rc o a := by
  simp only [CSys.step] at hs
  split at hs
  · rename_i buf hb
    refine ⟨(List.getElem?_eq_some_iff.1 hb).1, ?_⟩
    cases rc <;> simp only [CSys.record] at hs
    · split at hs <;> cases hs; exact ⟨_, rfl, rfl⟩
    · split at hs <;> cases hs; exact ⟨_, rfl, rfl⟩
    · split at hs <;> cases hs; exact ⟨_, rfl, rfl⟩
    · cases hs; exact ⟨_, rfl, rfl⟩
    · cases hs; exact ⟨_, rfl, rfl⟩
  · cases hs

theorem Ghost.start {i : Nat} {on : Nat → Nat} {c c' : CSys V} {T : List (Tagged V)} {out : Out} (G : Ghost i on c T)
    (hs : c.step ty husk .start = some (c', out)) : Ghost i on c' (T ++ [[]]) := by
  cases hs
  refine ⟨by simp [G.todo], fun b q hq x hx => ?_⟩
  rw [List.getElem?_append] at hq
  split at hq
  · exact G.place b q hq x hx
  · have : q ∈ [([] : Tagged V)] := List.mem_of_getElem? hq
    simp only [List.mem_singleton] at this
    subst this
    cases hx

theorem Ghost.record {i : Nat} {on : Nat → Nat} {c c' : CSys V} {T : List (Tagged V)} {k : Nat} {a : ACmd V} (G : Ghost i on c T)
    (hs : c'.todo = c.todo.modify (on k) (· ++ [(i, a)])) : Ghost i on c' (T.modify (on k) (· ++ [(k, a)])) := by
  refine ⟨?_, fun b q hq x hx => ?_⟩
  · rw [hs, G.todo]
    apply List.ext_getElem?
    intro n
    simp only [List.getElem?_modify, List.getElem?_map]
    cases T[n]? with
    | none => rfl
    | some q => by_cases hn : on k = n <;> simp [hn]
  · rw [List.getElem?_modify] at hq
    cases hT : T[b]? with
    | none => simp [hT] at hq
    | some q0 =>
      by_cases hb : on k = b
      · simp only [hT, hb, Option.map_eq_map, Option.map_some, if_true, Option.some.injEq] at hq
        subst hq
        rcases List.mem_append.1 hx with hx | hx
        · exact G.place b q0 hT x hx
        · simp only [List.mem_singleton] at hx
          subst hx
          exact hb
      · simp only [hT, hb, Option.map_eq_map, Option.map_some, if_false, Option.some.injEq] at hq
        subst hq
        exact G.place b _ hT x hx

theorem resolve_mono {m m' : List Handle} (hp : m <+: m') {e : Name} {h : Handle} (hr : e.resolve m = some h) : e.resolve m' = some h := by
  cases e with
  | old => exact hr
  | mine n =>
    obtain ⟨t, rfl⟩ := hp
    simp only [Name.resolve] at hr ⊢
    have := (List.getElem?_eq_some_iff.1 hr).1
    rw [List.getElem?_append_left this, hr]

theorem made_next {m m' : List Handle} {ph : Handle} (hp : m ++ [ph] <+: m') : m'[m.length]? = some ph := by
  obtain ⟨t, rfl⟩ := hp
  simp

/-- Everything about an execution of a batch, seen from its last state. -/
theorem BatchRun.inv {i : Nat} {on : Nat → Nat} {c c' : CSys V} {ps : List (List (SRec V))} {m m' : Nat → List Handle}
    (h : BatchRun ty husk i on c ps m c' m') : ∀ (W : Spec.World V) (T : List (Tagged V)), CReach ty husk c W → Ghost i on c T →
    CReach ty husk c' W ∧ (∀ k, m k <+: m' k) ∧ ∃ T', Ghost i on c' T' ∧
      ∀ k, ∃ q, proj k T'.flatten = proj k T.flatten ++ q ∧ Denotes (m' k) (m k).length (ps[k]?.getD []) q := by
  induction h with
  | @done c ps m hd =>
    intro W T hr G
    refine ⟨hr, fun k => List.prefix_rfl, T, G, fun k => ⟨[], by simp, ?_⟩⟩
    cases hk : ps[k]? with
    | none => exact rfl
    | some p =>
      have := hd p (List.mem_of_getElem? hk)
      subst this
      exact rfl
  | start hs _ ih =>
    intro W T hr G
    obtain ⟨h1, h2, T', h3, h4⟩ := ih W (T ++ [[]]) (by have := CReach.step (op := .start) hr trivial hs; cases hs; exact this) (G.start hs)
    refine ⟨h1, h2, T', h3, fun k => ?_⟩
    obtain ⟨q, h5, h6⟩ := h4 k
    exact ⟨q, by rw [h5]; simp, h6⟩
  | @record c c1 c' ps m m' k s rest rc o hk hres hal hs _ ih =>
    intro W T hr G
    obtain ⟨hb, a, ha, hca⟩ := record_cmd hs
    have hlen : on k < T.length := by
      have h1 := BufsRel_length _ _ hr.inv.bufs
      have h2 : c.todo.length = T.length := by rw [G.todo, List.length_map]
      omega
    obtain ⟨h1, h2, T', h3, h4⟩ := ih W _ (CReach.step hr hal hs) (G.record ha)
    have hm : ∀ j, m j <+: addMade m k o j := by
      intro j
      unfold addMade
      split
      · rename_i e; subst e; exact List.prefix_append ..
      · exact List.prefix_rfl
    refine ⟨h1, fun j => (hm j).trans (h2 j), T', h3, fun j => ?_⟩
    obtain ⟨q, h5, h6⟩ := h4 j
    rw [proj_modify j T (on k) hlen (fun b q hq x hx hxk => by rw [← G.place b q hq x hx, hxk])] at h5
    by_cases hj : j = k
    · subst hj
      simp only [if_true, List.append_assoc, List.singleton_append] at h5
      refine ⟨a :: q, h5, ?_⟩
      have hlt : j < ps.length := (List.getElem?_eq_some_iff.1 hk).1
      rw [hk, Option.getD_some]
      rw [List.getElem?_set_self hlt, Option.getD_some] at h6
      have h7 := h2 j
      have hmk := (hm j).trans h7
      simp only [addMade, if_true] at h6 h7
      cases s with
      | create args =>
        cases hres
        cases o with
        | none => exact hca.elim
        | some ph =>
          simp only [CmdOf] at hca
          subst hca
          simp only [Option.toList_some, List.length_append, List.length_singleton] at h6 h7
          exact ⟨made_next h7, rfl, h6⟩
      | clone e =>
        simp only [SRec.resolve, Option.map_eq_some_iff] at hres
        obtain ⟨hh, hh1, rfl⟩ := hres
        cases o with
        | none => exact hca.elim
        | some ph =>
          simp only [CmdOf] at hca
          subst hca
          simp only [Option.toList_some, List.length_append, List.length_singleton] at h6 h7
          exact ⟨resolve_mono hmk hh1, made_next h7, h6⟩
      | set e cp v =>
        simp only [SRec.resolve, Option.map_eq_some_iff] at hres
        obtain ⟨hh, hh1, rfl⟩ := hres
        cases o with
        | some ph => exact hca.elim
        | none =>
          simp only [CmdOf] at hca
          subst hca
          simp only [Option.toList_none, List.append_nil] at h6
          exact ⟨resolve_mono hmk hh1, rfl, rfl, h6⟩
      | remove e cp =>
        simp only [SRec.resolve, Option.map_eq_some_iff] at hres
        obtain ⟨hh, hh1, rfl⟩ := hres
        cases o with
        | some ph => exact hca.elim
        | none =>
          simp only [CmdOf] at hca
          subst hca
          simp only [Option.toList_none, List.append_nil] at h6
          exact ⟨resolve_mono hmk hh1, rfl, h6⟩
      | destroy e =>
        simp only [SRec.resolve, Option.map_eq_some_iff] at hres
        obtain ⟨hh, hh1, rfl⟩ := hres
        cases o with
        | some ph => exact hca.elim
        | none =>
          simp only [CmdOf] at hca
          subst hca
          simp only [Option.toList_none, List.append_nil] at h6
          exact ⟨resolve_mono hmk hh1, h6⟩
    · simp only [hj, if_false, List.append_nil] at h5
      refine ⟨q, h5, ?_⟩
      rw [List.getElem?_set_ne (fun e => hj e.symm)] at h6
      simp only [addMade, hj, if_false] at h6
      exact h6

/-! ## The entities created -/

theorem Denotes.placeholders {made : List Handle} : ∀ (p : List (SRec V)) (q : List (ACmd V)) (n : Nat), Denotes made n p q →
    n ≤ made.length ∧ q.filterMap ACmd.placeholder = made.drop n := by
  intro p
  induction p with
  | nil =>
    intro q n h
    cases q with
    | nil =>
      simp only [Denotes] at h
      subst h
      simp
    | cons a q => exact absurd h (by cases a <;> exact id)
  | cons s p ih =>
    intro q n h
    cases q with
    | nil => exact absurd h (by cases s <;> exact id)
    | cons a q =>
      cases s <;> cases a <;> simp only [Denotes] at h
      · obtain ⟨h1, h2⟩ := ih q _ h.2.2
        obtain ⟨hl, he⟩ := List.getElem?_eq_some_iff.1 h.1
        refine ⟨by omega, ?_⟩
        rw [List.drop_eq_getElem_cons hl, he]
        simp [ACmd.placeholder, h2]
      · obtain ⟨h1, h2⟩ := ih q _ h.2.2
        obtain ⟨hl, he⟩ := List.getElem?_eq_some_iff.1 h.2.1
        refine ⟨by omega, ?_⟩
        rw [List.drop_eq_getElem_cons hl, he]
        simp [ACmd.placeholder, h2]
      · obtain ⟨h1, h2⟩ := ih q _ h.2.2.2
        exact ⟨h1, by rw [List.filterMap_cons]; exact h2⟩
      · obtain ⟨h1, h2⟩ := ih q _ h.2.2
        exact ⟨h1, by rw [List.filterMap_cons]; exact h2⟩
      · obtain ⟨h1, h2⟩ := ih q _ h.2
        exact ⟨h1, by rw [List.filterMap_cons]; exact h2⟩

/-- Two executions of a system create equally many entities. -/
theorem Denotes.count {made made' : List Handle} : ∀ (p : List (SRec V)) (q q' : List (ACmd V)) (n : Nat), Denotes made n p q →
    Denotes made' n p q' → made.length = made'.length := by
  intro p
  induction p with
  | nil =>
    intro q q' n h h'
    cases q with
    | cons a q => exact absurd h (by cases a <;> exact id)
    | nil =>
      cases q' with
      | cons a q => exact absurd h' (by cases a <;> exact id)
      | nil => simp only [Denotes] at h h'; omega
  | cons s p ih =>
    intro q q' n h h'
    cases q with
    | nil => exact absurd h (by cases s <;> exact id)
    | cons a q =>
      cases q' with
      | nil => exact absurd h' (by cases s <;> exact id)
      | cons a' q' =>
        cases s <;> cases a <;> simp only [Denotes] at h <;> cases a' <;> simp only [Denotes] at h'
        · exact ih _ _ _ h.2.2 h'.2.2
        · exact ih _ _ _ h.2.2 h'.2.2
        · exact ih _ _ _ h.2.2.2 h'.2.2.2
        · exact ih _ _ _ h.2.2 h'.2.2
        · exact ih _ _ _ h.2 h'.2

theorem resolve_cases {made : List Handle} {e : Name} {h : Handle} (hr : e.resolve made = some h) : e = .old h ∨ h ∈ made := by
  cases e with
  | old h' => cases hr; exact .inl rfl
  | mine n => exact .inr (List.mem_of_getElem? hr)

theorem Denotes.changes {made : List Handle} : ∀ (p : List (SRec V)) (q : List (ACmd V)) (n : Nat), Denotes made n p q →
    ∀ a ∈ q, ∀ h x, ACmd.Changes a h x → (∃ s ∈ p, SRec.Changes s h x) ∨ h ∈ made := by
  intro p
  induction p with
  | nil =>
    intro q n h a ha
    cases q with
    | nil => cases ha
    | cons a q => exact absurd h (by cases a <;> exact id)
  | cons s p ih =>
    intro q n hd b hb h x hc
    cases q with
    | nil => cases hb
    | cons a q =>
      have step : ∀ n', Denotes made n' p q → b ∈ q → (∃ s' ∈ s :: p, SRec.Changes s' h x) ∨ h ∈ made := by
        intro n' hd' hb'
        rcases ih q n' hd' b hb' h x hc with ⟨s', h1, h2⟩ | h1
        · exact .inl ⟨s', List.mem_cons_of_mem _ h1, h2⟩
        · exact .inr h1
      cases s <;> cases a <;> simp only [Denotes] at hd <;> rcases List.mem_cons.1 hb with rfl | hb
      · simp only [ACmd.Changes] at hc
        exact .inr (by rw [hc]; exact List.mem_of_getElem? hd.1)
      · exact step _ hd.2.2 hb
      · simp only [ACmd.Changes] at hc
        exact .inr (by rw [hc]; exact List.mem_of_getElem? hd.2.1)
      · exact step _ hd.2.2 hb
      · obtain ⟨rfl, rfl⟩ := hc
        rcases resolve_cases hd.1 with h1 | h1
        · exact .inl ⟨_, List.mem_cons_self, h1, by rw [hd.2.1]⟩
        · exact .inr h1
      · exact step _ hd.2.2.2 hb
      · obtain ⟨rfl, rfl⟩ := hc
        rcases resolve_cases hd.1 with h1 | h1
        · exact .inl ⟨_, List.mem_cons_self, h1, by rw [hd.2.1]⟩
        · exact .inr h1
      · exact step _ hd.2.2 hb
      · simp only [ACmd.Changes] at hc
        subst hc
        rcases resolve_cases hd.1 with h1 | h1
        · exact .inl ⟨_, List.mem_cons_self, h1⟩
        · exact .inr h1
      · exact step _ hd.2 hb

theorem Denotes.uses {made : List Handle} : ∀ (p : List (SRec V)) (q : List (ACmd V)) (n : Nat), Denotes made n p q →
    ∀ a ∈ q, ∀ h x, ACmd.Uses a h x → (∃ s ∈ p, SRec.Uses s h x) ∨ h ∈ made := by
  intro p
  induction p with
  | nil =>
    intro q n h a ha
    cases q with
    | nil => cases ha
    | cons a q => exact absurd h (by cases a <;> exact id)
  | cons s p ih =>
    intro q n hd b hb h x hc
    cases q with
    | nil => cases hb
    | cons a q =>
      have step : ∀ n', Denotes made n' p q → b ∈ q → (∃ s' ∈ s :: p, SRec.Uses s' h x) ∨ h ∈ made := by
        intro n' hd' hb'
        rcases ih q n' hd' b hb' h x hc with ⟨s', h1, h2⟩ | h1
        · exact .inl ⟨s', List.mem_cons_of_mem _ h1, h2⟩
        · exact .inr h1
      cases s <;> cases a <;> simp only [Denotes] at hd <;> rcases List.mem_cons.1 hb with rfl | hb
      · simp only [ACmd.Uses] at hc
        exact .inr (by rw [hc]; exact List.mem_of_getElem? hd.1)
      · exact step _ hd.2.2 hb
      · simp only [ACmd.Uses] at hc
        rcases hc with rfl | rfl
        · rcases resolve_cases hd.1 with h1 | h1
          · exact .inl ⟨_, List.mem_cons_self, h1⟩
          · exact .inr h1
        · exact .inr (List.mem_of_getElem? hd.2.1)
      · exact step _ hd.2.2 hb
      · obtain ⟨rfl, hx⟩ := hc
        rcases resolve_cases hd.1 with h1 | h1
        · exact .inl ⟨_, List.mem_cons_self, h1, by rw [hd.2.1]; exact hx⟩
        · exact .inr h1
      · exact step _ hd.2.2.2 hb
      · obtain ⟨rfl, hx⟩ := hc
        rcases resolve_cases hd.1 with h1 | h1
        · exact .inl ⟨_, List.mem_cons_self, h1, by rw [hd.2.1]; exact hx⟩
        · exact .inr h1
      · exact step _ hd.2.2 hb
      · simp only [ACmd.Uses] at hc
        subst hc
        rcases resolve_cases hd.1 with h1 | h1
        · exact .inl ⟨_, List.mem_cons_self, h1⟩
        · exact .inr h1
      · exact step _ hd.2 hb

theorem changes_name {s : SRec V} {h : Handle} {x : Option Nat} (hc : SRec.Changes s h x) : s.name = some (.old h) := by
  cases s with
  | create => exact hc.elim
  | clone => exact hc.elim
  | set => simp only [SRec.name, hc.1]
  | remove => simp only [SRec.name, hc.1]
  | destroy => simp only [SRec.Changes] at hc; simp only [SRec.name, hc]

theorem uses_name {s : SRec V} {h : Handle} {x : Option Nat} (hc : SRec.Uses s h x) : s.name = some (.old h) := by
  cases s with
  | create => exact hc.elim
  | clone => simp only [SRec.Uses] at hc; simp only [SRec.name, hc]
  | set => simp only [SRec.name, hc.1]
  | remove => simp only [SRec.name, hc.1]
  | destroy => simp only [SRec.Uses] at hc; simp only [SRec.name, hc]

/-- The commands of one system in two executions correspond. -/
theorem Denotes.like {made made' : List Handle} {R : Handle → Handle → Prop} : ∀ (p : List (SRec V)) (q q' : List (ACmd V)) (n : Nat),
    Denotes made n p q → Denotes made' n p q' → (∀ (n : Nat) (h h' : Handle), made[n]? = some h → made'[n]? = some h' → R h h') →
    (∀ s ∈ p, ∀ h, s.name = some (.old h) → R h h) → LikeCmds R q q' := by
  intro p
  induction p with
  | nil =>
    intro q q' n h h' _ _
    cases q with
    | cons a q => exact absurd h (by cases a <;> exact id)
    | nil =>
      cases q' with
      | cons a q => exact absurd h' (by cases a <;> exact id)
      | nil => trivial
  | cons s p ih =>
    intro q q' n h h' hm ho
    have res : ∀ (e : Name) (x x' : Handle), s.name = some e → e.resolve made = some x → e.resolve made' = some x' → R x x' := by
      intro e x x' hn h1 h2
      cases e with
      | old y => cases h1; cases h2; exact ho s List.mem_cons_self _ hn
      | mine n => exact hm n x x' h1 h2
    have ho' : ∀ s ∈ p, ∀ h, s.name = some (.old h) → R h h := fun s hs => ho s (List.mem_cons_of_mem _ hs)
    cases q with
    | nil => exact absurd h (by cases s <;> exact id)
    | cons a q =>
      cases q' with
      | nil => exact absurd h' (by cases s <;> exact id)
      | cons a' q' =>
        cases s <;> cases a <;> simp only [Denotes] at h <;> cases a' <;> simp only [Denotes] at h'
        · exact ⟨⟨hm _ _ _ h.1 h'.1, by rw [h.2.1, h'.2.1]⟩, ih _ _ _ h.2.2 h'.2.2 hm ho'⟩
        · exact ⟨⟨res _ _ _ rfl h.1 h'.1, hm _ _ _ h.2.1 h'.2.1⟩, ih _ _ _ h.2.2 h'.2.2 hm ho'⟩
        · exact ⟨⟨res _ _ _ rfl h.1 h'.1, by rw [← h.2.1, h'.2.1], by rw [← h.2.2.1, h'.2.2.1]⟩, ih _ _ _ h.2.2.2 h'.2.2.2 hm ho'⟩
        · exact ⟨⟨res _ _ _ rfl h.1 h'.1, by rw [← h.2.1, h'.2.1]⟩, ih _ _ _ h.2.2 h'.2.2 hm ho'⟩
        · exact ⟨res _ _ _ rfl h.1 h'.1, ih _ _ _ h.2 h'.2 hm ho'⟩

/-! ## One execution -/

/-- What an execution of a batch, begun with empty buffers, leaves. -/
structure BatchEnd (ty : Types) (husk : V → V) (i : Nat) (ps : List (List (SRec V))) (W : Spec.World V) (c : CSys V)
    (m : Nat → List Handle) (L : Tagged V) : Prop where
  reach : CReach ty husk c W
  todo : c.todo.flatten = L.map fun x => (i, x.2)
  denotes : ∀ k, Denotes (m k) 0 (ps[k]?.getD []) (proj k L)
  fresh : ∀ k, ∀ h ∈ m k, W i h = none
  nodup : ∀ k, (m k).Nodup
  disjoint : ∀ k k' h, h ∈ m k → h ∈ m k' → k = k'

theorem filterMap_nodup {A B : Type} {f : A → Option B} : ∀ {L : List A}, (L.filterMap f).Nodup → ∀ {x y : A} {p : B}, x ∈ L → y ∈ L →
    f x = some p → f y = some p → x = y := by
  intro L
  induction L with
  | nil => intro _ x y p hx; cases hx
  | cons z L ih =>
    intro hn x y p hx hy h1 h2
    have mem : ∀ w, w ∈ L → f w = some p → p ∈ L.filterMap f := fun w hw hp => List.mem_filterMap.2 ⟨w, hw, hp⟩
    have hn' : (L.filterMap f).Nodup := by
      rw [List.filterMap_cons] at hn
      split at hn
      · exact hn
      · exact (List.nodup_cons.1 hn).2
    have hz : f z = some p → p ∉ L.filterMap f := by
      intro hz
      rw [List.filterMap_cons, hz] at hn
      exact (List.nodup_cons.1 hn).1
    rcases List.mem_cons.1 hx with hxz | hx' <;> rcases List.mem_cons.1 hy with hyz | hy'
    · rw [hxz, hyz]
    · exact absurd (mem y hy' h2) (hz (hxz ▸ h1))
    · exact absurd (mem x hx' h1) (hz (hyz ▸ h2))
    · exact ih hn' hx' hy' h1 h2

theorem BatchRun.end {i : Nat} {on : Nat → Nat} {c c' : CSys V} {ps : List (List (SRec V))} {m' : Nat → List Handle} {W : Spec.World V}
    (h : BatchRun ty husk i on c ps (fun _ => []) c' m') (hr : CReach ty husk c W) (h0 : c.todo.flatten = []) :
    ∃ L, BatchEnd ty husk i ps W c' m' L := by
  have hT : Ghost i on c (c.todo.map fun _ => []) := by
    constructor
    · rw [List.map_map]
      conv => lhs; rw [← List.map_id c.todo]
      refine List.map_congr_left fun q hq => ?_
      exact List.flatten_eq_nil_iff.1 h0 q hq
    · intro b q hq x hx
      have := List.mem_of_getElem? hq
      simp only [List.mem_map] at this
      obtain ⟨_, _, rfl⟩ := this
      cases hx
  obtain ⟨h1, _, T, G, h2⟩ := BatchRun.inv h W _ hr hT
  have hnil : (c.todo.map fun _ => ([] : Tagged V)).flatten = [] := by
    rw [List.flatten_eq_nil_iff]
    intro l hl
    simp only [List.mem_map] at hl
    obtain ⟨_, _, rfl⟩ := hl
    rfl
  have htodo : c'.todo.flatten = T.flatten.map fun x => (i, x.2) := by
    rw [G.todo, List.map_flatten]
  have hden : ∀ k, Denotes (m' k) 0 (ps[k]?.getD []) (proj k T.flatten) := by
    intro k
    obtain ⟨q, h3, h4⟩ := h2 k
    rw [hnil] at h3
    rw [h3]
    simpa [proj] using h4
  have hall : ∀ x ∈ c'.todo.flatten, x.1 = i := by
    intro x hx
    rw [htodo, List.mem_map] at hx
    obtain ⟨_, _, rfl⟩ := hx
    rfl
  have hq := placeholders_queued hall
  have hph : CSys.placeholders c'.todo.flatten = T.flatten.filterMap fun x => x.2.placeholder := by
    rw [htodo]
    unfold CSys.placeholders
    rw [List.filterMap_map]
    rfl
  have hn : (T.flatten.filterMap fun x => x.2.placeholder).Nodup := by
    have := h1.inv.nodup
    rw [hq, hph] at this
    exact List.Pairwise.of_map _ (fun a b h e => h (by rw [e])) this
  have hmade : ∀ k, m' k = (proj k T.flatten).filterMap ACmd.placeholder := by
    intro k
    have := (Denotes.placeholders _ _ _ (hden k)).2
    rw [this, List.drop_zero]
  have hin : ∀ k h, h ∈ m' k → ∃ a, (k, a) ∈ T.flatten ∧ a.placeholder = some h := by
    intro k h hh
    rw [hmade k, List.mem_filterMap] at hh
    obtain ⟨a, ha, hp⟩ := hh
    exact ⟨a, mem_proj.1 ha, hp⟩
  refine ⟨T.flatten, h1, htodo, hden, ?_, ?_, ?_⟩
  · intro k h hh
    obtain ⟨a, ha, hp⟩ := hin k h hh
    have : (i, h) ∈ c'.queued := by
      rw [hq, hph]
      exact List.mem_map_of_mem (List.mem_filterMap.2 ⟨(k, a), ha, hp⟩)
    exact ((h1.inv.sys i).res h (h1.inv.mem _ this)).2
  · intro k
    rw [hmade k]
    unfold proj
    rw [List.filterMap_map]
    exact List.Nodup.sublist (List.Sublist.filterMap _ List.filter_sublist) hn
  · intro k k' h hh hh'
    obtain ⟨a, ha, hp⟩ := hin k h hh
    obtain ⟨b, hb, hp'⟩ := hin k' h hh'
    have := filterMap_nodup hn ha hb hp hp'
    exact congrArg Prod.fst this

theorem BatchEnd.allowed {i : Nat} {ps : List (List (SRec V))} {W : Spec.World V} {c : CSys V} {m : Nat → List Handle} {L : Tagged V}
    (E : BatchEnd ty husk i ps W c m L) : c.Allowed (.flush i) := by
  intro x hx
  rw [E.todo, List.mem_map] at hx
  obtain ⟨_, _, rfl⟩ := hx
  rfl

theorem BatchEnd.indep {i : Nat} {ps : List (List (SRec V))} {W : Spec.World V} {c : CSys V} {m : Nat → List Handle} {L : Tagged V}
    (E : BatchEnd ty husk i ps W c m L) (hi : Independent ps) (ho : AllExist (W i) ps) : IndepCmds L := by
  rintro ⟨k, a⟩ hx ⟨k', b⟩ hy hk h x hc hu
  have old : ∀ (k : Nat) (s : SRec V), s ∈ ps[k]?.getD [] → s.name = some (.old h) → W i h ≠ none := by
    intro k s hs hn
    cases hp : ps[k]? with
    | none => rw [hp] at hs; cases hs
    | some p => rw [hp] at hs; exact ho p (List.mem_of_getElem? hp) s hs h hn
  rcases Denotes.changes _ _ _ (E.denotes k) a (mem_proj.2 hx) h x hc with ⟨s, hs, hsc⟩ | hm <;>
    rcases Denotes.uses _ _ _ (E.denotes k') b (mem_proj.2 hy) h x hu with ⟨s', hs', hsu⟩ | hm'
  · cases hp : ps[k]? with
    | none => rw [hp] at hs; cases hs
    | some p =>
      cases hp' : ps[k']? with
      | none => rw [hp'] at hs'; cases hs'
      | some p' =>
        rw [hp] at hs
        rw [hp'] at hs'
        exact hi k k' p p' hk hp hp' s hs s' hs' h x hsc hsu
  · exact old k s hs (changes_name hsc) (E.fresh k' h hm')
  · exact old k' s' hs' (uses_name hsu) (E.fresh k h hm)
  · exact hk (E.disjoint k k' h hm hm')

/-! ## Two executions -/

/-- Corresponding handles of two executions. -/
def Corr (m m' : Nat → List Handle) (h h' : Handle) : Prop :=
  (h = h' ∧ (∀ k, h ∉ m k) ∧ ∀ k, h ∉ m' k) ∨ ∃ (k n : Nat), (m k)[n]? = some h ∧ (m' k)[n]? = some h'

theorem nodup_index {l : List Handle} (hn : l.Nodup) {a b : Nat} {h : Handle} (ha : l[a]? = some h) (hb : l[b]? = some h) : a = b := by
  obtain ⟨h1, h2⟩ := List.getElem?_eq_some_iff.1 ha
  obtain ⟨h3, h4⟩ := List.getElem?_eq_some_iff.1 hb
  exact (List.getElem_inj hn).1 (h2.trans h4.symm)

section
variable {i : Nat} {ps : List (List (SRec V))} {W : Spec.World V} {c1 c2 : CSys V} {m1 m2 : Nat → List Handle} {L1 L2 : Tagged V}

theorem corr_oneOne (E1 : BatchEnd ty husk i ps W c1 m1 L1) (E2 : BatchEnd ty husk i ps W c2 m2 L2) : OneOne (Corr m1 m2) := by
  constructor
  · rintro a b b' (⟨rfl, h1, h2⟩ | ⟨k, n, h1, h2⟩) (⟨rfl, h3, h4⟩ | ⟨k', n', h3, h4⟩)
    · rfl
    · exact absurd (List.mem_of_getElem? h3) (h1 k')
    · exact absurd (List.mem_of_getElem? h1) (h3 k)
    · have := E1.disjoint k k' a (List.mem_of_getElem? h1) (List.mem_of_getElem? h3)
      subst this
      have := nodup_index (E1.nodup k) h1 h3
      subst this
      rw [h2] at h4
      exact Option.some.inj h4
  · rintro a a' b (⟨rfl, h1, h2⟩ | ⟨k, n, h1, h2⟩) (⟨rfl, h3, h4⟩ | ⟨k', n', h3, h4⟩)
    · rfl
    · exact absurd (List.mem_of_getElem? h4) (h2 k')
    · exact absurd (List.mem_of_getElem? h2) (h4 k)
    · have := E2.disjoint k k' b (List.mem_of_getElem? h2) (List.mem_of_getElem? h4)
      subst this
      have := nodup_index (E2.nodup k) h2 h4
      subst this
      rw [h1] at h3
      exact Option.some.inj h3

theorem corr_like (E1 : BatchEnd ty husk i ps W c1 m1 L1) (E2 : BatchEnd ty husk i ps W c2 m2 L2) (ho : AllExist (W i) ps) (k : Nat) :
    LikeCmds (Corr m1 m2) (proj k L1) (proj k L2) := by
  refine Denotes.like _ _ _ _ (E1.denotes k) (E2.denotes k) (fun n h h' h1 h2 => Or.inr ⟨k, n, h1, h2⟩) ?_
  intro s hs h hn
  have hw : W i h ≠ none := by
    cases hp : ps[k]? with
    | none => rw [hp] at hs; cases hs
    | some p => rw [hp] at hs; exact ho p (List.mem_of_getElem? hp) s hs h hn
  exact Or.inl ⟨rfl, fun k hm => hw (E1.fresh k h hm), fun k hm => hw (E2.fresh k h hm)⟩

theorem corr_cont (E1 : BatchEnd ty husk i ps W c1 m1 L1) (E2 : BatchEnd ty husk i ps W c2 m2 L2) : ContRel (Corr m1 m2) (W i) (W i) := by
  rintro h h' (⟨rfl, _⟩ | ⟨k, n, h1, h2⟩)
  · rfl
  · rw [E1.fresh k h (List.mem_of_getElem? h1), E2.fresh k h' (List.mem_of_getElem? h2)]

end

theorem sameAs_of {r r' : Reg V} {C C' : ACmd.Content V} (h1 : Answers r C) (h2 : Answers r' C') {h h' : Handle} (he : C h = C' h') :
    SameAs r h r' h' := by
  cases hc : C h with
  | none =>
    have hc' : C' h' = none := by rw [← he, hc]
    obtain ⟨a1, a2⟩ := (h1 h).1 hc
    obtain ⟨b1, b2⟩ := (h2 h').1 hc'
    exact ⟨fun c v => by rw [a1, b1]; simp, fun cs b => by rw [a2, b2]; simp⟩
  | some d =>
    have hc' : C' h' = some d := by rw [← he, hc]
    obtain ⟨_, a1, a2, a3⟩ := (h1 h).2 d hc
    obtain ⟨_, b1, b2, b3⟩ := (h2 h').2 d hc'
    refine ⟨fun c v => ?_, fun cs b => by rw [a3, b3]⟩
    cases hd : d c with
    | none => rw [a2 c hd, b2 c hd]
    | some w => rw [a1 c w hd, b1 c w hd]

end CoEcs
