import Verif.Model.Access
import Verif.Proofs.SparseTable
import Verif.Spec.Conflict

namespace CoEcs
open Spec

/-- Every well-formed table represents some finite map. -/
theorem SparseTable.Inv.rel {V : Type} {w : Nat} {t : SparseTable V} (h : t.Inv w) : ∃ m, SparseTable.Rel w t m := by
  refine ⟨⟨fun k => (t.dense.find? fun e => e.1 = k).map (·.2), t.dense.length⟩, h, ?_, rfl⟩
  intro k v
  simp only [Option.map_eq_some_iff]
  constructor
  · rintro ⟨e, he, rfl⟩
    have h1 := List.mem_of_find?_eq_some he
    have h2 := List.find?_some he
    simp only [decide_eq_true_eq] at h2
    rw [← h2]; exact h1
  · intro hm
    cases hf : t.dense.find? fun e => e.1 = k with
    | none =>
      rw [List.find?_eq_none] at hf
      exact absurd (by simp) (hf _ hm)
    | some e =>
      refine ⟨e, rfl, ?_⟩
      have h1 := List.mem_of_find?_eq_some hf
      have h2 := List.find?_some hf
      simp only [decide_eq_true_eq] at h2
      obtain ⟨i, hi⟩ := List.mem_iff_getElem?.1 h1
      obtain ⟨j, hj⟩ := List.mem_iff_getElem?.1 hm
      have := h.key_inj hi hj h2
      subst this
      rw [hi] at hj
      cases hj; rfl

/-- A table of fewer than `2^32` keys. -/
theorem SparseTable.Inv.len_lt {V : Type} {t : SparseTable V} (h : t.Inv 32) (hk : ∀ e ∈ t.dense, e.1 + 1 < 2 ^ 32) :
    t.dense.length < 2 ^ 32 := by
  have hn := h.nodup
  have : (t.dense.map Prod.fst).length ≤ (List.range (2 ^ 32 - 1)).length := by
    refine hn.length_le_of_subset (fun k hk' => ?_)
    obtain ⟨e, he, rfl⟩ := List.mem_map.1 hk'
    have := hk e he
    rw [List.mem_range]; omega
  rw [List.length_map, List.length_range] at this
  omega

namespace Access

/-- Well-formed pattern over component ids below `2^32 - 1`. -/
structure Ok (p : Access) : Prop where
  inv : p.comps.Inv 32
  ids : ∀ e ∈ p.comps.dense, e.1 + 1 < 2 ^ 32

/-- The meaning of a pattern: what it declares to read and write. -/
def footprint (p : Access) : Footprint where
  reads c := p.reg ≠ .none ∨ ∃ a, (c, a) ∈ p.comps.dense
  writes c := p.reg = .write ∨ (c, .write) ∈ p.comps.dense

theorem Ok.unique {p : Access} (h : p.Ok) {c : Nat} {a b : AccessType} (h1 : (c, a) ∈ p.comps.dense)
    (h2 : (c, b) ∈ p.comps.dense) : a = b := by
  obtain ⟨i, hi⟩ := List.mem_iff_getElem?.1 h1
  obtain ⟨j, hj⟩ := List.mem_iff_getElem?.1 h2
  have := h.inv.key_inj hi hj rfl
  subst this
  rw [hi] at hj
  cases hj; rfl

theorem reads_iff {p : Access} (h : p.Ok) (c : Nat) :
    (p.reads c = .ok true ∧ p.footprint.reads c) ∨ (p.reads c = .ok false ∧ ¬ p.footprint.reads c) := by
  unfold reads footprint
  by_cases hr : p.reg = .none
  · simp only [hr, ne_eq, not_true_eq_false, if_false, false_or]
    by_cases hm : ∃ a, (c, a) ∈ p.comps.dense
    · obtain ⟨a, ha⟩ := hm
      obtain ⟨i, hi⟩ := List.mem_iff_getElem?.1 ha
      rw [h.inv.find_some hi]
      exact Or.inl ⟨rfl, a, ha⟩
    · rw [h.inv.find_none (fun v hv => hm ⟨v, hv⟩)]
      exact Or.inr ⟨rfl, hm⟩
  · simp [hr]

theorem writes_iff {p : Access} (h : p.Ok) (c : Nat) :
    (p.writes c = .ok true ∧ p.footprint.writes c) ∨ (p.writes c = .ok false ∧ ¬ p.footprint.writes c) := by
  unfold writes footprint
  by_cases hr : p.reg = .write
  · simp [hr]
  · simp only [hr, if_false, false_or]
    by_cases hm : ∃ a, (c, a) ∈ p.comps.dense
    · obtain ⟨a, ha⟩ := hm
      obtain ⟨i, hi⟩ := List.mem_iff_getElem?.1 ha
      rw [h.inv.find_some hi]
      simp only [SparseTable.deref, hi]
      by_cases hw : a = .write
      · subst hw; exact Or.inl ⟨rfl, ha⟩
      · refine Or.inr ⟨by simp [hw], fun hw' => hw (h.unique ha hw')⟩
    · rw [h.inv.find_none (fun v hv => hm ⟨v, hv⟩)]
      exact Or.inr ⟨rfl, fun hw => hm ⟨_, hw⟩⟩

theorem clash_iff {q : Access} (h : q.Ok) (c : Nat) (a : AccessType) :
    (clash q c a = .ok true ∧ ((a = .write ∧ q.footprint.reads c) ∨ q.footprint.writes c)) ∨
    (clash q c a = .ok false ∧ ¬ ((a = .write ∧ q.footprint.reads c) ∨ q.footprint.writes c)) := by
  unfold clash
  by_cases ha : a = .write
  · simp only [ha, if_true, true_and]
    rcases reads_iff h c with ⟨h1, h2⟩ | ⟨h1, h2⟩
    · rw [h1]; exact Or.inl ⟨rfl, Or.inl h2⟩
    · rw [h1]
      rcases writes_iff h c with ⟨h3, h4⟩ | ⟨h3, h4⟩
      · exact Or.inl ⟨h3, Or.inr h4⟩
      · exact Or.inr ⟨h3, by simp [h2, h4]⟩
  · simp only [ha, if_false, false_and, false_or]
    exact writes_iff h c

theorem allowsLoop_iff {q : Access} (h : q.Ok) : ∀ es : List (Nat × AccessType),
    (allowsLoop q es = .ok true ∧ ∀ e ∈ es, ¬ ((e.2 = .write ∧ q.footprint.reads e.1) ∨ q.footprint.writes e.1)) ∨
    (allowsLoop q es = .ok false ∧ ∃ e ∈ es, (e.2 = .write ∧ q.footprint.reads e.1) ∨ q.footprint.writes e.1) := by
  intro es
  induction es with
  | nil => left; exact ⟨rfl, fun e he => by cases he⟩
  | cons e es ih =>
    unfold allowsLoop
    rcases clash_iff h e.1 e.2 with ⟨h1, h2⟩ | ⟨h1, h2⟩
    · rw [h1]; exact Or.inr ⟨rfl, e, List.mem_cons_self .., h2⟩
    · rw [h1]
      rcases ih with ⟨h3, h4⟩ | ⟨h3, x, hx, h4⟩
      · refine Or.inl ⟨h3, fun x hx => ?_⟩
        rcases List.mem_cons.1 hx with rfl | hx
        · exact h2
        · exact h4 x hx
      · exact Or.inr ⟨h3, x, List.mem_cons_of_mem _ hx, h4⟩

/-- The answer of `allows`, for all well-formed patterns. -/
theorem allows_total {p q : Access} (hq : q.Ok) : p.allows q = .ok true ∨ p.allows q = .ok false := by
  unfold allows
  split
  · exact Or.inr rfl
  · rcases allowsLoop_iff hq p.comps.dense with ⟨h, _⟩ | ⟨h, _⟩
    · exact Or.inl h
    · exact Or.inr h

/-- Soundness unless the left pattern has whole-registry read access. -/
theorem allows_sound {p q : Access} (hq : q.Ok) (hr : p.reg ≠ .read) (h : p.allows q = .ok true) :
    ¬ p.footprint.Conflict q.footprint := by
  unfold allows at h
  split at h
  · cases h
  · rename_i hc
    have hp : p.reg = .none := by
      cases hreg : p.reg with
      | none => rfl
      | read => exact absurd hreg hr
      | write => exfalso; apply hc; simp [writesAll, readsAll, hreg]; cases q.reg <;> simp
    rcases allowsLoop_iff hq p.comps.dense with ⟨_, h2⟩ | ⟨h1, _⟩
    · rintro ⟨c, ⟨hw, hrd⟩ | ⟨hw, hrd⟩⟩
      · rcases hw with hw | hw
        · rw [hp] at hw; cases hw
        · exact h2 _ hw (Or.inl ⟨rfl, hrd⟩)
      · rcases hrd with hrd | ⟨a, ha⟩
        · exact hrd hp
        · exact h2 _ ha (Or.inr hw)
    · rw [h1] at h; cases h

/-- Completeness if the left pattern has no whole-registry access. -/
theorem allows_complete {p q : Access} (hq : q.Ok) (hr : p.reg = .none)
    (h : ¬ p.footprint.Conflict q.footprint) : p.allows q = .ok true := by
  unfold allows
  rw [if_neg (by simp [writesAll, readsAll, hr])]
  rcases allowsLoop_iff hq p.comps.dense with ⟨h1, _⟩ | ⟨_, e, he, h2⟩
  · exact h1
  · exfalso; apply h
    rcases h2 with ⟨hw, hrd⟩ | hw
    · refine ⟨e.1, Or.inl ⟨Or.inr ?_, hrd⟩⟩
      rw [← hw]; exact he
    · exact ⟨e.1, Or.inr ⟨hw, Or.inr ⟨e.2, he⟩⟩⟩

theorem max_write (a b : AccessType) : a.max b = .write ↔ a = .write ∨ b = .write := by
  cases a <;> cases b <;> simp [AccessType.max]

theorem max_none (a b : AccessType) : a.max b = .none ↔ a = .none ∧ b = .none := by
  cases a <;> cases b <;> simp [AccessType.max]

theorem mergeOne_ok {t : SparseTable AccessType} (inv : t.Inv 32) (hids : ∀ e ∈ t.dense, e.1 + 1 < 2 ^ 32)
    {c : Nat} (hc : c + 1 < 2 ^ 32) (a : AccessType) :
    ∃ t', mergeOne t c a = .ok t' ∧ t'.Inv 32 ∧ (∀ e ∈ t'.dense, e.1 + 1 < 2 ^ 32) ∧
      (∀ k, (∃ b, (k, b) ∈ t'.dense) ↔ k = c ∨ ∃ b, (k, b) ∈ t.dense) ∧
      (∀ k, (k, .write) ∈ t'.dense ↔ (k = c ∧ a = .write) ∨ (k, .write) ∈ t.dense) := by
  obtain ⟨m, hm⟩ := inv.rel
  have hU : c + 1 < U64 := by unfold U64; omega
  have key : ∀ (t1 : SparseTable AccessType) (m1 : FinMap AccessType), SparseTable.Rel 32 t1 m1 →
      (∀ k, (m1.get k).isSome → k + 1 < 2 ^ 32) → ∀ d, (m1.put c d).count < 2 ^ 32 := by
    intro t1 m1 h1 hk d
    unfold FinMap.put
    split
    · simp only
      have := h1.inv.small
      rw [h1.count, ← h1.inv.size]; exact this
    · rename_i hn
      simp only
      have hn' : m1.get c = none := by simpa using hn
      -- keys of `t1` together with `c` are distinct and below 2^32 - 1
      have hnd : (c :: t1.dense.map Prod.fst).Nodup := by
        refine List.nodup_cons.2 ⟨?_, h1.inv.nodup⟩
        intro hmem
        obtain ⟨e, he, rfl⟩ := List.mem_map.1 hmem
        have := (h1.mem e.1 e.2).2 he
        rw [hn'] at this; cases this
      have : (c :: t1.dense.map Prod.fst).length ≤ (List.range (2 ^ 32 - 1)).length := by
        refine hnd.length_le_of_subset (fun k hk' => ?_)
        rw [List.mem_range]
        rcases List.mem_cons.1 hk' with rfl | hk'
        · omega
        · obtain ⟨e, he, rfl⟩ := List.mem_map.1 hk'
          have h2 := (h1.mem e.1 e.2).2 he
          have := hk e.1 (by rw [h2]; rfl)
          omega
      rw [List.length_range, List.length_cons, List.length_map, ← h1.count] at this
      omega
  have hmk : ∀ k, (m.get k).isSome → k + 1 < 2 ^ 32 := by
    intro k hk
    obtain ⟨v, hv⟩ := Option.isSome_iff_exists.1 hk
    exact hids _ ((hm.mem k v).1 hv)
  have hc1 : (m.putNew c AccessType.none).count < 2 ^ 32 := by
    unfold FinMap.putNew
    split
    · rw [hm.count, ← hm.inv.size]; exact hm.inv.small
    · exact key t m hm hmk _
  obtain ⟨t1, i, v, he, hi, hg, hr⟩ := hm.index hU hc1
  have hk1 : ∀ k, ((m.putNew c AccessType.none).get k).isSome → k + 1 < 2 ^ 32 := by
    intro k hk
    unfold FinMap.putNew at hk
    split at hk
    · exact hmk k hk
    · simp only [FinMap.put] at hk
      by_cases hkc : k = c
      · rw [hkc]; exact hc
      · rw [if_neg hkc] at hk; exact hmk k hk
  obtain ⟨t2, ha, hr2⟩ := hr.assign (d := AccessType.none) (v := a.max v) hU (key t1 _ hr hk1 _)
  rw [SparseTable.FinMap.put_putNew] at hr2
  have hv : v = .write ↔ (c, .write) ∈ t.dense := by
    rw [← hm.mem]
    unfold FinMap.putNew at hg
    split at hg
    · rw [hg]; simp
    · rename_i hn
      simp only [FinMap.put, if_true, Option.some.injEq] at hg
      have hn' : m.get c = none := by simpa using hn
      rw [hn', ← hg]; simp
  refine ⟨t2, ?_, hr2.inv, ?_, ?_, ?_⟩
  · simp only [mergeOne, he, SparseTable.deref, hi, ha]
  · intro e hem
    have := (hr2.mem e.1 e.2).2 hem
    simp only [FinMap.put] at this
    by_cases hkc : e.1 = c
    · rw [hkc]; exact hc
    · rw [if_neg hkc] at this
      exact hmk e.1 (by rw [this]; rfl)
  · intro k
    constructor
    · rintro ⟨b, hb⟩
      have := (hr2.mem k b).2 hb
      simp only [FinMap.put] at this
      by_cases hkc : k = c
      · exact Or.inl hkc
      · rw [if_neg hkc] at this
        exact Or.inr ⟨b, (hm.mem k b).1 this⟩
    · intro h
      by_cases hkc : k = c
      · exact ⟨a.max v, (hr2.mem k _).1 (by simp [FinMap.put, hkc])⟩
      · rcases h with h | ⟨b, hb⟩
        · exact absurd h hkc
        · exact ⟨b, (hr2.mem k b).1 (by simp [FinMap.put, hkc, (hm.mem k b).2 hb])⟩
  · intro k
    rw [← hr2.mem]
    simp only [FinMap.put]
    by_cases hkc : k = c
    · subst hkc
      rw [if_pos rfl, Option.some.injEq, max_write, hv]
      simp
    · rw [if_neg hkc, hm.mem]
      simp [hkc]

theorem mergeLoop_ok : ∀ (es : List (Nat × AccessType)) {t : SparseTable AccessType}, t.Inv 32 →
    (∀ e ∈ t.dense, e.1 + 1 < 2 ^ 32) → (∀ e ∈ es, e.1 + 1 < 2 ^ 32) →
    ∃ t', mergeLoop t es = .ok t' ∧ t'.Inv 32 ∧ (∀ e ∈ t'.dense, e.1 + 1 < 2 ^ 32) ∧
      (∀ k, (∃ b, (k, b) ∈ t'.dense) ↔ (∃ b, (k, b) ∈ t.dense) ∨ ∃ b, (k, b) ∈ es) ∧
      (∀ k, (k, .write) ∈ t'.dense ↔ (k, .write) ∈ t.dense ∨ (k, .write) ∈ es) := by
  intro es
  induction es with
  | nil =>
    intro t inv hids _
    exact ⟨t, rfl, inv, hids, by simp, by simp⟩
  | cons e es ih =>
    intro t inv hids hes
    obtain ⟨t1, h1, h2, h3, h4, h5⟩ := mergeOne_ok inv hids (hes e (List.mem_cons_self ..)) e.2
    obtain ⟨t2, h6, h7, h8, h9, h10⟩ := ih h2 h3 (fun x hx => hes x (List.mem_cons_of_mem _ hx))
    refine ⟨t2, by simp only [mergeLoop, h1, h6], h7, h8, ?_, ?_⟩
    · intro k
      rw [h9, h4]
      constructor
      · rintro ((rfl | h) | ⟨b, hb⟩)
        · exact Or.inr ⟨e.2, List.mem_cons_self ..⟩
        · exact Or.inl h
        · exact Or.inr ⟨b, List.mem_cons_of_mem _ hb⟩
      · rintro (h | ⟨b, hb⟩)
        · exact Or.inl (Or.inr h)
        · rcases List.mem_cons.1 hb with rfl | hb
          · exact Or.inl (Or.inl rfl)
          · exact Or.inr ⟨b, hb⟩
    · intro k
      rw [h10, h5]
      constructor
      · rintro ((⟨rfl, h⟩ | h) | hb)
        · right; rw [← h]; exact List.mem_cons_self ..
        · exact Or.inl h
        · exact Or.inr (List.mem_cons_of_mem _ hb)
      · rintro (h | hb)
        · exact Or.inl (Or.inr h)
        · rcases List.mem_cons.1 hb with rfl | hb
          · exact Or.inl (Or.inl ⟨rfl, rfl⟩)
          · exact Or.inr hb

/-- Merging patterns: the union of what they declare. -/
theorem merge_ok {p q : Access} (hp : p.Ok) (hq : q.Ok) : ∃ r, p.merge q = .ok r ∧ r.Ok ∧
    r.reg = p.reg.max q.reg ∧ (∀ c, r.footprint.reads c ↔ p.footprint.reads c ∨ q.footprint.reads c) ∧
    (∀ c, r.footprint.writes c ↔ p.footprint.writes c ∨ q.footprint.writes c) := by
  obtain ⟨t, h1, h2, h3, h4, h5⟩ := mergeLoop_ok q.comps.dense hp.inv hp.ids hq.ids
  refine ⟨⟨p.reg.max q.reg, t⟩, by simp only [merge, h1], ⟨h2, h3⟩, rfl, ?_, ?_⟩
  · intro c
    simp only [footprint, h4, ne_eq, max_none]
    grind
  · intro c
    simp only [footprint, h5, max_write]
    grind

theorem empty_ok : Access.empty.Ok :=
  ⟨(SparseTable.Rel.empty (V := AccessType) 32).inv, fun e he => by cases he⟩

theorem ofRegistry_ok (a : AccessType) : (ofRegistry a).Ok :=
  ⟨(SparseTable.Rel.empty (V := AccessType) 32).inv, fun e he => by cases he⟩

theorem ofComponent_ok (a : AccessType) (m : CompMeta) (hm : m.id + 1 < 2 ^ 32) :
    ∃ p, ofComponent a m = .ok p ∧ p.Ok ∧ p.reg = .none ∧ p.comps.dense = [(m.id, a)] := by
  obtain ⟨t, h1, h2, h3⟩ := (SparseTable.Rel.empty (V := AccessType) 32).emplace_none (k := m.id) (v := a)
    (by unfold U64; omega) rfl (by decide)
  refine ⟨⟨.none, t⟩, by simp only [ofComponent, h1], ⟨h3.inv, ?_⟩, rfl, ?_⟩
  · intro e he
    simp only [h2, SparseTable.empty, List.nil_append, List.mem_singleton] at he
    rw [he]; exact hm
  · rw [h2]; rfl

end Access

/-- What a list of parameters makes a system read and write. -/
def SysArg.reads (c : Nat) : SysArg → Prop
  | .registry => True
  | .constRegistry => True
  | .commandWriter => False
  | .view args => ∃ a ∈ args, a.2.id = c

/-- (`const registry&` is declared as write access by the code.) -/
def SysArg.writes (c : Nat) : SysArg → Prop
  | .registry => True
  | .constRegistry => True
  | .commandWriter => False
  | .view args => ∃ a ∈ args, a.2.id = c ∧ a.1 = true

/-- Parameters of a real system: views are not empty and component ids are below `2^32 - 1`. -/
def SysArg.Valid : SysArg → Prop
  | .view args => args ≠ [] ∧ ∀ a ∈ args, a.2.id + 1 < 2 ^ 32
  | _ => True

theorem foldAnd_ok : ∀ (xs : List Access) (x : Access), x.Ok → (∀ y ∈ xs, y.Ok) → x.reg ≠ .read →
    (∀ y ∈ xs, y.reg ≠ .read) →
    ∃ r, foldAnd (.ok x) (xs.map .ok) = .ok r ∧ r.Ok ∧ r.reg ≠ .read ∧
      (∀ c, r.footprint.reads c ↔ ∃ y ∈ x :: xs, y.footprint.reads c) ∧
      (∀ c, r.footprint.writes c ↔ ∃ y ∈ x :: xs, y.footprint.writes c) := by
  intro xs
  induction xs with
  | nil => intro x hx _ hr _; exact ⟨x, rfl, hx, hr, by simp, by simp⟩
  | cons y ys ih =>
    intro x hx hys hr hrs
    obtain ⟨r, h1, h2, h3, h4, h5⟩ := ih y (hys y (List.mem_cons_self ..))
      (fun z hz => hys z (List.mem_cons_of_mem _ hz)) (hrs y (List.mem_cons_self ..))
      (fun z hz => hrs z (List.mem_cons_of_mem _ hz))
    obtain ⟨r', g1, g2, g3, g4, g5⟩ := Access.merge_ok hx h2
    refine ⟨r', ?_, g2, ?_, ?_, ?_⟩
    · simp only [List.map_cons, foldAnd]
      rw [h1]; exact g1
    · rw [g3]
      revert hr h3
      cases x.reg <;> cases r.reg <;> simp [AccessType.max]
    · intro c; rw [g4, h4]; simp
    · intro c; rw [g5, h5]; simp

theorem map_pattern_ok {α : Type} (f : α → Obs Access) (P : α → Access → Prop) : ∀ (l : List α),
    (∀ a ∈ l, ∃ p, f a = .ok p ∧ P a p) →
    ∃ ps : List Access, l.map f = ps.map .ok ∧ (∀ p ∈ ps, ∃ a ∈ l, P a p) ∧ (∀ a ∈ l, ∃ p ∈ ps, P a p) := by
  intro l
  induction l with
  | nil => intro _; exact ⟨[], rfl, by simp, by simp⟩
  | cons a l ih =>
    intro h
    obtain ⟨p, hp, hP⟩ := h a (List.mem_cons_self ..)
    obtain ⟨ps, h1, h2, h3⟩ := ih (fun x hx => h x (List.mem_cons_of_mem _ hx))
    refine ⟨p :: ps, by simp [hp, h1], ?_, ?_⟩
    · intro q hq
      rcases List.mem_cons.1 hq with rfl | hq
      · exact ⟨a, by simp, hP⟩
      · obtain ⟨b, hb, hPb⟩ := h2 q hq
        exact ⟨b, by simp [hb], hPb⟩
    · intro b hb
      rcases List.mem_cons.1 hb with rfl | hb
      · exact ⟨p, by simp, hP⟩
      · obtain ⟨q, hq, hPq⟩ := h3 b hb
        exact ⟨q, by simp [hq], hPq⟩

/-- The pattern computed from one argument says what the argument allows. -/
theorem SysArg.pattern_ok (a : SysArg) (h : a.Valid) : ∃ p, a.pattern = .ok p ∧ p.Ok ∧ p.reg ≠ .read ∧
    (∀ c, p.footprint.reads c ↔ a.reads c) ∧ (∀ c, p.footprint.writes c ↔ a.writes c) := by
  cases a with
  | registry =>
    exact ⟨_, rfl, Access.ofRegistry_ok _, by simp [Access.ofRegistry],
      fun c => by simp [Access.footprint, Access.ofRegistry, SysArg.reads],
      fun c => by simp [Access.footprint, Access.ofRegistry, SysArg.writes]⟩
  | constRegistry =>
    exact ⟨_, rfl, Access.ofRegistry_ok _, by simp [Access.ofRegistry],
      fun c => by simp [Access.footprint, Access.ofRegistry, SysArg.reads],
      fun c => by simp [Access.footprint, Access.ofRegistry, SysArg.writes]⟩
  | commandWriter =>
    exact ⟨_, rfl, Access.empty_ok, by simp [Access.empty],
      fun c => by simp [Access.footprint, Access.empty, SysArg.reads, SparseTable.empty],
      fun c => by simp [Access.footprint, Access.empty, SysArg.writes, SparseTable.empty]⟩
  | view args =>
    obtain ⟨hne, hid⟩ := h
    obtain ⟨ps, h1, h2, h3⟩ := map_pattern_ok
      (fun a : Bool × CompMeta => Access.ofComponent (if a.1 then .write else .read) a.2)
      (fun a p => p.Ok ∧ p.reg = .none ∧ p.comps.dense = [(a.2.id, if a.1 then .write else .read)]) args
      (fun a ha => Access.ofComponent_ok _ _ (hid a ha))
    cases ps with
    | nil =>
      simp only [List.map_nil, List.map_eq_nil_iff] at h1
      exact absurd h1 hne
    | cons x xs =>
      have hall : ∀ p ∈ x :: xs, p.Ok ∧ p.reg ≠ .read := by
        intro p hp
        obtain ⟨a, _, h4, h5, _⟩ := h2 p hp
        exact ⟨h4, by rw [h5]; decide⟩
      obtain ⟨r, g1, g2, g3, g4, g5⟩ := foldAnd_ok xs x (hall x (by simp)).1 (fun y hy => (hall y (by simp [hy])).1)
        (hall x (by simp)).2 (fun y hy => (hall y (by simp [hy])).2)
      refine ⟨r, ?_, g2, g3, ?_, ?_⟩
      · simp only [SysArg.pattern, h1, List.map_cons]; exact g1
      · intro c
        rw [g4]
        simp only [SysArg.reads]
        constructor
        · rintro ⟨p, hp, hr⟩
          obtain ⟨a, ha, _, h5, h6⟩ := h2 p hp
          refine ⟨a, ha, ?_⟩
          simp only [Access.footprint, h5, h6, ne_eq, not_true_eq_false, false_or, List.mem_singleton, Prod.mk.injEq] at hr
          obtain ⟨_, hr, _⟩ := hr
          exact hr.symm
        · rintro ⟨a, ha, rfl⟩
          obtain ⟨p, hp, _, h5, h6⟩ := h3 a ha
          exact ⟨p, hp, by simp [Access.footprint, h5, h6]⟩
      · intro c
        rw [g5]
        simp only [SysArg.writes]
        constructor
        · rintro ⟨p, hp, hr⟩
          obtain ⟨a, ha, _, h5, h6⟩ := h2 p hp
          refine ⟨a, ha, ?_⟩
          rcases hr with hr | hr
          · rw [h5] at hr; cases hr
          · rw [h6, List.mem_singleton] at hr
            have h7 := congrArg Prod.fst hr
            have h8 := congrArg Prod.snd hr
            refine ⟨h7.symm, ?_⟩
            cases h : a.1
            · rw [h] at h8; cases h8
            · rfl
        · rintro ⟨a, ha, rfl, haw⟩
          obtain ⟨p, hp, _, h5, h6⟩ := h3 a ha
          exact ⟨p, hp, by simp [Access.footprint, h5, h6, haw]⟩

/-- The pattern of a system is the union over its parameters. -/
theorem sysPattern_ok (args : List SysArg) (h : ∀ a ∈ args, a.Valid) : ∃ p, sysPattern args = .ok p ∧ p.Ok ∧
    p.reg ≠ .read ∧ (∀ c, p.footprint.reads c ↔ ∃ a ∈ args, a.reads c) ∧
    (∀ c, p.footprint.writes c ↔ ∃ a ∈ args, a.writes c) := by
  obtain ⟨ps, h1, h2, h3⟩ := map_pattern_ok SysArg.pattern
    (fun a p => p.Ok ∧ p.reg ≠ .read ∧
      (∀ c, p.footprint.reads c ↔ a.reads c) ∧ (∀ c, p.footprint.writes c ↔ a.writes c)) args
    (fun a ha => SysArg.pattern_ok a (h a ha))
  cases ps with
  | nil =>
    simp only [List.map_nil, List.map_eq_nil_iff] at h1
    subst h1
    exact ⟨_, rfl, Access.empty_ok, by simp [Access.empty], fun c => by
      simp [Access.footprint, Access.empty, SparseTable.empty], fun c => by
      simp [Access.footprint, Access.empty, SparseTable.empty]⟩
  | cons x xs =>
    have hall : ∀ p ∈ x :: xs, p.Ok ∧ p.reg ≠ .read := by
      intro p hp
      obtain ⟨a, _, h4, h5, _⟩ := h2 p hp
      exact ⟨h4, h5⟩
    obtain ⟨r, g1, g2, g3, g4, g5⟩ := foldAnd_ok xs x (hall x (by simp)).1 (fun y hy => (hall y (by simp [hy])).1)
      (hall x (by simp)).2 (fun y hy => (hall y (by simp [hy])).2)
    obtain ⟨r', k1, k2, k3, k4, k5⟩ := Access.merge_ok Access.empty_ok g2
    refine ⟨r', ?_, k2, ?_, ?_, ?_⟩
    · simp only [sysPattern, h1, List.map_cons]
      rw [g1]; exact k1
    · rw [k3]
      revert g3
      cases r.reg <;> simp [AccessType.max, Access.empty]
    · intro c
      rw [k4, g4]
      have : ¬ Access.empty.footprint.reads c := by simp [Access.footprint, Access.empty, SparseTable.empty]
      simp only [this, false_or]
      constructor
      · rintro ⟨p, hp, hr⟩
        obtain ⟨a, ha, _, _, h5, _⟩ := h2 p hp
        exact ⟨a, ha, (h5 c).1 hr⟩
      · rintro ⟨a, ha, hr⟩
        obtain ⟨p, hp, _, _, h5, _⟩ := h3 a ha
        exact ⟨p, hp, (h5 c).2 hr⟩
    · intro c
      rw [k5, g5]
      have : ¬ Access.empty.footprint.writes c := by simp [Access.footprint, Access.empty, SparseTable.empty]
      simp only [this, false_or]
      constructor
      · rintro ⟨p, hp, hr⟩
        obtain ⟨a, ha, _, _, _, h5⟩ := h2 p hp
        exact ⟨a, ha, (h5 c).1 hr⟩
      · rintro ⟨a, ha, hr⟩
        obtain ⟨p, hp, _, _, _, h5⟩ := h3 a ha
        exact ⟨p, hp, (h5 c).2 hr⟩

end CoEcs
