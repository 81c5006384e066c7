import Verif.Proofs.HandlePool
import Verif.Model.Registry

/-!
# Entities in storage, locations and handles agree
-/

namespace CoEcs

/-! ### Handles in use -/

/-- The handle is alive and its id is not available for reuse. -/
def Held (p : Pool) (k : Nat) (h : Handle) : Prop :=
  p.gens[h.id]? = some h.gen ∧ h.id ∉ p.free.take (p.free.length - k)

theorem Held.ok {p : Pool} {k : Nat} {h : Handle} (hh : Held p k h) : HandleOk p k h := .inl hh

theorem Held.alive {p : Pool} {k : Nat} {h : Handle} (hh : Held p k h) : p.alive h = true := (alive_iff p h).2 hh.1

theorem Held.lt {p : Pool} {k : Nat} {h : Handle} (hh : Held p k h) : h.id < p.gens.length :=
  (List.getElem?_eq_some_iff.1 hh.1).1

theorem PoolInv.gens_le {p : Pool} {k : Nat} (hi : PoolInv p k) : p.gens.length ≤ p.nextId := by
  have := hi.nextId; omega

theorem HandleOk.held {p : Pool} {h : Handle} (hi : PoolInv p 0) (ho : HandleOk p 0 h) : Held p 0 h := by
  rcases ho with ho | ⟨h1, h2, _⟩
  · exact ho
  · have := hi.nextId; omega

theorem held_inj {p : Pool} {k : Nat} {a b : Handle} (ha : Held p k a) (hb : Held p k b) (h : a.id = b.id) : a = b := by
  have h1 := ha.1
  rw [h, hb.1] at h1
  cases a; cases b; simp at h h1; simp [h, h1]

theorem pool_create {p p' : Pool} {h : Handle} (hi : PoolInv p 0) (hb : p.nextId + 1 < U32)
    (hc : p.create = some (p', h)) :
    PoolInv p' 0 ∧ p'.nextId < U32 ∧ Held p' 0 h ∧ (∀ h', Held p 0 h' → Held p' 0 h' ∧ h'.id ≠ h.id) ∧
      (∀ h', h' ≠ h → p'.alive h' = p.alive h') := by
  obtain ⟨h1, h2, h3⟩ := hi.create hb hc
  refine ⟨h1, ?_, h2.held h1, fun h' hh => ⟨((h3 h' hh.ok).1).held h1, (h3 h' hh.ok).2⟩, ?_⟩
  · unfold Pool.create at hc
    split at hc
    · split at hc
      · simp at hc
      · simp only [Option.some.injEq, Prod.mk.injEq] at hc
        obtain ⟨rfl, rfl⟩ := hc
        show p.nextId < U32
        omega
    · simp only [Option.some.injEq, Prod.mk.injEq] at hc
      obtain ⟨rfl, rfl⟩ := hc
      simp only [Pool.bump]
      rw [Nat.mod_eq_of_lt hb]; exact hb
  · intro h' hne
    have hnx := hi.nextId
    rw [Bool.eq_iff_iff, alive_iff, alive_iff]
    unfold Pool.create at hc
    split at hc
    · split at hc
      · simp at hc
      · simp only [Option.some.injEq, Prod.mk.injEq] at hc
        obtain ⟨rfl, rfl⟩ := hc
        exact Iff.rfl
    · simp only [Option.some.injEq, Prod.mk.injEq] at hc
      obtain ⟨rfl, rfl⟩ := hc
      simp only [Pool.bump]
      by_cases hlt : h'.id < p.gens.length
      · rw [List.getElem?_append_left hlt]
      · rw [List.getElem?_append_right (by omega), List.getElem?_eq_none (l := p.gens) (by omega)]
        by_cases he : h'.id = p.gens.length
        · simp only [he, Nat.sub_self, List.getElem?_cons_zero, Option.some.injEq, reduceCtorEq, iff_false]
          intro hg
          apply hne
          cases h'; simp at he hg; simp [he, hnx, ← hg]
        · rw [List.getElem?_eq_none (by simp; omega)]

theorem pool_recycle {p : Pool} {h : Handle} (hi : PoolInv p 0) (hh : Held p 0 h) :
    PoolInv (p.recycle h) 0 ∧ (p.recycle h).nextId = p.nextId ∧ (p.recycle h).alive h = false ∧
      (∀ h', Held p 0 h' → h' ≠ h → Held (p.recycle h) 0 h') ∧
      (∀ h', h' ≠ h → h' ≠ ⟨h.id, (h.gen + 1) % U32⟩ → (p.recycle h).alive h' = p.alive h') := by
  have hnf : h.id ∉ p.free := by have := hh.2; simpa using this
  obtain ⟨h1, h2⟩ := hi.recycle h (fun _ => hnf)
  have hal := hh.alive
  have hgl : h.gen < U32 := hi.gensBound _ (List.mem_of_getElem? hh.1)
  have hr : p.recycle h = { p with gens := p.gens.set h.id ((h.gen + 1) % U32), free := p.free ++ [h.id], cursor := p.cursor + 1 } := by
    unfold Pool.recycle; rw [if_pos hal]
  refine ⟨h1, ?_, ?_, fun h' hh' hne => (h2 h' hh'.ok hne).held h1, ?_⟩
  · rw [hr]
  · rw [Bool.eq_false_iff]
    intro hc
    rw [alive_iff, hr] at hc
    simp only [List.getElem?_set, if_true, hh.lt, Option.some.injEq] at hc
    unfold U32 at hc hgl
    omega
  · intro h' hne hne2
    rw [Bool.eq_iff_iff, alive_iff, alive_iff, hr]
    simp only [List.getElem?_set]
    split
    · rename_i he
      simp only [← he, hh.lt, if_true, Option.some.injEq]
      rw [hh.1]
      constructor
      · intro hg; exfalso; apply hne2; cases h'; simp at he hg; simp [he, hg]
      · intro hg; exfalso; apply hne; cases h'; cases h; simp at he hg; simp [he, hg]
    · rfl

theorem pool_reserve {p p' : Pool} {k : Nat} {h : Handle} (hi : PoolInv p k) (hb : p.nextId + 1 < U32)
    (hc : p.reserve = some (p', h)) :
    PoolInv p' (k + 1) ∧ p'.nextId < U32 ∧ (∀ h', Held p k h' → Held p' (k + 1) h' ∧ h'.id ≠ h.id) ∧
      (∀ h', p'.alive h' = p.alive h') ∧ HandleOk p' (k + 1) h ∧
      (∀ h', HandleOk p k h' → HandleOk p' (k + 1) h' ∧ h'.id ≠ h.id) := by
  obtain ⟨h1, h2, h3⟩ := hi.reserve hb hc
  have hg : p'.gens = p.gens ∧ p'.nextId < U32 := by
    rw [reserve_eq] at hc
    split at hc
    · split at hc
      · cases hc
      · simp only [Option.some.injEq, Prod.mk.injEq] at hc
        obtain ⟨rfl, rfl⟩ := hc
        exact ⟨rfl, by show p.nextId < U32; omega⟩
    · simp only [Pool.reserveFresh, Option.some.injEq, Prod.mk.injEq] at hc
      obtain ⟨rfl, rfl⟩ := hc
      refine ⟨rfl, ?_⟩
      simp only [Pool.bump]
      rw [Nat.mod_eq_of_lt hb]; exact hb
  refine ⟨h1, hg.2, fun h' hh => ⟨?_, (h3 h' hh.ok).2⟩, fun h' => ?_, h2, h3⟩
  · rcases (h3 h' hh.ok).1 with ho | ⟨ho, _, _⟩
    · exact ho
    · rw [hg.1] at ho
      have := hh.lt
      omega
  · rw [Bool.eq_iff_iff, alive_iff, alive_iff, hg.1]

theorem pool_flush {p : Pool} {k : Nat} (hi : PoolInv p k) :
    PoolInv p.flush 0 ∧ p.flush.nextId = p.nextId ∧ (∀ h', HandleOk p k h' → Held p.flush 0 h') ∧
      (∀ h', p.alive h' = true → p.flush.alive h' = true) := by
  obtain ⟨h1, h2, _⟩ := hi.flush
  refine ⟨h1, rfl, fun h' ho => (h2 h' ho).held h1, fun h' ha => ?_⟩
  rw [alive_iff] at ha ⊢
  have hlt := (List.getElem?_eq_some_iff.1 ha).1
  show (p.gens ++ List.replicate (-p.cursor).toNat 0)[h'.id]? = _
  rw [List.getElem?_append_left hlt, ha]

/-! ### Slots and locations -/

variable {D : Type}

/-- Every stored entity is held and located where it is stored, and every location is occupied by the
entity it belongs to. -/
structure Link (p : Pool) (k : Nat) (ent : Loc → Option (Handle × D)) (lm : Nat → Option Loc) : Prop where
  stored : ∀ l h d, ent l = some (h, d) → Held p k h ∧ lm h.id = some l
  located : ∀ id l, lm id = some l → ∃ h d, ent l = some (h, d) ∧ h.id = id

/-- The stored entities with their components are those of `W`. -/
def Holds (ent : Loc → Option (Handle × D)) (W : Handle → Option D) : Prop :=
  ∀ h d, (∃ l, ent l = some (h, d)) ↔ W h = some d

theorem Holds.unique {ent : Loc → Option (Handle × D)} {W W' : Handle → Option D} (h : Holds ent W) (h' : Holds ent W') :
    W = W' := by
  funext x
  apply Option.ext
  intro d
  rw [← h, ← h']

/-- Functional update. -/
def World.put (W : Handle → Option D) (h : Handle) (d : Option D) : Handle → Option D := fun h' => if h' = h then d else W h'

namespace Link
variable {p p' : Pool} {k k' : Nat} {ent ent' : Loc → Option (Handle × D)} {lm lm' : Nat → Option Loc} {W : Handle → Option D}

theorem inj (L : Link p k ent lm) {l l' : Loc} {h : Handle} {d d' : D} (h1 : ent l = some (h, d)) (h2 : ent l' = some (h, d')) :
    l = l' ∧ d = d' := by
  have e1 := (L.stored _ _ _ h1).2
  rw [(L.stored _ _ _ h2).2] at e1
  simp at e1
  subst e1
  rw [h1] at h2
  simp at h2
  exact ⟨rfl, h2⟩

theorem id_inj (L : Link p k ent lm) {l l' : Loc} {h h' : Handle} {d d' : D} (h1 : ent l = some (h, d)) (h2 : ent l' = some (h', d'))
    (he : h.id = h'.id) : h = h' :=
  held_inj (L.stored _ _ _ h1).1 (L.stored _ _ _ h2).1 he

theorem mono (L : Link p k ent lm) (hp : ∀ l h d, ent l = some (h, d) → Held p k h → Held p' k' h) : Link p' k' ent lm :=
  ⟨fun l h d hl => ⟨hp l h d hl (L.stored l h d hl).1, (L.stored l h d hl).2⟩, L.located⟩

theorem push (L : Link p k ent lm) (hW : Holds ent W) {h : Handle} {d : D} {s : Loc} (hh : Held p k h) (hn : lm h.id = none)
    (hs : ent s = none) (he : ∀ l, ent' l = if l = s then some (h, d) else ent l)
    (hl : ∀ id, lm' id = if id = h.id then some s else lm id) :
    Link p k ent' lm' ∧ Holds ent' (World.put W h (some d)) := by
  refine ⟨⟨?_, ?_⟩, ?_⟩
  · intro l h' d' hl'
    rw [he] at hl'
    split at hl'
    · rename_i hls
      simp at hl'
      obtain ⟨rfl, rfl⟩ := hl'
      exact ⟨hh, by rw [hl, if_pos rfl, hls]⟩
    · obtain ⟨q1, q2⟩ := L.stored _ _ _ hl'
      refine ⟨q1, ?_⟩
      rw [hl, if_neg, q2]
      intro hid; rw [hid, hn] at q2; simp at q2
  · intro id l hid
    rw [hl] at hid
    split at hid
    · rename_i hi
      simp at hid; subst hid
      exact ⟨h, d, by rw [he, if_pos rfl], hi.symm⟩
    · obtain ⟨h', d', q1, q2⟩ := L.located _ _ hid
      refine ⟨h', d', ?_, q2⟩
      rw [he, if_neg, q1]
      intro hls; rw [hls, hs] at q1; simp at q1
  · intro h' d'
    unfold World.put
    constructor
    · rintro ⟨l, hl'⟩
      rw [he] at hl'
      split at hl'
      · simp at hl'; rw [if_pos hl'.1.symm, hl'.2]
      · rw [if_neg, ← hW]
        · exact ⟨l, hl'⟩
        · rintro rfl
          have := (L.stored _ _ _ hl').2
          rw [hn] at this; simp at this
    · intro hw
      split at hw
      · rename_i hhh; simp at hw; exact ⟨s, by rw [he, if_pos rfl, hhh, hw]⟩
      · rw [← hW] at hw
        obtain ⟨l, hl'⟩ := hw
        refine ⟨l, ?_⟩
        rw [he, if_neg, hl']
        rintro rfl; rw [hs] at hl'; simp at hl'

theorem erase (L : Link p k ent lm) (hW : Holds ent W) {h : Handle} {d : D} {s : Loc} (hs : ent s = some (h, d))
    (he : ∀ l, ent' l = if l = s then none else ent l)
    (hl : ∀ id, lm' id = if id = h.id then none else lm id) :
    Link p k ent' lm' ∧ Holds ent' (World.put W h none) ∧ ∀ l h' d', ent' l = some (h', d') → h' ≠ h := by
  have hne : ∀ l h' d', ent' l = some (h', d') → ent l = some (h', d') ∧ l ≠ s ∧ h'.id ≠ h.id := by
    intro l h' d' hl'
    rw [he] at hl'
    split at hl'
    · cases hl'
    · rename_i hls
      refine ⟨hl', hls, fun hid => ?_⟩
      have := L.id_inj hl' hs hid
      subst this
      exact hls (L.inj hl' hs).1
  refine ⟨⟨?_, ?_⟩, ?_, fun l h' d' hl' e => (hne l h' d' hl').2.2 (by rw [e])⟩
  · intro l h' d' hl'
    obtain ⟨q1, _, q3⟩ := hne _ _ _ hl'
    exact ⟨(L.stored _ _ _ q1).1, by rw [hl, if_neg q3]; exact (L.stored _ _ _ q1).2⟩
  · intro id l hid
    rw [hl] at hid
    split at hid
    · cases hid
    · rename_i hi
      obtain ⟨h', d', q1, q2⟩ := L.located _ _ hid
      refine ⟨h', d', ?_, q2⟩
      rw [he, if_neg, q1]
      rintro rfl; rw [hs] at q1; simp at q1; exact hi (by rw [← q2, q1.1])
  · intro h' d'
    unfold World.put
    constructor
    · rintro ⟨l, hl'⟩
      obtain ⟨q1, _, q3⟩ := hne _ _ _ hl'
      rw [if_neg (fun e => q3 (by rw [e])), ← hW]
      exact ⟨l, q1⟩
    · intro hw
      split at hw
      · cases hw
      · rename_i hhh
        rw [← hW] at hw
        obtain ⟨l, hl'⟩ := hw
        refine ⟨l, ?_⟩
        rw [he, if_neg, hl']
        rintro rfl; rw [hs] at hl'; simp at hl'; exact hhh hl'.1.symm

theorem eraseMove (L : Link p k ent lm) (hW : Holds ent W) {h m : Handle} {d dm : D} {s q : Loc} (hs : ent s = some (h, d))
    (hq : ent q = some (m, dm)) (hqs : q ≠ s)
    (he : ∀ l, ent' l = if l = s then some (m, dm) else if l = q then none else ent l)
    (hl : ∀ id, lm' id = if id = m.id then some s else if id = h.id then none else lm id) :
    Link p k ent' lm' ∧ Holds ent' (World.put W h none) ∧ (∀ l h' d', ent' l = some (h', d') → h' ≠ h) ∧ m.id ≠ h.id := by
  have hmh : m.id ≠ h.id := by
    intro hid
    have := L.id_inj hq hs hid
    subst this
    exact hqs (L.inj hq hs).1
  have hne : ∀ l h' d', ent' l = some (h', d') → (∃ l', ent l' = some (h', d')) ∧ h'.id ≠ h.id ∧
      ((h' = m ∧ l = s) ∨ (h'.id ≠ m.id ∧ ent l = some (h', d'))) := by
    intro l h' d' hl'
    rw [he] at hl'
    split at hl'
    · rename_i hls
      simp at hl'
      obtain ⟨rfl, rfl⟩ := hl'
      exact ⟨⟨q, hq⟩, hmh, .inl ⟨rfl, hls⟩⟩
    · split at hl'
      · cases hl'
      · rename_i hls hlq
        refine ⟨⟨l, hl'⟩, fun hid => ?_, .inr ⟨fun hid => ?_, hl'⟩⟩
        · have := L.id_inj hl' hs hid
          subst this
          exact hls (L.inj hl' hs).1
        · have := L.id_inj hl' hq hid
          subst this
          exact hlq (L.inj hl' hq).1
  refine ⟨⟨?_, ?_⟩, ?_, fun l h' d' hl' e => (hne l h' d' hl').2.1 (by rw [e]), hmh⟩
  · intro l h' d' hl'
    obtain ⟨⟨l', q1⟩, q2, q3⟩ := hne _ _ _ hl'
    refine ⟨(L.stored _ _ _ q1).1, ?_⟩
    rw [hl]
    rcases q3 with ⟨rfl, rfl⟩ | ⟨q3, q4⟩
    · rw [if_pos rfl]
    · rw [if_neg q3, if_neg q2]; exact (L.stored _ _ _ q4).2
  · intro id l hid
    rw [hl] at hid
    split at hid
    · rename_i hi
      simp at hid; subst hid
      exact ⟨m, dm, by rw [he, if_pos rfl], hi.symm⟩
    · split at hid
      · cases hid
      · rename_i hi1 hi2
        obtain ⟨h', d', q1, q2⟩ := L.located _ _ hid
        refine ⟨h', d', ?_, q2⟩
        rw [he, if_neg, if_neg, q1]
        · rintro rfl; rw [hq] at q1; simp at q1; exact hi1 (by rw [← q2, q1.1])
        · rintro rfl; rw [hs] at q1; simp at q1; exact hi2 (by rw [← q2, q1.1])
  · intro h' d'
    unfold World.put
    constructor
    · rintro ⟨l, hl'⟩
      obtain ⟨q1, q2, _⟩ := hne _ _ _ hl'
      rw [if_neg (fun e => q2 (by rw [e])), ← hW]
      exact q1
    · intro hw
      split at hw
      · cases hw
      · rename_i hhh
        rw [← hW] at hw
        obtain ⟨l, hl'⟩ := hw
        by_cases hlq : l = q
        · subst hlq
          rw [hq] at hl'; simp at hl'
          exact ⟨s, by rw [he, if_pos rfl, hl'.1, hl'.2]⟩
        · refine ⟨l, ?_⟩
          rw [he, if_neg, if_neg hlq, hl']
          rintro rfl; rw [hs] at hl'; simp at hl'; exact hhh hl'.1.symm

/-- Change of the data of one entity. -/
theorem update (L : Link p k ent lm) (hW : Holds ent W) {h : Handle} {d d' : D} {s : Loc} (hs : ent s = some (h, d))
    (he : ∀ l, ent' l = if l = s then some (h, d') else ent l) :
    Link p k ent' lm ∧ Holds ent' (World.put W h (some d')) := by
  refine ⟨⟨?_, ?_⟩, ?_⟩
  · intro l h' x hl'
    rw [he] at hl'
    split at hl'
    · rename_i hls
      simp at hl'
      obtain ⟨rfl, rfl⟩ := hl'
      subst hls
      exact L.stored _ _ _ hs
    · exact L.stored _ _ _ hl'
  · intro id l hid
    obtain ⟨h', x, q1, q2⟩ := L.located _ _ hid
    by_cases hls : l = s
    · subst hls
      rw [hs] at q1; simp at q1
      exact ⟨h, d', by rw [he, if_pos rfl], by rw [q1.1, q2]⟩
    · exact ⟨h', x, by rw [he, if_neg hls, q1], q2⟩
  · intro h' x
    unfold World.put
    constructor
    · rintro ⟨l, hl'⟩
      rw [he] at hl'
      split at hl'
      · simp at hl'; rw [if_pos hl'.1.symm, hl'.2]
      · rename_i hls
        rw [if_neg, ← hW]
        · exact ⟨l, hl'⟩
        · rintro rfl; exact hls (L.inj hl' hs).1
    · intro hw
      split at hw
      · rename_i hhh; simp at hw; exact ⟨s, by rw [he, if_pos rfl, hhh, hw]⟩
      · rename_i hhh
        rw [← hW] at hw
        obtain ⟨l, hl'⟩ := hw
        refine ⟨l, ?_⟩
        rw [he, if_neg, hl']
        rintro rfl; rw [hs] at hl'; simp at hl'; exact hhh hl'.1.symm

end Link
end CoEcs
