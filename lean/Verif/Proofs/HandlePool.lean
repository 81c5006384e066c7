import Verif.Spec.Handles

set_option linter.unusedSimpArgs false

namespace CoEcs
open Spec

/-! ## Event lists -/

theorem issuedLive_nil (h : Handle) : ¬ IssuedLive [] h := by
  rintro ⟨pre, is, post, he, _⟩
  simp at he

theorem issuedLive_append_iff (evs : List PoolEvent) (ev : PoolEvent) (h : Handle) :
    IssuedLive (evs ++ [ev]) h ↔
      (ev = .created h ∨ ev = .reserved h) ∨ (IssuedLive evs h ∧ ev ≠ .recycled h) := by
  constructor
  · rintro ⟨pre, is, post, he, his, hp⟩
    rcases List.eq_nil_or_concat post with rfl | ⟨post', e, rfl⟩
    · left
      have h1 := congrArg List.getLast? he
      simp at h1
      subst h1; exact his
    · right
      have h2 : evs ++ [ev] = (pre ++ is :: post') ++ [e] := by
        rw [he]; simp
      have h3 := List.append_inj' h2 rfl
      obtain ⟨h3, h4⟩ := h3
      simp only [List.cons.injEq, and_true] at h4
      subst h4
      refine ⟨⟨pre, is, post', h3, his, ?_⟩, ?_⟩
      · intro hc; apply hp; simp [hc]
      · rintro rfl; apply hp; simp
  · rintro (h1 | ⟨⟨pre, is, post, he, his, hp⟩, h2⟩)
    · exact ⟨evs, ev, [], by simp, h1, by simp⟩
    · refine ⟨pre, is, post ++ [ev], by simp [he], his, ?_⟩
      simp only [List.mem_append, List.mem_singleton, not_or]
      exact ⟨hp, fun hc => h2 hc.symm⟩

theorem pending_append (evs : List PoolEvent) (ev : PoolEvent) :
    pending (evs ++ [ev]) = match ev with
      | .reserved _ => pending evs + 1
      | .flushed => 0
      | _ => pending evs := by
  unfold pending
  rw [List.foldl_append]
  cases ev <;> rfl

/-! ## The pool invariant with `k` pending reservations -/

structure PoolInv (p : Pool) (k : Nat) : Prop where
  cursor : p.cursor = (p.free.length : Int) - k
  nextId : p.nextId = p.gens.length + (k - p.free.length)
  nodup : p.free.Nodup
  bound : ∀ id ∈ p.free, id < p.gens.length
  gensBound : ∀ g ∈ p.gens, g < U32

/-- What the invariant says about an issued live handle. -/
def HandleOk (p : Pool) (k : Nat) (h : Handle) : Prop :=
  (p.gens[h.id]? = some h.gen ∧ h.id ∉ p.free.take (p.free.length - k)) ∨
  (p.gens.length ≤ h.id ∧ h.id < p.nextId ∧ h.gen = 0)

theorem PoolInv.empty : PoolInv Pool.empty 0 := by
  constructor <;> simp [Pool.empty]

theorem alive_iff (p : Pool) (h : Handle) : p.alive h = true ↔ p.gens[h.id]? = some h.gen := by
  unfold Pool.alive
  cases hg : p.gens[h.id]? <;> simp

theorem nodup_dropLast_getLast {l : List Nat} {x : Nat} (hn : l.Nodup) (hl : l.getLast? = some x) :
    x ∉ l.dropLast := by
  have hne : l ≠ [] := by rintro rfl; simp at hl
  have hx : l.getLast hne = x := by
    rw [List.getLast?_eq_some_getLast hne] at hl; simpa using hl
  have := List.dropLast_concat_getLast hne
  rw [hx] at this
  rw [← this] at hn
  rw [List.nodup_append] at hn
  intro hx
  exact hn.2.2 x hx x (by simp) rfl

theorem PoolInv.create {p p' : Pool} {h : Handle} (hi : PoolInv p 0) (hb : p.nextId + 1 < U32)
    (hc : p.create = some (p', h)) :
    PoolInv p' 0 ∧ HandleOk p' 0 h ∧
      (∀ h', HandleOk p 0 h' → HandleOk p' 0 h' ∧ h'.id ≠ h.id) := by
  unfold Pool.create at hc
  have hcur := hi.cursor
  have hnx := hi.nextId
  have hnd := hi.nodup
  have hbd := hi.bound
  have hgb := hi.gensBound
  split at hc
  · rename_i id hl
    split at hc
    · simp at hc
    · rename_i g hg
      simp only [Option.some.injEq, Prod.mk.injEq] at hc
      obtain ⟨rfl, rfl⟩ := hc
      have hmem : id ∈ p.free := List.mem_of_getLast? hl
      have hnm := nodup_dropLast_getLast hnd hl
      have hsub := List.dropLast_sublist p.free
      refine ⟨⟨?_, ?_, ?_, ?_, hgb⟩, ?_, ?_⟩
      · simp
      · simp only [Nat.sub_zero] at hnx ⊢; omega
      · exact hnd.sublist hsub
      · intro i hi'; exact hbd i (hsub.subset hi')
      · left
        refine ⟨hg, ?_⟩
        exact fun hc => hnm (List.mem_of_mem_take hc)
      · intro h' hok
        rcases hok with ⟨h1, h2⟩ | ⟨h1, h2, h3⟩
        · simp only [Nat.sub_zero, List.take_length] at h2
          have hne : h'.id ≠ id := fun e => h2 (e ▸ hmem)
          refine ⟨Or.inl ⟨h1, ?_⟩, hne⟩
          exact fun hc => h2 (hsub.subset (List.mem_of_mem_take hc))
        · simp at hnx; omega
  · rename_i hl
    simp only [Option.some.injEq, Prod.mk.injEq] at hc
    obtain ⟨rfl, rfl⟩ := hc
    have hfree : p.free = [] := by simpa using hl
    have hnx' : p.nextId = p.gens.length := by simpa using hnx
    have hmod : (p.nextId + 1) % U32 = p.nextId + 1 := Nat.mod_eq_of_lt hb
    refine ⟨⟨?_, ?_, ?_, ?_, ?_⟩, ?_, ?_⟩
    · simpa [Pool.bump] using hcur
    · simp only [Pool.bump, hmod, List.length_append, List.length_singleton]; omega
    · simpa [Pool.bump] using hnd
    · simp [Pool.bump, hfree]
    · intro g hg
      simp only [Pool.bump, List.mem_append, List.mem_singleton] at hg
      rcases hg with hg | rfl
      · exact hgb g hg
      · decide
    · left
      simp [Pool.bump, hfree, hnx']
    · intro h' hok
      rcases hok with ⟨h1, h2⟩ | ⟨h1, h2, h3⟩
      · have hlt : h'.id < p.gens.length := by
          rcases Nat.lt_or_ge h'.id p.gens.length with h | h
          · exact h
          · rw [List.getElem?_eq_none h] at h1; simp at h1
        refine ⟨Or.inl ⟨?_, ?_⟩, ?_⟩
        · simp [Pool.bump, List.getElem?_append_left hlt, h1]
        · simp [Pool.bump, hfree]
        · simp only [hnx']; omega
      · omega

theorem PoolInv.recycle {p : Pool} (h : Handle) (hi : PoolInv p 0)
    (hlive : p.alive h = true → h.id ∉ p.free) :
    PoolInv (p.recycle h) 0 ∧
      (∀ h', HandleOk p 0 h' → h' ≠ h → HandleOk (p.recycle h) 0 h') := by
  unfold Pool.recycle
  have hcur := hi.cursor
  have hnx := hi.nextId
  have hnd := hi.nodup
  have hbd := hi.bound
  have hgb := hi.gensBound
  split
  · rename_i ha
    have hnf := hlive ha
    rw [alive_iff] at ha
    have hlt : h.id < p.gens.length := by
      rcases Nat.lt_or_ge h.id p.gens.length with h' | h'
      · exact h'
      · rw [List.getElem?_eq_none h'] at ha; simp at ha
    refine ⟨⟨?_, ?_, ?_, ?_, ?_⟩, ?_⟩
    · simp [hcur]
    · simp at hnx ⊢; omega
    · rw [List.nodup_append]
      refine ⟨hnd, by simp, ?_⟩
      rintro a ha' b hb rfl
      simp at hb; subst hb; exact hnf ha'
    · intro i hi'
      simp only [List.mem_append, List.mem_singleton, List.length_set] at hi' ⊢
      rcases hi' with hi' | rfl
      · exact hbd i hi'
      · exact hlt
    · intro g hg
      rcases List.mem_or_eq_of_mem_set hg with hg | rfl
      · exact hgb g hg
      · exact Nat.mod_lt _ (by decide)
    · intro h' hok hne
      rcases hok with ⟨h1, h2⟩ | ⟨h1, h2, h3⟩
      · simp only [Nat.sub_zero, List.take_length] at h2
        have hidne : h'.id ≠ h.id := by
          intro e
          apply hne
          rw [e, ha] at h1
          cases h; cases h'; simp_all
        left
        refine ⟨?_, ?_⟩
        · simp only
          rw [List.getElem?_set_ne (Ne.symm hidne)]; exact h1
        · simp only [Nat.sub_zero, List.take_length, List.mem_append, List.mem_singleton]
          rintro (h | h)
          · exact h2 h
          · exact hidne h
      · simp at hnx; omega
  · exact ⟨hi, fun h' hok _ => hok⟩

theorem reserve_eq (p : Pool) : p.reserve =
    if p.cursor > 0 then
      match ({ p with cursor := p.cursor - 1 } : Pool).reserveFromFree p.cursor with
      | none => none
      | some h => some ({ p with cursor := p.cursor - 1 }, h)
    else some ({ p with cursor := p.cursor - 1 } : Pool).reserveFresh := rfl

theorem PoolInv.reserve {p p' : Pool} {k : Nat} {h : Handle} (hi : PoolInv p k)
    (hb : p.nextId + 1 < U32) (hc : p.reserve = some (p', h)) :
    PoolInv p' (k + 1) ∧ HandleOk p' (k + 1) h ∧
      (∀ h', HandleOk p k h' → HandleOk p' (k + 1) h' ∧ h'.id ≠ h.id) := by
  have hcur := hi.cursor
  have hnx := hi.nextId
  have hnd := hi.nodup
  have hbd := hi.bound
  have hgb := hi.gensBound
  rw [reserve_eq] at hc
  by_cases hpos : p.cursor > 0
  · rw [if_pos hpos] at hc
    have hk : k < p.free.length := by omega
    split at hc
    · simp at hc
    · rename_i h0 hr
      simp only [Option.some.injEq, Prod.mk.injEq] at hc
      obtain ⟨rfl, rfl⟩ := hc
      unfold Pool.reserveFromFree at hr
      have hidx : (p.cursor - 1).toNat = p.free.length - (k + 1) := by omega
      simp only [hidx] at hr
      split at hr
      · simp at hr
      · rename_i id hid
        split at hr
        · simp at hr
        · rename_i g hg
          simp only [Option.some.injEq] at hr
          subst hr
          have hlt : p.free.length - (k + 1) < p.free.length := by omega
          have hget : p.free[p.free.length - (k + 1)] = id := by
            rw [List.getElem?_eq_getElem hlt] at hid; simpa using hid
          have htake : p.free.take (p.free.length - k) =
              p.free.take (p.free.length - (k + 1)) ++ [id] := by
            have : p.free.length - k = (p.free.length - (k + 1)) + 1 := by omega
            rw [this, List.take_succ_eq_append_getElem hlt, hget]
          have hndt : (p.free.take (p.free.length - (k + 1)) ++ [id]).Nodup := by
            rw [← htake]; exact hnd.sublist (List.take_sublist _ _)
          refine ⟨⟨?_, ?_, hnd, hbd, hgb⟩, ?_, ?_⟩
          · simp only; omega
          · simp only; omega
          · left
            refine ⟨hg, ?_⟩
            simp only
            rw [List.nodup_append] at hndt
            intro hmem
            exact hndt.2.2 id hmem id (by simp) rfl
          · intro h' hok
            rcases hok with ⟨h1, h2⟩ | ⟨h1, h2, h3⟩
            · rw [htake] at h2
              simp only [List.mem_append, List.mem_singleton, not_or] at h2
              exact ⟨Or.inl ⟨h1, h2.1⟩, h2.2⟩
            · omega
  · rw [if_neg hpos] at hc
    have hk : p.free.length ≤ k := by omega
    simp only [Pool.reserveFresh, Option.some.injEq, Prod.mk.injEq] at hc
    obtain ⟨rfl, rfl⟩ := hc
    have hmod : (p.nextId + 1) % U32 = p.nextId + 1 := Nat.mod_eq_of_lt hb
    refine ⟨⟨?_, ?_, hnd, hbd, hgb⟩, ?_, ?_⟩
    · simp only [Pool.bump]; omega
    · simp only [Pool.bump, hmod]; omega
    · right
      refine ⟨?_, ?_, rfl⟩
      · simp only [Pool.bump]; omega
      · simp only [Pool.bump, hmod]; omega
    · intro h' hok
      rcases hok with ⟨h1, h2⟩ | ⟨h1, h2, h3⟩
      · have hlt : h'.id < p.gens.length := by
          rcases Nat.lt_or_ge h'.id p.gens.length with h | h
          · exact h
          · rw [List.getElem?_eq_none h] at h1; simp at h1
        refine ⟨Or.inl ⟨h1, ?_⟩, ?_⟩
        · simp only [Pool.bump]
          have e1 : p.free.length - (k + 1) = 0 := by omega
          simp [e1]
        · simp only; omega
      · refine ⟨Or.inr ⟨h1, ?_, h3⟩, ?_⟩
        · simp only [Pool.bump, hmod]; omega
        · simp only; omega

theorem PoolInv.flush {p : Pool} {k : Nat} (hi : PoolInv p k) :
    PoolInv p.flush 0 ∧ (∀ h', HandleOk p k h' → HandleOk p.flush 0 h') ∧
      p.flush.nextId = p.flush.gens.length := by
  have hcur := hi.cursor
  have hnx := hi.nextId
  have hnd := hi.nodup
  have hbd := hi.bound
  have hgb := hi.gensBound
  have e1 : (-p.cursor).toNat = k - p.free.length := by omega
  have e2 : p.cursor.toNat = p.free.length - k := by omega
  have e3 : p.flush = { p with
      gens := p.gens ++ List.replicate (k - p.free.length) 0
      free := p.free.take (p.free.length - k)
      cursor := ((p.free.length - k : Nat) : Int) } := by
    simp [Pool.flush, e1, e2]
  rw [e3]
  refine ⟨⟨?_, ?_, ?_, ?_, ?_⟩, ?_, ?_⟩
  · simp
  · simp; omega
  · exact hnd.sublist (List.take_sublist _ _)
  · intro i hi'
    have := hbd i (List.mem_of_mem_take hi')
    simp; omega
  · intro g hg
    simp only [List.mem_append, List.mem_replicate] at hg
    rcases hg with hg | ⟨_, rfl⟩
    · exact hgb g hg
    · decide
  · intro h' hok
    rcases hok with ⟨h1, h2⟩ | ⟨h1, h2, h3⟩
    · have hlt : h'.id < p.gens.length := by
        rcases Nat.lt_or_ge h'.id p.gens.length with h | h
        · exact h
        · rw [List.getElem?_eq_none h] at h1; simp at h1
      left
      refine ⟨?_, ?_⟩
      · simp [List.getElem?_append_left hlt, h1]
      · intro hc; exact h2 (List.mem_of_mem_take hc)
    · left
      refine ⟨?_, ?_⟩
      · simp only
        rw [List.getElem?_append_right h1, List.getElem?_replicate]
        rw [if_pos (by omega), h3]
      · intro hc
        have := hbd _ (List.mem_of_mem_take (List.mem_of_mem_take hc))
        omega
  · simp; omega

/-! ## Histories -/

theorem reserve_isSome {p : Pool} {k : Nat} (hi : PoolInv p k) : p.reserve ≠ none := by
  have hcur := hi.cursor
  rw [reserve_eq]
  by_cases hpos : p.cursor > 0
  · rw [if_pos hpos]
    have hidx : (p.cursor - 1).toNat < p.free.length := by omega
    have hm : p.free[(p.cursor - 1).toNat] ∈ p.free := List.getElem_mem hidx
    have hb := hi.bound _ hm
    simp only [Pool.reserveFromFree, List.getElem?_eq_getElem hidx, List.getElem?_eq_getElem hb]
    simp
  · rw [if_neg hpos]; simp

theorem create_isSome {p : Pool} {k : Nat} (hi : PoolInv p k) : p.create ≠ none := by
  unfold Pool.create
  split
  · rename_i id hl
    have hb := hi.bound _ (List.mem_of_getLast? hl)
    simp [List.getElem?_eq_getElem hb]
  · simp

theorem SyncedHistory.inv {p : Pool} {evs : List PoolEvent} (h : SyncedHistory p evs) :
    PoolInv p (pending evs) ∧ ∀ h, IssuedLive evs h → HandleOk p (pending evs) h := by
  induction h with
  | init => exact ⟨PoolInv.empty, fun h hl => absurd hl (issuedLive_nil h)⟩
  | @step p p' evs op ev _ hop hb hst ih =>
    obtain ⟨hi, hl⟩ := ih
    cases op with
    | create =>
      simp only [Pool.step, Option.map_eq_some_iff, Prod.mk.injEq] at hst
      obtain ⟨⟨q, h⟩, hc, rfl, rfl⟩ := hst
      have hp0 : pending evs = 0 := hop
      rw [hp0] at hi hl
      obtain ⟨a, b, c⟩ := hi.create hb hc
      simp only [pending_append, hp0]
      refine ⟨a, fun h' hh => ?_⟩
      rw [issuedLive_append_iff] at hh
      rcases hh with (hh | hh) | ⟨hh, _⟩
      · cases hh; exact b
      · cases hh
      · exact (c h' (hl h' hh)).1
    | recycle h =>
      simp only [Pool.step, Option.some.injEq, Prod.mk.injEq] at hst
      obtain ⟨rfl, rfl⟩ := hst
      obtain ⟨hp0, hop⟩ : pending evs = 0 ∧ _ := hop
      rw [hp0] at hi hl
      have hfree : p.alive h = true → h.id ∉ p.free := by
        intro ha
        rcases hop with hop | hop
        · rcases hl h hop with ⟨_, h2⟩ | ⟨h1, _⟩
          · simpa using h2
          · intro hm; have := hi.bound _ hm; omega
        · simp [hop] at ha
      obtain ⟨a, b⟩ := hi.recycle h hfree
      simp only [pending_append, hp0]
      refine ⟨a, fun h' hh => ?_⟩
      rw [issuedLive_append_iff] at hh
      rcases hh with (hh | hh) | ⟨hh, hne⟩
      · cases hh
      · cases hh
      · exact b h' (hl h' hh) (fun e => hne (by rw [e]))
    | reserve =>
      simp only [Pool.step, Option.map_eq_some_iff, Prod.mk.injEq] at hst
      obtain ⟨⟨q, h⟩, hc, rfl, rfl⟩ := hst
      obtain ⟨a, b, c⟩ := hi.reserve hb hc
      simp only [pending_append]
      refine ⟨a, fun h' hh => ?_⟩
      rw [issuedLive_append_iff] at hh
      rcases hh with (hh | hh) | ⟨hh, _⟩
      · cases hh
      · cases hh; exact b
      · exact (c h' (hl h' hh)).1
    | flush =>
      simp only [Pool.step, Option.some.injEq, Prod.mk.injEq] at hst
      obtain ⟨rfl, rfl⟩ := hst
      obtain ⟨a, b, c⟩ := hi.flush
      simp only [pending_append]
      refine ⟨a, fun h' hh => ?_⟩
      rw [issuedLive_append_iff] at hh
      rcases hh with (hh | hh) | ⟨hh, hne⟩
      · cases hh
      · cases hh
      · exact b h' (hl h' hh)

end CoEcs
