import Verif.Props.Handles

/-!
# Every handle comes back to life (C02)
-/

namespace CoEcs.Props
open CoEcs Spec

/-- Every id that was handed out is free or belongs to a handle in use. -/
theorem covered {p : Pool} {evs : List PoolEvent} (hist : SyncedHistory p evs) : ∀ i < p.nextId,
    i ∈ p.free.take (p.free.length - pending evs) ∨ ∃ h, IssuedLive evs h ∧ h.id = i := by
  induction hist with
  | init => intro i hi; simp [Pool.empty] at hi
  | @step p p' evs op ev hs hop hb hst ih =>
    obtain ⟨hi, hl⟩ := (SyncedHistory.inv hs)
    have keep : ∀ i, (∃ h, IssuedLive evs h ∧ h.id = i) → (∀ h, ev ≠ .recycled h) → ∃ h, IssuedLive (evs ++ [ev]) h ∧ h.id = i := by
      rintro i ⟨h, h1, h2⟩ h3
      exact ⟨h, (issuedLive_append_iff _ _ _).2 (.inr ⟨h1, h3 h⟩), h2⟩
    intro i hlt
    cases op with
    | create =>
      have hp0 : pending evs = 0 := hop
      simp only [Pool.step, Option.map_eq_some_iff, Prod.mk.injEq] at hst
      obtain ⟨⟨q, h⟩, hc, rfl, rfl⟩ := hst
      simp only [pending_append, hp0, Nat.sub_zero, List.take_length] at ih ⊢
      unfold Pool.create at hc
      split at hc
      · rename_i id hid
        split at hc
        · cases hc
        · simp only [Option.some.injEq, Prod.mk.injEq] at hc
          obtain ⟨rfl, rfl⟩ := hc
          rcases ih i hlt with h1 | h1
          · have hf : p.free = p.free.dropLast ++ [id] := by
              obtain ⟨ys, hys⟩ := List.getLast?_eq_some_iff.1 hid
              rw [hys]; simp
            rw [hf, List.mem_append, List.mem_singleton] at h1
            rcases h1 with h1 | h1
            · exact .inl h1
            · exact .inr ⟨_, (issuedLive_append_iff _ _ _).2 (.inl (.inl rfl)), h1.symm⟩
          · exact .inr (keep i h1 (by intro h hh; cases hh))
      · simp only [Option.some.injEq, Prod.mk.injEq] at hc
        obtain ⟨rfl, rfl⟩ := hc
        simp only [Pool.bump, Nat.mod_eq_of_lt hb] at hlt
        by_cases he : i = p.nextId
        · exact .inr ⟨_, (issuedLive_append_iff _ _ _).2 (.inl (.inl rfl)), he.symm⟩
        · rcases ih i (by omega) with h1 | h1
          · exact .inl h1
          · exact .inr (keep i h1 (by intro h hh; cases hh))
    | recycle h =>
      obtain ⟨hp0, _⟩ : pending evs = 0 ∧ _ := hop
      simp only [Pool.step, Option.some.injEq, Prod.mk.injEq] at hst
      obtain ⟨rfl, rfl⟩ := hst
      simp only [pending_append, hp0, Nat.sub_zero, List.take_length] at ih ⊢
      by_cases ha : p.alive h = true
      · simp only [Pool.recycle, ha, if_true] at hlt ⊢
        rcases ih i hlt with h1 | ⟨h', h1, h2⟩
        · exact .inl (by simp [h1])
        · by_cases he : h' = h
          · subst he; exact .inl (by simp [h2])
          · exact .inr ⟨h', (issuedLive_append_iff _ _ _).2 (.inr ⟨h1, by intro hh; cases hh; exact he rfl⟩), h2⟩
      · simp only [Pool.recycle, ha] at hlt ⊢
        rcases ih i hlt with h1 | ⟨h', h1, h2⟩
        · exact .inl h1
        · refine .inr ⟨h', (issuedLive_append_iff _ _ _).2 (.inr ⟨h1, ?_⟩), h2⟩
          intro hh
          cases hh
          exact ha (C01_live_handles_alive hs h1 (.inl hp0))
    | reserve =>
      simp only [Pool.step, Option.map_eq_some_iff, Prod.mk.injEq] at hst
      obtain ⟨⟨q, h⟩, hc, rfl, rfl⟩ := hst
      rw [reserve_eq] at hc
      have hcur := hi.cursor
      simp only [pending_append]
      split at hc
      · rename_i hpos
        split at hc
        · cases hc
        · rename_i h0 hrf
          simp only [Option.some.injEq, Prod.mk.injEq] at hc
          obtain ⟨rfl, rfl⟩ := hc
          simp only [Pool.reserveFromFree] at hrf
          split at hrf
          · cases hrf
          · rename_i id hid
            split at hrf
            · cases hrf
            · simp only [Option.some.injEq] at hrf
              subst hrf
              have hk : (p.cursor - 1).toNat = p.free.length - (pending evs + 1) := by omega
              simp only [hk] at hid
              rcases ih i hlt with h1 | h1
              · have hs1 : p.free.length - pending evs = p.free.length - (pending evs + 1) + 1 := by omega
                have hid' := hid
                rw [hs1, List.take_add_one, List.mem_append] at h1
                rcases h1 with h1 | h1
                · exact .inl h1
                · rw [hid'] at h1
                  simp only [Option.toList_some, List.mem_singleton] at h1
                  exact .inr ⟨_, (issuedLive_append_iff _ _ _).2 (.inl (.inr rfl)), h1.symm⟩
              · exact .inr (keep i h1 (by intro h hh; cases hh))
      · rename_i hpos
        simp only [Pool.reserveFresh, Option.some.injEq, Prod.mk.injEq] at hc
        obtain ⟨rfl, rfl⟩ := hc
        simp only [Pool.bump, Nat.mod_eq_of_lt hb] at hlt
        by_cases he : i = p.nextId
        · exact .inr ⟨_, (issuedLive_append_iff _ _ _).2 (.inl (.inr rfl)), he.symm⟩
        · rcases ih i (by omega) with h1 | h1
          · have : p.free.length - pending evs = 0 := by omega
            rw [this] at h1; simp at h1
          · exact .inr (keep i h1 (by intro h hh; cases hh))
    | flush =>
      simp only [Pool.step, Option.some.injEq, Prod.mk.injEq] at hst
      obtain ⟨rfl, rfl⟩ := hst
      have hcur := hi.cursor
      simp only [pending_append, Nat.sub_zero, Pool.flush, List.take_length] at hlt ⊢
      rcases ih i hlt with h1 | h1
      · left
        have : p.cursor.toNat = p.free.length - pending evs := by omega
        rw [this]; exact h1
      · exact .inr (keep i h1 (by intro h hh; cases hh))

/-- The history goes on, without pending reservations and new ids. -/
def Onward (p : Pool) (evs : List PoolEvent) (P : Pool → Prop) : Prop :=
  ∃ p' evs', SyncedHistory p' (evs ++ evs') ∧ pending (evs ++ evs') = 0 ∧ p'.nextId = p.nextId ∧ P p'

theorem Onward.trans {p : Pool} {evs : List PoolEvent} {P Q : Pool → Prop} (h : Onward p evs P)
    (hq : ∀ p' evs', SyncedHistory p' evs' → pending evs' = 0 → p'.nextId = p.nextId → P p' → Onward p' evs' Q) : Onward p evs Q := by
  obtain ⟨p', evs', h1, h2, h3, h4⟩ := h
  obtain ⟨p'', evs'', g1, g2, g3, g4⟩ := hq p' _ h1 h2 h3 h4
  exact ⟨p'', evs' ++ evs'', by rw [← List.append_assoc]; exact g1, by rw [← List.append_assoc]; exact g2, by omega, g4⟩

theorem Onward.now {p : Pool} {evs : List PoolEvent} {P : Pool → Prop} (h : SyncedHistory p evs) (hp : pending evs = 0) (hP : P p) : Onward p evs P :=
  ⟨p, [], by simpa using h, by simpa using hp, rfl, hP⟩

/-- A free id is handed out sooner or later. -/
theorem onward_create {i : Nat} : ∀ (r : List Nat) {l : List Nat} {p : Pool} {evs : List PoolEvent}, SyncedHistory p evs → pending evs = 0 → p.nextId + 1 < U32 →
    p.free = l ++ i :: r → Onward p evs fun p' => p'.free.getLast? = some i := by
  intro r
  induction h : r.length generalizing r with
  | zero =>
    intro l p evs hs hp hb hf
    have : r = [] := List.eq_nil_of_length_eq_zero h
    subst this
    exact .now hs hp (by rw [hf]; simp)
  | succ n ih =>
    intro l p evs hs hp hb hf
    obtain ⟨r', x, rfl⟩ : ∃ r' x, r = r' ++ [x] := by
      rcases List.eq_nil_or_concat r with h0 | ⟨r', x, h0⟩
      · subst h0; simp at h
      · exact ⟨r', x, by simpa using h0⟩
    replace hf : p.free = (l ++ i :: r') ++ [x] := by rw [hf]; simp
    have hi := (SyncedHistory.inv hs).1
    have hx : x ∈ p.free := by rw [hf]; simp
    have hg : ∃ g, p.gens[x]? = some g := ⟨_, List.getElem?_eq_getElem (hi.bound x hx)⟩
    obtain ⟨g, hg⟩ := hg
    have hlast : p.free.getLast? = some x := by rw [hf, List.getLast?_concat]
    have hst : p.step .create = some ({ p with free := p.free.dropLast, cursor := (p.free.dropLast.length : Int) }, .created ⟨x, g⟩) := by
      simp [Pool.step, Pool.create, hlast, hg]
    have hs' := SyncedHistory.step hs (op := .create) hp hb hst
    obtain ⟨p', evs', h1, h2, h3, h4⟩ := ih r' (by simpa using h) (l := l) hs' (by rw [pending_append]; exact hp) hb (by simp only [hf, List.dropLast_concat])
    exact ⟨p', .created ⟨x, g⟩ :: evs', by simpa using h1, by simpa using h2, h3, h4⟩

/-- A handle of a free id on top of the list is created and destroyed. -/
theorem onward_spin {i : Nat} : ∀ (d : Nat) {p : Pool} {evs : List PoolEvent} {g : Nat}, SyncedHistory p evs → pending evs = 0 → p.nextId + 1 < U32 →
    p.free.getLast? = some i → p.gens[i]? = some g → Onward p evs fun p' => p'.free.getLast? = some i ∧ p'.gens[i]? = some ((g + d) % U32) := by
  intro d
  induction d with
  | zero =>
    intro p evs g hs hp hb hf hg
    exact .now hs hp ⟨hf, by rw [hg, Nat.add_zero, Nat.mod_eq_of_lt ((SyncedHistory.inv hs).1.gensBound g (List.mem_of_getElem? hg))]⟩
  | succ d ih =>
    intro p evs g hs hp hb hf hg
    have hlt := (List.getElem?_eq_some_iff.1 hg).1
    have h1 : p.step .create = some ({ p with free := p.free.dropLast, cursor := (p.free.dropLast.length : Int) }, .created ⟨i, g⟩) := by
      simp [Pool.step, Pool.create, hf, hg]
    have hs1 := SyncedHistory.step hs (op := .create) hp hb h1
    generalize hp1 : ({ p with free := p.free.dropLast, cursor := (p.free.dropLast.length : Int) } : Pool) = p1 at hs1
    have e1 : p1.gens = p.gens := by rw [← hp1]
    have e2 : p1.nextId = p.nextId := by rw [← hp1]
    have ha : p1.alive ⟨i, g⟩ = true := by rw [alive_iff, e1]; exact hg
    have hp1' : pending (evs ++ [.created ⟨i, g⟩]) = 0 := by rw [pending_append]; exact hp
    have hs2 := SyncedHistory.step hs1 (op := .recycle ⟨i, g⟩) ⟨hp1', .inl ((issuedLive_append_iff _ _ _).2 (.inl (.inl rfl)))⟩ (by omega) rfl
    obtain ⟨p', evs', h3, h4, h5, h6, h7⟩ := ih (g := (g + 1) % U32) hs2 (by rw [pending_append]; exact hp1') (by simp only [Pool.recycle, ha, if_true]; omega)
      (by simp [Pool.recycle, ha]) (by simp [Pool.recycle, ha, e1, hlt])
    refine ⟨p', .created ⟨i, g⟩ :: .recycled ⟨i, g⟩ :: evs', by simpa using h3, by simpa using h4, ?_, h6, ?_⟩
    · rw [h5]; simp only [Pool.recycle, ha, if_true]; exact e2
    · rw [h7, Nat.mod_add_mod]; congr 2; omega

/-- **C02 is violated** for every handle in every history: whatever has happened so far, calls of `create` and `destroy` that respect the
protocol and give out no new id lead to a state in which the handle is alive though nobody has it, and which the next `create` hands out
again.  (The handle: any id that was given out, with any generation; for the handles destroyed so far this is the negation of C02.) -/
theorem C02_every_handle_violated {p : Pool} {evs : List PoolEvent} (hist : SyncedHistory p evs) (hp : pending evs = 0) (hb : p.nextId + 1 < U32) {h : Handle}
    (hid : h.id < p.nextId) (hgen : h.gen < U32) :
    ∃ p' evs', SyncedHistory p' (evs ++ evs') ∧ p'.nextId = p.nextId ∧ ¬ IssuedLive (evs ++ evs') h ∧ p'.alive h = true ∧ ∃ p'', p'.create = some (p'', h) := by
  have h1 : Onward p evs fun p' => p'.free.getLast? = some h.id := by
    rcases covered hist h.id hid with h1 | ⟨h', h1, h2⟩
    · rw [hp, Nat.sub_zero, List.take_length] at h1
      obtain ⟨l, r, hf⟩ := List.append_of_mem h1
      exact onward_create r hist hp hb hf
    · have ha := C01_live_handles_alive hist h1 (.inl hp)
      have hs := SyncedHistory.step hist (op := .recycle h') ⟨hp, .inl h1⟩ hb rfl
      exact ⟨_, _, hs, by rw [pending_append]; exact hp, by simp [Pool.recycle, ha], by simp [Pool.recycle, ha, h2]⟩
  have h2 : Onward p evs fun p' => p'.free.getLast? = some h.id ∧ p'.gens[h.id]? = some h.gen := by
    refine h1.trans fun p' evs' g1 g2 g3 g4 => ?_
    have hi := (SyncedHistory.inv g1).1
    have hlt := hi.bound h.id (List.mem_of_getLast? g4)
    have hg : p'.gens[h.id]? = some p'.gens[h.id] := List.getElem?_eq_getElem hlt
    have hgb := hi.gensBound _ (List.mem_of_getElem? hg)
    obtain ⟨p'', evs'', k1, k2, k3, k4, k5⟩ := onward_spin (h.gen + U32 - p'.gens[h.id]) g1 g2 (by omega) g4 hg
    refine ⟨p'', evs'', k1, k2, k3, k4, ?_⟩
    rw [k5]; congr 1
    have : p'.gens[h.id] + (h.gen + U32 - p'.gens[h.id]) = h.gen + U32 := by omega
    rw [this, Nat.add_mod_right, Nat.mod_eq_of_lt hgen]
  obtain ⟨p', evs', g1, g2, g3, g4, g5⟩ := h2
  refine ⟨p', evs', g1, g3, ?_, (alive_iff _ _).2 g5, ?_⟩
  · intro hh
    have hk := (SyncedHistory.inv g1).2 h hh
    rw [g2] at hk
    simp only [HandleOk, Nat.sub_zero, List.take_length] at hk
    rcases hk with ⟨_, hk⟩ | ⟨hk, _⟩
    · exact hk (List.mem_of_getLast? g4)
    · have := (List.getElem?_eq_some_iff.1 g5).1; omega
  · exact ⟨_, by simp only [Pool.create, g4, g5]; rfl⟩

/-- For example after the first two entities were created and the first one destroyed. -/
example : ∃ p' evs', SyncedHistory p' ([.created ⟨0, 0⟩, .created ⟨1, 0⟩, .recycled ⟨0, 0⟩, .reserved ⟨0, 1⟩, .reserved ⟨2, 0⟩, .flushed, .created ⟨3, 0⟩] ++ evs') ∧
    p'.alive ⟨0, 0⟩ = true := by
  obtain ⟨p', evs', h1, _, _, h2, _⟩ := C02_every_handle_violated sample_history rfl (by decide) (h := ⟨0, 0⟩) (by decide) (by decide)
  exact ⟨p', evs', h1, h2⟩

end CoEcs.Props
