import Verif.Spec.Buffers
import Verif.Proofs.BuffersLoc

/-!
# Addresses of components along histories
-/

namespace CoEcs
open Spec (RegOp SysOp Sys Out noHandle withHandle Leaves SameSet SetStays BRun BReachable World)
variable {V : Type}

/-! ### New handles -/

theorem create_handle {ty : Types} {r r' : Reg V} {args : List (Nat × V)} {h : Handle} (hd : r.create ty args = .ok r' h) :
    ∃ p, r.pool.create = some (p, h) := by
  unfold Reg.create at hd
  split at hd
  · cases hd
  · rename_i p h0 hp
    simp only at hd
    split at hd
    · cases hd
    · cases hd
    · split at hd
      · cases hd
      · split at hd
        · cases hd
        · cases hd
        · split at hd
          · cases hd
          · cases hd
            exact ⟨p, hp⟩

theorem copyInto_handle {r d d' : Reg V} {h ph h' : Handle} (hd : r.copyInto h d ph = .ok d' h') : h' = ph := by
  unfold Reg.copyInto at hd
  split at hd
  · cases hd
  · cases hd
  · exact receive_handle hd

theorem moveInto_handle {r d : Reg V} {rd : Reg V × Reg V} {h ph h' : Handle} (hd : r.moveInto h d ph = .ok rd h') : h' = ph := by
  unfold Reg.moveInto at hd
  split at hd
  · cases hd
  · cases hd
  · split at hd
    · cases hd
    · split at hd
      · cases hd
      · cases hd
      · split at hd
        · cases hd
        · split at hd
          · cases hd
          · split at hd
            · cases hd
            · split at hd
              · cases hd
              · split at hd
                · cases hd
                · split at hd
                  · cases hd
                  · cases hd; rfl

theorem clone_parts {r r' : Reg V} {h h' : Handle} (hd : r.clone h = .ok r' h') :
    ∃ p, r.pool.create = some (p, h') ∧ ({ r with pool := p } : Reg V).copyInto h { r with pool := p } h' = .ok r' h' := by
  unfold Reg.clone at hd
  split at hd
  · cases hd
  · rename_i p ph hp
    rw [cloneInto_eq] at hd
    have := copyInto_handle hd
    subst this
    exact ⟨p, hp, hd⟩

theorem copyTo_parts {r d d' : Reg V} {h h' : Handle} (hd : r.copyTo h d = .ok d' h') :
    ∃ p, d.pool.create = some (p, h') ∧ r.copyInto h { d with pool := p } h' = .ok d' h' := by
  unfold Reg.copyTo at hd
  split at hd
  · cases hd
  · rename_i p ph hp
    have := copyInto_handle hd
    subst this
    exact ⟨p, hp, hd⟩

theorem moveTo_parts {r d : Reg V} {rd : Reg V × Reg V} {h h' : Handle} (hd : r.moveTo h d = .ok rd h') :
    ∃ p, d.pool.create = some (p, h') ∧ r.moveInto h { d with pool := p } h' = .ok rd h' := by
  unfold Reg.moveTo at hd
  split at hd
  · cases hd
  · rename_i p ph hp
    have := moveInto_handle hd
    subst this
    exact ⟨p, hp, hd⟩

section
variable {ty : Types} {r : Reg V} {k : Nat} {P : List Handle} {W : Handle → Option (Comps V)}

theorem RInv.new_none (I : RInv ty r 0 P W) (hb : r.pool.nextId + 1 < U32) {p : Pool} {h : Handle} (hp : r.pool.create = some (p, h)) :
    W h = none := by
  obtain ⟨p', h', h1, _, _, h2, _⟩ := I.create_pool hb
  rw [hp] at h1
  cases h1
  exact h2

theorem Rep.copyInto_some (R : Rep ty r k W) {h ph h' : Handle} {q d' : Reg V} (hd : r.copyInto h q ph = .ok d' h') : ∃ d, W h = some d := by
  cases hw : W h with
  | some d => exact ⟨d, rfl⟩
  | none => rw [R.copyInto_none hw] at hd; cases hd

theorem Rep.moveInto_some (R : Rep ty r k W) {h ph h' : Handle} {q : Reg V} {rd : Reg V × Reg V} (hd : r.moveInto h q ph = .ok rd h') :
    ∃ d, W h = some d := by
  cases hw : W h with
  | some d => exact ⟨d, rfl⟩
  | none => rw [R.moveInto_none hw] at hd; cases hd

end

/-! ### What a step does to the location tables -/

/-- The entities of registry `i` are where they were. -/
def Stays (W : World V) (i : Nat) (r r' : Reg V) : Prop :=
  ∀ x d, W i x = some d → r'.locs.at_ x.id = r.locs.at_ x.id

theorem Stays.of_eq {W : World V} {i : Nat} {r r' : Reg V} (h : r'.locs = r.locs) : Stays W i r r' := fun _ _ _ => by rw [h]

/-- A new entity does not touch the others. -/
theorem stays_but {ty : Types} {s' : Sys V} {W W' : World V} (hs' : SysInv ty s' W') {r : Reg V} {i : Nat} {h : Handle} {d0 : Comps V}
    (hn : W i h = none) (h' : W' i h = some d0) (hk : ∀ x d, W i x = some d → x ≠ h → ∃ d', W' i x = some d')
    (hb : r.But (s'.reg i) h.id) : Stays W i r (s'.reg i) := by
  intro x d hx
  have hne : x ≠ h := by rintro rfl; rw [hn] at hx; cases hx
  obtain ⟨d', hx'⟩ := hk x d hx hne
  exact hb x.id fun e => hne (held_inj ((hs' i).rep.held hx') ((hs' i).rep.held h') e)

theorem id_bound {ty : Types} {s' : Sys V} {W' : World V} (hs' : SysInv ty s' W') {i : Nat} {h : Handle} {d0 : Comps V}
    (h' : W' i h = some d0) : h.id < U32 - 1 := by
  have := ((hs' i).rep.held h').lt
  have := (hs' i).rep.pool.gens_le
  have := (hs' i).rep.small
  omega

theorem upd_same {W : World V} {i : Nat} {h : Handle} {d : Option (Comps V)} : W.upd i h d i h = d := by simp [Spec.World.upd]

theorem upd_other {W : World V} {i j : Nat} {h x : Handle} {d : Option (Comps V)} (hx : ¬ (j = i ∧ x = h)) : W.upd i h d j x = W j x := by
  simp [Spec.World.upd, hx]

theorem setReg_same (s : Sys V) (i : Nat) (r : Reg V) : (s.setReg i r).reg i = r := by simp [Sys.setReg]
theorem setReg_other (s : Sys V) {i j : Nat} (h : j ≠ i) (r : Reg V) : (s.setReg i r).reg j = s.reg j := by simp [Sys.setReg, h]

/-- The result of one registry, from a step. -/
theorem step_on {ty : Types} {s s' : Sys V} {j : Nat} {op : RegOp V} {out : Out} (h : s.step ty (.on j op) = some (s', out)) :
    (∀ i, i ≠ j → s'.reg i = s.reg i) ∧
    ((∃ e, out = .throw e ∧ op.run ty (s.reg j) = .throw (s'.reg j) e) ∨ (∃ o, out = .ok o ∧ op.run ty (s.reg j) = .ok (s'.reg j) o)) := by
  have e0 : s.step ty (.on j op) = match op.run ty (s.reg j) with
      | .ub => none
      | .throw r e => some (s.setReg j r, .throw e)
      | .ok r h => some ((s.setReg j r).note j op h, .ok h) := rfl
  rw [e0] at h
  cases hx : op.run ty (s.reg j) with
  | ub => rw [hx] at h; cases h
  | throw r e =>
    rw [hx] at h; cases h
    exact ⟨fun i hi => setReg_other s hi r, .inl ⟨e, rfl, by rw [setReg_same]⟩⟩
  | ok r o =>
    rw [hx] at h; cases h
    rw [note_reg]
    exact ⟨fun i hi => setReg_other s hi r, .inr ⟨o, rfl, by rw [setReg_same]⟩⟩

/-- What a call does to places: all entities stay, or one leaves. -/
def Placed (W : World V) (op : SysOp V) (out : Out) (i : Nat) (r r' : Reg V) : Prop :=
  Stays W i r r' ∨ ((∃ o, out = .ok o) ∧ ∃ y, Leaves W op i y ∧ r.Moves r' y)

theorem noHandle_ok {σ α : Type} {x : Res σ α} {s : σ} {o : Option Handle} (h : noHandle x = .ok s o) : ∃ a, x = .ok s a := by
  cases x <;> simp [noHandle] at h
  exact ⟨_, by rw [h.1]⟩

theorem noHandle_throw {σ α : Type} {x : Res σ α} {s : σ} {e : Exn} (h : noHandle x = .throw s e) : x = .throw s e := by
  cases x <;> simp [noHandle] at h
  rw [h.1, h.2]

theorem withHandle_ok' {σ : Type} {x : Res σ Handle} {s : σ} {o : Option Handle} (h : withHandle x = .ok s o) : ∃ a, o = some a ∧ x = .ok s a := by
  cases x <;> simp [withHandle] at h
  exact ⟨_, h.2.symm, by rw [h.1]⟩

theorem withHandle_throw {σ : Type} {x : Res σ Handle} {s : σ} {e : Exn} (h : withHandle x = .throw s e) : x = .throw s e := by
  cases x <;> simp [withHandle] at h
  rw [h.1, h.2]

theorem clone_ok {ty : Types} {r r' : Reg V} {x : Handle} {ph : Option Handle} {o : Option Handle}
    (h : RegOp.run ty r (.clone x ph) = .ok r' o) :
    ∃ h', o = some h' ∧ (match ph with | none => r.clone x | some p => r.cloneInto x p) = .ok r' h' := by
  cases ph <;> exact withHandle_ok' h

/-- A call that throws leaves the location table as it was. -/
theorem run_throw_locs {ty : Types} {r r' : Reg V} {op : RegOp V} {e : Exn} (h : op.run ty r = .throw r' e) : r'.locs = r.locs := by
  cases op with
  | create args => exact create_throw (withHandle_throw h)
  | destroy x =>
    have h := noHandle_throw h
    unfold Reg.destroy at h
    split at h
    · cases h
    · cases h; rfl
    · split at h
      · cases h
      · split at h
        · cases h
        · split at h
          · cases h
          · split at h <;> cases h
  | set x c v =>
    have h := noHandle_throw h
    unfold Reg.set at h
    split at h
    · cases h
    · rename_i heq; cases h; exact setImpl_throw heq
    · split at h <;> cases h
  | remove x c =>
    have h := noHandle_throw h
    unfold Reg.remove at h
    split at h
    · cases h
    · cases h; rfl
    · split at h
      · cases h
      · split at h
        · split at h
          · cases h
          · cases h; rfl
          · split at h <;> cases h
        · cases h
  | assign x c v =>
    have h := noHandle_throw h
    unfold Reg.assign at h
    split at h
    · cases h
    · cases h; rfl
    · split at h
      · cases h
      · split at h
        · cases h
        · split at h
          · split at h <;> cases h
          · cases h; rfl
  | getOrInsert x c v =>
    have h := noHandle_throw h
    unfold Reg.getOrInsert at h
    split at h
    · cases h
    · rename_i heq; cases h; exact setImpl_throw heq
    · split at h
      · cases h
      · split at h <;> cases h
  | clone x ph =>
    cases ph with
    | none => exact clone_throw (withHandle_throw h)
    | some ph =>
      have h := withHandle_throw h
      rw [cloneInto_eq] at h
      exact copyInto_throw h
  | reserve =>
    have h := withHandle_throw h
    unfold Reg.reserve at h
    split at h <;> cases h
  | sync => cases h

theorem assign_locs {r r' : Reg V} {h : Handle} {c : Nat} {v : V} (hd : r.assign h c v = .ok r' ()) : r'.locs = r.locs := by
  unfold Reg.assign at hd
  split at hd
  · cases hd
  · cases hd
  · split at hd
    · cases hd
    · split at hd
      · cases hd
      · split at hd
        · split at hd
          · cases hd
          · rename_i hw; cases hd; exact writeAt_locs hw
        · cases hd

theorem reserve_locs {r r' : Reg V} {h : Handle} (hd : r.reserve = .ok r' h) : r'.locs = r.locs := by
  unfold Reg.reserve at hd
  split at hd <;> cases hd
  rfl

/-- The step of a history and the location tables. -/
theorem step_placed {ty : Types} {s s' : Sys V} {W : World V} (hs : SysInv ty s W) {op : SysOp V} (ha : s.Allowed op) {out : Out}
    (h : s.step ty op = some (s', out)) (i : Nat) : Placed W op out i (s.reg i) (s'.reg i) := by
  have hs' : SysInv ty s' (W.step op out) := by
    have := step_spec hs ha
    rw [h] at this
    exact this.1
  cases op with
  | on j op =>
    obtain ⟨h1, h2⟩ := step_on h
    by_cases hij : i = j
    · subst hij
      rcases h2 with ⟨e, rfl, h2⟩ | ⟨o, rfl, h2⟩
      · exact .inl (.of_eq (run_throw_locs h2))
      · cases op with
        | create args =>
          obtain ⟨h', rfl, h3⟩ := withHandle_ok' h2
          obtain ⟨p, hp⟩ := create_handle h3
          have hn := (ha.2.1 ▸ hs i : RInv ty _ 0 _ _).new_none ha.2.2 hp
          have e' : W.step (.on i (.create args)) (.ok (some h')) i h' = some (Spec.World.listed args) := upd_same
          exact .inl (stays_but hs' hn e' (fun x d hx hne => ⟨d, by simp only [Spec.World.step]; rw [upd_other (fun e => hne e.2)]; exact hx⟩)
            (create_but (hs i).rep.locsOk (id_bound hs' e') h3))
        | destroy x =>
          obtain ⟨_, h3⟩ := noHandle_ok h2
          exact .inr ⟨⟨_, rfl⟩, x, ⟨rfl, rfl⟩, destroy_moves (hs i).rep h3⟩
        | set x c v =>
          obtain ⟨_, h3⟩ := noHandle_ok h2
          rcases set_moves (hs i).rep h3 with h4 | ⟨h4, h5⟩
          · exact .inl (.of_eq h4.1)
          · exact .inr ⟨⟨_, rfl⟩, x, ⟨rfl, rfl, h5⟩, h4⟩
        | remove x c =>
          obtain ⟨_, h3⟩ := noHandle_ok h2
          rcases remove_moves (hs i).rep h3 with h4 | ⟨h4, h5⟩
          · exact .inl (.of_eq (by rw [h4.1]))
          · exact .inr ⟨⟨_, rfl⟩, x, ⟨rfl, rfl, h5⟩, h4⟩
        | assign x c v =>
          obtain ⟨_, h3⟩ := noHandle_ok h2
          exact .inl (.of_eq (assign_locs h3))
        | getOrInsert x c v =>
          obtain ⟨_, h3⟩ := noHandle_ok h2
          rcases getOrInsert_moves (hs i).rep h3 with h4 | ⟨h4, h5⟩
          · exact .inl (.of_eq h4.1)
          · exact .inr ⟨⟨_, rfl⟩, x, ⟨rfl, rfl, h5⟩, h4⟩
        | clone x ph =>
          obtain ⟨h', rfl, h3⟩ := clone_ok h2
          have keep : ∀ y d, W i y = some d → y ≠ h' → ∃ d', W.step (.on i (.clone x ph)) (.ok (some h')) i y = some d' :=
            fun y d hy hne => ⟨d, by simp only [Spec.World.step]; rw [upd_other (fun e => hne e.2)]; exact hy⟩
          have e' : W.step (.on i (.clone x ph)) (.ok (some h')) i h' = W i x := upd_same
          cases ph with
          | none =>
            obtain ⟨p, hp, h4⟩ := clone_parts h3
            have I0 : RInv ty (s.reg i) 0 _ _ := ha.1 ▸ hs i
            have hn := I0.new_none ha.2 hp
            obtain ⟨p1, h1', e1, I1, _⟩ := I0.create_pool ha.2
            rw [hp] at e1; cases e1
            obtain ⟨d, hd⟩ := I1.rep.copyInto_some h4
            rw [hd] at e'
            exact .inl (stays_but hs' hn e' keep (clone_but (hs i).rep.locsOk (id_bound hs' e') h3))
          | some ph =>
            have h4 : (s.reg i).cloneInto x ph = _ := h3
            rw [cloneInto_eq] at h4
            have := copyInto_handle h4
            subst this
            have hn := ((hs i).res _ ha.2).2
            obtain ⟨d, hd⟩ := (hs i).rep.copyInto_some h4
            rw [hd] at e'
            exact .inl (stays_but hs' hn e' keep (copyInto_but (hs i).rep.locsOk (id_bound hs' e') h4))
        | reserve =>
          obtain ⟨h', rfl, h3⟩ := withHandle_ok' h2
          exact .inl (.of_eq (reserve_locs h3))
        | sync =>
          have h3 : Res.ok (s.reg i).sync none = .ok (s'.reg i) o := h2
          injection h3 with h4 h5
          rw [← h4]
          exact .inl (.of_eq rfl)
    · rw [h1 i hij]; exact .inl (.of_eq rfl)
  | copy j x k ph =>
    have fin : ∀ y : Res (Reg V) Handle, (match y with
        | .ub => none
        | .throw d e => some (s.setReg k d, Out.throw e)
        | .ok d h' => some ((s.setReg k d).use k ph, .ok (some h'))) = some (s', out) →
        (∀ d e, y = .throw d e → d.locs = (s.reg k).locs) →
        (∀ d h', y = .ok d h' → W k h' = none ∧ (∃ dx, W j x = some dx) ∧ (h'.id < U32 - 1 → (s.reg k).But d h'.id)) →
        Placed W (.copy j x k ph) out i (s.reg i) (s'.reg i) := by
      intro y hy h1 h2
      cases y with
      | ub => cases hy
      | throw d e =>
        cases hy
        left
        by_cases hik : i = k
        · subst hik; rw [setReg_same]; exact .of_eq (h1 d e rfl)
        · rw [setReg_other s hik]; exact .of_eq rfl
      | ok d h' =>
        cases hy
        left
        obtain ⟨q1, ⟨dx, q2⟩, q3⟩ := h2 d h' rfl
        by_cases hik : i = k
        · subst hik
          have e' : W.step (.copy j x i ph) (.ok (some h')) i h' = some dx := by simp only [Spec.World.step]; rw [upd_same, q2]
          refine stays_but hs' q1 e' (fun z d hz hne => ⟨d, by simp only [Spec.World.step]; rw [upd_other (fun e => hne e.2)]; exact hz⟩) ?_
          rw [use_reg, setReg_same]
          exact q3 (id_bound hs' e')
        · rw [use_reg, setReg_other s hik]; exact .of_eq rfl
    cases ph with
    | none =>
      refine fin _ h (fun d e he => copyTo_throw he) fun d h' he => ?_
      obtain ⟨p, hp, h4⟩ := copyTo_parts he
      have I0 : RInv ty (s.reg k) 0 _ _ := ha.2.1 ▸ hs k
      exact ⟨I0.new_none ha.2.2 hp, (hs j).rep.copyInto_some h4, fun hb => copyTo_but (hs k).rep.locsOk hb he⟩
    | some p =>
      refine fin _ h (fun d e he => copyInto_throw he) fun d h' he => ?_
      have := copyInto_handle he
      subst this
      exact ⟨((hs k).res _ ha.2.2).2, (hs j).rep.copyInto_some he, fun hb => copyInto_but (hs k).rep.locsOk hb he⟩
  | move j x k ph =>
    have hjk : j ≠ k := by
      cases ph with
      | none => exact ha.1
      | some p => exact ha.1
    have fin : ∀ y : Res (Reg V × Reg V) Handle, (match y with
        | .ub => none
        | .throw (r, d) e => some ((s.setReg j r).setReg k d, Out.throw e)
        | .ok (r, d) h' => some (((s.setReg j r).setReg k d).use k ph, .ok (some h'))) = some (s', out) →
        (∀ r d e, y = .throw (r, d) e → r.locs = (s.reg j).locs ∧ d.locs = (s.reg k).locs) →
        (∀ r d h', y = .ok (r, d) h' → W k h' = none ∧ (∃ dx, W j x = some dx) ∧
          (h'.id < U32 - 1 → (s.reg j).Moves r x ∧ (s.reg k).But d h'.id)) →
        Placed W (.move j x k ph) out i (s.reg i) (s'.reg i) := by
      intro y hy h1 h2
      cases y with
      | ub => cases hy
      | throw rd e =>
        obtain ⟨r, d⟩ := rd
        cases hy
        left
        by_cases hik : i = k
        · subst hik; rw [setReg_same]; exact .of_eq (h1 r d e rfl).2
        · rw [setReg_other _ hik]
          by_cases hij : i = j
          · subst hij; rw [setReg_same]; exact .of_eq (h1 r d e rfl).1
          · rw [setReg_other _ hij]; exact .of_eq rfl
      | ok rd h' =>
        obtain ⟨r, d⟩ := rd
        cases hy
        obtain ⟨q1, ⟨dx, q2⟩, q3⟩ := h2 r d h' rfl
        have e' : W.step (.move j x k ph) (.ok (some h')) k h' = some dx := by
          simp only [Spec.World.step]
          rw [upd_other (fun e => hjk e.1.symm), upd_same, q2]
        have q3 := q3 (id_bound hs' e')
        by_cases hik : i = k
        · subst hik
          left
          refine stays_but hs' q1 e' (fun z d hz hne => ⟨d, ?_⟩) ?_
          · simp only [Spec.World.step]
            rw [upd_other (fun e => hjk e.1.symm), upd_other (fun e => hne e.2)]; exact hz
          · rw [use_reg, setReg_same]
            exact q3.2
        · rw [use_reg, setReg_other _ hik]
          by_cases hij : i = j
          · subst hij
            rw [setReg_same]
            exact .inr ⟨⟨_, rfl⟩, x, ⟨rfl, rfl⟩, q3.1⟩
          · rw [setReg_other _ hij]; exact .inl (.of_eq rfl)
    cases ph with
    | none =>
      refine fin _ h (fun r d e he => moveTo_throw he) fun r d h' he => ?_
      obtain ⟨p, hp, h4⟩ := moveTo_parts he
      have I0 : RInv ty (s.reg k) 0 _ _ := ha.2.2.1 ▸ hs k
      exact ⟨I0.new_none ha.2.2.2 hp, (hs j).rep.moveInto_some h4, fun hb => moveTo_moves (hs j).rep (hs k).rep.locsOk hb he⟩
    | some p =>
      refine fin _ h (fun r d e he => moveInto_throw he) fun r d h' he => ?_
      have := moveInto_handle he
      subst this
      exact ⟨((hs k).res _ ha.2.2.2).2, (hs j).rep.moveInto_some he, fun hb => moveInto_moves (hs j).rep (hs k).rep.locsOk hb he⟩

end CoEcs
