import Verif.Proofs.Callback
import Verif.Props.View
import Verif.Props.RegistryObservers

/-!
# Functions of the user that throw (C101)
-/

namespace CoEcs.Props
open CoEcs Spec

variable {V : Type} {ty : Types} {s : Sys V} {W : Spec.World V}

/-- **C101** (`each`; partial, as it says nothing about `visit`): in every reachable state in which iteration is
defined, `each` with a function that may throw calls the function for different matching entities, with what
they held, up to and including the first call that throws.  If there is such a call its exception reaches
the caller, otherwise all matching entities have been visited and `each` returns.  In both cases every
component that was written holds what was written to it last, everything else is as it was, and the
registry is one that could have been reached by single assignments. -/
theorem C101_each_partial (hr : Reachable ty s W) (i : Nat) (args : List BlockId) (f : List (Val V) → Beh V)
    (hin : ∀ t, ∀ w ∈ (f t).writes, some w.1 ∈ args) :
    ((s.reg i).eachTry args f = .ub ∧ (s.reg i).viewChunks args = none) ∨
    ∃ (r' : Reg V) (calls : List (List (Val V))) (hs : List Handle), hs.Nodup ∧
      (∀ h ∈ hs, (s.reg i).has h (compsOf args) = .ok true) ∧ hs.map (callOf (s.reg i) args) = calls.map some ∧
      (((s.reg i).eachTry args f = .returned r' calls ∧ (∀ h, (s.reg i).has h (compsOf args) = .ok true → h ∈ hs) ∧
          ∀ t ∈ calls, (f t).throws = false) ∨
        ((s.reg i).eachTry args f = .threw r' calls .user ∧
          ∃ before t, calls = before ++ [t] ∧ (f t).throws = true ∧ ∀ t ∈ before, (f t).throws = false)) ∧
      (∀ h ∈ hs, ∀ t, callOf (s.reg i) args h = some t → ∀ c,
        (∀ v, lastWrite (f t).writes c = some v → r'.get h c = .ok v) ∧
        (lastWrite (f t).writes c = none → r'.get h c = (s.reg i).get h c)) ∧
      (∀ h, h ∉ hs → Same (s.reg i) r' h) ∧ (∀ h cs, r'.has h cs = (s.reg i).has h cs) ∧
      (∀ h, r'.alive h = (s.reg i).alive h) ∧ r'.size = (s.reg i).size ∧ ∃ W', Reachable ty (s.setReg i r') W' := by
  have R := (hr.inv i).rep
  by_cases hn : NoNull (s.reg i).archs
  rotate_left
  · exact .inl ⟨by simp [Reg.eachTry, R.view_null hn args], R.view_null hn args⟩
  obtain ⟨r', ts, hs, h1, h2, h3, h4, R', h6, h7⟩ := R.eachTry hn args f hin
  have hal : ∀ h, r'.alive h = (s.reg i).alive h := fun h => by unfold Reg.alive; rw [h6]
  have hcall : ∀ d h, Matches args d → ∃ t, tupleOf h d args = some t ∧ acted args f h d = overwrite (f t).writes d := by
    intro d h hm
    obtain ⟨t, ht⟩ := hm.tuple (h := h)
    exact ⟨t, ht, by simp [acted, ht]⟩
  refine .inr ⟨r', ts, hs, h1, fun h hh => (R.matches_iff h args).2 (h2 h hh), ?_, ?_, ?_, ?_, ?_, hal, ?_, ?_⟩
  · rw [← h4]
    apply List.map_congr_left
    intro h hh
    obtain ⟨d, hd, _⟩ := h2 h hh
    rw [R.callOf hd, hd]; rfl
  · rcases h3 with ⟨e1, e2, e3⟩ | e
    · refine .inl ⟨e1, fun h hm => ?_, e3⟩
      obtain ⟨d, hd, hmt⟩ := (R.matches_iff h args).1 hm
      exact e2 h d hd hmt
    · exact .inr e
  · intro h hh t hc c
    obtain ⟨d, hd, hmt⟩ := h2 h hh
    rw [R.callOf hd] at hc
    obtain ⟨t', e1, e2⟩ := hcall d h hmt
    rw [hc] at e1; cases e1
    have hW : (fun h => if h ∈ hs then (W i h).map (acted args f h) else W i h) h = some (overwrite (f t).writes d) := by
      simp only [if_pos hh, hd, Option.map_some, e2]
    refine ⟨fun v hv => R'.get_some hW (by simp [overwrite, hv]), fun hv => ?_⟩
    rw [R.get_eq, R'.get_eq]
    simp only [if_pos hh, hd, Option.map_some, e2, overwrite, hv, Option.none_or]
  · intro h hn'
    exact R.same R' (by simp [hn']) (hal h)
  · intro h cs
    rw [R.has_eq, R'.has_eq]
    by_cases hh : h ∈ hs
    · obtain ⟨d, hd, hmt⟩ := h2 h hh
      obtain ⟨t, _, e2⟩ := hcall d h hmt
      simp only [if_pos hh, hd, Option.map_some, e2]
      congr 2
      funext c
      simp only [overwrite]
      cases hl : lastWrite (f t).writes c with
      | none => rfl
      | some v =>
        have : some c ∈ args := by
          unfold lastWrite at hl
          cases hf : (f t).writes.reverse.find? fun w => w.1 = c with
          | none => rw [hf] at hl; cases hl
          | some w =>
            have e1 := List.find?_some hf
            have e2 := List.mem_of_find?_eq_some hf
            simp only [decide_eq_true_eq] at e1
            rw [← e1]
            exact hin t w (by simpa using e2)
        obtain ⟨v', hv'⟩ := hmt c this
        simp [hv']
    · simp only [if_neg hh, hal]
  · refine R.size_dom R' (fun h => ?_)
    split
    · cases W i h <;> simp
    · rfl
  · exact Reach.assigns (fun _ _ _ _ _ _ => trivial) h7 hr rfl

/-- **C101** (`visit`; partial: no call throws): the function is called exactly once for every component, with
its value; components it writes hold what it wrote, everything else is as it was. -/
theorem C101_visit_partial (hr : Reachable ty s W) {i : Nat} {h : Handle} (he : (s.reg i).has h [] = .ok true)
    (f : Nat → V → Option V × Bool) (hno : ∀ c v, (s.reg i).get h c = .ok v → (f c v).2 = false) :
    ∃ (r' : Reg V) (calls : List (Nat × V)), (s.reg i).visitTry h f = .returned r' calls ∧ (calls.map Prod.fst).Nodup ∧
      (∀ c v, (c, v) ∈ calls ↔ (s.reg i).get h c = .ok v) ∧
      (∀ c v w, (s.reg i).get h c = .ok v → (f c v).1 = some w → r'.get h c = .ok w) ∧
      (∀ c v, (s.reg i).get h c = .ok v → (f c v).1 = none → r'.get h c = .ok v) ∧
      (∀ cs, r'.has h cs = (s.reg i).has h cs) ∧ (∀ h', h' ≠ h → Same (s.reg i) r' h') ∧
      (∀ h', r'.alive h' = (s.reg i).alive h') ∧ r'.size = (s.reg i).size ∧ ∃ W', Reachable ty (s.setReg i r') W' := by
  have R := (hr.inv i).rep
  obtain ⟨d, hw⟩ := R.entity_some he
  have hget : ∀ c v, (s.reg i).get h c = .ok v ↔ d c = some v := by
    intro c v
    rw [R.get_iff]
    exact ⟨fun ⟨d', e1, e2⟩ => by rw [hw] at e1; cases e1; exact e2, fun e => ⟨d, hw, e⟩⟩
  obtain ⟨r', calls, e1, e2, e3, e4, R', e7⟩ := (R.visitTry hw f).2 (fun c v hv => hno c v ((hget c v).2 hv))
  have hal : ∀ h, r'.alive h = (s.reg i).alive h := fun h => by unfold Reg.alive; rw [e4]
  refine ⟨r', calls, e1, e2, fun c v => by rw [e3, hget], ?_, ?_, ?_, ?_, hal, ?_, ?_⟩
  · intro c v w hv hf
    exact R'.get_some put_self (by simp [(hget c v).1 hv, hf])
  · intro c v hv hf
    exact R'.get_some put_self (by simp [(hget c v).1 hv, hf])
  · intro cs
    rw [R.has_some hw, R'.has_some put_self]
    congr 2
    funext c
    cases d c <;> rfl
  · intro h' hne
    exact R.same R' (by simp [World.put, hne]) (hal h')
  · refine R.size_dom R' (fun h' => ?_)
    by_cases hh : h' = h
    · subst hh; simp [World.put, hw]
    · simp [World.put, hh]
  · exact Reach.assigns (fun _ _ _ _ _ _ => trivial) e7 hr rfl

/-- **C101 is violated** by `visit`, in every reachable state and for every function that throws for some
component of the entity: the program is terminated instead. -/
theorem C101_visit_violated (hr : Reachable ty s W) {i : Nat} {h : Handle} (he : (s.reg i).has h [] = .ok true)
    (f : Nat → V → Option V × Bool) {c : Nat} {v : V} (hv : (s.reg i).get h c = .ok v) (ht : (f c v).2 = true) :
    ∃ calls, (s.reg i).visitTry h f = .terminated calls := by
  have R := (hr.inv i).rep
  obtain ⟨d, hw⟩ := R.entity_some he
  obtain ⟨d', e1, e2⟩ := (R.get_iff h c v).1 hv
  rw [hw] at e1; cases e1
  exact (R.visitTry hw f).1 ⟨c, v, e2, ht⟩

/-- A dead handle given to `visit` is reported before the function is called, whatever the function is. -/
theorem C101_visit_dead (hr : Reachable ty s W) {i : Nat} {h : Handle} (hd : (s.reg i).alive h = false)
    (f : Nat → V → Option V × Bool) : (s.reg i).visitTry h f = .threw (s.reg i) [] .entityNotFound := by
  have R := (hr.inv i).rep
  have hw : W i h = none := by
    cases hw : W i h with
    | none => rfl
    | some d => rw [R.alive hw] at hd; cases hd
  unfold Reg.visitTry
  rw [R.location_none hw, hd]
  rfl

/-- **C49 is violated** by `archetype()` of references too: for every dead handle the program is terminated,
where the other accesses throw `entity_not_found`. -/
theorem C49_ref_archetype_terminates_violated (hr : Reachable ty s W) {i : Nat} {h : Handle} (hd : (s.reg i).alive h = false) :
    (s.reg i).refArchetype h = .terminated [] := by
  have R := (hr.inv i).rep
  have hw : W i h = none := by
    cases hw : W i h with
    | none => rfl
    | some d => rw [R.alive hw] at hd; cases hd
  unfold Reg.refArchetype
  rw [R.location_none hw]

/-- **C49** (archetype): for an entity the archetype lists exactly the components `has` reports, each once, and
the registry is as it was. -/
theorem C49_ref_archetype_agrees (hr : Reachable ty s W) {i : Nat} {h : Handle} (he : (s.reg i).has h [] = .ok true) :
    ∃ cs, (s.reg i).refArchetype h = .returned (s.reg i) [cs] ∧ cs.Nodup ∧ ∀ c, c ∈ cs ↔ (s.reg i).has h [c] = .ok true := by
  have R := (hr.inv i).rep
  obtain ⟨d, hw⟩ := R.entity_some he
  obtain ⟨l, ai, a, c, row, t⟩ := R.at_ hw
  obtain ⟨d1, d2, d3⟩ := Row.decode_some t.decode t.rowOk
  refine ⟨a.comps.metas.map CompMeta.id, ?_, t.ok.inv.nodup, fun c => ?_⟩
  · unfold Reg.refArchetype
    simp only [t.loc, t.archOf]
  · rw [R.has_some hw, ← a.some_mem_blocks]
    simp only [List.all_cons, List.all_nil, Bool.and_true, Obs.ok.injEq]
    constructor
    · intro hb
      obtain ⟨v, hv, _⟩ := d2 c hb
      simp [hv]
    · intro hs
      apply Classical.byContradiction
      intro hb
      rw [d3 c hb] at hs; cases hs

/-! ### The hypotheses can be met -/

/-- Doubles component 0 in two steps, but throws after the first for the value 20. -/
def throwsAt20 : List (Val Nat) → Beh Nat
  | [_, .comp v] => if v = 20 then ⟨[(0, 0)], true⟩ else ⟨[(0, 0), (0, 2 * v)], false⟩
  | _ => ⟨[], false⟩

theorem throwsAt20_in (t : List (Val Nat)) : ∀ w ∈ (throwsAt20 t).writes, some w.1 ∈ [none, some 0] := by
  unfold throwsAt20
  split
  · split <;> simp
  · simp

/-- There are entities with component 0 for which it throws and others for which it does not, and the
exception leaves the iteration. -/
example : (match (fitSys.reg 0).eachTry [none, some 0] throwsAt20 with
    | .threw r' calls .user => (r'.get ⟨1, 0⟩ 0, (fitSys.reg 0).get ⟨1, 0⟩ 0, decide (1 ≤ calls.length))
    | _ => (.ub, .ub, false)) = (.ok 0, .ok 20, true) := by decide +kernel

/-- A visit that writes to every component without throwing, and one that throws for component 2. -/
example : (sampleSys.reg 0).has ⟨0, 0⟩ [] = .ok true ∧
    (match (sampleSys.reg 0).visitTry ⟨0, 0⟩ (fun _ v => (some (v + 1), false)) with
      | .returned r' calls => (calls.length, decide (r'.get ⟨0, 0⟩ 0 ≠ (sampleSys.reg 0).get ⟨0, 0⟩ 0))
      | _ => (0, false)) = (3, true) ∧
    (match (sampleSys.reg 0).visitTry ⟨0, 0⟩ (fun c _ => (none, c == 2)) with
      | .terminated _ => true
      | _ => false) = true := by decide +kernel

example : (sampleSys.reg 0).alive ⟨2, 0⟩ = false := by decide +kernel

end CoEcs.Props
