import Verif.Model.Destructors
import Verif.Proofs.History

/-!
# Calls do not depend on the contents of archetypes they do not touch
-/

namespace CoEcs
open Spec (RegOp Out noHandle withHandle)
variable {V : Type}

/-- Other contents for some archetypes. -/
abbrev Instead (V : Type) := Nat → Option (Arch V)

def Archs.over (s : Archs V) (X : Instead V) : Archs V := { s with arches := s.arches.mapIdx fun i a => (X i).getD a }

def Reg.over (r : Reg V) (X : Instead V) : Reg V := { r with archs := r.archs.over X }

/-- The replaced archetypes exist and have the same component types. -/
def Fits (X : Instead V) (as : List (Arch V)) : Prop := ∀ (j : Nat) (x : Arch V), X j = some x → ∃ a, as[j]? = some a ∧ x.comps = a.comps

def mapRes {σ α : Type} (f : σ → σ) : Res σ α → Res σ α
  | .ok s a => .ok (f s) a
  | .throw s e => .throw (f s) e
  | .ub => .ub

theorem Fits.lt {X : Instead V} {as : List (Arch V)} (h : Fits X as) {j : Nat} (hj : as.length ≤ j) : X j = none := by
  cases hx : X j with
  | none => rfl
  | some x =>
    obtain ⟨a, h1, _⟩ := h j x hx
    have := (List.getElem?_eq_some_iff.1 h1).1
    omega

theorem over_none (r : Reg V) : r.over (fun _ => none) = r := by
  unfold Reg.over Archs.over
  have e : (r.archs.arches.mapIdx fun _ a => a) = r.archs.arches := by
    apply List.ext_getElem? ; intro k; simp
  simp only [Option.getD_none, e]

theorem over_pool (r : Reg V) (X : Instead V) : (r.over X).pool = r.pool := rfl
theorem over_locs (r : Reg V) (X : Instead V) : (r.over X).locs = r.locs := rfl
theorem over_archs (r : Reg V) (X : Instead V) : (r.over X).archs = r.archs.over X := rfl
theorem over_map (s : Archs V) (X : Instead V) : (s.over X).map = s.map := rfl
theorem over_search (s : Archs V) (X : Instead V) : (s.over X).search = s.search := rfl

theorem over_get (s : Archs V) (X : Instead V) (j : Nat) : (s.over X).arches[j]? = (s.arches[j]?).map fun a => (X j).getD a := by
  unfold Archs.over
  simp

theorem over_get_none {s : Archs V} {X : Instead V} {j : Nat} (h : X j = none) : (s.over X).arches[j]? = s.arches[j]? := by
  rw [over_get, h]; simp

theorem over_get_some {s : Archs V} {X : Instead V} {j : Nat} {x : Arch V} (hf : Fits X s.arches) (h : X j = some x) :
    (s.over X).arches[j]? = some x := by
  obtain ⟨a, h1, _⟩ := hf j x h
  rw [over_get, h, h1]; rfl

theorem over_length (s : Archs V) (X : Instead V) : (s.over X).arches.length = s.arches.length := by
  unfold Archs.over; simp

theorem over_comps {s : Archs V} {X : Instead V} (hf : Fits X s.arches) (j : Nat) :
    ((s.over X).arches[j]?).map Arch.comps = (s.arches[j]?).map Arch.comps := by
  cases h : X j with
  | none => rw [over_get_none h]
  | some x =>
    obtain ⟨a, h1, h2⟩ := hf j x h
    rw [over_get_some hf h, h1]; simp [h2]

theorem over_setArch {r : Reg V} {X : Instead V} {j : Nat} (h : X j = none) (a : Arch V) :
    (r.over X).setArch j a = (r.setArch j a).over X := by
  unfold Reg.setArch Reg.over Archs.over
  simp only [Reg.mk.injEq, Archs.mk.injEq, true_and, and_true]
  apply List.ext_getElem?
  intro k
  rw [List.getElem?_set]
  by_cases hk : j = k
  · subst hk
    simp [List.getElem?_set, h]
  · simp [hk, List.getElem?_set]

theorem over_location (r : Reg V) (X : Instead V) (h : Handle) : (r.over X).location h = r.location h := rfl

theorem over_setLoc (r : Reg V) (X : Instead V) (id : Nat) (l : Loc) : (r.over X).setLoc id l = (r.setLoc id l).map (·.over X) := by
  unfold Reg.setLoc
  show (match r.locs.assign 32 id Loc.null l with
    | .ok t _ => some { r.over X with locs := t }
    | _ => none) = _
  split <;> simp_all [Reg.over]

theorem over_removeLoc (r : Reg V) (X : Instead V) (id : Nat) : (r.over X).removeLoc id = (r.removeLoc id).map (·.over X) := by
  unfold Reg.removeLoc
  show (match r.locs.erase id with
    | .ok t _ => some { r.over X with locs := t }
    | _ => none) = _
  split <;> simp_all [Reg.over]

theorem over_setMoved (r : Reg V) (X : Instead V) (m : Option Handle) (l : Loc) :
    (r.over X).setMoved m l = (r.setMoved m l).map (·.over X) := by
  cases m with
  | none => rfl
  | some m => exact over_setLoc r X m.id l

theorem setLoc_archs {r r' : Reg V} {id : Nat} {l : Loc} (h : r.setLoc id l = some r') : r'.archs = r.archs := by
  unfold Reg.setLoc at h
  split at h
  · cases h; rfl
  · cases h

theorem removeLoc_archs {r r' : Reg V} {id : Nat} (h : r.removeLoc id = some r') : r'.archs = r.archs := by
  unfold Reg.removeLoc at h
  split at h
  · cases h; rfl
  · cases h

theorem setMoved_archs {r r' : Reg V} {m : Option Handle} {l : Loc} (h : r.setMoved m l = some r') : r'.archs = r.archs := by
  cases m with
  | none => cases h; rfl
  | some m => exact setLoc_archs h

/-! ### Looking for an archetype -/

theorem ensureKey_over {s : Archs V} {X : Instead V} (hX : ∀ j, s.arches.length ≤ j → X j = none) (key : Bitset) (comps : MetaSet) :
    (s.over X).ensureKey key comps = mapRes (·.over X) (s.ensureKey key comps) := by
  unfold Archs.ensureKey
  rw [over_map]
  cases s.map.index setHash (Archs.fuel s.map) key none with
  | ok x =>
    obtain ⟨m, i⟩ := x
    simp only
    cases m.deref i with
    | ok e =>
      simp only
      cases e.val with
      | some a => rfl
      | none =>
        simp only
        cases Arch.mk? (V := V) comps with
        | none => rfl
        | some a =>
          simp only [mapRes, over_length]
          simp only [Archs.over, Res.ok.injEq, Archs.mk.injEq, and_true, true_and]
          rw [List.mapIdx_append]
          simp [hX]
    | _ => rfl
  | _ => rfl

theorem ensure_over {s : Archs V} {X : Instead V} (hX : ∀ j, s.arches.length ≤ j → X j = none) (cs : List CompMeta) :
    (s.over X).ensure cs = mapRes (·.over X) (s.ensure cs) := by
  unfold Archs.ensure
  exact ensureKey_over (s := { s with search := cs.foldl (fun b m => b.set m.id true) s.search.clear }) hX _ _

theorem ensureSet_over {s : Archs V} {X : Instead V} (hX : ∀ j, s.arches.length ≤ j → X j = none) (c : MetaSet) :
    (s.over X).ensureSet c = mapRes (·.over X) (s.ensureSet c) := ensureKey_over hX _ _

theorem ensureAdded_over {s : Archs V} {X : Instead V} (hf : Fits X s.arches) (i : Nat) (m : CompMeta) :
    (s.over X).ensureAdded i m = mapRes (·.over X) (s.ensureAdded i m) := by
  unfold Archs.ensureAdded
  have hc := over_comps hf i
  cases h : s.arches[i]? with
  | none =>
    rw [h] at hc
    cases h2 : (s.over X).arches[i]? with
    | none => rfl
    | some b => rw [h2] at hc; cases hc
  | some a =>
    rw [h] at hc
    cases h2 : (s.over X).arches[i]? with
    | none => rw [h2] at hc; cases hc
    | some b =>
      rw [h2] at hc
      simp only [Option.map_some, Option.some.injEq] at hc
      simp only [hc]
      exact ensureKey_over (s := { s with search := a.comps.set.set m.id true }) (fun j hj => hf.lt hj) _ _

theorem ensureRemoved_over {s : Archs V} {X : Instead V} (hf : Fits X s.arches) (i : Nat) (m : CompMeta) :
    (s.over X).ensureRemoved i m = mapRes (·.over X) (s.ensureRemoved i m) := by
  unfold Archs.ensureRemoved
  have hc := over_comps hf i
  cases h : s.arches[i]? with
  | none =>
    rw [h] at hc
    cases h2 : (s.over X).arches[i]? with
    | none => rfl
    | some b => rw [h2] at hc; cases hc
  | some a =>
    rw [h] at hc
    cases h2 : (s.over X).arches[i]? with
    | none => rw [h2] at hc; cases hc
    | some b =>
      rw [h2] at hc
      simp only [Option.map_some, Option.some.injEq] at hc
      simp only [hc]
      exact ensureKey_over (s := { s with search := a.comps.set.set m.id false }) (fun j hj => hf.lt hj) _ _

/-! ### The operations -/

theorem over_archOf {r : Reg V} {X : Instead V} {l : Loc} (h : ∀ i, l.arch = some i → X i = none) :
    (r.over X).archOf l = r.archOf l := by
  unfold Reg.archOf
  cases hl : l.arch with
  | none => rfl
  | some i =>
    simp only
    rw [over_archs, over_get_none (h i hl)]

/-- The location of a handle, if any, is not in a replaced archetype. -/
def Elsewhere (X : Instead V) (r : Reg V) (h : Handle) : Prop := ∀ l i, r.location h = .ok l → l.arch = some i → X i = none

theorem create_over {ty : Types} {r : Reg V} {X : Instead V} (hf : Fits X r.archs.arches) {args : List (Nat × V)}
    (hX : ∀ s ai, r.archs.ensure (args.map fun x => ty.info x.1) = .ok s ai → X ai = none) :
    (r.over X).create ty args = mapRes (·.over X) (r.create ty args) := by
  unfold Reg.create
  rw [over_pool]
  cases r.pool.create with
  | none => rfl
  | some x =>
    obtain ⟨p, h⟩ := x
    simp only
    rw [over_archs]
    rw [ensure_over (fun j hj => hf.lt hj)]
    cases he : r.archs.ensure (args.map fun x => ty.info x.1) with
    | ub => rfl
    | throw s e => rfl
    | ok s ai =>
      have hn := hX s ai he
      simp only [mapRes]
      rw [over_get_none hn]
      cases s.arches[ai]? with
      | none => rfl
      | some a =>
        simp only
        cases a.emplace h args with
        | ub => rfl
        | throw a' e =>
          simp only [mapRes]
          rw [← over_setArch hn]; rfl
        | ok a' q =>
          obtain ⟨ci, idx⟩ := q
          simp only
          have e1 : (({ r.over X with pool := p, archs := s.over X } : Reg V).setArch ai a')
              = (({ r with pool := p, archs := s } : Reg V).setArch ai a').over X := over_setArch (r := { r with pool := p, archs := s }) hn a'
          rw [e1, over_setLoc]
          cases (({ r with pool := p, archs := s } : Reg V).setArch ai a').setLoc h.id ⟨some ai, ci, idx⟩ <;> rfl

theorem destroy_over {r : Reg V} {X : Instead V} {h : Handle} (hX : Elsewhere X r h) :
    (r.over X).destroy h = mapRes (·.over X) (r.destroy h) := by
  unfold Reg.destroy
  rw [over_location]
  cases hl : r.location h with
  | ub => rfl
  | throw e => rfl
  | ok l =>
    simp only
    rw [over_archOf (hX l · hl)]
    cases ha : r.archOf l with
    | none => rfl
    | some x =>
      obtain ⟨ai, a⟩ := x
      have hn : X ai = none := by
        unfold Reg.archOf at ha
        split at ha
        · cases ha
        · rename_i i hi
          split at ha
          · cases ha
          · cases ha; exact hX l _ hl hi
      simp only
      cases a.swapErase l.chunk l.entry with
      | none => rfl
      | some y =>
        obtain ⟨a', moved⟩ := y
        simp only
        rw [over_setArch hn, over_removeLoc]
        cases (r.setArch ai a').removeLoc h.id with
        | none => rfl
        | some r1 =>
          simp only [Option.map_some]
          rw [over_setMoved]
          cases r1.setMoved moved l <;> rfl

theorem relocate_over {r : Reg V} {X : Instead V} {h : Handle} {l : Loc} {ai ni : Nat} (ha : X ai = none) (hn : X ni = none) :
    (r.over X).relocate h l ai ni = (r.relocate h l ai ni).map fun x => (x.1.over X, x.2) := by
  unfold Reg.relocate
  rw [over_archs]
  rw [over_get_none ha, over_get_none hn]
  cases r.archs.arches[ai]? with
  | none => rfl
  | some a =>
    cases r.archs.arches[ni]? with
    | none => rfl
    | some n =>
      simp only
      split
      · rfl
      · cases a.move l.chunk l.entry n with
        | none => rfl
        | some y =>
          obtain ⟨a', n', ⟨ci, idx⟩, moved⟩ := y
          simp only
          rw [over_setArch ha, over_setArch hn, over_setMoved]
          cases ((r.setArch ai a').setArch ni n').setMoved moved l with
          | none => rfl
          | some r1 =>
            simp only [Option.map_some]
            rw [over_setLoc]
            cases r1.setLoc h.id ⟨some ni, ci, idx⟩ <;> rfl

theorem archOf_some {r : Reg V} {l : Loc} {ai : Nat} {a : Arch V} (h : r.archOf l = some (ai, a)) :
    l.arch = some ai ∧ r.archs.arches[ai]? = some a := by
  unfold Reg.archOf at h
  split at h
  · cases h
  · rename_i i hi
    split at h
    · cases h
    · rename_i a' ha'
      cases h; exact ⟨hi, ha'⟩

theorem setImpl_over {ty : Types} {r : Reg V} {X : Instead V} (hf : Fits X r.archs.arches) {h : Handle} {c : Nat}
    (hX : Elsewhere X r h) (hX2 : ∀ l ai a, r.location h = .ok l → r.archOf l = some (ai, a) → a.contains c = false →
      ∀ s ni, r.archs.ensureAdded ai (ty.info c) = .ok s ni → X ni = none) :
    (r.over X).setImpl ty h c = mapRes (·.over X) (r.setImpl ty h c) ∧
    ∀ r' b l, r.setImpl ty h c = .ok r' (b, l) → ∀ i, l.arch = some i → X i = none := by
  unfold Reg.setImpl
  rw [over_location]
  cases hl : r.location h with
  | ub => exact ⟨rfl, fun _ _ _ h => by cases h⟩
  | throw e => exact ⟨rfl, fun _ _ _ h => by cases h⟩
  | ok l =>
    simp only
    rw [over_archOf (hX l · hl)]
    cases ha : r.archOf l with
    | none => exact ⟨rfl, fun _ _ _ h => by cases h⟩
    | some x =>
      obtain ⟨ai, a⟩ := x
      have hn : X ai = none := hX l ai hl (archOf_some ha).1
      simp only
      cases hc : a.contains c with
      | true =>
        simp only [if_true]
        refine ⟨rfl, fun r' b l' h i hi => ?_⟩
        cases h
        exact hX l i hl hi
      | false =>
        simp only [Bool.false_eq_true, if_false]
        rw [over_archs]
        rw [ensureAdded_over hf]
        cases he : r.archs.ensureAdded ai (ty.info c) with
        | ub => exact ⟨rfl, fun _ _ _ h => by cases h⟩
        | throw s e => exact ⟨rfl, fun _ _ _ h => by cases h⟩
        | ok s ni =>
          have hn2 := hX2 l ai a hl ha hc s ni he
          simp only [mapRes]
          have e1 : ({ r.over X with archs := s.over X } : Reg V).relocate h l ai ni
              = (({ r with archs := s } : Reg V).relocate h l ai ni).map fun x => (x.1.over X, x.2) :=
            relocate_over (r := { r with archs := s }) hn hn2
          rw [e1]
          cases hr : ({ r with archs := s } : Reg V).relocate h l ai ni with
          | none => exact ⟨rfl, fun _ _ _ h => by cases h⟩
          | some y =>
            obtain ⟨r', l'⟩ := y
            refine ⟨rfl, fun r'' b l'' h i hi => ?_⟩
            simp only [Res.ok.injEq, Prod.mk.injEq] at h
            obtain ⟨rfl, rfl, rfl⟩ := h
            unfold Reg.relocate at hr
            split at hr
            · split at hr
              · cases hr
              · split at hr
                · cases hr
                · split at hr
                  · cases hr
                  · split at hr
                    · cases hr
                    · cases hr
                      cases hi; exact hn2
            · cases hr

theorem writeAt_over {r : Reg V} {X : Instead V} {l : Loc} (hX : ∀ i, l.arch = some i → X i = none) (c : Nat) (b : Bool) (v : V) :
    (r.over X).writeAt l c b v = (r.writeAt l c b v).map (·.over X) := by
  unfold Reg.writeAt
  rw [over_archOf hX]
  cases ha : r.archOf l with
  | none => rfl
  | some x =>
    obtain ⟨ai, a⟩ := x
    have hn : X ai = none := hX ai (archOf_some ha).1
    simp only
    split
    · cases a.writeCell l.chunk l.entry (some c) b (.comp v) with
      | none => rfl
      | some a' => simp only [Option.map_some]; rw [over_setArch hn]
    · rfl

theorem readAt_over {r : Reg V} {X : Instead V} {l : Loc} (hX : ∀ i, l.arch = some i → X i = none) (c : Nat) :
    (r.over X).readAt l c = r.readAt l c := by
  unfold Reg.readAt
  rw [over_archOf hX]

theorem set_over {ty : Types} {r : Reg V} {X : Instead V} (hf : Fits X r.archs.arches) {h : Handle} {c : Nat} (v : V)
    (hX : Elsewhere X r h) (hX2 : ∀ l ai a, r.location h = .ok l → r.archOf l = some (ai, a) → a.contains c = false →
      ∀ s ni, r.archs.ensureAdded ai (ty.info c) = .ok s ni → X ni = none) :
    (r.over X).set ty h c v = mapRes (·.over X) (r.set ty h c v) := by
  obtain ⟨h1, h2⟩ := setImpl_over hf hX hX2
  unfold Reg.set
  rw [h1]
  cases hs : r.setImpl ty h c with
  | ub => rfl
  | throw r e => rfl
  | ok r' x =>
    obtain ⟨b, l⟩ := x
    simp only [mapRes]
    rw [writeAt_over (h2 r' b l hs)]
    cases r'.writeAt l c b v <;> rfl

theorem getOrInsert_over {ty : Types} {r : Reg V} {X : Instead V} (hf : Fits X r.archs.arches) {h : Handle} {c : Nat} (v : V)
    (hX : Elsewhere X r h) (hX2 : ∀ l ai a, r.location h = .ok l → r.archOf l = some (ai, a) → a.contains c = false →
      ∀ s ni, r.archs.ensureAdded ai (ty.info c) = .ok s ni → X ni = none) :
    (r.over X).getOrInsert ty h c v = mapRes (·.over X) (r.getOrInsert ty h c v) := by
  obtain ⟨h1, h2⟩ := setImpl_over hf hX hX2
  unfold Reg.getOrInsert
  rw [h1]
  cases hs : r.setImpl ty h c with
  | ub => rfl
  | throw r e => rfl
  | ok r' x =>
    obtain ⟨b, l⟩ := x
    have h3 := h2 r' b l hs
    simp only [mapRes]
    cases b with
    | true =>
      simp only [if_true]
      rw [writeAt_over h3]
      cases r'.writeAt l c true v with
      | none => rfl
      | some r2 =>
        simp only [Option.map_some]
        rw [readAt_over h3]
        cases r2.readAt l c <;> rfl
    | false =>
      simp only [Bool.false_eq_true, if_false]
      rw [readAt_over h3]
      cases r'.readAt l c <;> rfl

theorem remove_over {ty : Types} {r : Reg V} {X : Instead V} (hf : Fits X r.archs.arches) {h : Handle} {c : Nat}
    (hX : Elsewhere X r h) (hX2 : ∀ l ai a, r.location h = .ok l → r.archOf l = some (ai, a) → a.contains c = true →
      ∀ s ni, r.archs.ensureRemoved ai (ty.info c) = .ok s ni → X ni = none) :
    (r.over X).remove ty h c = mapRes (·.over X) (r.remove ty h c) := by
  unfold Reg.remove
  rw [over_location]
  cases hl : r.location h with
  | ub => rfl
  | throw e => rfl
  | ok l =>
    simp only
    rw [over_archOf (hX l · hl)]
    cases ha : r.archOf l with
    | none => rfl
    | some x =>
      obtain ⟨ai, a⟩ := x
      have hn : X ai = none := hX l ai hl (archOf_some ha).1
      simp only
      cases hc : a.contains c with
      | false => rfl
      | true =>
        simp only [if_true]
        rw [over_archs]
        rw [ensureRemoved_over hf]
        cases he : r.archs.ensureRemoved ai (ty.info c) with
        | ub => rfl
        | throw s e => rfl
        | ok s ni =>
          have hn2 := hX2 l ai a hl ha hc s ni he
          simp only [mapRes]
          have e1 : ({ r.over X with archs := s.over X } : Reg V).relocate h l ai ni
              = (({ r with archs := s } : Reg V).relocate h l ai ni).map fun x => (x.1.over X, x.2) :=
            relocate_over (r := { r with archs := s }) hn hn2
          rw [e1]
          cases ({ r with archs := s } : Reg V).relocate h l ai ni <;> rfl

theorem assign_over {r : Reg V} {X : Instead V} {h : Handle} (c : Nat) (v : V) (hX : Elsewhere X r h) :
    (r.over X).assign h c v = mapRes (·.over X) (r.assign h c v) := by
  unfold Reg.assign
  rw [over_location]
  cases hl : r.location h with
  | ub => rfl
  | throw e => rfl
  | ok l =>
    simp only
    rw [over_archOf (hX l · hl)]
    cases ha : r.archOf l with
    | none => rfl
    | some x =>
      obtain ⟨ai, a⟩ := x
      simp only
      cases a.row? l.chunk l.entry with
      | none => rfl
      | some row =>
        simp only
        split
        · rw [writeAt_over (hX l · hl)]
          cases r.writeAt l c false v <;> rfl
        · rfl

theorem receive_over {r : Reg V} {X : Instead V} (hf : Fits X r.archs.arches) {a : Arch V} {row : Row V} {ph : Handle}
    (hX : ∀ s di, r.archs.ensureSet a.comps = .ok s di → X di = none) :
    (r.over X).receive a row ph = mapRes (·.over X) (r.receive a row ph) := by
  unfold Reg.receive
  rw [over_archs]
  rw [ensureSet_over (fun j hj => hf.lt hj)]
  cases he : r.archs.ensureSet a.comps with
  | ub => rfl
  | throw s e => rfl
  | ok s di =>
    have hn := hX s di he
    simp only [mapRes]
    rw [over_get_none hn]
    cases s.arches[di]? with
    | none => rfl
    | some da =>
      simp only
      cases da.copyFrom row a.copyBlocks with
      | ub => rfl
      | throw da' e => simp only [mapRes]; rw [← over_setArch hn]; rfl
      | ok da' q =>
        obtain ⟨ci, idx⟩ := q
        simp only
        cases da'.writeCell ci idx none false (.ent ph) with
        | none => rfl
        | some da'' =>
          simp only
          have e1 : (({ r.over X with archs := s.over X } : Reg V).setArch di da'')
              = (({ r with archs := s } : Reg V).setArch di da'').over X := over_setArch (r := { r with archs := s }) hn da''
          rw [e1, over_setLoc]
          cases (({ r with archs := s } : Reg V).setArch di da'').setLoc ph.id ⟨some di, ci, idx⟩ <;> rfl

theorem cloneInto_over {r : Reg V} {X : Instead V} (hf : Fits X r.archs.arches) {h ph : Handle} (hX : Elsewhere X r h)
    (hX2 : ∀ a row, r.rowOf h = .ok (a, row) → ∀ s di, r.archs.ensureSet a.comps = .ok s di → X di = none) :
    (r.over X).cloneInto h ph = mapRes (·.over X) (r.cloneInto h ph) := by
  unfold Reg.cloneInto
  have e : (r.over X).rowOf h = r.rowOf h := by
    unfold Reg.rowOf
    rw [over_location]
    cases hl : r.location h with
    | ub => rfl
    | throw e => rfl
    | ok l => simp only; rw [over_archOf (hX l · hl)]
  rw [e]
  cases hr : r.rowOf h with
  | ub => rfl
  | throw e => rfl
  | ok x =>
    obtain ⟨a, row⟩ := x
    exact receive_over hf (hX2 a row hr)

/-- A call concerns no replaced archetype. -/
def Apart (ty : Types) (X : Instead V) (r : Reg V) : RegOp V → Prop
  | .create args => ∀ s ai, r.archs.ensure (args.map fun x => ty.info x.1) = .ok s ai → X ai = none
  | .destroy h => Elsewhere X r h
  | .assign h _ _ => Elsewhere X r h
  | .set h c _ => Elsewhere X r h ∧ ∀ l ai a, r.location h = .ok l → r.archOf l = some (ai, a) → a.contains c = false →
      ∀ s ni, r.archs.ensureAdded ai (ty.info c) = .ok s ni → X ni = none
  | .getOrInsert h c _ => Elsewhere X r h ∧ ∀ l ai a, r.location h = .ok l → r.archOf l = some (ai, a) → a.contains c = false →
      ∀ s ni, r.archs.ensureAdded ai (ty.info c) = .ok s ni → X ni = none
  | .remove h c => Elsewhere X r h ∧ ∀ l ai a, r.location h = .ok l → r.archOf l = some (ai, a) → a.contains c = true →
      ∀ s ni, r.archs.ensureRemoved ai (ty.info c) = .ok s ni → X ni = none
  | .clone h (some _) => Elsewhere X r h ∧ ∀ a row, r.rowOf h = .ok (a, row) → ∀ s di, r.archs.ensureSet a.comps = .ok s di → X di = none
  | .clone h none => ∀ p ph, r.pool.create = some (p, ph) → Elsewhere X { r with pool := p } h ∧
      ∀ a row, ({ r with pool := p } : Reg V).rowOf h = .ok (a, row) → ∀ s di, r.archs.ensureSet a.comps = .ok s di → X di = none
  | .reserve => True
  | .sync => True

theorem run_over {ty : Types} {X : Instead V} {r : Reg V} (hf : Fits X r.archs.arches) {op : RegOp V} (h : Apart ty X r op) :
    op.run ty (r.over X) = mapRes (·.over X) (op.run ty r) := by
  have hn : ∀ {α : Type} (x : Res (Reg V) α), noHandle (mapRes (·.over X) x) = mapRes (·.over X) (noHandle x) := by
    intro α x; cases x <;> rfl
  have hw : ∀ (x : Res (Reg V) Handle), withHandle (mapRes (·.over X) x) = mapRes (·.over X) (withHandle x) := by
    intro x; cases x <;> rfl
  cases op with
  | create args => unfold RegOp.run; simp only; rw [create_over hf h, hw]
  | destroy h' => unfold RegOp.run; simp only; rw [destroy_over h, hn]
  | set h' c v => unfold RegOp.run; simp only; rw [set_over hf v h.1 h.2, hn]
  | remove h' c => unfold RegOp.run; simp only; rw [remove_over hf h.1 h.2, hn]
  | assign h' c v => unfold RegOp.run; simp only; rw [assign_over c v h, hn]
  | getOrInsert h' c v => unfold RegOp.run; simp only; rw [getOrInsert_over hf v h.1 h.2, hn]
  | clone h' ph =>
    cases ph with
    | none =>
      unfold RegOp.run
      simp only
      have e : (r.over X).clone h' = mapRes (·.over X) (r.clone h') := by
        unfold Reg.clone
        rw [over_pool]
        cases hp : r.pool.create with
        | none => rfl
        | some x =>
          obtain ⟨p, ph⟩ := x
          simp only
          obtain ⟨q1, q2⟩ := h p ph hp
          exact cloneInto_over (r := { r with pool := p }) hf q1 q2
      rw [e, hw]
    | some ph => unfold RegOp.run; simp only; rw [cloneInto_over hf h.1 h.2, hw]
  | reserve =>
    unfold RegOp.run Reg.reserve
    rw [over_pool]
    cases r.pool.reserve <;> rfl
  | sync => rfl

end CoEcs
