import Verif.Proofs.DestructorsFrame
import Verif.Spec.Destructors

/-!
# Calls that use other tables do not touch replaced archetypes
-/

namespace CoEcs
open Spec (RegOp Sys Out kinds tables KeyMap noHandle withHandle)
variable {V : Type}

/-- The replaced archetypes are those of tables in use. -/
def Covered (X : Instead V) (busy : List (Nat → Bool)) : Prop := ∀ (j : Nat) (x : Arch V), X j = some x → x.contains ∈ busy

theorem At.kinds {r : Reg V} {h : Handle} {d : Comps V} {l : Loc} {ai : Nat} {a : Arch V} {c : Chunk V} {row : Row V}
    (t : At r h d l ai a c row) : a.contains = kinds d := by
  funext x
  obtain ⟨d1, d2, d3⟩ := Row.decode_some t.decode t.rowOk
  rw [Bool.eq_iff_iff, t.ok.toShape.contains]
  unfold Spec.kinds
  by_cases hb : some x ∈ a.blocks
  · obtain ⟨v, hv, _⟩ := d2 x hb
    simp [hb, hv]
  · simp [hb, d3 x hb]

theorem Ensured.apart {ty : Types} {s s' : Archs V} {m m' : KeyMap Bitset (Option Nat)} {ai : Nat} {a : Arch V} {key : Bitset}
    {comps : MetaSet} (e : Ensured ty s s' m m' ai a key comps) {X : Instead V} (hf : Fits X s.arches) {busy : List (Nat → Bool)}
    (hc : Covered X busy) (hk : (fun c => key.test c) ∉ busy) : X ai = none := by
  cases hx : X ai with
  | none => rfl
  | some x =>
    exfalso
    obtain ⟨b, h1, h2⟩ := hf ai x hx
    have h3 := e.keep h1
    rw [e.arch] at h3
    cases h3
    apply hk
    have := hc ai x hx
    have e1 : x.contains = fun c => key.test c := by
      funext c
      unfold Arch.contains MetaSet.contains
      rw [h2, e.set]
    rwa [e1] at this

theorem Rep.elsewhere {ty : Types} {r : Reg V} {k : Nat} {W : Handle → Option (Comps V)} (R : Rep ty r k W) {X : Instead V}
    (hf : Fits X r.archs.arches) {busy : List (Nat → Bool)} (hc : Covered X busy) {h : Handle}
    (ht : ∀ d, W h = some d → kinds d ∉ busy) : Elsewhere X r h := by
  intro l j hl hj
  cases hw : W h with
  | none => rw [R.location_none hw] at hl; cases hl
  | some d =>
    obtain ⟨l', ai, a, c, row, t⟩ := R.at_ hw
    rw [t.loc] at hl
    cases hl
    have := t.arch
    rw [hj] at this
    cases this
    cases hx : X j with
    | none => rfl
    | some x =>
      exfalso
      obtain ⟨b, h1, h2⟩ := hf j x hx
      rw [t.get] at h1
      cases h1
      have h3 := hc j x hx
      have e1 : x.contains = a.contains := by funext c; unfold Arch.contains; rw [h2]
      rw [e1, t.kinds] at h3
      exact ht d hw h3

theorem added_kinds {ty : Types} {r : Reg V} {h : Handle} {d : Comps V} {l : Loc} {ai : Nat} {a : Arch V} {c : Chunk V} {row : Row V}
    (t : At r h d l ai a c row) {x : Nat} (hx : a.contains x = false) (v : V) :
    (fun y => (a.comps.insert (ty.info x)).set.test y) = kinds (Spec.World.withComp d x (some v)) := by
  have hk := t.kinds
  have hi := t.ok.inv.insert (ty.info x)
  funext y
  rw [Bool.eq_iff_iff, hi.test, insert_ids _ (by rw [ty.id_eq]; exact hx), ty.id_eq, ← t.ok.inv.contains]
  have := congrFun hk y
  unfold Arch.contains at this
  rw [this]
  unfold Spec.kinds Spec.World.withComp
  by_cases e : y = x <;> simp [e]

theorem removed_kinds {r : Reg V} {h : Handle} {d : Comps V} {l : Loc} {ai : Nat} {a : Arch V} {c : Chunk V} {row : Row V}
    (t : At r h d l ai a c row) {x : Nat} (hx : a.contains x = true) :
    (fun y => (a.comps.erase x).set.test y) = kinds (Spec.World.withComp d x none) := by
  have hk := t.kinds
  have hi := t.ok.inv.erase x
  funext y
  rw [Bool.eq_iff_iff, hi.test, erase_ids hx, ← t.ok.inv.contains]
  have := congrFun hk y
  unfold Arch.contains at this
  rw [this]
  unfold Spec.kinds Spec.World.withComp
  by_cases e : y = x <;> simp [e]

theorem listed_kinds (ty : Types) (args : List (Nat × V)) :
    (fun y => (MetaSet.create ((args.map Prod.fst).map ty.info)).set.test y) = kinds (Spec.World.listed args) := by
  funext y
  rw [Bool.eq_iff_iff, (MetaSet.inv_create _).test, create_ids]
  unfold Spec.kinds Spec.World.listed
  simp only [List.mem_map, Option.isSome_map, List.find?_isSome, beq_iff_eq]
  constructor
  · rintro ⟨_, ⟨_, ⟨x, hx, rfl⟩, rfl⟩, rfl⟩
    exact ⟨x, hx, by rw [ty.id_eq]⟩
  · rintro ⟨x, hx, rfl⟩
    exact ⟨ty.info x.1, ⟨x.1, ⟨x, hx, rfl⟩, rfl⟩, ty.id_eq _⟩

theorem Rep.addedApart {ty : Types} {r : Reg V} {k : Nat} {W : Handle → Option (Comps V)} (R : Rep ty r k W) {X : Instead V}
    (hf : Fits X r.archs.arches) {busy : List (Nat → Bool)} (hc : Covered X busy) {h : Handle} {x : Nat} (v : V)
    (ht : ∀ d, W h = some d → kinds (Spec.World.withComp d x (some v)) ∉ busy) :
    ∀ l ai a, r.location h = .ok l → r.archOf l = some (ai, a) → a.contains x = false →
      ∀ s ni, r.archs.ensureAdded ai (ty.info x) = .ok s ni → X ni = none := by
  intro l ai a hl ha hx s ni he
  cases hw : W h with
  | none => rw [R.location_none hw] at hl; cases hl
  | some d =>
    obtain ⟨l', ai', a', c, row, t⟩ := R.at_ hw
    rw [t.loc] at hl
    cases hl
    rw [t.archOf] at ha
    cases ha
    obtain ⟨m, hm⟩ := R.archs
    rcases ensureAdded_spec hm t.get hx with ⟨s', m', ni', n, h1, h2⟩ | ⟨s', m', h1, h2⟩
    · rw [h1] at he
      cases he
      refine h2.apart hf hc ?_
      rw [added_kinds t hx v]
      exact ht d hw
    · rw [h1] at he; cases he

theorem Rep.clonedApart {ty : Types} {r : Reg V} {k : Nat} {W : Handle → Option (Comps V)} (R : Rep ty r k W) {X : Instead V}
    (hf : Fits X r.archs.arches) {busy : List (Nat → Bool)} (hc : Covered X busy) {h : Handle}
    (ht : ∀ d, W h = some d → kinds d ∉ busy) :
    ∀ a row, r.rowOf h = .ok (a, row) → ∀ s di, r.archs.ensureSet a.comps = .ok s di → X di = none := by
  intro a row hr s di he
  cases hw : W h with
  | none =>
    unfold Reg.rowOf at hr
    rw [R.location_none hw] at hr
    cases hr
  | some d =>
    obtain ⟨a', row', h1, h2, _, _, l, ai, c, t⟩ := R.rowOf hw
    rw [h1] at hr
    cases hr
    obtain ⟨m, hm⟩ := R.archs
    rcases ensureSet_spec hm h2.inv (hm.typed ai a t.get) with ⟨s', m', ni', n, h1, h2⟩ | ⟨s', m', h1, h2⟩
    · rw [h1] at he
      cases he
      refine h2.apart hf hc ?_
      have := ht d hw
      rwa [← t.kinds] at this
    · rw [h1] at he; cases he

theorem RInv.apart {ty : Types} {s : Sys V} {i : Nat} {W : Handle → Option (Comps V)}
    (I : RInv ty (s.reg i) (s.pend i) (s.res i) W) {X : Instead V}
    (hf : Fits X (s.reg i).archs.arches) {busy : List (Nat → Bool)} (hc : Covered X busy) {op : RegOp V} (ha : s.Allowed (.on i op))
    (ht : ∀ T ∈ tables W op, T ∉ busy) : Apart ty X (s.reg i) op := by
  have R := I.rep
  cases op with
  | create args =>
    intro s' ai he
    obtain ⟨m, hm⟩ := R.archs
    rw [show (args.map fun x => ty.info x.1) = (args.map Prod.fst).map ty.info by simp] at he
    rcases ensure_spec hm (args.map Prod.fst) with ⟨s', m', ni', n, h1, h2⟩ | ⟨s', m', h1, h2⟩
    · rw [h1] at he
      cases he
      refine h2.apart hf hc ?_
      rw [listed_kinds]
      exact ht _ (by simp [tables])
    · rw [h1] at he; cases he
  | destroy h => exact R.elsewhere hf hc fun d hd => ht _ (by simp [tables, hd])
  | assign h c v => exact R.elsewhere hf hc fun d hd => ht _ (by simp [tables, hd])
  | set h c v =>
    exact ⟨R.elsewhere hf hc fun d hd => ht _ (by simp [tables, hd]), R.addedApart hf hc v fun d hd => ht _ (by simp [tables, hd])⟩
  | getOrInsert h c v =>
    exact ⟨R.elsewhere hf hc fun d hd => ht _ (by simp [tables, hd]), R.addedApart hf hc v fun d hd => ht _ (by simp [tables, hd])⟩
  | remove h c =>
    refine ⟨R.elsewhere hf hc fun d hd => ht _ (by simp [tables, hd]), ?_⟩
    intro l ai a hl ha hx s' ni he
    cases hw : W h with
    | none => rw [R.location_none hw] at hl; cases hl
    | some d =>
      obtain ⟨l', ai', a', c, row, t⟩ := R.at_ hw
      rw [t.loc] at hl
      cases hl
      rw [t.archOf] at ha
      cases ha
      obtain ⟨m, hm⟩ := R.archs
      rcases ensureRemoved_spec hm t.get hx with ⟨s', m', ni', n, h1, h2⟩ | ⟨s', m', h1, h2⟩
      · rw [h1] at he
        cases he
        refine h2.apart hf hc ?_
        rw [removed_kinds t hx]
        exact ht _ (by simp [tables, hw])
      · rw [h1] at he; cases he
  | clone h ph =>
    have hd : ∀ d, W h = some d → kinds d ∉ busy := fun d hd => ht _ (by simp [tables, hd])
    cases ph with
    | none =>
      intro p ph hp
      obtain ⟨h1, h2⟩ := ha
      rw [h1] at I
      obtain ⟨p', ph', q1, q2, _⟩ := I.rep.create_pool h2
      rw [q1] at hp
      cases hp
      exact ⟨q2.elsewhere hf hc hd, q2.clonedApart hf hc hd⟩
    | some ph => exact ⟨R.elsewhere hf hc hd, R.clonedApart hf hc hd⟩
  | reserve => trivial
  | sync => trivial

/-! ### Archetypes are never lost -/

/-- At least `n` archetypes are left. -/
def AtLeast (n : Nat) {α : Type} : Res (Reg V) α → Prop
  | .ok r _ => n ≤ r.archs.arches.length
  | .throw r _ => n ≤ r.archs.arches.length
  | .ub => True

/-- The same for a table of archetypes. -/
def AtLeastA (n : Nat) {α : Type} : Res (Archs V) α → Prop
  | .ok r _ => n ≤ r.arches.length
  | .throw r _ => n ≤ r.arches.length
  | .ub => True

theorem ensureKey_len (s : Archs V) (key : Bitset) (comps : MetaSet) : AtLeastA s.arches.length (s.ensureKey key comps) := by
  unfold Archs.ensureKey
  split
  · split
    · split
      · simp [AtLeastA]
      · split <;> simp [AtLeastA]
    · trivial
  · trivial

theorem ensure_len (s : Archs V) (cs : List CompMeta) : AtLeastA s.arches.length (s.ensure cs) := by
  unfold Archs.ensure
  exact ensureKey_len { s with search := _ } _ _

theorem ensureAdded_len (s : Archs V) (i : Nat) (m : CompMeta) : AtLeastA s.arches.length (s.ensureAdded i m) := by
  unfold Archs.ensureAdded
  split
  · trivial
  · exact ensureKey_len { s with search := _ } _ _

theorem ensureRemoved_len (s : Archs V) (i : Nat) (m : CompMeta) : AtLeastA s.arches.length (s.ensureRemoved i m) := by
  unfold Archs.ensureRemoved
  split
  · trivial
  · exact ensureKey_len { s with search := _ } _ _

theorem setArch_len (r : Reg V) (i : Nat) (a : Arch V) : (r.setArch i a).archs.arches.length = r.archs.arches.length := by
  unfold Reg.setArch; simp

theorem create_len (ty : Types) (r : Reg V) (args : List (Nat × V)) : AtLeast r.archs.arches.length (r.create ty args) := by
  unfold Reg.create
  split
  · trivial
  · simp only
    have := ensure_len r.archs (args.map fun x => ty.info x.1)
    split
    · trivial
    · rename_i h; rw [h] at this; exact this
    · rename_i h
      rw [h] at this
      simp only [AtLeastA] at this
      split
      · trivial
      · split
        · trivial
        · simp only [AtLeast, setArch_len]; exact this
        · split
          · trivial
          · rename_i h2
            simp only [AtLeast]
            rw [setLoc_archs h2, setArch_len]; exact this

theorem destroy_len (r : Reg V) (h : Handle) : AtLeast r.archs.arches.length (r.destroy h) := by
  unfold Reg.destroy
  split
  · trivial
  · simp [AtLeast]
  · split
    · trivial
    · split
      · trivial
      · split
        · trivial
        · rename_i h1
          split
          · trivial
          · rename_i h2
            simp only [AtLeast]
            rw [setMoved_archs h2, removeLoc_archs h1, setArch_len]; exact Nat.le_refl _

theorem relocate_len {r r' : Reg V} {h : Handle} {l l' : Loc} {ai ni : Nat} (hr : r.relocate h l ai ni = some (r', l')) :
    r'.archs.arches.length = r.archs.arches.length := by
  unfold Reg.relocate at hr
  split at hr
  · split at hr
    · cases hr
    · split at hr
      · cases hr
      · split at hr
        · cases hr
        · rename_i h1
          split at hr
          · cases hr
          · rename_i h2
            cases hr
            rw [setLoc_archs h2, setMoved_archs h1, setArch_len, setArch_len]
  · cases hr

theorem writeAt_len {r r' : Reg V} {l : Loc} {c : Nat} {b : Bool} {v : V} (h : r.writeAt l c b v = some r') :
    r'.archs.arches.length = r.archs.arches.length := by
  unfold Reg.writeAt at h
  split at h
  · cases h
  · split at h
    · split at h
      · cases h
      · cases h
        exact setArch_len _ _ _
    · cases h

theorem setImpl_len (ty : Types) (r : Reg V) (h : Handle) (c : Nat) : AtLeast r.archs.arches.length (r.setImpl ty h c) := by
  unfold Reg.setImpl
  split
  · trivial
  · simp [AtLeast]
  · split
    · trivial
    · split
      · simp [AtLeast]
      · rename_i ai a _ _
        have := ensureAdded_len r.archs ai (ty.info c)
        split
        · trivial
        · rename_i h; rw [h] at this; exact this
        · rename_i h
          rw [h] at this
          split
          · trivial
          · rename_i h2
            simp only [AtLeast]
            rw [relocate_len h2]; exact this

theorem set_len (ty : Types) (r : Reg V) (h : Handle) (c : Nat) (v : V) : AtLeast r.archs.arches.length (r.set ty h c v) := by
  unfold Reg.set
  have := setImpl_len ty r h c
  split
  · trivial
  · rename_i h; rw [h] at this; exact this
  · rename_i h
    rw [h] at this
    split
    · trivial
    · rename_i h2
      simp only [AtLeast]
      rw [writeAt_len h2]; exact this

theorem getOrInsert_len (ty : Types) (r : Reg V) (h : Handle) (c : Nat) (v : V) :
    AtLeast r.archs.arches.length (r.getOrInsert ty h c v) := by
  unfold Reg.getOrInsert
  have := setImpl_len ty r h c
  split
  · trivial
  · rename_i h; rw [h] at this; exact this
  · rename_i h
    rw [h] at this
    simp only [AtLeast] at this
    split
    · trivial
    · rename_i h2
      split
      · trivial
      · simp only [AtLeast]
        split at h2
        · rw [writeAt_len h2]; exact this
        · cases h2; exact this

theorem remove_len (ty : Types) (r : Reg V) (h : Handle) (c : Nat) : AtLeast r.archs.arches.length (r.remove ty h c) := by
  unfold Reg.remove
  split
  · trivial
  · simp [AtLeast]
  · split
    · trivial
    · rename_i ai a _
      split
      · have := ensureRemoved_len r.archs ai (ty.info c)
        split
        · trivial
        · rename_i h; rw [h] at this; exact this
        · rename_i h
          rw [h] at this
          split
          · trivial
          · rename_i h2
            simp only [AtLeast]
            rw [relocate_len h2]; exact this
      · simp [AtLeast]

theorem assign_len (r : Reg V) (h : Handle) (c : Nat) (v : V) : AtLeast r.archs.arches.length (r.assign h c v) := by
  unfold Reg.assign
  split
  · trivial
  · simp [AtLeast]
  · split
    · trivial
    · split
      · trivial
      · split
        · split
          · trivial
          · rename_i h2
            simp only [AtLeast]
            rw [writeAt_len h2]; exact Nat.le_refl _
        · simp [AtLeast]

theorem cloneInto_len (r : Reg V) (h ph : Handle) : AtLeast r.archs.arches.length (r.cloneInto h ph) := by
  unfold Reg.cloneInto
  split
  · trivial
  · simp [AtLeast]
  · rename_i a row _
    unfold Reg.receive
    have := ensureKey_len r.archs a.comps.set a.comps
    change AtLeastA _ (r.archs.ensureSet a.comps) at this
    split
    · trivial
    · rename_i h; rw [h] at this; exact this
    · rename_i h
      rw [h] at this
      simp only [AtLeastA] at this
      split
      · trivial
      · split
        · trivial
        · simp only [AtLeast, setArch_len]; exact this
        · split
          · trivial
          · split
            · trivial
            · rename_i h2
              simp only [AtLeast]
              rw [setLoc_archs h2, setArch_len]; exact this

theorem run_len (ty : Types) (r : Reg V) (op : RegOp V) : AtLeast r.archs.arches.length (op.run ty r) := by
  have hn : ∀ {α : Type} {n : Nat} {x : Res (Reg V) α}, AtLeast n x → AtLeast n (noHandle x) := by
    intro α n x h; cases x <;> exact h
  have hw : ∀ {n : Nat} {x : Res (Reg V) Handle}, AtLeast n x → AtLeast n (withHandle x) := by
    intro n x h; cases x <;> exact h
  cases op with
  | create args => exact hw (create_len ty r args)
  | destroy h => exact hn (destroy_len r h)
  | set h c v => exact hn (set_len ty r h c v)
  | remove h c => exact hn (remove_len ty r h c)
  | assign h c v => exact hn (assign_len r h c v)
  | getOrInsert h c v => exact hn (getOrInsert_len ty r h c v)
  | clone h ph =>
    cases ph with
    | none =>
      refine hw ?_
      unfold Reg.clone
      split
      · trivial
      · exact cloneInto_len { r with pool := _ } _ _
    | some ph => exact hw (cloneInto_len r h ph)
  | reserve =>
    refine hw ?_
    unfold Reg.reserve
    split <;> simp [AtLeast]
  | sync => simp [RegOp.run, AtLeast, Reg.sync]

/-- The registry after a call of a history. -/
theorem step_run {ty : Types} {s s' : Sys V} {i : Nat} {op : RegOp V} {out : Out} (hs : s.step ty (.on i op) = some (s', out)) :
    (∃ h, op.run ty (s.reg i) = .ok (s'.reg i) h ∧ out = .ok h) ∨ (∃ e, op.run ty (s.reg i) = .throw (s'.reg i) e ∧ out = .throw e) := by
  unfold Sys.step at hs
  simp only at hs
  have note : ∀ (t : Sys V) (h : Option Handle), (t.note i op h).reg = t.reg := by
    intro t h
    unfold Sys.note
    split
    · rfl
    · rfl
    · unfold Sys.use; split <;> rfl
    · rfl
  split at hs
  · cases hs
  · rename_i r e hr
    cases hs
    right
    exact ⟨e, by simp [hr, Sys.setReg], rfl⟩
  · rename_i r h hr
    cases hs
    left
    exact ⟨h, by rw [note]; simp [hr, Sys.setReg], rfl⟩

/-- A call leaves the archetypes of tables in use alone. -/
theorem step_leaves {ty : Types} {s s' : Sys V} {i : Nat} {W : Handle → Option (Comps V)}
    (I : RInv ty (s.reg i) (s.pend i) (s.res i) W) {busy : List (Nat → Bool)} {op : RegOp V} (ha : s.Allowed (.on i op))
    (ht : ∀ T ∈ tables W op, T ∉ busy) {out : Out} (hs : s.step ty (.on i op) = some (s', out)) {j : Nat} {a : Arch V}
    (hj : (s.reg i).archs.arches[j]? = some a) (hb : a.contains ∈ busy) :
    (s'.reg i).archs.arches[j]? = some a := by
  let X : Instead V := fun k => if k = j then some a else none
  have hf : Fits X (s.reg i).archs.arches := by
    intro k x hk
    by_cases e : k = j
    · subst e; simp [X] at hk; subst hk; exact ⟨a, hj, rfl⟩
    · simp [X, e] at hk
  have hc : Covered X busy := by
    intro k x hk
    by_cases e : k = j
    · subst e; simp [X] at hk; subst hk; exact hb
    · simp [X, e] at hk
  have same : (s.reg i).over X = s.reg i := by
    unfold Reg.over Archs.over
    have e : ((s.reg i).archs.arches.mapIdx fun k b => (X k).getD b) = (s.reg i).archs.arches := by
      apply List.ext_getElem?
      intro k
      simp only [List.getElem?_mapIdx]
      by_cases e : k = j
      · subst e; simp [X, hj]
      · simp [X, e]
    rw [e]
  have h1 := run_over (ty := ty) hf (I.apart hf hc ha ht)
  have hl := run_len ty (s.reg i) op
  rw [same] at h1
  have hlt := (List.getElem?_eq_some_iff.1 hj).1
  have fin : (s'.reg i) = (s'.reg i).over X → (s.reg i).archs.arches.length ≤ (s'.reg i).archs.arches.length →
      (s'.reg i).archs.arches[j]? = some a := by
    intro e hle
    rw [e, over_archs, over_get, List.getElem?_eq_getElem (Nat.lt_of_lt_of_le hlt hle)]
    simp [X]
  rcases step_run hs with ⟨h, hr, _⟩ | ⟨e, hr, _⟩
  · rw [hr] at h1 hl
    simp only [mapRes, Res.ok.injEq] at h1
    exact fin h1.1 hl
  · rw [hr] at h1 hl
    simp only [mapRes, Res.throw.injEq] at h1
    exact fin h1.1 hl

end CoEcs
