import Verif.Spec.ViewOthers
import Verif.Proofs.ViewChange
import Verif.Proofs.Throwing

/-!
# Callbacks that change other entities
-/

namespace CoEcs
open Spec
variable {V : Type}

/-! ### What the operations do to the archetypes -/

/-- At most the archetypes in `T` are changed, and they keep their components; if no archetype is new the map
is as before. -/
structure Archs.Edit (s s' : Archs V) (T : List Nat) : Prop where
  map : s'.arches.length = s.arches.length → s'.map = s.map
  len : s.arches.length ≤ s'.arches.length
  arch : ∀ (j : Nat) (a : Arch V), s.arches[j]? = some a → ∃ a' : Arch V, s'.arches[j]? = some a' ∧ a'.comps = a.comps ∧ (j ∉ T → a' = a)

theorem Archs.Edit.trans {s t u : Archs V} {T U : List Nat} (h : s.Edit t T) (h' : t.Edit u U) : s.Edit u (T ++ U) := by
  have := h.len; have := h'.len
  refine ⟨fun e => ?_, by omega, fun j a ha => ?_⟩
  · rw [h'.map (by omega), h.map (by omega)]
  · obtain ⟨b, e1, e2, e3⟩ := h.arch j a ha
    obtain ⟨c, f1, f2, f3⟩ := h'.arch j b e1
    refine ⟨c, f1, f2.trans e2, fun hj => ?_⟩
    rw [List.mem_append] at hj
    rw [f3 (fun h => hj (.inr h)), e3 (fun h => hj (.inl h))]

theorem Archs.edit_set (s : Archs V) {i : Nat} {a a' : Arch V} (ha : s.arches[i]? = some a) (hc : a'.comps = a.comps) :
    s.Edit { s with arches := s.arches.set i a' } [i] := by
  have hlt := (List.getElem?_eq_some_iff.1 ha).1
  refine ⟨fun _ => rfl, by simp, fun j b hb => ?_⟩
  simp only [List.getElem?_set]
  by_cases hj : i = j
  · subst hj
    rw [ha] at hb; cases hb
    exact ⟨a', by simp [hlt], hc, by simp⟩
  · exact ⟨b, by simp [hj, hb], rfl, fun _ => rfl⟩

theorem Archs.ensureKey_edit {ty : Types} {s s' : Archs V} {m : KeyMap Bitset (Option Nat)} (r : ArchsRel ty s m) {key : Bitset}
    {comps : MetaSet} {ai : Nat} (h : s.ensureKey key comps = .ok s' ai) : s.Edit s' [] := by
  refine ⟨?_, ?_, fun j a ha => ⟨a, Archs.ensureKey_keep h ha, rfl, fun _ => rfl⟩⟩
  · have hf : Archs.fuel s.map ≥ 2 * s.map.n + HTable.pslSum s.map.slots + 2 := by rw [fuel_eq]; exact Nat.le_refl _
    unfold Archs.ensureKey at h
    cases hg : m.get key with
    | some v =>
      obtain ⟨i, e, hi, he, hk, hv⟩ := r.rel.present hg
      have : s.map.index setHash (Archs.fuel s.map) key none = .ok (s.map, i) := by
        have := r.rel.find_some hi he hk (Archs.fuel s.map) (by omega)
        simp only at this
        simp [HTable.index, this, Run.bind]
      simp only [this, r.rel.deref hi he] at h
      split at h
      · cases h; intro _; rfl
      · split at h
        · cases h
        · cases h; simp
    | none =>
      obtain ⟨t, i, e, h1, h2, h3, h4, h5, h6⟩ := r.rel.index_from key none
      have h1' := h1 (Archs.fuel s.map) hf
      simp only at h1'
      simp only [h1', h2.deref h3 h4] at h
      rw [hg] at h6
      have h6 : e.val = none := by simpa using h6
      simp only [h6] at h
      split at h
      · cases h
      · cases h; simp
  · unfold Archs.ensureKey at h
    split at h
    · split at h
      · split at h
        · cases h; simp
        · split at h
          · cases h
          · cases h; simp
      · cases h
    · cases h

theorem Archs.Edit.ofSearch {s s' : Archs V} {b : Bitset} {T : List Nat} (h : Archs.Edit { s with search := b } s' T) : s.Edit s' T :=
  ⟨h.map, h.len, h.arch⟩

theorem Arch.ensureFree_comps {a a' : Arch V} (h : a.ensureFree = some a') : a'.comps = a.comps := by
  unfold ensureFree at h
  split at h
  · cases h
  · split at h <;> cases h <;> rfl

theorem Arch.emplace_comps {a a' : Arch V} {h : Handle} {args : List (Nat × V)} {p : Nat × Nat} (he : a.emplace h args = .ok a' p) :
    a'.comps = a.comps := by
  unfold emplace at he
  split at he
  · cases he
  · rename_i b hb
    rw [← ensureFree_comps hb]
    simp only at he
    split at he
    · cases he
    · split at he
      · cases he; rfl
      · cases he
      · cases he

theorem Arch.chunkSwapErase_comps {a a' : Arch V} {ci idx oi : Nat} {m : Option Handle} (h : a.chunkSwapErase ci idx oi = some (a', m)) :
    a'.comps = a.comps := by
  unfold chunkSwapErase at h
  split at h
  · cases h
  · split at h
    · split at h
      · split at h <;> cases h
        rfl
      · split at h
        · cases h
        · split at h
          · cases h
          · split at h
            · split at h
              · cases h
              · simp only at h
                split at h
                · cases h
                · split at h <;> cases h
                  rfl
            · cases h
    · cases h

theorem Arch.swapErase_comps {a a' : Arch V} {ci idx : Nat} {m : Option Handle} (h : a.swapErase ci idx = some (a', m)) :
    a'.comps = a.comps := by
  unfold swapErase at h
  split at h
  · cases h
  · rename_i b m' hb
    rw [← chunkSwapErase_comps hb]
    split at h
    · cases h
    · split at h <;> cases h <;> rfl

theorem Arch.move_comps {a o a' o' : Arch V} {ci idx : Nat} {p : Nat × Nat} {m : Option Handle} (h : a.move ci idx o = some (a', o', p, m)) :
    a'.comps = a.comps ∧ o'.comps = o.comps := by
  unfold move at h
  split at h
  · cases h
  · rename_i b hb
    rw [← ensureFree_comps hb]
    simp only at h
    split at h
    · split at h
      · split at h
        · cases h
        · split at h
          · cases h
          · rename_i hs
            cases h
            exact ⟨(swapErase_comps hs).trans rfl, rfl⟩
      · cases h
    · cases h

theorem Arch.writeCell_comps {a a' : Arch V} {ci idx : Nat} {b : BlockId} {cn : Bool} {v : Val V} (h : a.writeCell ci idx b cn v = some a') :
    a'.comps = a.comps := by
  unfold writeCell at h
  grind

theorem Reg.relocate_edit {r r' : Reg V} {h : Handle} {l l' : Loc} {ai ni : Nat} (hr : r.relocate h l ai ni = some (r', l')) :
    r.archs.Edit r'.archs [ai, ni] ∧ l'.arch = some ni := by
  unfold relocate at hr
  split at hr
  · rename_i a n ha hn
    split at hr
    · cases hr
    · rename_i hne
      split at hr
      · cases hr
      · rename_i a' n' ci idx m hm
        split at hr
        · cases hr
        · rename_i r1 h1
          split at hr
          · cases hr
          · rename_i r2 h2
            cases hr
            rw [setLoc_archs h2, setMoved_archs h1]
            obtain ⟨q1, q2⟩ := Arch.move_comps hm
            have e1 := Archs.edit_set r.archs ha q1
            have e2 := Archs.edit_set { r.archs with arches := r.archs.arches.set ai a' } (i := ni) (a := n) (a' := n')
              (by simp only; rw [List.getElem?_set_ne hne]; exact hn) q2
            exact ⟨e1.trans e2, rfl⟩
  · cases hr

theorem Reg.writeAt_edit {r r' : Reg V} {l : Loc} {c : Nat} {cn : Bool} {v : V} {ai : Nat} (hl : l.arch = some ai)
    (h : r.writeAt l c cn v = some r') : r.archs.Edit r'.archs [ai] := by
  unfold writeAt at h
  split at h
  · cases h
  · rename_i aj a ha
    have : aj = ai := by
      unfold archOf at ha
      rw [hl] at ha
      simp only at ha
      split at ha <;> cases ha
      rfl
    subst this
    split at h
    · split at h
      · cases h
      · rename_i a' hw
        cases h
        exact Archs.edit_set r.archs (archOf_arch ha) (Arch.writeCell_comps hw)
    · cases h

/-! ### Entities that do not match -/

theorem matchArg_blocks {a : Arch V} (ha : a.Ok) {d : Comps V} (hd : ∀ c, some c ∈ a.blocks ↔ ∃ v, d c = some v) (args : List BlockId) :
    args.all (Reg.matchArg a) = true ↔ Matches args d := by
  rw [List.all_eq_true]
  constructor
  · intro H c hc
    have := H _ hc
    simp only [Reg.matchArg, ha.toShape.contains] at this
    exact (hd c).1 this
  · intro H b hb
    cases b with
    | none => rfl
    | some c =>
      simp only [Reg.matchArg, ha.toShape.contains]
      exact (hd c).2 (H c hb)

theorem Archs.Edit.still {r r' : Reg V} {T : List Nat} {args : List BlockId} (h : r.archs.Edit r'.archs T)
    (hl : r'.archs.arches.length = r.archs.arches.length)
    (hT : ∀ j ∈ T, ∀ a, r.archs.arches[j]? = some a → args.all (Reg.matchArg a) ≠ true) : Still args r r' := by
  refine ⟨h.map hl, fun j a ha => ?_⟩
  obtain ⟨a', e1, e2, e3⟩ := h.arch j a ha
  refine ⟨a', e1, e2, fun hm => e3 fun hj => hT j hj a ha hm⟩

theorem Ensured.same {ty : Types} {s s' : Archs V} {m m' : KeyMap Bitset (Option Nat)} {ai : Nat} {a : Arch V} {key : Bitset} {comps : MetaSet}
    (e : Ensured ty s s' m m' ai a key comps) (hl : s'.arches.length = s.arches.length) : s'.arches = s.arches := by
  rcases e.cases with h | ⟨_, h, _⟩
  · exact h
  · rw [h] at hl; simp at hl

theorem Rep.create_still {ty : Types} {r r' : Reg V} {W : Handle → Option (Comps V)} (R : Rep ty r 0 W) {args : List BlockId}
    {vals : List (Nat × V)} {h : Handle} (hnd : (vals.map Prod.fst).Nodup) (hb : r.pool.nextId + 1 < U32)
    (hc : r.create ty vals = .ok r' h) (hl : r'.archs.arches.length = r.archs.arches.length)
    (hn : r'.has h (compsOf args) ≠ .ok true) : Still args r r' ∧ ∃ W', Rep ty r' 0 W' := by
  obtain ⟨p, h1, g1, _, _, _, _, g⟩ := R.create hb hnd
  rcases g with ⟨r1, g2, _, R1, _⟩ | ⟨r1, g2, _⟩
  · rw [hc] at g2; cases g2
    refine ⟨?_, _, R1⟩
    have hn' : ¬ Matches args (Row.argVal vals) := fun hm => hn ((R1.matches_iff h args).2 ⟨_, by simp [World.put], hm⟩)
    obtain ⟨m, hm⟩ := R.archs
    have hargs : (vals.map fun x => ty.info x.1) = (vals.map Prod.fst).map ty.info := by simp
    unfold Reg.create at hc
    rw [g1, hargs] at hc
    simp only at hc
    rcases ensure_spec hm (vals.map Prod.fst) with ⟨s, m', ai, a, e1, e2⟩ | ⟨s, m', e1, e2⟩
    · have e1' := e1
      unfold Archs.ensure at e1'
      have E := (Archs.ensureKey_edit (hm.withSearch (b := _) (by
        rw [clear_eq hm.search, ← create_set]; exact (MetaSet.inv_create _).canon)) e1').ofSearch
      simp only [e1, e2.arch] at hc
      split at hc
      · cases hc
      · cases hc
      · rename_i a' ci idx he
        split at hc
        · cases hc
        · rename_i r2 hr2
          cases hc
          have har := Reg.setLoc_archs hr2
          have E2 := E.trans (Archs.edit_set s e2.arch (Arch.emplace_comps he))
          have hl' : s.arches.length = r.archs.arches.length := by
            rw [har] at hl
            simpa [Reg.setArch] using hl
          refine Archs.Edit.still (T := [] ++ [ai]) (by rw [har]; exact E2) hl fun j hj b hb hmt => hn' ?_
          have : j = ai := by simpa using hj
          subst this
          rw [← e2.same hl', e2.arch] at hb
          cases hb
          refine (matchArg_blocks (e2.rel.ok j a e2.arch) (fun c => ?_) args).1 hmt
          rw [Arch.blocks_of_set (e2.rel.ok j a e2.arch).inv (MetaSet.inv_create _) e2.set, create_ids]
          simp only [List.map_map, Function.comp_def, ty.id_eq]
          unfold Row.argVal
          rw [← Option.isSome_iff_exists, Option.isSome_map, List.find?_isSome]
          simp
    · rw [e1] at hc; cases hc
  · rw [hc] at g2; cases g2

theorem Rep.remove_still {ty : Types} {r r' : Reg V} {W : Handle → Option (Comps V)} (R : Rep ty r 0 W) {args : List BlockId}
    {h : Handle} {cid : Nat} (hc : r.remove ty h cid = .ok r' ()) (hl : r'.archs.arches.length = r.archs.arches.length)
    (hn : r.has h (compsOf args) ≠ .ok true) : Still args r r' ∧ ∃ W', Rep ty r' 0 W' := by
  cases hw : W h with
  | none => rw [R.remove_none hw] at hc; cases hc
  | some d =>
    have hn' : ¬ Matches args d := fun hm => hn ((R.matches_iff h args).2 ⟨_, hw, hm⟩)
    have hrep : ∃ W', Rep ty r' 0 W' := by
      rcases R.remove hw cid with ⟨_, g⟩ | ⟨_, ⟨g, _⟩ | ⟨r1, g, _, R1, _⟩ | ⟨r1, g, _⟩⟩
      · rw [hc] at g; cases g; exact ⟨_, R⟩
      · rw [hc] at g; cases g
      · rw [hc] at g; cases g; exact ⟨_, R1⟩
      · rw [hc] at g; cases g
    refine ⟨?_, hrep⟩
    obtain ⟨l, ai, a, c, row, t⟩ := R.at_ hw
    obtain ⟨d1, d2, d3⟩ := Row.decode_some t.decode t.rowOk
    obtain ⟨m, hm⟩ := R.archs
    unfold Reg.remove at hc
    simp only [t.loc, t.archOf] at hc
    cases hcon : a.contains cid with
    | false => simp only [hcon] at hc; cases hc; exact .refl _ _
    | true =>
      simp only [hcon, if_true] at hc
      rcases ensureRemoved_spec hm t.get hcon with ⟨s, m', ni, n, e1, e2⟩ | ⟨s, m', e1, e2⟩
      · simp only [e1] at hc
        split at hc
        · cases hc
        · rename_i r2 l2 hr2
          cases hc
          obtain ⟨E2, _⟩ := Reg.relocate_edit hr2
          have E1 : r.archs.Edit s [] := by
            unfold Archs.ensureRemoved at e1
            simp only [t.get] at e1
            exact (Archs.ensureKey_edit (hm.withSearch (Bitset.canon_set _ _ _ t.ok.inv.canon)) e1).ofSearch
          have := E1.len; have := E2.len
          simp only at this
          have hs := e2.same (by omega)
          refine (E1.trans E2).still hl fun j hj b hb hmt => hn' ?_
          have hj : j = ai ∨ j = ni := by simpa using hj
          rcases hj with rfl | rfl
          · rw [t.get] at hb; cases hb
            exact (matchArg_all t.ok t.decode t.rowOk args).1 hmt
          · rw [← hs, e2.arch] at hb
            cases hb
            have hnok := e2.rel.ok j n e2.arch
            have : Matches args (fun x => if x = cid then none else d x) := by
              refine (matchArg_blocks hnok (fun x => ?_) args).1 hmt
              rw [Arch.blocks_of_set hnok.inv (t.ok.inv.erase cid) e2.set, erase_ids hcon, ← Arch.some_mem_blocks]
              by_cases hx : x = cid
              · simp [hx]
              · simp only [hx, if_false, ne_eq, not_false_eq_true, true_and, and_true]
                constructor
                · intro hb
                  obtain ⟨v, hv, _⟩ := d2 x hb
                  exact ⟨v, hv⟩
                · rintro ⟨v, hv⟩
                  apply Classical.byContradiction
                  intro hb
                  rw [d3 x hb] at hv; cases hv
            intro x hx
            obtain ⟨v, hv⟩ := this x hx
            simp only at hv
            split at hv
            · cases hv
            · exact ⟨v, hv⟩
      · simp [e1] at hc

theorem Rep.set_still {ty : Types} {r r' : Reg V} {W : Handle → Option (Comps V)} (R : Rep ty r 0 W) {args : List BlockId}
    {h : Handle} {cid : Nat} {v : V} (hc : r.set ty h cid v = .ok r' ()) (hl : r'.archs.arches.length = r.archs.arches.length)
    (hn : r.has h (compsOf args) ≠ .ok true) (hn2 : r'.has h (compsOf args) ≠ .ok true) : Still args r r' ∧ ∃ W', Rep ty r' 0 W' := by
  cases hw : W h with
  | none => rw [R.set_none hw] at hc; cases hc
  | some d =>
    have hn' : ¬ Matches args d := fun hm => hn ((R.matches_iff h args).2 ⟨_, hw, hm⟩)
    obtain ⟨R1, hn2'⟩ : Rep ty r' 0 (World.put W h (some fun x => if x = cid then some v else d x)) ∧
        ¬ Matches args (fun x => if x = cid then some v else d x) := by
      rcases R.set hw cid v with ⟨g, _⟩ | ⟨r1, g, _, R1, _⟩ | ⟨r1, g, _⟩
      · rw [hc] at g; cases g
      · rw [hc] at g; cases g
        exact ⟨R1, fun hm => hn2 ((R1.matches_iff h args).2 ⟨_, by simp [World.put], hm⟩)⟩
      · rw [hc] at g; cases g
    refine ⟨?_, _, R1⟩
    obtain ⟨l, ai, a, c, row, t⟩ := R.at_ hw
    obtain ⟨d1, d2, d3⟩ := Row.decode_some t.decode t.rowOk
    obtain ⟨m, hm⟩ := R.archs
    unfold Reg.set Reg.setImpl at hc
    simp only [t.loc, t.archOf] at hc
    cases hcon : a.contains cid with
    | true =>
      simp only [hcon, if_true] at hc
      split at hc
      · cases hc
      · rename_i r2 hr2
        cases hc
        refine (Reg.writeAt_edit t.arch hr2).still hl fun j hj b hb hmt => hn' ?_
        have hj : j = ai := by simpa using hj
        subst hj
        rw [t.get] at hb; cases hb
        exact (matchArg_all t.ok t.decode t.rowOk args).1 hmt
    | false =>
      simp only [hcon, Bool.false_eq_true, if_false] at hc
      rcases ensureAdded_spec hm t.get hcon with ⟨s, m', ni, n, e1, e2⟩ | ⟨s, m', e1, e2⟩
      · simp only [e1] at hc
        split at hc
        · cases hc
        · cases hc
        · rename_i r1 ins l1 hr1
          split at hr1
          · cases hr1
          · rename_i r2 l2 hr2
            cases hr1
            obtain ⟨E2, hl1⟩ := Reg.relocate_edit hr2
            split at hc
            · cases hc
            · rename_i r3 hr3
              cases hc
              have E3 := Reg.writeAt_edit hl1 hr3
              have E1 : r.archs.Edit s [] := by
                unfold Archs.ensureAdded at e1
                simp only [t.get] at e1
                exact (Archs.ensureKey_edit (hm.withSearch (Bitset.canon_set _ _ _ t.ok.inv.canon)) e1).ofSearch
              have h1 := E1.len; have h2 := E2.len; have h3 := E3.len
              simp only at h2
              have hs := e2.same (by omega)
              refine ((E1.trans E2).trans E3).still hl fun j hj b hb hmt => ?_
              have hj : j = ai ∨ j = ni := by
                simpa using hj
              rcases hj with rfl | rfl
              · rw [t.get] at hb; cases hb
                exact hn' ((matchArg_all t.ok t.decode t.rowOk args).1 hmt)
              · rw [← hs, e2.arch] at hb
                cases hb
                have hnok := e2.rel.ok j n e2.arch
                refine hn2' ((matchArg_blocks hnok (fun x => ?_) args).1 hmt)
                rw [Arch.blocks_of_set hnok.inv (t.ok.inv.insert (ty.info cid)) e2.set,
                  insert_ids _ (by rw [ty.id_eq]; exact hcon), ← Arch.some_mem_blocks, ty.id_eq]
                by_cases hx : x = cid
                · simp [hx]
                · simp only [hx, if_false, false_or]
                  constructor
                  · intro hb
                    obtain ⟨v, hv, _⟩ := d2 x hb
                    exact ⟨v, hv⟩
                  · rintro ⟨v, hv⟩
                    apply Classical.byContradiction
                    intro hb
                    rw [d3 x hb] at hv; cases hv
      · simp [e1] at hc

theorem OthersRun.still {ty : Types} {args : List BlockId} {r0 : Reg V} : ∀ {ops : List (CbOp V)} {r r' : Reg V}
    {W : Handle → Option (Comps V)}, Rep ty r 0 W → Still args r0 r → OthersRun ty args r ops r' →
    StillRun args r0 r (ops.map (CbOp.call ty)) r'
  | [], _, _, _, _, _, .nil _ => .nil _
  | op :: ops, r, r', W, R, hs, .cons (r1 := r1) (h := h) hd h1 h2 h3 h4 => by
    obtain ⟨e, g, W', R'⟩ : op.call ty r = .ok r1 () ∧ Still args r r1 ∧ ∃ W', Rep ty r1 0 W' := by
      cases hd with
      | create hnd hb hc => exact ⟨by simp [CbOp.call, noValue, hc], R.create_still hnd hb hc h3 h2⟩
      | destroy hc =>
        obtain ⟨g, R1⟩ := R.destroy_still (args := args) hc fun d hw hm => h1 ((R.matches_iff h args).2 ⟨d, hw, hm⟩)
        exact ⟨hc, g, _, R1⟩
      | set hc => exact ⟨hc, R.set_still hc h3 h1 h2⟩
      | remove hc => exact ⟨hc, R.remove_still hc h3 h1⟩
    exact .cons e (hs.trans g) (OthersRun.still R' (hs.trans g) h4)

end CoEcs
