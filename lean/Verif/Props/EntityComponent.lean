import Verif.Model.EntityComponent
import Verif.Proofs.Observe
import Verif.Proofs.Exec
import Verif.Props.CapacityExact

/-!
# C49 for the type `entity`
-/

namespace CoEcs.Props
open CoEcs Spec

variable {V : Type} {ty : Types}

/-- The operation does not give an entity the component `e`. -/
def Without (e : Nat) : SysOp V → Prop
  | .on _ (.create args) => e ∉ args.map Prod.fst
  | .on _ (.set _ c _) => c ≠ e
  | .on _ (.assign _ c _) => c ≠ e
  | .on _ (.getOrInsert _ c _) => c ≠ e
  | _ => True

theorem listed_none {args : List (Nat × V)} {e : Nat} (h : e ∉ args.map Prod.fst) : World.listed args e = none := by
  unfold World.listed
  rw [Option.map_eq_none_iff, List.find?_eq_none]
  intro x hx
  rw [beq_iff_eq]
  rintro rfl
  exact h (List.mem_map_of_mem hx)

theorem without_none {e : Nat} {s : Sys V} {W : World V} (hr : Reach ty (fun _ op => Without e op) s W) (i : Nat) (h : Handle)
    (d : Nat → Option V) (hd : W i h = some d) : d e = none := by
  have key : ∀ i h, (W i h).bind (fun d => d e) = none := by
    clear hd d i h
    induction hr with
    | init => intro i h; rfl
    | @step s s' W op out hs ha hp hst ih =>
      have upd : ∀ (W : World V) (i : Nat) (h : Handle) (x : Option (Nat → Option V)), (∀ i h, (W i h).bind (fun d => d e) = none) →
          x.bind (fun d => d e) = none → ∀ j k, ((W.upd i h x) j k).bind (fun d => d e) = none := by
        intro W i h x hW hx j k
        unfold World.upd
        split
        · exact hx
        · exact hW j k
      have same : ∀ (i : Nat) (h : Handle) (c : Nat) (v : Option V), c ≠ e →
          ((W i h).map fun d => World.withComp d c v).bind (fun d => d e) = none := by
        intro i h c v hc
        have := ih i h
        cases hw : W i h with
        | none => rfl
        | some d =>
          rw [hw] at this
          simp only [Option.map_some, Option.bind_some, World.withComp, if_neg (Ne.symm hc)] at this ⊢
          exact this
      cases out with
      | throw x => exact ih
      | ok oh =>
        cases op with
        | on i op =>
          cases op with
          | create args =>
            cases oh with
            | none => exact ih
            | some h => exact upd W i h _ ih (by rw [Option.bind_some]; exact listed_none hp)
          | destroy h => cases oh <;> exact upd W i h none ih rfl
          | set h c v => cases oh <;> exact upd W i h _ ih (same i h c (some v) hp)
          | remove h c =>
            have : ((W i h).map fun d => World.withComp d c none).bind (fun d => d e) = none := by
              by_cases hc : c = e
              · subst hc
                cases W i h with
                | none => rfl
                | some d => simp [World.withComp]
              · exact same i h c _ hc
            cases oh <;> exact upd W i h _ ih this
          | assign h c v => cases oh <;> exact upd W i h _ ih (same i h c (some v) hp)
          | getOrInsert h c v =>
            have : ((W i h).map fun d => match d c with | none => World.withComp d c (some v) | some _ => d).bind (fun d => d e) =
                none := by
              have hi := ih i h
              cases hw : W i h with
              | none => rfl
              | some d =>
                rw [hw] at hi
                simp only [Option.map_some, Option.bind_some] at hi ⊢
                cases hdc : d c with
                | none => simp only [World.withComp]; rw [if_neg (Ne.symm hp)]; exact hi
                | some _ => exact hi
            cases oh <;> exact upd W i h _ ih this
          | clone h ph =>
            cases oh with
            | none => exact ih
            | some h' => exact upd W i h' _ ih (ih i h)
          | reserve => cases oh <;> exact ih
          | sync => cases oh <;> exact ih
        | copy i h j ph =>
          cases oh with
          | none => exact ih
          | some h' => exact upd W j h' _ ih (ih i h)
        | move i h j ph =>
          cases oh with
          | none => exact ih
          | some h' => exact upd _ i h _ (upd W j h' _ ih (ih i h)) rfl
  have := key i h
  rw [hd] at this
  exact this

theorem Reach.weaken {P Q : Sys V → SysOp V → Prop} (hpq : ∀ s op, P s op → Q s op) {s : Sys V} {W : World V}
    (h : Reach ty P s W) : Reach ty Q s W := by
  induction h with
  | init => exact .init
  | step _ ha hp hst ih => exact .step ih ha (hpq _ _ hp) hst

/-- **C49 for the type `entity`**: the handle stored with a live entity is its own. -/
theorem C49_entity_get {s : Sys V} {W : World V} (hr : Reachable ty s W) {i : Nat} {h : Handle}
    (he : (s.reg i).has h [] = .ok true) : (s.reg i).getEntity h = .ok h := by
  have R := (hr.inv i).rep
  obtain ⟨d, hw⟩ := R.entity_some he
  obtain ⟨a, row, h1, h2, h3, h4, l, ai, c, t⟩ := R.rowOf hw
  have hn : none ∈ a.blocks := by simp [Arch.blocks]
  obtain ⟨q, _⟩ := Row.decode_some h3 h4
  unfold Reg.getEntity
  rw [h1]
  simp only [if_pos hn, q, Cell.read]

/-- **C49, violated for the type `entity`** in every state: `e` being its id, which no operation can give to an entity, `get`
succeeds for every live entity while `has` says false; `remove` does nothing, and `get` succeeds afterwards. -/
theorem C49_entity_violated {e : Nat} {s : Sys V} {W : World V} (hr : Reach ty (fun _ op => Without e op) s W) {i : Nat}
    {h : Handle} (he : (s.reg i).has h [] = .ok true) :
    (s.reg i).getEntity h = .ok h ∧ (s.reg i).has h [e] = .ok false ∧ (s.reg i).remove ty h e = .ok (s.reg i) () := by
  have hr' : Reachable ty s W := Reach.weaken (fun _ _ _ => trivial) hr
  have R := (hr'.inv i).rep
  obtain ⟨d, hw⟩ := R.entity_some he
  have hd := without_none hr i h d hw
  have hhas : (s.reg i).has h [e] = .ok false := by rw [R.has_some hw]; simp [hd]
  refine ⟨C49_entity_get hr' he, hhas, ?_⟩
  obtain ⟨l, ai, a, c, row, t⟩ := R.at_ hw
  have hcon : a.contains e = false := by
    simp only [Reg.has, t.loc, t.archOf, List.all_cons, List.all_nil, Bool.and_true, Obs.ok.injEq] at hhas
    exact hhas
  simp only [Reg.remove, t.loc, t.archOf, hcon, Bool.false_eq_true, if_false]

example : ∃ (s : Sys Nat) (W : World Nat), Reach mixedTy (fun _ op => Without 7 op) s W ∧ (s.reg 0).has ⟨0, 0⟩ [] = .ok true := by
  have h1 : ∃ x, (Sys.init : Sys Nat).step mixedTy (.on 0 (.create [(0, 5)])) = some x ∧ (x.1.reg 0).has ⟨0, 0⟩ [] = .ok true := by
    refine ⟨((Sys.init : Sys Nat).step mixedTy (.on 0 (.create [(0, 5)]))).get (by decide +kernel), (Option.some_get _).symm, ?_⟩
    decide +kernel
  obtain ⟨⟨s, out⟩, h2, h3⟩ := h1
  exact ⟨s, _, Reach.step (op := .on 0 (.create [(0, 5)])) Reach.init ⟨by decide, rfl, by decide⟩ (by show (7 : Nat) ∉ [0]; decide) h2, h3⟩

end CoEcs.Props
