import Verif.Model.ConstAccess
import Verif.Props.ViewOthers

/-!
# C115: constness is not lost
-/

namespace CoEcs.Props
open CoEcs ConstAccess

/-- Some chain of calls that begins with the object changes the registry. -/
def Alters (t : Ty) : Prop := ∃ cs, run t cs = .changes

/-- Arguments of a view of which one is written to (and `entity&` is not among them). -/
def Writes (args : List Arg) : Prop := (∀ x ∈ args, x.comp = none → x.const = true) ∧ ∃ x ∈ args, x.const = false

instance (args : List Arg) : Decidable (Writes args) := inferInstanceAs (Decidable (_ ∧ _))

/-- The objects that give access to change something. -/
def Loose : Ty → Prop
  | .registry _ | .archetypes _ | .bucket _ | .entityRef _ => True
  | .archetype k | .chunks k | .chunk k => k = false
  | .view _ args | .chunkView args => Writes args
  | .refs l => true ∈ l
  | .constEntityRef | .value => False

theorem fetches_some {args : List Arg} (h : ∀ x ∈ args, x.comp = none → x.const = true) :
    fetches args = some (args.map fun x => !x.const) := by
  unfold fetches
  rw [if_neg]
  simp only [List.any_eq_true, Bool.and_eq_true, Option.isNone_iff_eq_none, Bool.not_eq_true', not_exists, not_and]
  intro x hx hn
  simp [h x hx hn]

theorem fetches_writes {args : List Arg} {l : List Bool} (h : fetches args = some l) : true ∈ l ↔ Writes args := by
  unfold fetches at h
  split at h
  · cases h
  · rename_i hn
    simp only [List.any_eq_true, Bool.and_eq_true, Option.isNone_iff_eq_none, Bool.not_eq_true', not_exists, not_and,
      Bool.not_eq_false] at hn
    obtain rfl := Option.some.inj h
    simp only [List.mem_map, Bool.not_eq_true']
    exact ⟨fun hx => ⟨fun x hx hc => hn x hx hc, hx⟩, fun hx => hx.2⟩

theorem isConst_iff (args : List Arg) : isConst args = true ↔ ∀ x ∈ args, x.const = true := by
  simp [isConst]

theorem not_writes {args : List Arg} (h : isConst args = true) : ¬ Writes args := by
  rintro ⟨_, x, hx, hc⟩
  rw [isConst_iff] at h
  rw [h x hx] at hc
  cases hc

/-- The result is no object with write access, and nothing is changed. -/
def Fine (o : Out) : Prop := o ≠ .changes ∧ ∀ t, o = .ty t → ¬ Loose t

theorem fine_no : Fine .no := ⟨(by intro h; cases h), (by intro t h; cases h)⟩

theorem fine_ty {t : Ty} (h : ¬ Loose t) : Fine (.ty t) :=
  ⟨(by intro h; cases h), (by intro t' ht; cases ht; exact h)⟩

theorem fine_refs {args : List Arg} (hw : ¬ Writes args) : Fine (.refs (fetches args)) := by
  cases hl : fetches args with
  | none => exact fine_no
  | some l => exact fine_ty fun hm => hw ((fetches_writes hl).1 hm)

theorem fine_if {c : Bool} {a : Out} (h : c = true → Fine a) : Fine (if c then a else .no) := by
  cases c with
  | true => exact h rfl
  | false => exact fine_no

theorem run_fine {t : Ty} {c : Call} {cs : List Call} (h : Fine (call t c)) (ht : ∀ t', ¬ Loose t' → run t' cs ≠ .changes) :
    run t (c :: cs) ≠ .changes := by
  intro hc
  simp only [run] at hc
  split at hc
  · rename_i t' h'
    exact ht t' (h.2 t' h') hc
  · rename_i h'
    exact h.1 h'
  · cases hc

/-- A call on an object without write access returns no such object, and changes nothing. -/
theorem call_tight {t : Ty} (h : ¬ Loose t) (c : Call) : Fine (call t c) := by
  cases t with
  | registry k => exact absurd trivial h
  | archetypes k => exact absurd trivial h
  | bucket k => exact absurd trivial h
  | entityRef k => exact absurd trivial h
  | archetype k =>
    obtain rfl : k = true := by simpa [Loose] using h
    cases c <;> simp only [call, archetypeCall, Out.unless] <;> first | exact fine_no | skip
    · exact fine_ty id
    · exact fine_ty (by simp [Loose])
    · exact fine_ty (by simp [Loose])
    · split
      · exact fine_ty (by simp [Loose])
      · exact fine_no
  | chunks k =>
    obtain rfl : k = true := by simpa [Loose] using h
    cases c <;> simp only [call, chunksCall, Out.unless] <;> first | exact fine_no | exact fine_ty (by simp [Loose])
  | chunk k =>
    obtain rfl : k = true := by simpa [Loose] using h
    cases c <;> simp only [call, chunkCall, Out.unless] <;> first | exact fine_no | exact fine_ty (by simp [Loose]) | skip
    rename_i args
    simp only [Bool.not_true, Bool.or_false]
    exact fine_if fun hc => fine_ty (not_writes hc)
  | view k args =>
    cases c <;> simp only [call, viewCall] <;>
      first | exact fine_no | exact fine_if fun _ => fine_refs h | exact fine_ty h
  | chunkView args => cases c <;> simp only [call] <;> first | exact fine_no | exact fine_refs h
  | constEntityRef =>
    cases c <;> simp only [call, constEntityRefCall] <;> first | exact fine_no | exact fine_ty (by simp [Loose]) | skip
    split
    · exact fine_no
    · exact fine_ty (by simp [Loose])
  | refs l =>
    cases c <;> simp only [call] <;> first | exact fine_no | skip
    split
    · rename_i hi
      exact absurd (List.mem_of_getElem? hi) h
    · exact fine_no
  | value => exact fine_no

theorem tight_run (cs : List Call) : ∀ t, ¬ Loose t → run t cs ≠ .changes := by
  induction cs with
  | nil => intro t _ h; cases h
  | cons c cs ih => exact fun t h => run_fine (call_tight h c) ih

theorem refs_alters {l : List Bool} (h : true ∈ l) : Alters (.refs l) := by
  obtain ⟨i, hi⟩ := List.getElem?_of_mem h
  exact ⟨[.write i], by simp [run, call, hi]⟩

theorem chunkView_alters {args : List Arg} (h : Writes args) : Alters (.chunkView args) := by
  have hf := fetches_some h.1
  obtain ⟨cs, hc⟩ := refs_alters ((fetches_writes hf).2 h)
  exact ⟨.element :: cs, by simp only [run, call, hf, Out.refs]; exact hc⟩

/-- **C115**, the exact answer: the objects from which a registry can be changed by some chain of calls, without casts, are all registries
and everything in the map of archetypes, const or not, all objects of type entity_ref, const or not, the non-const archetypes and chunks,
views (const or not) with an argument that is not const, and references to non-const.  From const_entity_ref, const archetypes and chunks,
and views with const arguments nothing can be changed. -/
theorem C115_exact (t : Ty) : Alters t ↔ Loose t := by
  constructor
  · rintro ⟨cs, h⟩
    exact Classical.byContradiction fun hl => tight_run cs t hl h
  · intro h
    cases t with
    | registry k => exact ⟨[.archetypes, .element, .second, .modify], rfl⟩
    | archetypes k => exact ⟨[.element, .second, .modify], rfl⟩
    | bucket k => exact ⟨[.second, .modify], rfl⟩
    | entityRef k => exact ⟨[.clone], rfl⟩
    | archetype k => obtain rfl : k = false := h; exact ⟨[.modify], rfl⟩
    | chunks k => obtain rfl : k = false := h; exact ⟨[.modify], rfl⟩
    | chunk k => obtain rfl : k = false := h; exact ⟨[.modify], rfl⟩
    | view k args =>
      obtain ⟨cs, hc⟩ := chunkView_alters h
      exact ⟨.chunks :: cs, hc⟩
    | chunkView args => exact chunkView_alters h
    | refs l => exact refs_alters h
    | constEntityRef => exact h.elim
    | value => exact h.elim

/-- Both sides occur. -/
example : ¬ Alters .constEntityRef ∧ Alters (.view true [⟨some 1, true⟩, ⟨some 2, false⟩]) ∧
    ¬ Alters (.view false [⟨none, true⟩, ⟨some 1, true⟩]) ∧ ¬ Alters (.view false [⟨none, false⟩]) := by
  simp only [C115_exact]
  exact ⟨id, show Writes _ by decide, show ¬ Writes _ by decide, show ¬ Writes _ by decide⟩

/-- **C115** for const registries, as far as it holds: chains of calls in which `archetypes()` is not called change nothing. -/
theorem C115_registry_partial (cs : List Call) (hc : Call.archetypes ∉ cs) : run (.registry true) cs ≠ .changes := by
  cases cs with
  | nil => intro h; cases h
  | cons c cs =>
    refine run_fine ?_ (tight_run cs)
    cases c <;> simp only [call, registryCall, Out.unless, Bool.not_true, Bool.or_false, if_true] <;>
      first
      | exact fine_no
      | exact absurd List.mem_cons_self hc
      | exact fine_ty (by simp [Loose])
      | exact fine_if fun h => fine_ty (not_writes h)
      | exact fine_if fun h => fine_refs (not_writes h)

/-- Such a chain. -/
example : run (.registry true) [.view [⟨none, true⟩, ⟨some 3, true⟩], .chunks, .element] = .ty (.refs [false, false]) := by decide

/-- **C115** is violated by const registries: the pointers in the map of archetypes are to non-const archetypes. -/
theorem C115_violated : run (.registry true) [.archetypes, .element, .second, .chunks, .element, .ptrMut, .write 0] = .changes := by decide

/-- **C115**, in every reachable state: with a const registry every component of every entity can be overwritten in this way, with the effect
of an assignment through a non-const one. -/
theorem C115_everything_violated {V : Type} {ty : Types} {s : Spec.Sys V} {W : Spec.World V} (hr : Spec.Reachable ty s W) {i : Nat} {h : Handle}
    {d : Comps V} (hw : W i h = some d) {c : Nat} {v0 : V} (hc : d c = some v0) (v : V) :
    ∃ p ci idx r', (s.reg i).writeInBucket p ci idx c v = some r' ∧ (s.reg i).assign h c v = .ok r' () := by
  have R := (hr.inv i).rep
  obtain ⟨l, ai, a, ch, row, t⟩ := R.at_ hw
  obtain ⟨m, hm⟩ := R.archs
  have hk := hm.bwd ai a t.get
  rw [hm.rel.mem] at hk
  obtain ⟨p, e, hp, hs, _, hv⟩ := hk
  obtain ⟨d1, d2, d3⟩ := Row.decode_some t.decode t.rowOk
  have hb : some c ∈ a.blocks := Classical.byContradiction fun hn => by rw [d3 c hn] at hc; cases hc
  obtain ⟨r', q1, _⟩ := R.writeAt_false t hb v
  have hslot : (s.reg i).archs.map.slot? p = some (some e) := by
    unfold HTable.slot?
    rw [if_pos hp, HTable.getElem?_at' (by rw [hm.rel.len]; exact hp), hs]
  refine ⟨p, l.chunk, l.entry, r', ?_, ?_⟩
  · unfold Reg.writeInBucket Reg.archIn
    simp only [hslot, hv, t.get]
    rw [← t.loc_eq]
    exact q1
  · unfold Reg.assign
    simp only [t.loc, t.archOf, t.row?]
    simp [hb, q1]

example : ∃ p ci idx r', (((exec smallTy twoPairs).get twoPairs_isSome).1.reg 0).writeInBucket p ci idx 0 99 = some r' ∧
    (((exec smallTy twoPairs).get twoPairs_isSome).1.reg 0).assign ⟨1, 0⟩ 0 99 = .ok r' () := by
  have h : (((exec smallTy twoPairs).get twoPairs_isSome).2 0 ⟨1, 0⟩).isSome = true := by decide +kernel
  have h0 : (((exec smallTy twoPairs).get twoPairs_isSome).2 0 ⟨1, 0⟩).bind (· 0) = some 11 := by decide +kernel
  obtain ⟨d, hd⟩ := Option.isSome_iff_exists.1 h
  rw [hd] at h0
  exact C115_everything_violated (exec_get twoPairs twoPairs_isSome) hd h0 99

/-- **C115** for entity_ref: a const one gives references to const for one component, to non-const for any larger number. -/
theorem C115_entity_ref_violated (n : Nat) (hn : 0 < n) :
    call (.entityRef true) (.get n) = .ty (.refs (List.replicate n (decide (2 ≤ n)))) := by
  simp only [call, entityRefCall]
  rw [if_neg (by omega)]
  split
  · rename_i h
    subst h
    rfl
  · rw [decide_eq_true (by omega)]

/-- **C115** for const_entity_ref: references to const for any number of components. -/
theorem C115_const_entity_ref (n : Nat) (hn : 0 < n) : call .constEntityRef (.get n) = .ty (.refs (List.replicate n false)) := by
  simp only [call, constEntityRefCall]
  rw [if_neg (by omega)]

/-- **C115**, which functions `each` accepts: on a const registry those all of whose parameters are references to const, on others those
without a parameter `entity&`; they can change the components exactly if some parameter is not a reference to const. -/
theorem C115_each (k : Bool) (args : List Arg) :
    (call (.registry k) (.each args) ≠ .no ↔
      (∀ x ∈ args, x.comp = none → x.const = true) ∧ (k = true → ∀ x ∈ args, x.const = true)) ∧
    ∀ l, call (.registry k) (.each args) = .ty (.refs l) → l = args.map fun x => !x.const := by
  have hn : fetches args = none ↔ ¬ ∀ x ∈ args, x.comp = none → x.const = true := by
    constructor
    · intro h hx
      rw [fetches_some hx] at h
      cases h
    · intro h
      unfold fetches
      rw [if_pos]
      apply Classical.byContradiction
      intro hx
      apply h
      simpa [Option.isNone_iff_eq_none] using hx
  simp only [call, registryCall]
  by_cases hc : isConst args = true
  · have ha := (isConst_iff args).1 hc
    have hf := fetches_some (args := args) fun x hx _ => ha x hx
    rw [hc, hf]
    simp only [Bool.true_or, if_true, Out.refs]
    refine ⟨⟨fun _ => ⟨fun x hx _ => ha x hx, fun _ => ha⟩, fun _ => nofun⟩, fun l h => ?_⟩
    simp at h
    exact h.symm
  · cases k with
    | true =>
      rw [if_neg (by simpa using hc)]
      refine ⟨⟨fun h => absurd rfl h, fun h => absurd ((isConst_iff args).2 (h.2 rfl)) hc⟩, nofun⟩
    | false =>
      simp only [Bool.not_false, Bool.or_true, if_true]
      cases hf : fetches args with
      | none =>
        refine ⟨⟨fun h => absurd rfl h, fun h => absurd h.1 (hn.1 hf)⟩, nofun⟩
      | some l =>
        have hx : ∀ x ∈ args, x.comp = none → x.const = true := Classical.byContradiction fun h => by
          rw [hn.2 h] at hf; cases hf
        rw [fetches_some hx] at hf
        refine ⟨⟨fun _ => ⟨hx, nofun⟩, fun _ => nofun⟩, fun l' h => ?_⟩
        simp only [Out.refs, Out.ty.injEq, Ty.refs.injEq] at h
        rw [← h]
        exact (Option.some.inj hf).symm

/-- **C115**, elements of the map of archetypes: both maps have elements, and the pairs of a const map cannot be modified, while those of
a map that is not const can. -/
theorem C115_elements (k : Bool) :
    ∃ t, call (.archetypes k) .element = .ty t ∧ (call t .modify = .no ↔ k = true) := by
  refine ⟨_, rfl, ?_⟩
  cases k <;> decide

end CoEcs.Props
