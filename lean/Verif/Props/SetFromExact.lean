import Verif.Proofs.SetFrom
import Verif.Props.MoveWithin

/-!
# Which references into the registry `set` may take (C48)

`setFrom h c src sc` is `h.set<C>(src.get<SC>())`: the argument is a reference, read after `h` has been moved to its
new archetype.  For every state this file says what is stored, for every entity the reference may belong to.
-/

namespace CoEcs.Props
open CoEcs Spec

variable {V : Type} {ty : Types} {s : Sys V} {W : Spec.World V}

/-- A call of `set` that returned has made room for the component. -/
theorem setImpl_of_set {r r' : Reg V} {h : Handle} {c : Nat} {v : V} (hs : r.set ty h c v = .ok r' ()) :
    ∃ r1 b l, r.setImpl ty h c = .ok r1 (b, l) := by
  unfold Reg.set at hs
  split at hs
  · cases hs
  · cases hs
  · rename_i r1 b l h1
    exact ⟨r1, b, l, h1⟩

/-- `set` with a reference is undefined or `set` with what is found in the place it refers to. -/
theorem setFrom_of_read {r r1 : Reg V} {h src : Handle} {c sc : Nat} {b : Bool} {l ls : Loc} {ai : Nat} {a : Arch V}
    (hi : r.setImpl ty h c = .ok r1 (b, l)) (hl : r.location src = .ok ls) (ha : r.archOf ls = some (ai, a)) (hm : some sc ∈ a.blocks) :
    (r1.readAt ls sc = none → r.setFrom ty h c src sc = .ub) ∧
    ∀ v, r1.readAt ls sc = some v → r.setFrom ty h c src sc = r.set ty h c v := by
  unfold Reg.setFrom Reg.set
  simp only [hl, ha, hm, if_true, hi]
  exact ⟨fun h => by rw [h], fun v h => by simp only [h]⟩

/-- **C48, exactly**: let `h`, which does not have component `c`, be entry `idx` of a chunk.  If it is the last one of
that chunk, nothing takes its place; otherwise the last entity `m` of the last chunk does, and
* a reference to a component of any entity but `h` and `m` is as good as its value,
* a reference to a component of `m` dangles,
* a reference to a component of `h` itself dangles if nothing takes the place of `h`, and otherwise stands for the
  component of `m`. -/
theorem C48_exact (hr : Reachable ty s W) {i : Nat} {h : Handle} {c : Nat} (hc : (s.reg i).has h [c] = .ok false)
    {a : Arch V} {ci idx : Nat} {ch : Chunk V} (hst : StoredAt (s.reg i) h a ci idx ch) {v0 : V} {r0 : Reg V}
    (hset : (s.reg i).set ty h c v0 = .ok r0 ()) :
    ∃ f : Option Handle, (f = none ↔ idx + 1 = ch.size) ∧
      (∀ m, f = some m → m ≠ h ∧ ∃ last, a.chunks.getLast? = some last ∧ last.size ≠ 0 ∧
        StoredAt (s.reg i) m a (a.chunks.length - 1) (last.size - 1) last) ∧
      ∀ src sc v, (s.reg i).get src sc = .ok v →
        (src ≠ h → f ≠ some src → (s.reg i).setFrom ty h c src sc = (s.reg i).set ty h c v) ∧
        (f = some src → (s.reg i).setFrom ty h c src sc = .ub) ∧
        (src = h → f = none → (s.reg i).setFrom ty h c src sc = .ub) ∧
        ∀ m, src = h → f = some m → ∃ v', (s.reg i).get m sc = .ok v' ∧
          (s.reg i).setFrom ty h c src sc = (s.reg i).set ty h c v' := by
  have R := (hr.inv i).rep
  obtain ⟨d, hw, hd⟩ : ∃ d, W i h = some d ∧ d c = none := by
    cases hw : W i h with
    | none => rw [R.set_none hw] at hset; cases hset
    | some d =>
      rw [R.has_some hw] at hc
      refine ⟨d, rfl, ?_⟩
      simpa using hc
  obtain ⟨l, ai, row, t, rfl, rfl⟩ := hst.at_ hr hw
  obtain ⟨r1, b, l1, himpl⟩ := setImpl_of_set hset
  obtain ⟨f, f1, f2, f3⟩ := setImpl_reads R t hd himpl
  refine ⟨f, f1, ?_, ?_⟩
  · intro m hm
    obtain ⟨g1, last, g2, g3, g4⟩ := f2 m hm
    refine ⟨g1, last, g2, g4, ⟨ai, g3, t.get⟩, ?_⟩
    rw [← List.getLast?_eq_getElem?]; exact g2
  · intro src sc v hv
    obtain ⟨ds, hws, hds⟩ := (R.get_iff src sc v).1 hv
    obtain ⟨ls, si, sa, scn, srow, ts⟩ := R.at_ hws
    obtain ⟨q1, q2, q3, q4⟩ := f3 src ds ls sc v hws hds ts.loc
    obtain ⟨u1, u2⟩ := setFrom_of_read himpl ts.loc ts.archOf (ts.readAt hds).2
    refine ⟨fun e1 e2 => u2 v (q1 e1 e2), fun e => u1 (q2 e), fun e1 e2 => u1 (q3 e1 e2), ?_⟩
    intro m e1 e2
    obtain ⟨dm, v', w1, w2, w3⟩ := q4 m e1 e2
    exact ⟨v', (R.get_iff m sc v').2 ⟨dm, w1, w2⟩, u2 v' w3⟩

/-- **C48** (partial; missing: at most two of the entities with the same components, where it is false): apart from
the entity itself and the one that fills its place, every entity may be referred to.  This does not ask for different
components. -/
theorem C48_all_but_two_partial (hr : Reachable ty s W) {i : Nat} {h : Handle} {c : Nat} (hc : (s.reg i).has h [c] = .ok false)
    {v0 : V} {r0 : Reg V} (hset : (s.reg i).set ty h c v0 = .ok r0 ()) :
    ∃ f : Option Handle, ∀ src sc v, (s.reg i).get src sc = .ok v → src ≠ h → f ≠ some src →
      (s.reg i).setFrom ty h c src sc = (s.reg i).set ty h c v := by
  have he : (s.reg i).has h [] = .ok true := by
    have R := (hr.inv i).rep
    cases hw : W i h with
    | none => rw [R.set_none hw] at hset; cases hset
    | some d => rw [R.has_some hw]; rfl
  obtain ⟨a, ci, idx, ch, hst⟩ := storedAt_of hr he
  obtain ⟨f, _, _, hf⟩ := C48_exact hr hc hst hset
  exact ⟨f, fun src sc v hv h1 h2 => (hf src sc v hv).1 h1 h2⟩

/-- **C48 is violated** in every state, for every entity and every component it does not have: adding it with the value
`v` of one of the entity's own components does not store `v`, unless another entity happens to have the same value
in the same component. -/
theorem C48_own_component_violated (hr : Reachable ty s W) {i : Nat} {h : Handle} {c sc : Nat} {v : V}
    (hc : (s.reg i).has h [c] = .ok false) (hv : (s.reg i).get h sc = .ok v) (hu : ∀ x, x ≠ h → (s.reg i).get x sc ≠ .ok v) :
    ¬ ∃ r', (s.reg i).setFrom ty h c h sc = .ok r' () ∧ r'.get h c = .ok v := by
  rintro ⟨r', h1, h2⟩
  have R := (hr.inv i).rep
  obtain ⟨d, hw, hd⟩ := (R.get_iff h sc v).1 hv
  have he : (s.reg i).has h [] = .ok true := by rw [R.has_some hw]; rfl
  obtain ⟨r1, b, l, himpl⟩ : ∃ r1 b l, (s.reg i).setImpl ty h c = .ok r1 (b, l) := by
    unfold Reg.setFrom at h1
    split at h1
    · cases h1
    · cases h1
    · split at h1
      · cases h1
      · split at h1
        · split at h1
          · cases h1
          · cases h1
          · rename_i r1 b l hi
            exact ⟨r1, b, l, hi⟩
        · cases h1
  obtain ⟨r0, hset⟩ : ∃ r0, (s.reg i).set ty h c v = .ok r0 () := by
    rcases R.set hw c v with ⟨h3, _⟩ | ⟨r0, h3, _⟩ | ⟨r0, h3, _⟩
    · rcases R.setImpl hw c v with ⟨v0, l', r'', p1, p2, p3, p4, _⟩ | ⟨p1, ⟨p2, _⟩ | ⟨q1, q2, l', p2, p3, _⟩ | ⟨q1, p2, _⟩⟩
      · exact ⟨r'', by unfold Reg.set; simp only [p2, p4]⟩
      · rw [p2] at himpl; cases himpl
      · exact ⟨q2, by unfold Reg.set; simp only [p2, p3]⟩
      · rw [p2] at himpl; cases himpl
    · exact ⟨r0, h3⟩
    · unfold Reg.set at h3
      rw [himpl] at h3
      simp only at h3
      split at h3 <;> cases h3
  obtain ⟨a, ci, idx, ch, hst⟩ := storedAt_of hr he
  obtain ⟨f, _, hf1, hf⟩ := C48_exact hr hc hst hset
  obtain ⟨_, _, q3, q4⟩ := hf h sc v hv
  cases f with
  | none => rw [q3 rfl rfl] at h1; cases h1
  | some m =>
    obtain ⟨v', g1, g2⟩ := q4 m rfl rfl
    rw [g2] at h1
    have := (C18_set_one_component hr h1).1
    rw [h2] at this
    simp only [Obs.ok.injEq] at this
    subst this
    exact hu m (hf1 m rfl).1 g1

/-- The hypotheses are met: two entities with component 0, of which the first is given component 1. -/
example : ∃ (s : Sys Nat) (W : Spec.World Nat), Reachable smallTy s W ∧ (s.reg 0).has ⟨0, 0⟩ [1] = .ok false ∧
    (s.reg 0).get ⟨0, 0⟩ 0 = .ok 10 ∧ (s.reg 0).get ⟨1, 0⟩ 0 = .ok 20 ∧ (∃ r0, (s.reg 0).set smallTy ⟨0, 0⟩ 1 10 = .ok r0 ()) ∧
    ∃ a ch, StoredAt (s.reg 0) ⟨0, 0⟩ a 0 0 ch ∧ 0 + 1 ≠ ch.size := by
  refine ⟨_, _, exec_get twoSame twoSame_isSome, by decide +kernel, by decide +kernel, by decide +kernel, ?_, ?_⟩
  · obtain ⟨r, u, h⟩ := okOf_eq (x := (((exec smallTy twoSame).get twoSame_isSome).1.reg 0).set smallTy ⟨0, 0⟩ 1 10) (by decide +kernel)
    exact ⟨r, h⟩
  · obtain ⟨a, ha⟩ := Option.isSome_iff_exists.1
      (show ((((exec smallTy twoSame).get twoSame_isSome).1.reg 0).archs.arches[0]?).isSome = true by decide +kernel)
    have h1 : (((((exec smallTy twoSame).get twoSame_isSome).1.reg 0).archs.arches[0]?).bind fun a => a.chunks[0]?.map Chunk.size) = some 2 := by
      decide +kernel
    rw [ha] at h1
    simp only [Option.bind_some, Option.map_eq_some_iff] at h1
    obtain ⟨ch, h2, h3⟩ := h1
    exact ⟨a, ch, ⟨⟨0, by decide +kernel, ha⟩, h2⟩, by omega⟩

end CoEcs.Props
