import Verif.Spec.HashCopy
import Verif.Proofs.HashLife

/-!
# Several hash tables: helper lemmas for C84
-/

namespace CoEcs
open Spec

namespace LTable
variable {K V : Type} [DecidableEq K]

theorem MInv.tail {s : Option (HEntry K V)} {ss : List (Option (HEntry K V))} {m : Bool} {ms : List Bool}
    (I : MInv (s :: ss) (m :: ms)) : MInv ss ms :=
  ⟨by have := I.len; simpa using this, fun i e he => by have := I.live (i + 1) e (by simpa using he); simpa using this⟩

theorem MInv.cons {s : Option (HEntry K V)} {ss : List (Option (HEntry K V))} {ms : List Bool}
    (I : MInv ss ms) : MInv (s :: ss) (s.isSome :: ms) :=
  ⟨by simp [I.len], fun i e he => by
    cases i with
    | zero => simp at he; subst he; rfl
    | succ i => simpa using I.live i e (by simpa using he)⟩

theorem copyLoop_of : ∀ {slots : List (Option (HEntry K V))} {mem : List Bool} (fail : Option Nat), MInv slots mem →
    (∃ mem', copyLoop slots mem fail = .ok (mem', false) ∧ MInv slots mem' ∧ garbage slots mem' = 0 ∧
      (∀ j, fail = some j → slots.countP Option.isSome ≤ j)) ∨
    (∃ mem' j, copyLoop slots mem fail = .ok (mem', true) ∧ fail = some j ∧ j < slots.countP Option.isSome ∧
      mem'.count true = j)
  | [], mem, fail, I => Or.inl ⟨[], rfl, ⟨rfl, fun i e he => by simp at he⟩, rfl, fun _ _ => by simp⟩
  | _ :: _, [], _, I => by have := I.len; simp at this
  | s :: ss, m :: ms, fail, I => by
    cases s with
    | none =>
      rcases copyLoop_of fail I.tail with ⟨mem', h1, h2, h3, h4⟩ | ⟨mem', j, h1, h2, h3, h4⟩
      · exact Or.inl ⟨false :: mem', by simp [copyLoop, h1, Run.bind], h2.cons, by simp [garbage, h3], by simpa using h4⟩
      · exact Or.inr ⟨false :: mem', j, by simp [copyLoop, h1, Run.bind], h2, by simpa using h3, by simpa using h4⟩
    | some e =>
      have : m = true := by have := I.live 0 e rfl; simpa using this
      subst this
      cases fail with
      | none =>
        rcases copyLoop_of none I.tail with ⟨mem', h1, h2, h3, h4⟩ | ⟨mem', j, h1, h2, h3, h4⟩
        · exact Or.inl ⟨true :: mem', by simp [copyLoop, h1, Run.bind], h2.cons, by simp [garbage, h3], by simp⟩
        · cases h2
      | some j =>
        cases j with
        | zero =>
          exact Or.inr ⟨_, 0, rfl, rfl, by simp, by simp [List.count_replicate]⟩
        | succ j =>
          rcases copyLoop_of (some j) I.tail with ⟨mem', h1, h2, h3, h4⟩ | ⟨mem', j', h1, h2, h3, h4⟩
          · exact Or.inl ⟨true :: mem', by simp [copyLoop, h1, Run.bind], h2.cons, by simp [garbage, h3],
              by have := h4 j rfl; intro j' hj; injection hj with hj; subst hj; simp; omega⟩
          · injection h2 with h2
            subst h2
            exact Or.inr ⟨true :: mem', j + 1, by simp [copyLoop, h1, Run.bind], rfl, by simp; omega, by simp [h4]⟩

/-- A copy is a table with the same content of which nothing is lost, or the exception with the elements copied. -/
theorem copy_of {h : K → Nat} {t : LTable K V} {m : KeyMap K V} (r : HTable.HRel h t.tab m) (I : t.Inv) (fail : Option Nat) :
    (KeyMaps.throws m fail = false ∧ ∃ c, t.copy fail = .ok (.inl c) ∧ c.tab = t.tab ∧ c.Inv ∧ c.undestroyed = 0) ∨
    (KeyMaps.throws m fail = true ∧ ∃ j, fail = some j ∧ t.copy fail = .ok (.inr j)) := by
  have hc : m.count = t.tab.slots.countP Option.isSome := r.cnt.trans r.size
  rcases copyLoop_of fail I with ⟨mem', h1, h2, h3, h4⟩ | ⟨mem', j, h1, h2, h3, h4⟩
  · refine Or.inl ⟨?_, ⟨t.tab, mem', 0⟩, by simp [copy, h1, Run.bind], rfl, h2, by simp [undestroyed, h3]⟩
    cases fail with
    | none => rfl
    | some j => have := h4 j rfl; simp [KeyMaps.throws]; omega
  · subst h2
    exact Or.inr ⟨by simp [KeyMaps.throws]; omega, j, rfl, by simp [copy, h1, Run.bind, h4]⟩

end LTable

namespace Tables
variable {K V : Type} [DecidableEq K]

/-- What is not destroyed, by all tables. -/
def total : List (Option (LTable K V)) → Nat
  | [] => 0
  | none :: ts => total ts
  | some t :: ts => t.undestroyed + total ts

def one : Option (LTable K V) → Nat
  | none => 0
  | some t => t.undestroyed

theorem total_cons (x : Option (LTable K V)) (ts) : total (x :: ts) = one x + total ts := by
  cases x <;> simp [total, one]

theorem total_append (ts us : List (Option (LTable K V))) : total (ts ++ us) = total ts + total us := by
  induction ts with
  | nil => simp [total]
  | cons x ts ih => simp only [List.cons_append, total_cons, ih]; omega

theorem total_set : ∀ (ts : List (Option (LTable K V))) (i : Nat) (x y : Option (LTable K V)), ts[i]? = some x →
    total (ts.set i y) + one x = total ts + one y
  | [], i, x, y, h => by simp at h
  | z :: ts, 0, x, y, h => by simp at h; subst h; simp only [List.set_cons_zero, total_cons]; omega
  | z :: ts, i + 1, x, y, h => by
    have := total_set ts i x y (by simpa using h)
    simp only [List.set_cons_succ, total_cons]; omega

/-- The contents of the tables. -/
def proj (T : Tables K V) : List (Option (HTable K V)) := T.tabs.map (·.map LTable.tab)

/-- The contents represent the maps. -/
structure CRel (h : K → Nat) (E : List (Option (HTable K V))) (S : KeyMaps K V) : Prop where
  len : E.length = S.length
  rel : ∀ (i : Nat) (m : KeyMap K V), S[i]? = some (some m) → ∃ t, E[i]? = some (some t) ∧ HTable.HRel h t m

/-- In every occupied bucket of every table an object lives. -/
def Good (T : Tables K V) : Prop := ∀ (i : Nat) (t : LTable K V), T.tabs[i]? = some (some t) → t.Inv

theorem Good.set {T : Tables K V} (G : T.Good) (i : Nat) (x : Option (LTable K V)) (hx : ∀ t, x = some t → t.Inv) (l : Nat) :
    (⟨T.tabs.set i x, l⟩ : Tables K V).Good := by
  intro j t hj
  simp only [List.getElem?_set] at hj
  split at hj
  · split at hj
    · exact hx t (by simpa using hj)
    · cases hj
  · exact G j t hj

theorem Good.append {T : Tables K V} (G : T.Good) (t : LTable K V) (ht : t.Inv) (l : Nat) :
    (⟨T.tabs ++ [some t], l⟩ : Tables K V).Good := by
  intro j u hj
  simp only [List.getElem?_append] at hj
  split at hj
  · exact G j u hj
  · have : j - T.tabs.length = 0 := by
      rcases Nat.eq_zero_or_pos (j - T.tabs.length) with h0 | h0
      · exact h0
      · rw [List.getElem?_eq_none (by simp; omega)] at hj; cases hj
    rw [this] at hj
    simp at hj
    exact hj ▸ ht

theorem CRel.set {h : K → Nat} {E : List (Option (HTable K V))} {S : KeyMaps K V} (C : CRel h E S) (i : Nat)
    {t : HTable K V} {m : KeyMap K V} (r : HTable.HRel h t m) : CRel h (E.set i (some t)) (S.set i (some m)) := by
  refine ⟨by simp [C.len], fun j m' hj => ?_⟩
  simp only [List.getElem?_set] at hj ⊢
  by_cases hij : i = j
  · subst hij
    simp only [if_true] at hj ⊢
    split at hj
    · rename_i hl
      simp at hj
      subst hj
      exact ⟨t, by rw [if_pos (by rw [C.len]; exact hl)], r⟩
    · cases hj
  · rw [if_neg hij] at hj ⊢
    exact C.rel j m' hj

theorem CRel.kill {h : K → Nat} {E : List (Option (HTable K V))} {S : KeyMaps K V} (C : CRel h E S) (i : Nat) :
    CRel h (E.set i none) (S.set i none) := by
  refine ⟨by simp [C.len], fun j m' hj => ?_⟩
  simp only [List.getElem?_set] at hj ⊢
  by_cases hij : i = j
  · subst hij
    simp only [if_true] at hj
    split at hj <;> simp at hj
  · rw [if_neg hij] at hj ⊢
    exact C.rel j m' hj

theorem CRel.append {h : K → Nat} {E : List (Option (HTable K V))} {S : KeyMaps K V} (C : CRel h E S)
    {t : HTable K V} {m : KeyMap K V} (r : HTable.HRel h t m) : CRel h (E ++ [some t]) (S ++ [some m]) := by
  refine ⟨by simp [C.len], fun j m' hj => ?_⟩
  simp only [List.getElem?_append] at hj ⊢
  rw [C.len]
  split
  · rename_i hl; rw [if_pos hl] at hj; exact C.rel j m' hj
  · rename_i hl
    rw [if_neg hl] at hj
    rcases Nat.eq_zero_or_pos (j - S.length) with h0 | h0
    · rw [h0] at hj ⊢
      simp at hj
      exact ⟨t, by simp, hj ▸ r⟩
    · rw [List.getElem?_eq_none (by simp; omega)] at hj; cases hj

theorem KeyMaps.get_some {S : KeyMaps K V} {i : Nat} {m : KeyMap K V} (hg : S.get i = some m) : S[i]? = some (some m) := by
  unfold KeyMaps.get at hg
  cases hs : S[i]? with
  | none => simp [hs] at hg
  | some x => rw [hs] at hg; simp at hg; rw [hg]

/-- A living map is a living table. -/
theorem CRel.get {h : K → Nat} {E : List (Option (HTable K V))} {S : KeyMaps K V} (C : CRel h E S) {i : Nat}
    {m : KeyMap K V} (hg : S.get i = some m) : ∃ t0, E[i]? = some (some t0) ∧ HTable.HRel h t0 m ∧
      ∀ T : Tables K V, T.proj = E → T.Good → ∃ t, T.get i = .ok t ∧ T.tabs[i]? = some (some t) ∧ t.tab = t0 ∧ t.Inv := by
  obtain ⟨t0, h1, h2⟩ := C.rel i m (KeyMaps.get_some hg)
  refine ⟨t0, h1, h2, fun T hT G => ?_⟩
  have h3 : (T.tabs[i]?).map (·.map LTable.tab) = some (some t0) := by
    rw [← h1, ← hT]; simp [proj]
  cases ht : T.tabs[i]? with
  | none => simp [ht] at h3
  | some x =>
    cases x with
    | none => simp [ht] at h3
    | some t =>
      simp [ht] at h3
      exact ⟨t, by simp [Tables.get, ht], by simp, h3, G i t ht⟩

end Tables
end CoEcs

namespace CoEcs.Tables
open Spec
variable {K V : Type} [DecidableEq K]

/-- What is lost or will be. -/
def undestroyed (T : Tables K V) : Nat := T.lost + total T.tabs

theorem proj_set (T : Tables K V) (i : Nat) (x : Option (LTable K V)) (l : Nat) :
    (⟨T.tabs.set i x, l⟩ : Tables K V).proj = T.proj.set i (x.map LTable.tab) := by
  simp [proj, List.map_set]

theorem proj_append (T : Tables K V) (t : LTable K V) (l : Nat) :
    (⟨T.tabs ++ [some t], l⟩ : Tables K V).proj = T.proj ++ [some t.tab] := by
  simp [proj]

/-- The objects lost by one call. -/
def stepLeaks (S : KeyMaps K V) (op : TabOp K V) : Nat := S.erases op + S.wasted op

theorem leaks_cons (S : KeyMaps K V) (op : TabOp K V) (ops : List (TabOp K V)) {r : KeyMaps K V × TabAns K V}
    (hs : S.step op = some r) : S.leaks (op :: ops) = stepLeaks S op + KeyMaps.leaks r.1 ops := by
  rw [KeyMaps.leaks, hs]
  rfl

theorem stepLeaks_call (S : KeyMaps K V) (i : Nat) (op : HashOp K V) {m : KeyMap K V} (hm : S.get i = some m) :
    stepLeaks S (.call i op) = m.erased [op] := by
  cases op <;> simp [stepLeaks, KeyMap.erased, KeyMaps.erases, KeyMaps.wasted, hm]

/-- One call on the tables does what it does on the maps. -/
theorem step_of {h : K → Nat} {E : List (Option (HTable K V))} {S : KeyMaps K V} (C : CRel h E S) (op : TabOp K V)
    (hop : TabOps.Ok [op]) {S' : KeyMaps K V} {a : TabAns K V} (hs : S.step op = some (S', a)) :
    ∃ E' F, CRel h E' S' ∧ ∀ f, F ≤ f → ∀ T : Tables K V, T.proj = E → T.Good →
      ∃ T', T.step h f op = .ok (T', a) ∧ T'.proj = E' ∧ T'.Good ∧ T'.undestroyed = T.undestroyed + stepLeaks S op := by
  have hop := hop op (List.mem_singleton.2 rfl)
  cases op with
  | create n =>
    simp only [KeyMaps.step, Option.some.injEq, Prod.mk.injEq] at hs
    obtain ⟨rfl, rfl⟩ := hs
    have hn : PowTwo n := hop
    obtain ⟨lt, h1, h2, h3, h4⟩ := LTable.mk'_of (K := K) (V := V) (n := n) (t' := ⟨n, List.replicate n none, 0⟩)
      (by simp [HTable.mk', hn.even])
    refine ⟨_, 0, C.append (HTable.HRel.fresh h hn), fun f _ T hT G => ⟨⟨T.tabs ++ [some lt], T.lost⟩, ?_, ?_, ?_, ?_⟩⟩
    · simp [Tables.step, h1, Run.bind]
    · rw [proj_append, hT, h2]
    · exact G.append lt h3 _
    · simp [undestroyed, total_append, total, h4, stepLeaks, KeyMaps.erases, KeyMaps.wasted]
  | call i op =>
    cases hm : S.get i with
    | none => simp [KeyMaps.step, hm] at hs
    | some m =>
      simp only [KeyMaps.step, hm, Option.map_some, Option.some.injEq, Prod.mk.injEq] at hs
      obtain ⟨rfl, rfl⟩ := hs
      obtain ⟨t0, h1, r, hg⟩ := C.get hm
      obtain ⟨t1, ⟨F, hF⟩, r1⟩ := r.step op (fun n hn => by subst hn; exact hop)
      refine ⟨_, F, C.set i r1, fun f hf T hT G => ?_⟩
      obtain ⟨t, g1, g2, g3, g4⟩ := hg T hT G
      subst g3
      obtain ⟨lt, k1, k2, k3, k4⟩ := LTable.step_of r r1 g4 (hF f hf)
      refine ⟨⟨T.tabs.set i (some lt), T.lost⟩, ?_, ?_, ?_, ?_⟩
      · simp [Tables.step, g1, Run.bind, k1]
      · rw [proj_set, hT]; simp [k2]
      · exact G.set i _ (fun t ht => by injection ht with ht; exact ht ▸ k3) _
      · have := total_set T.tabs i _ (some lt) g2
        simp only [one] at this
        rw [stepLeaks_call S i op hm]
        simp only [undestroyed]; omega
  | copy i fail =>
    cases hm : S.get i with
    | none => simp [KeyMaps.step, hm] at hs
    | some m =>
      obtain ⟨t0, h1, r, hg⟩ := C.get hm
      cases ht : KeyMaps.throws m fail with
      | false =>
        simp [KeyMaps.step, hm, ht] at hs
        obtain ⟨rfl, rfl⟩ := hs
        refine ⟨_, 0, C.append r, fun f _ T hT G => ?_⟩
        obtain ⟨t, g1, g2, g3, g4⟩ := hg T hT G
        subst g3
        rcases LTable.copy_of r g4 fail with ⟨-, c, k1, k2, k3, k4⟩ | ⟨k0, -⟩
        · refine ⟨⟨T.tabs ++ [some c], T.lost⟩, ?_, ?_, ?_, ?_⟩
          · simp [Tables.step, g1, Run.bind, k1]
          · rw [proj_append, hT, k2]
          · exact G.append c k3 _
          · have : stepLeaks S (.copy i fail) = 0 := by
              cases fail with
              | none => rfl
              | some j => simp [KeyMaps.throws] at ht; simp [stepLeaks, KeyMaps.erases, KeyMaps.wasted, hm]; omega
            simp [undestroyed, total_append, total, k4, this]
        · rw [ht] at k0; cases k0
      | true =>
        simp [KeyMaps.step, hm, ht] at hs
        obtain ⟨rfl, rfl⟩ := hs
        refine ⟨_, 0, C, fun f _ T hT G => ?_⟩
        obtain ⟨t, g1, g2, g3, g4⟩ := hg T hT G
        subst g3
        rcases LTable.copy_of r g4 fail with ⟨k0, -⟩ | ⟨-, j, hj, k1⟩
        · rw [ht] at k0; cases k0
        · subst hj
          refine ⟨⟨T.tabs, T.lost + j⟩, by simp [Tables.step, g1, Run.bind, k1], hT, G, ?_⟩
          simp [KeyMaps.throws] at ht
          simp [undestroyed, stepLeaks, KeyMaps.erases, KeyMaps.wasted, hm, ht]; omega
  | copyAssign d s fail =>
    cases hd : S.get d with
    | none => simp [KeyMaps.step, hd] at hs
    | some md =>
    cases hm : S.get s with
    | none => simp [KeyMaps.step, hd, hm] at hs
    | some m =>
      obtain ⟨t0, h1, r, hg⟩ := C.get hm
      obtain ⟨td, -, rd, hgd⟩ := C.get hd
      cases ht : KeyMaps.throws m fail with
      | false =>
        simp [KeyMaps.step, hd, hm, ht] at hs
        obtain ⟨rfl, rfl⟩ := hs
        refine ⟨_, 0, C.set d r, fun f _ T hT G => ?_⟩
        obtain ⟨t, g1, g2, g3, g4⟩ := hg T hT G
        obtain ⟨u, u1, u2, u3, u4⟩ := hgd T hT G
        subst g3
        rcases LTable.copy_of r g4 fail with ⟨-, c, k1, k2, k3, k4⟩ | ⟨k0, -⟩
        · refine ⟨⟨T.tabs.set d (some c), T.lost + u.undestroyed⟩, ?_, ?_, ?_, ?_⟩
          · simp [Tables.step, g1, u1, Run.bind, k1, LTable.destruct_of u4]
          · rw [proj_set, hT]; simp [k2]
          · exact G.set d _ (fun t ht => by injection ht with ht; exact ht ▸ k3) _
          · have h0 : stepLeaks S (.copyAssign d s fail) = 0 := by
              cases fail with
              | none => rfl
              | some j => simp [KeyMaps.throws] at ht; simp [stepLeaks, KeyMaps.erases, KeyMaps.wasted, hm]; omega
            have := total_set T.tabs d _ (some c) u2
            simp only [one, k4] at this
            simp only [undestroyed, h0]; omega
        · rw [ht] at k0; cases k0
      | true =>
        simp [KeyMaps.step, hd, hm, ht] at hs
        obtain ⟨rfl, rfl⟩ := hs
        refine ⟨_, 0, C, fun f _ T hT G => ?_⟩
        obtain ⟨t, g1, g2, g3, g4⟩ := hg T hT G
        obtain ⟨u, u1, u2, u3, u4⟩ := hgd T hT G
        subst g3
        rcases LTable.copy_of r g4 fail with ⟨k0, -⟩ | ⟨-, j, hj, k1⟩
        · rw [ht] at k0; cases k0
        · subst hj
          refine ⟨⟨T.tabs, T.lost + j⟩, by simp [Tables.step, g1, u1, Run.bind, k1], hT, G, ?_⟩
          simp [KeyMaps.throws] at ht
          simp [undestroyed, stepLeaks, KeyMaps.erases, KeyMaps.wasted, hm, ht]; omega
  | move i =>
    cases hm : S.get i with
    | none => simp [KeyMaps.step, hm] at hs
    | some m =>
      simp only [KeyMaps.step, hm, Option.map_some, Option.some.injEq, Prod.mk.injEq] at hs
      obtain ⟨rfl, rfl⟩ := hs
      obtain ⟨t0, h1, r, hg⟩ := C.get hm
      obtain ⟨lt, l1, l2, l3, l4⟩ := LTable.mk'_of (K := K) (V := V) (n := HTable.defaultBucketCount)
        (t' := HTable.empty) rfl
      refine ⟨_, 0, (C.set i (HTable.HRel.empty h)).append r, fun f hf T hT G => ?_⟩
      obtain ⟨t, g1, g2, g3, g4⟩ := hg T hT G
      subst g3
      have G' := G.set i (some lt) (fun t ht => by injection ht with ht; exact ht ▸ l3) T.lost
      refine ⟨⟨T.tabs.set i (some lt) ++ [some t], T.lost⟩, ?_, ?_, ?_, ?_⟩
      · simp [Tables.step, g1, Run.bind, l1]
      · rw [show (⟨T.tabs.set i (some lt) ++ [some t], T.lost⟩ : Tables K V)
            = ⟨(⟨T.tabs.set i (some lt), T.lost⟩ : Tables K V).tabs ++ [some t], T.lost⟩ from rfl, proj_append, proj_set, hT]
        simp [l2]
      · exact G'.append t g4 _
      · have := total_set T.tabs i _ (some lt) g2
        simp only [one, l4] at this
        simp [undestroyed, total_append, total, stepLeaks, KeyMaps.erases, KeyMaps.wasted]; omega
  | moveAssign d s =>
    cases hd : S.get d with
    | none => simp [KeyMaps.step, hd] at hs
    | some md =>
    cases hm : S.get s with
    | none => simp [KeyMaps.step, hd, hm] at hs
    | some m =>
      obtain ⟨t0, h1, r, hg⟩ := C.get hm
      obtain ⟨td, -, rd, hgd⟩ := C.get hd
      simp [KeyMaps.step, hd, hm] at hs
      obtain ⟨rfl, rfl⟩ := hs
      refine ⟨_, 0, (C.set d r).set s rd, fun f _ T hT G => ?_⟩
      obtain ⟨t, g1, g2, g3, g4⟩ := hg T hT G
      obtain ⟨u, u1, u2, u3, u4⟩ := hgd T hT G
      subst g3
      subst u3
      have G1 := G.set d (some t) (fun t ht => by injection ht with ht; exact ht ▸ g4) T.lost
      refine ⟨⟨(T.tabs.set d (some t)).set s (some u), T.lost⟩, ?_, ?_, ?_, ?_⟩
      · simp [Tables.step, g1, u1, Run.bind]
      · rw [show (⟨(T.tabs.set d (some t)).set s (some u), T.lost⟩ : Tables K V)
            = ⟨(⟨T.tabs.set d (some t), T.lost⟩ : Tables K V).tabs.set s (some u), T.lost⟩ from rfl, proj_set, proj_set, hT]
        rfl
      · exact G1.set s _ (fun t ht => by injection ht with ht; exact ht ▸ u4) _
      · have e1 := total_set T.tabs d _ (some t) u2
        have hl : d < T.tabs.length := by
          rcases Nat.lt_or_ge d T.tabs.length with hl | hl
          · exact hl
          · rw [List.getElem?_eq_none hl] at u2; cases u2
        have e2 := total_set (T.tabs.set d (some t)) s (some t) (some u) (by
          rw [List.getElem?_set]
          by_cases hds : d = s
          · rw [if_pos hds, if_pos hl]
          · rw [if_neg hds]; exact g2)
        simp only [one] at e1 e2
        simp [undestroyed, stepLeaks, KeyMaps.erases, KeyMaps.wasted]; omega
  | destroy i =>
    cases hm : S.get i with
    | none => simp [KeyMaps.step, hm] at hs
    | some m =>
      simp only [KeyMaps.step, hm, Option.map_some, Option.some.injEq, Prod.mk.injEq] at hs
      obtain ⟨rfl, rfl⟩ := hs
      obtain ⟨t0, h1, r, hg⟩ := C.get hm
      refine ⟨_, 0, C.kill i, fun f _ T hT G => ?_⟩
      obtain ⟨t, g1, g2, g3, g4⟩ := hg T hT G
      refine ⟨⟨T.tabs.set i none, T.lost + t.undestroyed⟩, ?_, ?_, ?_, ?_⟩
      · simp [Tables.step, g1, Run.bind, LTable.destruct_of g4]
      · rw [proj_set, hT]; rfl
      · exact G.set i _ (fun t ht => by cases ht) _
      · have := total_set T.tabs i _ none g2
        simp only [one] at this
        simp [undestroyed, stepLeaks, KeyMaps.erases, KeyMaps.wasted]; omega

theorem run_of {h : K → Nat} (ops : List (TabOp K V)) : ∀ {E : List (Option (HTable K V))} {S : KeyMaps K V}, CRel h E S →
    TabOps.Ok ops → ∀ {S' : KeyMaps K V} {as : List (TabAns K V)}, S.run ops = some (S', as) →
    ∃ F, ∀ f, F ≤ f → ∀ T : Tables K V, T.proj = E → T.Good →
      ∃ T', T.run h f ops = .ok (T', as) ∧ T'.Good ∧ T'.undestroyed = T.undestroyed + S.leaks ops := by
  induction ops with
  | nil =>
    intro E S C _ S' as hs
    simp only [KeyMaps.run, Option.some.injEq, Prod.mk.injEq] at hs
    obtain ⟨rfl, rfl⟩ := hs
    exact ⟨0, fun f _ T hT G => ⟨T, rfl, G, by simp [KeyMaps.leaks]⟩⟩
  | cons op ops ih =>
    intro E S C hok S' as hs
    cases h1 : S.step op with
    | none => simp [KeyMaps.run, h1] at hs
    | some r =>
      obtain ⟨S1, a⟩ := r
      cases h2 : KeyMaps.run S1 ops with
      | none => simp [KeyMaps.run, h1, h2] at hs
      | some r2 =>
        obtain ⟨S2, as2⟩ := r2
        simp [KeyMaps.run, h1, h2] at hs
        obtain ⟨rfl, rfl⟩ := hs
        obtain ⟨E1, F1, C1, k1⟩ := step_of C op (fun o ho => by
          rw [List.mem_singleton] at ho; exact hok o (ho ▸ List.mem_cons_self ..)) h1
        obtain ⟨F2, k2⟩ := ih C1 (fun o ho => hok o (List.mem_cons_of_mem _ ho)) h2
        refine ⟨max F1 F2, fun f hf T hT G => ?_⟩
        obtain ⟨T1, a1, a2, a3, a4⟩ := k1 f (by omega) T hT G
        obtain ⟨T2, b1, b2, b3⟩ := k2 f (by omega) T1 a2 a3
        refine ⟨T2, by simp [Tables.run, a1, Run.bind, b1], b2, ?_⟩
        rw [leaks_cons S op ops h1, b3, a4, Nat.add_assoc]

theorem finish_of : ∀ (ts : List (Option (LTable K V))) (l : Nat), (∀ (i : Nat) t, ts[i]? = some (some t) → t.Inv) →
    finish ts l = .ok (l + total ts)
  | [], l, _ => by simp [finish, total]
  | none :: ts, l, G => by
    simpa [finish, total] using finish_of ts l (fun i t ht => G (i + 1) t (by simpa using ht))
  | some t :: ts, l, G => by
    have h1 : t.Inv := G 0 t rfl
    have := finish_of ts (l + t.undestroyed) (fun i t ht => G (i + 1) t (by simpa using ht))
    simp only [finish, LTable.destruct_of h1, Run.bind, this, total]
    congr 1; omega

end CoEcs.Tables
