import Verif.Model.HashLife
import Verif.Proofs.HashTableStuck

/-!
# Object lifetimes in the hash table
-/

namespace CoEcs
open Spec
namespace LTable
variable {K V : Type} [DecidableEq K]

/-- In every occupied bucket an object lives. -/
structure MInv (slots : List (Option (HEntry K V))) (mem : List Bool) : Prop where
  len : mem.length = slots.length
  live : ∀ (i : Nat) (e : HEntry K V), slots[i]? = some (some e) → mem[i]? = some true

def gOne (s : Option (HEntry K V)) (m : Bool) : Nat := if s.isNone && m then 1 else 0

theorem garbage_set_slot : ∀ (slots : List (Option (HEntry K V))) (mem : List Bool) (i : Nat) (x y : Option (HEntry K V)) (b : Bool),
    slots[i]? = some x → mem[i]? = some b → garbage (slots.set i y) mem + gOne x b = garbage slots mem + gOne y b
  | [], _, _, _, _, _, h, _ => by simp at h
  | _ :: _, [], _, _, _, _, _, h => by simp at h
  | s :: ss, m :: ms, 0, x, y, b, h1, h2 => by
    simp only [List.getElem?_cons_zero, Option.some.injEq] at h1 h2
    subst h1 h2
    simp only [List.set_cons_zero, garbage, gOne]
    omega
  | s :: ss, m :: ms, i + 1, x, y, b, h1, h2 => by
    simp only [List.getElem?_cons_succ] at h1 h2
    have := garbage_set_slot ss ms i x y b h1 h2
    simp only [List.set_cons_succ, garbage]
    omega

theorem garbage_set_both : ∀ (slots : List (Option (HEntry K V))) (mem : List Bool) (i : Nat) (x y : Option (HEntry K V)) (b c : Bool),
    slots[i]? = some x → mem[i]? = some b → garbage (slots.set i y) (mem.set i c) + gOne x b = garbage slots mem + gOne y c
  | [], _, _, _, _, _, _, h, _ => by simp at h
  | _ :: _, [], _, _, _, _, _, _, h => by simp at h
  | s :: ss, m :: ms, 0, x, y, b, c, h1, h2 => by
    simp only [List.getElem?_cons_zero, Option.some.injEq] at h1 h2
    subst h1 h2
    simp only [List.set_cons_zero, garbage, gOne]
    omega
  | s :: ss, m :: ms, i + 1, x, y, b, c, h1, h2 => by
    simp only [List.getElem?_cons_succ] at h1 h2
    have := garbage_set_both ss ms i x y b c h1 h2
    simp only [List.set_cons_succ, garbage]
    omega

theorem MInv.get {slots : List (Option (HEntry K V))} {mem : List Bool} (I : MInv slots mem) {i : Nat} {x : Option (HEntry K V)}
    (h : slots[i]? = some x) : ∃ b, mem[i]? = some b := by
  obtain ⟨hi, -⟩ := List.getElem?_eq_some_iff.1 h
  exact ⟨mem[i]'(by rw [I.len]; exact hi), List.getElem?_eq_getElem _⟩

theorem MInv.set {slots : List (Option (HEntry K V))} {mem : List Bool} (I : MInv slots mem) {i : Nat} {y : Option (HEntry K V)}
    (h : y.isSome → mem[i]? = some true) : MInv (slots.set i y) mem := by
  refine ⟨by rw [List.length_set]; exact I.len, ?_⟩
  intro j e he
  rw [List.getElem?_set] at he
  split at he
  · rename_i hij
    subst hij
    split at he
    · simp only [Option.some.injEq] at he
      exact h (by simp [he])
    · cases he
  · exact I.live j e he

theorem MInv.construct {slots : List (Option (HEntry K V))} {mem : List Bool} (I : MInv slots mem) (i : Nat) (y : Option (HEntry K V)) :
    MInv (slots.set i y) (mem.set i true) := by
  refine ⟨by simp only [List.length_set]; exact I.len, ?_⟩
  intro j e he
  rw [List.getElem?_set] at he ⊢
  split at he
  · rename_i hij
    subst hij
    split at he
    · rename_i h; rw [if_pos rfl, if_pos (by rw [I.len]; exact h)]
    · cases he
  · rename_i hij
    rw [if_neg hij]
    exact I.live j e he

theorem emplaceLoop_of (asg : Bool) (n hash : Nat) : ∀ (fuel : Nat) (slots : List (Option (HEntry K V))) (mem : List Bool)
    (temp : HEntry K V) (index : Nat) (ret : Option Nat) (s' : List (Option (HEntry K V))) (j : Nat) (ins : Bool), MInv slots mem →
    HTable.emplaceLoop asg n hash fuel slots temp index ret = .ok (s', j, ins) →
    ∃ mem' d, emplaceLoop asg n hash fuel slots mem temp index ret = .ok (s', mem', j, ins, d) ∧ MInv s' mem' ∧
      garbage s' mem' + d = garbage slots mem := by
  intro fuel
  induction fuel with
  | zero => intro slots mem temp index ret s' j ins I h; cases h
  | succ fuel ih =>
    intro slots mem temp index ret s' j ins I h
    unfold HTable.emplaceLoop at h
    unfold emplaceLoop
    by_cases hi : index < n
    case neg => simp [hi] at h
    simp only [if_pos hi] at h ⊢
    cases hx : slots[index]? with
    | none => simp [hx] at h
    | some x =>
      obtain ⟨b, hb⟩ := I.get hx
      cases x with
      | none =>
        simp only [hx] at h
        simp only [hb]
        injection h with h
        simp only [Prod.mk.injEq] at h
        obtain ⟨h1, h2, h3⟩ := h
        subst h1 h2 h3
        refine ⟨_, _, rfl, I.construct _ _, ?_⟩
        have := garbage_set_both slots mem index none (some temp) b true hx hb
        simp [gOne] at this
        omega
      | some e =>
        have ht := I.live _ _ hx
        rw [ht] at hb; cases hb
        simp only [hx] at h
        simp only [ht, Bool.true_eq_false, and_false, if_false, if_true]
        split at h
        · rename_i hc
          rw [if_pos hc]
          injection h with h
          simp only [Prod.mk.injEq] at h
          obtain ⟨h1, h2, h3⟩ := h
          subst h1 h2 h3
          refine ⟨_, _, rfl, ?_, ?_⟩
          · split
            · exact I.set (fun _ => ht)
            · exact I
          · split
            · have := garbage_set_slot slots mem index _ (some { e with val := temp.val }) true hx ht
              simp [gOne] at this
              omega
            · rfl
        · rename_i hc
          rw [if_neg hc]
          split at h
          · rename_i hp
            rw [if_pos hp]
            obtain ⟨mem', d, h1, h2, h3⟩ := ih _ mem _ _ _ _ _ _ (I.set (fun _ => ht)) h
            refine ⟨mem', d, h1, h2, ?_⟩
            have := garbage_set_slot slots mem index _ (some temp) true hx ht
            simp [gOne] at this
            omega
          · rename_i hp
            rw [if_neg hp]
            exact ih _ mem _ _ _ _ _ _ I h

/-- The invariant of a table: with `lost`, the objects that will not be destroyed. -/
def Inv (t : LTable K V) : Prop := MInv t.tab.slots t.mem

def undestroyed (t : LTable K V) : Nat := t.lost + garbage t.tab.slots t.mem

theorem emplaceRaw_of {h : K → Nat} {asg : Bool} {fuel : Nat} {t : LTable K V} {k : K} {v : V} {t' : HTable K V} {j : Nat} {ins : Bool}
    (I : t.Inv) (hh : t.tab.emplaceRaw h asg fuel k v = .ok (t', j, ins)) :
    ∃ lt, t.emplaceRaw h asg fuel k v = .ok (lt, j, ins) ∧ lt.tab = t' ∧ lt.Inv ∧ lt.undestroyed = t.undestroyed := by
  unfold HTable.emplaceRaw at hh
  obtain ⟨⟨s', j', ins'⟩, h1, h2⟩ := Run.bind_ok hh
  injection h2 with h2
  simp only [Prod.mk.injEq] at h2
  obtain ⟨e1, e2, e3⟩ := h2
  subst e1 e2 e3
  obtain ⟨mem', d, h3, h4, h5⟩ := emplaceLoop_of asg _ _ fuel _ t.mem _ _ _ _ _ _ I h1
  refine ⟨⟨⟨t.tab.n, s', if ins' then t.tab.size + 1 else t.tab.size⟩, mem', t.lost + d⟩, by rw [LTable.emplaceRaw, h3]; rfl, rfl, h4, ?_⟩
  simp only [undestroyed]
  omega

theorem reinsert_of {h : K → Nat} {fuel : Nat} : ∀ (es : List (HEntry K V)) {t : LTable K V} {t' : HTable K V}, t.Inv →
    HTable.reinsert h fuel t.tab es = .ok t' →
    ∃ lt, reinsert h fuel t es = .ok lt ∧ lt.tab = t' ∧ lt.Inv ∧ lt.undestroyed = t.undestroyed := by
  intro es
  induction es with
  | nil => intro t t' I hh; cases hh; exact ⟨t, rfl, rfl, I, rfl⟩
  | cons e es ih =>
    intro t t' I hh
    obtain ⟨⟨t1, j, ins⟩, h1, h2⟩ := Run.bind_ok hh
    obtain ⟨lt, h3, h4, h5, h6⟩ := emplaceRaw_of I h1
    subst h4
    obtain ⟨lt', h7, h8, h9, h10⟩ := ih h5 h2
    exact ⟨lt', by rw [reinsert, h3]; exact h7, h8, h9, h10.trans h6⟩

theorem destroyOccupied_ok : ∀ {slots : List (Option (HEntry K V))} {mem : List Bool}, MInv slots mem →
    ∃ mem', destroyOccupied slots mem = some mem' ∧ mem'.count true = garbage slots mem ∧ mem'.length = mem.length
  | [], mem, I => by
    have : mem = [] := List.eq_nil_of_length_eq_zero I.len
    subst this
    exact ⟨[], rfl, rfl, rfl⟩
  | _ :: _, [], I => by have := I.len; simp at this
  | s :: ss, m :: ms, I => by
    have I' : MInv ss ms := ⟨by have := I.len; simpa using this, fun i e he => by have := I.live (i + 1) e (by simpa using he); simpa using this⟩
    obtain ⟨mem', h1, h2, h3⟩ := destroyOccupied_ok I'
    cases s with
    | none =>
      refine ⟨m :: mem', by simp [destroyOccupied, h1], ?_, by simp [h3]⟩
      cases m <;> simp [garbage, h2]; omega
    | some e =>
      have : m = true := by have := I.live 0 e rfl; simpa using this
      subst this
      exact ⟨false :: mem', by simp [destroyOccupied, h1], by simp [garbage, h2], by simp [h3]⟩

theorem garbage_none : ∀ (slots : List (Option (HEntry K V))) (mem : List Bool), mem.length = slots.length →
    garbage (slots.map fun _ => (none : Option (HEntry K V))) mem = mem.count true
  | [], mem, h => by
    have : mem = [] := List.eq_nil_of_length_eq_zero h
    subst this; rfl
  | _ :: _, [], h => by simp at h
  | s :: ss, m :: ms, h => by
    have := garbage_none ss ms (by simpa using h)
    cases m <;> simp [garbage, this]; omega

theorem garbage_fresh (n : Nat) : garbage (List.replicate n (none : Option (HEntry K V))) (List.replicate n false) = 0 := by
  induction n with
  | zero => rfl
  | succ n ih => simp [List.replicate_succ, garbage, ih]

theorem mk'_of {n : Nat} {t' : HTable K V} (hh : HTable.mk' n = .ok t') :
    ∃ lt : LTable K V, mk' n = .ok lt ∧ lt.tab = t' ∧ lt.Inv ∧ lt.undestroyed = 0 := by
  unfold HTable.mk' at hh
  split at hh
  · rename_i he
    injection hh with hh
    subst hh
    refine ⟨_, by simp only [mk', HTable.mk', if_pos he]; rfl, rfl, ⟨by simp, ?_⟩, ?_⟩
    · intro i e h
      simp only [List.getElem?_replicate] at h
      split at h <;> cases h
    · simp [undestroyed, garbage_fresh]
  · cases hh

theorem reserve_of {h : K → Nat} {fuel : Nat} {t : LTable K V} {n : Nat} {t' : HTable K V} (I : t.Inv)
    (hh : t.tab.reserve h fuel n = .ok t') :
    ∃ lt, t.reserve h fuel n = .ok lt ∧ lt.tab = t' ∧ lt.Inv ∧ lt.undestroyed = t.undestroyed := by
  unfold HTable.reserve at hh
  unfold LTable.reserve
  split at hh
  · rename_i hc
    injection hh with hh
    subst hh
    exact ⟨t, by rw [if_pos hc], rfl, I, rfl⟩
  · rename_i hc
    obtain ⟨t0, h1, h2⟩ := Run.bind_ok hh
    obtain ⟨es, h3, h4⟩ := Run.bind_ok h2
    obtain ⟨lt0, h5, h6, h7, h8⟩ := mk'_of h1
    subst h6
    obtain ⟨lt1, h9, h10, h11, h12⟩ := reinsert_of es h7 h4
    obtain ⟨mem', h13, h14, -⟩ := destroyOccupied_ok I
    refine ⟨{ lt1 with lost := t.lost + lt1.lost + mem'.count true }, ?_, h10, h11, ?_⟩
    · rw [if_neg hc, h5]
      simp only [Run.bind, h3, h9, h13]
    · simp only [undestroyed] at h12 h8 ⊢
      omega

theorem emplace_of {h : K → Nat} {asg : Bool} {fuel : Nat} {t : LTable K V} {k : K} {v : V} {t' : HTable K V} {j : Nat} {ins : Bool}
    (I : t.Inv) (hh : t.tab.emplace h asg fuel k v = .ok (t', j, ins)) :
    ∃ lt, t.emplace h asg fuel k v = .ok (lt, j, ins) ∧ lt.tab = t' ∧ lt.Inv ∧ lt.undestroyed = t.undestroyed := by
  unfold HTable.emplace at hh
  unfold LTable.emplace
  obtain ⟨t1, h1, h2⟩ := Run.bind_ok hh
  split at h1
  · rename_i hc
    obtain ⟨lt1, h3, h4, h5, h6⟩ := reserve_of I h1
    subst h4
    obtain ⟨lt, h7, h8, h9, h10⟩ := emplaceRaw_of h5 h2
    exact ⟨lt, by rw [if_pos hc, h3]; exact h7, h8, h9, h10.trans h6⟩
  · rename_i hc
    injection h1 with h1
    subst h1
    rw [if_neg hc]
    exact emplaceRaw_of I h2

theorem index_of {h : K → Nat} {fuel : Nat} {t : LTable K V} {k : K} {d : V} {t' : HTable K V} {j : Nat}
    (I : t.Inv) (hh : t.tab.index h fuel k d = .ok (t', j)) :
    ∃ lt, t.index h fuel k d = .ok (lt, j) ∧ lt.tab = t' ∧ lt.Inv ∧ lt.undestroyed = t.undestroyed := by
  unfold HTable.index at hh
  unfold LTable.index
  obtain ⟨r, h1, h2⟩ := Run.bind_ok hh
  rw [h1]
  cases r with
  | some i =>
    simp only [Run.ok.injEq, Prod.mk.injEq] at h2
    obtain ⟨h2, h3⟩ := h2
    subst h2 h3
    exact ⟨t, rfl, rfl, I, rfl⟩
  | none =>
    obtain ⟨⟨t1, j1, b⟩, h3, h4⟩ := Run.bind_ok h2
    simp only [Run.ok.injEq, Prod.mk.injEq] at h4
    obtain ⟨h4, h5⟩ := h4
    subst h4 h5
    obtain ⟨lt, h6, h7, h8, h9⟩ := emplace_of I h3
    exact ⟨lt, by simp only [Run.bind, h6], h7, h8, h9⟩

theorem assign_of {h : K → Nat} {fuel : Nat} {t : LTable K V} {k : K} {d v : V} {t' : HTable K V}
    (I : t.Inv) (hh : t.tab.assign h fuel k d v = .ok t') :
    ∃ lt, t.assign h fuel k d v = .ok lt ∧ lt.tab = t' ∧ lt.Inv ∧ lt.undestroyed = t.undestroyed := by
  unfold HTable.assign at hh
  unfold LTable.assign
  obtain ⟨⟨t1, j⟩, h1, h2⟩ := Run.bind_ok hh
  obtain ⟨e, h3, h4⟩ := Run.bind_ok h2
  obtain ⟨lt, h5, h6, h7, h8⟩ := index_of I h1
  subst h6
  injection h4 with h4
  subst h4
  have hd : lt.tab.slots[j]? = some (some e) := by
    simp only [HTable.deref, HTable.slot?] at h3
    split at h3
    · rename_i e' hs
      injection h3 with h3
      subst h3
      split at hs
      · exact hs
      · cases hs
    · cases h3
  have ht := h7.live _ _ hd
  refine ⟨⟨⟨lt.tab.n, lt.tab.slots.set j (some { e with val := v }), lt.tab.size⟩, lt.mem, lt.lost⟩, by rw [h5]; simp only [Run.bind, h3],
    rfl, MInv.set h7 (fun _ => ht), ?_⟩
  have := garbage_set_slot lt.tab.slots lt.mem j _ (some { e with val := v }) true hd ht
  simp [gOne] at this
  simp only [undestroyed] at h8 ⊢
  omega

theorem shiftLoop_of (n : Nat) : ∀ (fuel : Nat) (slots : List (Option (HEntry K V))) (mem : List Bool) (i : Nat) (e0 : HEntry K V)
    (s' : List (Option (HEntry K V))), MInv slots mem → slots[i]? = some (some e0) → HTable.shiftLoop n fuel slots i = .ok s' →
    shiftLoop n fuel slots mem i = .ok s' ∧ MInv s' mem ∧ garbage s' mem = garbage slots mem + 1 := by
  intro fuel
  induction fuel with
  | zero => intro slots mem i e0 s' I hi h; cases h
  | succ fuel ih =>
    intro slots mem i e0 s' I hi h
    unfold HTable.shiftLoop at h
    unfold shiftLoop
    have ht := I.live _ _ hi
    have I1 : MInv (slots.set i none) mem := I.set (by simp)
    have g1 : garbage (slots.set i none) mem = garbage slots mem + 1 := by
      have := garbage_set_slot slots mem i _ none true hi ht
      simpa [gOne] using this
    simp only at h ⊢
    split at h
    · cases h
    · rename_i hj
      injection h with h
      subst h
      rw [hj]
      exact ⟨rfl, I1, g1⟩
    · rename_i e hj
      rw [hj]
      simp only
      have hj' : (slots.set i none)[mod2n (i + 1) n]? = some (some e) := by
        split at hj
        · exact hj
        · cases hj
      have htj := I1.live _ _ hj'
      by_cases hp : e.psl = 0
      · rw [if_pos hp] at h ⊢
        injection h with h
        subst h
        exact ⟨rfl, I1, g1⟩
      · rw [if_neg hp] at h ⊢
        rw [if_pos ⟨ht, htj⟩]
        have hii : (slots.set i none)[i]? = some none := by
          rw [List.getElem?_set, if_pos rfl, if_pos (List.getElem?_eq_some_iff.1 hi).1]
        have hne : i ≠ mod2n (i + 1) n := by
          intro hc
          rw [← hc, hii] at hj'
          cases hj'
        have I2 := I1.set (i := i) (y := some { e with psl := e.psl - 1 }) (fun _ => ht)
        have hj2 : ((slots.set i none).set i (some { e with psl := e.psl - 1 }))[mod2n (i + 1) n]? = some (some e) := by
          rw [List.getElem?_set, if_neg hne]; exact hj'
        obtain ⟨h1, h2, h3⟩ := ih _ mem _ e s' I2 hj2 h
        refine ⟨h1, h2, ?_⟩
        have := garbage_set_slot (slots.set i none) mem i _ (some { e with psl := e.psl - 1 }) true hii ht
        simp only [gOne, Option.isNone_none, Option.isNone_some, Bool.and_true, if_true, Bool.false_eq_true, if_false] at this
        omega

theorem eraseSearch_some (t : HTable K V) (hash : Nat) (key : K) : ∀ (fuel index psl i : Nat),
    HTable.eraseSearch t hash key fuel index psl = .ok (some i) → ∃ e, t.slots[i]? = some (some e) ∧ e.key = key := by
  intro fuel
  induction fuel with
  | zero => intro index psl i h; cases h
  | succ fuel ih =>
    intro index psl i h
    unfold HTable.eraseSearch at h
    cases hs : t.slot? index with
    | none => simp [hs] at h
    | some x =>
      cases x with
      | none => simp [hs] at h
      | some e =>
        simp only [hs] at h
        split at h
        · cases h
        · split at h
          · exact ih _ _ _ h
          · rename_i hk
            simp only [Run.ok.injEq, Option.some.injEq] at h
            subst h
            refine ⟨e, ?_, by grind⟩
            simp only [HTable.slot?] at hs
            split at hs
            · exact hs
            · cases hs

theorem erase_of {h : K → Nat} {fuel : Nat} {t : LTable K V} {k : K} {t' : HTable K V} {m : KeyMap K V} (r : HTable.HRel h t.tab m)
    (r' : HTable.HRel h t' (m.del k)) (I : t.Inv) (hh : t.tab.erase h fuel k = .ok t') :
    ∃ lt, t.erase h fuel k = .ok lt ∧ lt.tab = t' ∧ lt.Inv ∧
      lt.undestroyed = t.undestroyed + if (m.get k).isSome then 1 else 0 := by
  unfold HTable.erase at hh
  unfold LTable.erase
  obtain ⟨r0, h1, h2⟩ := Run.bind_ok hh
  rw [h1]
  cases r0 with
  | none =>
    simp only [Run.ok.injEq] at h2
    subst h2
    refine ⟨t, rfl, rfl, I, ?_⟩
    cases hg : m.get k with
    | none => rfl
    | some v =>
      have h3 := r'.cnt
      have h4 := r.cnt
      obtain ⟨i, e, hi, he, -⟩ := r.present hg
      have h5 : 0 < t.tab.size := by
        rw [r.size, List.countP_pos_iff]
        refine ⟨some e, ?_, rfl⟩
        simp only [HTable.at'] at he
        cases hx : t.tab.slots[i]? with
        | none => simp [hx] at he
        | some x =>
          simp [hx] at he
          subst he
          exact List.mem_of_getElem? hx
      simp [KeyMap.del, hg] at h3
      omega
  | some i =>
    obtain ⟨e, he, hk⟩ := eraseSearch_some _ _ _ _ _ _ _ h1
    have ht := I.live _ _ he
    simp only [Run.bind, if_pos ht] at h2 ⊢
    obtain ⟨s', h3, h4⟩ := Run.bind_ok (x := HTable.shiftLoop t.tab.n fuel t.tab.slots i) h2
    obtain ⟨h5, I', h6⟩ := shiftLoop_of _ _ _ _ _ _ _ I he h3
    have hg : (m.get k).isSome := by
      have hil : i < t.tab.n := by rw [← r.len]; exact (List.getElem?_eq_some_iff.1 he).1
      have := (r.mem k e.val).2 ⟨i, e, hil, by simp [HTable.at', he], hk, rfl⟩
      simp [this]
    rw [if_pos hg]
    simp only [h5]
    split at h4
    · rename_i hc
      rw [if_pos hc]
      obtain ⟨lt, h7, h8, h9, h10⟩ := reserve_of (t := ⟨⟨t.tab.n, s', t.tab.size - 1⟩, t.mem, t.lost⟩) I' h4
      refine ⟨lt, h7, h8, h9, ?_⟩
      simp only [undestroyed] at h10 ⊢
      omega
    · rename_i hc
      rw [if_neg hc]
      injection h4 with h4
      subst h4
      refine ⟨_, rfl, rfl, I', ?_⟩
      simp only [undestroyed]
      omega

theorem clear_of {t : LTable K V} (I : t.Inv) :
    ∃ lt, t.clear = .ok lt ∧ lt.tab = t.tab.clear ∧ lt.Inv ∧ lt.undestroyed = t.undestroyed := by
  obtain ⟨mem', h1, h2, h3⟩ := destroyOccupied_ok I
  have hl : mem'.length = t.tab.slots.length := h3.trans I.len
  refine ⟨⟨t.tab.clear, mem', t.lost⟩, by simp only [clear, h1], rfl, ⟨by simp [HTable.clear, hl], ?_⟩, ?_⟩
  · intro i e he
    simp only [HTable.clear, List.getElem?_map] at he
    cases hx : t.tab.slots[i]? with
    | none => simp [hx] at he
    | some x => simp [hx] at he
  · simp only [undestroyed, HTable.clear, garbage_none _ _ hl, h2]

theorem step_of {h : K → Nat} {fuel : Nat} {t : LTable K V} {m : KeyMap K V} {op : HashOp K V} {t' : HTable K V} {a : HashAns K V}
    (r : HTable.HRel h t.tab m) (r' : HTable.HRel h t' (m.step op).1) (I : t.Inv) (hh : t.tab.step h fuel op = .ok (t', a)) :
    ∃ lt, t.step h fuel op = .ok (lt, a) ∧ lt.tab = t' ∧ lt.Inv ∧ lt.undestroyed = t.undestroyed + m.erased [op] := by
  cases op with
  | emplace k v =>
    obtain ⟨⟨t1, j, b⟩, h1, h2⟩ := Run.bind_ok hh
    obtain ⟨e, h3, h4⟩ := Run.bind_ok h2
    obtain ⟨lt, h5, h6, h7, h8⟩ := emplace_of I h1
    subst h6
    simp only [Run.ok.injEq, Prod.mk.injEq] at h4
    exact ⟨lt, by simp only [LTable.step, h5, Run.bind, h3, h4.2], h4.1, h7, by simpa [KeyMap.erased] using h8⟩
  | insertOrAssign k v =>
    obtain ⟨⟨t1, j, b⟩, h1, h2⟩ := Run.bind_ok hh
    obtain ⟨e, h3, h4⟩ := Run.bind_ok h2
    obtain ⟨lt, h5, h6, h7, h8⟩ := emplace_of I h1
    subst h6
    simp only [Run.ok.injEq, Prod.mk.injEq] at h4
    exact ⟨lt, by simp only [LTable.step, h5, Run.bind, h3, h4.2], h4.1, h7, by simpa [KeyMap.erased] using h8⟩
  | index k d =>
    obtain ⟨⟨t1, j⟩, h1, h2⟩ := Run.bind_ok hh
    obtain ⟨e, h3, h4⟩ := Run.bind_ok h2
    obtain ⟨lt, h5, h6, h7, h8⟩ := index_of I h1
    subst h6
    simp only [Run.ok.injEq, Prod.mk.injEq] at h4
    exact ⟨lt, by simp only [LTable.step, h5, Run.bind, h3, h4.2], h4.1, h7, by simpa [KeyMap.erased] using h8⟩
  | assign k d v =>
    obtain ⟨t1, h1, h2⟩ := Run.bind_ok hh
    obtain ⟨lt, h5, h6, h7, h8⟩ := assign_of I h1
    subst h6
    simp only [Run.ok.injEq, Prod.mk.injEq] at h2
    exact ⟨lt, by simp only [LTable.step, h5, Run.bind, h2.2], h2.1, h7, by simpa [KeyMap.erased] using h8⟩
  | at_ k =>
    obtain ⟨x, h1, h2⟩ := Run.bind_ok hh
    simp only [Run.ok.injEq, Prod.mk.injEq] at h2
    exact ⟨t, by rw [← h2.2]; simp only [LTable.step, h1, Run.bind]; cases x <;> rfl, h2.1, I, by simp [KeyMap.erased]⟩
  | contains k =>
    obtain ⟨x, h1, h2⟩ := Run.bind_ok hh
    simp only [Run.ok.injEq, Prod.mk.injEq] at h2
    exact ⟨t, by simp only [LTable.step, h1, Run.bind, h2.2], h2.1, I, by simp [KeyMap.erased]⟩
  | erase k =>
    obtain ⟨t1, h1, h2⟩ := Run.bind_ok hh
    simp only [Run.ok.injEq, Prod.mk.injEq] at h2
    obtain ⟨h2, h3⟩ := h2
    subst h2
    obtain ⟨lt, h5, h6, h7, h8⟩ := erase_of r r' I h1
    exact ⟨lt, by simp only [LTable.step, h5, Run.bind, h3], h6, h7, by simpa [KeyMap.erased] using h8⟩
  | clear =>
    simp only [HTable.step, Run.ok.injEq, Prod.mk.injEq] at hh
    obtain ⟨lt, h5, h6, h7, h8⟩ := clear_of I
    exact ⟨lt, by simp only [LTable.step, h5, Run.bind, hh.2], h6.trans hh.1, h7, by simpa [KeyMap.erased] using h8⟩
  | reserve n =>
    obtain ⟨t1, h1, h2⟩ := Run.bind_ok hh
    obtain ⟨lt, h5, h6, h7, h8⟩ := reserve_of I h1
    subst h6
    simp only [Run.ok.injEq, Prod.mk.injEq] at h2
    exact ⟨lt, by simp only [LTable.step, h5, Run.bind, h2.2], h2.1, h7, by simpa [KeyMap.erased] using h8⟩
  | size =>
    simp only [HTable.step, Run.ok.injEq, Prod.mk.injEq] at hh
    exact ⟨t, by simp only [LTable.step, hh.2], hh.1, I, by simp [KeyMap.erased]⟩

theorem destruct_of {t : LTable K V} (I : t.Inv) : t.destruct = .ok t.undestroyed := by
  obtain ⟨mem', h1, h2, -⟩ := destroyOccupied_ok I
  simp only [destruct, h1, h2, undestroyed]

theorem run_of {h : K → Nat} (ops : List (HashOp K V)) : ∀ {t0 : HTable K V} {m : KeyMap K V}, HTable.HRel h t0 m →
    HashOps.Ok ops → ∃ F, ∀ f, F ≤ f → ∀ t : LTable K V, t.tab = t0 → t.Inv →
    ∃ lt, t.run h f ops = .ok (lt, (m.run ops).2) ∧ HTable.HRel h lt.tab (m.run ops).1 ∧ lt.Inv ∧
      lt.undestroyed = t.undestroyed + m.erased ops := by
  induction ops with
  | nil => intro t0 m r _; exact ⟨0, fun f _ t ht I => ⟨t, rfl, ht ▸ r, I, rfl⟩⟩
  | cons op ops ih =>
    intro t0 m r hok
    obtain ⟨t1, ⟨F1, h1⟩, r1⟩ := r.step op (fun n hn => hok n (hn ▸ List.mem_cons_self ..))
    obtain ⟨F2, h2⟩ := ih r1 (fun n hn => hok n (List.mem_cons_of_mem _ hn))
    refine ⟨max F1 F2, fun f hf t ht I => ?_⟩
    subst ht
    obtain ⟨lt1, h3, h4, h5, h6⟩ := step_of r r1 I (h1 f (by omega))
    obtain ⟨lt2, h7, h8, h9, h10⟩ := h2 f (by omega) lt1 h4 h5
    refine ⟨lt2, by simp only [LTable.run, h3, Run.bind, h7, KeyMap.run], h8, h9, ?_⟩
    simp [KeyMap.erased] at h6 h10 ⊢
    omega

end LTable
end CoEcs
