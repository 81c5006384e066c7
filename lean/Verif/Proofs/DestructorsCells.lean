import Verif.Proofs.DestructorsApart

/-!
# Erasing an entity while destructors call the registry
-/

namespace CoEcs
open Spec (RegOp)
variable {V : Type}

theorem flatMap_same {α β : Type} {f g : α → List β} : ∀ {l : List α}, (∀ x ∈ l, f x = g x) → l.flatMap f = l.flatMap g
  | [], _ => rfl
  | x :: l, h => by
    rw [List.flatMap_cons, List.flatMap_cons, h x (List.mem_cons_self ..), flatMap_same fun y hy => h y (List.mem_cons_of_mem _ hy)]

/-- The calls made when the object in a cell is released. -/
def cellOps (hook : Released V) : BlockId → Cell V → List (RegOp V)
  | some c, .live (.comp v) => hook c v
  | _, _ => []

/-- A registry `B s x` in which archetype `ai` holds `x`, while calls (`T`) change the rest. -/
structure Carries {σ : Type} (ai : Nat) (comps : MetaSet) (n : Nat) (B : σ → Arch V → Reg V) (T : σ → List (RegOp V) → σ → Prop)
    (calls : List (RegOp V) → Reg V → Ran (Reg V)) : Prop where
  get : ∀ s x, (B s x).archs.arches[ai]? = some x
  mod : ∀ s x f, (B s x).modArch ai f = B s (f x)
  split : ∀ s k1 k2 s2, T s (k1 ++ k2) s2 → ∃ s1, T s k1 s1 ∧ T s1 k2 s2
  nil : ∀ s s1, T s [] s1 → s1 = s
  nil' : ∀ s, T s [] s
  done : ∀ r, calls [] r = .ok r
  calls : ∀ s ks s1 x, T s ks s1 → x.comps = comps → x.chunks.length = n → calls ks (B s x) = .ok (B s1 x)

theorem releaseCell_run {σ : Type} {ai : Nat} {comps : MetaSet} {n : Nat} {B : σ → Arch V → Reg V} {T : σ → List (RegOp V) → σ → Prop}
    {calls : List (RegOp V) → Reg V → Ran (Reg V)} (C : Carries ai comps n B T calls) (hook : Released V) {s s1 : σ} {x : Arch V}
    (h1 : x.comps = comps) (h2 : x.chunks.length = n) {b : BlockId} {z : Cell V} (ho : z.occupied = true) (ht : T s (cellOps hook b z) s1) :
    Reg.releaseCell (fun r c v => calls (hook c v) r) (B s x) b z = .ok (B s1 x) := by
  cases z with
  | raw => cases ho
  | moved =>
    have : s1 = s := C.nil _ _ (by cases b <;> exact ht)
    subst this; rfl
  | live v =>
    cases v with
    | ent e =>
      have : s1 = s := C.nil _ _ (by cases b <;> exact ht)
      subst this; rfl
    | comp v =>
      cases b with
      | none =>
        have : s1 = s := C.nil _ _ ht
        subst this; rfl
      | some c => exact C.calls s _ s1 x ht h1 h2

/-! ### One entry -/

/-- Other contents for one entry. -/
def Arch.put1 (a : Arch V) (ci idx : Nat) (row : Row V) (t : Tally) : Arch V :=
  { a with chunks := a.chunks.modify ci (·.setRow idx row), tally := t }

theorem put1_len (a : Arch V) (ci idx : Nat) (row : Row V) (t : Tally) : (a.put1 ci idx row t).chunks.length = a.chunks.length := by
  simp [Arch.put1]

theorem put1_cell {a : Arch V} {ci idx : Nat} (row : Row V) (t : Tally) (hc : ci < a.chunks.length) (hi : idx < a.cap) (b : BlockId) :
    (a.put1 ci idx row t).cell ci idx b = some (row b) := by
  unfold Arch.cell Arch.put1
  simp only [List.getElem?_modify_eq, List.getElem?_eq_getElem hc, Option.map_eq_map, Option.map_some, hi, if_true]
  simp [Chunk.setRow]

theorem setRow_setRow (c : Chunk V) (i : Nat) (r r' : Row V) : (c.setRow i r).setRow i r' = c.setRow i r' := by
  unfold Chunk.setRow
  simp only [Chunk.mk.injEq, true_and]
  funext j
  by_cases h : j = i <;> simp [h]

theorem put1_putCell {a : Arch V} {ci idx : Nat} (row : Row V) (t : Tally) (hc : ci < a.chunks.length) (b : BlockId) (z : Cell V) (t' : Tally) :
    { (a.put1 ci idx row t).putCell ci idx b z with tally := t' } = a.put1 ci idx (row.set b z) t' := by
  unfold Arch.putCell Arch.put1
  simp only [List.getElem?_modify_eq, List.getElem?_eq_getElem hc, Option.map_eq_map, Option.map_some, Arch.mk.injEq, true_and, and_true]
  apply List.ext_getElem?
  intro k
  rw [List.getElem?_set]
  by_cases e : ci = k
  · subst e
    simp only [if_true, List.length_modify, hc, List.getElem?_modify_eq, List.getElem?_eq_getElem hc, Option.map_eq_map, Option.map_some, setRow_setRow]
    simp [Chunk.setRow]
  · simp [e, List.getElem?_modify]

theorem destroyCells_run {σ : Type} {ai : Nat} {comps : MetaSet} {n : Nat} {B : σ → Arch V → Reg V} {T : σ → List (RegOp V) → σ → Prop}
    {calls : List (RegOp V) → Reg V → Ran (Reg V)} (C : Carries ai comps n B T calls) (hook : Released V) {a : Arch V}
    (h1 : a.comps = comps) (h2 : a.chunks.length = n) {ci idx : Nat} (hc : ci < a.chunks.length) (hi : idx < a.cap) :
    ∀ (bs : List BlockId) (row : Row V) (t : Tally) (s s1 : σ) (row' : Row V) (t' : Tally), bs.Nodup →
      T s (bs.flatMap fun b => cellOps hook b (row b)) s1 → Row.destroy bs row t = some (row', t') →
      Reg.destroyCells (fun r c v => calls (hook c v) r) ai ci idx bs (B s (a.put1 ci idx row t)) = .ok (B s1 (a.put1 ci idx row' t')) := by
  intro bs
  induction bs with
  | nil =>
    intro row t s s1 row' t' _ ht hd
    simp only [Row.destroy, Option.some.injEq, Prod.mk.injEq] at hd
    obtain ⟨rfl, rfl⟩ := hd
    have := C.nil _ _ ht
    subst this
    rfl
  | cons b bs ih =>
    intro row t s s2 row' t' hn ht hd
    rw [List.nodup_cons] at hn
    simp only [Row.destroy] at hd
    split at hd
    · rename_i ho
      rw [List.flatMap_cons] at ht
      obtain ⟨s1, t1, t2⟩ := C.split _ _ _ _ ht
      unfold Reg.destroyCells
      rw [C.get]
      simp only [Option.bind_some, put1_cell row t hc hi]
      rw [releaseCell_run C hook (x := a.put1 ci idx row t) h1 (by rw [put1_len]; exact h2) ho t1]
      simp only
      rw [C.mod]
      have e : ({ (a.put1 ci idx row t).putCell ci idx b .raw with tally := (a.put1 ci idx row t).tally.free b } : Arch V)
          = a.put1 ci idx (row.set b .raw) (t.free b) := put1_putCell row t hc b .raw _
      rw [e]
      refine ih _ _ _ _ _ _ hn.2 ?_ hd
      have e2 : (bs.flatMap fun b' => cellOps hook b' ((row.set b .raw) b')) = bs.flatMap fun b' => cellOps hook b' (row b') := by
        apply flatMap_same
        intro b' hb'
        have : b' ≠ b := fun e => hn.1 (e ▸ hb')
        simp [Row.set, this]
      rw [e2]; exact t2
    · cases hd

theorem popBackWith_run {σ : Type} {ai : Nat} {comps : MetaSet} {n : Nat} {B : σ → Arch V → Reg V} {T : σ → List (RegOp V) → σ → Prop}
    {calls : List (RegOp V) → Reg V → Ran (Reg V)} (C : Carries ai comps n B T calls) (hook : Released V) {a : Arch V}
    (h1 : a.comps = comps) (h2 : a.chunks.length = n) (hn : a.blocks.Nodup) {ci : Nat} {c c' : Chunk V} {t : Tally}
    (hc : a.chunks[ci]? = some c) (hp : c.popBack a.blocks a.cap a.tally = some (c', t)) {s s1 : σ}
    (ht : T s (a.blocks.flatMap fun b => cellOps hook b (c.rows (c.size - 1) b)) s1) :
    (B s a).popBackWith (fun r c v => calls (hook c v) r) ai ci = .ok (B s1 { a with chunks := a.chunks.set ci c', tally := t }) := by
  have hlt := (List.getElem?_eq_some_iff.1 hc).1
  unfold Reg.popBackWith
  rw [C.get]
  simp only [hc]
  unfold Chunk.popBack at hp
  split at hp
  · rename_i hs
    rw [if_pos hs]
    simp only [Option.map_eq_some_iff] at hp
    obtain ⟨⟨row', t'⟩, hd, e⟩ := hp
    simp only [Prod.mk.injEq] at e
    obtain ⟨rfl, rfl⟩ := e
    rw [C.mod]
    have e1 : a.putSize ci (c.size - 1) = (a.putSize ci (c.size - 1)).put1 ci (c.size - 1) (c.rows (c.size - 1)) a.tally := by
      unfold Arch.putSize Arch.put1
      simp only [hc, Arch.mk.injEq, true_and, and_true]
      apply List.ext_getElem?
      intro k
      rw [List.getElem?_modify]
      by_cases e : ci = k
      · subst e
        simp only [List.getElem?_set, if_true, hlt, Option.map_eq_map, Option.map_some, Option.some.injEq]
        unfold Chunk.setRow
        simp only [Chunk.mk.injEq, true_and]
        funext j
        split
        · rename_i e; rw [e]
        · rfl
      · simp [e]
    rw [e1]
    have hlen : (a.putSize ci (c.size - 1)).chunks.length = a.chunks.length := by
      unfold Arch.putSize; simp only [hc]; simp
    have hcap : (a.putSize ci (c.size - 1)).cap = a.cap := by
      unfold Arch.putSize; simp only [hc]
    have hcomps : (a.putSize ci (c.size - 1)).comps = a.comps := by
      unfold Arch.putSize; simp only [hc]
    have := destroyCells_run C hook (a := a.putSize ci (c.size - 1)) (hcomps.trans h1) (hlen.trans h2) (ci := ci) (idx := c.size - 1)
      (hlen ▸ hlt) (by rw [hcap]; omega) a.blocks (c.rows (c.size - 1)) a.tally s s1 row' t' hn ht hd
    rw [this]
    congr 1
    congr 1
    unfold Arch.putSize Arch.put1
    simp only [hc, Arch.mk.injEq, true_and, and_true]
    apply List.ext_getElem?
    intro k
    rw [List.getElem?_modify]
    by_cases e : ci = k
    · subst e
      simp only [List.getElem?_set, if_true, hlt, Option.map_eq_map, Option.map_some]
      rfl
    · simp [e, List.getElem?_set]
  · cases hp

/-! ### Two entries -/

/-- Other contents for two entries of one archetype. -/
def Arch.put2 (a : Arch V) (ci idx oi oidx : Nat) (src dst : Row V) : Arch V :=
  { a with chunks := (a.chunks.modify ci (·.setRow idx dst)).modify oi (·.setRow oidx src) }

theorem put2_rows {a : Arch V} {ci idx oi oidx : Nat} (src dst : Row V) (k : Nat) :
    (a.put2 ci idx oi oidx src dst).chunks[k]? = (a.chunks[k]?).map fun c =>
      ⟨c.size, fun j => if oi = k ∧ j = oidx then src else if ci = k ∧ j = idx then dst else c.rows j⟩ := by
  unfold Arch.put2
  simp only [List.getElem?_modify]
  cases a.chunks[k]? with
  | none => simp
  | some c =>
    by_cases h1 : oi = k <;> by_cases h2 : ci = k <;> simp [h1, h2, Chunk.setRow]

theorem put2_len (a : Arch V) (ci idx oi oidx : Nat) (src dst : Row V) : (a.put2 ci idx oi oidx src dst).chunks.length = a.chunks.length := by
  simp [Arch.put2]

theorem put2_dst {a : Arch V} {ci idx oi oidx : Nat} (src dst : Row V) (hc : ci < a.chunks.length) (hi : idx < a.cap)
    (hne : ¬ (ci = oi ∧ idx = oidx)) (b : BlockId) : (a.put2 ci idx oi oidx src dst).cell ci idx b = some (dst b) := by
  unfold Arch.cell
  rw [put2_rows, List.getElem?_eq_getElem hc]
  have : ¬ (oi = ci ∧ idx = oidx) := fun h => hne ⟨h.1.symm, h.2⟩
  show (if idx < a.cap then _ else _) = _
  simp [hi, this]

theorem put2_src {a : Arch V} {ci idx oi oidx : Nat} (src dst : Row V) (hc : oi < a.chunks.length) (hi : oidx < a.cap)
    (b : BlockId) : (a.put2 ci idx oi oidx src dst).cell oi oidx b = some (src b) := by
  unfold Arch.cell
  rw [put2_rows, List.getElem?_eq_getElem hc]
  show (if oidx < a.cap then _ else _) = _
  simp [hi]

theorem putCell_rows {a : Arch V} {ci idx : Nat} {b : BlockId} {z : Cell V} (k : Nat) :
    (a.putCell ci idx b z).chunks[k]? = (a.chunks[k]?).map fun c =>
      ⟨c.size, fun j => if ci = k ∧ j = idx then (c.rows j).set b z else c.rows j⟩ := by
  unfold Arch.putCell
  cases hc : a.chunks[ci]? with
  | none =>
    simp only
    by_cases e : ci = k
    · subst e; rw [hc]; rfl
    · simp [e]
  | some c =>
    have hlt := (List.getElem?_eq_some_iff.1 hc).1
    simp only [List.getElem?_set]
    by_cases e : ci = k
    · subst e
      simp only [if_true, hlt, hc, Option.map_some, Chunk.setRow, true_and, Option.some.injEq, Chunk.mk.injEq]
      funext j
      split
      · rename_i e; rw [e]
      · rfl
    · simp [e]

theorem putCell_same (a : Arch V) (ci idx : Nat) (b : BlockId) (z : Cell V) : (a.putCell ci idx b z).comps = a.comps ∧
    (a.putCell ci idx b z).cap = a.cap ∧ (a.putCell ci idx b z).tally = a.tally := by
  unfold Arch.putCell
  split <;> exact ⟨rfl, rfl, rfl⟩

theorem arch_ext {a b : Arch V} (h1 : a.comps = b.comps) (h2 : a.cap = b.cap) (h3 : a.tally = b.tally)
    (h4 : ∀ k : Nat, a.chunks[k]? = b.chunks[k]?) : a = b := by
  cases a; cases b
  simp only at h1 h2 h3 h4
  rw [Arch.mk.injEq]
  exact ⟨h1, h2, List.ext_getElem? h4, h3⟩

theorem put2_putCell {a : Arch V} {ci idx oi oidx : Nat} (src dst : Row V) (hne : ¬ (ci = oi ∧ idx = oidx)) (b : BlockId) (y z : Cell V) :
    ((a.put2 ci idx oi oidx src dst).putCell oi oidx b z).putCell ci idx b y = a.put2 ci idx oi oidx (src.set b z) (dst.set b y) := by
  apply arch_ext
  · rw [(putCell_same _ _ _ _ _).1, (putCell_same _ _ _ _ _).1]; rfl
  · rw [(putCell_same _ _ _ _ _).2.1, (putCell_same _ _ _ _ _).2.1]; rfl
  · rw [(putCell_same _ _ _ _ _).2.2, (putCell_same _ _ _ _ _).2.2]; rfl
  intro k
  rw [putCell_rows, putCell_rows, put2_rows, put2_rows]
  cases a.chunks[k]? with
  | none => rfl
  | some c =>
    simp only [Option.map_some, Option.some.injEq, Chunk.mk.injEq, true_and]
    funext j
    by_cases h1 : oi = k ∧ j = oidx
    · have h2 : ¬ (ci = k ∧ j = idx) := fun h => hne ⟨h.1.trans h1.1.symm, h.2.symm.trans h1.2⟩
      simp only [if_pos h1, if_neg h2]
    · by_cases h2 : ci = k ∧ j = idx
      · simp only [if_neg h1, if_pos h2]
      · simp only [if_neg h1, if_neg h2]

theorem assignCells_run {σ : Type} {ai : Nat} {comps : MetaSet} {n : Nat} {B : σ → Arch V → Reg V} {T : σ → List (RegOp V) → σ → Prop}
    {calls : List (RegOp V) → Reg V → Ran (Reg V)} (C : Carries ai comps n B T calls) (hook : Released V) {a : Arch V}
    (h1 : a.comps = comps) (h2 : a.chunks.length = n) {ci idx oi oidx : Nat} (hc : ci < a.chunks.length) (hi : idx < a.cap)
    (ho : oi < a.chunks.length) (hoi : oidx < a.cap) (hne : ¬ (ci = oi ∧ idx = oidx)) :
    ∀ (bs : List BlockId) (src dst : Row V) (s s1 : σ) (src' dst' : Row V), bs.Nodup →
      T s (bs.flatMap fun b => cellOps hook b (dst b)) s1 → Row.moveAssign bs src dst = some (src', dst') →
      Reg.assignCells (fun r c v => calls (hook c v) r) ai ci idx oi oidx bs (B s (a.put2 ci idx oi oidx src dst))
        = .ok (B s1 (a.put2 ci idx oi oidx src' dst')) := by
  intro bs
  induction bs with
  | nil =>
    intro src dst s s1 src' dst' _ ht hd
    simp only [Row.moveAssign, Option.some.injEq, Prod.mk.injEq] at hd
    obtain ⟨rfl, rfl⟩ := hd
    have := C.nil _ _ ht
    subst this
    rfl
  | cons b bs ih =>
    intro src dst s s2 src' dst' hn ht hd
    rw [List.nodup_cons] at hn
    simp only [Row.moveAssign] at hd
    split at hd
    · cases hd
    · rename_i v hv
      split at hd
      · rename_i hocc
        rw [List.flatMap_cons] at ht
        obtain ⟨s1, t1, t2⟩ := C.split _ _ _ _ ht
        unfold Reg.assignCells
        rw [C.get]
        simp only [Option.bind_some, put2_dst src dst hc hi hne]
        rw [releaseCell_run C hook (x := a.put2 ci idx oi oidx src dst) h1 (by rw [put2_len]; exact h2) hocc t1]
        simp only
        rw [C.get]
        simp only [Option.bind_some, put2_src src dst ho hoi, hv]
        rw [C.mod, put2_putCell src dst hne]
        refine ih _ _ _ _ _ _ hn.2 ?_ hd
        have e2 : (bs.flatMap fun b' => cellOps hook b' ((dst.set b (.live v)) b')) = bs.flatMap fun b' => cellOps hook b' (dst b') := by
          apply flatMap_same
          intro b' hb'
          have : b' ≠ b := fun e => hn.1 (e ▸ hb')
          simp [Row.set, this]
        rw [e2]; exact t2
      · cases hd

/-- What is left of the objects of a row that was moved from makes no calls. -/
theorem moveAssign_left (hook : Released V) : ∀ (bs : List BlockId) (src dst src' dst' : Row V), bs.Nodup →
    Row.moveAssign bs src dst = some (src', dst') →
    (∀ b, b ∉ bs → src' b = src b) ∧ ∀ b ∈ bs, cellOps hook b (src' b) = [] := by
  intro bs
  induction bs with
  | nil =>
    intro src dst src' dst' _ h
    simp only [Row.moveAssign, Option.some.injEq, Prod.mk.injEq] at h
    obtain ⟨rfl, rfl⟩ := h
    exact ⟨fun _ _ => rfl, fun b hb => by cases hb⟩
  | cons b bs ih =>
    intro src dst src' dst' hn h
    rw [List.nodup_cons] at hn
    simp only [Row.moveAssign] at h
    split at h
    · cases h
    · rename_i v hv
      split at h
      · obtain ⟨q1, q2⟩ := ih _ _ _ _ hn.2 h
        refine ⟨fun b' hb' => ?_, fun b' hb' => ?_⟩
        · rw [List.mem_cons, not_or] at hb'
          rw [q1 b' hb'.2]; simp [Row.set, hb'.1]
        · rcases List.mem_cons.1 hb' with rfl | hb'
          · rw [q1 _ hn.1]
            simp only [Row.set, if_true]
            cases v <;> cases b' <;> rfl
          · exact q2 b' hb'
      · cases h

theorem flatMap_nil {α β : Type} {f : α → List β} {l : List α} (h : ∀ x ∈ l, f x = []) : l.flatMap f = [] := by
  rw [flatMap_same (g := fun _ => []) h]
  induction l with
  | nil => rfl
  | cons x l ih => rw [List.flatMap_cons, ih fun y hy => h y (List.mem_cons_of_mem _ hy)]; rfl

theorem put2_self {a : Arch V} {ci idx oi oidx : Nat} {c o : Chunk V} (hc : a.chunks[ci]? = some c) (ho : a.chunks[oi]? = some o) :
    a.put2 ci idx oi oidx (o.rows oidx) (c.rows idx) = a := by
  refine arch_ext (a := a.put2 ci idx oi oidx (o.rows oidx) (c.rows idx)) (b := a) rfl rfl rfl ?_
  intro k
  rw [put2_rows]
  cases hk : a.chunks[k]? with
  | none => rfl
  | some x =>
    simp only [Option.map_some, Option.some.injEq]
    cases x with
    | mk sz rows =>
      simp only [Chunk.mk.injEq, true_and]
      funext j
      by_cases h1 : oi = k ∧ j = oidx
      · obtain ⟨rfl, rfl⟩ := h1
        rw [ho] at hk; cases hk; simp
      · rw [if_neg h1]
        by_cases h2 : ci = k ∧ j = idx
        · obtain ⟨rfl, rfl⟩ := h2
          rw [hc] at hk; cases hk; simp
        · rw [if_neg h2]

theorem Arch.chunkSwapErase_len (a : Arch V) {a' : Arch V} {ci idx oi : Nat} {m : Option Handle}
    (h : a.chunkSwapErase ci idx oi = some (a', m)) : a'.chunks.length = a.chunks.length := by
  unfold Arch.chunkSwapErase at h
  split at h
  · cases h
  · split at h
    · split at h
      · split at h
        · cases h
        · cases h; simp
      · split at h
        · cases h
        · split at h
          · cases h
          · split at h
            · split at h
              · cases h
              · simp only at h
                split at h
                · cases h
                · split at h
                  · cases h
                  · cases h; simp
            · cases h
    · cases h

theorem chunkSwapEraseWith_run {σ : Type} {ai : Nat} {comps : MetaSet} {n : Nat} {B : σ → Arch V → Reg V} {T : σ → List (RegOp V) → σ → Prop}
    {calls : List (RegOp V) → Reg V → Ran (Reg V)} (C : Carries ai comps n B T calls) (hook : Released V) {a a' : Arch V}
    (h1 : a.comps = comps) (h2 : a.chunks.length = n) (hn : a.blocks.Nodup)
    (hcap : ∀ (k : Nat) (c : Chunk V), a.chunks[k]? = some c → c.size ≤ a.cap) {ci idx oi : Nat} {c : Chunk V} {moved : Option Handle}
    (hc : a.chunks[ci]? = some c) (he : a.chunkSwapErase ci idx oi = some (a', moved)) {s s1 : σ}
    (ht : T s (a.blocks.flatMap fun b => cellOps hook b (c.rows idx b)) s1) :
    (B s a).chunkSwapEraseWith (fun r c v => calls (hook c v) r) ai ci idx oi = .ok (B s1 a', moved) := by
  have hlt := (List.getElem?_eq_some_iff.1 hc).1
  unfold Arch.chunkSwapErase at he
  unfold Reg.chunkSwapEraseWith
  rw [C.get]
  simp only [hc] at he ⊢
  split at he
  · rename_i hidx
    rw [if_pos hidx]
    split at he
    · rename_i hlast
      rw [if_pos hlast]
      cases hp : c.popBack a.blocks a.cap a.tally with
      | none => rw [hp] at he; cases he
      | some x =>
        obtain ⟨c', t⟩ := x
        rw [hp] at he
        cases he
        have e : idx = c.size - 1 := by omega
        rw [e] at ht
        rw [popBackWith_run C hook h1 h2 hn hc hp ht]
    · rename_i hlast
      rw [if_neg hlast]
      cases ho : a.chunks[oi]? with
      | none => rw [ho] at he; cases he
      | some o =>
        rw [ho] at he
        simp only at he ⊢
        split at he
        · cases he
        · rename_i hsz
          rw [if_neg hsz]
          have holt := (List.getElem?_eq_some_iff.1 ho).1
          have hocap := hcap oi o ho
          have hccap := hcap ci c hc
          split at he
          · rename_i h hr
            have hr' : (o.rows (o.size - 1) none).read = some (.ent h) := hr
            simp only [hr']
            cases hm : Row.moveAssign a.blocks (o.rows (o.size - 1)) (c.rows idx) with
            | none => rw [hm] at he; cases he
            | some y =>
              obtain ⟨src, dst⟩ := y
              rw [hm] at he
              simp only at he
              have hne : ¬ (ci = oi ∧ idx = o.size - 1) := by
                rintro ⟨rfl, rfl⟩
                rw [hc] at ho; cases ho
                exact hlast (.inr rfl)
              have key := assignCells_run C hook h1 h2 (ci := ci) (idx := idx) (oi := oi) (oidx := o.size - 1) hlt (by omega) holt (by omega) hne
                a.blocks (o.rows (o.size - 1)) (c.rows idx) s s1 src dst hn ht hm
              rw [put2_self hc ho] at key
              rw [key]
              simp only
              have hset : a.chunks.set ci (c.setRow idx dst) = a.chunks.modify ci (·.setRow idx dst) := by
                apply List.ext_getElem?
                intro k
                rw [List.getElem?_set, List.getElem?_modify]
                by_cases e : ci = k
                · subst e; simp only [if_true, hlt, hc]; rfl
                · simp [e]
              rw [hset] at he
              cases ho1 : (a.chunks.modify ci (·.setRow idx dst))[oi]? with
              | none => rw [ho1] at he; cases he
              | some o1 =>
                rw [ho1] at he
                simp only at he
                cases hp : (o1.setRow (o.size - 1) src).popBack a.blocks a.cap a.tally with
                | none => rw [hp] at he; cases he
                | some z =>
                  obtain ⟨o2, t⟩ := z
                  rw [hp] at he
                  cases he
                  have hsize : o1.size = o.size := by
                    rw [List.getElem?_modify, ho] at ho1
                    simp only [Option.map_eq_map, Option.map_some, Option.some.injEq] at ho1
                    rw [← ho1]
                    split <;> rfl
                  have hg : (a.put2 ci idx oi (o.size - 1) src dst).chunks[oi]? = some (o1.setRow (o.size - 1) src) := by
                    show ((a.chunks.modify ci (·.setRow idx dst)).modify oi (·.setRow (o.size - 1) src))[oi]? = _
                    rw [List.getElem?_modify_eq, ho1]; rfl
                  have := popBackWith_run C hook (a := a.put2 ci idx oi (o.size - 1) src dst) h1 (by rw [put2_len]; exact h2) hn hg hp
                    (s := s1) (s1 := s1) (by
                      have e : ((a.put2 ci idx oi (o.size - 1) src dst).blocks.flatMap fun b =>
                          cellOps hook b ((o1.setRow (o.size - 1) src).rows ((o1.setRow (o.size - 1) src).size - 1) b)) = [] := by
                        apply flatMap_nil
                        intro b hb
                        have e3 : (o1.setRow (o.size - 1) src).size = o.size := hsize
                        rw [e3]
                        have e4 : (o1.setRow (o.size - 1) src).rows (o.size - 1) = src := by simp [Chunk.setRow]
                        rw [e4]
                        exact (moveAssign_left hook _ _ _ _ _ hn hm).2 b hb
                      rw [e]
                      exact C.nil' s1)
                  rw [this]
                  simp only [Ran.ok.injEq, Prod.mk.injEq, and_true]
                  congr 1
                  unfold Arch.put2
                  simp only [Arch.mk.injEq, true_and, and_true]
                  apply List.ext_getElem?
                  intro k
                  rw [List.getElem?_set, List.getElem?_set, List.length_modify, List.length_modify]
                  by_cases e : oi = k
                  · simp [e]
                  · simp [e, List.getElem?_modify]
          · cases he
  · cases he

theorem swapEraseWith_run {σ : Type} {ai : Nat} {B : σ → Arch V → Reg V} {T : σ → List (RegOp V) → σ → Prop}
    {calls : List Watch → List (RegOp V) → Reg V → Ran (Reg V)} {w : List Watch} (hook : Released V) {a a' : Arch V}
    (C : Carries ai a.comps a.chunks.length B T (calls (.chunks ai a.chunks.length :: w))) (hn : a.blocks.Nodup)
    (hcap : ∀ (k : Nat) (c : Chunk V), a.chunks[k]? = some c → c.size ≤ a.cap) {ci idx : Nat} {c : Chunk V} {moved : Option Handle}
    (hc : a.chunks[ci]? = some c) (he : a.swapErase ci idx = some (a', moved)) {s s1 : σ}
    (ht : T s (a.blocks.flatMap fun b => cellOps hook b (c.rows idx b)) s1) :
    (B s a).swapEraseWith (fun w r c v => calls w (hook c v) r) w ai ci idx = .ok (B s1 a', moved) := by
  unfold Arch.swapErase at he
  unfold Reg.swapEraseWith
  rw [C.get]
  simp only
  cases hx : a.chunkSwapErase ci idx (a.chunks.length - 1) with
  | none => rw [hx] at he; cases he
  | some x =>
    obtain ⟨a1, m⟩ := x
    rw [hx] at he
    simp only at he
    rw [chunkSwapEraseWith_run C hook rfl rfl hn hcap hc hx ht]
    simp only
    rw [C.get]
    simp only [Option.bind_some]
    have hl := a.chunkSwapErase_len hx
    cases hg : a1.chunks.getLast? with
    | none => rw [hg] at he; cases he
    | some last =>
      rw [hg] at he
      simp only at he ⊢
      rw [← hl]
      split at he
      · rename_i h
        cases he
        rw [if_pos h, C.mod]
      · rename_i h
        cases he
        rw [if_neg h]

end CoEcs
