import Verif.Proofs.Chunk
import Verif.Proofs.Component

/-!
# Operations of an archetype, described by the rows its locations show
-/

namespace CoEcs
variable {V : Type}

/-- Every cell holds a live object of the right kind. -/
def RowOk (bs : List BlockId) (r : Row V) : Prop :=
  (∃ h, r none = .live (.ent h)) ∧ ∀ c, some c ∈ bs → ∃ v, r (some c) = .live (.comp v)

/-- Every cell holds an object. -/
def RowOcc (bs : List BlockId) (r : Row V) : Prop := ∀ b ∈ bs, (r b).occupied = true

theorem RowOk.live {bs : List BlockId} {r : Row V} (h : RowOk bs r) {b : BlockId} (hb : b ∈ bs) :
    ∃ v, r b = .live v := by
  cases b with
  | none => obtain ⟨h, hh⟩ := h.1; exact ⟨_, hh⟩
  | some c => obtain ⟨v, hv⟩ := h.2 c hb; exact ⟨_, hv⟩

theorem RowOk.occ {bs : List BlockId} {r : Row V} (h : RowOk bs r) : RowOcc bs r := by
  intro b hb
  obtain ⟨v, hv⟩ := h.live hb
  rw [hv]; rfl

theorem RowOk.congr {bs : List BlockId} {r r' : Row V} (h : RowOk bs r) (hn : none ∈ bs) (he : ∀ b ∈ bs, r' b = r b) :
    RowOk bs r' := by
  refine ⟨?_, fun c hc => ?_⟩
  · rw [he _ hn]; exact h.1
  · rw [he _ hc]; exact h.2 c hc

namespace Arch

/-- Number of entities stored. -/
def total (a : Arch V) : Nat := (a.chunks.map Chunk.size).sum

structure Shape (a : Arch V) : Prop where
  inv : a.comps.Inv
  cap : 0 < a.cap
  ne : a.chunks ≠ []
  sizes : ∀ (ci : Nat) (c : Chunk V), a.chunks[ci]? = some c → c.size ≤ a.cap

/-- All entries hold complete rows. -/
structure Ok (a : Arch V) : Prop extends Shape a where
  rows : ∀ ci i r, a.row? ci i = some r → RowOk a.blocks r

/-- The same except that one entry may have been moved from. -/
structure OkBut (a : Arch V) (ci idx : Nat) : Prop extends Shape a where
  rows : ∀ cj j r, a.row? cj j = some r → ¬ (cj = ci ∧ j = idx) → RowOk a.blocks r
  hole : ∀ r, a.row? ci idx = some r → RowOcc a.blocks r

/-- Storage outside the entries holds no object, and the counters match the contents. -/
structure Tight (a : Arch V) : Prop where
  spare : ∀ (ci : Nat) (c : Chunk V), a.chunks[ci]? = some c → ∀ i, c.size ≤ i → ∀ b, c.rows i b = .raw
  other : ∀ ci i r, a.row? ci i = some r → ∀ b, b ∉ a.blocks → r b = .raw
  tally : ∀ b, a.tally.built b = a.tally.freed b + one a.blocks b * a.total
  dup : a.tally.dup = 0

theorem Ok.but {a : Arch V} (h : a.Ok) (ci idx : Nat) : a.OkBut ci idx :=
  ⟨h.toShape, fun cj j r hr _ => h.rows cj j r hr, fun r hr => (h.rows _ _ _ hr).occ⟩

theorem none_mem_blocks (a : Arch V) : none ∈ a.blocks := List.mem_cons_self ..

theorem some_mem_blocks (a : Arch V) (c : Nat) : some c ∈ a.blocks ↔ c ∈ a.comps.metas.map CompMeta.id := by
  simp [blocks]

theorem Shape.contains {a : Arch V} (h : a.Shape) (c : Nat) : a.contains c = true ↔ some c ∈ a.blocks := by
  rw [some_mem_blocks]; exact h.inv.contains c

theorem nodup_blocks {a : Arch V} (h : a.comps.Inv) : a.blocks.Nodup := by
  unfold blocks
  rw [List.nodup_cons]
  refine ⟨by simp, ?_⟩
  have := h.nodup
  rw [List.nodup_iff_pairwise_ne, List.pairwise_map] at this ⊢
  exact this.imp (by intro x y hxy; simpa using hxy)

theorem row?_eq_some {a : Arch V} (h : a.Shape) {ci i : Nat} {r : Row V} :
    a.row? ci i = some r ↔ ∃ c, a.chunks[ci]? = some c ∧ i < c.size ∧ r = c.rows i := by
  unfold row?
  cases hc : a.chunks[ci]? with
  | none => simp
  | some c =>
    have := h.sizes ci c hc
    simp only [this, and_true, Option.some.injEq]
    constructor
    · intro hh
      split at hh
      · rename_i hlt; exact ⟨c, rfl, hlt, by simpa using hh.symm⟩
      · cases hh
    · rintro ⟨c', rfl, hlt, rfl⟩; simp [hlt]

theorem row?_set {a : Arch V} {ci : Nat} (hci : ci < a.chunks.length) (c' : Chunk V) (t : Tally) (cj j : Nat) :
    ({ a with chunks := a.chunks.set ci c', tally := t } : Arch V).row? cj j =
      if cj = ci then (if j < c'.size ∧ c'.size ≤ a.cap then some (c'.rows j) else none) else a.row? cj j := by
  unfold row?
  simp only [List.getElem?_set]
  by_cases h : cj = ci
  · subst h; simp [hci]
  · rw [if_neg (fun hh => h hh.symm)]; simp [h]

theorem sum_set (l : List (Chunk V)) : ∀ (i : Nat) (c c' : Chunk V), l[i]? = some c →
    ((l.set i c').map Chunk.size).sum + c.size = (l.map Chunk.size).sum + c'.size := by
  induction l with
  | nil => intro i c c' h; simp at h
  | cons x l ih =>
    intro i c c' h
    cases i with
    | zero => simp at h; subst h; simp; omega
    | succ i =>
      simp at h
      have := ih i c c' h
      simp only [List.set_cons_succ, List.map_cons, List.sum_cons]; omega

theorem total_set {a : Arch V} {ci : Nat} {c : Chunk V} (hc : a.chunks[ci]? = some c) (c' : Chunk V) (t : Tally) :
    ({ a with chunks := a.chunks.set ci c', tally := t } : Arch V).total + c.size = a.total + c'.size :=
  sum_set _ _ _ _ hc

/-- Removing the last row of a chunk. -/
theorem popBack_spec {bs : List BlockId} {cap : Nat} {c : Chunk V} {t : Tally} (hnd : bs.Nodup) (h0 : 0 < c.size)
    (hc : c.size ≤ cap) (ho : RowOcc bs (c.rows (c.size - 1))) :
    ∃ c' t', c.popBack bs cap t = some (c', t') ∧ c'.size = c.size - 1 ∧
      (∀ i, i ≠ c.size - 1 → c'.rows i = c.rows i) ∧
      (∀ b, c'.rows (c.size - 1) b = if b ∈ bs then .raw else c.rows (c.size - 1) b) ∧
      (∀ b, t'.built b = t.built b) ∧ (∀ b, t'.freed b = t.freed b + one bs b) ∧ t'.dup = t.dup := by
  obtain ⟨r', t', h1, h2, h3, h4, h5⟩ := Row.destroy_spec bs (c.rows (c.size - 1)) t hnd ho
  refine ⟨{ c.setRow (c.size - 1) r' with size := c.size - 1 }, t', ?_, rfl, ?_, ?_, h3, h4, h5⟩
  · simp [Chunk.popBack, h0, hc, h1]
  · intro i hi; simp [Chunk.setRow, hi]
  · intro b; simp [Chunk.setRow, h2]

/-- `chunk::swap_erase` of the last entry of a chunk. -/
theorem chunkSwapErase_last {a : Arch V} {ci idx : Nat} {c : Chunk V} (oi : Nat) (h : a.Shape)
    (hc : a.chunks[ci]? = some c) (hi : idx < c.size) (hl : idx = c.size - 1) (ho : RowOcc a.blocks (c.rows idx)) :
    ∃ c' t', a.chunkSwapErase ci idx oi = some ({ a with chunks := a.chunks.set ci c', tally := t' }, none) ∧
      c'.size = c.size - 1 ∧
      ({ a with chunks := a.chunks.set ci c', tally := t' } : Arch V).Shape ∧
      (∀ cj j, ({ a with chunks := a.chunks.set ci c', tally := t' } : Arch V).row? cj j =
        if cj = ci ∧ j = idx then none else a.row? cj j) ∧
      (a.Tight → ({ a with chunks := a.chunks.set ci c', tally := t' } : Arch V).Tight) := by
  have hsz := h.sizes ci c hc
  have hci : ci < a.chunks.length := (List.getElem?_eq_some_iff.1 hc).1
  subst hl
  obtain ⟨c', t', h1, h2, h3, h4, h5, h6, h7⟩ := popBack_spec (t := a.tally) (nodup_blocks h.inv) (by omega) hsz ho
  refine ⟨c', t', ?_, h2, ?_, ?_, ?_⟩
  · simp [chunkSwapErase, hc, hi, h1]
  · refine ⟨h.inv, h.cap, ?_, ?_⟩
    · intro hh
      have := congrArg List.length hh
      simp only [List.length_set, List.length_nil] at this; omega
    · intro cj d hd
      simp only [List.getElem?_set] at hd
      split at hd
      · simp only [hci, if_true, Option.some.injEq] at hd
        subst hd; simp only; omega
      · exact h.sizes cj d hd
  · intro cj j
    rw [row?_set hci]
    by_cases hcj : cj = ci
    · subst hcj
      simp only [if_true, true_and]
      by_cases hj : j = c.size - 1
      · rw [if_pos hj, if_neg]; omega
      · rw [if_neg hj]
        simp only [row?, hc]
        by_cases hlt : j < c.size - 1
        · rw [if_pos (by omega), if_pos (by omega), h3 j hj]
        · rw [if_neg (by omega), if_neg (by omega)]
    · simp [hcj]
  · intro ht
    refine ⟨?_, ?_, ?_, by rw [h7]; exact ht.dup⟩
    · intro cj d hd i hid b
      simp only [List.getElem?_set] at hd
      split at hd
      · simp only [hci, if_true, Option.some.injEq] at hd
        subst hd
        rw [h2] at hid
        by_cases hi' : i = c.size - 1
        · subst hi'
          rw [h4]
          split
          · rfl
          · rename_i hb
            exact ht.other ci _ _ ((row?_eq_some h).2 ⟨c, hc, hi, rfl⟩) b hb
        · rw [h3 i hi']
          exact ht.spare ci c hc i (by omega) b
      · exact ht.spare cj d hd i hid b
    · intro cj j r hr b hb
      rw [row?_set hci] at hr
      split at hr
      · rename_i hcj
        subst hcj
        split at hr
        · simp only [Option.some.injEq] at hr
          subst hr
          rename_i hlt
          rw [h3 j (by omega)]
          exact ht.other cj j _ ((row?_eq_some h).2 ⟨c, hc, by omega, rfl⟩) b hb
        · cases hr
      · exact ht.other cj j r hr b hb
    · intro b
      have htot := total_set hc c' t'
      have := ht.tally b
      show t'.built b = t'.freed b + one a.blocks b * _
      rw [h5, h6, this]
      have hmem : one a.blocks b = 0 ∨ one a.blocks b = 1 := by unfold one; split <;> simp
      rcases hmem with hm | hm <;> simp only [hm] <;> omega

theorem set_ne_nil {α : Type _} {l : List α} (i : Nat) (x : α) (h : l ≠ []) : l.set i x ≠ [] := by
  intro hh
  have := congrArg List.length hh
  simp only [List.length_set, List.length_nil] at this
  exact h (List.length_eq_zero_iff.1 this)

/-- Overwriting a row of an existing entry. -/
theorem row?_setRow {a : Arch V} {ci idx : Nat} {c : Chunk V} (hc : a.chunks[ci]? = some c) (d : Row V) (t : Tally) (cj j : Nat) :
    ({ a with chunks := a.chunks.set ci (c.setRow idx d), tally := t } : Arch V).row? cj j =
      if cj = ci ∧ j = idx then (if idx < c.size ∧ c.size ≤ a.cap then some d else none) else a.row? cj j := by
  have hci : ci < a.chunks.length := (List.getElem?_eq_some_iff.1 hc).1
  rw [row?_set hci]
  by_cases hcj : cj = ci
  · subst hcj
    simp only [if_true, true_and, row?, hc, Chunk.setRow]
    by_cases hj : j = idx
    · subst hj; simp
    · simp [hj]
  · simp [hcj]

theorem shape_setRow {a : Arch V} {ci : Nat} {c : Chunk V} (h : a.Shape) (hc : a.chunks[ci]? = some c) (idx : Nat) (d : Row V)
    (t : Tally) : ({ a with chunks := a.chunks.set ci (c.setRow idx d), tally := t } : Arch V).Shape := by
  refine ⟨h.inv, h.cap, set_ne_nil _ _ h.ne, ?_⟩
  intro cj e he
  have hci : ci < a.chunks.length := (List.getElem?_eq_some_iff.1 hc).1
  simp only [List.getElem?_set] at he
  split at he
  · simp only [hci, if_true, Option.some.injEq] at he
    subst he; exact h.sizes ci c hc
  · exact h.sizes cj e he

theorem tight_setRow {a : Arch V} {ci idx : Nat} {c : Chunk V} (h : a.Shape) (ht : a.Tight) (hc : a.chunks[ci]? = some c)
    (hi : idx < c.size) {d : Row V} (hd : ∀ b, b ∉ a.blocks → d b = c.rows idx b) :
    ({ a with chunks := a.chunks.set ci (c.setRow idx d), tally := a.tally } : Arch V).Tight := by
  have hci : ci < a.chunks.length := (List.getElem?_eq_some_iff.1 hc).1
  refine ⟨?_, ?_, ?_, ht.dup⟩
  · intro cj e he i hie b
    simp only [List.getElem?_set] at he
    split at he
    · simp only [hci, if_true, Option.some.injEq] at he
      subst he
      simp only [Chunk.setRow] at hie ⊢
      rw [if_neg (by omega)]
      exact ht.spare ci c hc i hie b
    · exact ht.spare cj e he i hie b
  · intro cj j r hr b hb
    rw [row?_setRow hc] at hr
    split at hr
    · split at hr
      · simp only [Option.some.injEq] at hr
        subst hr
        rw [hd b hb]
        exact ht.other ci idx _ ((row?_eq_some h).2 ⟨c, hc, hi, rfl⟩) b hb
      · cases hr
    · exact ht.other cj j r hr b hb
  · intro b
    have := total_set hc (c.setRow idx d) a.tally
    simp only [Chunk.setRow] at this
    have h2 := ht.tally b
    rw [show ({ a with chunks := a.chunks.set ci (c.setRow idx d), tally := a.tally } : Arch V).total = a.total by
      simp only [Chunk.setRow]; omega]
    exact h2

/-- Popping the last row of chunk `ci`, seen from the archetype. -/
theorem pop_spec {a : Arch V} {ci : Nat} {c : Chunk V} (h : a.Shape) (hc : a.chunks[ci]? = some c) (h0 : 0 < c.size)
    (ho : RowOcc a.blocks (c.rows (c.size - 1))) :
    ∃ c' t', c.popBack a.blocks a.cap a.tally = some (c', t') ∧ c'.size = c.size - 1 ∧
      ({ a with chunks := a.chunks.set ci c', tally := t' } : Arch V).Shape ∧
      (∀ cj j, ({ a with chunks := a.chunks.set ci c', tally := t' } : Arch V).row? cj j =
        if cj = ci ∧ j = c.size - 1 then none else a.row? cj j) ∧
      (a.Tight → ({ a with chunks := a.chunks.set ci c', tally := t' } : Arch V).Tight) := by
  obtain ⟨c', t', h1, h2, h3, h4, h5⟩ := chunkSwapErase_last 0 h hc (idx := c.size - 1) (by omega) rfl ho
  have hci : ci < a.chunks.length := (List.getElem?_eq_some_iff.1 hc).1
  refine ⟨c', t', ?_, h2, h3, h4, h5⟩
  rw [chunkSwapErase] at h1
  simp only [hc, show c.size - 1 < c.size by omega, if_true, or_true] at h1
  cases hp : c.popBack a.blocks a.cap a.tally with
  | none => rw [hp] at h1; cases h1
  | some x =>
    rw [hp] at h1
    simp only [Option.some.injEq, Prod.mk.injEq, Arch.mk.injEq, true_and, and_true] at h1
    obtain ⟨x1, x2⟩ := x
    have hx : x1 = c' := by
      have := congrArg (fun l => l[ci]?) h1.1
      simpa [List.getElem?_set, hci] using this
    rw [hx, ← h1.2]

/-- What an erase does to the rows of an archetype: entry `(ci, idx)` disappears; either nothing else
changes, or another entry is moved into its place. -/
def Erased (a : Arch V) (ci idx : Nat) (a' : Arch V) (moved : Option Handle) : Prop :=
  (moved = none ∧ ∀ cj j, a'.row? cj j = if cj = ci ∧ j = idx then none else a.row? cj j) ∨
  (∃ m pc pj R R', moved = some m ∧ ¬ (pc = ci ∧ pj = idx) ∧ a.row? pc pj = some R ∧ R none = .live (.ent m) ∧
    (∀ b ∈ a.blocks, R' b = R b) ∧
    ∀ cj j, a'.row? cj j = if cj = ci ∧ j = idx then some R' else if cj = pc ∧ j = pj then none else a.row? cj j)

/-- `chunk::swap_erase` when another entry fills the hole. -/
theorem chunkSwapErase_swap {a : Arch V} {ci idx oi : Nat} {c o : Chunk V} (h : a.OkBut ci idx)
    (hc : a.chunks[ci]? = some c) (hi : idx < c.size) (hl : ¬ idx = c.size - 1)
    (ho : a.chunks[oi]? = some o) (ho0 : o.size ≠ 0) (hne : ¬ (oi = ci ∧ o.size - 1 = idx)) :
    ∃ a' m, a.chunkSwapErase ci idx oi = some (a', some m) ∧ a'.comps = a.comps ∧ a'.cap = a.cap ∧
      a'.chunks.map Chunk.size = (a.chunks.map Chunk.size).set oi (o.size - 1) ∧
      a'.Shape ∧ a.Erased ci idx a' (some m) ∧ (a.Tight → a'.Tight) := by
  have hci : ci < a.chunks.length := (List.getElem?_eq_some_iff.1 hc).1
  have hoi : oi < a.chunks.length := (List.getElem?_eq_some_iff.1 ho).1
  have hsz := h.sizes ci c hc
  have hso := h.sizes oi o ho
  have hrow : a.row? oi (o.size - 1) = some (o.rows (o.size - 1)) :=
    (row?_eq_some h.toShape).2 ⟨o, ho, by omega, rfl⟩
  have hR := h.rows _ _ _ hrow (by grind)
  obtain ⟨m, hm⟩ := hR.1
  obtain ⟨s, d, h1, h2, h3⟩ := Row.moveAssign_spec a.blocks (o.rows (o.size - 1)) (c.rows idx) (nodup_blocks h.inv)
    (fun b hb => hR.live hb) (h.hole _ ((row?_eq_some h.toShape).2 ⟨c, hc, hi, rfl⟩))
  -- the archetype after the assignments
  let a1 : Arch V := { a with chunks := a.chunks.set ci (c.setRow idx d), tally := a.tally }
  have sh1 : a1.Shape := shape_setRow h.toShape hc idx d a.tally
  obtain ⟨o1, ho1, ho1s, ho1r⟩ : ∃ o1, a1.chunks[oi]? = some o1 ∧ o1.size = o.size ∧
      o1.rows (o.size - 1) = o.rows (o.size - 1) := by
    by_cases hoc : oi = ci
    · subst hoc
      have : o = c := by rw [ho] at hc; simpa using hc
      subst this
      refine ⟨o.setRow idx d, by simp [a1, List.getElem?_set, hoi], rfl, ?_⟩
      simp only [Chunk.setRow]
      rw [if_neg (fun hh => hne ⟨rfl, hh⟩)]
    · refine ⟨o, ?_, rfl, rfl⟩
      simp only [a1, List.getElem?_set]
      rw [if_neg (fun hh => hoc hh.symm)]; exact ho
  let a2 : Arch V := { a1 with chunks := a1.chunks.set oi (o1.setRow (o.size - 1) s), tally := a1.tally }
  have sh2 : a2.Shape := shape_setRow sh1 ho1 _ _ _
  have ho2 : a2.chunks[oi]? = some (o1.setRow (o.size - 1) s) := by
    have : oi < a1.chunks.length := (List.getElem?_eq_some_iff.1 ho1).1
    simp [a2, List.getElem?_set, this]
  have hsocc : RowOcc a2.blocks ((o1.setRow (o.size - 1) s).rows ((o1.setRow (o.size - 1) s).size - 1)) := by
    intro b hb
    simp only [Chunk.setRow, ho1s, if_true]
    have hb' : b ∈ a.blocks := hb
    rw [h2, if_pos hb']
    obtain ⟨v, hv⟩ := hR.live hb'
    apply Cell.leave_occupied
    rw [hv]; rfl
  obtain ⟨o3, t3, p1, p2, p3, p4, p5⟩ := pop_spec sh2 ho2 (by simp only [Chunk.setRow]; omega) hsocc
  have p2' : o3.size = o.size - 1 := by rw [p2]; simp [Chunk.setRow, ho1s]
  have hchunks : a2.chunks.set oi o3 = (a.chunks.set ci (c.setRow idx d)).set oi o3 := by
    simp [a2, a1, List.set_set]
  refine ⟨{ a2 with chunks := a2.chunks.set oi o3, tally := t3 }, m, ?_, rfl, rfl, ?_, p3, ?_, ?_⟩
  · rw [chunkSwapErase]
    simp only [hc, hi, if_true, ho]
    rw [if_neg (by omega), if_neg ho0]
    simp only [hm, Cell.read, h1]
    have : (a.chunks.set ci (c.setRow idx d))[oi]? = some o1 := ho1
    simp only [this]
    have hp : (o1.setRow (o.size - 1) s).popBack a.blocks a.cap a.tally = some (o3, t3) := p1
    simp only [hp, hchunks]
    rfl
  · show (a2.chunks.set oi o3).map Chunk.size = _
    rw [hchunks, List.map_set, List.map_set, p2']
    congr 1
    apply List.ext_getElem?
    intro k
    simp only [List.getElem?_set, List.length_map, List.getElem?_map]
    split
    · rename_i hk; subst hk; rw [hc]; simp [hci, Chunk.setRow]
    · rfl
  · refine .inr ⟨m, oi, o.size - 1, o.rows (o.size - 1), d, rfl, hne, hrow, hm, ?_, ?_⟩
    · intro b hb; rw [h3, if_pos hb]
    · intro cj j
      rw [p4]
      have e1 : (o1.setRow (o.size - 1) s).size - 1 = o.size - 1 := by simp [Chunk.setRow, ho1s]
      rw [e1]
      have e2 : a2.row? cj j = if cj = oi ∧ j = o.size - 1 then
          (if o.size - 1 < o1.size ∧ o1.size ≤ a1.cap then some s else none) else a1.row? cj j :=
        row?_setRow ho1 s a1.tally cj j
      have e3 : a1.row? cj j = if cj = ci ∧ j = idx then (if idx < c.size ∧ c.size ≤ a.cap then some d else none)
          else a.row? cj j := row?_setRow hc d a.tally cj j
      rw [e2, e3]
      by_cases hx : cj = oi ∧ j = o.size - 1
      · have hnx : ¬ (cj = ci ∧ j = idx) := by
          rintro ⟨q1, q2⟩; exact hne ⟨hx.1.symm.trans q1, hx.2.symm.trans q2⟩
        rw [if_pos hx, if_neg hnx, if_pos hx]
      · have hq : idx < c.size ∧ c.size ≤ a.cap := ⟨hi, hsz⟩
        simp only [hx, hq, if_false, and_self, if_true]
  · intro ht
    have ht1 : a1.Tight := tight_setRow h.toShape ht hc hi (by intro b hb; rw [h3, if_neg hb])
    have ht2 : a2.Tight := tight_setRow sh1 ht1 ho1 (by omega) (by
      intro b hb
      have hb' : b ∉ a.blocks := hb
      rw [h2, if_neg hb', ho1r])
    exact p5 ht2

/-- Dropping an empty last chunk changes no row. -/
theorem row?_dropLast {a : Arch V} {last : Chunk V} (hl : a.chunks.getLast? = some last) (h0 : last.size = 0) (cj j : Nat) :
    ({ a with chunks := a.chunks.dropLast } : Arch V).row? cj j = a.row? cj j := by
  unfold row?
  simp only
  rw [List.getLast?_eq_getElem?] at hl
  by_cases hcj : cj = a.chunks.length - 1
  · subst hcj
    rw [hl]
    have : a.chunks.dropLast[a.chunks.length - 1]? = none := by
      rw [List.getElem?_eq_none_iff, List.length_dropLast]; omega
    rw [this]
    simp [h0]
  · by_cases hlt : cj < a.chunks.length
    · rw [List.getElem?_dropLast, if_pos (by omega)]
    · rw [List.getElem?_eq_none (by simp; omega), List.getElem?_eq_none (by omega)]

theorem sum_dropLast (l : List (Chunk V)) {last : Chunk V} (hl : l.getLast? = some last) :
    (l.dropLast.map Chunk.size).sum + last.size = (l.map Chunk.size).sum := by
  have hne : l ≠ [] := by rintro rfl; simp at hl
  have hx : l.getLast hne = last := by
    rw [List.getLast?_eq_some_getLast hne] at hl; simpa using hl
  have := List.dropLast_concat_getLast hne
  rw [hx] at this
  conv => rhs; rw [← this]
  simp

/-- Sizes of the chunks after an erase. -/
def eraseSizes (l : List Nat) (ci idx : Nat) : List Nat :=
  let l1 := if idx + 1 = l.getD ci 0 then l.set ci (l.getD ci 0 - 1)
    else l.set (l.length - 1) (l.getD (l.length - 1) 0 - 1)
  if l1.getLast? = some 0 ∧ l1.length > 1 then l1.dropLast else l1

theorem Erased.rows {a a' : Arch V} {ci idx : Nat} {moved : Option Handle} (h : a.OkBut ci idx)
    (he : a.Erased ci idx a' moved) (hcm : a'.comps = a.comps) : ∀ cj j r, a'.row? cj j = some r → RowOk a'.blocks r := by
  have hbl : a'.blocks = a.blocks := by unfold blocks; rw [hcm]
  rw [hbl]
  intro cj j r hr
  rcases he with ⟨_, he⟩ | ⟨m, pc, pj, R, R', _, hne, hR, _, hR', he⟩
  · rw [he] at hr
    split at hr
    · cases hr
    · rename_i hn; exact h.rows cj j r hr hn
  · rw [he] at hr
    split at hr
    · simp only [Option.some.injEq] at hr
      subst hr
      exact (h.rows _ _ _ hR hne).congr a.none_mem_blocks hR'
    · rename_i hn
      split at hr
      · cases hr
      · exact h.rows cj j r hr hn

/-- The second half of `archetype::swap_erase`. -/
theorem drop_empty {a : Arch V} (h : a.Shape) :
    ∃ a', (match a.chunks.getLast? with
        | none => none
        | some last =>
          if last.size = 0 ∧ a.chunks.length > 1 then some ({ a with chunks := a.chunks.dropLast } : Arch V)
          else some a) = some a' ∧
      a'.comps = a.comps ∧ a'.cap = a.cap ∧ a'.Shape ∧ (∀ cj j, a'.row? cj j = a.row? cj j) ∧ (a.Tight → a'.Tight) ∧
      a'.chunks.map Chunk.size = (if (a.chunks.map Chunk.size).getLast? = some 0 ∧ (a.chunks.map Chunk.size).length > 1
        then (a.chunks.map Chunk.size).dropLast else a.chunks.map Chunk.size) := by
  cases hl : a.chunks.getLast? with
  | none => exact absurd (List.getLast?_eq_none_iff.1 hl) h.ne
  | some last =>
    simp only [List.getLast?_map, hl, Option.map_some, Option.some.injEq, List.length_map]
    by_cases hd : last.size = 0 ∧ a.chunks.length > 1
    · rw [if_pos hd, if_pos hd]
      refine ⟨_, rfl, rfl, rfl, ⟨h.inv, h.cap, ?_, ?_⟩, row?_dropLast hl hd.1, ?_, by simp⟩
      · intro hh
        have := congrArg List.length hh
        simp at this; omega
      · intro ci c hc
        rw [List.getElem?_dropLast] at hc
        split at hc
        · exact h.sizes ci c hc
        · cases hc
      · intro ht
        refine ⟨?_, ?_, ?_, ht.dup⟩
        · intro ci c hc
          rw [List.getElem?_dropLast] at hc
          split at hc
          · exact ht.spare ci c hc
          · cases hc
        · intro ci i r hr
          rw [row?_dropLast hl hd.1] at hr
          exact ht.other ci i r hr
        · intro b
          have := sum_dropLast _ hl
          have htot : ({ a with chunks := a.chunks.dropLast } : Arch V).total = a.total := by
            unfold total; simp only; omega
          rw [htot]; exact ht.tally b
    · rw [if_neg hd, if_neg hd]
      exact ⟨a, rfl, rfl, rfl, h, fun _ _ => rfl, id, rfl⟩

theorem swapErase_eq (a : Arch V) (ci idx : Nat) : a.swapErase ci idx =
    match a.chunkSwapErase ci idx (a.chunks.length - 1) with
    | none => none
    | some (a', moved) =>
      ((match a'.chunks.getLast? with
        | none => none
        | some last =>
          if last.size = 0 ∧ a'.chunks.length > 1 then some ({ a' with chunks := a'.chunks.dropLast } : Arch V)
          else some a').map fun x => (x, moved)) := by
  unfold swapErase
  cases a.chunkSwapErase ci idx (a.chunks.length - 1) with
  | none => rfl
  | some x =>
    simp only
    cases x.1.chunks.getLast? with
    | none => rfl
    | some l => simp only; split <;> rfl

theorem swapErase_spec {a : Arch V} {ci idx : Nat} {c : Chunk V} (h : a.OkBut ci idx)
    (hc : a.chunks[ci]? = some c) (hi : idx < c.size)
    (hsafe : idx + 1 < c.size → ∀ last, a.chunks.getLast? = some last → last.size ≠ 0) :
    ∃ a' moved, a.swapErase ci idx = some (a', moved) ∧ a'.comps = a.comps ∧ a'.cap = a.cap ∧ a'.Ok ∧
      a.Erased ci idx a' moved ∧ (a.Tight → a'.Tight) ∧
      a'.chunks.map Chunk.size = eraseSizes (a.chunks.map Chunk.size) ci idx := by
  have hci : ci < a.chunks.length := (List.getElem?_eq_some_iff.1 hc).1
  -- the first half
  have hfirst : ∃ a1 moved, a.chunkSwapErase ci idx (a.chunks.length - 1) = some (a1, moved) ∧ a1.comps = a.comps ∧
      a1.cap = a.cap ∧ a1.Shape ∧ a.Erased ci idx a1 moved ∧ (a.Tight → a1.Tight) ∧
      a1.chunks.map Chunk.size =
        (if idx + 1 = (a.chunks.map Chunk.size).getD ci 0 then
          (a.chunks.map Chunk.size).set ci ((a.chunks.map Chunk.size).getD ci 0 - 1)
        else (a.chunks.map Chunk.size).set ((a.chunks.map Chunk.size).length - 1)
          ((a.chunks.map Chunk.size).getD ((a.chunks.map Chunk.size).length - 1) 0 - 1)) := by
    have hgd : (a.chunks.map Chunk.size).getD ci 0 = c.size := by
      simp [List.getD_eq_getElem?_getD, hc]
    rw [hgd]
    by_cases hl : idx = c.size - 1
    · obtain ⟨c', t', h1, h2, h3, h4, h5⟩ := chunkSwapErase_last (a.chunks.length - 1) h.toShape hc hi hl
        (h.hole _ ((row?_eq_some h.toShape).2 ⟨c, hc, hi, rfl⟩))
      refine ⟨_, _, h1, rfl, rfl, h3, .inl ⟨rfl, h4⟩, h5, ?_⟩
      rw [if_pos (by omega)]
      simp only [List.map_set, h2]
    · obtain ⟨last, hlast⟩ : ∃ last, a.chunks.getLast? = some last := by
        cases hl' : a.chunks.getLast? with
        | none => exact absurd (List.getLast?_eq_none_iff.1 hl') h.ne
        | some last => exact ⟨last, rfl⟩
      have h0 := hsafe (by omega) last hlast
      rw [List.getLast?_eq_getElem?] at hlast
      obtain ⟨a1, m, g1, g2, g3, g4, g5, g6, g7⟩ := chunkSwapErase_swap h hc hi hl hlast h0 (by
        rintro ⟨q1, q2⟩
        rw [q1, hc] at hlast
        simp only [Option.some.injEq] at hlast
        subst hlast; omega)
      refine ⟨a1, some m, g1, g2, g3, g5, g6, g7, ?_⟩
      rw [if_neg (by omega), g4]
      simp [List.getD_eq_getElem?_getD, hlast]
  obtain ⟨a1, moved, h1, h2, h3, h4, h5, h6, h7⟩ := hfirst
  obtain ⟨a', d1, d2, d3, d4, d5, d6, d7⟩ := drop_empty h4
  refine ⟨a', moved, ?_, d2.trans h2, d3.trans h3, ?_, ?_, fun ht => d6 (h6 ht), ?_⟩
  · rw [swapErase_eq, h1]; simp only [d1, Option.map_some]
  · have he : a.Erased ci idx a' moved := by
      unfold Erased at h5 ⊢
      simpa only [d5] using h5
    exact ⟨d4, he.rows h (d2.trans h2)⟩
  · unfold Erased at h5 ⊢
    simpa only [d5] using h5
  · rw [d7, h7]; rfl

/-- The remaining case is undefined behaviour. -/
theorem swapErase_ub {a : Arch V} {ci idx : Nat} {c last : Chunk V} (hc : a.chunks[ci]? = some c)
    (hi : idx + 1 < c.size) (hl : a.chunks.getLast? = some last) (h0 : last.size = 0) : a.swapErase ci idx = none := by
  rw [List.getLast?_eq_getElem?] at hl
  have : a.chunkSwapErase ci idx (a.chunks.length - 1) = none := by
    unfold chunkSwapErase
    rw [hc]
    simp only [show idx < c.size by omega, if_true]
    rw [if_neg (by omega), hl]
    simp [h0]
  simp [swapErase, this]

theorem ensureFree_spec {a : Arch V} (h : a.Ok) :
    ∃ a' c, a.ensureFree = some a' ∧ a'.comps = a.comps ∧ a'.cap = a.cap ∧ a'.tally = a.tally ∧ a'.Ok ∧
      (∀ cj j, a'.row? cj j = a.row? cj j) ∧ a'.chunks[a'.chunks.length - 1]? = some c ∧ c.size < a'.cap ∧
      (a.Tight → a'.Tight) ∧ a'.total = a.total ∧
      (a'.chunks = a.chunks ∨ (a'.chunks = a.chunks ++ [Chunk.fresh] ∧ ∃ last, a.chunks.getLast? = some last ∧ last.size = a.cap)) := by
  unfold ensureFree
  cases hl : a.chunks.getLast? with
  | none => exact absurd (List.getLast?_eq_none_iff.1 hl) h.ne
  | some last =>
    simp only
    by_cases hf : last.size = a.cap
    · rw [if_pos hf]
      have hrow : ∀ cj j, ({ a with chunks := a.chunks ++ [Chunk.fresh] } : Arch V).row? cj j = a.row? cj j := by
        intro cj j
        unfold row?
        by_cases hge : cj < a.chunks.length
        · rw [List.getElem?_append_left hge]
        · rw [List.getElem?_append_right (by omega), List.getElem?_eq_none (l := a.chunks) (by omega)]
          cases cj - a.chunks.length <;> simp [Chunk.fresh]
      refine ⟨_, Chunk.fresh, rfl, rfl, rfl, rfl, ⟨⟨h.inv, h.cap, by simp, ?_⟩, ?_⟩, hrow, ?_, h.cap, ?_, ?_, .inr ⟨rfl, last, rfl, hf⟩⟩
      · intro ci c hc
        simp only [List.getElem?_append] at hc
        split at hc
        · exact h.sizes ci c hc
        · cases hx : ci - a.chunks.length with
          | zero => rw [hx] at hc; simp at hc; subst hc; simp [Chunk.fresh]
          | succ n => rw [hx] at hc; simp at hc
      · intro ci i r hr
        rw [hrow] at hr
        exact h.rows ci i r hr
      · simp
      · intro ht
        have htot : ({ a with chunks := a.chunks ++ [Chunk.fresh] } : Arch V).total = a.total := by
          unfold total; simp [Chunk.fresh]
        refine ⟨?_, ?_, ?_, ht.dup⟩
        · intro ci c hc
          simp only [List.getElem?_append] at hc
          split at hc
          · exact ht.spare ci c hc
          · cases hx : ci - a.chunks.length with
            | zero => rw [hx] at hc; simp at hc; subst hc; intro i _ b; rfl
            | succ n => rw [hx] at hc; simp at hc
        · intro ci i r hr
          rw [hrow] at hr
          exact ht.other ci i r hr
        · intro b; rw [htot]; exact ht.tally b
      · unfold total; simp [Chunk.fresh]
    · rw [if_neg hf]
      have hl' := hl
      rw [List.getLast?_eq_getElem?] at hl'
      have := h.sizes _ _ hl'
      exact ⟨a, last, rfl, rfl, rfl, rfl, h, fun _ _ => rfl, hl', by omega, id, rfl, .inl rfl⟩

/-- Appending a row to the last chunk. -/
def push (a : Arch V) (ci : Nat) (c : Chunk V) (d : Row V) (t : Tally) : Arch V :=
  { a with chunks := a.chunks.set ci { c.setRow c.size d with size := c.size + 1 }, tally := t }

theorem row?_push {a : Arch V} {ci : Nat} {c : Chunk V} (hc : a.chunks[ci]? = some c) (hlt : c.size < a.cap) (d : Row V)
    (t : Tally) (cj j : Nat) : (a.push ci c d t).row? cj j = if cj = ci ∧ j = c.size then some d else a.row? cj j := by
  have hci : ci < a.chunks.length := (List.getElem?_eq_some_iff.1 hc).1
  unfold push
  rw [row?_set hci]
  by_cases hcj : cj = ci
  · subst hcj
    simp only [if_true, true_and, row?, hc, Chunk.setRow]
    by_cases hj : j = c.size
    · subst hj; rw [if_pos ⟨by omega, by omega⟩, if_pos rfl]; simp
    · simp only [hj, if_false]
      by_cases hjl : j < c.size
      · rw [if_pos ⟨by omega, by omega⟩, if_pos ⟨by omega, by omega⟩]
      · rw [if_neg (by omega), if_neg (fun hh => hjl hh.1)]
  · simp [hcj]

theorem push_shape {a : Arch V} {ci : Nat} {c : Chunk V} (h : a.Shape) (hc : a.chunks[ci]? = some c) (hlt : c.size < a.cap)
    (d : Row V) (t : Tally) : (a.push ci c d t).Shape := by
  have hci : ci < a.chunks.length := (List.getElem?_eq_some_iff.1 hc).1
  refine ⟨h.inv, h.cap, set_ne_nil _ _ h.ne, ?_⟩
  intro cj e he
  simp only [push, List.getElem?_set] at he
  split at he
  · simp only [hci, if_true, Option.some.injEq] at he
    subst he; show c.size + 1 ≤ a.cap; omega
  · exact h.sizes cj e he

theorem push_ok {a : Arch V} {ci : Nat} {c : Chunk V} (h : a.Ok) (hc : a.chunks[ci]? = some c) (hlt : c.size < a.cap)
    {d : Row V} (hd : RowOk a.blocks d) (t : Tally) : (a.push ci c d t).Ok := by
  refine ⟨push_shape h.toShape hc hlt d t, ?_⟩
  intro cj j r hr
  rw [row?_push hc hlt] at hr
  split at hr
  · simp only [Option.some.injEq] at hr; subst hr; exact hd
  · exact h.rows cj j r hr

theorem push_tight {a : Arch V} {ci : Nat} {c : Chunk V} (hti : a.Tight) (hc : a.chunks[ci]? = some c) (hlt : c.size < a.cap)
    {d : Row V} (hd : ∀ b, b ∉ a.blocks → d b = .raw) {t : Tally}
    (hb : ∀ b, t.built b = a.tally.built b + one a.blocks b) (hf : ∀ b, t.freed b = a.tally.freed b)
    (hdup : t.dup = a.tally.dup) : (a.push ci c d t).Tight := by
  have hci : ci < a.chunks.length := (List.getElem?_eq_some_iff.1 hc).1
  refine ⟨?_, ?_, ?_, by show t.dup = 0; rw [hdup]; exact hti.dup⟩
  · intro cj e he i hie b
    simp only [push, List.getElem?_set] at he
    split at he
    · simp only [hci, if_true, Option.some.injEq] at he
      subst he
      simp only [Chunk.setRow] at hie ⊢
      rw [if_neg (by omega)]
      exact hti.spare ci c hc i (by omega) b
    · exact hti.spare cj e he i hie b
  · intro cj j r hr b hbn
    rw [row?_push hc hlt] at hr
    split at hr
    · simp only [Option.some.injEq] at hr; subst hr; exact hd b hbn
    · exact hti.other cj j r hr b hbn
  · intro b
    have htot := total_set hc { c.setRow c.size d with size := c.size + 1 } t
    have h2 := hti.tally b
    show t.built b = t.freed b + one a.blocks b * _
    rw [hb, hf, h2]
    have e : (a.push ci c d t).total = a.total + 1 := by
      have e2 : ({ c.setRow c.size d with size := c.size + 1 } : Chunk V).size = c.size + 1 := rfl
      rw [e2] at htot
      show ({ a with chunks := a.chunks.set ci { c.setRow c.size d with size := c.size + 1 }, tally := t } : Arch V).total = _
      omega
    rw [e]
    have hmem : one a.blocks b = 0 ∨ one a.blocks b = 1 := by unfold one; split <;> simp
    rcases hmem with hm | hm <;> simp only [hm] <;> omega

end Arch
end CoEcs
