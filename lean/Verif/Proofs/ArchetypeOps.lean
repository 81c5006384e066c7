import Verif.Proofs.Archetype

/-!
# emplace, move, copy and component writes of an archetype
-/

namespace CoEcs
variable {V : Type}
namespace Arch

theorem blocks_congr {a a' : Arch V} (h : a'.comps = a.comps) : a'.blocks = a.blocks := by unfold blocks; rw [h]

/-- Entry `(ci, idx)` is new and shows `R`; nothing else changes. -/
structure Pushed (a : Arch V) (ci idx : Nat) (R : Row V) (a' : Arch V) : Prop where
  comps : a'.comps = a.comps
  cap : a'.cap = a.cap
  free : a.row? ci idx = none
  row? : ∀ cj j, a'.row? cj j = if cj = ci ∧ j = idx then some R else a.row? cj j
  last : ∃ c, a'.chunks.getLast? = some c ∧ c.size ≠ 0
  total : a'.total = a.total + 1

theorem push_total {a : Arch V} {ci : Nat} {c : Chunk V} (hc : a.chunks[ci]? = some c) (d : Row V) (t : Tally) :
    (a.push ci c d t).total = a.total + 1 := by
  have htot := total_set hc { c.setRow c.size d with size := c.size + 1 } t
  have e2 : ({ c.setRow c.size d with size := c.size + 1 } : Chunk V).size = c.size + 1 := rfl
  rw [e2] at htot
  show ({ a with chunks := a.chunks.set ci { c.setRow c.size d with size := c.size + 1 }, tally := t } : Arch V).total = _
  omega

/-- The last chunk has room. -/
structure Free (a : Arch V) (a1 : Arch V) (c : Chunk V) : Prop where
  eq : a.ensureFree = some a1
  comps : a1.comps = a.comps
  cap : a1.cap = a.cap
  tally : a1.tally = a.tally
  ok : a1.Ok
  rows : ∀ cj j, a1.row? cj j = a.row? cj j
  chunk : a1.chunks[a1.chunks.length - 1]? = some c
  room : c.size < a1.cap
  tight : a.Tight → a1.Tight
  total : a1.total = a.total
  chunks : a1.chunks = a.chunks ∨
    (a1.chunks = a.chunks ++ [Chunk.fresh] ∧ ∃ last, a.chunks.getLast? = some last ∧ last.size = a.cap)

theorem Ok.free {a : Arch V} (h : a.Ok) : ∃ a1 c, a.Free a1 c := by
  obtain ⟨a1, c, h1, h2, h3, h4, h5, h6, h7, h8, h9, h10, h11⟩ := ensureFree_spec h
  exact ⟨a1, c, h1, h2, h3, h4, h5, h6, h7, h8, h9, h10, h11⟩

theorem Free.pushed {a a1 : Arch V} {c : Chunk V} (f : a.Free a1 c) (R : Row V) (t : Tally) :
    a.Pushed (a1.chunks.length - 1) c.size R (a1.push (a1.chunks.length - 1) c R t) := by
  refine ⟨f.comps, f.cap, ?_, ?_, ?_, ?_⟩
  · rw [← f.rows]
    simp [row?, f.chunk]
  · intro cj j
    rw [row?_push f.chunk f.room, f.rows]
  · have hci : a1.chunks.length - 1 < a1.chunks.length := (List.getElem?_eq_some_iff.1 f.chunk).1
    refine ⟨{ c.setRow c.size R with size := c.size + 1 }, ?_, by simp⟩
    rw [List.getLast?_eq_getElem?]
    simp [push, List.getElem?_set, hci]
  · rw [push_total f.chunk, f.total]

theorem Free.blocks {a a1 : Arch V} {c : Chunk V} (f : a.Free a1 c) : a1.blocks = a.blocks := blocks_congr f.comps

theorem emplace_spec {a : Arch V} (h : a.Ok) (e : Handle) {args : List (Nat × V)} (hnd : (args.map Prod.fst).Nodup)
    (hb : ∀ c, some c ∈ a.blocks ↔ c ∈ args.map Prod.fst) :
    ∃ a' ci idx R, a.emplace e args = .ok a' (ci, idx) ∧ a'.Ok ∧ a.Pushed ci idx R a' ∧ R none = .live (.ent e) ∧
      (∀ c v, Row.argVal args c = some v → R (some c) = .live (.comp v)) ∧ (a.Tight → a'.Tight) := by
  obtain ⟨a1, c, f⟩ := h.free
  have hbl := f.blocks
  obtain ⟨r', t', h1, h2, h3, h4, h5, h6⟩ := Row.emplaceArgs_spec a1.blocks args
    ((c.rows c.size).construct a1.tally none (.ent e)).1 ((c.rows c.size).construct a1.tally none (.ent e)).2 hnd
    (by intro x hx; rw [hbl, hb]; exact List.mem_map_of_mem hx)
  have hval : ∀ c v, Row.argVal args c = some v → r' (some c) = .live (.comp v) := by
    intro c v hv; rw [h3, hv]
  have hnone : r' none = .live (.ent e) := by rw [h2]; simp [Row.construct]
  have hsome : ∀ c, some c ∈ a1.blocks → ∃ v, Row.argVal args c = some v := by
    intro c hc
    rw [hbl, hb] at hc
    obtain ⟨x, hx, rfl⟩ := List.mem_map.1 hc
    cases hf : args.find? fun y => y.1 == x.1 with
    | none =>
      rw [List.find?_eq_none] at hf
      exact absurd (hf x hx) (by simp)
    | some y => exact ⟨y.2, by simp [Row.argVal, hf]⟩
  have hok : RowOk a1.blocks r' := by
    refine ⟨⟨e, hnone⟩, fun c hc => ?_⟩
    obtain ⟨v, hv⟩ := hsome c hc
    exact ⟨v, hval c v hv⟩
  refine ⟨a1.push (a1.chunks.length - 1) c r' t', _, _, r', ?_, push_ok f.ok f.chunk f.room hok t', f.pushed r' t',
    hnone, hval, ?_⟩
  · simp only [emplace, f.eq, f.chunk, Chunk.emplaceBack, f.room, if_true, h1]
    rfl
  · intro ht
    have ht1 := f.tight ht
    have hraw : ∀ b, c.rows c.size b = .raw := ht1.spare _ c f.chunk c.size (Nat.le_refl _)
    refine push_tight ht1 f.chunk f.room ?_ ?_ ?_ ?_
    · intro b hbn
      cases b with
      | none => exact absurd a1.none_mem_blocks hbn
      | some k =>
        rw [h3]
        have : Row.argVal args k = none := by
          cases hv : Row.argVal args k with
          | none => rfl
          | some v =>
            exfalso
            apply hbn
            rw [hbl, hb]
            simp only [Row.argVal, Option.map_eq_some_iff] at hv
            obtain ⟨x, hx, _⟩ := hv
            have hm := List.mem_of_find?_eq_some hx
            have he := List.find?_some hx
            simp only [beq_iff_eq] at he
            exact he ▸ List.mem_map_of_mem hm
        rw [this]
        simp only [Row.construct]
        rw [Row.set_ne _ _ (by simp), hraw]
    · intro b
      rw [h4]
      have e1 : ((c.rows c.size).construct a1.tally none (.ent e)).2.built b = a1.tally.built b + one [none] b :=
        Row.build_built _ _ _ _
      rw [e1, Nat.add_assoc]
      congr 1
      cases b with
      | none =>
        have : one (args.map fun x => some x.1) none = 0 := by simp [one]
        rw [this]; simp [one, a1.none_mem_blocks]
      | some k =>
        have : one [none] (some k) = 0 := by simp [one]
        rw [this]
        unfold one
        have hiff : some k ∈ a1.blocks ↔ some k ∈ args.map fun x => some x.1 := by
          rw [hbl, hb]; simp
        simp only [hiff, Nat.zero_add]
    · intro b; rw [h5]; rfl
    · rw [h6]
      · simp [Row.construct, Tally.build, hraw, Cell.occupied]
      · intro x _
        simp only [Row.construct]
        rw [Row.set_ne _ _ (by simp), hraw]

/-- Outcome of `move` on the target side before a missing component is added. -/
structure MovedTo (a o o' : Arch V) (row : Row V) (ci idx : Nat) (o1 : Arch V) (oc : Chunk V) (R : Row V) (t : Tally) : Prop where
  free : o.Free o1 oc
  eq : o' = o1.push ci oc R t
  ci : ci = o1.chunks.length - 1
  idx : idx = oc.size
  row : ∀ b, R b = if b ∈ a.blocks ∧ b ∈ o.blocks then row b else oc.rows oc.size b
  built : ∀ b, t.built b = o.tally.built b + (if b ∈ a.blocks ∧ b ∈ o.blocks then 1 else 0)
  freed : ∀ b, t.freed b = o.tally.freed b
  dup : (∀ b ∈ a.blocks, oc.rows oc.size b = .raw) → t.dup = o.tally.dup

theorem move_spec {a o : Arch V} {ci idx : Nat} {c : Chunk V} (h : a.Ok) (ho : o.Ok)
    (hc : a.chunks[ci]? = some c) (hi : idx < c.size)
    (hsafe : idx + 1 < c.size → ∀ last, a.chunks.getLast? = some last → last.size ≠ 0) :
    ∃ a' o' ci' idx' moved o1 oc R t, a.move ci idx o = some (a', o', (ci', idx'), moved) ∧
      a'.comps = a.comps ∧ a'.cap = a.cap ∧ a'.Ok ∧ a.Erased ci idx a' moved ∧ (a.Tight → a'.Tight) ∧
      a'.chunks.map Chunk.size = eraseSizes (a.chunks.map Chunk.size) ci idx ∧
      MovedTo a o o' (c.rows idx) ci' idx' o1 oc R t := by
  obtain ⟨o1, oc, f⟩ := ho.free
  have hrow : a.row? ci idx = some (c.rows idx) := (row?_eq_some h.toShape).2 ⟨c, hc, hi, rfl⟩
  have hR := h.rows _ _ _ hrow
  have hsz := h.sizes _ _ hc
  obtain ⟨s, d, t, h1, h2, h3, h4, h5, h6⟩ := Row.moveConstruct_spec o1.blocks a.blocks (c.rows idx) (oc.rows oc.size)
    o1.tally (nodup_blocks h.inv) (fun b hb _ => hR.live hb)
  have hci : ci < a.chunks.length := (List.getElem?_eq_some_iff.1 hc).1
  -- the source after its components have been moved from
  have hsh := shape_setRow h.toShape hc idx s a.tally
  have hsrow := row?_setRow (idx := idx) hc s a.tally
  have hsocc : RowOcc a.blocks s := by
    intro b hb
    rw [h2]
    have := hR.occ b hb
    split
    · exact Cell.leave_occupied this
    · exact this
  have hbut : ({ a with chunks := a.chunks.set ci (c.setRow idx s), tally := a.tally } : Arch V).OkBut ci idx := by
    refine ⟨hsh, ?_, ?_⟩
    · intro cj j r hr hne
      rw [hsrow, if_neg hne] at hr
      exact h.rows cj j r hr
    · intro r hr
      rw [hsrow] at hr
      simp only [and_self, if_true, hi, hsz, Option.some.injEq] at hr
      subst hr; exact hsocc
  have hgl : ∀ last, (a.chunks.set ci (c.setRow idx s)).getLast? = some last →
      ∃ last', a.chunks.getLast? = some last' ∧ last'.size = last.size := by
    intro last hl
    rw [List.getLast?_eq_getElem?, List.length_set, List.getElem?_set] at hl
    split at hl
    · rename_i hk
      simp only [Option.some.injEq] at hl
      refine ⟨c, ?_, ?_⟩
      · rw [List.getLast?_eq_getElem?, ← hk]; exact hc
      · rw [← hl]; rfl
    · exact ⟨last, by rw [List.getLast?_eq_getElem?]; exact hl, rfl⟩
  have hchunk : ({ a with chunks := a.chunks.set ci (c.setRow idx s), tally := a.tally } : Arch V).chunks[ci]? =
      some (c.setRow idx s) := by simp [List.getElem?_set, hci]
  obtain ⟨a', moved, e1, e2, e3, e4, e5, e6, e7⟩ := swapErase_spec hbut hchunk hi (by
    intro hlt last hl
    obtain ⟨last', hl', hs'⟩ := hgl last hl
    rw [← hs']; exact hsafe hlt last' hl')
  have hidx : (⟨oc.size, oc.size⟩ : Nat × Nat).1 = oc.size := rfl
  refine ⟨a', o1.push (o1.chunks.length - 1) oc d t, o1.chunks.length - 1, oc.size, moved, o1, oc, d, t, ?_, e2, e3, e4,
    ?_, ?_, ?_, ⟨f, rfl, rfl, rfl, ?_, ?_, ?_, ?_⟩⟩
  · simp only [move, f.eq, f.chunk, hc]
    rw [if_pos ⟨hi, f.room, hsz⟩]
    simp only [h1]
    have : ({ a with chunks := a.chunks.set ci (c.setRow idx s) } : Arch V).swapErase ci idx = some (a', moved) := e1
    simp only [this]
    rfl
  · rcases e5 with ⟨q1, q2⟩ | ⟨m, pc, pj, R, R', q1, q2, q3, q4, q5, q6⟩
    · refine .inl ⟨q1, fun cj j => ?_⟩
      rw [q2, hsrow]
      split <;> rfl
    · refine .inr ⟨m, pc, pj, R, R', q1, q2, ?_, q4, q5, fun cj j => ?_⟩
      · rw [hsrow, if_neg q2] at q3; exact q3
      · rw [q6, hsrow]
        split <;> rfl
  · intro ht
    refine e6 (tight_setRow h.toShape ht hc hi ?_)
    intro b hb
    rw [h2, if_neg (fun hh => hb hh.1)]
  · rw [e7]
    congr 1
    simp only [List.map_set]
    apply List.ext_getElem?
    intro k
    simp only [List.getElem?_set, List.length_map, List.getElem?_map]
    split
    · rename_i hk; subst hk; rw [hc]; simp [hci, Chunk.setRow]
    · rfl
  · intro b; rw [h3, f.blocks]
  · intro b; rw [h4, f.tally, f.blocks]
  · intro b; rw [h5, f.tally]
  · intro hr; rw [h6 hr, f.tally]

/-- After `move` to an archetype with no other components the target is complete. -/
theorem MovedTo.sub {a o o' : Arch V} {row : Row V} {ci idx : Nat} {o1 : Arch V} {oc : Chunk V} {R : Row V} {t : Tally}
    (m : MovedTo a o o' row ci idx o1 oc R t) (hrow : RowOk a.blocks row) (hsub : ∀ b ∈ o.blocks, b ∈ a.blocks) :
    o'.Ok ∧ o.Pushed ci idx R o' ∧ (∀ b ∈ o.blocks, R b = row b) ∧ (o.Tight → o'.Tight) := by
  obtain ⟨f, rfl, rfl, rfl, hr, hb, hf, hd⟩ := m
  have hRb : ∀ b ∈ o.blocks, R b = row b := by
    intro b hbm; rw [hr, if_pos ⟨hsub b hbm, hbm⟩]
  have hok : RowOk o1.blocks R := by
    rw [f.blocks]
    refine ⟨?_, fun c hc => ?_⟩
    · rw [hRb _ o.none_mem_blocks]; exact hrow.1
    · rw [hRb _ hc]; exact hrow.2 c (hsub _ hc)
  refine ⟨push_ok f.ok f.chunk f.room hok t, f.pushed R t, hRb, ?_⟩
  intro ht
  have ht1 := f.tight ht
  have hraw : ∀ b, oc.rows oc.size b = .raw := ht1.spare _ oc f.chunk oc.size (Nat.le_refl _)
  refine push_tight ht1 f.chunk f.room ?_ ?_ ?_ ?_
  · intro b hbn
    rw [f.blocks] at hbn
    rw [hr, if_neg (fun hh => hbn hh.2)]; exact hraw b
  · intro b
    rw [hb, f.tally, f.blocks]
    congr 1
    unfold one
    have : (b ∈ a.blocks ∧ b ∈ o.blocks) ↔ b ∈ o.blocks := ⟨fun h => h.2, fun h => ⟨hsub b h, h⟩⟩
    simp only [this]
  · intro b; rw [hf, f.tally]
  · rw [hd (fun b _ => hraw b), f.tally]

theorem writeCell_push {a : Arch V} {ci : Nat} {c : Chunk V} (hc : a.chunks[ci]? = some c) (hlt : c.size < a.cap) (R : Row V)
    (t : Tally) (b : BlockId) (v : Val V) :
    (a.push ci c R t).writeCell ci c.size b true v = some (a.push ci c (R.construct t b v).1 (R.construct t b v).2) := by
  have hci : ci < a.chunks.length := (List.getElem?_eq_some_iff.1 hc).1
  have hrow : (a.push ci c R t).row? ci c.size = some R := by rw [row?_push hc hlt]; simp
  have hch : (a.push ci c R t).chunks[ci]? = some { c.setRow c.size R with size := c.size + 1 } := by
    simp [push, List.getElem?_set, hci]
  unfold writeCell
  rw [hrow, hch]
  simp only [if_true, push, List.set_set]
  congr 2
  congr 2
  simp only [Chunk.setRow, Chunk.mk.injEq, true_and]
  funext j
  split <;> rfl

/-- After `move` to an archetype with one more component and construction of that component. -/
theorem MovedTo.add {a o o' : Arch V} {row : Row V} {ci idx : Nat} {o1 : Arch V} {oc : Chunk V} {R : Row V} {t : Tally}
    (m : MovedTo a o o' row ci idx o1 oc R t) (hrow : RowOk a.blocks row) (k : Nat) (v : V) (hk : some k ∉ a.blocks)
    (hmem : ∀ b, b ∈ o.blocks ↔ b = some k ∨ b ∈ a.blocks) :
    ∃ o'' R', o'.writeCell ci idx (some k) true (.comp v) = some o'' ∧ o''.Ok ∧ o.Pushed ci idx R' o'' ∧
      R' (some k) = .live (.comp v) ∧ (∀ b ∈ a.blocks, R' b = row b) ∧ (o.Tight → o''.Tight) := by
  obtain ⟨f, rfl, rfl, rfl, hr, hb, hf, hd⟩ := m
  have hne : ∀ b ∈ a.blocks, b ≠ some k := fun b hbm he => hk (he ▸ hbm)
  have hRb : ∀ b ∈ a.blocks, (R.construct t (some k) (.comp v)).1 b = row b := by
    intro b hbm
    simp only [Row.construct]
    rw [Row.set_ne _ _ (hne b hbm), hr, if_pos ⟨hbm, (hmem b).2 (.inr hbm)⟩]
  have hRk : (R.construct t (some k) (.comp v)).1 (some k) = .live (.comp v) := by simp [Row.construct]
  have hok : RowOk o1.blocks (R.construct t (some k) (.comp v)).1 := by
    rw [f.blocks]
    refine ⟨?_, fun c hc => ?_⟩
    · rw [hRb _ a.none_mem_blocks]; exact hrow.1
    · rcases (hmem _).1 hc with he | hc
      · rw [he]; exact ⟨v, hRk⟩
      · rw [hRb _ hc]; exact hrow.2 c hc
  refine ⟨_, _, writeCell_push f.chunk f.room R t (some k) (.comp v), push_ok f.ok f.chunk f.room hok _,
    f.pushed _ _, hRk, hRb, ?_⟩
  intro ht
  have ht1 := f.tight ht
  have hraw : ∀ b, oc.rows oc.size b = .raw := ht1.spare _ oc f.chunk oc.size (Nat.le_refl _)
  have hRraw : ∀ b, b ∉ a.blocks → R b = .raw := by
    intro b hbn; rw [hr, if_neg (fun hh => hbn hh.1)]; exact hraw b
  refine push_tight ht1 f.chunk f.room ?_ ?_ ?_ ?_
  · intro b hbn
    rw [f.blocks, hmem] at hbn
    have h1 : b ≠ some k := fun h => hbn (.inl h)
    simp only [Row.construct]
    rw [Row.set_ne _ _ h1]
    exact hRraw b (fun h => hbn (.inr h))
  · intro b
    have e1 : (R.construct t (some k) (.comp v)).2.built b = t.built b + one [some k] b := Row.build_built _ _ _ _
    rw [e1, hb, f.tally, f.blocks, Nat.add_assoc]
    congr 1
    unfold one
    simp only [List.mem_singleton, hmem]
    by_cases hbk : b = some k
    · subst hbk; simp [hk]
    · simp [hbk]
  · intro b; show t.freed b = _; rw [hf, f.tally]
  · have : (R.construct t (some k) (.comp v)).2.dup = t.dup := by
      simp [Row.construct, Tally.build, hRraw _ hk, Cell.occupied]
    rw [this, hd (fun b _ => hraw b), f.tally]

/-- Assignment to a cell of an existing entry. -/
theorem writeCell_assign {a : Arch V} (h : a.Ok) {ci idx : Nat} {r : Row V} (hr : a.row? ci idx = some r) {b : BlockId}
    (hb : b ∈ a.blocks) (v : Val V) (hv : (b = none ∧ ∃ e, v = .ent e) ∨ (b ≠ none ∧ ∃ x, v = .comp x)) :
    ∃ a', a.writeCell ci idx b false v = some a' ∧ a'.comps = a.comps ∧ a'.cap = a.cap ∧ a'.Ok ∧
      (∀ cj j, a'.row? cj j = if cj = ci ∧ j = idx then some (r.set b (.live v)) else a.row? cj j) ∧
      a'.chunks.map Chunk.size = a.chunks.map Chunk.size ∧ (a.Tight → a'.Tight) := by
  obtain ⟨c, hc, hi, rfl⟩ := (row?_eq_some h.toShape).1 hr
  have hci : ci < a.chunks.length := (List.getElem?_eq_some_iff.1 hc).1
  have hsz := h.sizes _ _ hc
  have hR := h.rows _ _ _ hr
  have hrow := row?_setRow (idx := idx) hc ((c.rows idx).set b (.live v)) a.tally
  refine ⟨{ a with chunks := a.chunks.set ci (c.setRow idx ((c.rows idx).set b (.live v))), tally := a.tally }, ?_, rfl, rfl,
    ⟨shape_setRow h.toShape hc _ _ _, ?_⟩, ?_, ?_, ?_⟩
  · unfold writeCell
    rw [hr, hc]
    simp [hR.occ b hb]
  · intro cj j r' hr'
    rw [hrow] at hr'
    split at hr'
    · rw [if_pos ⟨hi, hsz⟩] at hr'
      simp only [Option.some.injEq] at hr'
      subst hr'
      refine ⟨?_, fun k hk => ?_⟩
      · rcases hv with ⟨rfl, e, rfl⟩ | ⟨hn, _⟩
        · exact ⟨e, by simp⟩
        · rw [Row.set_ne _ _ (fun h => hn h.symm)]; exact hR.1
      · by_cases hkb : some k = b
        · subst hkb
          rcases hv with ⟨hn, _⟩ | ⟨_, x, rfl⟩
          · cases hn
          · exact ⟨x, by simp⟩
        · rw [Row.set_ne _ _ hkb]; exact hR.2 k hk
    · exact h.rows cj j r' hr'
  · intro cj j
    rw [hrow]
    rw [if_pos (show idx < c.size ∧ c.size ≤ a.cap from ⟨hi, hsz⟩)]
  · simp only [List.map_set]
    apply List.ext_getElem?
    intro k
    simp only [List.getElem?_set, List.length_map, List.getElem?_map]
    split
    · rename_i hk; subst hk; rw [hc]; simp [hci, Chunk.setRow]
    · rfl
  · intro ht
    refine tight_setRow h.toShape ht hc hi ?_
    intro b' hb'
    exact Row.set_ne _ _ (fun he => hb' (he ▸ hb))

theorem copyBlocks_fst (a : Arch V) : a.copyBlocks.map Prod.fst = a.blocks := by
  simp [copyBlocks, blocks]

/-- Copying an entity whose components are all copyable. -/
theorem copyFrom_ok {a s : Arch V} (h : a.Ok) (hs : s.Ok) {row : Row V} (hrow : RowOk s.blocks row)
    (hbl : ∀ b, b ∈ s.blocks ↔ b ∈ a.blocks) (hcopy : ∀ m ∈ s.comps.metas, m.copyable = true) :
    ∃ a' ci idx R, a.copyFrom row s.copyBlocks = .ok a' (ci, idx) ∧ a'.Ok ∧ a.Pushed ci idx R a' ∧
      (∀ b ∈ a.blocks, R b = row b) ∧ (a.Tight → a'.Tight) := by
  obtain ⟨a1, c, f⟩ := h.free
  have hmemb : ∀ x ∈ s.copyBlocks, x.1 ∈ s.blocks := by
    intro x hx; rw [← copyBlocks_fst]; exact List.mem_map_of_mem hx
  obtain ⟨d, t, h1, h2, h3, h4, h5⟩ := Row.copyConstruct_ok a1.blocks row s.copyBlocks (c.rows c.size) a1.tally
    (by rw [copyBlocks_fst]; exact nodup_blocks hs.inv)
    (by intro x hx; rw [f.blocks, ← hbl]; exact hmemb x hx)
    (fun x hx => hrow.live (hmemb x hx))
    (by
      intro x hx
      simp only [copyBlocks, List.mem_cons, List.mem_map] at hx
      rcases hx with rfl | ⟨m, hm, rfl⟩
      · rfl
      · exact hcopy m hm)
  rw [copyBlocks_fst] at h2 h3
  have hRb : ∀ b ∈ a.blocks, d b = row b := by
    intro b hb; rw [h2, if_pos ((hbl b).2 hb)]
  have hok : RowOk a1.blocks d := by
    rw [f.blocks]
    refine ⟨?_, fun k hk => ?_⟩
    · rw [hRb _ a.none_mem_blocks]; exact hrow.1
    · rw [hRb _ hk]; exact hrow.2 k ((hbl _).2 hk)
  refine ⟨a1.push (a1.chunks.length - 1) c d t, _, _, d, ?_, push_ok f.ok f.chunk f.room hok t, f.pushed d t, hRb, ?_⟩
  · simp only [copyFrom, f.eq, f.chunk, f.room, if_true, h1]
    rfl
  · intro ht
    have ht1 := f.tight ht
    have hraw : ∀ b, c.rows c.size b = .raw := ht1.spare _ c f.chunk c.size (Nat.le_refl _)
    refine push_tight ht1 f.chunk f.room ?_ ?_ ?_ ?_
    · intro b hb
      rw [f.blocks, ← hbl] at hb
      rw [h2, if_neg hb]; exact hraw b
    · intro b
      rw [h3]
      congr 1
      unfold one
      simp only [hbl, f.blocks]
    · exact h4
    · exact h5 fun x _ => hraw _

/-- Copying an entity with a component that is not copyable throws; the entries stay as they are, but a
new empty chunk may have been added. -/
theorem copyFrom_throw {a s : Arch V} (h : a.Ok) {row : Row V} (hrow : RowOk s.blocks row)
    (hbl : ∀ b, b ∈ s.blocks ↔ b ∈ a.blocks) (hcopy : ∃ m ∈ s.comps.metas, m.copyable = false) :
    ∃ a', a.copyFrom row s.copyBlocks = .throw a' .invalidArgument ∧ a'.comps = a.comps ∧ a'.cap = a.cap ∧ a'.Ok ∧
      (∀ cj j, a'.row? cj j = a.row? cj j) ∧
      (a'.chunks.map Chunk.size = a.chunks.map Chunk.size ∨
        (a'.chunks.map Chunk.size = a.chunks.map Chunk.size ++ [0] ∧
          ∃ last, a.chunks.getLast? = some last ∧ last.size = a.cap)) := by
  obtain ⟨a1, c, f⟩ := h.free
  have hmemb : ∀ x ∈ s.copyBlocks, x.1 ∈ s.blocks := by
    intro x hx; rw [← copyBlocks_fst]; exact List.mem_map_of_mem hx
  obtain ⟨d, t, h1⟩ := Row.copyConstruct_throw a1.blocks row s.copyBlocks (c.rows c.size) a1.tally
    (by intro x hx; rw [f.blocks, ← hbl]; exact hmemb x hx)
    (fun x hx => hrow.live (hmemb x hx))
    (by
      obtain ⟨m, hm, hc⟩ := hcopy
      exact ⟨(some m.id, m.copyable), by simp [copyBlocks]; exact ⟨m, hm, rfl, rfl⟩, hc⟩)
  have hci : a1.chunks.length - 1 < a1.chunks.length := (List.getElem?_eq_some_iff.1 f.chunk).1
  have hrow' := row?_setRow (idx := c.size) f.chunk d t
  have hrow2 : ∀ cj j, ({ a1 with chunks := a1.chunks.set (a1.chunks.length - 1) (c.setRow c.size d), tally := t } : Arch V).row? cj j
      = a.row? cj j := by
    intro cj j
    rw [hrow', ← f.rows]
    split
    · rename_i hh
      obtain ⟨rfl, rfl⟩ := hh
      simp [row?, f.chunk]
    · rfl
  have hsizes : (a1.chunks.set (a1.chunks.length - 1) (c.setRow c.size d)).map Chunk.size = a1.chunks.map Chunk.size := by
    simp only [List.map_set]
    apply List.ext_getElem?
    intro k
    simp only [List.getElem?_set, List.length_map, List.getElem?_map]
    split
    · rename_i hk; subst hk; rw [f.chunk]; simp [hci, Chunk.setRow]
    · rfl
  refine ⟨{ a1 with chunks := a1.chunks.set (a1.chunks.length - 1) (c.setRow c.size d), tally := t }, ?_, f.comps, f.cap,
    ⟨shape_setRow f.ok.toShape f.chunk c.size d t, ?_⟩, hrow2, ?_⟩
  · simp only [copyFrom, f.eq, f.chunk, f.room, if_true, h1]
  · intro cj j r hr
    rw [hrow2] at hr
    show RowOk a1.blocks r
    rw [f.blocks]
    exact h.rows cj j r hr
  · simp only [hsizes]
    rcases f.chunks with he | ⟨he, hl⟩
    · left; rw [he]
    · right; exact ⟨by rw [he]; simp [Chunk.fresh], hl⟩

end Arch
end CoEcs
