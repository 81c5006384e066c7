import Verif.Proofs.Archs
import Verif.Proofs.Link
import Verif.Proofs.SparseTable

/-!
# A registry represents a map from entities to components
-/

namespace CoEcs
open Spec
variable {V : Type}

/-- The components of an entity. -/
abbrev Comps (V : Type) := Nat → Option V

/-- The entity and the components stored in a row of an archetype with the given blocks. -/
def Row.decode (bs : List BlockId) (r : Row V) : Option (Handle × Comps V) :=
  match r none with
  | .live (.ent h) =>
    some (h, fun c => if some c ∈ bs then (match r (some c) with | .live (.comp v) => some v | _ => none) else none)
  | _ => none

theorem Row.decode_congr {bs bs' : List BlockId} {r r' : Row V} (hn : none ∈ bs) (hb : ∀ b, b ∈ bs ↔ b ∈ bs')
    (hr : ∀ b ∈ bs, r b = r' b) : r.decode bs = r'.decode bs' := by
  unfold Row.decode
  rw [hr none hn]
  split
  · congr 2
    funext c
    by_cases h : some c ∈ bs
    · rw [if_pos h, if_pos ((hb _).1 h), hr _ h]
    · rw [if_neg h, if_neg (fun h' => h ((hb _).2 h'))]
  · rfl

theorem Row.decode_ok {bs : List BlockId} {r : Row V} (h : RowOk bs r) : ∃ e d, r.decode bs = some (e, d) ∧
    r none = .live (.ent e) ∧ (∀ c, some c ∈ bs → ∃ v, d c = some v ∧ r (some c) = .live (.comp v)) ∧
    ∀ c, some c ∉ bs → d c = none := by
  obtain ⟨⟨e, he⟩, hc⟩ := h
  refine ⟨e, _, by unfold Row.decode; rw [he], he, fun c hcb => ?_, fun c hcb => by simp [hcb]⟩
  obtain ⟨v, hv⟩ := hc c hcb
  exact ⟨v, by simp [hcb, hv], hv⟩

theorem Row.decode_some {bs : List BlockId} {r : Row V} {e : Handle} {d : Comps V} (h : r.decode bs = some (e, d)) (hr : RowOk bs r) :
    r none = .live (.ent e) ∧ (∀ c, some c ∈ bs → ∃ v, d c = some v ∧ r (some c) = .live (.comp v)) ∧
    ∀ c, some c ∉ bs → d c = none := by
  obtain ⟨e', d', h1, h2⟩ := decode_ok hr
  rw [h1] at h
  simp only [Option.some.injEq, Prod.mk.injEq] at h
  obtain ⟨rfl, rfl⟩ := h
  exact h2

namespace Arch

/-- The entity stored at an entry. -/
def entry (a : Arch V) (ci idx : Nat) : Option (Handle × Comps V) := (a.row? ci idx).bind (Row.decode a.blocks)

theorem entry_fresh {a : Arch V} (h : a.chunks = [Chunk.fresh]) (ci idx : Nat) : a.entry ci idx = none := by
  unfold entry row?
  rw [h]
  cases ci <;> simp [Chunk.fresh]

theorem Ok.entry_some {a : Arch V} (h : a.Ok) {ci idx : Nat} {r : Row V} (hr : a.row? ci idx = some r) :
    ∃ e d, a.entry ci idx = some (e, d) := by
  obtain ⟨e, d, h1, _⟩ := Row.decode_ok (h.rows ci idx r hr)
  exact ⟨e, d, by simp [entry, hr, h1]⟩

theorem Pushed.entry {a a' : Arch V} {ci idx : Nat} {R : Row V} (p : a.Pushed ci idx R a') (cj j : Nat) :
    a'.entry cj j = if cj = ci ∧ j = idx then R.decode a.blocks else a.entry cj j := by
  unfold Arch.entry
  rw [p.row?, blocks_congr p.comps]
  split <;> rfl

theorem Pushed.entry_free {a a' : Arch V} {ci idx : Nat} {R : Row V} (p : a.Pushed ci idx R a') : a.entry ci idx = none := by
  unfold Arch.entry
  rw [p.free]; rfl

theorem Erased.entry {a a' : Arch V} {ci idx : Nat} {moved : Option Handle} (h : a.Ok) (e : a.Erased ci idx a' moved)
    (hc : a'.comps = a.comps) :
    (moved = none ∧ ∀ cj j, a'.entry cj j = if cj = ci ∧ j = idx then none else a.entry cj j) ∨
    (∃ m d pc pj, moved = some m ∧ ¬ (pc = ci ∧ pj = idx) ∧ a.entry pc pj = some (m, d) ∧
      ∀ cj j, a'.entry cj j = if cj = ci ∧ j = idx then some (m, d) else if cj = pc ∧ j = pj then none else a.entry cj j) := by
  rcases e with ⟨h1, h2⟩ | ⟨m, pc, pj, R, R', h1, h2, h3, h4, h5, h6⟩
  · left
    refine ⟨h1, fun cj j => ?_⟩
    unfold Arch.entry
    rw [h2, blocks_congr hc]
    split <;> rfl
  · right
    obtain ⟨e, d, q1, q2, _⟩ := Row.decode_ok (h.rows _ _ _ h3)
    rw [h4] at q2
    simp only [Cell.live.injEq, Val.ent.injEq] at q2
    subst q2
    refine ⟨m, d, pc, pj, h1, h2, by simp [Arch.entry, h3, q1], fun cj j => ?_⟩
    unfold Arch.entry
    rw [h6, blocks_congr hc]
    split
    · simp only [Option.bind_some]
      rw [← q1]
      exact Row.decode_congr a.none_mem_blocks (fun _ => Iff.rfl) h5
    · split <;> rfl

/-- Only the first chunk may be an empty last chunk. -/
def LastOk (a : Arch V) : Prop := ∀ last, a.chunks.getLast? = some last → last.size = 0 → a.chunks.length ≤ 1

theorem LastOk.safe {a : Arch V} (h : a.LastOk) {ci idx : Nat} {c : Chunk V} (hc : a.chunks[ci]? = some c) :
    idx + 1 < c.size → ∀ last, a.chunks.getLast? = some last → last.size ≠ 0 := by
  intro hlt last hl h0
  have hlen := h last hl h0
  have hci := (List.getElem?_eq_some_iff.1 hc).1
  rw [List.getLast?_eq_getElem?, show a.chunks.length - 1 = ci by omega, hc] at hl
  cases hl
  omega

end Arch

/-- The entity stored at a location. -/
def slots (as : List (Arch V)) (l : Loc) : Option (Handle × Comps V) :=
  match l.arch with
  | none => none
  | some i =>
    match as[i]? with
    | none => none
    | some a => a.entry l.chunk l.entry

theorem slots_some {as : List (Arch V)} {i : Nat} {a : Arch V} (h : as[i]? = some a) (ci idx : Nat) :
    slots as ⟨some i, ci, idx⟩ = a.entry ci idx := by
  simp [slots, h]

theorem slots_set {as : List (Arch V)} {i : Nat} (hi : i < as.length) (a' : Arch V) (l : Loc) :
    slots (as.set i a') l = if l.arch = some i then a'.entry l.chunk l.entry else slots as l := by
  unfold slots
  cases hl : l.arch with
  | none => simp
  | some j =>
    simp only [Option.some.injEq]
    by_cases hj : j = i
    · subst hj; simp [hi]
    · rw [if_neg hj, List.getElem?_set_ne (fun h => hj h.symm)]

theorem slots_append {as : List (Arch V)} {a : Arch V} (h : a.chunks = [Chunk.fresh]) (l : Loc) :
    slots (as ++ [a]) l = slots as l := by
  unfold slots
  cases hl : l.arch with
  | none => rfl
  | some j =>
    simp only
    by_cases hj : j < as.length
    · rw [List.getElem?_append_left hj]
    · rw [List.getElem?_append_right (by omega), List.getElem?_eq_none (l := as) (by omega)]
      cases hk : j - as.length with
      | zero => simp [Arch.entry_fresh h]
      | succ n => simp

theorem Ensured.slots {ty : Types} {s s' : Archs V} {m m' : KeyMap Bitset (Option Nat)} {ai : Nat} {a : Arch V} {key : Bitset}
    {comps : MetaSet} (h : Ensured ty s s' m m' ai a key comps) (l : Loc) : slots s'.arches l = slots s.arches l := by
  rcases h.cases with h1 | ⟨_, h1, _, _, h2, _⟩
  · rw [h1]
  · rw [h1]; exact slots_append h2 l

/-- Archetypes are never lost. -/
theorem Ensured.keep {ty : Types} {s s' : Archs V} {m m' : KeyMap Bitset (Option Nat)} {ai : Nat} {a : Arch V} {key : Bitset}
    {comps : MetaSet} (h : Ensured ty s s' m m' ai a key comps) {i : Nat} {b : Arch V} (hb : s.arches[i]? = some b) :
    s'.arches[i]? = some b := by
  rcases h.cases with h1 | ⟨_, h1, _⟩
  · rw [h1]; exact hb
  · rw [h1, List.getElem?_append_left (List.getElem?_eq_some_iff.1 hb).1]; exact hb

theorem slots_set_push {as : List (Arch V)} {i : Nat} {a a' : Arch V} (hi : as[i]? = some a) {ci idx : Nat} {R : Row V}
    (p : a.Pushed ci idx R a') (l : Loc) :
    slots (as.set i a') l = if l = ⟨some i, ci, idx⟩ then R.decode a.blocks else slots as l := by
  rw [slots_set (List.getElem?_eq_some_iff.1 hi).1, p.entry]
  cases l with
  | mk la lc le =>
    simp only [Loc.mk.injEq]
    by_cases h : la = some i
    · subst h
      simp only [if_true, true_and]
      split
      · rfl
      · rw [slots_some hi]
    · simp [h]

theorem slots_push_free {as : List (Arch V)} {i : Nat} {a a' : Arch V} (hi : as[i]? = some a) {ci idx : Nat} {R : Row V}
    (p : a.Pushed ci idx R a') : slots as ⟨some i, ci, idx⟩ = none := by
  rw [slots_some hi, p.entry_free]

theorem slots_set_erase {as : List (Arch V)} {i : Nat} {a a' : Arch V} (hi : as[i]? = some a) {ci idx : Nat} {moved : Option Handle}
    (h : a.Ok) (e : a.Erased ci idx a' moved) (hc : a'.comps = a.comps) :
    (moved = none ∧ ∀ l, slots (as.set i a') l = if l = ⟨some i, ci, idx⟩ then none else slots as l) ∨
    (∃ m d q, moved = some m ∧ q ≠ ⟨some i, ci, idx⟩ ∧ slots as q = some (m, d) ∧
      ∀ l, slots (as.set i a') l = if l = ⟨some i, ci, idx⟩ then some (m, d) else if l = q then none else slots as l) := by
  have hil := (List.getElem?_eq_some_iff.1 hi).1
  rcases e.entry h hc with ⟨h1, h2⟩ | ⟨m, d, pc, pj, h1, h2, h3, h4⟩
  · left
    refine ⟨h1, fun l => ?_⟩
    rw [slots_set hil, h2]
    cases l with
    | mk la lc le =>
      simp only [Loc.mk.injEq]
      by_cases h : la = some i
      · subst h
        simp only [if_true, true_and]
        split
        · rfl
        · rw [slots_some hi]
      · simp [h]
  · right
    refine ⟨m, d, ⟨some i, pc, pj⟩, h1, ?_, by rw [slots_some hi, h3], fun l => ?_⟩
    · simp only [ne_eq, Loc.mk.injEq, true_and]; exact h2
    · rw [slots_set hil, h4]
      cases l with
      | mk la lc le =>
        simp only [Loc.mk.injEq]
        by_cases h : la = some i
        · subst h
          simp only [if_true, true_and]
          split
          · rfl
          · split
            · rfl
            · rw [slots_some hi]
        · simp [h]

/-- Replacing an archetype by one with the same entries. -/
theorem slots_set_same {as : List (Arch V)} {i : Nat} {a a' : Arch V} (hi : as[i]? = some a) (hc : a'.comps = a.comps)
    (hr : ∀ cj j, a'.row? cj j = a.row? cj j) (l : Loc) : slots (as.set i a') l = slots as l := by
  rw [slots_set (List.getElem?_eq_some_iff.1 hi).1]
  split
  · rename_i h
    cases l with
    | mk la lc le =>
      simp only at h
      subst h
      rw [slots_some hi]
      simp only [Arch.entry, hr, Arch.blocks_congr hc]
  · rfl

/-! ### The representation predicate -/

/-- The registry holds exactly the entities of `W` with their components; `k` reservations are pending. -/
structure Rep (ty : Types) (r : Reg V) (k : Nat) (W : Handle → Option (Comps V)) : Prop where
  pool : PoolInv r.pool k
  small : r.pool.nextId < U32
  archs : ∃ m, ArchsRel ty r.archs m
  link : ∃ lm, SparseTable.Rel 32 r.locs lm ∧ Link r.pool k (slots r.archs.arches) lm.get
  holds : Holds (slots r.archs.arches) W

theorem Rep.empty (ty : Types) : Rep ty (Reg.empty : Reg V) 0 (fun _ => none) := by
  have hs : ∀ l, slots (Reg.empty : Reg V).archs.arches l = none := by
    intro l
    unfold slots
    cases l.arch <;> simp [Reg.empty, Archs.empty]
  refine ⟨PoolInv.empty, by simp [Reg.empty, Pool.empty, U32], ⟨_, ArchsRel.empty ty⟩, ⟨_, SparseTable.Rel.empty 32, ⟨?_, ?_⟩⟩, ?_⟩
  · intro l h d hl; rw [hs] at hl; cases hl
  · intro id l hl; simp [FinMap.empty] at hl
  · intro h d
    simp [hs]

/-- Where an entity is stored. -/
structure At (r : Reg V) (h : Handle) (d : Comps V) (l : Loc) (ai : Nat) (a : Arch V) (c : Chunk V) (row : Row V) : Prop where
  loc : r.location h = .ok l
  arch : l.arch = some ai
  get : r.archs.arches[ai]? = some a
  ok : a.Ok
  chunk : a.chunks[l.chunk]? = some c
  lt : l.entry < c.size
  row_eq : row = c.rows l.entry
  decode : row.decode a.blocks = some (h, d)
  rowOk : RowOk a.blocks row
  slot : slots r.archs.arches l = some (h, d)

theorem At.row? {r : Reg V} {h : Handle} {d : Comps V} {l : Loc} {ai : Nat} {a : Arch V} {c : Chunk V} {row : Row V}
    (t : At r h d l ai a c row) : a.row? l.chunk l.entry = some row := by
  rw [Arch.row?_eq_some t.ok.toShape]
  exact ⟨c, t.chunk, t.lt, t.row_eq⟩

theorem At.archOf {r : Reg V} {h : Handle} {d : Comps V} {l : Loc} {ai : Nat} {a : Arch V} {c : Chunk V} {row : Row V}
    (t : At r h d l ai a c row) : r.archOf l = some (ai, a) := by
  simp [Reg.archOf, t.arch, t.get]

theorem At.loc_eq {r : Reg V} {h : Handle} {d : Comps V} {l : Loc} {ai : Nat} {a : Arch V} {c : Chunk V} {row : Row V}
    (t : At r h d l ai a c row) : l = ⟨some ai, l.chunk, l.entry⟩ := by
  cases l with
  | mk la lc le => have := t.arch; simp at this; subst this; rfl

theorem Rep.at_ {ty : Types} {r : Reg V} {k : Nat} {W : Handle → Option (Comps V)} (R : Rep ty r k W) {h : Handle} {d : Comps V}
    (hw : W h = some d) : ∃ l ai a c row, At r h d l ai a c row := by
  obtain ⟨lm, hlm, L⟩ := R.link
  obtain ⟨m, hm⟩ := R.archs
  obtain ⟨l, hl⟩ := (R.holds h d).2 hw
  obtain ⟨h1, h2⟩ := L.stored _ _ _ hl
  have hloc : r.location h = .ok l := by
    unfold Reg.location Reg.alive
    rw [if_pos h1.alive, hlm.at_, h2]
  have hl' := hl
  unfold slots at hl
  split at hl
  · cases hl
  · rename_i ai hai
    split at hl
    · cases hl
    · rename_i a ha
      have hok := hm.ok ai a ha
      unfold Arch.entry at hl
      rw [Option.bind_eq_some_iff] at hl
      obtain ⟨row, q1, q2⟩ := hl
      obtain ⟨c, p1, p2, p3⟩ := (Arch.row?_eq_some hok.toShape).1 q1
      exact ⟨l, ai, a, c, row, hloc, hai, ha, hok, p1, p2, p3, q2, hok.rows _ _ _ q1, hl'⟩

theorem Rep.alive {ty : Types} {r : Reg V} {k : Nat} {W : Handle → Option (Comps V)} (R : Rep ty r k W) {h : Handle} {d : Comps V}
    (hw : W h = some d) : r.alive h = true := by
  obtain ⟨lm, hlm, L⟩ := R.link
  obtain ⟨l, hl⟩ := (R.holds h d).2 hw
  exact (L.stored _ _ _ hl).1.alive

/-- A handle that is not in use has no location. -/
theorem Rep.location_none {ty : Types} {r : Reg V} {k : Nat} {W : Handle → Option (Comps V)} (R : Rep ty r k W) {h : Handle}
    (hw : W h = none) : r.location h = .throw (if r.alive h then .outOfRange else .entityNotFound) := by
  obtain ⟨lm, hlm, L⟩ := R.link
  unfold Reg.location
  split
  · rename_i ha
    rw [hlm.at_]
    cases hl : lm.get h.id with
    | none => rfl
    | some l =>
      exfalso
      obtain ⟨h', d, q1, q2⟩ := L.located _ _ hl
      have q3 := (L.stored _ _ _ q1).1
      have : h' = h := by
        unfold Reg.alive at ha
        rw [alive_iff] at ha
        have := q3.1
        rw [q2, ha] at this
        cases h; cases h'; simp at this q2; simp [this, q2]
      subst this
      have := (R.holds h' d).1 ⟨l, q1⟩
      rw [hw] at this; cases this
  · rfl

/-! ### The location table does not overflow -/

theorem nodup_lt_length (n : Nat) : ∀ l : List Nat, l.Nodup → (∀ x ∈ l, x < n) → l.length ≤ n := by
  induction n with
  | zero =>
    intro l _ h
    cases l with
    | nil => simp
    | cons x l => exact absurd (h x (by simp)) (by omega)
  | succ n ih =>
    intro l hn h
    have h1 := ih (l.filter fun x => x ≠ n) (List.Sublist.nodup List.filter_sublist hn) (by
      intro x hx
      simp only [List.mem_filter, decide_eq_true_eq, ne_eq] at hx
      have := h x hx.1
      have := hx.2
      omega)
    have h2 : ∀ l : List Nat, l.Nodup → l.length ≤ (l.filter fun x => x ≠ n).length + 1 := by
      intro l
      induction l with
      | nil => simp
      | cons x l ih =>
        intro hn
        rw [List.nodup_cons] at hn
        by_cases hx : x = n
        · subst hx
          have hf : (l.filter fun y => y ≠ x) = l := by
            rw [List.filter_eq_self]
            intro y hy
            simp only [ne_eq, decide_eq_true_eq]
            rintro rfl; exact hn.1 hy
          rw [List.filter_cons_of_neg (by simp), hf]; simp
        · rw [List.filter_cons_of_pos (by simpa using hx)]
          have := ih hn.2
          simp only [List.length_cons]; omega
    have := h2 l hn
    omega

theorem count_bound {t : SparseTable Loc} {lm : FinMap Loc} (hr : SparseTable.Rel 32 t lm) {n : Nat}
    (hb : ∀ id l, lm.get id = some l → id < n) : lm.count ≤ n := by
  rw [hr.count]
  have := nodup_lt_length n (t.dense.map Prod.fst) hr.inv.nodup (by
    intro x hx
    obtain ⟨⟨k, v⟩, hkv, rfl⟩ := List.mem_map.1 hx
    exact hb _ _ ((hr.mem k v).2 hkv))
  simpa using this

theorem count_put {t : SparseTable Loc} {lm : FinMap Loc} (hr : SparseTable.Rel 32 t lm) {n k : Nat} (v : Loc)
    (hb : ∀ id l, lm.get id = some l → id < n) (hk : k < n) : (lm.put k v).count ≤ n := by
  unfold FinMap.put
  simp only
  split
  · exact count_bound hr hb
  · rename_i hs
    rw [hr.count]
    have := nodup_lt_length n (k :: t.dense.map Prod.fst) (by
      rw [List.nodup_cons]
      refine ⟨fun hx => ?_, hr.inv.nodup⟩
      obtain ⟨⟨k', v'⟩, hkv, he⟩ := List.mem_map.1 hx
      simp only at he
      subst he
      rw [(hr.mem k' v').2 hkv] at hs
      exact hs rfl) (by
      intro x hx
      rcases List.mem_cons.1 hx with rfl | hx
      · exact hk
      obtain ⟨⟨k', v'⟩, hkv, rfl⟩ := List.mem_map.1 hx
      exact hb _ _ ((hr.mem k' v').2 hkv))
    simpa using this

theorem put_get (m : FinMap Loc) (k : Nat) (v : Loc) (id : Nat) : (m.put k v).get id = if id = k then some v else m.get id := rfl
theorem del_get (m : FinMap Loc) (k : Nat) (id : Nat) : (m.del k).get id = if id = k then none else m.get id := rfl

/-- Writing a location whose id is below `n` (`n` at most the number of ids). -/
theorem setLoc_spec {r : Reg V} {lm : FinMap Loc} {n : Nat} (hr : SparseTable.Rel 32 r.locs lm)
    (hb : ∀ id l, lm.get id = some l → id < n) (hn : n < U32) {id : Nat} (hid : id < n) (l : Loc) :
    ∃ t, r.setLoc id l = some { r with locs := t } ∧ SparseTable.Rel 32 t (lm.put id l) := by
  have hc := count_put hr l hb hid
  obtain ⟨t, h1, h2⟩ := hr.assign (k := id) (d := Loc.null) (v := l) (by unfold U64; unfold U32 at hn; omega)
    (by unfold U32 at hn; omega)
  exact ⟨t, by simp [Reg.setLoc, h1], h2⟩

theorem removeLoc_spec {r : Reg V} {lm : FinMap Loc} (hr : SparseTable.Rel 32 r.locs lm) (id : Nat) :
    ∃ t, r.removeLoc id = some { r with locs := t } ∧ SparseTable.Rel 32 t (lm.del id) := by
  obtain ⟨t, h1, h2⟩ := hr.erase id
  exact ⟨t, by simp [Reg.removeLoc, h1], h2⟩

theorem Link.bound {D : Type} {p : Pool} {k : Nat} {ent : Loc → Option (Handle × D)} {lm : Nat → Option Loc} (L : Link p k ent lm) :
    ∀ id l, lm id = some l → id < p.gens.length := by
  intro id l hl
  obtain ⟨h, d, h1, rfl⟩ := L.located _ _ hl
  exact (L.stored _ _ _ h1).1.lt

end CoEcs
