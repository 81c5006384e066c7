import Verif.Proofs.Rep

/-!
# What the operations of a registry do to the map it represents
-/

namespace CoEcs
open Spec
variable {V : Type}

/-- All archetypes hold exactly the objects of their entries. -/
def AllTight (s : Archs V) : Prop := ∀ (i : Nat) (a : Arch V), s.arches[i]? = some a → a.Tight

/-- The archetype map holds no null pointer. -/
def NoNull (s : Archs V) : Prop := ∀ m, HTable.HRel setHash s.map m → ∀ k, m.get k ≠ some none

theorem hrel_unique {K V : Type} [DecidableEq K] {h : K → Nat} {t : HTable K V} {m m' : KeyMap K V} (r : HTable.HRel h t m)
    (r' : HTable.HRel h t m') (k : K) : m.get k = m'.get k := by
  apply Option.ext
  intro v
  rw [r.mem, r'.mem]

theorem Ensured.noNull {ty : Types} {s s' : Archs V} {m m' : KeyMap Bitset (Option Nat)} {ai : Nat} {a : Arch V} {key : Bitset}
    {comps : MetaSet} (h : Ensured ty s s' m m' ai a key comps) (hr : HTable.HRel setHash s.map m) (hn : NoNull s) : NoNull s' := by
  intro m2 h2 k hk
  rw [hrel_unique h2 h.rel.rel] at hk
  exact hn m hr k (h.null k hk)

/-- After a failure there is a null pointer in the map. -/
theorem EnsureFailed.null {ty : Types} {s s' : Archs V} {m m' : KeyMap Bitset (Option Nat)} {key : Bitset} {comps : MetaSet}
    (h : EnsureFailed ty s s' m m' key comps) : ¬ NoNull s' := fun hn => hn m' h.rel.rel key (by rw [h.get, if_pos rfl])

theorem Ensured.allTight {ty : Types} {s s' : Archs V} {m m' : KeyMap Bitset (Option Nat)} {ai : Nat} {a : Arch V} {key : Bitset}
    {comps : MetaSet} (h : Ensured ty s s' m m' ai a key comps) (hn : AllTight s) : AllTight s' := by
  intro i b hb
  rcases h.cases with h1 | ⟨_, h1, _, h2, _⟩
  · rw [h1] at hb; exact hn i b hb
  · rw [h1] at hb
    by_cases hlt : i < s.arches.length
    · rw [List.getElem?_append_left hlt] at hb; exact hn i b hb
    · rw [List.getElem?_append_right (by omega)] at hb
      have : i - s.arches.length = 0 := by
        have := (List.getElem?_eq_some_iff.1 hb).1
        simp at this; omega
      rw [this] at hb
      simp at hb
      exact hb ▸ h2

theorem AllTight.set {s : Archs V} (h : AllTight s) (i : Nat) {a : Arch V} (ha : a.Tight) :
    AllTight { s with arches := s.arches.set i a } := by
  intro j b hb
  simp only [List.getElem?_set] at hb
  split at hb
  · split at hb
    · simp at hb; exact hb ▸ ha
    · cases hb
  · exact h j b hb

/-- The last chunk of every archetype is not empty, unless it is the only one. -/
def AllLast (s : Archs V) : Prop := ∀ (i : Nat) (a : Arch V), s.arches[i]? = some a → a.LastOk

/-- No archetype has more than two chunks. -/
def AllTwo (s : Archs V) : Prop := ∀ (i : Nat) (a : Arch V), s.arches[i]? = some a → a.chunks.length ≤ 2

theorem Ensured.allLast {ty : Types} {s s' : Archs V} {m m' : KeyMap Bitset (Option Nat)} {ai : Nat} {a : Arch V} {key : Bitset}
    {comps : MetaSet} (h : Ensured ty s s' m m' ai a key comps) (hn : AllLast s) : AllLast s' := by
  intro i b hb
  rcases h.cases with h1 | ⟨_, h1, _, _, h3, _⟩
  · rw [h1] at hb; exact hn i b hb
  · rw [h1] at hb
    by_cases hlt : i < s.arches.length
    · rw [List.getElem?_append_left hlt] at hb; exact hn i b hb
    · rw [List.getElem?_append_right (by omega)] at hb
      have : i - s.arches.length = 0 := by
        have := (List.getElem?_eq_some_iff.1 hb).1
        simp at this; omega
      rw [this] at hb
      simp at hb
      intro last _ _
      rw [← hb, h3]; simp

theorem AllLast.set {s : Archs V} (h : AllLast s) (i : Nat) {a : Arch V} (ha : a.LastOk) :
    AllLast { s with arches := s.arches.set i a } := by
  intro j b hb
  simp only [List.getElem?_set] at hb
  split at hb
  · split at hb
    · simp at hb; exact hb ▸ ha
    · cases hb
  · exact h j b hb

theorem Arch.Pushed.lastOk {a a' : Arch V} {ci idx : Nat} {R : Row V} (p : a.Pushed ci idx R a') : a'.LastOk := by
  intro last hl h0
  obtain ⟨c, hc, hne⟩ := p.last
  rw [hc] at hl
  cases hl
  exact absurd h0 hne

theorem Arch.lastOk_sizes {a a' : Arch V} (h : a.LastOk) (he : a'.chunks.map Chunk.size = a.chunks.map Chunk.size) : a'.LastOk := by
  intro last hl h0
  have h1 := congrArg List.getLast? he
  rw [List.getLast?_map, List.getLast?_map, hl] at h1
  have h2 := congrArg List.length he
  simp only [List.length_map] at h2
  cases hc : a.chunks.getLast? with
  | none => rw [hc] at h1; cases h1
  | some c =>
    rw [hc] at h1
    simp at h1
    have := h c hc (by omega)
    omega

/-- After an erase from an archetype of at most two chunks the last one is not an empty second one. -/
theorem Arch.lastOk_erase {a a' : Arch V} {ci idx : Nat} (h2 : a.chunks.length ≤ 2)
    (he : a'.chunks.map Chunk.size = eraseSizes (a.chunks.map Chunk.size) ci idx) : a'.LastOk := by
  intro last hl h0
  have h1 := congrArg List.getLast? he
  have h3 := congrArg List.length he
  rw [List.getLast?_map, hl] at h1
  simp only [List.length_map, Option.map_some, h0] at h1 h3
  rw [h3]
  unfold eraseSizes at h1 ⊢
  generalize hl1 : (if idx + 1 = (a.chunks.map Chunk.size).getD ci 0 then
    (a.chunks.map Chunk.size).set ci ((a.chunks.map Chunk.size).getD ci 0 - 1)
    else (a.chunks.map Chunk.size).set ((a.chunks.map Chunk.size).length - 1)
      ((a.chunks.map Chunk.size).getD ((a.chunks.map Chunk.size).length - 1) 0 - 1)) = l1 at h1 ⊢
  have hlen : l1.length ≤ 2 := by rw [← hl1]; split <;> simpa using h2
  simp only at h1 ⊢
  split
  · simp; omega
  · rename_i hn
    rw [if_neg hn] at h1
    simp only [← h1, true_and] at hn
    omega

/-- What every operation preserves: object counts, and no empty last chunk as long as there are at most
two chunks. -/
structure Keep (s s' : Archs V) : Prop where
  tight : AllTight s → AllTight s'
  last : AllLast s → AllTwo s → AllLast s'

theorem Keep.of_eq {s s' : Archs V} (h : s'.arches = s.arches) : Keep s s' :=
  ⟨fun ht i b hb => ht i b (by rw [← h]; exact hb), fun ht _ i b hb => ht i b (by rw [← h]; exact hb)⟩

/-! ### Reading -/

section Read
variable {ty : Types} {r : Reg V} {k : Nat} {W : Handle → Option (Comps V)}

theorem Rep.rowOf (R : Rep ty r k W) {h : Handle} {d : Comps V} (hw : W h = some d) :
    ∃ a row, r.rowOf h = .ok (a, row) ∧ a.Ok ∧ row.decode a.blocks = some (h, d) ∧ RowOk a.blocks row ∧
      ∃ l ai c, At r h d l ai a c row := by
  obtain ⟨l, ai, a, c, row, t⟩ := R.at_ hw
  exact ⟨a, row, by simp [Reg.rowOf, t.loc, t.archOf, t.row?], t.ok, t.decode, t.rowOk, l, ai, c, t⟩

theorem Rep.get_some (R : Rep ty r k W) {h : Handle} {d : Comps V} (hw : W h = some d) {c : Nat} {v : V} (hc : d c = some v) :
    r.get h c = .ok v := by
  obtain ⟨a, row, h1, h2, h3, h4, _⟩ := R.rowOf hw
  obtain ⟨q1, q2, q3⟩ := Row.decode_some h3 h4
  unfold Reg.get
  rw [h1]
  by_cases hb : some c ∈ a.blocks
  · obtain ⟨v', p1, p2⟩ := q2 c hb
    rw [hc] at p1
    cases p1
    simp [hb, p2, Cell.read]
  · rw [q3 c hb] at hc; cases hc

theorem Rep.get_absent (R : Rep ty r k W) {h : Handle} {d : Comps V} (hw : W h = some d) {c : Nat} (hc : d c = none) :
    r.get h c = .throw .componentNotFound := by
  obtain ⟨a, row, h1, h2, h3, h4, _⟩ := R.rowOf hw
  obtain ⟨q1, q2, q3⟩ := Row.decode_some h3 h4
  unfold Reg.get
  rw [h1]
  by_cases hb : some c ∈ a.blocks
  · obtain ⟨v', p1, p2⟩ := q2 c hb
    rw [hc] at p1
    cases p1
  · simp [hb]

theorem Rep.get_none (R : Rep ty r k W) {h : Handle} (hw : W h = none) (c : Nat) :
    r.get h c = .throw (if r.alive h then .outOfRange else .entityNotFound) := by
  have := R.location_none hw
  simp [Reg.get, Reg.rowOf, this]

theorem Rep.has_some (R : Rep ty r k W) {h : Handle} {d : Comps V} (hw : W h = some d) (cs : List Nat) :
    r.has h cs = .ok (cs.all fun c => (d c).isSome) := by
  obtain ⟨l, ai, a, c, row, t⟩ := R.at_ hw
  obtain ⟨q1, q2, q3⟩ := Row.decode_some t.decode t.rowOk
  have : ∀ c, a.contains c = (d c).isSome := by
    intro c
    rw [Bool.eq_iff_iff, t.ok.toShape.contains]
    constructor
    · intro hb; obtain ⟨v, hv, _⟩ := q2 c hb; simp [hv]
    · intro hs
      by_cases hb : some c ∈ a.blocks
      · exact hb
      · rw [q3 c hb] at hs; cases hs
  simp only [Reg.has, t.loc, t.archOf]
  congr 1
  exact List.all_congr rfl this

theorem Rep.has_none (R : Rep ty r k W) {h : Handle} (hw : W h = none) (cs : List Nat) :
    r.has h cs = .throw (if r.alive h then .outOfRange else .entityNotFound) := by
  have := R.location_none hw
  simp [Reg.has, this]

/-- The represented map is determined by what `has` and `get` return. -/
theorem Rep.get_iff (R : Rep ty r k W) (h : Handle) (c : Nat) (v : V) : r.get h c = .ok v ↔ ∃ d, W h = some d ∧ d c = some v := by
  cases hw : W h with
  | none => rw [R.get_none hw]; simp
  | some d =>
    cases hc : d c with
    | none => rw [R.get_absent hw hc]; simp [hc]
    | some v' => rw [R.get_some hw hc]; simp [hc]

theorem Rep.has_iff (R : Rep ty r k W) (h : Handle) : r.has h [] = .ok true ↔ ∃ d, W h = some d := by
  cases hw : W h with
  | none => rw [R.has_none hw]; simp
  | some d => rw [R.has_some hw]; simp

end Read

/-! ### create -/

theorem decode_args {bs : List BlockId} {R : Row V} {h : Handle} {args : List (Nat × V)} (hn : R none = .live (.ent h))
    (hb : ∀ c, some c ∈ bs ↔ c ∈ args.map Prod.fst)
    (hv : ∀ c v, Row.argVal args c = some v → R (some c) = .live (.comp v)) : R.decode bs = some (h, Row.argVal args) := by
  unfold Row.decode
  rw [hn]
  simp only [Option.some.injEq, Prod.mk.injEq, true_and]
  funext c
  cases ha : Row.argVal args c with
  | some v =>
    rw [hv c v ha]
    rw [if_pos]
    rw [hb]
    simp only [Row.argVal, Option.map_eq_some_iff] at ha
    obtain ⟨x, hx, _⟩ := ha
    have hm := List.mem_of_find?_eq_some hx
    have he := List.find?_some hx
    simp only [beq_iff_eq] at he
    exact he ▸ List.mem_map_of_mem hm
  | none =>
    rw [if_neg]
    rw [hb]
    intro hm
    obtain ⟨x, hx, rfl⟩ := List.mem_map.1 hm
    simp only [Row.argVal, Option.map_eq_none_iff, List.find?_eq_none] at ha
    exact absurd (ha x hx) (by simp)

/-- Adding an entity to one archetype. -/
theorem Rep.push {ty : Types} {r : Reg V} {k : Nat} {W : Handle → Option (Comps V)} (R : Rep ty r k W) {h : Handle}
    (hh : Held r.pool k h) (hw : W h = none) {ai : Nat} {a a' : Arch V} (ha : r.archs.arches[ai]? = some a) {ci idx : Nat} {row : Row V}
    (hp : a.Pushed ci idx row a') (hok : a'.Ok) {d : Comps V} (hd : row.decode a.blocks = some (h, d)) :
    ∃ r', (r.setArch ai a').setLoc h.id ⟨some ai, ci, idx⟩ = some r' ∧ r'.pool = r.pool ∧
      r'.archs = (r.setArch ai a').archs ∧ Rep ty r' k (World.put W h (some d)) := by
  obtain ⟨lm, hlm, L⟩ := R.link
  obtain ⟨m, hm⟩ := R.archs
  have hgl := R.pool.gens_le
  have hsm := R.small
  have hnone : lm.get h.id = none := by
    cases hl : lm.get h.id with
    | none => rfl
    | some l =>
      exfalso
      obtain ⟨h', d', q1, q2⟩ := L.located _ _ hl
      have := held_inj (L.stored _ _ _ q1).1 hh q2
      subst this
      have := (R.holds h' d').1 ⟨l, q1⟩
      rw [hw] at this; cases this
  obtain ⟨t, h1, h2⟩ := setLoc_spec (r := r.setArch ai a') (n := r.pool.gens.length) hlm L.bound (by omega) hh.lt ⟨some ai, ci, idx⟩
  obtain ⟨L', H'⟩ := L.push R.holds (ent' := slots (r.archs.arches.set ai a')) (d := d) (s := ⟨some ai, ci, idx⟩) hh hnone
    (slots_push_free ha hp) (by intro l; rw [slots_set_push ha hp, hd]) (lm' := (lm.put h.id ⟨some ai, ci, idx⟩).get) (fun id => rfl)
  exact ⟨_, h1, rfl, rfl, ⟨R.pool, R.small, ⟨m, hm.setArch ha hp.comps hok⟩, ⟨_, h2, L'⟩, H'⟩⟩

/-- Only the handle pool changes. -/
theorem Rep.withPool {ty : Types} {r : Reg V} {k k' : Nat} {W : Handle → Option (Comps V)} (R : Rep ty r k W) {p : Pool}
    (hp : PoolInv p k') (hs : p.nextId < U32) (hh : ∀ h, (∃ d, W h = some d) → Held r.pool k h → Held p k' h) :
    Rep ty { r with pool := p } k' W := by
  obtain ⟨lm, hlm, L⟩ := R.link
  exact ⟨hp, hs, R.archs, ⟨lm, hlm, L.mono fun l h d hl => hh h ⟨d, (R.holds h d).1 ⟨l, hl⟩⟩⟩, R.holds⟩

/-- Only the archetype map changes, and it shows the same entities. -/
theorem Rep.withArchs {ty : Types} {r : Reg V} {k : Nat} {W : Handle → Option (Comps V)} (R : Rep ty r k W) {s : Archs V}
    {m : KeyMap Bitset (Option Nat)} (hm : ArchsRel ty s m) (hs : ∀ l, slots s.arches l = slots r.archs.arches l) :
    Rep ty { r with archs := s } k W := by
  have : slots s.arches = slots r.archs.arches := funext hs
  obtain ⟨lm, hlm, L⟩ := R.link
  exact ⟨R.pool, R.small, ⟨m, hm⟩, ⟨lm, hlm, by rw [this]; exact L⟩, by rw [this]; exact R.holds⟩

theorem Rep.held {ty : Types} {r : Reg V} {k : Nat} {W : Handle → Option (Comps V)} (R : Rep ty r k W) {h : Handle} {d : Comps V}
    (hw : W h = some d) : Held r.pool k h := by
  obtain ⟨lm, hlm, L⟩ := R.link
  obtain ⟨l, hl⟩ := (R.holds h d).2 hw
  exact (L.stored _ _ _ hl).1

theorem Rep.create_pool {ty : Types} {r : Reg V} {W : Handle → Option (Comps V)} (R : Rep ty r 0 W) (hb : r.pool.nextId + 1 < U32) :
    ∃ p h, r.pool.create = some (p, h) ∧ Rep ty { r with pool := p } 0 W ∧ Held p 0 h ∧ W h = none ∧
      (∀ h', Held r.pool 0 h' → Held p 0 h' ∧ h'.id ≠ h.id) ∧ (∀ h', h' ≠ h → p.alive h' = r.pool.alive h') := by
  cases hc : r.pool.create with
  | none => exact absurd hc (create_isSome R.pool)
  | some x =>
    obtain ⟨p, h⟩ := x
    obtain ⟨h1, h2, h3, h4, h5⟩ := pool_create R.pool hb hc
    refine ⟨p, h, rfl, R.withPool h1 h2 fun h' _ hh => (h4 h' hh).1, h3, ?_, h4, h5⟩
    cases hw : W h with
    | none => rfl
    | some d => exact absurd rfl (h4 h (R.held hw)).2

theorem Rep.create {ty : Types} {r : Reg V} {W : Handle → Option (Comps V)} (R : Rep ty r 0 W) (hb : r.pool.nextId + 1 < U32)
    {args : List (Nat × V)} (hnd : (args.map Prod.fst).Nodup) :
    ∃ p h, r.pool.create = some (p, h) ∧ Held p 0 h ∧ W h = none ∧
      (∀ h', Held r.pool 0 h' → Held p 0 h' ∧ h'.id ≠ h.id) ∧ (∀ h', h' ≠ h → p.alive h' = r.pool.alive h') ∧
      ((∃ r', r.create ty args = .ok r' h ∧ r'.pool = p ∧ Rep ty r' 0 (World.put W h (some (Row.argVal args))) ∧
          Keep r.archs r'.archs ∧ (NoNull r.archs → NoNull r'.archs)) ∨
        (∃ r', r.create ty args = .throw r' .insufficientChunkSize ∧ r'.pool = p ∧ Rep ty r' 0 W ∧
          Keep r.archs r'.archs ∧
          Layout.maxSize (MetaSet.create (args.map fun x => ty.info x.1)).metas = none ∧ ¬ NoNull r'.archs)) := by
  obtain ⟨p, h, hc, R1, h3, hw, h4, h5⟩ := R.create_pool hb
  refine ⟨p, h, hc, h3, hw, h4, h5, ?_⟩
  obtain ⟨m, hm⟩ := R.archs
  have hargs : (args.map fun x => ty.info x.1) = (args.map Prod.fst).map ty.info := by simp
  unfold Reg.create
  rw [hc, hargs]
  simp only
  rcases ensure_spec hm (args.map Prod.fst) with ⟨s, m', ai, a, e1, e2⟩ | ⟨s, m', e1, e2⟩
  · left
    rw [e1]
    simp only [e2.arch]
    have haok := e2.rel.ok ai a e2.arch
    have hbl : ∀ c, some c ∈ a.blocks ↔ c ∈ args.map Prod.fst := by
      intro c
      rw [Arch.blocks_of_set haok.inv (MetaSet.inv_create _) e2.set, create_ids]
      simp [ty.id_eq]
    obtain ⟨a', ci, idx, row, q1, q2, q3, q4, q5, q6⟩ := Arch.emplace_spec haok h hnd hbl
    simp only [q1]
    have R2 : Rep ty { r with pool := p, archs := s } 0 W := R1.withArchs e2.rel e2.slots
    obtain ⟨r', w1, w2, w3, w4⟩ := R2.push h3 hw e2.arch q3 q2 (decode_args q4 hbl q5)
    refine ⟨r', by rw [w1], w2, w4, ?_, ?_⟩
    · rw [w3]
      exact ⟨fun ht => (e2.allTight ht).set ai (q6 (e2.allTight ht ai a e2.arch)),
        fun hl _ => (e2.allLast hl).set ai q3.lastOk⟩
    · intro hn
      rw [w3]
      exact e2.noNull hm.rel hn
  · right
    rw [e1]
    refine ⟨_, rfl, rfl, R1.withArchs e2.rel (fun l => by rw [e2.arches]), Keep.of_eq e2.arches, e2.large, e2.null⟩

/-! ### destroy -/

/-- Erasing the entry does not read an empty last chunk. -/
def Arch.Safe (a : Arch V) (ci idx : Nat) : Prop :=
  ∀ c, a.chunks[ci]? = some c → idx + 1 < c.size → ∀ last, a.chunks.getLast? = some last → last.size ≠ 0

theorem Arch.LastOk.safe' {a : Arch V} (h : a.LastOk) (ci idx : Nat) : a.Safe ci idx := fun _ hc => h.safe hc

theorem Arch.Safe.swapErase_ub {a : Arch V} {ci idx : Nat} (h : ¬ a.Safe ci idx) : a.swapErase ci idx = none := by
  unfold Arch.Safe at h
  simp only [Classical.not_forall, not_imp] at h
  obtain ⟨c, hc, hi, last, hl, h0⟩ := h
  exact Arch.swapErase_ub hc hi hl (by simpa using h0)

theorem Arch.Safe.move_ub {a o : Arch V} {ci idx : Nat} (h : ¬ a.Safe ci idx) : a.move ci idx o = none := by
  unfold Arch.Safe at h
  simp only [Classical.not_forall, not_imp] at h
  obtain ⟨c, hc, hi, last, hl, h0⟩ := h
  have h0 : last.size = 0 := by simpa using h0
  have hci : ci < a.chunks.length := (List.getElem?_eq_some_iff.1 hc).1
  unfold Arch.move
  cases o.ensureFree with
  | none => rfl
  | some o =>
    simp only
    cases o.chunks[o.chunks.length - 1]? with
    | none => rfl
    | some oc =>
      simp only [hc]
      split
      · cases Row.moveConstruct o.blocks a.blocks (c.rows idx) (oc.rows oc.size) o.tally with
        | none => rfl
        | some x =>
          obtain ⟨s, d, t⟩ := x
          have : ({ a with chunks := a.chunks.set ci (c.setRow idx s) } : Arch V).swapErase ci idx = none := by
            have hlc : ¬ a.chunks.length - 1 = ci := by
              intro he
              rw [List.getLast?_eq_getElem?, he, hc] at hl
              cases hl
              omega
            refine Arch.swapErase_ub (c := c.setRow idx s) (last := last) (by simp [List.getElem?_set, hci]) hi ?_ h0
            rw [List.getLast?_eq_getElem?] at hl ⊢
            simp only [List.length_set]
            rw [List.getElem?_set_ne (fun h => hlc h.symm)]
            exact hl
          simp [this]
      · rfl

/-- The location table and the slots after an entity has been taken out of an archetype. -/
theorem erase_link {r : Reg V} {k : Nat} {W : Handle → Option (Comps V)} {lm : FinMap Loc} (L : Link r.pool k (slots r.archs.arches) lm.get)
    (H : Holds (slots r.archs.arches) W) {h : Handle} {d : Comps V} {l : Loc} {ai : Nat} {a a' : Arch V} {c : Chunk V} {row : Row V}
    (t : At r h d l ai a c row) {moved : Option Handle} (he : a.Erased l.chunk l.entry a' moved) (hc : a'.comps = a.comps) :
    ∃ lm1, Link r.pool k (slots (r.archs.arches.set ai a')) lm1 ∧ Holds (slots (r.archs.arches.set ai a')) (World.put W h none) ∧
      lm1 h.id = none ∧ (∀ l' h' d', slots (r.archs.arches.set ai a') l' = some (h', d') → h' ≠ h) ∧
      (moved = none ∧ (∀ id, lm1 id = if id = h.id then none else lm.get id) ∨
        ∃ m, moved = some m ∧ m.id ≠ h.id ∧ m ≠ h ∧ Held r.pool k m ∧
          ∀ id, lm1 id = if id = m.id then some l else if id = h.id then none else lm.get id) := by
  have hl := t.loc_eq
  have hs := t.slot
  rcases slots_set_erase t.get t.ok he hc with ⟨h1, h2⟩ | ⟨m, dm, q, h1, h2, h3, h4⟩
  · rw [← hl] at h2
    obtain ⟨q1, q2, q3⟩ := L.erase H hs h2 (lm' := fun id => if id = h.id then none else lm.get id) (fun id => rfl)
    exact ⟨_, q1, q2, by simp, q3, .inl ⟨h1, fun id => rfl⟩⟩
  · rw [← hl] at h2 h4
    obtain ⟨q1, q2, q3, q4⟩ := L.eraseMove H hs h3 h2 h4
      (lm' := fun id => if id = m.id then some l else if id = h.id then none else lm.get id) (fun id => rfl)
    refine ⟨_, q1, q2, by simp [Ne.symm q4], q3, .inr ⟨m, h1, q4, fun e => q4 (by rw [e]), (L.stored _ _ _ h3).1, fun id => rfl⟩⟩

/-- Taking an entity out: `remove_location`, then `set_location` for the entity that filled the hole. -/
theorem erase_locs {r : Reg V} {k : Nat} {W : Handle → Option (Comps V)} {lm : FinMap Loc} (hp : PoolInv r.pool k) (hsm : r.pool.nextId < U32)
    (hr : SparseTable.Rel 32 r.locs lm) (L : Link r.pool k (slots r.archs.arches) lm.get)
    (H : Holds (slots r.archs.arches) W) {h : Handle} {d : Comps V} {l : Loc} {ai : Nat} {a a' : Arch V} {c : Chunk V} {row : Row V}
    (t : At r h d l ai a c row) {moved : Option Handle} (he : a.Erased l.chunk l.entry a' moved) (hc : a'.comps = a.comps) :
    ∃ r1 t2 lm2, (r.setArch ai a').removeLoc h.id = some r1 ∧ r1.setMoved moved l = some { r.setArch ai a' with locs := t2 } ∧
      moved ≠ some h ∧
      SparseTable.Rel 32 t2 lm2 ∧ Link r.pool k (slots (r.archs.arches.set ai a')) lm2.get ∧
      Holds (slots (r.archs.arches.set ai a')) (World.put W h none) ∧
      (∀ l' h' d', slots (r.archs.arches.set ai a') l' = some (h', d') → h' ≠ h) := by
  obtain ⟨lm1, L1, H1, _, N1, h4⟩ := erase_link L H t he hc
  obtain ⟨t1, e1, e2⟩ := removeLoc_spec (r := r.setArch ai a') hr h.id
  have hgl := hp.gens_le
  rcases h4 with ⟨q1, q2⟩ | ⟨m, q1, q2, q3, q4, q5⟩
  · subst q1
    refine ⟨_, t1, lm.del h.id, e1, rfl, by simp, e2, ?_, H1, N1⟩
    have : (lm.del h.id).get = lm1 := by funext id; rw [del_get, q2]
    rw [this]; exact L1
  · subst q1
    have hb : ∀ id l', (lm.del h.id).get id = some l' → id < r.pool.gens.length := by
      intro id l' hl'
      rw [del_get] at hl'
      split at hl'
      · cases hl'
      · exact L.bound _ _ hl'
    obtain ⟨t2, e3, e4⟩ := setLoc_spec (r := { r.setArch ai a' with locs := t1 }) e2 hb (by omega) q4.lt l
    refine ⟨_, t2, (lm.del h.id).put m.id l, e1, by simp [Reg.setMoved, e3], by simpa using q3, e4, ?_, H1, N1⟩
    have : ((lm.del h.id).put m.id l).get = lm1 := by funext id; rw [put_get, del_get, q5]
    rw [this]; exact L1

theorem Rep.destroy {ty : Types} {r : Reg V} {W : Handle → Option (Comps V)} (R : Rep ty r 0 W) {h : Handle} {d : Comps V}
    (hw : W h = some d) :
    (r.destroy h = .ub ∧ ∃ (i : Nat) (a : Arch V), r.archs.arches[i]? = some a ∧ ¬ a.LastOk) ∨
    (∃ r', r.destroy h = .ok r' () ∧ r'.pool = r.pool.recycle h ∧ Rep ty r' 0 (World.put W h none) ∧
      Keep r.archs r'.archs ∧ (NoNull r.archs → NoNull r'.archs)) := by
  obtain ⟨l, ai, a, c, row, t⟩ := R.at_ hw
  unfold Reg.destroy
  simp only [t.loc, t.archOf]
  by_cases hsafe : a.Safe l.chunk l.entry
  · right
    obtain ⟨a', moved, h1, h2, h3, h4, h5, h6, h7⟩ := Arch.swapErase_spec (t.ok.but _ _) t.chunk t.lt (hsafe c t.chunk)
    obtain ⟨lm, hlm, L⟩ := R.link
    obtain ⟨m, hm⟩ := R.archs
    obtain ⟨r1, t2, lm2, e1, e2, _, e3, e4, e5, e6⟩ := erase_locs R.pool R.small hlm L R.holds t h5 h2
    obtain ⟨p1, p2, p3, p4, p5⟩ := pool_recycle R.pool (R.held hw)
    rw [h1]
    simp only [e1, e2]
    refine ⟨_, rfl, rfl, ⟨p1, p2 ▸ R.small, ⟨m, hm.setArch t.get h2 h4⟩, ⟨lm2, e3, ?_⟩, e5⟩, ?_, fun hn => hn⟩
    · exact e4.mono fun l' h' d' hl' hh => p4 h' hh (e6 l' h' d' hl')
    · exact ⟨fun ht => ht.set ai (h6 (ht ai a t.get)),
        fun hl h2' => hl.set ai (Arch.lastOk_erase (h2' ai a t.get) h7)⟩
  · left
    rw [Arch.Safe.swapErase_ub hsafe]
    exact ⟨rfl, ai, a, t.get, fun hl => hsafe (hl.safe' _ _)⟩

theorem Rep.destroy' {ty : Types} {r : Reg V} {W : Handle → Option (Comps V)} (R : Rep ty r 0 W) {h : Handle} {d : Comps V}
    (hw : W h = some d) {l : Loc} {ai : Nat} {a : Arch V} {c : Chunk V} {row : Row V} (t : At r h d l ai a c row)
    (hsafe : a.Safe l.chunk l.entry) : ∃ r', r.destroy h = .ok r' () := by
  unfold Reg.destroy
  simp only [t.loc, t.archOf]
  obtain ⟨a', moved, h1, h2, h3, h4, h5, h6, h7⟩ := Arch.swapErase_spec (t.ok.but _ _) t.chunk t.lt (hsafe c t.chunk)
  obtain ⟨lm, hlm, L⟩ := R.link
  obtain ⟨r1, t2, lm2, e1, e2, _⟩ := erase_locs R.pool R.small hlm L R.holds t h5 h2
  rw [h1]
  simp only [e1, e2]
  exact ⟨_, rfl⟩

theorem Rep.destroy_none {ty : Types} {r : Reg V} {k : Nat} {W : Handle → Option (Comps V)} (R : Rep ty r k W) {h : Handle}
    (hw : W h = none) : r.destroy h = .throw r (if r.alive h then .outOfRange else .entityNotFound) := by
  unfold Reg.destroy; rw [R.location_none hw]

/-! ### Relocation: set and remove -/

theorem relocate_spec {r : Reg V} {k : Nat} {W : Handle → Option (Comps V)} {lm : FinMap Loc} (hp : PoolInv r.pool k) (hsm : r.pool.nextId < U32)
    (hr : SparseTable.Rel 32 r.locs lm) (L : Link r.pool k (slots r.archs.arches) lm.get)
    (H : Holds (slots r.archs.arches) W) {h : Handle} {d : Comps V} {l : Loc} {ai ni : Nat} {a n : Arch V} {c : Chunk V} {row : Row V}
    (t : At r h d l ai a c row) (hn : r.archs.arches[ni]? = some n) (hnok : n.Ok) (hne : ai ≠ ni) (hsafe : a.Safe l.chunk l.entry) :
    ∃ a' n' ci idx o1 oc R tl t2 lm1 lm2,
      r.relocate h l ai ni = some ({ (r.setArch ai a').setArch ni n' with locs := t2 }, ⟨some ni, ci, idx⟩) ∧
      a'.comps = a.comps ∧ a'.Ok ∧ ((a.Tight → a'.Tight) ∧ (a.chunks.length ≤ 2 → a'.LastOk)) ∧ Arch.MovedTo a n n' row ci idx o1 oc R tl ∧
      SparseTable.Rel 32 t2 lm2 ∧ Link r.pool k (slots (r.archs.arches.set ai a')) lm1 ∧
      Holds (slots (r.archs.arches.set ai a')) (World.put W h none) ∧ lm1 h.id = none ∧
      (∀ id, lm2.get id = if id = h.id then some ⟨some ni, ci, idx⟩ else lm1 id) := by
  obtain ⟨a', n', ci, idx, moved, o1, oc, R, tl, h1, h2, h3, h4, h5, h6, h7, h8⟩ :=
    Arch.move_spec t.ok hnok t.chunk t.lt (hsafe c t.chunk)
  rw [← t.row_eq] at h8
  obtain ⟨lm1, L1, H1, Z1, _, q⟩ := erase_link L H t h5 h2
  have hgl := hp.gens_le
  have hheld : Held r.pool k h := (L.stored _ _ _ t.slot).1
  have hrel : r.relocate h l ai ni = match ((r.setArch ai a').setArch ni n').setMoved moved l with
      | none => none
      | some r1 => match r1.setLoc h.id ⟨some ni, ci, idx⟩ with
        | none => none
        | some r2 => some (r2, ⟨some ni, ci, idx⟩) := by
    unfold Reg.relocate
    simp only [t.get, hn, hne, if_false, h1]
    rfl
  rcases q with ⟨q1, q2⟩ | ⟨m, q1, q2, q3, q4, q5⟩
  · subst q1
    obtain ⟨t2, e1, e2⟩ := setLoc_spec (r := (r.setArch ai a').setArch ni n') hr L.bound (by omega) hheld.lt ⟨some ni, ci, idx⟩
    refine ⟨a', n', ci, idx, o1, oc, R, tl, t2, lm1, lm.put h.id ⟨some ni, ci, idx⟩, ?_, h2, h4, ⟨h6, fun hc2 => Arch.lastOk_erase hc2 h7⟩, h8, e2, L1, H1, Z1, ?_⟩
    · rw [hrel]; simp only [Reg.setMoved, e1]
    · intro id
      rw [put_get, q2]
      split <;> simp_all
  · subst q1
    obtain ⟨t1, e1, e2⟩ := setLoc_spec (r := (r.setArch ai a').setArch ni n') hr L.bound (by omega) q4.lt l
    have hb : ∀ id l', (lm.put m.id l).get id = some l' → id < r.pool.gens.length := by
      intro id l' hl'
      rw [put_get] at hl'
      split at hl'
      · rename_i hid; rw [hid]; exact q4.lt
      · exact L.bound _ _ hl'
    obtain ⟨t2, e3, e4⟩ := setLoc_spec (r := { (r.setArch ai a').setArch ni n' with locs := t1 }) e2 hb (by omega) hheld.lt
      ⟨some ni, ci, idx⟩
    refine ⟨a', n', ci, idx, o1, oc, R, tl, t2, lm1, (lm.put m.id l).put h.id ⟨some ni, ci, idx⟩, ?_, h2, h4, ⟨h6, fun hc2 => Arch.lastOk_erase hc2 h7⟩, h8, e4, L1, H1, Z1, ?_⟩
    · rw [hrel]; simp only [Reg.setMoved, e1, e3]
    · intro id
      rw [put_get, put_get, q5]
      by_cases hid : id = h.id
      · simp [hid]
      · simp [hid]

/-- The entity is where it was after `ensure_archetype`. -/
theorem At.ensured {r : Reg V} {h : Handle} {d : Comps V} {l : Loc} {ai : Nat} {a : Arch V} {c : Chunk V} {row : Row V}
    (t : At r h d l ai a c row) {ty : Types} {s : Archs V} {m m' : KeyMap Bitset (Option Nat)} {ni : Nat} {n : Arch V} {key : Bitset}
    {comps : MetaSet} (e : Ensured ty r.archs s m m' ni n key comps) : At { r with archs := s } h d l ai a c row :=
  ⟨t.loc, t.arch, e.keep t.get, t.ok, t.chunk, t.lt, t.row_eq, t.decode, t.rowOk, by rw [← t.slot]; exact e.slots l⟩

theorem relocate_ub {r : Reg V} {h : Handle} {l : Loc} {ai ni : Nat} {a : Arch V} (ha : r.archs.arches[ai]? = some a)
    (hs : ¬ a.Safe l.chunk l.entry) : r.relocate h l ai ni = none := by
  unfold Reg.relocate
  rw [ha]
  cases r.archs.arches[ni]? with
  | none => rfl
  | some n =>
    simp only
    split
    · rfl
    · rw [Arch.Safe.move_ub hs]

theorem World.put_put {D : Type} (W : Handle → Option D) (h : Handle) (a b : Option D) : World.put (World.put W h a) h b = World.put W h b := by
  funext h'
  unfold World.put
  split <;> rfl

theorem set_getElem?_ne {α : Type} (l : List α) {i j : Nat} (x : α) (h : i ≠ j) : (l.set i x)[j]? = l[j]? :=
  List.getElem?_set_ne h

/-- A list of the types of the components of an entity, in some order. -/
structure TypesOf (ty : Types) (d : Comps V) (l : List CompMeta) : Prop where
  nodup : (l.map CompMeta.id).Nodup
  typed : ∀ m ∈ l, m = ty.info m.id
  mem : ∀ c, c ∈ l.map CompMeta.id ↔ d c ≠ none

theorem At.typesOf {ty : Types} {r : Reg V} {h : Handle} {d : Comps V} {l : Loc} {ai : Nat} {a : Arch V} {c : Chunk V} {row : Row V}
    (t : At r h d l ai a c row) {m : KeyMap Bitset (Option Nat)} (hm : ArchsRel ty r.archs m) : TypesOf ty d a.comps.metas := by
  obtain ⟨d1, d2, d3⟩ := Row.decode_some t.decode t.rowOk
  refine ⟨t.ok.inv.nodup, hm.typed ai a t.get, fun x => ?_⟩
  rw [← Arch.some_mem_blocks]
  by_cases hb : some x ∈ a.blocks
  · obtain ⟨v, hv, _⟩ := d2 x hb
    simp [hb, hv]
  · simp [hb, d3 x hb]

/-- The components of an entity fit into a chunk in some order. -/
theorem Rep.typesOf {ty : Types} {r : Reg V} {k : Nat} {W : Handle → Option (Comps V)} (R : Rep ty r k W) {h : Handle} {d : Comps V}
    (hw : W h = some d) : ∃ l, TypesOf ty d l ∧ Layout.maxSize l ≠ none := by
  obtain ⟨l, ai, a, c, row, t⟩ := R.at_ hw
  obtain ⟨m, hm⟩ := R.archs
  exact ⟨_, t.typesOf hm, hm.fits ai a t.get⟩

theorem TypesOf.erase {ty : Types} {d : Comps V} {s : MetaSet} (t : TypesOf ty d s.metas) {cid : Nat} (hc : s.contains cid = true) :
    TypesOf ty (fun x => if x = cid then none else d x) (s.erase cid).metas := by
  have e : (s.erase cid).metas = s.metas.filter fun m => m.id ≠ cid := by unfold MetaSet.erase; rw [hc]; rfl
  rw [e]
  refine ⟨?_, fun m hm => t.typed m (List.mem_filter.1 hm).1, fun c => ?_⟩
  · exact (List.filter_sublist.map _).nodup t.nodup
  · have := t.mem c
    by_cases hx : c = cid
    · subst hx; simp
    · simp only [hx, if_false, ← this, List.mem_map, List.mem_filter]
      constructor
      · rintro ⟨m, ⟨h1, _⟩, h2⟩; exact ⟨m, h1, h2⟩
      · rintro ⟨m, h1, h2⟩; exact ⟨m, ⟨h1, by simpa [h2] using hx⟩, h2⟩

theorem TypesOf.insert {ty : Types} {d : Comps V} {s : MetaSet} (t : TypesOf ty d s.metas) {cid : Nat} (hc : s.contains cid = false)
    (hd : d cid = none) (v : V) : TypesOf ty (fun x => if x = cid then some v else d x) (s.insert (ty.info cid)).metas := by
  have e : (s.insert (ty.info cid)).metas = s.metas ++ [ty.info cid] := by
    unfold MetaSet.insert; rw [ty.id_eq, hc]; rfl
  rw [e]
  refine ⟨?_, fun m hm => ?_, fun c => ?_⟩
  · rw [List.map_append, List.nodup_append]
    refine ⟨t.nodup, by simp, fun a ha b hb => ?_⟩
    simp only [List.map_cons, ty.id_eq, List.map_nil, List.mem_singleton] at hb
    rintro rfl
    subst hb
    exact (t.mem _).1 ha hd
  · rcases List.mem_append.1 hm with hm | hm
    · exact t.typed m hm
    · simp only [List.mem_singleton] at hm; rw [hm, ty.id_eq]
  · have := t.mem c
    rw [List.map_append, List.mem_append, this]
    by_cases hx : c = cid
    · subst hx; simp [ty.id_eq]
    · simp [ty.id_eq, hx]

theorem Rep.remove {ty : Types} {r : Reg V} {k : Nat} {W : Handle → Option (Comps V)} (R : Rep ty r k W) {h : Handle} {d : Comps V}
    (hw : W h = some d) (cid : Nat) :
    (d cid = none ∧ r.remove ty h cid = .ok r ()) ∨
    (d cid ≠ none ∧
      ((r.remove ty h cid = .ub ∧ ∃ (i : Nat) (a : Arch V), r.archs.arches[i]? = some a ∧ ¬ a.LastOk) ∨
       (∃ r', r.remove ty h cid = .ok r' () ∧ r'.pool = r.pool ∧
          Rep ty r' k (World.put W h (some fun x => if x = cid then none else d x)) ∧
          Keep r.archs r'.archs ∧ (NoNull r.archs → NoNull r'.archs)) ∨
       (∃ r', r.remove ty h cid = .throw r' .insufficientChunkSize ∧ r'.pool = r.pool ∧ Rep ty r' k W ∧
          Keep r.archs r'.archs ∧ ¬ NoNull r'.archs ∧
          ∃ l, TypesOf ty (fun x => if x = cid then none else d x) l ∧ Layout.maxSize l = none))) := by
  obtain ⟨l, ai, a, c, row, t⟩ := R.at_ hw
  obtain ⟨d1, d2, d3⟩ := Row.decode_some t.decode t.rowOk
  obtain ⟨m, hm⟩ := R.archs
  unfold Reg.remove
  simp only [t.loc, t.archOf]
  cases hcon : a.contains cid with
  | false =>
    left
    refine ⟨d3 cid fun hb => ?_, by simp⟩
    rw [← t.ok.toShape.contains, hcon] at hb; cases hb
  | true =>
    right
    have hmem : some cid ∈ a.blocks := (t.ok.toShape.contains cid).1 hcon
    refine ⟨by obtain ⟨v, hv, _⟩ := d2 cid hmem; simp [hv], ?_⟩
    simp only [if_true]
    rcases ensureRemoved_spec hm t.get hcon with ⟨s, m', ni, n, e1, e2⟩ | ⟨s, m', e1, e2⟩
    · simp only [e1]
      by_cases hsafe : a.Safe l.chunk l.entry
      · right; left
        have hnok := e2.rel.ok ni n e2.arch
        have hbl : ∀ b, b ∈ n.blocks ↔ b ≠ some cid ∧ b ∈ a.blocks := by
          intro b
          cases b with
          | none => simp [Arch.none_mem_blocks]
          | some x =>
            rw [Arch.blocks_of_set hnok.inv (t.ok.inv.erase cid) e2.set, erase_ids hcon, Arch.some_mem_blocks]
            simp
        have hne : ai ≠ ni := by
          rintro rfl
          have := e2.keep t.get
          rw [e2.arch] at this
          cases this
          exact ((hbl (some cid)).1 hmem).1 rfl
        have t' := t.ensured e2
        have R' : Rep ty { r with archs := s } k W := R.withArchs e2.rel e2.slots
        obtain ⟨lm, hlm, L⟩ := R'.link
        obtain ⟨a', n', ci, idx, o1, oc, Rr, tl, t2, lm1, lm2, p1, p2, p3, p4, p5, p6, p7, p8, p9, p10⟩ :=
          relocate_spec R'.pool R'.small hlm L R'.holds t' e2.arch hnok hne hsafe
        simp only [p1]
        obtain ⟨w1, w2, w3, w4⟩ := p5.sub t.rowOk (fun b hb => ((hbl b).1 hb).2)
        have hn' : (s.arches.set ai a')[ni]? = some n := by rw [set_getElem?_ne _ _ hne]; exact e2.arch
        have hdec : Rr.decode n.blocks = some (h, fun x => if x = cid then none else d x) := by
          unfold Row.decode
          rw [w3 none n.none_mem_blocks, d1]
          simp only [Option.some.injEq, Prod.mk.injEq, true_and]
          funext x
          by_cases hx : some x ∈ n.blocks
          · obtain ⟨q1, q2⟩ := (hbl _).1 hx
            obtain ⟨v, hv1, hv2⟩ := d2 x q2
            rw [if_pos hx, w3 _ hx, hv2, if_neg (by simpa using q1), hv1]
          · rw [if_neg hx]
            by_cases hxc : x = cid
            · rw [if_pos hxc]
            · rw [if_neg hxc]
              exact (d3 x fun hb => hx ((hbl _).2 ⟨by simpa using hxc, hb⟩)).symm
        obtain ⟨L2, H2⟩ := p7.push p8 (d := fun x => if x = cid then none else d x) (R'.held hw) p9 (slots_push_free hn' w2)
          (ent' := slots ((s.arches.set ai a').set ni n')) (by intro l; rw [slots_set_push hn' w2, hdec]) (lm' := lm2.get) p10
        rw [World.put_put] at H2
        refine ⟨_, rfl, rfl, ⟨R.pool, R.small, ⟨m', ?_⟩, ⟨lm2, p6, L2⟩, H2⟩, ?_, ?_⟩
        · exact (e2.rel.setArch (e2.keep t.get) p2 p3).setArch hn' w2.comps w1
        · exact ⟨fun ht => ((e2.allTight ht).set ai (p4.1 (e2.allTight ht ai a (e2.keep t.get)))).set ni (w4 (e2.allTight ht ni n e2.arch)),
            fun hl h2' => ((e2.allLast hl).set ai (p4.2 (h2' ai a t.get))).set ni w2.lastOk⟩
        · intro hn
          exact e2.noNull hm.rel hn
      · left
        rw [relocate_ub (r := { r with archs := s }) (e2.keep t.get) hsafe]
        exact ⟨rfl, ai, a, t.get, fun hl => hsafe (hl.safe' _ _)⟩
    · right; right
      simp only [e1]
      refine ⟨_, rfl, rfl, R.withArchs e2.rel (fun l => by rw [e2.arches]), Keep.of_eq e2.arches, e2.null,
        _, (t.typesOf hm).erase hcon, e2.large⟩

/-- Assignment to a component that is there. -/
theorem Rep.writeAt_false {ty : Types} {r : Reg V} {k : Nat} {W : Handle → Option (Comps V)} (R : Rep ty r k W) {h : Handle} {d : Comps V}
    {l : Loc} {ai : Nat} {a : Arch V} {c : Chunk V} {row : Row V} (t : At r h d l ai a c row) {cid : Nat} (hb : some cid ∈ a.blocks) (v : V) :
    ∃ r', r.writeAt l cid false v = some r' ∧ r'.pool = r.pool ∧ r'.locs = r.locs ∧
      Rep ty r' k (World.put W h (some fun x => if x = cid then some v else d x)) ∧
      Keep r.archs r'.archs ∧ (NoNull r.archs → NoNull r'.archs) := by
  obtain ⟨d1, d2, d3⟩ := Row.decode_some t.decode t.rowOk
  obtain ⟨lm, hlm, L⟩ := R.link
  obtain ⟨m, hm⟩ := R.archs
  obtain ⟨a', h1, h2, h3, h4, h5, h6, h7⟩ := Arch.writeCell_assign t.ok t.row? hb (.comp v) (.inr ⟨by simp, v, rfl⟩)
  have hil := (List.getElem?_eq_some_iff.1 t.get).1
  have hdec : (row.set (some cid) (.live (.comp v))).decode a.blocks = some (h, fun x => if x = cid then some v else d x) := by
    unfold Row.decode
    rw [Row.set_ne _ _ (by simp), d1]
    simp only [Option.some.injEq, Prod.mk.injEq, true_and]
    funext x
    by_cases hx : x = cid
    · subst hx; simp [hb]
    · rw [if_neg hx, Row.set_ne _ _ (by simpa using hx)]
      by_cases hxb : some x ∈ a.blocks
      · obtain ⟨w, hw1, hw2⟩ := d2 x hxb
        rw [if_pos hxb, hw2, hw1]
      · rw [if_neg hxb, d3 x hxb]
  have hent : ∀ l', slots (r.archs.arches.set ai a') l' =
      if l' = l then some (h, fun x => if x = cid then some v else d x) else slots r.archs.arches l' := by
    intro l'
    rw [slots_set hil]
    rw [t.loc_eq]
    cases l' with
    | mk la lc le =>
      simp only [Loc.mk.injEq]
      by_cases hla : la = some ai
      · subst hla
        simp only [if_true, true_and]
        rw [slots_some t.get]
        simp only [Arch.entry, h5, Arch.blocks_congr h2]
        split
        · simp only [Option.bind_some, hdec]
        · rfl
      · simp [hla]
  obtain ⟨L', H'⟩ := L.update R.holds t.slot hent
  refine ⟨r.setArch ai a', ?_, rfl, rfl, ⟨R.pool, R.small, ⟨m, hm.setArch t.get h2 h4⟩, ⟨lm, hlm, L'⟩, H'⟩, ?_, fun hn => hn⟩
  · unfold Reg.writeAt
    simp only [t.archOf, hb, if_true, h1]
  · exact ⟨fun ht => ht.set ai (h7 (ht ai a t.get)), fun hl _ => hl.set ai (Arch.lastOk_sizes (hl ai a t.get) h6)⟩

/-- What `set_impl` followed by construction or assignment does. -/
theorem Rep.setImpl {ty : Types} {r : Reg V} {k : Nat} {W : Handle → Option (Comps V)} (R : Rep ty r k W) {h : Handle} {d : Comps V}
    (hw : W h = some d) (cid : Nat) (v : V) :
    (∃ v0 l r', d cid = some v0 ∧ r.setImpl ty h cid = .ok r (false, l) ∧ r.readAt l cid = some v0 ∧
      r.writeAt l cid false v = some r' ∧ r'.pool = r.pool ∧
      Rep ty r' k (World.put W h (some fun x => if x = cid then some v else d x)) ∧
      Keep r.archs r'.archs ∧ (NoNull r.archs → NoNull r'.archs)) ∨
    (d cid = none ∧
      ((r.setImpl ty h cid = .ub ∧ ∃ (i : Nat) (a : Arch V), r.archs.arches[i]? = some a ∧ ¬ a.LastOk) ∨
       (∃ r1 r' l, r.setImpl ty h cid = .ok r1 (true, l) ∧ r1.writeAt l cid true v = some r' ∧
          (r'.readAt l cid = some v ∧ r'.location h = .ok l) ∧
          r'.pool = r.pool ∧ Rep ty r' k (World.put W h (some fun x => if x = cid then some v else d x)) ∧
          Keep r.archs r'.archs ∧ (NoNull r.archs → NoNull r'.archs)) ∨
       (∃ r', r.setImpl ty h cid = .throw r' .insufficientChunkSize ∧ r'.pool = r.pool ∧ Rep ty r' k W ∧
          Keep r.archs r'.archs ∧ ¬ NoNull r'.archs ∧
          ∃ l, TypesOf ty (fun x => if x = cid then some v else d x) l ∧ Layout.maxSize l = none))) := by
  obtain ⟨l, ai, a, c, row, t⟩ := R.at_ hw
  obtain ⟨d1, d2, d3⟩ := Row.decode_some t.decode t.rowOk
  obtain ⟨m, hm⟩ := R.archs
  unfold Reg.setImpl
  simp only [t.loc, t.archOf]
  cases hcon : a.contains cid with
  | true =>
    left
    have hmem : some cid ∈ a.blocks := (t.ok.toShape.contains cid).1 hcon
    obtain ⟨v0, hv0, hr0⟩ := d2 cid hmem
    obtain ⟨r', q1, q2, _, q3, q4, q5⟩ := R.writeAt_false t hmem v
    refine ⟨v0, l, r', hv0, rfl, ?_, q1, q2, q3, q4, q5⟩
    simp [Reg.readAt, t.archOf, t.row?, hr0, Cell.read]
  | false =>
    right
    have hnb : some cid ∉ a.blocks := by
      intro hb; rw [← t.ok.toShape.contains, hcon] at hb; cases hb
    refine ⟨d3 cid hnb, ?_⟩
    simp only [Bool.false_eq_true, if_false]
    rcases ensureAdded_spec hm t.get hcon with ⟨s, m', ni, n, e1, e2⟩ | ⟨s, m', e1, e2⟩
    · simp only [e1]
      by_cases hsafe : a.Safe l.chunk l.entry
      · right; left
        have hnok := e2.rel.ok ni n e2.arch
        have hbl : ∀ b, b ∈ n.blocks ↔ b = some cid ∨ b ∈ a.blocks := by
          intro b
          cases b with
          | none => simp [Arch.none_mem_blocks]
          | some x =>
            rw [Arch.blocks_of_set hnok.inv (t.ok.inv.insert (ty.info cid)) e2.set,
              insert_ids _ (by rw [ty.id_eq]; exact hcon), Arch.some_mem_blocks, ty.id_eq]
            simp
        have hne : ai ≠ ni := by
          rintro rfl
          have := e2.keep t.get
          rw [e2.arch] at this
          cases this
          exact hnb ((hbl (some cid)).2 (.inl rfl))
        have t' := t.ensured e2
        have R' : Rep ty { r with archs := s } k W := R.withArchs e2.rel e2.slots
        obtain ⟨lm, hlm, L⟩ := R'.link
        obtain ⟨a', n', ci, idx, o1, oc, Rr, tl, t2, lm1, lm2, p1, p2, p3, p4, p5, p6, p7, p8, p9, p10⟩ :=
          relocate_spec R'.pool R'.small hlm L R'.holds t' e2.arch hnok hne hsafe
        simp only [p1]
        obtain ⟨n'', R2, w0, w1, w2, w3, w4, w5⟩ := p5.add t.rowOk cid v hnb hbl
        have hn' : (s.arches.set ai a')[ni]? = some n := by rw [set_getElem?_ne _ _ hne]; exact e2.arch
        have hnil : ni < (s.arches.set ai a').length := (List.getElem?_eq_some_iff.1 hn').1
        have hdec : R2.decode n.blocks = some (h, fun x => if x = cid then some v else d x) := by
          unfold Row.decode
          rw [w4 none a.none_mem_blocks, d1]
          simp only [Option.some.injEq, Prod.mk.injEq, true_and]
          funext x
          by_cases hx : x = cid
          · subst hx; rw [if_pos ((hbl _).2 (.inl rfl)), if_pos rfl, w3]
          · rw [if_neg hx]
            by_cases hxb : some x ∈ a.blocks
            · obtain ⟨u, hu1, hu2⟩ := d2 x hxb
              rw [if_pos ((hbl _).2 (.inr hxb)), w4 _ hxb, hu2, hu1]
            · rw [if_neg, d3 x hxb]
              intro hb
              rcases (hbl _).1 hb with hb | hb
              · exact hx (by simpa using hb)
              · exact hxb hb
        obtain ⟨L2, H2⟩ := p7.push p8 (d := fun x => if x = cid then some v else d x) (R'.held hw) p9 (slots_push_free hn' w2)
          (ent' := slots ((s.arches.set ai a').set ni n'')) (by intro l; rw [slots_set_push hn' w2, hdec]) (lm' := lm2.get) p10
        rw [World.put_put] at H2
        have hn1 : ((s.arches.set ai a').set ni n')[ni]? = some n' := List.getElem?_set_self hnil
        have hn2 : ((s.arches.set ai a').set ni n'')[ni]? = some n'' := List.getElem?_set_self hnil
        have hn'b : some cid ∈ n'.blocks := by
          have : n'.blocks = n.blocks := by
            rw [p5.eq]
            exact Arch.blocks_congr p5.free.comps
          rw [this]; exact (hbl _).2 (.inl rfl)
        refine ⟨_, { r with archs := { s with arches := (s.arches.set ai a').set ni n'' }, locs := t2 }, _, rfl, ?_, ⟨?_, ?_⟩, rfl,
          ⟨R.pool, R.small, ⟨m', ?_⟩, ⟨lm2, p6, L2⟩, H2⟩, ?_, ?_⟩
        · unfold Reg.writeAt Reg.archOf
          simp only [Reg.setArch, hn1, hn'b, if_true, w0, List.set_set]
        · unfold Reg.readAt Reg.archOf
          simp only [hn2, w2.row?, and_self, if_true, w3, Cell.read]
        · have ha := R.alive hw
          unfold Reg.alive at ha
          unfold Reg.location Reg.alive
          rw [if_pos ha, p6.at_, p10, if_pos rfl]
        · exact (e2.rel.setArch (e2.keep t.get) p2 p3).setArch hn' w2.comps w1
        · exact ⟨fun ht => ((e2.allTight ht).set ai (p4.1 (e2.allTight ht ai a (e2.keep t.get)))).set ni (w5 (e2.allTight ht ni n e2.arch)),
            fun hl h2' => ((e2.allLast hl).set ai (p4.2 (h2' ai a t.get))).set ni w2.lastOk⟩
        · intro hn
          exact e2.noNull hm.rel hn
      · left
        rw [relocate_ub (r := { r with archs := s }) (e2.keep t.get) hsafe]
        exact ⟨rfl, ai, a, t.get, fun hl => hsafe (hl.safe' _ _)⟩
    · right; right
      simp only [e1]
      refine ⟨_, rfl, rfl, R.withArchs e2.rel (fun l => by rw [e2.arches]), Keep.of_eq e2.arches, e2.null,
        _, (t.typesOf hm).insert hcon (d3 cid hnb) v, e2.large⟩

end CoEcs
