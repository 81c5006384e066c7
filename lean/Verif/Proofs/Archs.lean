import Verif.Proofs.ArchetypeOps
import Verif.Proofs.HashFuel
import Verif.Proofs.Layout
import Verif.Model.Registry

/-!
# The archetype map
-/

namespace CoEcs
open Spec
variable {V : Type}

/-- The archetype map represents `m`; every archetype is found under its own component set. -/
structure ArchsRel (ty : Types) (s : Archs V) (m : KeyMap Bitset (Option Nat)) : Prop where
  search : Bitset.Canon s.search
  rel : HTable.HRel setHash s.map m
  fwd : ∀ k i, m.get k = some (some i) → ∃ a : Arch V, s.arches[i]? = some a ∧ a.comps.set = k
  bwd : ∀ (i : Nat) (a : Arch V), s.arches[i]? = some a → m.get a.comps.set = some (some i)
  ok : ∀ (i : Nat) (a : Arch V), s.arches[i]? = some a → a.Ok
  typed : ∀ (i : Nat) (a : Arch V), s.arches[i]? = some a → ∀ mt ∈ a.comps.metas, mt = ty.info mt.id
  fits : ∀ (i : Nat) (a : Arch V), s.arches[i]? = some a → Layout.maxSize a.comps.metas ≠ none

theorem ArchsRel.empty (ty : Types) : ArchsRel ty (Archs.empty : Archs V) KeyMap.empty :=
  ⟨Bitset.canon_mk, HTable.HRel.empty _, fun k i h => by simp [KeyMap.empty] at h, fun i a h => by simp [Archs.empty] at h,
    fun i a h => by simp [Archs.empty] at h, fun i a h => by simp [Archs.empty] at h, fun i a h => by simp [Archs.empty] at h⟩

/-- Two archetypes with the same component set are the same object. -/
theorem ArchsRel.inj {ty : Types} {s : Archs V} {m : KeyMap Bitset (Option Nat)} (r : ArchsRel ty s m) {i j : Nat}
    {a b : Arch V} (ha : s.arches[i]? = some a) (hb : s.arches[j]? = some b) (h : a.comps.set = b.comps.set) : i = j := by
  have h1 := r.bwd i a ha
  rw [h, r.bwd j b hb] at h1
  simpa using h1.symm

theorem Arch.mk?_spec {comps : MetaSet} {a : Arch V} (h : Arch.mk? comps = some a) (hi : comps.Inv) :
    a.Ok ∧ a.Tight ∧ a.comps = comps ∧ a.chunks = [Chunk.fresh] ∧ a.tally = Tally.zero ∧ ∀ ci j, a.row? ci j = none := by
  unfold Arch.mk? at h
  rw [Option.map_eq_some_iff] at h
  obtain ⟨cap, h1, rfl⟩ := h
  have hcap := (Layout.maxSize_mul h1).1
  have hrow : ∀ ci j, (⟨comps, cap, [Chunk.fresh], Tally.zero⟩ : Arch V).row? ci j = none := by
    intro ci j
    unfold Arch.row?
    cases ci <;> simp [Chunk.fresh]
  refine ⟨⟨⟨hi, hcap, by simp, ?_⟩, fun ci j r hr => by rw [hrow] at hr; cases hr⟩, ⟨?_, ?_, ?_, rfl⟩, rfl, rfl, rfl, hrow⟩
  · intro ci c hc
    cases ci with
    | zero => simp at hc; subst hc; simp [Chunk.fresh]
    | succ => simp at hc
  · intro ci c hc i _ b
    cases ci with
    | zero => simp at hc; subst hc; simp [Chunk.fresh, Row.raw]
    | succ => simp at hc
  · intro ci j r hr; rw [hrow] at hr; cases hr
  · intro b; simp [Tally.zero, Arch.total, Chunk.fresh]

/-- A successful `ensure_archetype`. -/
structure Ensured (ty : Types) (s s' : Archs V) (m m' : KeyMap Bitset (Option Nat)) (ai : Nat) (a : Arch V) (key : Bitset)
    (comps : MetaSet) : Prop where
  rel : ArchsRel ty s' m'
  arch : s'.arches[ai]? = some a
  set : a.comps.set = key
  cases : s'.arches = s.arches ∨
    (ai = s.arches.length ∧ s'.arches = s.arches ++ [a] ∧ a.comps = comps ∧ a.Tight ∧ a.chunks = [Chunk.fresh] ∧
      ∀ i, m.get key ≠ some (some i))
  null : ∀ k, m'.get k = some none → m.get k = some none

/-- A failed `ensure_archetype`: a null pointer is left in the map. -/
structure EnsureFailed (ty : Types) (s s' : Archs V) (m m' : KeyMap Bitset (Option Nat)) (key : Bitset) (comps : MetaSet) :
    Prop where
  rel : ArchsRel ty s' m'
  arches : s'.arches = s.arches
  fresh : ∀ i, m.get key ≠ some (some i)
  large : Layout.maxSize comps.metas = none
  get : ∀ k, m'.get k = if k = key then some none else m.get k

theorem ensureKey_spec {ty : Types} {s : Archs V} {m : KeyMap Bitset (Option Nat)} (r : ArchsRel ty s m) {key : Bitset}
    {comps : MetaSet} (hi : comps.Inv) (hk : comps.set = key) (hty : ∀ mt ∈ comps.metas, mt = ty.info mt.id) :
    (∃ s' m' ai a, s.ensureKey key comps = .ok s' ai ∧ Ensured ty s s' m m' ai a key comps) ∨
    (∃ s' m', s.ensureKey key comps = .throw s' .insufficientChunkSize ∧ EnsureFailed ty s s' m m' key comps) := by
  obtain ⟨t, i, e, h1, h2, h3, h4, h5, h6⟩ := r.rel.index_from key none
  have h1' := h1 (Archs.fuel s.map) (by rw [fuel_eq]; exact Nat.le_refl _)
  have hd := h2.deref h3 h4
  unfold Archs.ensureKey
  simp only [h1', hd]
  cases hv : e.val with
  | some ai =>
    left
    have hm : m.get key = some (some ai) := by
      rw [hv] at h6
      cases hg : m.get key with
      | none => rw [hg] at h6; simp at h6
      | some w => rw [hg] at h6; simp at h6; rw [h6]
    rw [hm] at h2
    obtain ⟨a, ha, hak⟩ := r.fwd _ _ hm
    refine ⟨{ s with map := t }, m, ai, a, rfl, ⟨r.search, by simpa using h2, r.fwd, r.bwd, r.ok, r.typed, r.fits⟩, ha, hak, .inl rfl,
      fun k h => h⟩
  | none =>
    have hfr : ∀ i, m.get key ≠ some (some i) := by
      intro j hj
      rw [hv, hj] at h6
      simp at h6
    have hmg : ∃ m', HTable.HRel setHash t m' ∧ ∀ k, m'.get k = if k = key then some none else m.get k := by
      refine ⟨_, h2, fun k => ?_⟩
      cases hg : m.get key with
      | none => simp [KeyMap.put]
      | some w =>
        simp only [Option.isSome_some, if_true]
        split
        · rename_i hkk; subst hkk
          rw [hv, hg] at h6; simp at h6; rw [hg, h6]
        · rfl
    obtain ⟨m1, hm1, hm1g⟩ := hmg
    cases hmk : (Arch.mk? comps : Option (Arch V)) with
    | none =>
      right
      refine ⟨_, m1, rfl, ⟨r.search, hm1, ?_, ?_, r.ok, r.typed, r.fits⟩, rfl, hfr, ?_, hm1g⟩
      · intro k i hki
        rw [hm1g] at hki
        split at hki
        · simp at hki
        · exact r.fwd k i hki
      · intro j a ha
        have := r.bwd j a ha
        rw [hm1g, if_neg]
        · exact this
        · intro hkk; rw [hkk] at this; exact hfr _ this
      · unfold Arch.mk? at hmk
        simpa using hmk
    | some a =>
      left
      obtain ⟨hok, htight, hcomps, hch, _, _⟩ := Arch.mk?_spec hmk hi
      have h7 := hm1.setVal h3 h4 (some s.arches.length)
      have h7' : HTable.HRel setHash { t with slots := t.slots.set i (some { e with val := some s.arches.length }) }
          (m1.put key (some s.arches.length)) := by rw [← h5]; exact h7
      have hget : ∀ k, (m1.put key (some s.arches.length)).get k = if k = key then some (some s.arches.length) else m.get k := by
        intro k
        simp only [KeyMap.put, hm1g]
        split <;> rfl
      have hlast : (s.arches ++ [a])[s.arches.length]? = some a := by simp
      have hget? : ∀ i b, (s.arches ++ [a])[i]? = some b → s.arches[i]? = some b ∨ (i = s.arches.length ∧ b = a) := by
        intro i b hb
        by_cases hlt : i < s.arches.length
        · rw [List.getElem?_append_left hlt] at hb; exact .inl hb
        · rw [List.getElem?_append_right (by omega)] at hb
          right
          have : i - s.arches.length = 0 := by
            have := (List.getElem?_eq_some_iff.1 hb).1
            simp at this; omega
          rw [this] at hb
          simp at hb
          exact ⟨by omega, hb.symm⟩
      refine ⟨_, m1.put key (some s.arches.length), s.arches.length, a, rfl,
        ⟨r.search, h7', ?_, ?_, ?_, ?_, ?_⟩, hlast, by rw [hcomps, hk],
        .inr ⟨rfl, rfl, hcomps, htight, hch, hfr⟩, ?_⟩
      · intro k i hki
        rw [hget] at hki
        split at hki
        · rename_i hkk
          simp at hki
          subst hki
          exact ⟨a, hlast, by rw [hcomps, hk, hkk]⟩
        · obtain ⟨b, hb, hbk⟩ := r.fwd k i hki
          refine ⟨b, ?_, hbk⟩
          show (s.arches ++ [a])[i]? = some b
          rw [List.getElem?_append_left (List.getElem?_eq_some_iff.1 hb).1]; exact hb
      · intro j b hb
        rcases hget? j b hb with hb | ⟨rfl, rfl⟩
        · rw [hget, if_neg]
          · exact r.bwd j b hb
          · intro hkk
            have := r.bwd j b hb
            rw [hkk] at this; exact hfr _ this
        · rw [hget, hcomps, hk, if_pos rfl]
      · intro j b hb
        rcases hget? j b hb with hb | ⟨rfl, rfl⟩
        · exact r.ok j b hb
        · exact hok
      · intro j b hb
        rcases hget? j b hb with hb | ⟨rfl, rfl⟩
        · exact r.typed j b hb
        · rw [hcomps]; exact hty
      · intro j b hb
        rcases hget? j b hb with hb | ⟨rfl, rfl⟩
        · exact r.fits j b hb
        · rw [hcomps]
          intro h0
          simp [Arch.mk?, h0] at hmk
      · intro k hk'
        rw [hget] at hk'
        split at hk'
        · simp at hk'
        · exact hk'

/-! ### The keys the four functions look up -/

theorem clear_eq {b : Bitset} (h : Bitset.Canon b) : b.clear = Bitset.mk' 1 := by
  have := Bitset.clear_blocks b h
  cases hb : b.clear with
  | mk l => rw [hb] at this; simp at this; subst this; rfl

theorem foldl_insert_set (ms : List CompMeta) : ∀ s : MetaSet, s.Inv →
    (ms.foldl MetaSet.insert s).set = ms.foldl (fun b m => b.set m.id true) s.set := by
  induction ms with
  | nil => intro s _; rfl
  | cons m ms ih =>
    intro s hs
    simp only [List.foldl_cons]
    rw [ih _ (hs.insert m)]
    congr 1
    unfold MetaSet.insert
    split
    · rename_i hc
      apply Bitset.canon_ext hs.canon (Bitset.canon_set _ _ _ hs.canon)
      intro p
      rw [Bitset.test_set]
      split
      · rename_i hp; subst hp; exact hc
      · rfl
    · rfl

theorem create_set (ms : List CompMeta) : (MetaSet.create ms).set = ms.foldl (fun b m => b.set m.id true) (Bitset.mk' 1) :=
  foldl_insert_set ms _ MetaSet.inv_empty

theorem foldl_insert_mem (ms : List CompMeta) : ∀ (s : MetaSet) (m : CompMeta),
    m ∈ (ms.foldl MetaSet.insert s).metas → m ∈ s.metas ∨ m ∈ ms := by
  induction ms with
  | nil => intro s m h; exact .inl h
  | cons x ms ih =>
    intro s m h
    rcases ih _ m h with h | h
    · unfold MetaSet.insert at h
      split at h
      · exact .inl h
      · simp at h
        rcases h with h | rfl
        · exact .inl h
        · exact .inr (by simp)
    · exact .inr (by simp [h])

theorem foldl_insert_ids (ms : List CompMeta) : ∀ (s : MetaSet), s.Inv → ∀ i,
    i ∈ (ms.foldl MetaSet.insert s).metas.map CompMeta.id ↔ i ∈ s.metas.map CompMeta.id ∨ i ∈ ms.map CompMeta.id := by
  induction ms with
  | nil => intro s _ i; simp
  | cons x ms ih =>
    intro s hs i
    rw [List.foldl_cons, ih _ (hs.insert x)]
    have : i ∈ (s.insert x).metas.map CompMeta.id ↔ i ∈ s.metas.map CompMeta.id ∨ i = x.id := by
      unfold MetaSet.insert
      split
      · rename_i hc
        rw [hs.contains] at hc
        constructor
        · exact .inl
        · rintro (h | rfl)
          · exact h
          · exact hc
      · simp [or_comm, eq_comm]
    rw [this]
    simp only [List.map_cons, List.mem_cons]
    grind

theorem create_ids (ms : List CompMeta) (i : Nat) :
    i ∈ (MetaSet.create ms).metas.map CompMeta.id ↔ i ∈ ms.map CompMeta.id := by
  unfold MetaSet.create
  rw [foldl_insert_ids ms _ MetaSet.inv_empty]
  simp [MetaSet.empty]

/-- Which blocks an archetype has is determined by the bit set. -/
theorem Arch.blocks_of_set {a : Arch V} (h : a.comps.Inv) {comps : MetaSet} (hc : comps.Inv) (hk : a.comps.set = comps.set) (c : Nat) :
    some c ∈ a.blocks ↔ c ∈ comps.metas.map CompMeta.id := by
  rw [Arch.some_mem_blocks, ← h.test, hk, hc.test]

theorem canon_foldl (ms : List CompMeta) : ∀ b : Bitset, Bitset.Canon b →
    Bitset.Canon (ms.foldl (fun b m => b.set m.id true) b) := by
  induction ms with
  | nil => intro b h; exact h
  | cons m ms ih => intro b h; exact ih _ (Bitset.canon_set _ _ _ h)

theorem ArchsRel.withSearch {ty : Types} {s : Archs V} {m : KeyMap Bitset (Option Nat)} (r : ArchsRel ty s m) {b : Bitset}
    (h : Bitset.Canon b) : ArchsRel ty { s with search := b } m :=
  ⟨h, r.rel, r.fwd, r.bwd, r.ok, r.typed, r.fits⟩

theorem Ensured.ofSearch {ty : Types} {s s' : Archs V} {b : Bitset} {m m' : KeyMap Bitset (Option Nat)} {ai : Nat} {a : Arch V}
    {key : Bitset} {comps : MetaSet} (h : Ensured ty { s with search := b } s' m m' ai a key comps) :
    Ensured ty s s' m m' ai a key comps :=
  ⟨h.rel, h.arch, h.set, h.cases, h.null⟩

theorem EnsureFailed.ofSearch {ty : Types} {s s' : Archs V} {b : Bitset} {m m' : KeyMap Bitset (Option Nat)}
    {key : Bitset} {comps : MetaSet} (h : EnsureFailed ty { s with search := b } s' m m' key comps) :
    EnsureFailed ty s s' m m' key comps :=
  ⟨h.rel, h.arches, h.fresh, h.large, h.get⟩

theorem ensure_spec {ty : Types} {s : Archs V} {m : KeyMap Bitset (Option Nat)} (r : ArchsRel ty s m) (ids : List Nat) :
    (∃ s' m' ai a, s.ensure (ids.map ty.info) = .ok s' ai ∧
      Ensured ty s s' m m' ai a (MetaSet.create (ids.map ty.info)).set (MetaSet.create (ids.map ty.info))) ∨
    (∃ s' m', s.ensure (ids.map ty.info) = .throw s' .insufficientChunkSize ∧
      EnsureFailed ty s s' m m' (MetaSet.create (ids.map ty.info)).set (MetaSet.create (ids.map ty.info))) := by
  have hs : (ids.map ty.info).foldl (fun b m => b.set m.id true) s.search.clear =
      (MetaSet.create (ids.map ty.info)).set := by rw [create_set, clear_eq r.search]
  have hi := MetaSet.inv_create (ids.map ty.info)
  have hty : ∀ mt ∈ (MetaSet.create (ids.map ty.info)).metas, mt = ty.info mt.id := by
    intro mt hm
    rcases foldl_insert_mem _ _ _ hm with h | h
    · simp [MetaSet.empty] at h
    · simp only [List.mem_map] at h
      obtain ⟨i, _, rfl⟩ := h
      rw [ty.id_eq]
  unfold Archs.ensure
  simp only [hs]
  rcases ensureKey_spec (r.withSearch hi.canon) hi rfl hty with ⟨s', m', ai, a, h1, h2⟩ | ⟨s', m', h1, h2⟩
  · exact .inl ⟨s', m', ai, a, h1, h2.ofSearch⟩
  · exact .inr ⟨s', m', h1, h2.ofSearch⟩

theorem ensureSet_spec {ty : Types} {s : Archs V} {m : KeyMap Bitset (Option Nat)} (r : ArchsRel ty s m) {comps : MetaSet}
    (hi : comps.Inv) (hty : ∀ mt ∈ comps.metas, mt = ty.info mt.id) :
    (∃ s' m' ai a, s.ensureSet comps = .ok s' ai ∧ Ensured ty s s' m m' ai a comps.set comps) ∨
    (∃ s' m', s.ensureSet comps = .throw s' .insufficientChunkSize ∧ EnsureFailed ty s s' m m' comps.set comps) :=
  ensureKey_spec r hi rfl hty

theorem ensureAdded_spec {ty : Types} {s : Archs V} {m : KeyMap Bitset (Option Nat)} (r : ArchsRel ty s m) {ai : Nat} {a : Arch V}
    (ha : s.arches[ai]? = some a) {c : Nat} (hc : a.contains c = false) :
    (∃ s' m' ni n, s.ensureAdded ai (ty.info c) = .ok s' ni ∧
      Ensured ty s s' m m' ni n (a.comps.insert (ty.info c)).set (a.comps.insert (ty.info c))) ∨
    (∃ s' m', s.ensureAdded ai (ty.info c) = .throw s' .insufficientChunkSize ∧
      EnsureFailed ty s s' m m' (a.comps.insert (ty.info c)).set (a.comps.insert (ty.info c))) := by
  have hinv := (r.ok ai a ha).inv
  have hi := hinv.insert (ty.info c)
  have hnc : a.comps.contains (ty.info c).id = false := by rw [ty.id_eq]; exact hc
  have hs : a.comps.set.set (ty.info c).id true = (a.comps.insert (ty.info c)).set := by
    unfold MetaSet.insert; rw [hnc]; simp
  have hty : ∀ mt ∈ (a.comps.insert (ty.info c)).metas, mt = ty.info mt.id := by
    intro mt hm
    unfold MetaSet.insert at hm
    rw [hnc] at hm
    simp at hm
    rcases hm with hm | rfl
    · exact r.typed ai a ha mt hm
    · rw [ty.id_eq]
  unfold Archs.ensureAdded
  simp only [ha, hs]
  rcases ensureKey_spec (r.withSearch hi.canon) hi rfl hty with ⟨s', m', ai, a, h1, h2⟩ | ⟨s', m', h1, h2⟩
  · exact .inl ⟨s', m', ai, a, h1, h2.ofSearch⟩
  · exact .inr ⟨s', m', h1, h2.ofSearch⟩

theorem ensureRemoved_spec {ty : Types} {s : Archs V} {m : KeyMap Bitset (Option Nat)} (r : ArchsRel ty s m) {ai : Nat} {a : Arch V}
    (ha : s.arches[ai]? = some a) {c : Nat} (hc : a.contains c = true) :
    (∃ s' m' ni n, s.ensureRemoved ai (ty.info c) = .ok s' ni ∧
      Ensured ty s s' m m' ni n (a.comps.erase c).set (a.comps.erase c)) ∨
    (∃ s' m', s.ensureRemoved ai (ty.info c) = .throw s' .insufficientChunkSize ∧
      EnsureFailed ty s s' m m' (a.comps.erase c).set (a.comps.erase c)) := by
  have hinv := (r.ok ai a ha).inv
  have hi := hinv.erase c
  have hc' : a.comps.contains c = true := hc
  have hs : a.comps.set.set c false = (a.comps.erase c).set := by
    unfold MetaSet.erase; rw [hc']; simp
  have hty : ∀ mt ∈ (a.comps.erase c).metas, mt = ty.info mt.id := by
    intro mt hm
    unfold MetaSet.erase at hm
    rw [hc'] at hm
    simp at hm
    exact r.typed ai a ha mt hm.1
  unfold Archs.ensureRemoved
  simp only [ha, ty.id_eq, hs]
  rcases ensureKey_spec (r.withSearch hi.canon) hi rfl hty with ⟨s', m', ai, a, h1, h2⟩ | ⟨s', m', h1, h2⟩
  · exact .inl ⟨s', m', ai, a, h1, h2.ofSearch⟩
  · exact .inr ⟨s', m', h1, h2.ofSearch⟩

theorem insert_ids {s : MetaSet} (m : CompMeta) (hc : s.contains m.id = false) (i : Nat) :
    i ∈ (s.insert m).metas.map CompMeta.id ↔ i = m.id ∨ i ∈ s.metas.map CompMeta.id := by
  unfold MetaSet.insert
  rw [hc]
  simp [or_comm, eq_comm]

theorem erase_ids {s : MetaSet} {c : Nat} (hc : s.contains c = true) (i : Nat) :
    i ∈ (s.erase c).metas.map CompMeta.id ↔ i ≠ c ∧ i ∈ s.metas.map CompMeta.id := by
  unfold MetaSet.erase
  rw [hc]
  simp only [if_true, List.mem_map, List.mem_filter, decide_not]
  constructor
  · rintro ⟨m, ⟨h1, h2⟩, rfl⟩; exact ⟨by simpa using h2, m, h1, rfl⟩
  · rintro ⟨h1, m, h2, rfl⟩; exact ⟨m, ⟨h2, by simpa using h1⟩, rfl⟩

/-! ### Changes to one archetype -/

theorem ArchsRel.setArch {ty : Types} {s : Archs V} {m : KeyMap Bitset (Option Nat)} (r : ArchsRel ty s m) {i : Nat} {a a' : Arch V}
    (ha : s.arches[i]? = some a) (hc : a'.comps = a.comps) (hok : a'.Ok) :
    ArchsRel ty { s with arches := s.arches.set i a' } m := by
  have hi : i < s.arches.length := (List.getElem?_eq_some_iff.1 ha).1
  have hget : ∀ j b, (s.arches.set i a')[j]? = some b → (j = i ∧ b = a') ∨ (j ≠ i ∧ s.arches[j]? = some b) := by
    intro j b hb
    rw [List.getElem?_set] at hb
    split at hb
    · rename_i hj; subst hj
      simp [hi] at hb
      exact .inl ⟨rfl, hb.symm⟩
    · rename_i hj; exact .inr ⟨fun h => hj h.symm, hb⟩
  refine ⟨r.search, r.rel, ?_, ?_, ?_, ?_, ?_⟩
  · intro k j hk
    obtain ⟨b, hb, hbk⟩ := r.fwd k j hk
    by_cases hj : j = i
    · subst hj
      rw [ha] at hb
      cases hb
      exact ⟨a', by simp [hi], by rw [hc, hbk]⟩
    · exact ⟨b, by show (s.arches.set i a')[j]? = _; rw [List.getElem?_set_ne (fun h => hj h.symm)]; exact hb, hbk⟩
  · intro j b hb
    rcases hget j b hb with ⟨rfl, rfl⟩ | ⟨_, hb⟩
    · rw [hc]; exact r.bwd _ a ha
    · exact r.bwd j b hb
  · intro j b hb
    rcases hget j b hb with ⟨rfl, rfl⟩ | ⟨_, hb⟩
    · exact hok
    · exact r.ok j b hb
  · intro j b hb
    rcases hget j b hb with ⟨rfl, rfl⟩ | ⟨_, hb⟩
    · rw [hc]; exact r.typed _ a ha
    · exact r.typed j b hb
  · intro j b hb
    rcases hget j b hb with ⟨rfl, rfl⟩ | ⟨_, hb⟩
    · rw [hc]; exact r.fits _ a ha
    · exact r.fits j b hb

end CoEcs
