import Verif.Proofs.MoveWithin
import Verif.Props.RegistryObservers
import Verif.Props.RegistryStorage

/-!
# Moving an entity to a reserved entity of its own registry (C91)

`moveWithin h ph` is `entity_ref::move(destination, placeholder)` with the registry of the entity as destination.
-/

namespace CoEcs.Props
open CoEcs Spec

variable {V : Type} {ty : Types} {s : Sys V} {W : Spec.World V}

/-- The entity is entry `idx` of chunk number `ci`, which is `c`, of archetype `a`. -/
structure StoredAt (r : Reg V) (h : Handle) (a : Arch V) (ci idx : Nat) (c : Chunk V) : Prop where
  place : ∃ ai, r.location h = .ok ⟨some ai, ci, idx⟩ ∧ r.archs.arches[ai]? = some a
  chunk : a.chunks[ci]? = some c

/-- Every entity is stored somewhere. -/
theorem storedAt_of (hr : Reachable ty s W) {i : Nat} {h : Handle} (he : (s.reg i).has h [] = .ok true) :
    ∃ a ci idx c, StoredAt (s.reg i) h a ci idx c := by
  have R := (hr.inv i).rep
  obtain ⟨d, hw⟩ := R.entity_some he
  obtain ⟨l, ai, a, c, row, t⟩ := R.at_ hw
  exact ⟨a, l.chunk, l.entry, c, ⟨ai, by rw [t.loc, ← t.loc_eq], t.get⟩, t.chunk⟩

theorem StoredAt.at_ {i : Nat} {h : Handle} {a : Arch V} {ci idx : Nat} {c : Chunk V} (hs : StoredAt (s.reg i) h a ci idx c)
    (hr : Reachable ty s W) {d : Comps V} (hw : W i h = some d) :
    ∃ l ai row, At (s.reg i) h d l ai a c row ∧ l.chunk = ci ∧ l.entry = idx := by
  obtain ⟨l, ai, a', c', row, t⟩ := (hr.inv i).rep.at_ hw
  obtain ⟨⟨aj, h1, h2⟩, h3⟩ := hs
  rw [t.loc] at h1
  simp only [Obs.ok.injEq] at h1
  have e := t.loc_eq
  rw [h1] at e
  simp only [Loc.mk.injEq, Option.some.injEq] at e
  have ea : aj = ai := by
    have := t.arch
    rw [h1] at this
    simpa using this
  subst ea
  have : a' = a := by rw [t.get] at h2; simpa using h2
  subst this
  have hci : l.chunk = ci := by rw [h1]
  have hid : l.entry = idx := by rw [h1]
  have : c' = c := by
    have := t.chunk
    rw [hci, h3] at this
    simpa using this.symm
  subst this
  exact ⟨l, aj, row, t, hci, hid⟩

/-- **C91**, the archetype: the target archetype of a move within the registry is always the one the entity is in, and no
archetype is created.  (So the second branch of `Reg.moveEntry` is never taken.) -/
theorem C91_same_archetype (hr : Reachable ty s W) {i : Nat} {h : Handle} (he : (s.reg i).has h [] = .ok true) :
    ∃ l ai a q, (s.reg i).location h = .ok l ∧ (s.reg i).archOf l = some (ai, a) ∧ (s.reg i).archs.ensureSet a.comps = .ok q ai ∧
      q.arches = (s.reg i).archs.arches := by
  have R := (hr.inv i).rep
  obtain ⟨d, hw⟩ := R.entity_some he
  obtain ⟨l, ai, a, c, row, t⟩ := R.at_ hw
  obtain ⟨m0, hm0⟩ := R.archs
  rcases ensureSet_spec hm0 t.ok.inv (hm0.typed ai a t.get) with ⟨q, m', di, da, e1, e2⟩ | ⟨q, m', e1, e2⟩
  · have hs : q.arches = (s.reg i).archs.arches := by
      rcases e2.cases with e | ⟨_, _, _, _, _, e⟩
      · exact e
      · exact absurd (hm0.bwd ai a t.get) (e ai)
    have hdi : di = ai := e2.rel.inj e2.arch (by rw [hs]; exact t.get) e2.set
    subst hdi
    exact ⟨l, di, a, q, t.loc, t.archOf, e1, hs⟩
  · exact absurd e2.large (hm0.fits ai a t.get)

/-- **C91 is violated**: whenever the last chunk of the archetype is neither empty nor full and the entity is stored
in it, or is not the last of its chunk, the location computed for the moved entity is past the end of a chunk.  (Every
history, every registry, every placeholder.) -/
theorem C91_undefined_violated (hr : Reachable ty s W) {i : Nat} {h : Handle} (hp : s.pend i = 0) (he : (s.reg i).has h [] = .ok true)
    {a : Arch V} {ci idx : Nat} {c last : Chunk V} (hs : StoredAt (s.reg i) h a ci idx c) (hl : a.chunks.getLast? = some last)
    (h0 : last.size ≠ 0) (hf : last.size < a.cap) (hq : ci + 1 = a.chunks.length ∨ idx + 1 ≠ c.size) (ph : Handle) :
    (s.reg i).moveWithin h ph = .ub := by
  have R := (hr.inv i).rep
  rw [hp] at R
  obtain ⟨d, hw⟩ := R.entity_some he
  obtain ⟨l, ai, row, t, rfl, rfl⟩ := hs.at_ hr hw
  obtain ⟨a', nci, nidx, moved, a1, oc, Q, hm, S⟩ := Arch.moveSelf_spec t.ok t.chunk t.lt
  have hch : a1.chunks = a.chunks := by
    rcases S.free.chunks with e | ⟨_, last', e1, e2⟩
    · exact e
    · rw [hl] at e1
      simp only [Option.some.injEq] at e1
      subst e1; omega
  have hoc : oc = last := by
    have := S.free.chunk
    rw [hch, ← List.getLast?_eq_getElem?, hl] at this
    simpa using this.symm
  subst hoc
  refine R.moveWithin_ub t hm S ?_
  rcases S.cases with ⟨q1, q2, _⟩ | ⟨_, _, q3, q4, _⟩
  · exfalso
    rw [hch] at q2
    rcases hq with e | e
    · exact q2 (by omega)
    · exact e q1
  · rw [if_neg h0, hch] at q3 q4
    have h1 := congrArg List.getLast? q4
    rw [List.getLast?_map, List.getLast?_map, hl] at h1
    rw [S.nci_eq, S.nidx_eq]
    unfold Arch.row?
    rw [← List.getLast?_eq_getElem?]
    cases hg : a'.chunks.getLast? with
    | none => rfl
    | some x =>
      rw [hg] at h1
      simp only [Option.map_some, Option.some.injEq] at h1
      simp [h1]

/-- One entity and one reserved entity. -/
def oneAndReserved : List (SysOp Nat) := [.on 0 (.create [(0, 10)]), .on 0 .reserve, .on 0 .sync]

theorem oneAndReserved_isSome : (exec smallTy oneAndReserved).isSome = true := by decide +kernel

def oneReg : Reg Nat := (((exec smallTy oneAndReserved).get oneAndReserved_isSome).1.reg 0)
theorem oneArch_isSome : (oneReg.archs.arches[0]?).isSome = true := by decide +kernel
def oneArch : Arch Nat := (oneReg.archs.arches[0]?).get oneArch_isSome
theorem oneChunk_isSome : (oneArch.chunks.getLast?).isSome = true := by decide +kernel
def oneChunk : Chunk Nat := (oneArch.chunks.getLast?).get oneChunk_isSome

/-- The only entity of a registry meets the hypotheses. -/
example : ∃ (s : Sys Nat) (W : Spec.World Nat) (a : Arch Nat) (c : Chunk Nat), Reachable smallTy s W ∧ s.pend 0 = 0 ∧
    (s.reg 0).has ⟨0, 0⟩ [] = .ok true ∧ StoredAt (s.reg 0) ⟨0, 0⟩ a 0 0 c ∧ a.chunks.getLast? = some c ∧ c.size ≠ 0 ∧
    c.size < a.cap ∧ 0 + 1 = a.chunks.length := by
  have hl : oneArch.chunks.getLast? = some oneChunk := by simp [oneChunk]
  have hn : oneArch.chunks.length = 1 := by decide +kernel
  refine ⟨_, _, oneArch, oneChunk, exec_get oneAndReserved oneAndReserved_isSome, by decide +kernel, by decide +kernel,
    ⟨⟨0, by decide +kernel, by simp [oneArch, oneReg]⟩, ?_⟩, hl, by decide +kernel, by decide +kernel, hn.symm⟩
  rw [List.getLast?_eq_getElem?, hn] at hl
  exact hl

/-- **C91 is violated** by the only entity of a registry. -/
theorem C91_single_entity_violated :
    ∃ (s : Sys Nat) (W : Spec.World Nat), Reachable smallTy s W ∧ s.pend 0 = 0 ∧ ⟨1, 0⟩ ∈ s.res 0 ∧
      (s.reg 0).has ⟨0, 0⟩ [] = .ok true ∧ (s.reg 0).moveWithin ⟨0, 0⟩ ⟨1, 0⟩ = .ub := by
  refine ⟨_, _, exec_get oneAndReserved oneAndReserved_isSome, by decide +kernel, by decide +kernel, by decide +kernel, ?_⟩
  have : (match (((exec smallTy oneAndReserved).get oneAndReserved_isSome).1.reg 0).moveWithin ⟨0, 0⟩ ⟨1, 0⟩ with
      | .ub => true | _ => false) = true := by decide +kernel
  split at this
  · assumption
  · cases this

/-- **C91 is violated** differently when the last chunk is full: unless the entity is the last of its chunk, or the
first of the last chunk, the call succeeds and the reserved entity becomes a second name of another entity `e`.
(Every history, every registry, every reserved entity.) -/
theorem C91_other_entity_violated (hr : Reachable ty s W) {i : Nat} {h ph : Handle} (hp : s.pend i = 0) (hph : ph ∈ s.res i)
    (he : (s.reg i).has h [] = .ok true) {a : Arch V} {ci idx : Nat} {c last : Chunk V} (hs : StoredAt (s.reg i) h a ci idx c)
    (hl : a.chunks.getLast? = some last) (hf : last.size = a.cap) (hq : idx + 1 ≠ c.size)
    (hn : ¬ (ci + 1 = a.chunks.length ∧ idx = 0)) :
    ∃ r' e, (s.reg i).moveWithin h ph = .ok r' ph ∧ e ≠ h ∧ e ≠ ph ∧ (s.reg i).has e [] = .ok true ∧ r'.alive h = false ∧
      r'.location e = r'.location ph ∧ (∀ x, r'.get ph x = (s.reg i).get e x) ∧ (∀ x, r'.get e x = (s.reg i).get e x) := by
  have I := hr.inv i
  have R := I.rep
  have hres := I.res ph hph
  rw [hp] at R hres
  obtain ⟨d, hw⟩ := R.entity_some he
  obtain ⟨l, ai, row, t, rfl, rfl⟩ := hs.at_ hr hw
  obtain ⟨a', nci, nidx, moved, a1, oc, Q, hm, S⟩ := Arch.moveSelf_spec t.ok t.chunk t.lt
  have hroom := S.free.room
  rw [S.free.cap] at hroom
  have hch : a1.chunks = a.chunks ++ [Chunk.fresh] := by
    rcases S.free.chunks with e | ⟨e, _⟩
    · exfalso
      have := S.free.chunk
      rw [e, ← List.getLast?_eq_getElem?, hl] at this
      simp only [Option.some.injEq] at this
      subst this; omega
    · exact e
  have hoc : oc.size = 0 := by
    have := S.free.chunk
    rw [hch] at this
    simp only [List.length_append, List.length_cons, List.length_nil, Nat.zero_add, Nat.add_sub_cancel, List.getElem?_concat_length,
      Option.some.injEq] at this
    rw [← this]; rfl
  rcases S.cases with ⟨q1, _⟩ | ⟨_, _, q3, q4, q5⟩
  · exact absurd q1 hq
  · have hcap := t.ok.cap
    have hrow0 : a.row? (a.chunks.length - 1) 0 = some (last.rows 0) := by
      refine (Arch.row?_eq_some t.ok.toShape).2 ⟨last, ?_, by omega, rfl⟩
      rw [← List.getLast?_eq_getElem?]; exact hl
    have hnci : nci = a.chunks.length - 1 := by
      rw [S.nci_eq, q3, if_pos hoc, hch]
      simp
    have hnidx : nidx = 0 := by rw [S.nidx_eq, hoc]
    subst hnci hnidx
    have hlen : l.chunk < a.chunks.length := (List.getElem?_eq_some_iff.1 t.chunk).1
    obtain ⟨r', e, w1, w2, w3, w4, w5, w6, w7, w8⟩ := R.moveWithin_other t hw hm S (hres.1.held R.pool) hres.2 q5
      (by rintro ⟨x1, x2⟩; exact hn ⟨by omega, x2.symm⟩) hrow0
    refine ⟨r', e, w1, w2, w3, ?_, ?_, w6, w7, w8⟩
    · cases hwe : W i e with
      | none => exact absurd hwe w4
      | some d' => rw [R.has_some hwe]; simp
    · have := (pool_recycle R.pool (R.held hw)).2.2.1
      rw [← w5] at this
      exact this

/-- Component types so large that a chunk holds three entities. -/
def triTy : Types := ⟨fun c => ⟨c, 5400, 4, true⟩, fun _ => rfl⟩

/-- Three entities, which fill a chunk, and one reserved entity. -/
def fullAndReserved : List (SysOp Nat) :=
  [.on 0 (.create [(0, 10)]), .on 0 (.create [(0, 11)]), .on 0 (.create [(0, 12)]), .on 0 .reserve, .on 0 .sync]

theorem fullAndReserved_isSome : (exec triTy fullAndReserved).isSome = true := by decide +kernel

/-- The registry, its archetype and the chunk. -/
def triReg : Reg Nat := (((exec triTy fullAndReserved).get fullAndReserved_isSome).1.reg 0)
theorem triArch_isSome : (triReg.archs.arches[0]?).isSome = true := by decide +kernel
def triArch : Arch Nat := (triReg.archs.arches[0]?).get triArch_isSome
theorem triChunk_isSome : (triArch.chunks[0]?).isSome = true := by decide +kernel
def triChunk : Chunk Nat := (triArch.chunks[0]?).get triChunk_isSome

theorem tri_chunk : triArch.chunks[0]? = some triChunk := by simp [triChunk]

theorem tri_last : triArch.chunks.getLast? = some triChunk := by
  rw [List.getLast?_eq_getElem?, show triArch.chunks.length - 1 = 0 by decide +kernel]
  exact tri_chunk

theorem tri_stored {h : Handle} {idx : Nat} (hl : triReg.location h = .ok ⟨some 0, 0, idx⟩) : StoredAt triReg h triArch 0 idx triChunk :=
  ⟨⟨0, hl, by simp [triArch]⟩, tri_chunk⟩

/-- The second of the three entities meets the hypotheses: moving it gives the value of the first, which has changed
its name. -/
example : ∃ (s : Sys Nat) (W : Spec.World Nat), Reachable triTy s W ∧ s.pend 0 = 0 ∧ ⟨3, 0⟩ ∈ s.res 0 ∧
    (s.reg 0).has ⟨1, 0⟩ [] = .ok true ∧
    (∃ a c last, StoredAt (s.reg 0) ⟨1, 0⟩ a 0 1 c ∧ a.chunks.getLast? = some last ∧ last.size = a.cap ∧ 1 + 1 ≠ c.size ∧ a.cap = 3) ∧
    ∃ r', (s.reg 0).moveWithin ⟨1, 0⟩ ⟨3, 0⟩ = .ok r' ⟨3, 0⟩ ∧ r'.get ⟨3, 0⟩ 0 = .ok 10 ∧ r'.get ⟨0, 0⟩ 0 = .ok 10 ∧
      r'.alive ⟨1, 0⟩ = false := by
  refine ⟨_, _, exec_get fullAndReserved fullAndReserved_isSome, by decide +kernel, by decide +kernel, by decide +kernel, ?_, ?_⟩
  · exact ⟨triArch, triChunk, triChunk, tri_stored (by decide +kernel), tri_last, by decide +kernel, by decide +kernel, by decide +kernel⟩
  · have : (match (((exec triTy fullAndReserved).get fullAndReserved_isSome).1.reg 0).moveWithin ⟨1, 0⟩ ⟨3, 0⟩ with
        | .ok r' x => decide (x = ⟨3, 0⟩ ∧ r'.get ⟨3, 0⟩ 0 = .ok 10 ∧ r'.get ⟨0, 0⟩ 0 = .ok 10 ∧ r'.alive ⟨1, 0⟩ = false)
        | _ => false) = true := by decide +kernel
    split at this
    · rename_i r' x hx
      rw [decide_eq_true_eq] at this
      obtain ⟨rfl, h⟩ := this
      exact ⟨r', hx, h⟩
    · cases this

/-- **C91** (partial; missing: every other position, where it is false): the last entity of its chunk, if the chunk is
full or not the last one, and the first entity of a full last chunk, can be moved to a reserved entity of the same
registry.  That entity then has the components of the moved one, which is dead; every other entity is as before. -/
theorem C91_move_within_partial (hr : Reachable ty s W) {i : Nat} {h ph : Handle} (hp : s.pend i = 0) (hph : ph ∈ s.res i)
    (he : (s.reg i).has h [] = .ok true) {a : Arch V} {ci idx : Nat} {c : Chunk V} (hs : StoredAt (s.reg i) h a ci idx c)
    (hq : (idx + 1 = c.size ∧ (ci + 1 < a.chunks.length ∨ c.size = a.cap)) ∨
      (ci + 1 = a.chunks.length ∧ c.size = a.cap ∧ idx = 0)) :
    ∃ r', (s.reg i).moveWithin h ph = .ok r' ph ∧ r'.alive h = false ∧ r'.alive ph = true ∧
      (∀ x, r'.get ph x = (s.reg i).get h x) ∧ (∀ xs, r'.has ph xs = (s.reg i).has h xs) ∧
      (∀ x v, r'.get h x ≠ .ok v) ∧ ∀ h', h' ≠ h → h' ≠ ph → SameEntity (s.reg i) r' h' := by
  have I := hr.inv i
  have R := I.rep
  have hres := I.res ph hph
  rw [hp] at R hres
  obtain ⟨d, hw⟩ := R.entity_some he
  obtain ⟨l, ai, row, t, rfl, rfl⟩ := hs.at_ hr hw
  have hne : ph ≠ h := by rintro rfl; rw [hres.2] at hw; cases hw
  have hlen : l.chunk < a.chunks.length := (List.getElem?_eq_some_iff.1 t.chunk).1
  obtain ⟨a', nci, nidx, moved, a1, oc, Q, hm, S⟩ := Arch.moveSelf_spec t.ok t.chunk t.lt
  have main : ∃ r', (s.reg i).moveWithin h ph = .ok r' ph ∧ r'.pool = (s.reg i).pool.recycle h ∧
      Rep ty r' 0 (World.put (World.put (W i) h none) ph (some d)) := by
    have hlt := t.lt
    rcases S.cases with ⟨q1, q2, _, q3, q4⟩ | ⟨q1, _, q3, q4, q5⟩
    · have hnci : nci = a1.chunks.length - 1 := by rw [S.nci_eq, q3]
      have hnidx : nidx = oc.size := S.nidx_eq
      subst hnci hnidx
      refine R.moveWithin_ok t hw hm S (hres.1.held R.pool) hres.2 q4 (.inl ?_)
      rw [← S.free.rows]
      simp [Arch.row?, S.free.chunk]
    · rcases S.free.chunks with e | ⟨e, last, e1, e2⟩
      · -- the last chunk has room
        exfalso
        have hf := S.free.chunk
        have hroom := S.free.room
        rw [e] at q1 hf
        rw [S.free.cap] at hroom
        have hcc : l.chunk + 1 = a.chunks.length → c = oc := by
          intro hh
          rw [show a.chunks.length - 1 = l.chunk by omega, t.chunk] at hf
          simpa using hf
        rcases hq with ⟨w1, w2⟩ | ⟨w1, w2, _⟩
        · refine q1 ⟨w1, fun hh => ?_⟩
          have := hcc (by omega)
          subst this
          omega
        · have := hcc w1
          subst this
          omega
      · rw [e] at q1 q3
        rcases hq with ⟨w1, _⟩ | ⟨w1, w2, w3⟩
        · exact absurd ⟨w1, by simp; omega⟩ q1
        · have hoc : oc.size = 0 := by
            have := S.free.chunk
            rw [e] at this
            simp only [List.length_append, List.length_cons, List.length_nil, Nat.zero_add, Nat.add_sub_cancel,
              List.getElem?_concat_length, Option.some.injEq] at this
            rw [← this]; rfl
          have hnci : nci = l.chunk := by
            rw [S.nci_eq, q3, if_pos hoc]
            simp; omega
          have hnidx : nidx = l.entry := by rw [S.nidx_eq, hoc, w3]
          subst hnci hnidx
          refine R.moveWithin_ok t hw hm S (hres.1.held R.pool) hres.2 (fun cj j => ?_) (.inr ⟨rfl, rfl⟩)
          rw [q5]
          split <;> rfl
  obtain ⟨r', h1, h2, R'⟩ := main
  have hwp : World.put (World.put (W i) h none) ph (some d) ph = some d := by simp [World.put]
  have hwh : World.put (World.put (W i) h none) ph (some d) h = none := by
    simp [World.put, Ne.symm hne]
  refine ⟨r', h1, ?_, R'.alive hwp, ?_, ?_, ?_, ?_⟩
  · have := (pool_recycle R.pool (R.held hw)).2.2.1
    rw [← h2] at this
    exact this
  · intro x
    rw [R'.get_eq, R.get_eq, hwp, hw]
  · intro xs
    rw [R'.has_some hwp, R.has_some hw]
  · intro x v hx
    rw [R'.get_none hwh] at hx
    cases hx
  · intro h' hn1 hn2
    exact R.sameEntity R' (by simp [World.put, hn1, hn2])

/-- The third and the first entity of the full chunk meet the hypotheses; moving the third one works as it should. -/
example : ∃ (s : Sys Nat) (W : Spec.World Nat), Reachable triTy s W ∧ s.pend 0 = 0 ∧ ⟨3, 0⟩ ∈ s.res 0 ∧
    (∃ a c, StoredAt (s.reg 0) ⟨2, 0⟩ a 0 2 c ∧ 2 + 1 = c.size ∧ c.size = a.cap ∧ 0 + 1 = a.chunks.length ∧
      StoredAt (s.reg 0) ⟨0, 0⟩ a 0 0 c) ∧
    ∃ r', (s.reg 0).moveWithin ⟨2, 0⟩ ⟨3, 0⟩ = .ok r' ⟨3, 0⟩ ∧ r'.get ⟨3, 0⟩ 0 = .ok 12 ∧ r'.get ⟨0, 0⟩ 0 = .ok 10 ∧
      r'.alive ⟨2, 0⟩ = false := by
  refine ⟨_, _, exec_get fullAndReserved fullAndReserved_isSome, by decide +kernel, by decide +kernel, ?_, ?_⟩
  · exact ⟨triArch, triChunk, tri_stored (by decide +kernel), by decide +kernel, by decide +kernel, by decide +kernel,
      tri_stored (by decide +kernel)⟩
  · have : (match (((exec triTy fullAndReserved).get fullAndReserved_isSome).1.reg 0).moveWithin ⟨2, 0⟩ ⟨3, 0⟩ with
        | .ok r' x => decide (x = ⟨3, 0⟩ ∧ r'.get ⟨3, 0⟩ 0 = .ok 12 ∧ r'.get ⟨0, 0⟩ 0 = .ok 10 ∧ r'.alive ⟨2, 0⟩ = false)
        | _ => false) = true := by decide +kernel
    split at this
    · rename_i r' x hx
      rw [decide_eq_true_eq] at this
      obtain ⟨rfl, h⟩ := this
      exact ⟨r', hx, h⟩
    · cases this

/-- The entry of the entity stays appended behind the others: it was the last of its chunk, and another chunk is the
last one when it is appended. -/
def StaysBehind (a : Arch V) (ci idx : Nat) (c : Chunk V) : Prop := idx + 1 = c.size ∧ (ci + 1 < a.chunks.length ∨ c.size = a.cap)

/-- Otherwise, the place whose handle is overwritten: computed from the number of chunks and the size of the last one. -/
def landing (a : Arch V) (last : Chunk V) : Nat × Nat :=
  if last.size = a.cap then (a.chunks.length - 1, 0)
  else if last.size = 0 then (a.chunks.length - 2, 0)
  else (a.chunks.length - 1, last.size)

/-- What the call should do. -/
structure MovedRight (r r' : Reg V) (h ph : Handle) : Prop where
  dead : r'.alive h = false
  live : r'.alive ph = true
  get : ∀ x, r'.get ph x = r.get h x
  has : ∀ xs, r'.has ph xs = r.has h xs
  gone : ∀ x v, r'.get h x ≠ .ok v
  others : ∀ h', h' ≠ h → h' ≠ ph → SameEntity r r' h'

/-- What it does instead: the reserved entity is a second name of `e`. -/
structure SecondName (r r' : Reg V) (h ph e : Handle) : Prop where
  ne : e ≠ h
  ne_ph : e ≠ ph
  entity : r.has e [] = .ok true
  dead : r'.alive h = false
  same : r'.location e = r'.location ph
  get_ph : ∀ x, r'.get ph x = r.get e x
  get : ∀ x, r'.get e x = r.get e x

/-- **C91** (every position; partial, as the property is false at some): the call is right if the entry stays behind the
others or the place overwritten is that of the entity; otherwise, if that place holds an entry, the reserved entity becomes a
second name of another entity; otherwise the call is undefined. -/
theorem C91_every_position_partial (hr : Reachable ty s W) {i : Nat} {h ph : Handle} (hp : s.pend i = 0) (hph : ph ∈ s.res i)
    (he : (s.reg i).has h [] = .ok true) {a : Arch V} {ci idx : Nat} {c last : Chunk V} (hs : StoredAt (s.reg i) h a ci idx c)
    (hl : a.chunks.getLast? = some last) :
    ((StaysBehind a ci idx c ∨ landing a last = (ci, idx)) → ∃ r', (s.reg i).moveWithin h ph = .ok r' ph ∧ MovedRight (s.reg i) r' h ph) ∧
    (¬ StaysBehind a ci idx c → landing a last ≠ (ci, idx) →
      ((a.row? (landing a last).1 (landing a last).2).isSome = true →
        ∃ r' e, (s.reg i).moveWithin h ph = .ok r' ph ∧ SecondName (s.reg i) r' h ph e) ∧
      (a.row? (landing a last).1 (landing a last).2 = none → (s.reg i).moveWithin h ph = .ub)) := by
  have I := hr.inv i
  have R := I.rep
  have hres := I.res ph hph
  rw [hp] at R hres
  obtain ⟨d, hw⟩ := R.entity_some he
  obtain ⟨l, ai, row, t, rfl, rfl⟩ := hs.at_ hr hw
  have hne : ph ≠ h := by rintro rfl; rw [hres.2] at hw; cases hw
  have hlen : l.chunk < a.chunks.length := (List.getElem?_eq_some_iff.1 t.chunk).1
  obtain ⟨a', nci, nidx, moved, a1, oc, Q, hm, S⟩ := Arch.moveSelf_spec t.ok t.chunk t.lt
  have hlt := t.lt
  have hcap := t.ok.cap
  have hroom := S.free.room
  rw [S.free.cap] at hroom
  have hlast : l.chunk + 1 = a.chunks.length → c = last := by
    intro hh
    rw [List.getLast?_eq_getElem?, show a.chunks.length - 1 = l.chunk by omega, t.chunk] at hl
    simpa using hl
  -- the last chunk has room, or a chunk is added
  have hcases : (a1.chunks.length = a.chunks.length ∧ oc = last ∧ last.size < a.cap) ∨
      (a1.chunks.length = a.chunks.length + 1 ∧ oc.size = 0 ∧ last.size = a.cap) := by
    rcases S.free.chunks with e | ⟨e, x, e1, e2⟩
    · have := S.free.chunk
      rw [e, ← List.getLast?_eq_getElem?, hl] at this
      simp only [Option.some.injEq] at this
      subst this
      exact .inl ⟨by rw [e], rfl, hroom⟩
    · rw [hl] at e1
      simp only [Option.some.injEq] at e1
      subst e1
      have := S.free.chunk
      rw [e] at this
      simp only [List.length_append, List.length_cons, List.length_nil, Nat.zero_add, Nat.add_sub_cancel,
        List.getElem?_concat_length, Option.some.injEq] at this
      have hls := t.ok.sizes _ _ (by rw [← List.getLast?_eq_getElem?]; exact hl)
      exact .inr ⟨by rw [e]; simp, by rw [← this]; rfl, by omega⟩
  have right : ∀ r', r'.pool = (s.reg i).pool.recycle h → Rep ty r' 0 (World.put (World.put (W i) h none) ph (some d)) →
      MovedRight (s.reg i) r' h ph := by
    intro r' h2 R'
    have hwp : World.put (World.put (W i) h none) ph (some d) ph = some d := by simp [World.put]
    have hwh : World.put (World.put (W i) h none) ph (some d) h = none := by simp [World.put, Ne.symm hne]
    refine ⟨?_, R'.alive hwp, fun x => ?_, fun xs => ?_, fun x v hx => ?_, fun h' hn1 hn2 => R.sameEntity R' (by simp [World.put, hn1, hn2])⟩
    · have := (pool_recycle R.pool (R.held hw)).2.2.1
      rw [← h2] at this
      exact this
    · rw [R'.get_eq, R.get_eq, hwp, hw]
    · rw [R'.has_some hwp, R.has_some hw]
    · rw [R'.get_none hwh] at hx; cases hx
  rcases S.cases with ⟨q1, q2, _, q3, q4⟩ | ⟨q1, _, q3, _, q5⟩
  · have hst : StaysBehind a l.chunk l.entry c := by
      refine ⟨q1, ?_⟩
      rcases hcases with ⟨w1, _⟩ | ⟨_, _, w3⟩
      · exact .inl (by omega)
      · by_cases e : l.chunk + 1 = a.chunks.length
        · rw [hlast e]; exact .inr w3
        · exact .inl (by omega)
    refine ⟨fun _ => ?_, fun hn => absurd hst hn⟩
    have hnci : nci = a1.chunks.length - 1 := by rw [S.nci_eq, q3]
    have hnidx : nidx = oc.size := S.nidx_eq
    subst hnci hnidx
    obtain ⟨r', w1, w2, w3⟩ := R.moveWithin_ok t hw hm S (hres.1.held R.pool) hres.2 q4 (.inl (by
      rw [← S.free.rows]
      simp [Arch.row?, S.free.chunk]))
    exact ⟨r', w1, right r' w2 w3⟩
  · have hst : ¬ StaysBehind a l.chunk l.entry c := by
      rintro ⟨w1, w2⟩
      refine q1 ⟨w1, ?_⟩
      rcases hcases with ⟨x1, _, x3⟩ | ⟨x1, _⟩
      · rcases w2 with w2 | w2
        · omega
        · intro hh
          have := hlast (by omega)
          subst this; omega
      · omega
    have hland : landing a last = (nci, nidx) := by
      unfold landing
      rw [S.nci_eq, S.nidx_eq, q3]
      rcases hcases with ⟨x1, rfl, x3⟩ | ⟨x1, x2, x3⟩
      · rw [if_neg (by omega), x1]
        by_cases e : oc.size = 0
        · rw [if_pos e, if_pos e, e]
          simp only [Prod.mk.injEq, and_true]; omega
        · rw [if_neg e, if_neg e]
      · rw [if_pos x3, if_pos x2, x1, x2]
        simp
    rw [hland]
    refine ⟨fun hq => ?_, fun _ hn => ⟨fun hsome => ?_, fun hnone => ?_⟩⟩
    · have hq := hq.resolve_left hst
      simp only [Prod.mk.injEq] at hq
      obtain ⟨rfl, rfl⟩ := hq
      obtain ⟨r', w1, w2, w3⟩ := R.moveWithin_ok t hw hm S (hres.1.held R.pool) hres.2 (fun cj j => by rw [q5]; split <;> rfl) (.inr ⟨rfl, rfl⟩)
      exact ⟨r', w1, right r' w2 w3⟩
    · obtain ⟨rw0, h0⟩ := Option.isSome_iff_exists.1 hsome
      obtain ⟨r', e, w1, w2, w3, w4, w5, w6, w7, w8⟩ := R.moveWithin_other t hw hm S (hres.1.held R.pool) hres.2 q5
        (by rintro ⟨x1, x2⟩; exact hn (by rw [x1, x2])) h0
      refine ⟨r', e, w1, w2, w3, ?_, ?_, w6, w7, w8⟩
      · cases hwe : W i e with
        | none => exact absurd hwe w4
        | some d' => rw [R.has_some hwe]; simp
      · have := (pool_recycle R.pool (R.held hw)).2.2.1
        rw [← w5] at this
        exact this
    · refine R.moveWithin_ub t hm S ?_
      rw [q5, if_neg (by rintro ⟨x1, x2⟩; exact hn (by rw [x1, x2]))]
      exact hnone

/-- In the full chunk of three, the third entry stays behind, the first is where the handle is written, the second is neither;
in the chunk with one entity the place is past the end. -/
example : StaysBehind triArch 0 2 triChunk ∧ landing triArch triChunk = (0, 0) ∧ ¬ StaysBehind triArch 0 1 triChunk ∧
    (triArch.row? 0 0).isSome = true ∧ ¬ StaysBehind oneArch 0 0 oneChunk ∧ landing oneArch oneChunk = (0, 1) ∧
    (oneArch.row? 0 1).isNone = true := by
  unfold StaysBehind
  decide +kernel

end CoEcs.Props
