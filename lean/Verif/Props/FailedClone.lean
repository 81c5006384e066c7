import Verif.Props.RegistryStorage

/-!
# What every failed clone into a full chunk breaks (C53)
-/

namespace CoEcs.Props
open CoEcs Spec

variable {V : Type} {ty : Types} {s : Sys V} {W : Spec.World V}

theorem copyFrom_full {a a' : Arch V} {row : Row V} {bs : List (BlockId × Bool)} {e : Exn} {last : Chunk V} (hl : a.chunks.getLast? = some last)
    (hf : last.size = a.cap) (h : a.copyFrom row bs = .throw a' e) : ∃ c', a'.chunks = a.chunks ++ [c'] ∧ c'.size = 0 := by
  have he : a.ensureFree = some { a with chunks := a.chunks ++ [Chunk.fresh] } := by simp [Arch.ensureFree, hl, hf]
  unfold Arch.copyFrom at h
  simp only [he] at h
  have hi : (a.chunks ++ [Chunk.fresh]).length - 1 = a.chunks.length := by simp
  simp only [hi, List.getElem?_concat_length] at h
  split at h
  · split at h
    · cases h
    · simp only [Res.throw.injEq] at h
      obtain ⟨rfl, _⟩ := h
      exact ⟨Chunk.fresh.setRow (Chunk.fresh (V := V)).size _, by simp; rfl, rfl⟩
    · cases h
  · cases h

theorem receive_throws {q q' : Reg V} {m : KeyMap Bitset (Option Nat)} (hm : ArchsRel ty q.archs m) {a : Arch V} {row : Row V} {ph : Handle} {ai : Nat} (ha : q.archs.arches[ai]? = some a)
    {e : Exn} (h : q.receive a row ph = .throw q' e) (he : e = .invalidArgument) :
    q'.locs = q.locs ∧ ∃ a', a.copyFrom row a.copyBlocks = .throw a' e ∧ q'.archs.arches = q.archs.arches.set ai a' := by
  subst he
  unfold Reg.receive at h
  rcases ensureSet_spec hm (hm.ok ai a ha).inv (hm.typed ai a ha) with ⟨t, m', di, da, e1, e2⟩ | ⟨t, m', e1, e2⟩
  · have hsame : t.arches = q.archs.arches := by
      rcases e2.cases with h1 | ⟨_, _, _, _, _, h1⟩
      · exact h1
      · exact absurd (hm.bwd ai a ha) (h1 ai)
    have hdi := e2.arch
    rw [hsame] at hdi
    have : di = ai := hm.inj hdi ha e2.set
    subst this
    rw [ha] at hdi
    simp only [Option.some.injEq] at hdi
    subst hdi
    simp only [e1, e2.arch] at h
    split at h
    · cases h
    · rename_i da' e' hcf
      simp only [Res.throw.injEq] at h
      obtain ⟨rfl, rfl⟩ := h
      exact ⟨rfl, da', hcf, by simp [Reg.setArch, hsame]⟩
    · split at h
      · cases h
      · split at h <;> cases h
  · simp only [e1] at h
    cases h

theorem location_at {r : Reg V} {h : Handle} {l : Loc} (hl : r.location h = .ok l) : r.locs.at_ h.id = .ok l := by
  unfold Reg.location at hl
  split at hl
  · exact hl
  · cases hl

/-- **C53 is violated** by every clone that fails while the last chunk of the archetype is full: whatever happened before, afterwards
destroying any entity of that archetype which is not the last one of its chunk is undefined, though it was not before. -/
theorem C53_full_chunk_violated (hr : Reachable ty s W) {i : Nat} {h : Handle} (ha : s.Allowed (.on i (.clone h none)))
    (he : (s.reg i).has h [] = .ok true) {r' : Reg V} {e : Exn} (hc : (s.reg i).clone h = .throw r' e) {l : Loc} {ai : Nat} {a : Arch V} {last : Chunk V}
    (hl : (s.reg i).location h = .ok l) (hai : l.arch = some ai) (hga : (s.reg i).archs.arches[ai]? = some a)
    (hlast : a.chunks.getLast? = some last) (hfull : last.size = a.cap) {h' : Handle} {l' : Loc} {c : Chunk V} (hl' : (s.reg i).location h' = .ok l')
    (hai' : l'.arch = some ai) (hc' : a.chunks[l'.chunk]? = some c) (hnl : l'.entry + 1 < c.size) (he' : (s.reg i).has h' [] = .ok true) :
    (s.reg i).destroy h' ≠ .ub ∧ r'.has h' [] = .ok true ∧ r'.destroy h' = .ub := by
  obtain ⟨hp, hb⟩ := ha
  have R := (hr.inv i).rep
  rw [hp] at R
  obtain ⟨p, ph, hcr, R1, h3, hwp, h4, h5⟩ := R.create_pool hb
  obtain ⟨d, hw⟩ := R.entity_some he
  obtain ⟨d', hw'⟩ := R.entity_some he'
  refine ⟨?_, ?_⟩
  · obtain ⟨l2, ai2, a2, c2, row2, t⟩ := R.at_ hw'
    rw [t.loc] at hl'; cases hl'
    rw [t.arch] at hai'; cases hai'
    rw [t.get] at hga; cases hga
    have hsafe : a.Safe l'.chunk l'.entry := by
      intro c3 _ _ last3 hl3
      rw [hlast] at hl3; cases hl3
      have := t.ok.cap
      omega
    intro hu
    rcases R.destroy' hw' t hsafe with ⟨r3, h1⟩
    rw [hu] at h1; cases h1
  unfold Reg.clone at hc
  simp only [hcr, cloneInto_eq] at hc
  have hca := hc
  rcases R1.copyInto R1 hw h3 hwp with ⟨q, q1, _⟩ | ⟨q, q1, qc, q2, q3, _⟩
  · rw [hc] at q1; cases q1
  rw [hc] at q1
  cases q1
  obtain ⟨a1, row, g1, g2, g3, g4, l1, ai1, c1, t1⟩ := R1.rowOf hw
  unfold Reg.copyInto at hca
  simp only [g1] at hca
  have e1 := location_at t1.loc
  have e2 := location_at hl
  have e3 : (.ok l1 : Obs Loc) = .ok l := e1.symm.trans e2
  cases e3
  have e4 := t1.arch
  rw [hai] at e4; cases e4
  have e5 := t1.get
  replace e5 : (s.reg i).archs.arches[ai]? = some a1 := e5
  rw [hga] at e5; cases e5
  obtain ⟨m, hm⟩ := R1.archs
  obtain ⟨k1, a', k2, k3⟩ := receive_throws hm t1.get hca rfl
  obtain ⟨cn, k4, k5⟩ := copyFrom_full hlast hfull k2
  obtain ⟨l2, ai2, a2, c2, row2, t2⟩ := q3.at_ hw'
  have e6 := location_at t2.loc
  rw [k1] at e6
  have e7 : (.ok l2 : Obs Loc) = .ok l' := e6.symm.trans (location_at (r := s.reg i) hl')
  cases e7
  have e8 := t2.arch
  rw [hai'] at e8; cases e8
  have hlt := (List.getElem?_eq_some_iff.1 hga).1
  have e9 := t2.get
  rw [k3, List.getElem?_set_self hlt] at e9
  cases e9
  refine ⟨?_, ?_⟩
  · unfold Reg.has
    simp [t2.loc, t2.archOf]
  · unfold Reg.destroy
    simp only [t2.loc, t2.archOf]
    have hlc := (List.getElem?_eq_some_iff.1 hc').1
    rw [Arch.Safe.swapErase_ub fun hs => hs c (by rw [k4, List.getElem?_append_left hlc]; exact hc') hnl cn (by rw [k4]; simp) k5]

/-- There is such an entity whenever a chunk holds two. -/
theorem C53_full_chunk_somewhere_violated (hr : Reachable ty s W) {i : Nat} {h : Handle} (ha : s.Allowed (.on i (.clone h none)))
    (he : (s.reg i).has h [] = .ok true) {r' : Reg V} {e : Exn} (hc : (s.reg i).clone h = .throw r' e) {l : Loc} {ai : Nat} {a : Arch V} {last : Chunk V}
    (hl : (s.reg i).location h = .ok l) (hai : l.arch = some ai) (hga : (s.reg i).archs.arches[ai]? = some a)
    (hlast : a.chunks.getLast? = some last) (hfull : last.size = a.cap) (h2 : 2 ≤ a.cap) :
    ∃ h', (s.reg i).destroy h' ≠ .ub ∧ r'.has h' [] = .ok true ∧ r'.destroy h' = .ub := by
  have R := (hr.inv i).rep
  obtain ⟨lm, hlm, L⟩ := R.link
  obtain ⟨m, hm⟩ := R.archs
  have hok := hm.ok ai a hga
  have hix : a.chunks[a.chunks.length - 1]? = some last := by rw [← List.getLast?_eq_getElem?]; exact hlast
  have hrow : a.row? (a.chunks.length - 1) 0 = some (last.rows 0) := by
    rw [Arch.row?_eq_some hok.toShape]; exact ⟨last, hix, by omega, rfl⟩
  obtain ⟨h', d', hd, _⟩ := Row.decode_ok (hok.rows _ _ _ hrow)
  have hslot : slots (s.reg i).archs.arches ⟨some ai, a.chunks.length - 1, 0⟩ = some (h', d') := by
    rw [slots_some hga]; unfold Arch.entry; simp [hrow, hd]
  obtain ⟨_, k2⟩ := L.stored _ _ _ hslot
  have hw' := (R.holds h' d').1 ⟨_, hslot⟩
  obtain ⟨l2, ai2, a2, c2, row2, t2⟩ := R.at_ hw'
  have hl2 : l2 = ⟨some ai, a.chunks.length - 1, 0⟩ := by
    have := (L.stored _ _ _ t2.slot).2
    rw [k2] at this; cases this; rfl
  subst hl2
  refine ⟨h', C53_full_chunk_violated hr ha he hc hl hai hga hlast hfull t2.loc rfl hix (by simp only; omega) ?_⟩
  unfold Reg.has
  simp [t2.loc, t2.archOf]

/-- The hypotheses are met: a chunk of two big components, full. -/
example : ∃ (s : Sys Nat) (W : Spec.World Nat), Reachable bigTy s W ∧ s.Allowed (.on 0 (.clone ⟨1, 0⟩ none)) ∧ (s.reg 0).has ⟨1, 0⟩ [] = .ok true ∧
    ∃ l ai a last, (s.reg 0).location ⟨1, 0⟩ = .ok l ∧ l.arch = some ai ∧ (s.reg 0).archs.arches[ai]? = some a ∧ a.chunks.getLast? = some last ∧ last.size = a.cap ∧ 2 ≤ a.cap := by
  refine ⟨_, _, exec_get fullChunk fullChunk_isSome, by decide +kernel, by decide +kernel, ?_⟩
  generalize hr : ((exec bigTy fullChunk).get fullChunk_isSome).1.reg 0 = r
  have h : (match r.location ⟨1, 0⟩ with
      | .ok l => match l.arch with
        | some ai => match r.archs.arches[ai]? with
          | some a => match a.chunks.getLast? with
            | some last => decide (last.size = a.cap ∧ 2 ≤ a.cap)
            | none => false
          | none => false
        | none => false
      | _ => false) = true := by subst hr; decide +kernel
  split at h
  · rename_i l hl
    split at h
    · rename_i ai hai
      split at h
      · rename_i a hga
        split at h
        · rename_i last hlast
          exact ⟨l, ai, a, last, hl, hai, hga, hlast, of_decide_eq_true h⟩
        · cases h
      · cases h
    · cases h
  · cases h

/-! ### What it leaks (C26) -/

theorem copyConstruct_throws (ds : List BlockId) (src : Row V) : ∀ (bs : List (BlockId × Bool)) (d : Row V) (t : Tally) {d' : Row V} {t' : Tally} {e : Exn},
    (∀ x ∈ bs, x.1 ∈ ds) → (bs.map Prod.fst).Nodup → Row.copyConstruct ds src bs d t = .throw (d', t') e →
    (∀ b, t'.built b = t.built b + one ((bs.takeWhile (·.2)).map Prod.fst) b) ∧ ∀ b, t'.freed b = t.freed b := by
  intro bs
  induction bs with
  | nil => intro d t d' t' e _ _ h; simp [Row.copyConstruct] at h
  | cons x bs ih =>
    obtain ⟨b0, cp⟩ := x
    intro d t d' t' e hin hnd h
    have hb0 := hin _ (List.mem_cons_self ..)
    simp only at hb0
    cases cp with
    | false =>
      simp only [Row.copyConstruct, hb0, if_true, Bool.false_eq_true, if_false, Res.throw.injEq, Prod.mk.injEq] at h
      obtain ⟨⟨_, rfl⟩, _⟩ := h
      exact ⟨fun b => by simp [one], fun b => rfl⟩
    | true =>
      simp only [Row.copyConstruct, hb0, if_true] at h
      split at h
      · cases h
      · rename_i v hv
        rw [List.map_cons, List.nodup_cons] at hnd
        obtain ⟨h1, h2⟩ := ih _ _ (fun x hx => hin x (List.mem_cons_of_mem _ hx)) hnd.2 h
        refine ⟨fun b => ?_, fun b => by rw [h2]; rfl⟩
        rw [h1]
        have hni : b0 ∉ (bs.takeWhile (·.2)).map Prod.fst := by
          intro hm
          apply hnd.1
          obtain ⟨y, hy, hy2⟩ := List.mem_map.1 hm
          exact List.mem_map.2 ⟨y, (List.takeWhile_sublist _).subset hy, hy2⟩
        simp only [Row.construct, Tally.build, List.takeWhile_cons, if_true, List.map_cons, one, List.mem_cons]
        by_cases hb : b = b0
        · subst hb; rw [if_pos rfl, if_neg hni, if_pos (.inl rfl)]
        · simp [hb]

theorem copyFrom_throws {a a' : Arch V} (hok : a.Ok) {row : Row V} {e : Exn} (h : a.copyFrom row a.copyBlocks = .throw a' e) :
    a'.total = a.total ∧ (∀ b, a'.tally.built b = a.tally.built b + one ((a.copyBlocks.takeWhile (·.2)).map Prod.fst) b) ∧ (∀ b, a'.tally.freed b = a.tally.freed b) ∧ a'.blocks = a.blocks := by
  have hmem : ∀ x ∈ a.copyBlocks, x.1 ∈ a.blocks := by
    intro x hx; rw [← Arch.copyBlocks_fst]; exact List.mem_map_of_mem hx
  have hnd : (a.copyBlocks.map Prod.fst).Nodup := by rw [Arch.copyBlocks_fst]; exact Arch.nodup_blocks hok.inv
  unfold Arch.copyFrom at h
  split at h
  · cases h
  · rename_i a1 hf
    have h1 : a1.blocks = a.blocks ∧ a1.tally = a.tally ∧ a1.total = a.total := by
      unfold Arch.ensureFree at hf
      split at hf
      · cases hf
      · split at hf
        · simp only [Option.some.injEq] at hf; subst hf
          exact ⟨rfl, rfl, by simp [Arch.total, Chunk.fresh]⟩
        · simp only [Option.some.injEq] at hf; subst hf; exact ⟨rfl, rfl, rfl⟩
    simp only at h
    split at h
    · cases h
    · rename_i c hc
      split at h
      · split at h
        · cases h
        · rename_i d t e' hcc
          simp only [Res.throw.injEq] at h
          obtain ⟨rfl, _⟩ := h
          obtain ⟨k1, k2⟩ := copyConstruct_throws _ _ _ _ _ (by rw [h1.1]; exact hmem) hnd hcc
          refine ⟨?_, fun b => by rw [← h1.2.1]; exact k1 b, fun b => by rw [← h1.2.1]; exact k2 b, h1.1⟩
          rw [← h1.2.2]
          have hsz : (c.setRow c.size d).size = c.size := rfl
          simp only [Arch.total, List.map_set, hsz]
          congr 1
          apply List.ext_getElem?
          intro j
          by_cases hj : a1.chunks.length - 1 = j
          · subst hj
            rw [List.getElem?_set_self (by simpa using (List.getElem?_eq_some_iff.1 hc).1)]
            simp [hc]
          · rw [List.getElem?_set_ne hj]
        · cases h
      · cases h

theorem mapM_at {α β : Type} {f : α → Option β} : ∀ {l : List α} {ys : List β}, l.mapM f = some ys → ∀ j : Nat, (ys[j]? : Option β) = (l[j]?).bind f := by
  intro l
  induction l with
  | nil => intro ys h j; simp at h; subst h; simp
  | cons x l ih =>
    intro ys h j
    rw [List.mapM_cons] at h
    simp only [Option.bind_eq_bind, Option.bind_eq_some_iff] at h
    obtain ⟨y, hy, ys', hys, h⟩ := h
    cases h
    cases j with
    | zero => simp [hy]
    | succ j => simpa using ih hys j

/-- **C26** (exactly what is lost): in every reachable state, a clone that fails adds one object never destroyed for the handle and for each component that is
copied before the first one that cannot be copied, and nothing else: the balance of constructed and destroyed objects at the end of the
registry differs from the one without the call by exactly these. -/
theorem C26_failed_clone_exact_violated (hr : Reachable ty s W) {i : Nat} {h : Handle} (ha : s.Allowed (.on i (.clone h none)))
    (he : (s.reg i).has h [] = .ok true) {r' : Reg V} {e : Exn} (hc : (s.reg i).clone h = .throw r' e) :
    ∃ (l : Loc) (ai : Nat) (a : Arch V) (ts ts' : List Tally), (s.reg i).location h = .ok l ∧ l.arch = some ai ∧ (s.reg i).archs.arches[ai]? = some a ∧
      (s.reg i).destruct = some ts ∧ r'.destruct = some ts' ∧ ts'.length = ts.length ∧
      ∀ (j : Nat) (t t' : Tally), ts[j]? = some t → ts'[j]? = some t' → ∀ b,
        t'.built b + t.freed b = t.built b + t'.freed b + if j = ai ∧ b ∈ (a.copyBlocks.takeWhile (·.2)).map Prod.fst then 1 else 0 := by
  obtain ⟨hp, hb⟩ := ha
  have R := (hr.inv i).rep
  rw [hp] at R
  obtain ⟨p, ph, hcr, R1, h3, hwp, h4, h5⟩ := R.create_pool hb
  obtain ⟨d, hw⟩ := R.entity_some he
  unfold Reg.clone at hc
  simp only [hcr, cloneInto_eq] at hc
  have hca := hc
  rcases R1.copyInto R1 hw h3 hwp with ⟨q, q1, _⟩ | ⟨q, q1, qc, q2, q3, _⟩
  · rw [hc] at q1; cases q1
  rw [hc] at q1
  cases q1
  obtain ⟨a, row, g1, g2, g3, g4, l, ai, c1, t1⟩ := R1.rowOf hw
  unfold Reg.copyInto at hca
  simp only [g1] at hca
  obtain ⟨l0, ai0, a0, c0, row0, t0⟩ := R.at_ hw
  have e3 : (.ok l : Obs Loc) = .ok l0 := (location_at t1.loc).symm.trans (location_at (r := s.reg i) t0.loc)
  cases e3
  obtain ⟨m, hm⟩ := R1.archs
  obtain ⟨k1, a', k2, k3⟩ := receive_throws hm t1.get hca rfl
  obtain ⟨n1, n2, n3, n4⟩ := copyFrom_throws t1.ok k2
  have hga : (s.reg i).archs.arches[ai]? = some a := t1.get
  have hlt := (List.getElem?_eq_some_iff.1 hga).1
  replace k3 : r'.archs.arches = (s.reg i).archs.arches.set ai a' := k3
  have hd := R.destruct_defined
  have hd' := q3.destruct_defined
  obtain ⟨ts, hts⟩ := Option.ne_none_iff_exists'.1 hd
  obtain ⟨ts', hts'⟩ := Option.ne_none_iff_exists'.1 hd'
  have m1 := mapM_at hts
  have m2 := mapM_at hts'
  have hl1 : ∀ j : Nat, ts'[j]? = none ↔ ts[j]? = none := by
    have def1 : ∀ {as : List (Arch V)} {us : List Tally}, as.mapM (fun a => a.destructChunks a.chunks a.tally) = some us → ∀ j : Nat, us[j]? = none ↔ as[j]? = none := by
      intro as
      induction as with
      | nil => intro us h j; simp at h; subst h; simp
      | cons x as ih =>
        intro us h j
        rw [List.mapM_cons] at h
        simp only [Option.bind_eq_bind, Option.bind_eq_some_iff] at h
        obtain ⟨y, hy, ys', hys, h⟩ := h
        cases h
        cases j with
        | zero => simp
        | succ j => simpa using ih hys j
    intro j
    rw [def1 hts', def1 hts, k3]
    simp
  refine ⟨l, ai, a, ts, ts', t0.loc, t1.arch, hga, hts, hts', ?_, ?_⟩
  · have h1 := hl1 ts.length
    have h2 := hl1 ts'.length
    simp only [List.getElem?_eq_none_iff] at h1 h2
    omega
  · intro j t t' ht ht' b
    rw [m1] at ht
    rw [m2, k3] at ht'
    simp only [Option.bind_eq_some_iff] at ht ht'
    obtain ⟨x, hx, hx2⟩ := ht
    obtain ⟨x', hx', hx2'⟩ := ht'
    by_cases hj : j = ai
    · subst hj
      rw [hga] at hx; cases hx
      rw [List.getElem?_set_self hlt] at hx'; cases hx'
      obtain ⟨u, u1, u2, u3, _⟩ := Arch.destructChunks_spec (Arch.nodup_blocks t1.ok.inv) a.chunks a.tally t1.ok.occ
      rw [hx2] at u1; cases u1
      obtain ⟨m', hm'⟩ := q3.archs
      have hok' : a'.Ok := hm'.ok j a' (by rw [k3, List.getElem?_set_self hlt])
      obtain ⟨u', u1', u2', u3', _⟩ := Arch.destructChunks_spec (Arch.nodup_blocks hok'.inv) a'.chunks a'.tally hok'.occ
      rw [hx2'] at u1'; cases u1'
      have e1 : (a'.chunks.map Chunk.size).sum = (a.chunks.map Chunk.size).sum := n1
      rw [u2, u3, u2', u3', n2, n3, n4, e1]
      simp only [true_and, one]
      omega
    · rw [List.getElem?_set_ne (by omega), hx] at hx'
      cases hx'
      rw [hx2] at hx2'; cases hx2'
      simp [hj]

end CoEcs.Props
