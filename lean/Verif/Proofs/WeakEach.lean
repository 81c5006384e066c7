import Verif.Spec.WeakEach
import Verif.Proofs.WeakSchedule
import Verif.Proofs.View
import Verif.Props.ParallelFor

/-!
# Parallel iteration on the weak machine
-/

namespace CoEcs.Weak
open CoEcs.Props

theorem callFoot_apart {args : List BlockId} {muts : List Nat} {l l' : CoEcs.Loc} (h : l ≠ l') :
    Apart (callFoot args muts l) (callFoot args muts l') := by
  have key : ∀ {l l' : CoEcs.Loc}, l ≠ l' → ∀ o, (callFoot args muts l).wr o → ¬ (callFoot args muts l').has o := by
    intro l l' h o ho ho'
    cases o with
    | comp c x =>
      have h1 : x = l := ho.1
      have h2 : x = l' := by rcases ho' with ho' | ho' <;> exact ho'.1
      exact h (h1 ▸ h2)
    | _ => exact ho
  exact ⟨key h, key (Ne.symm h)⟩

theorem seqAll_batches (body : CoEcs.Loc → Prog RowObj Unit) : ∀ (bs : List (List CoEcs.Loc)) (s : Store RowObj),
    seqAll (bs.map fun ls => inOrder (ls.map body)) s = seqAll (bs.flatten.map body) s
  | [], _ => rfl
  | b :: bs, s => by
    rw [List.map_cons, List.flatten_cons, List.map_append, seqAll_append]
    simp only [seqAll]
    rw [seqAll_batches body bs, seq_inOrder]

/-- What a plan does sequentially. -/
theorem planPhase_seq (body : CoEcs.Loc → Prog RowObj Unit) (p : ParPlan CoEcs.Loc) (s : Store RowObj) :
    (planPhase body p).seq s = seqAll ((planElems p).map body) s := by
  cases p with
  | inline ls => exact seq_inOrder _ _
  | tasks bs => exact seqAll_batches body bs s

/-- The tasks of a plan over distinct entries are separate. -/
theorem planPhase_separate {body : CoEcs.Loc → Prog RowObj Unit} {p : ParPlan CoEcs.Loc} {args : List BlockId} {muts : List Nat} (hnd : (planElems p).Nodup)
    (hb : ∀ l ∈ planElems p, (body l).Within (callFoot args muts l)) : (planPhase body p).Separate .go .dn := by
  cases p with
  | inline ls =>
    refine within_inOrder _ fun q hq => ?_
    obtain ⟨l, hl, rfl⟩ := List.mem_map.1 hq
    refine (hb l hl).mono (fun o ho => .inl ?_) fun o ho => ?_
    · cases o with
      | go => rcases ho with ho | ho <;> exact ho.elim
      | dn => rcases ho with ho | ho <;> exact ho.elim
      | _ => exact ⟨nofun, nofun⟩
    · cases o with
      | comp => exact ⟨nofun, nofun⟩
      | _ => exact ho.elim
  | tasks bs =>
    refine ⟨fun i => ⟨fun o => ∃ b, bs[i]? = some b ∧ ∃ l ∈ b, (callFoot args muts l).rd o, fun o => ∃ b, bs[i]? = some b ∧ ∃ l ∈ b, (callFoot args muts l).wr o⟩,
      ?_, ?_, ?_⟩
    · intro i q hq
      rw [List.getElem?_map] at hq
      obtain ⟨b, hbi, rfl⟩ := Option.map_eq_some_iff.1 hq
      refine within_inOrder _ fun q hq => ?_
      obtain ⟨l, hl, rfl⟩ := List.mem_map.1 hq
      refine (hb l (List.mem_flatten.2 ⟨b, List.mem_of_getElem? hbi, hl⟩)).mono (fun o ho => ?_) fun o ho => ⟨b, hbi, l, hl, ho⟩
      rcases ho with ho | ho
      · exact .inl ⟨b, hbi, l, hl, ho⟩
      · exact .inr ⟨b, hbi, l, hl, ho⟩
    · intro i q _ o ho
      have : ∃ l, (callFoot args muts l).has o := by
        rcases ho with ⟨_, _, l, _, h⟩ | ⟨_, _, l, _, h⟩
        · exact ⟨l, .inl h⟩
        · exact ⟨l, .inr h⟩
      obtain ⟨l, h⟩ := this
      cases o with
      | go => rcases h with h | h <;> exact h.elim
      | dn => rcases h with h | h <;> exact h.elim
      | _ => exact ⟨nofun, nofun⟩
    · intro i j _ _ hij o ho ho'
      obtain ⟨b, hbi, l, hl, hw⟩ := ho
      have : ∃ b', bs[j]? = some b' ∧ ∃ l' ∈ b', (callFoot args muts l').has o := by
        rcases ho' with ⟨b', h1, l', h2, h3⟩ | ⟨b', h1, l', h2, h3⟩
        · exact ⟨b', h1, l', h2, .inl h3⟩
        · exact ⟨b', h1, l', h2, .inr h3⟩
      obtain ⟨b', hbj, l', hl', hh⟩ := this
      have hne : l ≠ l' := by
        rintro rfl
        have hp := (List.pairwise_flatten.1 (show List.Pairwise (· ≠ ·) bs.flatten from hnd)).2
        rw [List.pairwise_iff_getElem] at hp
        obtain ⟨hi, rfl⟩ := List.getElem?_eq_some_iff.1 hbi
        obtain ⟨hj, rfl⟩ := List.getElem?_eq_some_iff.1 hbj
        rcases Nat.lt_or_gt_of_ne hij with h | h
        · exact hp i j hi hj h _ hl _ hl' rfl
        · exact hp j i hj hi h _ hl' _ hl rfl
      exact (callFoot_apart hne).1 o hw hh

/-! ### The callback as a program -/

theorem within_readArgs {F : Foot RowObj} (l : CoEcs.Loc) (h : Handle) : ∀ (bs : List BlockId) {k : List (Val Int) → Prog RowObj Unit},
    (∀ c, some c ∈ bs → F.has (.comp c l)) → (∀ t, (k t).Within F) → (readArgs l h bs k).Within F
  | [], _, _, hk => hk []
  | none :: bs, _, hb, hk => within_readArgs l h bs (fun c hc => hb c (List.mem_cons_of_mem _ hc)) fun t => hk _
  | some c :: bs, _, hb, hk => ⟨hb c (List.mem_cons_self ..), fun _ => within_readArgs l h bs (fun c hc => hb c (List.mem_cons_of_mem _ hc)) fun t => hk _⟩

theorem within_writeMuts {F : Foot RowObj} (l : CoEcs.Loc) (g : Nat → Int) : ∀ (cs : List Nat), (∀ c ∈ cs, F.wr (.comp c l)) → (writeMuts l g cs).Within F
  | [], _ => trivial
  | c :: cs, h => ⟨h c (List.mem_cons_self ..), fun _ => within_writeMuts l g cs fun c hc => h c (List.mem_cons_of_mem _ hc)⟩

theorem within_callBody (r : Reg Int) (args : List BlockId) (muts : List Nat) (f : List (Val Int) → Nat → Int) (l : CoEcs.Loc) :
    (callBody r args muts f l).Within (callFoot args muts l) := by
  unfold callBody
  split
  · exact within_readArgs l _ args (fun c hc => .inl ⟨rfl, hc⟩) fun t => within_writeMuts l _ muts fun c hc => ⟨rfl, hc⟩
  · trivial

theorem seq_readArgs (l : CoEcs.Loc) (h : Handle) (d : Comps Int) (s : Store RowObj) (hs : ∀ c v, d c = some v → s.cell (.comp c l) = v) :
    ∀ (bs : List BlockId) {t : List (Val Int)} {k : List (Val Int) → Prog RowObj Unit}, tupleOf h d bs = some t → (readArgs l h bs k).seq s = (k t).seq s
  | [], t, k, ht => by cases ht; rfl
  | none :: bs, t, k, ht => by
    obtain ⟨t', h1, rfl⟩ := Option.map_eq_some_iff.1 (show (tupleOf h d bs).map (.ent h :: ·) = some t from ht)
    exact seq_readArgs l h d s hs bs (k := fun t => k (.ent h :: t)) h1
  | some c :: bs, t, k, ht => by
    unfold tupleOf at ht
    cases hd : d c with
    | none => rw [hd] at ht; cases ht
    | some v =>
      rw [hd] at ht
      obtain ⟨t', h1, rfl⟩ := Option.map_eq_some_iff.1 ht
      have := hs c v hd
      simp only [readArgs, Prog.seq, Op.seq, this]
      exact seq_readArgs l h d s hs bs (k := fun t => k (.comp v :: t)) h1

theorem seq_writeMuts (l : CoEcs.Loc) (g : Nat → Int) : ∀ (cs : List Nat) (s : Store RowObj) (c : Nat),
    ((writeMuts l g cs).seq s).2.cell (.comp c l) = if c ∈ cs then g c else s.cell (.comp c l)
  | [], s, c => rfl
  | a :: cs, s, c => by
    simp only [writeMuts, Prog.seq, Op.seq, seq_writeMuts l g cs]
    by_cases hc : c ∈ cs
    · simp [hc]
    · by_cases ha : c = a
      · subst ha; simp [Store.setCell]
      · simp [hc, ha, Store.setCell]

theorem writeAt_locs {V : Type} {r r' : Reg V} {l : CoEcs.Loc} {c : Nat} {b : Bool} {v : V} (h : r.writeAt l c b v = some r') : r'.locs = r.locs ∧ r'.pool = r.pool := by
  unfold Reg.writeAt at h
  split at h
  · cases h
  · split at h
    · split at h
      · cases h
      · cases h; exact ⟨rfl, rfl⟩
    · cases h

theorem writeAll_locs {V : Type} {l : CoEcs.Loc} {g : Nat → V} : ∀ {cs : List Nat} {r r' : Reg V}, Reg.writeAll l g r cs = some r' → r'.locs = r.locs ∧ r'.pool = r.pool
  | [], r, r', h => by cases h; exact ⟨rfl, rfl⟩
  | c :: cs, r, r', h => by
    unfold Reg.writeAll at h
    split at h
    · cases h
    · rename_i r1 h1
      have a := writeAt_locs h1
      have b := writeAll_locs h
      exact ⟨b.1.trans a.1, b.2.trans a.2⟩

theorem eachLocs_locs {V : Type} {args : List BlockId} {muts : List Nat} {f : List (Val V) → Nat → V} : ∀ {ls : List CoEcs.Loc} {r r' : Reg V} {ts : List (List (Val V))},
    Reg.eachLocs args muts f r ls = .ok r' ts → r'.locs = r.locs ∧ r'.pool = r.pool
  | [], r, r', ts, h => by cases h; exact ⟨rfl, rfl⟩
  | l :: ls, r, r', ts, h => by
    unfold Reg.eachLocs at h
    split at h
    · cases h
    · cases h
    · split at h
      · cases h
      · rename_i r1 h1
        split at h
        · rename_i h2
          cases h
          have a := writeAll_locs h1
          have b := eachLocs_locs h2
          exact ⟨b.1.trans a.1, b.2.trans a.2⟩
        · cases h
        · cases h

theorem each_location {V : Type} {args : List BlockId} {muts : List Nat} {f : List (Val V) → Nat → V} {r r' : Reg V} {ts : List (List (Val V))}
    (h : r.each args muts f = .ok r' ts) (x : Handle) : r'.location x = r.location x := by
  unfold Reg.each at h
  split at h
  · cases h
  · obtain ⟨h1, h2⟩ := eachLocs_locs h
    unfold Reg.location Reg.alive
    rw [h1, h2]

/-- Iterating in memory does what iterating the registry does. -/
theorem mirror_each {ty : Types} {r r' : Reg Int} {k : Nat} {W : Handle → Option (Comps Int)} (R : Rep ty r k W) (hn : NoNull r.archs)
    {args : List BlockId} {muts : List Nat} (hmut : ∀ c ∈ muts, some c ∈ args) {f : List (Val Int) → Nat → Int} {cs : List (List CoEcs.Loc)}
    (hcs : r.viewChunks args = some cs) {ts : List (List (Val Int))} (he : r.each args muts f = .ok r' ts) {s : Store RowObj} (hm : Mirror s.cell r) :
    Mirror (seqAll (cs.flatten.map (callBody r args muts f)) s).cell r' := by
  obtain ⟨cs', c1, c2, c3⟩ := R.view hn args
  rw [hcs] at c1; cases c1
  obtain ⟨r1, ts1, hs, h1, h2, h3, h4, R', _⟩ := R.each hn args muts hmut f
  rw [he] at h1; cases h1
  have hjs : cs.flatten.map (callBody r args muts f) =
      (cs.flatten.map fun l => (callFoot args muts l, callBody r args muts f l)).map (·.2) := by rw [List.map_map]; rfl
  obtain ⟨a1, a2⟩ := seqAll_apart (cs.flatten.map fun l => (callFoot args muts l, callBody r args muts f l))
    (fun j hj => by obtain ⟨l, _, rfl⟩ := List.mem_map.1 hj; exact within_callBody ..)
    (by rw [List.pairwise_map]; exact c2.imp fun h => callFoot_apart h) s
  rw [← hjs] at a1 a2
  -- what does not belong to the view stays
  have keep : ∀ c l, (l ∉ cs.flatten ∨ c ∉ muts) → (seqAll (cs.flatten.map (callBody r args muts f)) s).cell (.comp c l) = s.cell (.comp c l) := by
    intro c l h
    refine (a2 (.comp c l) fun j hj hw => ?_).2
    obtain ⟨l', hl', rfl⟩ := List.mem_map.1 hj
    have e1 : l = l' := hw.1
    have e2 : c ∈ muts := hw.2
    rcases h with h | h
    · exact h (e1 ▸ hl')
    · exact h e2
  intro h l c v hl hg
  rw [each_location he] at hl
  rw [R'.get_eq] at hg
  by_cases hh : h ∈ hs
  · obtain ⟨d, hd, hmt⟩ := (h3 h).1 hh
    obtain ⟨l', ai, a, ch, row, t⟩ := R.at_ hd
    have : l' = l := by have := t.loc; rw [hl] at this; exact (Obs.ok.inj this).symm
    subst this
    obtain ⟨x, hx⟩ := hmt.tuple (h := h)
    have hmem : l' ∈ cs.flatten := (c3 l').2 ⟨h, d, t.slot, hmt⟩
    simp only [if_pos hh, hd, Option.map_some, called, hx, written] at hg
    by_cases hc : c ∈ muts
    · rw [if_pos hc] at hg
      cases hg
      have := (a1 (callFoot args muts l', callBody r args muts f l') (List.mem_map.2 ⟨l', hmem, rfl⟩) (.comp c l') ⟨rfl, hc⟩).2
      rw [this]
      have hent : r.tupleAt [none] l' = .ok [.ent h] := t.tupleAt rfl
      have hrd : ∀ c v, d c = some v → s.cell (.comp c l') = v := fun c v hv => hm h l' c v hl (R.get_some hd hv)
      simp only [callBody, hent]
      rw [seq_readArgs l' h d s hrd args hx, seq_writeMuts, if_pos hc]
    · rw [if_neg hc] at hg
      rw [keep c l' (.inr hc)]
      exact hm h l' c v hl (by rw [R.get_eq, hd]; exact hg)
  · simp only [if_neg hh] at hg
    cases hd : W h with
    | none =>
      rw [hd] at hg
      simp only at hg
      split at hg <;> cases hg
    | some d =>
      rw [hd] at hg
      obtain ⟨l', ai, a, ch, row, t⟩ := R.at_ hd
      have : l' = l := by have := t.loc; rw [hl] at this; exact (Obs.ok.inj this).symm
      subst this
      rw [keep c l' (.inl fun hmem => ?_)]
      · refine hm h l' c v hl ?_
        rw [R.get_eq, hd]
        have : r'.alive h = r.alive h := by
          have := each_location he h
          rw [hl] at this
          unfold Reg.location at this hl
          split at this
          · split at hl
            · simp_all
            · cases hl
          · cases this
        first | exact hg | (simp only [this] at hg; exact hg)
      · obtain ⟨h', d', hs', hmt⟩ := (c3 l').1 hmem
        rw [t.slot] at hs'
        cases hs'
        exact hh ((h3 h).2 ⟨d, hd, hmt⟩)

theorem rowPhases_ok : ∀ {calls : List RowCall}, (∀ c ∈ calls, c.Good) → ∃ phs, rowPhases calls = some phs ∧ phs.length = calls.length ∧
    (∀ ph ∈ phs, ph.Separate .go .dn) ∧ ∀ s, seqPhases phs s = seqRows calls s
  | [], _ => ⟨[], rfl, rfl, fun _ h => by simp at h, fun _ => rfl⟩
  | c :: cs, h => by
    obtain ⟨h1, h2, h3⟩ := h c (List.mem_cons_self ..)
    obtain ⟨p, p1, p2⟩ := parEach_elems c.workers c.chunks h1
    obtain ⟨phs, i1, i2, i3, i4⟩ := rowPhases_ok fun c hc => h c (List.mem_cons_of_mem _ hc)
    refine ⟨planPhase c.body p :: phs, by simp [rowPhases, p1, i1], by simp [i2], ?_, fun s => ?_⟩
    · intro ph hph
      rcases List.mem_cons.1 hph with rfl | hph
      · exact planPhase_separate (by rw [p2]; exact h2) (by rw [p2]; exact h3)
      · exact i3 ph hph
    · simp only [seqPhases, seqRows, planPhase_seq, p2, i4]

theorem eachPhases_ok {ty : Types} {k : Nat} : ∀ {calls : List EachCall} {r r' : Reg Int} {W : Handle → Option (Comps Int)} {phs : List (Phase RowObj)},
    Rep ty r k W → (∀ c ∈ calls, ∀ x ∈ c.muts, some x ∈ c.args) → eachPhases r calls = some (phs, r') →
    phs.length = calls.length ∧ (∀ ph ∈ phs, ph.Separate .go .dn) ∧ ∀ s, Mirror s.cell r → Mirror (seqPhases phs s).cell r'
  | [], r, r', W, phs, _, _, h => by cases h; exact ⟨rfl, fun _ h => by simp at h, fun _ h => h⟩
  | c :: cs, r, r', W, phs, R, hmut, h => by
    unfold eachPhases at h
    split at h
    · cases h
    · rename_i chunks hch
      split at h
      · rename_i plan r1 ts hp he
        obtain ⟨⟨phs', r''⟩, e1, e2⟩ := Option.map_eq_some_iff.1 h
        simp only [Prod.mk.injEq] at e2
        obtain ⟨rfl, rfl⟩ := e2
        have hn : NoNull r.archs := Classical.byContradiction fun hn => by
          simp [Reg.each, R.view_null hn c.args] at he
        have hm := hmut c (List.mem_cons_self ..)
        have hw : 0 < c.workers := Nat.pos_of_ne_zero fun h0 => by
          simp [parEach, parallelFor, h0, Run.bind] at hp
        obtain ⟨p, p1, p2⟩ := parEach_elems c.workers chunks hw
        rw [hp] at p1; cases p1
        obtain ⟨cs', c1, c2, _⟩ := R.view hn c.args
        rw [hch] at c1; cases c1
        obtain ⟨r2, ts2, hs, h1, _, _, _, R', _⟩ := R.each hn c.args c.muts hm c.f
        rw [he] at h1; cases h1
        obtain ⟨i1, i2, i3⟩ := eachPhases_ok R' (fun c hc => hmut c (List.mem_cons_of_mem _ hc)) e1
        refine ⟨by simp [i1], ?_, fun s hs => ?_⟩
        · intro ph hph
          rcases List.mem_cons.1 hph with rfl | hph
          · exact planPhase_separate (by rw [p2]; exact c2) fun l _ => within_callBody ..
          · exact i2 ph hph
        · simp only [seqPhases, planPhase_seq, p2]
          exact i3 _ (mirror_each R hn hm hch he hs)
      · cases h

theorem eachPhases_some {ty : Types} {k : Nat} : ∀ {calls : List EachCall} {r : Reg Int} {W : Handle → Option (Comps Int)}, Rep ty r k W → NoNull r.archs →
    (∀ c ∈ calls, 0 < c.workers ∧ ∀ x ∈ c.muts, some x ∈ c.args) → ∃ x, eachPhases r calls = some x
  | [], r, W, _, _, _ => ⟨_, rfl⟩
  | c :: cs, r, W, R, hn, h => by
    obtain ⟨hw, hm⟩ := h c (List.mem_cons_self ..)
    obtain ⟨chunks, c1, _, _⟩ := R.view hn c.args
    obtain ⟨p, p1, _⟩ := parEach_elems c.workers chunks hw
    obtain ⟨r2, ts2, hs, h1, _, _, _, R', _, hn', _⟩ := R.each hn c.args c.muts hm c.f
    obtain ⟨x, hx⟩ := eachPhases_some R' hn' fun c hc => h c (List.mem_cons_of_mem _ hc)
    refine ⟨(planPhase (callBody r c.args c.muts c.f) p :: x.1, x.2), ?_⟩
    simp only [eachPhases, c1, p1, h1, hx, Option.map_some]

/-- Memory that holds a registry. -/
theorem mirror_exists {ty : Types} {r : Reg Int} {k : Nat} {W : Handle → Option (Comps Int)} (R : Rep ty r k W) :
    ∃ init : RowObj → Int, init .go = 0 ∧ init .dn = 0 ∧ Mirror init r := by
  refine ⟨fun | .comp c l => (match slots r.archs.arches l with | some (_, d) => (match d c with | some v => v | none => 0) | none => 0) | _ => 0, rfl, rfl, ?_⟩
  intro h l c v hl hg
  rw [R.get_eq] at hg
  cases hd : W h with
  | none =>
    rw [hd] at hg
    simp only at hg
    split at hg <;> cases hg
  | some d =>
    rw [hd] at hg
    obtain ⟨l', ai, a, ch, row, t⟩ := R.at_ hd
    have : l' = l := by have := t.loc; rw [hl] at this; exact (Obs.ok.inj this).symm
    subst this
    simp only [t.slot]
    cases hc : d c with
    | none => simp [hc] at hg
    | some v' => simp [hc] at hg; exact hg

end CoEcs.Weak
