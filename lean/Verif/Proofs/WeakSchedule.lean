import Verif.Spec.WeakSchedule
import Verif.Proofs.WeakRounds
import Verif.Proofs.WeakUse

/-!
# Dealing the jobs of a phase to workers
-/

namespace CoEcs.Weak
section
variable {L : Type} [DecidableEq L]

theorem seq_inOrder : ∀ (ps : List (Prog L Unit)) (s : Store L), ((inOrder ps).seq s).2 = seqAll ps s
  | [], _ => rfl
  | p :: ps, s => by
    simp only [inOrder, Prog.seq_bind, seqAll]
    exact seq_inOrder ps _

theorem Prog.Within.bind {F : Foot L} {α β : Type} {p : Prog L α} {k : α → Prog L β} (hp : p.Within F) (hk : ∀ a, (k a).Within F) :
    (p.bind k).Within F := by
  induction p with
  | ret a => exact hk a
  | op o q ih => exact ⟨hp.1, fun v => ih v (hp.2 v)⟩

theorem within_inOrder {F : Foot L} : ∀ (ps : List (Prog L Unit)), (∀ p ∈ ps, p.Within F) → (inOrder ps).Within F
  | [], _ => trivial
  | p :: ps, h => (h p (List.mem_cons_self ..)).bind fun _ => within_inOrder ps fun q hq => h q (List.mem_cons_of_mem _ hq)

/-- Neither writes what the other uses. -/
def Apart (a b : Foot L) : Prop := (∀ l, a.wr l → ¬ b.has l) ∧ ∀ l, b.wr l → ¬ a.has l

/-- Jobs that are apart: each finds what it would find if it were the only one. -/
theorem seqAll_apart : ∀ (js : List (Foot L × Prog L Unit)), (∀ j ∈ js, j.2.Within j.1) → js.Pairwise (fun a b => Apart a.1 b.1) → ∀ s : Store L,
    (∀ j ∈ js, (seqAll (js.map (·.2)) s).On j.1.wr (j.2.seq s).2) ∧ (seqAll (js.map (·.2)) s).On (fun l => ∀ j ∈ js, ¬ j.1.wr l) s
  | [], _, _, s => ⟨fun _ h => by simp at h, .refl _ _⟩
  | a :: js, hw, hp, s => by
    rw [List.pairwise_cons] at hp
    obtain ⟨ih1, ih2⟩ := seqAll_apart js (fun j hj => hw j (List.mem_cons_of_mem _ hj)) hp.2 (a.2.seq s).2
    have hfr := Prog.seq_frame (hw a (List.mem_cons_self ..)) s
    simp only [List.map_cons, seqAll]
    constructor
    · intro j hj
      rcases List.mem_cons.1 hj with rfl | hj
      · exact ih2.mono fun l hl j' hj' hw' => (hp.1 j' hj').1 l hl (.inr hw')
      · refine (ih1 j hj).trans ?_
        have hon : (a.2.seq s).2.On j.1.has s := hfr.mono fun l hl hl' => (hp.1 j hj).1 l hl' hl
        exact (Prog.seq_congr (hw j (List.mem_cons_of_mem _ hj)) hon).2.mono fun l hl => .inr hl
    · exact (ih2.mono fun l hl j hj => hl j (List.mem_cons_of_mem _ hj)).trans (hfr.mono fun l hl => hl a (List.mem_cons_self ..))

/-- The footprint of a worker's share. -/
def shareFoot (who : Nat → Nat) (F : Nat → Foot L) (n t : Nat) : Foot L :=
  ⟨fun l => ∃ i, i < n ∧ who i = t ∧ (F i).rd l, fun l => ∃ i, i < n ∧ who i = t ∧ (F i).wr l⟩

theorem shareFoot_has {who : Nat → Nat} {F : Nat → Foot L} {n t : Nat} {l : L} (h : (shareFoot who F n t).has l) : ∃ i, i < n ∧ who i = t ∧ (F i).has l := by
  rcases h with ⟨i, h1, h2, h3⟩ | ⟨i, h1, h2, h3⟩
  · exact ⟨i, h1, h2, .inl h3⟩
  · exact ⟨i, h1, h2, .inr h3⟩

theorem within_share {who : Nat → Nat} {F : Nat → Foot L} {ps : List (Prog L Unit)} (hw : ∀ (i : Nat) (p : Prog L Unit), ps[i]? = some p → p.Within (F i)) (t : Nat) :
    (share who ps t).Within (shareFoot who F ps.length t) := by
  refine within_inOrder _ fun p hp => ?_
  obtain ⟨⟨p', i⟩, hq, rfl⟩ := List.mem_map.1 hp
  rw [List.mem_filter, List.mem_zipIdx_iff_getElem?] at hq
  have hwho : who i = t := by simpa using hq.2
  have hi := (List.getElem?_eq_some_iff.1 hq.1).1
  refine (hw i p' hq.1).mono (fun l hl => ?_) fun l hl => ⟨i, hi, hwho, hl⟩
  rcases hl with hl | hl
  · exact .inl ⟨i, hi, hwho, hl⟩
  · exact .inr ⟨i, hi, hwho, hl⟩

theorem Phase.round_separate {N : Nat} {go dn : L} {ph : Phase L} (h : ph.Separate go dn) (who : Nat → Nat) : (ph.round who).Separate N go dn := by
  cases ph with
  | alone p => exact ⟨h, fun _ => ⟨fun _ => False, fun _ => False⟩, fun _ _ => trivial, fun _ _ _ hl => by rcases hl with hl | hl <;> exact hl.elim,
      fun _ _ _ _ _ _ hl => hl.elim⟩
  | jobs ps =>
    obtain ⟨F, h1, h2, h3⟩ := h
    refine ⟨trivial, shareFoot who F ps.length, fun t _ => within_share h1 t, ?_, ?_⟩
    · intro t _ l hl
      obtain ⟨i, hi, _, hl⟩ := shareFoot_has hl
      exact h2 i _ (List.getElem?_eq_getElem hi) l hl
    · intro t t' _ _ hne l hl hl'
      obtain ⟨i, hi, hwi, hl⟩ := hl
      obtain ⟨j, hj, hwj, hl'⟩ := shareFoot_has hl'
      exact h3 i j hi hj (fun e => hne (by rw [← hwi, ← hwj, e])) l hl hl'

private theorem filter_snd (who : Nat → Nat) (F : Nat → Foot L) (t : Nat) (ps : List (Prog L Unit)) :
    (ps.zipIdx.filter fun p => who p.2 = t).map (·.1) =
      ((ps.zipIdx.filter fun p => who p.2 = t).map fun p => (F p.2, p.1)).map (·.2) := by
  rw [List.map_map]; rfl

private theorem zip_snd (F : Nat → Foot L) (ps : List (Prog L Unit)) : ps = (ps.zipIdx.map fun p => (F p.2, p.1)).map (·.2) := by
  rw [List.map_map]
  have : ((fun x : Foot L × Prog L Unit => x.2) ∘ fun p : Prog L Unit × Nat => (F p.2, p.1)) = Prod.fst := rfl
  rw [this]
  simp

/-- However the jobs are dealt, the workers together do what one thread does that does all in order. -/
theorem Phase.round_seq {N : Nat} {go dn : L} {ph : Phase L} (h : ph.Separate go dn) {who : Nat → Nat} (hwho : ∀ i, who i < N) (s : Store L) (P : L → Prop) :
    (seqAll ((List.range N).map (ph.round who).work) ((ph.round who).main.seq s).2).On P (ph.seq s) := by
  cases ph with
  | alone p =>
    have : ∀ n (s : Store L), seqAll ((List.range n).map fun _ => (Prog.ret () : Prog L Unit)) s = s := by
      intro n
      induction n with
      | zero => intro s; rfl
      | succ n ih =>
        intro s
        rw [List.range_succ, List.map_append, seqAll_append, ih]; rfl
    simp only [Phase.round, Phase.seq, this]
    exact .refl _ _
  | jobs ps =>
    obtain ⟨F, h1, h2, h3⟩ := h
    simp only [Phase.round, Phase.seq, Prog.seq]
    have hsep := (Phase.round_separate (N := N) (ph := .jobs ps) ⟨F, h1, h2, h3⟩ who).2
    have hshare : ∀ t t', t ≠ t' → ∀ l, (shareFoot who F ps.length t).wr l → ¬ (shareFoot who F ps.length t').has l := by
      intro t t' hne l hl hl'
      obtain ⟨i, hi, hwi, hl⟩ := hl
      obtain ⟨j, hj, hwj, hl'⟩ := shareFoot_has hl'
      exact h3 i j hi hj (fun e => hne (by rw [← hwi, ← hwj, e])) l hl hl'
    obtain ⟨w1, w2⟩ := seqAll_separate N (F := shareFoot who F ps.length) (work := share who ps) (fun t _ => within_share h1 t)
      (fun t t' _ _ hne => hshare t t' hne) s
    have hpair : (ps.zipIdx.map fun p => (F p.2, p.1)).Pairwise (fun a b => Apart a.1 b.1) := by
      rw [List.pairwise_map, List.pairwise_iff_getElem]
      intro i j hi hj hij
      simp only [List.length_zipIdx] at hi hj
      simp only [List.getElem_zipIdx, Nat.zero_add]
      exact ⟨h3 i j hi hj (by omega), h3 j i hj hi (by omega)⟩
    have hin : ∀ q ∈ ps.zipIdx.map fun p => (F p.2, p.1), q.2.Within q.1 := by
      intro q hq
      obtain ⟨⟨p, i⟩, hp, rfl⟩ := List.mem_map.1 hq
      exact h1 i p (List.mem_zipIdx_iff_getElem?.1 hp)
    obtain ⟨a1, a2⟩ := seqAll_apart _ hin hpair s
    rw [← zip_snd] at a1 a2
    intro l _
    by_cases hex : ∃ i, i < ps.length ∧ (F i).wr l
    · obtain ⟨i, hi, hl⟩ := hex
      have hmem : (F i, ps[i]) ∈ ps.zipIdx.map fun p => (F p.2, p.1) :=
        List.mem_map.2 ⟨(ps[i], i), List.mem_zipIdx_iff_getElem?.2 (List.getElem?_eq_getElem hi), rfl⟩
      have e1 := w1 (who i) (hwho i) l ⟨i, hi, rfl, hl⟩
      have e2 := a1 _ hmem l hl
      obtain ⟨b1, -⟩ := seqAll_apart ((ps.zipIdx.filter fun p => who p.2 = who i).map fun p => (F p.2, p.1))
        (fun q hq => hin q (by
          obtain ⟨p, hp, rfl⟩ := List.mem_map.1 hq
          exact List.mem_map.2 ⟨p, (List.mem_filter.1 hp).1, rfl⟩))
        (hpair.sublist (List.filter_sublist.map _)) s
      rw [← filter_snd] at b1
      have e3 := b1 (F i, ps[i]) (List.mem_map.2 ⟨(ps[i], i), List.mem_filter.2 ⟨List.mem_zipIdx_iff_getElem?.2 (List.getElem?_eq_getElem hi), by simp⟩, rfl⟩) l hl
      rw [← seq_inOrder] at e3
      exact ⟨e1.1.trans (e3.1.trans e2.1.symm), e1.2.trans (e3.2.trans e2.2.symm)⟩
    · have e1 := w2 l fun t ht hl => by
        obtain ⟨i, hi, _, hl⟩ := hl
        exact hex ⟨i, hi, hl⟩
      have e2 := a2 l fun q hq hl => by
        obtain ⟨⟨p, i⟩, hp, rfl⟩ := List.mem_map.1 hq
        exact hex ⟨i, (List.getElem?_eq_some_iff.1 (List.mem_zipIdx_iff_getElem?.1 hp)).1, hl⟩
      exact ⟨e1.1.trans e2.1.symm, e1.2.trans e2.2.symm⟩

theorem dealt_separate {N : Nat} {go dn : L} {phs : List (Phase L)} (h : ∀ ph ∈ phs, ph.Separate go dn) (who : Nat → Nat → Nat) :
    ∀ R ∈ dealt who phs, R.Separate N go dn := by
  intro R hR
  obtain ⟨i, hi, rfl⟩ := List.mem_mapIdx.1 hR
  exact Phase.round_separate (h _ (List.getElem_mem hi)) _

theorem dealt_seq {N : Nat} {go dn : L} : ∀ {phs : List (Phase L)} (_ : ∀ ph ∈ phs, ph.Separate go dn) {who : Nat → Nat → Nat} (_ : ∀ r i, who r i < N)
    (s : Store L), (seqRounds N (dealt who phs) s).On (Foot.but go dn).has (seqPhases phs s)
  | [], _, _, _, s => .refl _ _
  | ph :: phs, h, who, hw, s => by
    have e : dealt who (ph :: phs) = ph.round (who 0) :: dealt (fun r => who (r + 1)) phs := by
      simp [dealt, List.mapIdx_cons]
    rw [e]
    simp only [seqRounds, seqPhases]
    have h' : ∀ ph ∈ phs, ph.Separate go dn := fun q hq => h q (List.mem_cons_of_mem _ hq)
    refine Store.On.trans ?_ (dealt_seq h' (fun r i => hw (r + 1) i) (ph.seq s))
    exact seqRounds_congr _ (dealt_separate h' _) (Phase.round_seq (h ph (List.mem_cons_self ..)) (hw 0) s _)

end

/-! ## Schedules -/

variable {bodies : SysDesc → Prog Obj Unit} {fl : Prog Obj Unit}

theorem seqPhases_append : ∀ (as bs : List (Phase Obj)) (s : Store Obj), seqPhases (as ++ bs) s = seqPhases bs (seqPhases as s)
  | [], _, _ => rfl
  | _ :: as, bs, _ => seqPhases_append as bs _

theorem seqCode_append : ∀ (a b : List Instr) (s : Store Obj), seqCode bodies fl (a ++ b) s = seqCode bodies fl b (seqCode bodies fl a s)
  | [], _, _ => rfl
  | .submit _ :: a, b, _ => seqCode_append a b _
  | .runMain _ :: a, b, _ => seqCode_append a b _
  | .endMain _ :: a, b, _ => seqCode_append a b _
  | .wait :: a, b, _ => seqCode_append a b _
  | .flush :: a, b, _ => seqCode_append a b _

theorem seqCode_submits : ∀ (b : List SysDesc) (s : Store Obj), seqCode bodies fl (b.map .submit) s = seqAll (b.map bodies) s
  | [], _ => rfl
  | _ :: b, _ => seqCode_submits b _

theorem seqCode_mains : ∀ (b : List SysDesc) (s : Store Obj), seqCode bodies fl (b.map .runMain) s = seqAll (b.map bodies) s
  | [], _ => rfl
  | _ :: b, _ => seqCode_mains b _

theorem seqCode_batch (main b : List SysDesc) (s : Store Obj) :
    seqCode bodies fl (execBatch main b) s = (Phase.jobs (b.map bodies ++ [inOrder (main.map bodies)])).seq s := by
  simp only [execBatch, seqCode_append, seqCode_submits, seqCode_mains, Phase.seq, seqAll_append, seqAll, seq_inOrder]
  split <;> rfl

theorem seqCode_stage (x : StageExec) (s : Store Obj) : seqCode bodies fl x.code s = seqPhases (stagePhases bodies x) s := by
  simp only [StageExec.code, stagePhases]
  generalize x.batches = bs
  induction bs generalizing s with
  | nil => rfl
  | cons b bs ih =>
    rw [List.flatMap_cons, seqCode_append, ih, seqCode_batch]
    rfl

theorem seqCode_stages (xs : List StageExec) (s : Store Obj) :
    seqCode bodies fl (xs.flatMap StageExec.code) s = seqPhases (xs.flatMap (stagePhases bodies)) s := by
  induction xs generalizing s with
  | nil => rfl
  | cons x xs ih => rw [List.flatMap_cons, List.flatMap_cons, seqCode_append, seqPhases_append, ih, seqCode_stage]

theorem seqCode_program (e : ScheduleExec) (n : Nat) (s : Store Obj) :
    seqPhases (schedPhases bodies fl e n) s = seqCode bodies fl (e.program n) s := by
  simp only [schedPhases, ScheduleExec.program, ScheduleExec.construct, seqPhases_append, seqCode_append, seqCode_stage]
  have : ∀ s, seqPhases (List.replicate n (e.stages.flatMap (stagePhases bodies) ++ [.alone fl])).flatten s =
      seqCode bodies fl (List.replicate n e.runOnce).flatten s := by
    induction n with
    | zero => intro s; rfl
    | succ n ih =>
      intro s
      rw [List.replicate_succ, List.replicate_succ, List.flatten_cons, List.flatten_cons, seqPhases_append, seqCode_append, ih]
      simp only [ScheduleExec.runOnce, seqPhases_append, seqCode_append, seqCode_stages]
      rfl
  rw [this]
  rfl

end CoEcs.Weak
