import Verif.Proofs.WeakRoundsInv
import Verif.Proofs.WeakSchedule
import Verif.Props.Determinism
import Verif.Props.WeakPool

/-!
# C87: rounds of parallel work in C++ memory
-/

namespace CoEcs.Props
open CoEcs.Weak

/-- **C95**, for every kind of memory and all programs: a main thread starts workers with a release store they acquire, they report with
a release operation it acquires, and no worker writes what another one of the same round uses, but for counters that the workers
change with operations that read and write at once.  Then there is no data race, whatever memory orders the programs themselves
ask for, the counters included; and when the main thread has finished, every object has the value it gets in some execution on plain memory in
which the operations of the workers of a round take place one at a time. -/
theorem C95_rounds {L : Type} [DecidableEq L] {go dn : L} (hgd : go ≠ dn) {A : L → Prop} (hA : ∀ l, A l → l ≠ go ∧ l ≠ dn) {N : Nat}
    {Rs : List (Round L)} (hR : ∀ R ∈ Rs, R.Sharing N go dn A) {init : L → Int} (hg : init go = 0) (hd : init dn = 0) {f : Nat} {strong : Bool}
    {s : St L (Prog L Unit)} (h : Reach (Prog.auto L) strong (.init init (roundThreads .acq .rel go dn N f Rs)) s) :
    (∀ t c, s.step (Prog.auto L) strong t c ≠ .race) ∧
    (s.mem.vals.atom go = ((Rs.length + 1 : Nat) : Int) → ∃ σ, MixRounds N Rs ⟨init, init⟩ σ ∧
      ∀ l, l ≠ go → l ≠ dn → s.mem.vals.atom l = σ.atom l ∧ s.mem.vals.cell l = σ.cell l) := by
  have hi := rounds_reach hgd hA hR hg hd h
  refine ⟨fun t c => (rounds_step hgd hA hi strong t c).1, fun hN => ?_⟩
  rcases hi with ⟨r, Rs', hr, _, h⟩ | ⟨r, R, Rs', F, st, hr, _, h⟩ | h
  · have := h.cgo.atom
    omega
  · have := h.cgo.atom
    omega
  · obtain ⟨σ, hσ, hT⟩ := h.vals
    exact ⟨σ, hT, fun l h1 h2 => hσ.symm l (.inl ⟨h1, h2⟩)⟩

/-- **C87**, for every kind of memory and all programs: a main thread starts workers with a release store they acquire, they report with
a release operation it acquires, and no worker writes what another one of the same round uses.  Then there is no data race, whatever
memory orders the programs themselves ask for; and when the main thread has finished, every object has the value it gets when one
thread does everything in plain memory. -/
theorem C87_rounds {L : Type} [DecidableEq L] {go dn : L} (hgd : go ≠ dn) {N : Nat} {Rs : List (Round L)} (hR : ∀ R ∈ Rs, R.Separate N go dn)
    {init : L → Int} (hg : init go = 0) (hd : init dn = 0) {f : Nat} {strong : Bool} {s : St L (Prog L Unit)}
    (h : Reach (Prog.auto L) strong (.init init (roundThreads .acq .rel go dn N f Rs)) s) :
    (∀ t c, s.step (Prog.auto L) strong t c ≠ .race) ∧
    (s.mem.vals.atom go = ((Rs.length + 1 : Nat) : Int) →
      ∀ l, l ≠ go → l ≠ dn → s.mem.vals.atom l = (seqRounds N Rs ⟨init, init⟩).atom l ∧ s.mem.vals.cell l = (seqRounds N Rs ⟨init, init⟩).cell l) := by
  obtain ⟨h1, h2⟩ := C95_rounds hgd (A := fun _ => False) (fun _ h => h.elim) (fun R hR' => (hR R hR').sharing) hg hd h
  refine ⟨h1, fun hN l hl hl' => ?_⟩
  obtain ⟨σ, h3, h4⟩ := h2 hN
  rw [← h3.seq hR]
  exact h4 l hl hl'

/-- The bodies of all systems of a stage keep to the patterns of the systems. -/
def BodiesWithin (bodies : SysDesc → Prog Obj Unit) (st : Stage) : Prop :=
  ∀ s ∈ st.systems ++ st.main, (bodies s).Within (patternFoot s.pattern.footprint)

private theorem patternFoot_free {p : Access} {l : Obj} (h : (patternFoot p.footprint).has l) : l ≠ .go ∧ l ≠ .dn := by
  cases l <;> simp_all [patternFoot, Foot.has]

private theorem patternFoot_apart {a b : Access} (h : ¬ a.footprint.Conflict b.footprint) {l : Obj} (ha : (patternFoot a.footprint).wr l) :
    ¬ (patternFoot b.footprint).has l := by
  intro hb
  cases l with
  | go => exact ha
  | dn => exact ha
  | comp c i =>
    have hb : b.footprint.reads c := by rcases hb with hb | hb; exact hb; exact Access.writes_reads hb
    exact h ⟨c, .inl ⟨ha, hb⟩⟩
  | shape i =>
    have hb : ∃ c, b.footprint.reads c := by rcases hb with hb | hb; exact hb; exact ⟨0, Access.writes_reads (hb 0)⟩
    obtain ⟨c, hc⟩ := hb
    exact h ⟨c, .inl ⟨ha c, hc⟩⟩

/-- The union of footprints. -/
private def footAll (ss : List SysDesc) : Foot Obj :=
  ⟨fun l => ∃ s ∈ ss, (patternFoot s.pattern.footprint).rd l, fun l => ∃ s ∈ ss, (patternFoot s.pattern.footprint).wr l⟩

private theorem footAll_has {ss : List SysDesc} {l : Obj} (h : (footAll ss).has l) : ∃ s ∈ ss, (patternFoot s.pattern.footprint).has l := by
  rcases h with ⟨s, h1, h2⟩ | ⟨s, h1, h2⟩
  · exact ⟨s, h1, .inl h2⟩
  · exact ⟨s, h1, .inr h2⟩

private theorem batch_separate {bodies : SysDesc → Prog Obj Unit} {main b : List SysDesc} (hb : b.Pairwise fun x y => ¬ SysDesc.Conflict x y)
    (hw : ∀ s ∈ b, (bodies s).Within (patternFoot s.pattern.footprint)) (hm : ∀ s ∈ main, (bodies s).Within (patternFoot s.pattern.footprint))
    (hc : ∀ m ∈ main, ∀ a ∈ b, ¬ SysDesc.Conflict a m) :
    (Phase.jobs (b.map bodies ++ [inOrder (main.map bodies)])).Separate .go .dn := by
  let F : Nat → Foot Obj := fun i => match b[i]? with | some s => patternFoot s.pattern.footprint | none => footAll main
  have hF : ∀ (i : Nat) (hi : i < b.length), F i = patternFoot b[i].pattern.footprint := by
    intro i hi; simp only [F, List.getElem?_eq_getElem hi]
  have hF' : ∀ i : Nat, b.length ≤ i → F i = footAll main := by
    intro i hi; simp only [F, List.getElem?_eq_none hi]
  refine ⟨F, fun i p hp => ?_, fun i p _ l hl => ?_, fun i j hi hj hij l hl hl' => ?_⟩
  · by_cases hi : i < b.length
    · rw [hF i hi]
      rw [List.getElem?_append_left (by simpa using hi)] at hp
      simp only [List.getElem?_map, List.getElem?_eq_getElem hi, Option.map_some, Option.some.injEq] at hp
      subst hp
      exact hw _ (List.getElem_mem hi)
    · rw [hF' i (by omega)]
      rw [List.getElem?_append_right (by simp; omega)] at hp
      have hp : p = inOrder (main.map bodies) := by
        have := List.mem_of_getElem? hp
        simpa using this
      subst hp
      refine within_inOrder _ fun q hq => ?_
      obtain ⟨m, hm', rfl⟩ := List.mem_map.1 hq
      refine (hm m hm').mono (fun l hl => ?_) fun l hl => ⟨m, hm', hl⟩
      rcases hl with hl | hl
      · exact .inl ⟨m, hm', hl⟩
      · exact .inr ⟨m, hm', hl⟩
  · by_cases hi : i < b.length
    · rw [hF i hi] at hl; exact patternFoot_free hl
    · rw [hF' i (by omega)] at hl
      obtain ⟨s, _, hs⟩ := footAll_has hl
      exact patternFoot_free hs
  · simp only [List.length_append, List.length_map, List.length_singleton] at hi hj
    have sym : ∀ {x y : SysDesc}, ¬ SysDesc.Conflict x y → ¬ SysDesc.Conflict y x := fun h h' => h h'.symm
    by_cases hi' : i < b.length
    · rw [hF i hi'] at hl
      by_cases hj' : j < b.length
      · rw [hF j hj'] at hl'
        refine patternFoot_apart ?_ hl hl'
        rw [List.pairwise_iff_getElem] at hb
        rcases Nat.lt_or_gt_of_ne hij with h | h
        · exact hb i j hi' hj' h
        · exact sym (hb j i hj' hi' h)
      · rw [hF' j (by omega)] at hl'
        obtain ⟨m, hm', hl'⟩ := footAll_has hl'
        exact patternFoot_apart (hc m hm' _ (List.getElem_mem hi')) hl hl'
    · rw [hF' i (by omega)] at hl
      obtain ⟨m, hm', hl⟩ := hl
      have hj' : j < b.length := by omega
      rw [hF j hj'] at hl'
      exact patternFoot_apart (sym (hc m hm' _ (List.getElem_mem hj'))) hl hl'

/-- **C87**, for schedules: construct an executor and run it `n` times; in every batch the systems are dealt to the threads in any way, the
bodies of the systems keep to what the systems declare, and the threads wait for each other with acquire and release.  Then there is no
data race in any execution, and at the end the components have the values they get when one thread executes the program of the
main thread and runs every system when it is submitted. -/
theorem C87_schedule {sch sch' : Schedule} {e : ScheduleExec} {fuel n : Nat} (hf : ScheduleFromArgs sch)
    (hx : sch.createExecutor fuel = .ok (sch', e)) (hm : ∀ st, st = sch.init ∨ st ∈ sch.stages → MainCompatible st)
    {bodies : SysDesc → Prog Obj Unit} {fl : Prog Obj Unit} (hr : ∀ st, st = sch.init ∨ st ∈ sch.stages → BodiesWithin bodies st)
    (hfl : fl.Within (Foot.but .go .dn)) {N : Nat} {who : Nat → Nat → Nat} (hwho : ∀ r i, who r i < N)
    {init : Obj → Int} (hg : init .go = 0) (hd : init .dn = 0) {f : Nat} {strong : Bool} {s : St Obj (Prog Obj Unit)}
    (h : Reach (Prog.auto Obj) strong (.init init (roundThreads .acq .rel .go .dn N f (dealt who (schedPhases bodies fl e n)))) s) :
    (∀ t c, s.step (Prog.auto Obj) strong t c ≠ .race) ∧
    (s.mem.vals.atom .go = (((schedPhases bodies fl e n).length + 1 : Nat) : Int) →
      ∀ l, l ≠ .go → l ≠ .dn → s.mem.vals.atom l = (seqCode bodies fl (e.program n) ⟨init, init⟩).atom l ∧
        s.mem.vals.cell l = (seqCode bodies fl (e.program n) ⟨init, init⟩).cell l) := by
  obtain ⟨b1, b2⟩ := exec_batches_ok hf hx
  obtain ⟨⟨si, h1, _⟩, h2, h3, h4⟩ := schedule_spec hx
  have key : ∀ (st st' : Stage) (x : StageExec), (st = sch.init ∨ st ∈ sch.stages) →
      st.createExecutor fuel = .ok (st', x) → (∀ b ∈ x.batches, b ≠ [] ∧ b.Pairwise (fun x y => ¬ SysDesc.Conflict x y)) →
      ∀ ph ∈ stagePhases bodies x, ph.Separate .go .dn := by
    intro st st' x hst hx hb
    have hp : PatternsOk st.systems := by
      intro s hs
      rcases hst with rfl | hst
      · exact (fromArgs_ok (hf.1 s hs)).1
      · exact (fromArgs_ok (hf.2 st hst s hs)).1
    obtain ⟨_, k1, _, _, k2⟩ := stage_batches hx hp
    have hmem : ∀ b ∈ x.batches, ∀ s ∈ b, s ∈ st.systems := fun b hb s hs =>
      k2.subset (List.mem_flatten.2 ⟨b, hb, hs⟩)
    intro ph hph
    obtain ⟨b, hb', rfl⟩ := List.mem_map.1 hph
    rw [k1]
    exact batch_separate (hb b hb').2 (fun s hs => hr st hst s (List.mem_append_left _ (hmem b hb' s hs)))
      (fun s hs => hr st hst s (List.mem_append_right _ hs)) fun m hm' a ha => hm st hst m hm' a (hmem b hb' a ha)
  have hsep : ∀ ph ∈ schedPhases bodies fl e n, ph.Separate .go .dn := by
    intro ph hph
    simp only [schedPhases, List.mem_append, List.mem_singleton, List.mem_flatten] at hph
    rcases hph with (hph | rfl) | ⟨l, hl, hph⟩
    · exact key _ _ _ (.inl rfl) h1 b1 ph hph
    · exact hfl
    · rw [(List.mem_replicate.1 hl).2] at hph
      rcases List.mem_append.1 hph with hph | hph
      · obtain ⟨x, hx', hph⟩ := List.mem_flatMap.1 hph
        obtain ⟨i, hi, rfl⟩ := List.mem_iff_getElem.1 hx'
        have hi' : i < sch.stages.length := by omega
        obtain ⟨st', y, k1, k2, k3⟩ := h4 i sch.stages[i] (List.getElem?_eq_getElem hi')
        rw [List.getElem?_eq_getElem hi] at k2
        cases k2
        exact key _ _ _ (Or.inr (List.getElem_mem hi')) k3 (b2 _ hx') ph hph
      · rw [List.mem_singleton.1 hph]; exact hfl
  obtain ⟨r1, r2⟩ := C87_rounds (by decide) (dealt_separate hsep who) hg hd h
  refine ⟨r1, fun hN l hl hl' => ?_⟩
  have e1 := r2 (by rw [hN]; simp [dealt]) l hl hl'
  have e2 := dealt_seq hsep hwho ⟨init, init⟩ l (.inl ⟨hl, hl'⟩)
  rw [seqCode_program] at e2
  exact ⟨e1.1.trans e2.1, e1.2.trans e2.2⟩

/-! ### Examples -/

/-- Two stages: systems 1 and 3 run at the same time as system 4 on the main thread; then system 2 uses what 1 has written. -/
def twoStageSched : Schedule := ⟨⟨[], []⟩, [⟨[wr 1 0, wr 3 1], [wr 4 2]⟩, ⟨[rdwr 2], []⟩]⟩

def twoStageExec : ScheduleExec := ⟨⟨[], []⟩, [⟨[[wr 1 0, wr 3 1]], [wr 4 2]⟩, ⟨[[rdwr 2]], []⟩]⟩

def twoStageBodies (s : SysDesc) : Prog Obj Unit :=
  if s.id = 1 then .op (.read (.shape 0)) fun v => .op (.write (.comp 0 0) (v + 5)) fun _ => .ret ()
  else if s.id = 2 then .op (.read (.comp 0 0)) fun v => .op (.write (.comp 1 0) (v + 1)) fun _ => .ret ()
  else if s.id = 3 then .op (.write (.comp 1 0) 6) fun _ => .ret ()
  else .op (.write (.comp 2 0) 7) fun _ => .ret ()

def twoStageFlush : Prog Obj Unit := .op (.read (.shape 0)) fun v => .op (.write (.shape 0) (v + 1)) fun _ => .ret ()

/-- The hypotheses can be met. -/
example : ∃ sch', twoStageSched.createExecutor 2 = .ok (sch', twoStageExec) := ⟨_, rfl⟩

example : ScheduleFromArgs twoStageSched := by
  refine ⟨fun s hs => by simp [twoStageSched] at hs, fun st hst s hs => ?_⟩
  simp only [twoStageSched, List.mem_cons, List.not_mem_nil, or_false] at hst
  rcases hst with rfl | rfl
  · simp only [List.mem_cons, List.not_mem_nil, or_false] at hs
    rcases hs with rfl | rfl
    · exact ⟨[.view [(true, ⟨0, 4, 4, true⟩)]], by simp [SysArg.Valid], rfl⟩
    · exact ⟨[.view [(true, ⟨1, 4, 4, true⟩)]], by simp [SysArg.Valid], rfl⟩
  · simp only [List.mem_cons, List.not_mem_nil, or_false] at hs
    subst hs
    exact ⟨[.view [(false, ⟨0, 4, 4, true⟩), (true, ⟨1, 4, 4, true⟩)]], by simp [SysArg.Valid], rfl⟩

example : ∀ st, st = twoStageSched.init ∨ st ∈ twoStageSched.stages → MainCompatible st ∧ BodiesWithin twoStageBodies st := by
  intro st hst
  simp only [twoStageSched, List.mem_cons, List.not_mem_nil, or_false] at hst
  rcases hst with rfl | rfl | rfl
  · exact ⟨fun m hm => by simp at hm, fun m hm => by simp at hm⟩
  · constructor
    · intro m hm s hs
      simp only [List.mem_cons, List.not_mem_nil, or_false] at hm hs
      subst hm
      rcases hs with rfl | rfl <;> (rintro ⟨c, h⟩; simp [wr, Access.footprint] at h; omega)
    · intro m hm
      simp only [List.cons_append, List.nil_append, List.mem_cons, List.not_mem_nil, or_false] at hm
      rcases hm with rfl | rfl | rfl <;>
        simp [twoStageBodies, wr, Prog.Within, Op.Within, patternFoot, Foot.has, Access.footprint]
  · constructor
    · intro m hm; simp at hm
    · intro m hm
      simp only [List.cons_append, List.nil_append, List.mem_cons, List.not_mem_nil, or_false] at hm
      subst hm
      simp [twoStageBodies, rdwr, Prog.Within, Op.Within, patternFoot, Foot.has, Access.footprint]

example : twoStageFlush.Within (Foot.but .go .dn) := by
  simp [twoStageFlush, Prog.Within, Op.Within, Foot.but, Foot.has]

/-- Two workers; jobs with an odd number go to the second one. -/
def twoStageStart (ordL ordS : Order) (bodies : SysDesc → Prog Obj Unit) : St Obj (Prog Obj Unit) :=
  .init (fun _ => 0) (roundThreads ordL ordS .go .dn 2 2 (dealt (fun _ i => i % 2) (schedPhases bodies twoStageFlush twoStageExec 1)))

/-- The first flush, the first stage with system 3 first, the second stage, the second flush. -/
def twoStageRun : List (Nat × Nat) :=
  [(0, 0), (0, 0), (0, 0), (2, 1), (2, 0), (1, 1), (1, 1), (0, 2), (0, 0), (2, 2), (2, 0), (2, 2), (1, 2), (1, 0), (1, 0), (1, 0), (1, 3), (0, 4),
   (0, 0), (2, 3), (2, 4), (1, 3), (1, 0), (1, 0), (1, 5), (0, 6), (0, 0), (0, 0), (0, 0), (2, 4), (2, 6), (1, 4), (1, 7), (0, 8), (0, 0)]

example (strong : Bool) : ∃ s, Reach (Prog.auto Obj) strong (twoStageStart .acq .rel twoStageBodies) s ∧ s.mem.vals.atom .go = 5 ∧
    s.mem.vals.cell (.comp 0 0) = 6 ∧ s.mem.vals.cell (.comp 1 0) = 7 ∧ s.mem.vals.cell (.comp 2 0) = 7 ∧ s.mem.vals.cell (.shape 0) = 2 := by
  have h : (match (twoStageStart .acq .rel twoStageBodies).run (Prog.auto Obj) strong twoStageRun with
      | .ok s => decide (s.mem.vals.atom .go = 5) && (decide (s.mem.vals.cell (.comp 0 0) = 6) && (decide (s.mem.vals.cell (.comp 1 0) = 7) &&
          (decide (s.mem.vals.cell (.comp 2 0) = 7) && decide (s.mem.vals.cell (.shape 0) = 2))))
      | _ => false) = true := by cases strong <;> decide +kernel
  split at h
  · rename_i s hs
    simp only [Bool.and_eq_true, decide_eq_true_eq] at h
    exact ⟨s, Reach.run .init hs, h.1, h.2.1, h.2.2.1, h.2.2.2.1, h.2.2.2.2⟩
  · cases h

/-- The hypotheses are needed: the same schedule races if the threads do not acquire, or do not release, -/
theorem C87_needs_both (strong : Bool) :
    (∃ sched, (twoStageStart .rlx .rel twoStageBodies).run (Prog.auto Obj) strong sched = .race) ∧
    ∃ sched, (twoStageStart .acq .rlx twoStageBodies).run (Prog.auto Obj) strong sched = .race := by
  constructor <;> (refine ⟨twoStageRun.take 14, isRace_iff.1 ?_⟩; cases strong <;> decide +kernel)

/-- System 3 writes a component that only system 1 has declared. -/
def undeclaredBodies (s : SysDesc) : Prog Obj Unit :=
  if s.id = 3 then .op (.write (.comp 0 0) 6) fun _ => .ret () else twoStageBodies s

/-- and if a system does not keep to what it declares. -/
theorem C87_needs_declared (strong : Bool) : ∃ sched, (twoStageStart .acq .rel undeclaredBodies).run (Prog.auto Obj) strong sched = .race := by
  refine ⟨twoStageRun.take 15, isRace_iff.1 ?_⟩
  cases strong <;> decide +kernel

end CoEcs.Props
