import Verif.Props.FirstFit

/-!
# C111: systems that only read
-/

namespace CoEcs.Props
open CoEcs Spec

/-- The parameter gives no write access to components, by the rules of `const` in C++. -/
def ReadOnlyArg : SysArg → Prop
  | .registry => False
  | .constRegistry => True
  | .commandWriter => True
  | .view args => ∀ a ∈ args, a.1 = false

/-- The system has these parameters. -/
def HasArgs (s : SysDesc) (args : List SysArg) : Prop := (∀ a ∈ args, a.Valid) ∧ sysPattern args = .ok s.pattern

/-- A system that only reads components, through views or through a `const registry&`. -/
def ReadOnly (s : SysDesc) : Prop := ∃ args, HasArgs s args ∧ ∀ a ∈ args, ReadOnlyArg a

/-- A system that only reads components, and only through views. -/
def ReadsViews (s : SysDesc) : Prop := ∃ args, HasArgs s args ∧ (∀ a ∈ args, ReadOnlyArg a) ∧ .constRegistry ∉ args

/-- A system with a parameter `const registry&`. -/
def ReadsRegistry (s : SysDesc) : Prop := ∃ args, HasArgs s args ∧ .constRegistry ∈ args

/-- A system with a view. -/
def HasView (s : SysDesc) : Prop := ∃ args v, HasArgs s args ∧ .view v ∈ args

theorem HasArgs.foot {s : SysDesc} {args : List SysArg} (h : HasArgs s args) :
    s.pattern.Ok ∧ s.pattern.reg ≠ .read ∧ (∀ c, s.pattern.footprint.reads c ↔ ∃ a ∈ args, a.reads c) ∧
      ∀ c, s.pattern.footprint.writes c ↔ ∃ a ∈ args, a.writes c := by
  obtain ⟨p, h1, h2, h3, h4, h5⟩ := sysPattern_ok args h.1
  rw [h.2] at h1
  cases h1
  exact ⟨h2, h3, h4, h5⟩

theorem ReadsViews.quiet {s : SysDesc} (h : ReadsViews s) :
    s.pattern.Ok ∧ s.pattern.reg = .none ∧ ∀ c, ¬ s.pattern.footprint.writes c := by
  obtain ⟨args, ha, hro, hnc⟩ := h
  obtain ⟨h1, h2, _, h4⟩ := ha.foot
  have hw : ∀ c, ¬ s.pattern.footprint.writes c := by
    intro c hc
    obtain ⟨a, ham, haw⟩ := (h4 c).1 hc
    have := hro a ham
    cases a with
    | registry => exact this
    | constRegistry => exact hnc ham
    | commandWriter => exact haw
    | view vs =>
      obtain ⟨x, hx, _, ht⟩ := haw
      rw [this x hx] at ht
      cases ht
  refine ⟨h1, ?_, hw⟩
  cases hr : s.pattern.reg with
  | none => rfl
  | read => exact absurd hr h2
  | write => exact absurd (Or.inl hr) (hw 0)

theorem FirstFit.single {α : Type} {refuses : List α → α → Prop} {ss : List α} {bs : List (List α)} (h : FirstFit refuses ss bs)
    (hn : ∀ b s, (∀ x ∈ b, x ∈ ss) → s ∈ ss → ¬ refuses b s) : bs = if ss.isEmpty then [] else [ss] := by
  induction h with
  | nil => rfl
  | @snoc ss s bs bs' _ hp ih =>
    have := ih (fun b t hb ht => hn b t (fun x hx => List.mem_append_left _ (hb x hx)) (List.mem_append_left _ ht))
    subst this
    cases ss with
    | nil =>
      cases hp with
      | new => rfl
    | cons a l =>
      simp only [List.isEmpty_cons, if_false, Bool.false_eq_true] at hp
      cases hp with
      | here _ => simp
      | later hr _ => exact absurd hr (hn _ _ (fun x hx => List.mem_append_left _ hx) (by simp))

theorem submit_all (c : List Instr) : ∀ (ss : List SysDesc) (ts : List (SysDesc × Bool)),
    SchedSteps ⟨ss.map .submit ++ c, ts⟩ [] ⟨c, ts ++ ss.map fun s => (s, false)⟩
  | [], ts => by simpa using SchedSteps.refl _
  | s :: ss, ts => by
    have := SchedSteps.step (.submit s (ss.map .submit ++ c) ts) (submit_all c ss (ts ++ [(s, false)]))
    simpa using this

theorem start_all (c : List Instr) : ∀ (ss : List SysDesc) (ts : List (SysDesc × Bool)),
    SchedSteps ⟨c, ts ++ ss.map fun s => (s, false)⟩ (ss.map fun s => .start s.id) ⟨c, ts ++ ss.map fun s => (s, true)⟩
  | [], ts => by simpa using SchedSteps.refl _
  | s :: ss, ts => by
    have := SchedSteps.step (.start s c ts (ss.map fun s => (s, false)))
      (by simpa using start_all c ss (ts ++ [(s, true)]) : SchedSteps ⟨c, ts ++ (s, true) :: ss.map fun s => (s, false)⟩ _ _)
    simpa using this

theorem SchedSteps.append {s t u : SchedState} {a b : List SchedEvent} (h : SchedSteps s a t) (h' : SchedSteps t b u) :
    SchedSteps s (a ++ b) u := by
  induction h with
  | refl => exact h'
  | step hs _ ih => rw [List.append_assoc]; exact .step hs (ih h')

/-- **C111** (partial; missing: systems with a parameter `const registry&`, see `C111_registry_violated`): systems that read
components through views only, with command writers or not, all end up in one batch, and there is an execution in which all of
them are running at the same time. -/
theorem C111_views_partial (st st' : Stage) (e : StageExec) (fuel : Nat) (hs : ∀ s ∈ st.systems, ReadsViews s)
    (h : st.createExecutor fuel = .ok (st', e)) :
    (e.batches = if st.systems.isEmpty then [] else [st.systems]) ∧
    ∃ tr c, SchedSteps ⟨e.code, []⟩ tr ⟨c, st.systems.map fun s => (s, true)⟩ := by
  have hb : e.batches = if st.systems.isEmpty then [] else [st.systems] := by
    refine FirstFit.single (C35_first_fit st st' e fuel (fun s hm => (hs s hm).quiet.1)
      (fun s hm => by rw [(hs s hm).quiet.2.1]; decide) h) ?_
    rintro b s hbm hsm ⟨k, hk, hc | hw⟩
    · obtain ⟨c, ⟨hw, _⟩ | ⟨hw, _⟩⟩ := hc
      · exact (hs k (hbm k hk)).quiet.2.2 c hw
      · exact (hs s hsm).quiet.2.2 c hw
    · rw [(hs k (hbm k hk)).quiet.2.1] at hw
      cases hw
  refine ⟨hb, ?_⟩
  unfold StageExec.code
  rw [hb]
  cases hss : st.systems with
  | nil => exact ⟨[], [], .refl _⟩
  | cons s ss =>
    have h1 := submit_all (e.main.map .runMain ++ [.wait]) (s :: ss) []
    have h2 := start_all (e.main.map .runMain ++ [.wait]) (s :: ss) []
    exact ⟨_, _, by simpa [execBatch] using SchedSteps.append h1 h2⟩

/-- **C111 is violated** by every system with a parameter `const registry&`, in every schedule and every execution: while it runs,
no other parallel system runs that reads anything: no second system with a `const registry&` and no system with a view, whether
constant or not. -/
theorem C111_registry_violated (sch sch' : Schedule) (e : ScheduleExec) (fuel n : Nat)
    (hf : ScheduleFromArgs sch) (h : sch.createExecutor fuel = .ok (sch', e))
    (tr : List SchedEvent) (s : SchedState) (hs : SchedSteps ⟨e.program n, []⟩ tr s)
    (i j : Nat) (x y : SysDesc) (hi : s.tasks[i]? = some (x, true)) (hj : s.tasks[j]? = some (y, true))
    (hij : i ≠ j) (hx : ReadsRegistry x) : ¬ ReadsRegistry y ∧ ¬ HasView y := by
  have hn := C34_no_conflict_at_the_same_time sch sch' e fuel n hf h tr s hs i j x y hi hj hij
  obtain ⟨args, ha, hm⟩ := hx
  have hw : ∀ c, x.pattern.footprint.writes c := fun c => (ha.foot.2.2.2 c).2 ⟨_, hm, trivial⟩
  refine ⟨fun hy => ?_, fun hy => ?_⟩
  · obtain ⟨args', ha', hm'⟩ := hy
    exact hn ⟨0, .inl ⟨hw 0, (ha'.foot.2.2.1 0).2 ⟨_, hm', trivial⟩⟩⟩
  · obtain ⟨args', v, ha', hm'⟩ := hy
    have hv : v ≠ [] := (ha'.1 _ hm').1
    cases v with
    | nil => exact hv rfl
    | cons a l => exact hn ⟨a.2.id, .inl ⟨hw _, (ha'.foot.2.2.1 _).2 ⟨_, hm', a, by simp, rfl⟩⟩⟩

/-- The same for the batches: every system with a `const registry&` is the last of its batch, so there are at least as many
batches as such systems. -/
theorem C111_last_violated (st st' : Stage) (e : StageExec) (fuel : Nat) (hf : ∀ s ∈ st.systems, FromArgs s)
    (h : st.createExecutor fuel = .ok (st', e)) (pre post : List SysDesc) (x : SysDesc) (hb : pre ++ x :: post ∈ e.batches)
    (hx : ReadsRegistry x) : post = [] := by
  have hw : x.pattern.reg = .write := by
    obtain ⟨args, ha, hm⟩ := hx
    have h1 : x.pattern.footprint.writes (2 ^ 32) := (ha.foot.2.2.2 _).2 ⟨_, hm, trivial⟩
    rcases h1 with h1 | h1
    · exact h1
    · have := ha.foot.1.ids _ h1
      simp only at this
      omega
  have key : ∀ (ss : List SysDesc) (bs : List (List SysDesc)),
      FirstFit (fun b s => ∃ k ∈ b, k.pattern.footprint.Conflict s.pattern.footprint ∨ k.pattern.reg = .write) ss bs →
      ∀ b ∈ bs, ∀ pre post, b = pre ++ x :: post → post = [] := by
    intro ss bs hff
    induction hff with
    | nil => intro b hb; cases hb
    | @snoc ss s bs bs' _ hp ih =>
      clear h hb
      rename_i hff0
      clear hff0
      induction hp with
      | new =>
        intro b hb pre post he
        cases List.mem_singleton.1 hb
        cases pre with
        | nil => cases he; rfl
        | cons p ps => simp at he
      | @here b0 bs0 hr =>
        intro b hb pre post he
        rcases List.mem_cons.1 hb with rfl | hb
        · rcases List.eq_nil_or_concat post with rfl | ⟨q, z, rfl⟩
          · rfl
          · rw [List.concat_eq_append, ← List.cons_append, ← List.append_assoc] at he
            obtain ⟨h1, _⟩ := List.append_inj' he rfl
            exact absurd ⟨x, by rw [h1]; simp, .inr hw⟩ hr
        · exact ih b (List.mem_cons_of_mem _ hb) pre post he
      | @later b0 bs0 bs1 _ _ ih' =>
        intro b hb pre post he
        rcases List.mem_cons.1 hb with rfl | hb
        · exact ih _ (List.mem_cons_self ..) pre post he
        · exact ih' (fun b hb => ih b (List.mem_cons_of_mem _ hb)) b hb pre post he
  exact key _ _ (C35_first_fit st st' e fuel (fun s hm => (fromArgs_ok (hf s hm)).1) (fun s hm => (fromArgs_ok (hf s hm)).2) h)
    _ hb pre post rfl

/-- A system with these parameters. -/
def descOf (id : Nat) (args : List SysArg) : SysDesc :=
  ⟨id, match sysPattern args with
    | .ok p => p
    | _ => Access.empty⟩

theorem hasArgs_descOf (id : Nat) {args : List SysArg} (h : ∀ a ∈ args, a.Valid) : HasArgs (descOf id args) args := by
  obtain ⟨p, h1, _⟩ := sysPattern_ok args h
  refine ⟨h, ?_⟩
  unfold descOf
  rw [h1]

/-- Parameters of systems that only read: a view of component 0; a view of components 0 and 1, and a command writer; a
`const registry&`. -/
def readerArgs : List (List SysArg) :=
  [[.view [(false, ⟨0, 4, 4, true⟩)]], [.view [(false, ⟨0, 4, 4, true⟩), (false, ⟨1, 4, 4, true⟩)], .commandWriter], [.constRegistry]]

theorem readerArgs_valid : ∀ args ∈ readerArgs, ∀ a ∈ args, a.Valid := by
  intro args h a ha
  simp only [readerArgs, List.mem_cons, List.not_mem_nil, or_false] at h
  rcases h with rfl | rfl | rfl <;> simp only [List.mem_cons, List.not_mem_nil, or_false] at ha
  · subst ha; exact ⟨by simp, by simp⟩
  · rcases ha with rfl | rfl
    · exact ⟨by simp, by simp⟩
    · trivial
  · subst ha; trivial

def viewReaders : Stage := ⟨[descOf 1 (readerArgs[0]), descOf 2 (readerArgs[1])], []⟩

def allReaders : Stage := ⟨[descOf 1 (readerArgs[0]), descOf 2 (readerArgs[1]), descOf 3 (readerArgs[2]), descOf 4 (readerArgs[0]), descOf 5 (readerArgs[2])], []⟩

example : (∀ s ∈ viewReaders.systems, ReadsViews s) ∧ ∃ st' e, viewReaders.createExecutor 2 = .ok (st', e) ∧ e.batches.map (·.map SysDesc.id) = [[1, 2]] := by
  refine ⟨?_, _, _, rfl, by decide +kernel⟩
  intro s hs
  simp only [viewReaders, List.mem_cons, List.not_mem_nil, or_false] at hs
  rcases hs with rfl | rfl
  · refine ⟨_, hasArgs_descOf 1 (readerArgs_valid _ (by simp [readerArgs])), ?_, by simp [readerArgs]⟩
    intro a ha
    simp only [readerArgs, List.getElem_cons_zero, List.mem_cons, List.not_mem_nil, or_false] at ha
    subst ha
    simp [ReadOnlyArg]
  · refine ⟨_, hasArgs_descOf 2 (readerArgs_valid _ (by simp [readerArgs])), ?_, by simp [readerArgs]⟩
    intro a ha
    simp only [readerArgs, List.getElem_cons_zero, List.getElem_cons_succ, List.mem_cons, List.not_mem_nil, or_false] at ha
    rcases ha with rfl | rfl <;> simp [ReadOnlyArg]

/-- Five systems that only read take three batches. -/
example : (∀ s ∈ allReaders.systems, FromArgs s) ∧ ReadsRegistry (descOf 3 readerArgs[2]) ∧ ∃ st' e, allReaders.createExecutor 5 = .ok (st', e) ∧
    e.batches.map (·.map SysDesc.id) = [[1, 2, 4], [3], [5]] := by
  refine ⟨?_, ⟨_, hasArgs_descOf 3 (readerArgs_valid _ (by simp [readerArgs])), by simp [readerArgs]⟩, _, _, rfl, by decide +kernel⟩
  intro s hs
  simp only [allReaders, List.mem_cons, List.not_mem_nil, or_false] at hs
  rcases hs with rfl | rfl | rfl | rfl | rfl <;> exact ⟨_, hasArgs_descOf _ (readerArgs_valid _ (by simp [readerArgs]))⟩

/-- **C111 is violated**: a system with a command writer and one with a `const registry&` are put into one batch if
added in this order, and into two in the other order. -/
theorem C111_order_violated : ∃ (x y : SysDesc) (e e' : StageExec), ReadOnly x ∧ ReadOnly y ∧
    Stage.createExecutor 2 ⟨[x, y], []⟩ = .ok (⟨[], []⟩, e) ∧ e.batches.length = 1 ∧
    Stage.createExecutor 2 ⟨[y, x], []⟩ = .ok (⟨[], []⟩, e') ∧ e'.batches.length = 2 := by
  refine ⟨descOf 2 [.commandWriter], descOf 3 [.constRegistry], _, _, ⟨_, hasArgs_descOf _ ?_, ?_⟩, ⟨_, hasArgs_descOf _ ?_, ?_⟩, rfl, rfl, rfl, rfl⟩ <;>
    intro a ha <;> cases List.mem_singleton.1 ha <;> trivial

def writerAndReader : Schedule := ⟨⟨[], []⟩, [⟨[descOf 2 [.commandWriter], descOf 3 [.constRegistry]], []⟩]⟩

/-- Beside a system with a `const registry&` there can be one with a command writer. -/
example : ScheduleFromArgs writerAndReader ∧ ∃ sch' e tr s, writerAndReader.createExecutor 2 = .ok (sch', e) ∧
    SchedSteps ⟨e.program 1, []⟩ tr s ∧ s.tasks = [(descOf 2 [.commandWriter], true), (descOf 3 [.constRegistry], true)] ∧
    ReadsRegistry (descOf 3 [.constRegistry]) := by
  have v2 : ∀ a ∈ [SysArg.commandWriter], a.Valid := by intro a ha; cases List.mem_singleton.1 ha; trivial
  have v3 : ∀ a ∈ [SysArg.constRegistry], a.Valid := by intro a ha; cases List.mem_singleton.1 ha; trivial
  refine ⟨⟨by simp [writerAndReader], ?_⟩, _, _, [.flush, .start 2, .start 3],
    ⟨[.wait, .flush], [(descOf 2 [.commandWriter], true), (descOf 3 [.constRegistry], true)]⟩, rfl, ?_, rfl, ⟨_, hasArgs_descOf 3 v3, by simp⟩⟩
  · intro st hst s hs
    cases List.mem_singleton.1 hst
    simp only [List.mem_cons, List.not_mem_nil, or_false] at hs
    rcases hs with rfl | rfl
    · exact ⟨_, hasArgs_descOf 2 v2⟩
    · exact ⟨_, hasArgs_descOf 3 v3⟩
  · exact .step (.flush _ _) (SchedSteps.append (submit_all [.wait, .flush] [descOf 2 [.commandWriter], descOf 3 [.constRegistry]] [])
      (start_all [.wait, .flush] [descOf 2 [.commandWriter], descOf 3 [.constRegistry]] []))

end CoEcs.Props
