import Verif.Model.ParallelExec
import Verif.Proofs.Schedule

/-!
# Confluence of parallel execution
-/

namespace CoEcs
open Spec

variable {V L : Type}

theorem Access.writes_reads {a : Access} {c : Nat} (h : a.footprint.writes c) : a.footprint.reads c := by
  rcases h with h | h
  · left; rw [h]; decide
  · right; exact ⟨_, h⟩

/-! ## Steps of independent bodies commute -/

theorem taskStep_frame {b : Body V L} {fp : Footprint} (hb : b.Respects fp) (x : L) (σ : Store V) (c : Nat)
    (hc : ¬ fp.writes c) : (taskStep b x σ).2 c = σ c := by
  unfold taskStep
  cases h : b.step x σ with
  | none => rfl
  | some r => exact hb.frame x σ r.1 r.2 h c hc

theorem taskStep_local {b : Body V L} {fp : Footprint} (hb : b.Respects fp) (hwr : ∀ c, fp.writes c → fp.reads c)
    (x : L) {σ τ : Store V} (h : ∀ c, fp.reads c → σ c = τ c) :
    (taskStep b x σ).1 = (taskStep b x τ).1 ∧ ∀ c, fp.writes c → (taskStep b x σ).2 c = (taskStep b x τ).2 c := by
  unfold taskStep
  cases h1 : b.step x σ with
  | none =>
    rw [hb.done x σ τ h h1]
    exact ⟨rfl, fun c hc => h c (hwr c hc)⟩
  | some r =>
    obtain ⟨τ', h2, h3⟩ := hb.result x σ τ r.1 r.2 h h1
    rw [h2]
    exact ⟨rfl, h3⟩

theorem taskStep_comm {b1 b2 : Body V L} {f1 f2 : Footprint} (h1 : b1.Respects f1) (h2 : b2.Respects f2)
    (w1 : ∀ c, f1.writes c → f1.reads c) (w2 : ∀ c, f2.writes c → f2.reads c) (hc : ¬ f1.Conflict f2)
    (x1 x2 : L) (σ : Store V) :
    (taskStep b2 x2 (taskStep b1 x1 σ).2).1 = (taskStep b2 x2 σ).1 ∧
    (taskStep b1 x1 (taskStep b2 x2 σ).2).1 = (taskStep b1 x1 σ).1 ∧
    (taskStep b2 x2 (taskStep b1 x1 σ).2).2 = (taskStep b1 x1 (taskStep b2 x2 σ).2).2 := by
  have n12 : ∀ c, f2.reads c → ¬ f1.writes c := fun c h h' => hc ⟨c, Or.inl ⟨h', h⟩⟩
  have n21 : ∀ c, f1.reads c → ¬ f2.writes c := fun c h h' => hc ⟨c, Or.inr ⟨h', h⟩⟩
  have a1 : ∀ c, f2.reads c → (taskStep b1 x1 σ).2 c = σ c := fun c h => taskStep_frame h1 x1 σ c (n12 c h)
  have a2 : ∀ c, f1.reads c → (taskStep b2 x2 σ).2 c = σ c := fun c h => taskStep_frame h2 x2 σ c (n21 c h)
  obtain ⟨l2, l2'⟩ := taskStep_local h2 w2 x2 a1
  obtain ⟨l1, l1'⟩ := taskStep_local h1 w1 x1 a2
  refine ⟨l2, l1, funext fun c => ?_⟩
  by_cases c1 : f1.writes c
  · have c2 : ¬ f2.writes c := n21 c (w1 c c1)
    rw [taskStep_frame h2 _ _ c c2, l1' c c1]
  · rw [taskStep_frame h1 _ _ c c1]
    by_cases c2 : f2.writes c
    · rw [l2' c c2]
    · rw [taskStep_frame h2 _ _ c c2, taskStep_frame h1 _ _ c c1, taskStep_frame h2 _ _ c c2]

/-! ## The invariant -/

/-- What has been submitted since the last `wait` is free of conflicts, main-thread systems do not conflict with
it, flushes happen when nothing is pending, and all bodies respect the declared patterns. -/
def DetOk (bodies : SysDesc → Body V L) : List SysDesc → List Instr → Prop
  | acc, [] => acc.Pairwise (fun x y => ¬ SysDesc.Conflict x y)
  | acc, .submit s :: c => (bodies s).Respects s.pattern.footprint ∧ DetOk bodies (acc ++ [s]) c
  | acc, .wait :: c => acc.Pairwise (fun x y => ¬ SysDesc.Conflict x y) ∧ DetOk bodies [] c
  | acc, .runMain m :: c => (bodies m).Respects m.pattern.footprint ∧ (∀ a ∈ acc, ¬ SysDesc.Conflict a m) ∧
      DetOk bodies acc c
  | acc, .endMain _ :: c => DetOk bodies acc c
  | acc, .flush :: c => acc = [] ∧ DetOk bodies acc c

theorem DetOk.pairwise {bodies : SysDesc → Body V L} : ∀ {code : List Instr} {a : List SysDesc}, DetOk bodies a code →
    a.Pairwise (fun x y => ¬ SysDesc.Conflict x y) := by
  intro code
  induction code with
  | nil => intro a h; exact h
  | cons i code ih =>
    intro a h
    cases i with
    | submit s => exact (ih (a := a ++ [s]) h.2).sublist (List.sublist_append_left _ _)
    | wait => exact h.1
    | runMain => exact ih (a := a) h.2.2
    | endMain => exact ih (a := a) h
    | flush => exact ih (a := a) h.2

structure PInv (bodies : SysDesc → Body V L) (s : PState V L) : Prop where
  ok : DetOk bodies (s.tasks.map (·.1)) s.code
  resp : ∀ t ∈ s.tasks, (bodies t.1).Respects t.1.pattern.footprint
  cur : ∀ m x, s.cur = some (m, x) → (bodies m).Respects m.pattern.footprint ∧
    ∀ t ∈ s.tasks, ¬ SysDesc.Conflict t.1 m

theorem map_fst_set {α β : Type} (l : List (α × β)) (i : Nat) (a : α) (y z : β) (h : l[i]? = some (a, y)) :
    (l.set i (a, z)).map (·.1) = l.map (·.1) := by
  rw [List.map_set]
  obtain ⟨hi, he⟩ := List.getElem?_eq_some_iff.1 h
  have : (l.map (·.1))[i]'(by simpa using hi) = a := by simp [he]
  show (l.map (·.1)).set i a = _
  rw [← this]
  exact List.set_getElem_self _

theorem PInv.step {bodies : SysDesc → Body V L} {fl : Store V → Store V} {s t : PState V L} (hs : PInv bodies s)
    (h : PStep bodies fl s t) : PInv bodies t := by
  cases h with
  | task i h =>
    unfold PState.taskAt at h
    split at h
    · rename_i d x hi
      cases h
      have hm := map_fst_set s.tasks i d (some x) (taskStep (bodies d) x s.store).1 hi
      have hmem : ∀ t ∈ s.tasks.set i (d, (taskStep (bodies d) x s.store).1), ∃ t' ∈ s.tasks, t'.1 = t.1 := by
        intro t ht
        have : t.1 ∈ s.tasks.map (·.1) := by rw [← hm]; exact List.mem_map_of_mem ht
        exact List.mem_map.1 this
      refine ⟨by simpa only [hm] using hs.ok, ?_, ?_⟩
      · intro t ht
        obtain ⟨t', h1, h2⟩ := hmem t ht
        rw [← h2]; exact hs.resp t' h1
      · intro m y hc
        obtain ⟨h1, h2⟩ := hs.cur m y hc
        refine ⟨h1, fun t ht => ?_⟩
        obtain ⟨t', h3, h4⟩ := hmem t ht
        rw [← h4]; exact h2 t' h3
    · cases h
  | main h =>
    unfold PState.main at h
    obtain ⟨hok, hresp, hcur⟩ := hs
    split at h
    · rename_i m x hc
      cases h
      refine ⟨hok, hresp, ?_⟩
      intro m' y hy
      simp only [Option.map_eq_some_iff] at hy
      obtain ⟨z, _, hz⟩ := hy
      cases hz
      exact hcur m x hc
    · rename_i hc
      split at h
      · cases h
      · rename_i d c hcode
        cases h
        rw [hcode] at hok
        refine ⟨by simpa using hok.2, ?_, by intro m x h; rw [hc] at h; cases h⟩
        intro t ht
        rcases List.mem_append.1 ht with ht | ht
        · exact hresp t ht
        · rw [List.mem_singleton] at ht; subst ht; exact hok.1
      · rename_i m c hcode
        cases h
        rw [hcode] at hok
        refine ⟨hok.2.2, hresp, ?_⟩
        intro m' x h
        cases h
        exact ⟨hok.1, fun t ht => hok.2.1 t.1 (List.mem_map_of_mem ht)⟩
      · rename_i c hcode
        cases h
        rw [hcode] at hok
        exact ⟨hok, hresp, hcur⟩
      · rename_i c hcode
        split at h
        · cases h
          rw [hcode] at hok
          exact ⟨hok.2, fun t ht => (by cases ht), fun m x h => (by rw [hc] at h; cases h)⟩
        · cases h
      · rename_i c hcode
        cases h
        rw [hcode] at hok
        exact ⟨hok.2, hresp, hcur⟩

/-! ## The diamond -/

theorem conflict_of_ne {bodies : SysDesc → Body V L} {s : PState V L} (hs : PInv bodies s) {i j : Nat}
    {a b : SysDesc × Option L} (hi : s.tasks[i]? = some a) (hj : s.tasks[j]? = some b) (hij : i ≠ j) :
    ¬ SysDesc.Conflict a.1 b.1 := by
  have hp := hs.ok.pairwise
  rw [List.pairwise_map, List.pairwise_iff_getElem] at hp
  obtain ⟨hi', ei⟩ := List.getElem?_eq_some_iff.1 hi
  obtain ⟨hj', ej⟩ := List.getElem?_eq_some_iff.1 hj
  rcases Nat.lt_or_gt_of_ne hij with hlt | hlt
  · have := hp i j hi' hj' hlt
    rwa [ei, ej] at this
  · have := hp j i hj' hi' hlt
    rw [ei, ej] at this
    exact fun hc => this hc.symm

theorem diamond_tasks {bodies : SysDesc → Body V L} {fl : Store V → Store V} {s t u : PState V L} (hs : PInv bodies s)
    {i j : Nat} (hij : i ≠ j) (h1 : s.taskAt bodies i = some t) (h2 : s.taskAt bodies j = some u) :
    ∃ v, PStep bodies fl t v ∧ PStep bodies fl u v := by
  unfold PState.taskAt at h1 h2
  split at h1
  · rename_i d x hi
    split at h2
    · rename_i e y hj
      cases h1; cases h2
      have hd := hs.resp _ (List.mem_of_getElem? hi)
      have he := hs.resp _ (List.mem_of_getElem? hj)
      obtain ⟨c1, c2, c3⟩ := taskStep_comm hd he (fun _ => Access.writes_reads) (fun _ => Access.writes_reads)
        (conflict_of_ne hs hi hj hij) x y s.store
      simp only at c1 c2 c3
      refine ⟨⟨s.code, s.cur, (s.tasks.set i (d, (taskStep (bodies d) x s.store).1)).set j
          (e, (taskStep (bodies e) y s.store).1), (taskStep (bodies e) y (taskStep (bodies d) x s.store).2).2⟩, .task j ?_, .task i ?_⟩
      · simp only [PState.taskAt, List.getElem?_set_ne hij, hj, c1]
      · simp only [PState.taskAt, List.getElem?_set_ne (Ne.symm hij), hi, c2]
        rw [← c3, List.set_comm _ _ hij]
    · cases h2
  · cases h1

theorem diamond_main {bodies : SysDesc → Body V L} {fl : Store V → Store V} {s t u : PState V L} (hs : PInv bodies s)
    {i : Nat} (h1 : s.main bodies fl = some t) (h2 : s.taskAt bodies i = some u) :
    ∃ v, PStep bodies fl t v ∧ PStep bodies fl u v := by
  unfold PState.taskAt at h2
  split at h2
  · rename_i d x hi
    cases h2
    have hd := hs.resp _ (List.mem_of_getElem? hi)
    have hlt := (List.getElem?_eq_some_iff.1 hi).1
    cases hc : s.cur with
    | some m =>
      obtain ⟨m, y⟩ := m
      simp only [PState.main, hc, Option.some.injEq] at h1
      subst h1
      obtain ⟨hm, hmc⟩ := hs.cur m y hc
      obtain ⟨c1, c2, c3⟩ := taskStep_comm hd hm (fun _ => Access.writes_reads) (fun _ => Access.writes_reads)
        (hmc _ (List.mem_of_getElem? hi)) x y s.store
      simp only at c1 c2 c3
      refine ⟨⟨s.code, (taskStep (bodies m) y s.store).1.map (Prod.mk m),
        s.tasks.set i (d, (taskStep (bodies d) x s.store).1),
        (taskStep (bodies m) y (taskStep (bodies d) x s.store).2).2⟩, .task i ?_, .main ?_⟩
      · simp only [PState.taskAt, hi, c2, c3]
      · simp only [PState.main, hc, c1]
    | none =>
      simp only [PState.main, hc] at h1
      cases hcode : s.code with
      | nil => rw [hcode] at h1; cases h1
      | cons ins c =>
        rw [hcode] at h1
        cases ins with
        | submit e =>
          simp only [Option.some.injEq] at h1
          subst h1
          refine ⟨⟨c, none, s.tasks.set i (d, (taskStep (bodies d) x s.store).1) ++ [(e, some (bodies e).init)],
            (taskStep (bodies d) x s.store).2⟩, .task i ?_, .main ?_⟩
          · simp only [PState.taskAt, List.getElem?_append_left hlt, hi, List.set_append_left _ _ hlt, hc]
          · simp only [PState.main, hc, hcode]
        | runMain m =>
          simp only [Option.some.injEq] at h1
          subst h1
          refine ⟨⟨c, some (m, (bodies m).init), s.tasks.set i (d, (taskStep (bodies d) x s.store).1),
            (taskStep (bodies d) x s.store).2⟩, .task i ?_, .main ?_⟩
          · simp only [PState.taskAt, hi, hc]
          · simp only [PState.main, hc, hcode]
        | endMain m =>
          simp only [Option.some.injEq] at h1
          subst h1
          refine ⟨⟨c, none, s.tasks.set i (d, (taskStep (bodies d) x s.store).1),
            (taskStep (bodies d) x s.store).2⟩, .task i ?_, .main ?_⟩
          · simp only [PState.taskAt, hi, hc]
          · simp only [PState.main, hc, hcode]
        | wait =>
          simp only at h1
          split at h1
          · rename_i hall
            have := List.all_eq_true.1 hall _ (List.mem_of_getElem? hi)
            simp at this
          · cases h1
        | flush =>
          have hok := hs.ok
          rw [hcode] at hok
          have hnil : s.tasks = [] := by simpa using hok.1
          rw [hnil] at hi
          simp at hi
  · cases h2

theorem diamond {bodies : SysDesc → Body V L} {fl : Store V → Store V} {s t u : PState V L} (hs : PInv bodies s)
    (h1 : PStep bodies fl s t) (h2 : PStep bodies fl s u) :
    t = u ∨ ∃ v, PStep bodies fl t v ∧ PStep bodies fl u v := by
  cases h1 with
  | main h1 =>
    cases h2 with
    | main h2 => left; rw [h1] at h2; exact Option.some.inj h2
    | task j h2 => right; exact diamond_main hs h1 h2
  | task i h1 =>
    cases h2 with
    | main h2 =>
      right
      obtain ⟨v, a, b⟩ := diamond_main hs h2 h1
      exact ⟨v, b, a⟩
    | task j h2 =>
      by_cases hij : i = j
      · subst hij; left; rw [h1] at h2; exact Option.some.inj h2
      · right; exact diamond_tasks hs hij h1 h2

theorem PSteps.inv {bodies : SysDesc → Body V L} {fl : Store V → Store V} {n : Nat} {s t : PState V L}
    (h : PSteps bodies fl n s t) (hs : PInv bodies s) : PInv bodies t := by
  induction h with
  | refl => exact hs
  | step hst _ ih => exact ih (hs.step hst)

theorem finished_stuck {bodies : SysDesc → Body V L} {fl : Store V → Store V} {s t : PState V L} (hs : s.Finished)
    (h : PStep bodies fl s t) : False := by
  obtain ⟨h1, h2, h3⟩ := hs
  cases h with
  | main h => simp [PState.main, h1, h2] at h
  | task i h =>
    unfold PState.taskAt at h
    split at h
    · rename_i d x hi
      have := h3 _ (List.mem_of_getElem? hi)
      cases this
    · cases h

/-- With a run of length `n` to the end, every first step leads to a run of length `n - 1` to the same end. -/
theorem strip {bodies : SysDesc → Body V L} {fl : Store V → Store V} : ∀ (n : Nat) (s t a : PState V L),
    PInv bodies s → PSteps bodies fl n s t → t.Finished → PStep bodies fl s a →
    ∃ m, n = m + 1 ∧ PSteps bodies fl m a t := by
  intro n
  induction n with
  | zero => intro s t a _ h hf ha; cases h; exact (finished_stuck hf ha).elim
  | succ n ih =>
    intro s t a hs h hf ha
    cases h with
    | step hst hr =>
      rename_i b
      rcases diamond hs hst ha with rfl | ⟨v, hv1, hv2⟩
      · exact ⟨n, rfl, hr⟩
      · obtain ⟨m, rfl, hm⟩ := ih b t v (hs.step hst) hr hf hv1
        exact ⟨m + 1, rfl, .step hv2 hm⟩

theorem confluence {bodies : SysDesc → Body V L} {fl : Store V → Store V} {k : Nat} {s u : PState V L}
    (h : PSteps bodies fl k s u) : ∀ {n : Nat} {t : PState V L}, PInv bodies s → PSteps bodies fl n s t → t.Finished →
    k ≤ n ∧ PSteps bodies fl (n - k) u t := by
  induction h with
  | refl => intro n t _ h _; exact ⟨Nat.zero_le _, h⟩
  | step hst _ ih =>
    intro n t hs h hf
    obtain ⟨m, rfl, hm⟩ := strip n _ _ _ hs h hf hst
    obtain ⟨h1, h2⟩ := ih (hs.step hst) hm hf
    exact ⟨by omega, by rwa [Nat.add_sub_add_right]⟩

theorem finished_refl {bodies : SysDesc → Body V L} {fl : Store V → Store V} {n : Nat} {s t : PState V L}
    (hs : s.Finished) (h : PSteps bodies fl n s t) : s = t := by
  cases h with
  | refl => rfl
  | step hst _ => exact (finished_stuck hs hst).elim

/-! ## The one-after-another run is one of the executions -/

theorem PSteps.trans {bodies : SysDesc → Body V L} {fl : Store V → Store V} {m n : Nat} {s t u : PState V L}
    (h1 : PSteps bodies fl m s t) (h2 : PSteps bodies fl n t u) : PSteps bodies fl (m + n) s u := by
  induction h1 with
  | refl => rw [Nat.zero_add]; exact h2
  | step hst _ ih => rw [Nat.add_right_comm]; exact .step hst (ih h2)

/-- The code executed by one thread: a submitted system runs at once. -/
inductive SeqExec (bodies : SysDesc → Body V L) (fl : Store V → Store V) : List Instr → Store V → Store V → Prop
  | nil {σ} : SeqExec bodies fl [] σ σ
  | submit {s c σ τ ρ} : (bodies s).RunsTo (bodies s).init σ τ → SeqExec bodies fl c τ ρ →
      SeqExec bodies fl (.submit s :: c) σ ρ
  | runMain {m c σ τ ρ} : (bodies m).RunsTo (bodies m).init σ τ → SeqExec bodies fl c τ ρ →
      SeqExec bodies fl (.runMain m :: c) σ ρ
  | endMain {m c σ ρ} : SeqExec bodies fl c σ ρ → SeqExec bodies fl (.endMain m :: c) σ ρ
  | wait {c σ ρ} : SeqExec bodies fl c σ ρ → SeqExec bodies fl (.wait :: c) σ ρ
  | flush {c σ ρ} : SeqExec bodies fl c (fl σ) ρ → SeqExec bodies fl (.flush :: c) σ ρ

theorem run_task {bodies : SysDesc → Body V L} {fl : Store V → Store V} {d : SysDesc} {x : L} {σ τ : Store V}
    (h : (bodies d).RunsTo x σ τ) : ∀ (c : List Instr) (ts : List (SysDesc × Option L)),
    ∃ n, PSteps bodies fl n ⟨c, none, ts ++ [(d, some x)], σ⟩ ⟨c, none, ts ++ [(d, none)], τ⟩ := by
  induction h with
  | done hd =>
    intro c ts
    refine ⟨1, .step (.task ts.length ?_) (.refl _)⟩
    simp [PState.taskAt, taskStep, hd]
  | more hm _ ih =>
    intro c ts
    obtain ⟨n, hn⟩ := ih c ts
    refine ⟨n + 1, .step (.task ts.length ?_) hn⟩
    simp [PState.taskAt, taskStep, hm]

theorem run_main {bodies : SysDesc → Body V L} {fl : Store V → Store V} {d : SysDesc} {x : L} {σ τ : Store V}
    (h : (bodies d).RunsTo x σ τ) : ∀ (c : List Instr) (ts : List (SysDesc × Option L)),
    ∃ n, PSteps bodies fl n ⟨c, some (d, x), ts, σ⟩ ⟨c, none, ts, τ⟩ := by
  induction h with
  | done hd =>
    intro c ts
    refine ⟨1, .step (.main ?_) (.refl _)⟩
    simp [PState.main, taskStep, hd]
  | more hm _ ih =>
    intro c ts
    obtain ⟨n, hn⟩ := ih c ts
    refine ⟨n + 1, .step (.main ?_) hn⟩
    simp [PState.main, taskStep, hm]

theorem seqExec_steps {bodies : SysDesc → Body V L} {fl : Store V → Store V} {code : List Instr} {σ ρ : Store V}
    (h : SeqExec bodies fl code σ ρ) : ∀ (ts : List (SysDesc × Option L)), (∀ t ∈ ts, t.2 = none) →
    ∃ n ts', PSteps bodies fl n ⟨code, none, ts, σ⟩ ⟨[], none, ts', ρ⟩ ∧ ∀ t ∈ ts', t.2 = none := by
  induction h with
  | nil => intro ts hts; exact ⟨0, ts, .refl _, hts⟩
  | @submit s c σ τ ρ hr _ ih =>
    intro ts hts
    obtain ⟨n1, h1⟩ := run_task (bodies := bodies) (fl := fl) hr c ts
    obtain ⟨n2, ts', h2, h3⟩ := ih (ts ++ [(s, none)]) (by
      intro t ht
      rcases List.mem_append.1 ht with ht | ht
      · exact hts t ht
      · rw [List.mem_singleton] at ht; subst ht; rfl)
    exact ⟨n1 + n2 + 1, ts', .step (.main rfl) (h1.trans h2), h3⟩
  | @runMain m c σ τ ρ hr _ ih =>
    intro ts hts
    obtain ⟨n1, h1⟩ := run_main (bodies := bodies) (fl := fl) hr c ts
    obtain ⟨n2, ts', h2, h3⟩ := ih ts hts
    exact ⟨n1 + n2 + 1, ts', .step (.main rfl) (h1.trans h2), h3⟩
  | endMain _ ih =>
    intro ts hts
    obtain ⟨n2, ts', h2, h3⟩ := ih ts hts
    exact ⟨n2 + 1, ts', .step (.main rfl) h2, h3⟩
  | wait _ ih =>
    intro ts hts
    obtain ⟨n2, ts', h2, h3⟩ := ih [] (by simp)
    refine ⟨n2 + 1, ts', .step (.main ?_) h2, h3⟩
    simp only [PState.main]
    rw [if_pos]
    rw [List.all_eq_true]
    intro t ht
    rw [hts t ht]; rfl
  | flush _ ih =>
    intro ts hts
    obtain ⟨n2, ts', h2, h3⟩ := ih ts hts
    exact ⟨n2 + 1, ts', .step (.main rfl) h2, h3⟩

/-! ## Conversely, if some execution finishes, so does the one-after-another run -/

theorem run_task_conv {bodies : SysDesc → Body V L} {fl : Store V → Store V} {d : SysDesc} {t : PState V L}
    (ht : t.Finished) : ∀ (N : Nat) (x : L) (σ : Store V) (c : List Instr) (ts : List (SysDesc × Option L)),
    PInv bodies ⟨c, none, ts ++ [(d, some x)], σ⟩ → PSteps bodies fl N ⟨c, none, ts ++ [(d, some x)], σ⟩ t →
    ∃ τ m, (bodies d).RunsTo x σ τ ∧ PInv bodies ⟨c, none, ts ++ [(d, none)], τ⟩ ∧
      PSteps bodies fl m ⟨c, none, ts ++ [(d, none)], τ⟩ t := by
  intro N
  induction N with
  | zero =>
    intro x σ c ts _ h
    cases h
    have := ht.2.2 (d, some x) (by simp)
    cases this
  | succ N ih =>
    intro x σ c ts hi h
    cases hb : (bodies d).step x σ with
    | none =>
      have hst : PStep bodies fl ⟨c, none, ts ++ [(d, some x)], σ⟩ ⟨c, none, ts ++ [(d, none)], σ⟩ :=
        .task ts.length (by simp [PState.taskAt, taskStep, hb])
      obtain ⟨m, _, hm⟩ := strip _ _ _ _ hi h ht hst
      exact ⟨σ, m, .done hb, hi.step hst, hm⟩
    | some r =>
      have hst : PStep bodies fl ⟨c, none, ts ++ [(d, some x)], σ⟩ ⟨c, none, ts ++ [(d, some r.1)], r.2⟩ :=
        .task ts.length (by simp [PState.taskAt, taskStep, hb])
      obtain ⟨m, hm', hm⟩ := strip _ _ _ _ hi h ht hst
      have : m = N := by omega
      subst this
      obtain ⟨τ, k, h1, h2, h3⟩ := ih r.1 r.2 c ts (hi.step hst) hm
      exact ⟨τ, k, .more hb h1, h2, h3⟩

theorem run_main_conv {bodies : SysDesc → Body V L} {fl : Store V → Store V} {d : SysDesc} {t : PState V L}
    (ht : t.Finished) : ∀ (N : Nat) (x : L) (σ : Store V) (c : List Instr) (ts : List (SysDesc × Option L)),
    PInv bodies ⟨c, some (d, x), ts, σ⟩ → PSteps bodies fl N ⟨c, some (d, x), ts, σ⟩ t →
    ∃ τ m, (bodies d).RunsTo x σ τ ∧ PInv bodies ⟨c, none, ts, τ⟩ ∧ PSteps bodies fl m ⟨c, none, ts, τ⟩ t := by
  intro N
  induction N with
  | zero =>
    intro x σ c ts _ h
    cases h
    have := ht.2.1
    cases this
  | succ N ih =>
    intro x σ c ts hi h
    cases hb : (bodies d).step x σ with
    | none =>
      have hst : PStep bodies fl ⟨c, some (d, x), ts, σ⟩ ⟨c, none, ts, σ⟩ :=
        .main (by simp [PState.main, taskStep, hb])
      obtain ⟨m, _, hm⟩ := strip _ _ _ _ hi h ht hst
      exact ⟨σ, m, .done hb, hi.step hst, hm⟩
    | some r =>
      have hst : PStep bodies fl ⟨c, some (d, x), ts, σ⟩ ⟨c, some (d, r.1), ts, r.2⟩ :=
        .main (by simp [PState.main, taskStep, hb])
      obtain ⟨m, hm', hm⟩ := strip _ _ _ _ hi h ht hst
      have : m = N := by omega
      subst this
      obtain ⟨τ, k, h1, h2, h3⟩ := ih r.1 r.2 c ts (hi.step hst) hm
      exact ⟨τ, k, .more hb h1, h2, h3⟩

theorem seqExec_conv {bodies : SysDesc → Body V L} {fl : Store V → Store V} {t : PState V L} (ht : t.Finished) :
    ∀ (code : List Instr) (N : Nat) (σ : Store V) (ts : List (SysDesc × Option L)), (∀ x ∈ ts, x.2 = none) →
    PInv bodies ⟨code, none, ts, σ⟩ → PSteps bodies fl N ⟨code, none, ts, σ⟩ t → SeqExec bodies fl code σ t.store := by
  intro code
  induction code with
  | nil =>
    intro N σ ts hts _ h
    have hf : (⟨[], none, ts, σ⟩ : PState V L).Finished := ⟨rfl, rfl, hts⟩
    rw [← finished_refl hf h]
    exact .nil
  | cons i c ih =>
    intro N σ ts hts hi h
    cases i with
    | submit s =>
      have hst : PStep bodies fl ⟨.submit s :: c, none, ts, σ⟩ ⟨c, none, ts ++ [(s, some (bodies s).init)], σ⟩ := .main rfl
      obtain ⟨m, _, hm⟩ := strip _ _ _ _ hi h ht hst
      obtain ⟨τ, k, h1, h2, h3⟩ := run_task_conv ht _ _ _ _ _ (hi.step hst) hm
      refine .submit h1 (ih k τ _ ?_ h2 h3)
      intro x hx
      rcases List.mem_append.1 hx with hx | hx
      · exact hts x hx
      · rw [List.mem_singleton] at hx; subst hx; rfl
    | runMain s =>
      have hst : PStep bodies fl ⟨.runMain s :: c, none, ts, σ⟩ ⟨c, some (s, (bodies s).init), ts, σ⟩ := .main rfl
      obtain ⟨m, _, hm⟩ := strip _ _ _ _ hi h ht hst
      obtain ⟨τ, k, h1, h2, h3⟩ := run_main_conv ht _ _ _ _ _ (hi.step hst) hm
      exact .runMain h1 (ih k τ _ hts h2 h3)
    | endMain s =>
      have hst : PStep bodies fl ⟨.endMain s :: c, none, ts, σ⟩ ⟨c, none, ts, σ⟩ := .main rfl
      obtain ⟨m, _, hm⟩ := strip _ _ _ _ hi h ht hst
      exact .endMain (ih m σ _ hts (hi.step hst) hm)
    | wait =>
      have hst : PStep bodies fl ⟨.wait :: c, none, ts, σ⟩ ⟨c, none, [], σ⟩ := by
        refine .main ?_
        simp only [PState.main]
        rw [if_pos]
        rw [List.all_eq_true]
        intro x hx
        rw [hts x hx]; rfl
      obtain ⟨m, _, hm⟩ := strip _ _ _ _ hi h ht hst
      exact .wait (ih m σ _ (by simp) (hi.step hst) hm)
    | flush =>
      have hst : PStep bodies fl ⟨.flush :: c, none, ts, σ⟩ ⟨c, none, ts, fl σ⟩ := .main rfl
      obtain ⟨m, _, hm⟩ := strip _ _ _ _ hi h ht hst
      exact .flush (ih m _ _ hts (hi.step hst) hm)

/-- Every finished execution has the effect of the one-after-another run. -/
theorem det_conv {bodies : SysDesc → Body V L} {fl : Store V → Store V} {code : List Instr} {σ : Store V}
    (hok : DetOk bodies [] code) {n : Nat} {t : PState V L} (h : PSteps bodies fl n ⟨code, none, [], σ⟩ t)
    (ht : t.Finished) : SeqExec bodies fl code σ t.store :=
  seqExec_conv ht code n σ [] (by simp) ⟨hok, fun t ht => (by cases ht), fun m x h => (by cases h)⟩ h

/-- Everything about executions of code that satisfies the condition and terminates when run by one thread. -/
theorem det_all {bodies : SysDesc → Body V L} {fl : Store V → Store V} {code : List Instr} {σ ρ : Store V}
    (hok : DetOk bodies [] code) (h : SeqExec bodies fl code σ ρ) :
    ∃ N, ∀ n u, PSteps bodies fl n ⟨code, none, [], σ⟩ u →
      n ≤ N ∧ (∃ t, PSteps bodies fl (N - n) u t ∧ t.Finished ∧ t.store = ρ) ∧ (u.Finished → u.store = ρ) := by
  obtain ⟨N, ts', h1, h2⟩ := seqExec_steps h [] (by simp)
  refine ⟨N, fun n u hu => ?_⟩
  have hinv : PInv bodies (⟨code, none, [], σ⟩ : PState V L) := ⟨hok, fun t ht => (by cases ht), fun m x h => by cases h⟩
  have hf : (⟨[], none, ts', ρ⟩ : PState V L).Finished := ⟨rfl, rfl, h2⟩
  obtain ⟨h3, h4⟩ := confluence hu hinv h1 hf
  refine ⟨h3, ⟨_, h4, hf, rfl⟩, fun huf => ?_⟩
  rw [finished_refl huf h4]

/-- The one-after-another run of a batch. -/
theorem seqExec_batch {bodies : SysDesc → Body V L} {fl : Store V → Store V} : ∀ (b : List SysDesc) (c : List Instr)
    (_ : ∀ σ ρ, SeqExec bodies fl c σ ρ ↔ σ = ρ) (σ ρ : Store V),
    SeqExec bodies fl (b.map .submit ++ c) σ ρ ↔ SeqRun (b.map bodies) σ ρ := by
  intro b c hc
  induction b with
  | nil =>
    intro σ ρ
    rw [List.map_nil, List.nil_append, hc, List.map_nil]
    exact ⟨fun h => h ▸ .nil, fun h => by cases h; rfl⟩
  | cons s b ih =>
    intro σ ρ
    rw [List.map_cons, List.cons_append, List.map_cons]
    constructor
    · intro h
      cases h with
      | submit h1 h2 => exact .cons h1 ((ih _ _).1 h2)
    · intro h
      cases h with
      | cons h1 h2 => exact .submit h1 ((ih _ _).2 h2)

theorem seqExec_wait {bodies : SysDesc → Body V L} {fl : Store V → Store V} (σ ρ : Store V) :
    SeqExec bodies fl [.wait] σ ρ ↔ σ = ρ := by
  constructor
  · intro h
    cases h with
    | wait h => cases h; rfl
  · rintro rfl
    exact .wait .nil

/-! ## The condition holds for the code of executors -/

theorem detOk_submits {bodies : SysDesc → Body V L} : ∀ (b acc : List SysDesc) (c : List Instr),
    (∀ s ∈ b, (bodies s).Respects s.pattern.footprint) → DetOk bodies (acc ++ b) c →
    DetOk bodies acc (b.map .submit ++ c) := by
  intro b
  induction b with
  | nil => intro acc c _ h; simpa using h
  | cons x b ih =>
    intro acc c hb h
    exact ⟨hb x (List.mem_cons_self ..), ih (acc ++ [x]) c (fun s hs => hb s (List.mem_cons_of_mem _ hs)) (by simpa using h)⟩

theorem detOk_mains {bodies : SysDesc → Body V L} : ∀ (m acc : List SysDesc) (c : List Instr),
    (∀ s ∈ m, (bodies s).Respects s.pattern.footprint) → (∀ s ∈ m, ∀ a ∈ acc, ¬ SysDesc.Conflict a s) →
    DetOk bodies acc c → DetOk bodies acc (m.map .runMain ++ c) := by
  intro m
  induction m with
  | nil => intro acc c _ _ h; simpa using h
  | cons x m ih =>
    intro acc c hb hc h
    exact ⟨hb x (List.mem_cons_self ..), hc x (List.mem_cons_self ..),
      ih acc c (fun s hs => hb s (List.mem_cons_of_mem _ hs)) (fun s hs => hc s (List.mem_cons_of_mem _ hs)) h⟩

theorem detOk_batches {bodies : SysDesc → Body V L} (main : List SysDesc)
    (hmr : ∀ s ∈ main, (bodies s).Respects s.pattern.footprint) : ∀ (bs : List (List SysDesc)) (c : List Instr),
    (∀ b ∈ bs, b ≠ [] ∧ b.Pairwise (fun x y => ¬ SysDesc.Conflict x y) ∧
      (∀ s ∈ b, (bodies s).Respects s.pattern.footprint) ∧ ∀ m ∈ main, ∀ a ∈ b, ¬ SysDesc.Conflict a m) →
    DetOk bodies [] c → DetOk bodies [] (bs.flatMap (execBatch main) ++ c) := by
  intro bs
  induction bs with
  | nil => intro c _ h; exact h
  | cons b bs ih =>
    intro c hb hc
    obtain ⟨h1, h2, h4, h5⟩ := hb b (List.mem_cons_self ..)
    have h3 := ih c (fun x hx => hb x (List.mem_cons_of_mem _ hx)) hc
    rw [List.flatMap_cons]
    unfold execBatch
    rw [List.append_assoc, List.append_assoc, List.append_assoc]
    refine detOk_submits _ _ _ h4 (detOk_mains _ _ _ hmr (by simpa using h5) ?_)
    cases b with
    | nil => exact absurd rfl h1
    | cons x b => exact ⟨h2, h3⟩

theorem detOk_append_flush {bodies : SysDesc → Body V L} {c : List Instr} (h : DetOk bodies [] c) :
    DetOk bodies [] (.flush :: c) := ⟨rfl, h⟩

end CoEcs
