import Verif.Proofs.ParallelExec

/-!
# Systems that write nothing do not influence the component data

Every execution of a program is also one of the program without the systems that write nothing.
-/

namespace CoEcs
open Spec

variable {V L : Type}

open Classical in
/-- The system declares that it writes something. -/
noncomputable def SysDesc.writer (s : SysDesc) : Bool := decide (∃ c, s.pattern.footprint.writes c)

theorem SysDesc.writer_iff (s : SysDesc) : s.writer = true ↔ ∃ c, s.pattern.footprint.writes c := by
  simp [SysDesc.writer]

/-- The instruction does not run a system that writes nothing. -/
noncomputable def Instr.keep : Instr → Bool
  | .submit s => s.writer
  | .runMain s => s.writer
  | _ => true

/-- A body that does not change the store. -/
def Spec.Body.Quiet (b : Body V L) : Prop := ∀ x σ, (taskStep b x σ).2 = σ

theorem quiet_of_respects {b : Body V L} {s : SysDesc} (h : b.Respects s.pattern.footprint) (hw : s.writer = false) : b.Quiet := by
  intro x σ
  have hn : ∀ c, ¬ s.pattern.footprint.writes c := by
    intro c hc
    have := (s.writer_iff).2 ⟨c, hc⟩
    rw [hw] at this
    cases this
  unfold taskStep
  cases hs : b.step x σ with
  | none => rfl
  | some y => exact funext fun c => h.frame x σ y.1 y.2 hs c (hn c)

/-- The state `u` is `s` without the systems that write nothing. -/
structure Without (bodies : SysDesc → Body V L) (s u : PState V L) : Prop where
  code : u.code = s.code.filter Instr.keep
  cur : u.cur = s.cur.filter fun x => x.1.writer
  tasks : u.tasks = s.tasks.filter fun x => x.1.writer
  store : u.store = s.store
  quietCode : ∀ d, (.submit d ∈ s.code ∨ .runMain d ∈ s.code) → d.writer = false → (bodies d).Quiet
  quietCur : ∀ d x, s.cur = some (d, x) → d.writer = false → (bodies d).Quiet
  quietTasks : ∀ t ∈ s.tasks, t.1.writer = false → (bodies t.1).Quiet

theorem filter_set {α : Type} (p : α → Bool) : ∀ (l : List α) (i : Nat) (x y : α), l[i]? = some x → p y = p x →
    if p x = true then ∃ j, (l.filter p)[j]? = some x ∧ (l.set i y).filter p = (l.filter p).set j y
    else (l.set i y).filter p = l.filter p
  | [], i, x, y, h, _ => by simp at h
  | a :: l, 0, x, y, h, hp => by
    simp only [List.getElem?_cons_zero, Option.some.injEq] at h
    subst h
    split
    · rename_i ha
      exact ⟨0, by simp [ha], by simp [ha, hp]⟩
    · rename_i ha
      simp [ha, hp]
  | a :: l, i + 1, x, y, h, hp => by
    have ih := filter_set p l i x y (by simpa using h) hp
    by_cases hx : p x = true
    · rw [if_pos hx] at ih ⊢
      obtain ⟨j, h1, h2⟩ := ih
      by_cases ha : p a = true
      · exact ⟨j + 1, by simp [ha, h1], by simp [ha, h2]⟩
      · exact ⟨j, by simp [ha, h1], by simp [ha, h2]⟩
    · rw [if_neg hx] at ih ⊢
      by_cases ha : p a = true <;> simp [ha, ih]

/-- A step of the program is a step of the program without those systems, or none. -/
theorem Without.step {bodies : SysDesc → Body V L} {fl : Store V → Store V} {s u t : PState V L} (h : Without bodies s u)
    (hs : PStep bodies fl s t) : ∃ u', (PStep bodies fl u u' ∨ u = u') ∧ Without bodies t u' := by
  cases hs with
  | task i hi =>
    unfold PState.taskAt at hi
    split at hi
    · rename_i d x hd
      cases hi
      have hset := filter_set (fun x : SysDesc × Option L => x.1.writer) s.tasks i (d, some x) (d, (taskStep (bodies d) x s.store).1) hd rfl
      have hq : ∀ t ∈ s.tasks.set i (d, (taskStep (bodies d) x s.store).1), t.1.writer = false → (bodies t.1).Quiet := by
        intro t ht hw
        rcases List.mem_or_eq_of_mem_set ht with ht | rfl
        · exact h.quietTasks t ht hw
        · exact h.quietTasks (d, some x) (List.mem_of_getElem? hd) hw
      by_cases hw : d.writer = true
      · rw [if_pos (by exact hw)] at hset
        obtain ⟨j, h1, h2⟩ := hset
        refine ⟨{ u with tasks := u.tasks.set j (d, (taskStep (bodies d) x u.store).1), store := (taskStep (bodies d) x u.store).2 },
          .inl (.task j ?_), ⟨h.code, h.cur, ?_, by simp only [h.store], h.quietCode, h.quietCur, hq⟩⟩
        · unfold PState.taskAt
          rw [h.tasks, h1]
        · simp only [h.tasks, h.store, h2]
      · rw [if_neg (by exact hw)] at hset
        have hqd : (bodies d).Quiet := h.quietTasks _ (List.mem_of_getElem? hd) (by simpa using hw)
        refine ⟨u, .inr rfl, ⟨h.code, h.cur, ?_, ?_, h.quietCode, h.quietCur, hq⟩⟩
        · simp only [h.tasks, hset]
        · simp only [hqd x s.store, h.store]
    · cases hi
  | main hm =>
    unfold PState.main at hm
    cases hcur : s.cur with
    | some mx =>
      obtain ⟨m, x⟩ := mx
      rw [hcur] at hm
      cases hm
      have hqc : ∀ d y, (taskStep (bodies m) x s.store).1.map (Prod.mk m) = some (d, y) → d.writer = false → (bodies d).Quiet := by
        intro d y hy hw
        rw [Option.map_eq_some_iff] at hy
        obtain ⟨_, _, hy⟩ := hy
        cases hy
        exact h.quietCur _ x hcur hw
      by_cases hw : m.writer = true
      · have huc : u.cur = some (m, x) := by rw [h.cur, hcur]; simp [hw]
        refine ⟨{ u with cur := (taskStep (bodies m) x u.store).1.map (Prod.mk m), store := (taskStep (bodies m) x u.store).2 },
          .inl (.main ?_), ⟨h.code, ?_, h.tasks, by simp only [h.store], h.quietCode, hqc, h.quietTasks⟩⟩
        · simp only [PState.main, huc]
        · simp only [h.store]
          cases (taskStep (bodies m) x s.store).1 <;> simp [Option.filter, hw]
      · have hqd : (bodies m).Quiet := h.quietCur m x hcur (by simpa using hw)
        have huc : u.cur = none := by rw [h.cur, hcur]; simp [hw]
        refine ⟨u, .inr rfl, ⟨h.code, ?_, h.tasks, ?_, h.quietCode, hqc, h.quietTasks⟩⟩
        · rw [huc]
          cases (taskStep (bodies m) x s.store).1 <;> simp [Option.filter, hw]
        · simp only [hqd x s.store, h.store]
    | none =>
      rw [hcur] at hm
      have huc : u.cur = none := by rw [h.cur, hcur]; rfl
      have hnone : ∀ (d : SysDesc) (x : L), (none : Option (SysDesc × L)) = some (d, x) → d.writer = false → (bodies d).Quiet :=
        fun d x hx => by cases hx
      cases hcode : s.code with
      | nil => rw [hcode] at hm; cases hm
      | cons ins c =>
        rw [hcode] at hm
        have hqc : ∀ d, (.submit d ∈ c ∨ .runMain d ∈ c) → d.writer = false → (bodies d).Quiet := fun d hd =>
          h.quietCode d (by rw [hcode]; exact hd.imp (List.mem_cons_of_mem _) (List.mem_cons_of_mem _))
        have hcd := h.code
        rw [hcode] at hcd
        cases ins with
        | submit d =>
          cases hm
          have hqt : ∀ t ∈ s.tasks ++ [(d, some (bodies d).init)], t.1.writer = false → (bodies t.1).Quiet := by
            intro t ht hw
            rcases List.mem_append.1 ht with ht | ht
            · exact h.quietTasks t ht hw
            · rw [List.mem_singleton] at ht
              subst ht
              exact h.quietCode d (.inl (by rw [hcode]; exact List.mem_cons_self)) hw
          by_cases hw : d.writer = true
          · have hk : (Instr.submit d).keep = true := hw
            rw [List.filter_cons_of_pos hk] at hcd
            refine ⟨{ u with code := c.filter Instr.keep, tasks := u.tasks ++ [(d, some (bodies d).init)] }, .inl (.main ?_),
              ⟨rfl, ?_, ?_, h.store, hqc, ?_, hqt⟩⟩
            · simp only [PState.main, huc, hcd]
            · exact huc
            · simp [h.tasks, hw]
            · exact hnone
          · have hk : ¬ (Instr.submit d).keep = true := hw
            rw [List.filter_cons_of_neg hk] at hcd
            refine ⟨u, .inr rfl, ⟨hcd, huc, ?_, h.store, hqc, ?_, hqt⟩⟩
            · simp [h.tasks, hw]
            · exact hnone
        | runMain d =>
          cases hm
          have hqd : d.writer = false → (bodies d).Quiet := h.quietCode d (.inr (by rw [hcode]; exact List.mem_cons_self))
          have hq' : ∀ (e : SysDesc) (x : L), some (d, (bodies d).init) = some (e, x) → e.writer = false → (bodies e).Quiet := by
            intro e x hx; cases hx; exact hqd
          by_cases hw : d.writer = true
          · have hk : (Instr.runMain d).keep = true := hw
            rw [List.filter_cons_of_pos hk] at hcd
            refine ⟨{ u with code := c.filter Instr.keep, cur := some (d, (bodies d).init) }, .inl (.main ?_),
              ⟨rfl, ?_, h.tasks, h.store, hqc, hq', h.quietTasks⟩⟩
            · simp only [PState.main, huc, hcd]
            · simp [Option.filter, hw]
          · have hk : ¬ (Instr.runMain d).keep = true := hw
            rw [List.filter_cons_of_neg hk] at hcd
            refine ⟨u, .inr rfl, ⟨hcd, ?_, h.tasks, h.store, hqc, hq', h.quietTasks⟩⟩
            simp [Option.filter, huc, hw]
        | endMain d =>
          cases hm
          rw [List.filter_cons_of_pos (show (Instr.endMain d).keep = true from rfl)] at hcd
          refine ⟨{ u with code := c.filter Instr.keep }, .inl (.main ?_), ⟨rfl, huc, h.tasks, h.store, hqc, ?_, h.quietTasks⟩⟩
          · simp only [PState.main, huc, hcd]
          · exact hnone
        | wait =>
          simp only at hm
          split at hm
          · rename_i hall
            cases hm
            rw [List.filter_cons_of_pos (show Instr.wait.keep = true from rfl)] at hcd
            refine ⟨{ u with code := c.filter Instr.keep, tasks := [] }, .inl (.main ?_),
              ⟨rfl, huc, rfl, h.store, hqc, ?_, by intro t ht; cases ht⟩⟩
            · have : u.tasks.all (·.2.isNone) = true := by
                rw [h.tasks, List.all_eq_true]
                intro t ht
                exact List.all_eq_true.1 hall t (List.mem_filter.1 ht).1
              simp only [PState.main, huc, hcd, this, if_true]
            · exact hnone
          · cases hm
        | flush =>
          cases hm
          rw [List.filter_cons_of_pos (show Instr.flush.keep = true from rfl)] at hcd
          refine ⟨{ u with code := c.filter Instr.keep, store := fl u.store }, .inl (.main ?_),
            ⟨rfl, huc, h.tasks, by simp only [h.store], hqc, ?_, h.quietTasks⟩⟩
          · simp only [PState.main, huc, hcd]
          · exact hnone

theorem Without.steps {bodies : SysDesc → Body V L} {fl : Store V → Store V} {n : Nat} {s t : PState V L} (hs : PSteps bodies fl n s t) :
    ∀ {u : PState V L}, Without bodies s u → ∃ k u', PSteps bodies fl k u u' ∧ Without bodies t u' := by
  induction hs with
  | refl s => exact fun {u} h => ⟨0, u, .refl _, h⟩
  | step h1 _ ih =>
    intro u h
    obtain ⟨u1, h2, h3⟩ := h.step h1
    obtain ⟨k, u2, h4, h5⟩ := ih h3
    rcases h2 with h2 | rfl
    · exact ⟨k + 1, u2, .step h2 h4, h5⟩
    · exact ⟨k, u2, h4, h5⟩

theorem Without.finished {bodies : SysDesc → Body V L} {s u : PState V L} (h : Without bodies s u) (hf : s.Finished) : u.Finished := by
  obtain ⟨h1, h2, h3⟩ := hf
  refine ⟨by rw [h.code, h1]; rfl, by rw [h.cur, h2]; rfl, fun t ht => ?_⟩
  rw [h.tasks] at ht
  exact h3 t (List.mem_filter.1 ht).1

/-- All executions that end, end with the same data, if the program without the systems that write nothing has no conflicts. -/
theorem same_end {bodies : SysDesc → Body V L} {fl : Store V → Store V} {code : List Instr} {σ : Store V}
    (hok : DetOk bodies [] (code.filter Instr.keep))
    (hq : ∀ d, (.submit d ∈ code ∨ .runMain d ∈ code) → d.writer = false → (bodies d).Quiet)
    {j k : Nat} {s t : PState V L} (hs : PSteps bodies fl j ⟨code, none, [], σ⟩ s) (hsf : s.Finished)
    (ht : PSteps bodies fl k ⟨code, none, [], σ⟩ t) (htf : t.Finished) :
    s.store = t.store ∧ SeqExec bodies fl (code.filter Instr.keep) σ s.store := by
  have h0 : Without bodies (⟨code, none, [], σ⟩ : PState V L) ⟨code.filter Instr.keep, none, [], σ⟩ :=
    ⟨rfl, rfl, rfl, rfl, hq, (fun _ _ hx => by cases hx), (fun _ ht => by cases ht)⟩
  obtain ⟨_, s', h1, h2⟩ := Without.steps hs h0
  obtain ⟨_, t', h3, h4⟩ := Without.steps ht h0
  have h5 := det_conv hok h1 (h2.finished hsf)
  obtain ⟨N, h6⟩ := det_all hok h5
  have h7 := (h6 _ _ h3).2.2 (h4.finished htf)
  rw [← h2.store, ← h4.store]
  exact ⟨h7.symm, h5⟩

/-! ## The code of executors -/

theorem keep_submits (b : List SysDesc) : (b.map Instr.submit).filter Instr.keep = (b.filter SysDesc.writer).map .submit := by
  rw [List.filter_map]
  rfl

theorem keep_mains (m : List SysDesc) : (m.map Instr.runMain).filter Instr.keep = (m.filter SysDesc.writer).map .runMain := by
  rw [List.filter_map]
  rfl

theorem keep_batches {bodies : SysDesc → Body V L} (main : List SysDesc)
    (hmr : ∀ s ∈ main, (bodies s).Respects s.pattern.footprint) : ∀ (bs : List (List SysDesc)) (c : List Instr),
    (∀ b ∈ bs, b ≠ [] ∧ b.Pairwise (fun x y => ¬ SysDesc.Conflict x y) ∧ (∀ s ∈ b, (bodies s).Respects s.pattern.footprint) ∧
      ∀ m ∈ main, ∀ a ∈ b, SysDesc.Conflict a m → a.writer = false ∨ m.writer = false) →
    DetOk bodies [] (c.filter Instr.keep) → DetOk bodies [] ((bs.flatMap (execBatch main) ++ c).filter Instr.keep) := by
  intro bs
  induction bs with
  | nil => intro c _ h; exact h
  | cons b bs ih =>
    intro c hb hc
    obtain ⟨h1, h2, h4, h5⟩ := hb b (List.mem_cons_self ..)
    have h3 := ih c (fun x hx => hb x (List.mem_cons_of_mem _ hx)) hc
    rw [List.flatMap_cons]
    unfold execBatch
    rw [List.append_assoc, List.append_assoc, List.append_assoc, List.filter_append, List.filter_append, List.filter_append,
      keep_submits, keep_mains]
    refine detOk_submits _ _ _ (fun s hs => h4 s (List.mem_filter.1 hs).1)
      (detOk_mains _ _ _ (fun s hs => hmr s (List.mem_filter.1 hs).1) ?_ ?_)
    · intro m hm a ha hc
      rw [List.nil_append] at ha
      obtain ⟨m1, m2⟩ := List.mem_filter.1 hm
      obtain ⟨a1, a2⟩ := List.mem_filter.1 ha
      rcases h5 m m1 a a1 hc with h | h
      · rw [h] at a2; cases a2
      · rw [h] at m2; cases m2
    · cases b with
      | nil => exact absurd rfl h1
      | cons x b => exact ⟨by rw [List.nil_append]; exact h2.filter _, h3⟩

end CoEcs
