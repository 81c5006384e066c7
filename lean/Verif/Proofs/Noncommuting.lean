import Verif.Proofs.ParallelExec
import Verif.Proofs.FirstFit

/-!
# Executions that differ in the order of a parallel and a main-thread system
-/

namespace CoEcs
open Spec

variable {V : Type}

/-- The system applies `f` to the components in one step. -/
def fnBody (f : Store V → Store V) : Body V Bool := ⟨false, fun x σ => if x then none else some (true, f σ)⟩

theorem fnBody_runsTo (f : Store V → Store V) (σ : Store V) : (fnBody f).RunsTo (fnBody f).init σ (f σ) :=
  .more rfl (.done rfl)

theorem fnBody_respects {f : Store V → Store V} {fp : Footprint} (hfr : ∀ σ c, ¬ fp.writes c → f σ c = σ c)
    (hre : ∀ σ τ : Store V, (∀ c, fp.reads c → σ c = τ c) → ∀ c, fp.writes c → f σ c = f τ c) : (fnBody f).Respects fp := by
  refine ⟨?_, ?_, ?_⟩
  · intro x σ x' σ' h c hc
    cases x with
    | true => cases h
    | false => cases h; exact hfr σ c hc
  · intro x σ τ _ h
    cases x with
    | true => rfl
    | false => cases h
  · intro x σ τ x' σ' ha h
    cases x with
    | true => cases h
    | false => cases h; exact ⟨_, rfl, hre σ τ ha⟩

/-- Everything one after another. -/
def seqFn (F : SysDesc → Store V → Store V) : List Instr → Store V → Store V
  | [], σ => σ
  | .submit s :: c, σ => seqFn F c (F s σ)
  | .runMain m :: c, σ => seqFn F c (F m σ)
  | .endMain _ :: c, σ => seqFn F c σ
  | .wait :: c, σ => seqFn F c σ
  | .flush :: c, σ => seqFn F c σ

theorem seqFn_inj {F : SysDesc → Store V → Store V} (hF : ∀ s σ τ, F s σ = F s τ → σ = τ) :
    ∀ (c : List Instr) (σ τ : Store V), seqFn F c σ = seqFn F c τ → σ = τ := by
  intro c
  induction c with
  | nil => intro σ τ h; exact h
  | cons i c ih =>
    intro σ τ h
    cases i with
    | submit s => exact hF _ _ _ (ih _ _ h)
    | runMain m => exact hF _ _ _ (ih _ _ h)
    | endMain => exact ih _ _ h
    | wait => exact ih _ _ h
    | flush => exact ih _ _ h

/-- Running code one after another while other tasks wait to be run. -/
theorem seq_steps (F : SysDesc → Store V → Store V) : ∀ (c q : List Instr) (ts : List (SysDesc × Option Bool)) (σ : Store V),
    (.wait ∈ c → ∀ t ∈ ts, t.2 = none) →
    ∃ n ts', PSteps (fun s => fnBody (F s)) id n ⟨c ++ q, none, ts, σ⟩ ⟨q, none, ts', seqFn F c σ⟩ ∧
      (.wait ∉ c → ∃ ex, ts' = ts ++ ex ∧ ∀ t ∈ ex, t.2 = none) ∧ ((∀ t ∈ ts, t.2 = none) → ∀ t ∈ ts', t.2 = none) := by
  intro c
  induction c with
  | nil => intro q ts σ _; exact ⟨0, ts, .refl _, fun _ => ⟨[], by simp⟩, id⟩
  | cons i c ih =>
    intro q ts σ hw
    cases i with
    | submit s =>
      obtain ⟨n1, h1⟩ := run_task (bodies := fun s => fnBody (F s)) (fl := id) (fnBody_runsTo (F s) σ) (c ++ q) ts
      have hex : (∀ t ∈ ts, t.2 = none) → ∀ t ∈ ts ++ [(s, (none : Option Bool))], t.2 = none := by
        intro hts t ht
        rcases List.mem_append.1 ht with ht | ht
        · exact hts t ht
        · rw [List.mem_singleton] at ht; subst ht; rfl
      obtain ⟨n2, ts', h2, h3, h4⟩ := ih q (ts ++ [(s, none)]) (F s σ) (fun h => hex (hw (List.mem_cons_of_mem _ h)))
      refine ⟨n1 + n2 + 1, ts', .step (.main rfl) (h1.trans h2), fun hn => ?_, fun hts => h4 (hex hts)⟩
      obtain ⟨ex, he, hx⟩ := h3 (fun h => hn (List.mem_cons_of_mem _ h))
      refine ⟨(s, none) :: ex, by simp [he], fun t ht => ?_⟩
      rcases List.mem_cons.1 ht with rfl | ht
      · rfl
      · exact hx t ht
    | runMain m =>
      obtain ⟨n1, h1⟩ := run_main (bodies := fun s => fnBody (F s)) (fl := id) (fnBody_runsTo (F m) σ) (c ++ q) ts
      obtain ⟨n2, ts', h2, h3, h4⟩ := ih q ts (F m σ) (fun h => hw (List.mem_cons_of_mem _ h))
      exact ⟨n1 + n2 + 1, ts', .step (.main rfl) (h1.trans h2), fun hn => h3 (fun h => hn (List.mem_cons_of_mem _ h)), h4⟩
    | endMain m =>
      obtain ⟨n2, ts', h2, h3, h4⟩ := ih q ts σ (fun h => hw (List.mem_cons_of_mem _ h))
      exact ⟨n2 + 1, ts', .step (.main rfl) h2, fun hn => h3 (fun h => hn (List.mem_cons_of_mem _ h)), h4⟩
    | wait =>
      obtain ⟨n2, ts', h2, h3, h4⟩ := ih q [] σ (fun _ t ht => by cases ht)
      refine ⟨n2 + 1, ts', .step (.main ?_) h2, fun hn => absurd (List.mem_cons_self ..) hn, fun _ => h4 (by simp)⟩
      simp only [List.cons_append, PState.main]
      rw [if_pos]
      rw [List.all_eq_true]
      intro t ht
      rw [hw (List.mem_cons_self ..) t ht]; rfl
    | flush =>
      obtain ⟨n2, ts', h2, h3, h4⟩ := ih q ts σ (fun h => hw (List.mem_cons_of_mem _ h))
      exact ⟨n2 + 1, ts', .step (.main rfl) h2, fun hn => h3 (fun h => hn (List.mem_cons_of_mem _ h)), h4⟩

theorem run_task_at (F : SysDesc → Store V → Store V) (c : List Instr) (l r : List (SysDesc × Option Bool)) (x : SysDesc) (σ : Store V) :
    PSteps (fun s => fnBody (F s)) id 2 ⟨c, none, l ++ (x, some false) :: r, σ⟩ ⟨c, none, l ++ (x, none) :: r, F x σ⟩ := by
  refine .step (t := ⟨c, none, l ++ (x, some true) :: r, F x σ⟩) (.task l.length ?_) (.step (.task l.length ?_) (.refl _))
  · simp [PState.taskAt, taskStep, fnBody]
  · simp [PState.taskAt, taskStep, fnBody]

/-- A system that was submitted and a main-thread system with no `wait` between them may take effect in either order. -/
theorem both_orders (F : SysDesc → Store V → Store V) (a b c : List Instr) (x m : SysDesc) (hb : .wait ∉ b) (σ : Store V) :
    let code := a ++ (.submit x :: (b ++ (.runMain m :: c)))
    let τ := seqFn F b (seqFn F a σ)
    (∃ n t, PSteps (fun s => fnBody (F s)) id n ⟨code, none, [], σ⟩ t ∧ t.Finished ∧ t.store = seqFn F c (F m (F x τ))) ∧
    ∃ n t, PSteps (fun s => fnBody (F s)) id n ⟨code, none, [], σ⟩ t ∧ t.Finished ∧ t.store = seqFn F c (F x (F m τ)) := by
  intro code τ
  obtain ⟨n1, ts, h1, _, h2⟩ := seq_steps F a (.submit x :: (b ++ (.runMain m :: c))) [] σ (fun _ t ht => by cases ht)
  have h2 := h2 (fun t ht => by cases ht)
  obtain ⟨n2, ts2, h3, h4, _⟩ := seq_steps F b (.runMain m :: c) (ts ++ [(x, some false)]) (seqFn F a σ) (fun h => absurd h hb)
  obtain ⟨ex, rfl, h5⟩ := h4 hb
  have h6 : PSteps (fun s => fnBody (F s)) id (n1 + (n2 + 1)) ⟨code, none, [], σ⟩ ⟨.runMain m :: c, none, ts ++ (x, some false) :: ex, τ⟩ := by
    refine h1.trans (.step (.main rfl) ?_)
    rw [List.append_assoc] at h3
    exact h3
  have hall : ∀ t ∈ ts ++ (x, (none : Option Bool)) :: ex, t.2 = none := by
    intro t ht
    rcases List.mem_append.1 ht with ht | ht
    · exact h2 t ht
    · rcases List.mem_cons.1 ht with rfl | ht
      · rfl
      · exact h5 t ht
  have hend : ∀ ρ : Store V, ∃ n t, PSteps (fun s => fnBody (F s)) id n ⟨c, none, ts ++ (x, none) :: ex, ρ⟩ t ∧ t.Finished ∧
      t.store = seqFn F c ρ := by
    intro ρ
    obtain ⟨n, ts', h7, _, h8⟩ := seq_steps F c [] (ts ++ (x, none) :: ex) ρ (fun _ => hall)
    rw [List.append_nil] at h7
    exact ⟨n, _, h7, ⟨rfl, rfl, h8 hall⟩, rfl⟩
  have hmain : ∀ (us : List (SysDesc × Option Bool)) (ρ : Store V), ∃ n, PSteps (fun s => fnBody (F s)) id n ⟨.runMain m :: c, none, us, ρ⟩
      ⟨c, none, us, F m ρ⟩ := by
    intro us ρ
    obtain ⟨n, h⟩ := run_main (bodies := fun s => fnBody (F s)) (fl := id) (fnBody_runsTo (F m) ρ) c us
    exact ⟨n + 1, .step (.main rfl) h⟩
  constructor
  · obtain ⟨k, hk⟩ := hmain (ts ++ (x, none) :: ex) (F x τ)
    obtain ⟨n, t, g1, g2, g3⟩ := hend (F m (F x τ))
    exact ⟨_, t, ((h6.trans (run_task_at F _ ts ex x τ)).trans hk).trans g1, g2, g3⟩
  · obtain ⟨k, hk⟩ := hmain (ts ++ (x, some false) :: ex) τ
    obtain ⟨n, t, g1, g2, g3⟩ := hend (F x (F m τ))
    exact ⟨_, t, ((h6.trans hk).trans (run_task_at F _ ts ex x (F m τ))).trans g1, g2, g3⟩

/-- Where a parallel system and a main-thread system stand in the code of their stage. -/
theorem stage_code_split {e : StageExec} {x m : SysDesc} (hx : x ∈ e.batches.flatten) (hm : m ∈ e.main) :
    ∃ a b c, e.code = a ++ (.submit x :: (b ++ (.runMain m :: c))) ∧ Instr.wait ∉ b := by
  obtain ⟨b, hb, hx⟩ := List.mem_flatten.1 hx
  obtain ⟨pre, post, hbs⟩ := List.append_of_mem hb
  obtain ⟨b1, b2, rfl⟩ := List.append_of_mem hx
  obtain ⟨m1, m2, hms⟩ := List.append_of_mem hm
  refine ⟨pre.flatMap (execBatch e.main) ++ b1.map .submit, b2.map .submit ++ m1.map .runMain,
    m2.map .runMain ++ ([.wait] ++ post.flatMap (execBatch e.main)), ?_, by simp⟩
  unfold StageExec.code
  rw [hbs, List.flatMap_append, List.flatMap_cons]
  conv => lhs; rw [execBatch]
  simp [hms]

/-- Adds component `r` to component `w`, or 1 to component `w`. -/
def addTo (w : Nat) (r : Option Nat) (σ : Store Nat) : Store Nat :=
  fun c => if c = w then σ w + (match r with | some k => σ k | none => 1) else σ c

theorem addTo_inj {w : Nat} {r : Option Nat} {σ τ : Store Nat} (h : addTo w r σ = addTo w r τ) : σ = τ := by
  funext c
  have hc := congrFun h c
  have hw := congrFun h w
  simp only [addTo, if_true] at hc hw
  by_cases he : c = w
  · subst he
    cases r with
    | none => simp at hw; exact hw
    | some k =>
      by_cases hk : k = c
      · subst hk; simp only at hw; omega
      · have hk' := congrFun h k
        simp only [addTo, if_neg hk] at hk'
        simp only at hw
        omega
  · rwa [if_neg he, if_neg he] at hc

theorem addTo_comm_ne (c w : Nat) (τ : Store Nat) : addTo w (some c) (addTo c none τ) ≠ addTo c none (addTo w (some c) τ) := by
  intro h
  have := congrFun h w
  simp only [addTo, if_true] at this
  by_cases he : w = c
  · subst he; simp at this; omega
  · simp [he] at this

theorem addTo_respects {p : Access} {w : Nat} {r : Option Nat} (hw : p.footprint.writes w) (hr : ∀ k, r = some k → p.footprint.reads k) :
    (fnBody (addTo w r)).Respects p.footprint := by
  refine fnBody_respects (fun σ c hc => ?_) (fun σ τ ha c hc => ?_)
  · simp only [addTo]
    rw [if_neg]
    rintro rfl
    exact hc hw
  · simp only [addTo]
    have h1 := ha w (Access.writes_reads hw)
    have h2 := ha c (Access.writes_reads hc)
    cases r with
    | none => simp only [h1, h2]
    | some k => simp only [h1, h2, ha k (hr k rfl)]

end CoEcs
