import Verif.Proofs.Nested
import Verif.Props.WaitForever

/-!
# What a thread executes in the middle of a call that waits (C107)
-/

namespace CoEcs.Spec

/-- Task `j` was submitted by the call that began at time `t`, or by a call of a task which was, and so on. -/
inductive Below (s : PoolState) (t : Nat) : Nat → Prop
  | direct {j : Nat} {q : PTask} : s.tasks[j]? = some q → q.caller = t → Below s t j
  | via {j k : Nat} {q qk : PTask} : s.tasks[j]? = some q → s.tasks[k]? = some qk → 0 < qk.time → qk.time = q.caller → Below s t k → Below s t j

end CoEcs.Spec

namespace CoEcs.Props
open CoEcs PoolState Spec

/-- C107, partially: in a fork-join program on any number of workers, what a worker executes above a call that waits was submitted on
another worker, or it was submitted after this call began. -/
theorem C107_after_partial {n : Nat} (hn : 0 < n) {p : Prog} (hp : p.FJ []) {s : PoolState} (h : PoolReach n p s) {i : Nat} {l r : List Frame} {f g : Frame}
    (hst : (s.thr i).stack = l ++ f :: r) (hg : g ∈ r) {j : Nat} (hj : f.task = some j) :
    ∃ q, s.tasks[j]? = some q ∧ (q.by_ ≠ i ∨ (g.time ≤ q.caller ∧ q.caller < f.time)) := by
  have hA := h.all hn hp
  have hf : f ∈ (s.thr i).stack := by simp [hst]
  have hgm : g ∈ (s.thr i).stack := by simp [hst, hg]
  obtain ⟨q, hq, -, -, -, hlt⟩ := hA.P.task i f j hf hj
  refine ⟨q, hq, ?_⟩
  by_cases hb : q.by_ = i
  · right
    have hord := hA.P.ord i
    rw [hst, List.pairwise_append] at hord
    have := (List.pairwise_cons.1 hord.2.1).1 g hg
    exact ⟨(h.nest hn hp).over i f g hf hgm this j q hj hq hb, hlt⟩
  · exact .inl hb

/-- C107, partially: if every function joins what it forks (`parallel_for` and stages in any nesting), what a worker executes on top of a
call that waits was submitted by this very call, or on another worker. -/
theorem C107_joined_partial {n : Nat} (hn : 0 < n) {p : Prog} (hp : p.Joined []) {s : PoolState} (h : PoolReach n p s) (hc : ∀ j, s.children j < 65535)
    {i : Nat} {l r : List Frame} {f g : Frame} (hst : (s.thr i).stack = l ++ f :: g :: r) (hpc : f.pc = .run ∨ ∃ j, f.pc = .push j) :
    ∃ j q, f.task = some j ∧ s.tasks[j]? = some q ∧ (q.by_ = i → q.caller = g.time) := by
  have hfj : p.FJ [] := hp.fj (by simp)
  have hA := h.all hn hfj
  have hf : f ∈ (s.thr i).stack := by simp [hst]
  have hord := hA.P.ord i
  rw [hst, List.pairwise_append] at hord
  obtain ⟨-, hord, hab⟩ := hord
  obtain ⟨hfg, hgr⟩ := List.pairwise_cons.1 hord
  cases hj : f.task with
  | none =>
    have h0 := (hA.P.main i f hf hj).2
    have := hfg g (by simp)
    omega
  | some j =>
    obtain ⟨q, hq, h1⟩ := C107_after_partial hn hfj h hst (g := g) (by simp) hj
    refine ⟨j, q, rfl, hq, fun hb => ?_⟩
    obtain ⟨h2, h3⟩ : g.time ≤ q.caller ∧ q.caller < f.time := by
      rcases h1 with h1 | h1
      · exact absurd hb h1
      · exact h1
    have hown : q.own = true := by
      have := hA.F.flags i f j q hf hj hq
      rcases hpc with e | ⟨m, e⟩ <;> (rw [e] at this; exact this.1)
    obtain ⟨x, hx, hxt⟩ := (h.joined hn hp hc).live j q hq hown
    rw [hb, hst] at hx
    rcases List.mem_append.1 hx with hx | hx
    · have := hab x hx f (by simp)
      omega
    · rcases List.mem_cons.1 hx with rfl | hx
      · omega
      · rcases List.mem_cons.1 hx with rfl | hx
        · exact hxt.symm
        · have := (List.pairwise_cons.1 hgr).1 x hx
          omega

/-- C107 holds without background workers, for programs in which every function joins what it forks. -/
theorem C107_alone_partial {p : Prog} (hp : p.Joined []) {s : PoolState} (h : PoolReach 1 p s) (hc : ∀ j, s.children j < 65535)
    {i : Nat} {l r : List Frame} {f g : Frame} (hst : (s.thr i).stack = l ++ f :: g :: r) (hpc : f.pc = .run ∨ ∃ j, f.pc = .push j) :
    ∃ j, f.task = some j ∧ Below s g.time j := by
  obtain ⟨j, q, hj, hq, hb⟩ := C107_joined_partial (by decide) hp h hc hst hpc
  have hI := (h.inv (by decide)).1
  have h1 := (hI.bnd j q hq).1
  have h2 : i < 1 := by
    rcases Nat.lt_or_ge i 1 with h2 | h2
    · exact h2
    · have := hI.idx i h2; rw [hst] at this; simp at this
  exact ⟨j, hj, .direct hq (hb (by omega))⟩

/-! ### Systems in the middle of systems -/

/-- A stage with two systems, the first of which runs `parallel_for` over two batches. -/
def twoSystems : Prog := .par [.par [.ret, .ret] .ret, .ret] .ret

theorem twoSystems_joined : twoSystems.Joined [] := by simp [twoSystems, Prog.par, Prog.parRest, Prog.Joined]

def twoSystemsSched : List Nat :=
  [0, 0, 1, 1, 1, 1, 1, 1, 1, 1, 2, 2, 2, 2, 2, 2, 1, 1, 1, 1, 1, 1, 0, 0, 1, 1, 1, 1, 1]

/-- Worker 1 executes the second system (task 3) on top of the first one (task 0), which is in its wait. -/
def twoSystemsOne : List Frame := [⟨some 3, .ret, [0], .run, 4⟩, ⟨some 0, .wait 1 .ret, [2, 1], .run, 1⟩]

def twoSystemsB (s : PoolState) : Bool :=
  decide ((s.thr 1).stack = twoSystemsOne) && decide (s.tasks.map (fun q => (q.caller, q.time)) = [(0, 1), (1, 2), (1, 3), (0, 4)])

theorem twoSystems_run : (runFew 3 (PoolState.init twoSystems) twoSystemsSched).any twoSystemsB = true := by decide +kernel

/-- A task that the function which uses the pool has submitted is below no other call. -/
theorem Below.not_main {s : PoolState} {t j : Nat} {q : PTask} (ht : 0 < t) (hq : s.tasks[j]? = some q) (h0 : q.caller = 0) : ¬ Below s t j := by
  intro h
  cases h with
  | direct h1 h2 => rw [hq] at h1; simp only [Option.some.injEq] at h1; subst h1; omega
  | via h1 h2 h3 h4 _ => rw [hq] at h1; simp only [Option.some.injEq] at h1; subst h1; omega

/-- **C107 is violated** in every pool with two or more background workers, by a stage of two systems one of which calls `parallel_for`: a
worker enters the second system in the middle of the first one, while that waits for a batch which another worker executes. -/
theorem C107_violated {n : Nat} (hn : 3 ≤ n) : twoSystems.Joined [] ∧ ∃ s, PoolReach n twoSystems s ∧ ∃ f g, (s.thr 1).stack = [f, g] ∧ f.pc = .run ∧
    f.task = some 3 ∧ g.task = some 0 ∧ g.code = .wait 1 .ret ∧ ¬ Below s g.time 3 := by
  refine ⟨twoSystems_joined, ?_⟩
  have h := twoSystems_run
  rw [Option.any_eq_true] at h
  obtain ⟨s, hs, hb⟩ := h
  obtain ⟨hr, -⟩ := runFew_steps (by decide) hn hs (fresh_init (by decide) _)
  simp only [twoSystemsB, Bool.and_eq_true, decide_eq_true_eq] at hb
  obtain ⟨b1, b2⟩ := hb
  refine ⟨s, hr, _, _, b1, rfl, rfl, rfl, rfl, ?_⟩
  have := congrArg (fun l => l[3]?) b2
  simp only [List.getElem?_map] at this
  cases e : s.tasks[3]? with
  | none => simp [e] at this
  | some q => simp [e] at this; exact Below.not_main (by decide) e this.1

/-! ### One background worker -/

/-- Submits two tasks, the second of which runs `parallel_for` over two batches; waits for the first one, submits a third task, and waits
for it and for the second. -/
def overlap : Prog := .submit none .ret (.submit none (.par [.ret, .ret] .ret) (.wait 1 (.submit none .ret (.wait 0 (.wait 1 .ret)))))

theorem overlap_joined : overlap.Joined [] := by simp [overlap, Prog.par, Prog.parRest, Prog.Joined]

def overlapSched : List Nat :=
  [0, 0, 0, 0, 1, 1, 1, 1, 1, 0, 1, 1, 1, 1, 1, 1, 1, 0, 0, 1, 1, 1, 1, 0, 0, 1, 1, 1, 1, 1, 1, 1, 1, 0, 0, 0, 0, 0, 0, 1, 1]

/-- Worker 1 executes the third task (task 4) on top of the second one (task 1). -/
def overlapOne : List Frame := [⟨some 4, .ret, [1, 0], .run, 5⟩, ⟨some 1, .wait 1 .ret, [3, 2, 0], .run, 2⟩]

def overlapB (s : PoolState) : Bool :=
  decide ((s.thr 1).stack = overlapOne) && decide (s.tasks.map (fun q => (q.caller, q.time)) = [(0, 1), (0, 2), (2, 3), (2, 4), (0, 5)])

theorem overlap_run : (runFew 2 (PoolState.init overlap) overlapSched).any overlapB = true := by decide +kernel

/-- **C107 is violated** in every pool with background workers: while the second task waits for its batches, the function that uses the
pool gets past its wait for the first task and submits a third one, which the worker enters in the middle of the second. -/
theorem C107_one_background_violated {n : Nat} (hn : 2 ≤ n) : overlap.Joined [] ∧ ∃ s, PoolReach n overlap s ∧ ∃ f g, (s.thr 1).stack = [f, g] ∧ f.pc = .run ∧
    f.task = some 4 ∧ g.task = some 1 ∧ g.code = .wait 1 .ret ∧ ¬ Below s g.time 4 := by
  refine ⟨overlap_joined, ?_⟩
  have h := overlap_run
  rw [Option.any_eq_true] at h
  obtain ⟨s, hs, hb⟩ := h
  obtain ⟨hr, -⟩ := runFew_steps (by decide) hn hs (fresh_init (by decide) _)
  simp only [overlapB, Bool.and_eq_true, decide_eq_true_eq] at hb
  obtain ⟨b1, b2⟩ := hb
  refine ⟨s, hr, _, _, b1, rfl, rfl, rfl, rfl, ?_⟩
  have := congrArg (fun l => l[4]?) b2
  simp only [List.getElem?_map] at this
  cases e : s.tasks[4]? with
  | none => simp [e] at this
  | some q => simp [e] at this; exact Below.not_main (by decide) e this.1

/-- What `C107_joined_partial` and `C107_alone_partial` speak about: without background workers, the second batch of the first system
is executed on top of the system, and that on top of the stage. -/
def aloneB (s : PoolState) : Bool := decide ((s.thr 0).stack.map (fun f => (f.task, f.pc, f.time)) = [(some 3, .run, 2), (some 1, .run, 1), (none, .run, 0)])

def nestedStage : Prog := .par [.ret, .par [.ret, .ret] .ret] .ret

theorem nestedStage_joined : nestedStage.Joined [] := by simp [nestedStage, Prog.par, Prog.parRest, Prog.Joined]

theorem nestedStage_run : (runPool 1 (PoolState.init nestedStage) (List.replicate 12 (0, 0, false))).any aloneB = true := by decide +kernel

example : ∃ s, PoolReach 1 nestedStage s ∧ ∃ f g r, (s.thr 0).stack = f :: g :: r ∧ f.pc = .run ∧ f.task = some 3 ∧ g.task = some 1 ∧
    ((∀ j, s.children j < 65535) → Below s g.time 3) := by
  have h := nestedStage_run
  rw [Option.any_eq_true] at h
  obtain ⟨s, hs, hb⟩ := h
  have hr : PoolReach 1 nestedStage s := runPool_steps (.refl _) hs
  simp only [aloneB, decide_eq_true_eq] at hb
  match hst : (s.thr 0).stack with
  | [f, g, x] =>
    rw [hst] at hb
    simp only [List.map_cons, List.map_nil, List.cons.injEq, Prod.mk.injEq] at hb
    refine ⟨s, hr, f, g, [x], hst, hb.1.2.1, hb.1.1, hb.2.1.1, fun hc => ?_⟩
    obtain ⟨j, hj, hB⟩ := C107_alone_partial nestedStage_joined hr hc (l := []) hst (.inl hb.1.2.1)
    rw [hb.1.1] at hj; simp only [Option.some.injEq] at hj
    rw [hj]; exact hB
  | [] | [_] | [_, _] | _ :: _ :: _ :: _ :: _ => rw [hst] at hb; simp at hb

end CoEcs.Props
