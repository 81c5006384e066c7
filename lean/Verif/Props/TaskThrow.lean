import Verif.Props.ThreadPool

/-!
# When the exception of a task terminates the program (C71)
-/

namespace CoEcs.Props
open CoEcs

/-- The function throws, after submitting any number of tasks. -/
inductive Throws : Prog → Prop
  | throw : Throws .throw
  | submit (c : Prog) {k : Prog} : Throws k → Throws (.submit none c k)

private theorem steps_trans {n : Nat} {s t u : PoolState} (h1 : PoolSteps n s t) (h2 : PoolSteps n t u) : PoolSteps n s u := by
  induction h2 with
  | refl => exact h1
  | step i r a _ h ih => exact .step i r a ih h

private theorem one {n : Nat} {s t : PoolState} (i r : Nat) (a : Bool) (h : s.step n i r a = some t) : PoolSteps n s t :=
  .step i r a (.refl _) h

/-- A call of such a function by a background worker. -/
private theorem throws_dead {n i : Nat} (hi : 0 < i) (hn : i < n) {p : Prog} (hp : Throws p) :
    ∀ (s : PoolState) (f : Frame) (fs : List Frame), s.dead = false → (s.thr i).stack = f :: fs → f.pc = .run → f.code = p →
      ∃ s', PoolSteps n s s' ∧ s'.dead = true := by
  induction hp with
  | throw =>
    intro s f fs hd hs hpc hc
    refine ⟨{ s with dead := true }, one i 0 false ?_, rfl⟩
    simp only [PoolState.step, hd, hs, PoolState.stepFrame, hpc, hc]
    simp [show ¬ n ≤ i by omega, show i ≠ 0 by omega]
  | submit c _ ih =>
    intro s f fs hd hs hpc hc
    rename_i k _
    -- allocation
    let s1 : PoolState := ({ s with tasks := s.tasks ++ [{ parent := none, counter := 1, code := c, env := f.env, by_ := i, caller := f.time, par := false }] } : PoolState).setTop i
          { f with code := k, env := s.tasks.length :: f.env, pc := .push s.tasks.length } fs
    have h1 : s.step n i 0 false = some s1 := by
      simp only [PoolState.step, hd, hs, PoolState.stepFrame, hpc, hc]
      simp [show ¬ n ≤ i by omega, s1, hd]
    have hs1 : (s1.thr i).stack = { f with code := k, env := s.tasks.length :: f.env, pc := .push s.tasks.length } :: fs := by
      simp [s1, PoolState.setTop, PoolState.setThr, upd]
    -- push
    let f2 : Frame := { f with code := k, env := s.tasks.length :: f.env, pc := .run }
    let s2 : PoolState := ({ s1 with queue := upd s1.queue i ((s1.queue i).push s.tasks.length), sem := s1.sem + 1 }.setTop i f2 fs).modTask s.tasks.length
      (PTask.setSt .queued)
    have h2 : s1.step n i 0 false = some s2 := by
      have hd1 : s1.dead = false := hd
      simp only [PoolState.step, hd1, hs1, PoolState.stepFrame]
      simp [show ¬ n ≤ i by omega, s2, f2, hd1]
    have hs2 : (s2.thr i).stack = f2 :: fs := by
      simp [s2, PoolState.modTask, PoolState.setTop, PoolState.setThr, upd]
    obtain ⟨s', h3, h4⟩ := ih s2 f2 fs hd hs2 rfl rfl
    exact ⟨s', steps_trans (steps_trans (one i 0 false h1) (one i 0 false h2)) h3, h4⟩

/-- **C71 is violated** in every pool with background workers, whatever the program has done so far: if the oldest task in the queue
of the owning thread throws and a background worker is about to look for a task, there is an execution in which that worker takes
the task and the program is terminated. -/
theorem C71_idle_violated {n i : Nat} (hi : 0 < i) (hn : i < n) {s : PoolState} (hd : s.dead = false)
    (ht : s.thr i = ⟨[], none, .loop⟩) (hq : (s.queue i).items = []) {j : Nat} {js : List Nat} (h0 : (s.queue 0).items = j :: js)
    {q : PTask} (hj : s.tasks[j]? = some q) (hc : Throws q.code) : ∃ s', PoolSteps n s s' ∧ s'.dead = true := by
  have hni : ¬ n ≤ i := by omega
  have hi0 : i ≠ 0 := by omega
  let s1 := s.setThr i ⟨[], some .pop, .loop⟩
  have t1 : s1.thr i = ⟨[], some .pop, .loop⟩ := by simp [s1, PoolState.setThr, upd]
  have h1 : s.step n i 0 false = some s1 := by
    simp only [PoolState.step, hd, ht, PoolState.stepLoop]
    simp [hni, hi0, s1]
  let s2 := s1.setThr i ⟨[], some .main, .loop⟩
  have t2 : s2.thr i = ⟨[], some .main, .loop⟩ := by simp [s2, PoolState.setThr, upd]
  have h2 : s1.step n i 0 false = some s2 := by
    have hp : (s1.queue i).pop = none := by
      have : (s1.queue i).items = [] := hq
      simp [TQueue.pop, this]
    simp only [PoolState.step, show s1.dead = false from hd, t1, PoolState.stepLoop, PoolState.getStep, hp]
    simp [hni, hi0, s2]
  let s3 := s2.setThr i ⟨[], some (.mainTake (s.queue 0).top), .loop⟩
  have t3 : s3.thr i = ⟨[], some (.mainTake (s.queue 0).top), .loop⟩ := by simp [s3, PoolState.setThr, upd]
  have h3 : s2.step n i 0 false = some s3 := by
    simp only [PoolState.step, show s2.dead = false from hd, t2, PoolState.stepLoop, PoolState.getStep]
    simp [hni, hi0, s3, s2, s1, PoolState.setThr]
  let f : Frame := ⟨some j, q.code, q.env, .run, s.clock + 1⟩
  let s4 := (({ s3 with queue := upd s3.queue 0 ⟨(s.queue 0).top + 1, js⟩, clock := s.clock + 1 } : PoolState).setThr i
      ⟨[f], none, .loop⟩).modTask j (PTask.begin_ i (s.clock + 1))
  have h4 : s3.step n i 0 false = some s4 := by
    have hk : (s3.queue 0).take (s.queue 0).top = some (j, ⟨(s.queue 0).top + 1, js⟩) := by
      have e1 : s3.queue 0 = s.queue 0 := rfl
      rw [e1]
      simp [TQueue.take, h0]
    have hj3 : s3.tasks[j]? = some q := hj
    have hcl : s3.clock = s.clock := rfl
    simp only [PoolState.step, show s3.dead = false from hd, t3, PoolState.stepLoop, PoolState.getStep, hk, PoolState.startTask, hj3, hcl]
    simp [hni, hi0, s4, f, show s3.dead = false from hd]
  have t4 : (s4.thr i).stack = f :: [] := by simp [s4, PoolState.modTask, PoolState.setThr, upd]
  obtain ⟨s', h5, h6⟩ := throws_dead hi hn hc s4 f [] hd t4 rfl rfl
  exact ⟨s', steps_trans (steps_trans (steps_trans (one i 0 false h1) (one i 0 false h2)) (steps_trans (one i 0 false h3) (one i 0 false h4))) h5, h6⟩

/-- **C71 is violated** by every program that begins by submitting a task that throws, in every pool with background workers,
whatever it does afterwards. -/
theorem C71_first_violated {n : Nat} (hn : 2 ≤ n) {c : Prog} (hc : Throws c) (k : Prog) :
    ∃ s, PoolReach n (.submit none c k) s ∧ s.dead = true := by
  let s0 := PoolState.init (.submit none c k)
  let q : PTask := { parent := none, counter := 1, code := c, env := [], by_ := 0, caller := 0, par := false }
  let s1 : PoolState := ({ s0 with tasks := [q] } : PoolState).setTop 0 ⟨none, k, [0], .push 0, 0⟩ []
  have h1 : s0.step n 0 0 false = some s1 := by
    simp only [PoolState.step, s0, PoolState.init, PoolState.stepFrame]
    simp [show ¬ n = 0 by omega, s1, s0, q, PoolState.init]
  let s2 : PoolState := ({ s1 with queue := upd s1.queue 0 ((s1.queue 0).push 0), sem := s1.sem + 1 }.setTop 0 ⟨none, k, [0], .run, 0⟩ []).modTask 0
      (PTask.setSt .queued)
  have t1 : s1.thr 0 = ⟨[⟨none, k, [0], .push 0, 0⟩], none, .loop⟩ := by simp [s1, s0, PoolState.setTop, PoolState.setThr, upd, PoolState.init]
  have h2 : s1.step n 0 0 false = some s2 := by
    simp only [PoolState.step, show s1.dead = false from rfl, t1, PoolState.stepFrame]
    simp [show ¬ n = 0 by omega, s2, show s1.dead = false from rfl]
  obtain ⟨s, h3, h4⟩ := C71_idle_violated (n := n) (i := 1) (by omega) (by omega) (s := s2) rfl
    (by simp [s2, s1, s0, PoolState.modTask, PoolState.setTop, PoolState.setThr, upd, PoolState.init])
    (by simp [s2, s1, s0, PoolState.modTask, PoolState.setTop, PoolState.setThr, upd, PoolState.init])
    (j := 0) (js := []) (by simp [s2, s1, s0, PoolState.modTask, PoolState.setTop, PoolState.setThr, upd, PoolState.init, TQueue.push])
    (q := q.setSt .queued) (by simp [s2, s1, s0, PoolState.modTask, PoolState.setTop, PoolState.setThr, PoolState.init, q]) hc
  exact ⟨s, steps_trans (steps_trans (one 0 0 false h1) (one 0 0 false h2)) h3, h4⟩

/-- A function that submits a task and throws; the program waits for it. -/
example : Throws (.submit none .ret .throw) ∧ ∃ s, PoolReach 4 (.submit none (.submit none .ret .throw) (.wait 0 .ret)) s ∧ s.dead = true :=
  ⟨.submit _ .throw, C71_first_violated (by decide) (.submit _ .throw) _⟩

end CoEcs.Props
