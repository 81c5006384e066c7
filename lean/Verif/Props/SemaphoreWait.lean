import Verif.Props.ThreadPool

/-!
# When waiting releases the semaphore without bound (C70)

Every round of `wait` that finds nothing to do releases the semaphore (thread_pool.hpp:91), and nobody has to take
from it.
-/

namespace CoEcs.Props
open CoEcs PoolState

/-- Thread `i` is in `wait` for a task that is not completed, about to look for another one, and there is none where it
may look: not in its own queue, and not in the queue of the owning thread (a background worker may then draw itself as the
worker to steal from) or, for the owning thread, in the queue of some background worker if there is one. -/
structure InVain (n : Nat) (s : PoolState) (i : Nat) : Prop where
  lt : i < n
  dead : s.dead = false
  waits : ∃ f fs m v k j q, s.thr i = ⟨f :: fs, none, m⟩ ∧ f.pc = .run ∧ f.code = .wait v k ∧ f.env[v]? = some j ∧
    s.tasks[j]? = some q ∧ q.completed = false
  own : (s.queue i).items = []
  main : i ≠ 0 → (s.queue 0).items = []
  other : i = 0 → n ≠ 1 → ∃ v, 0 < v ∧ v < n ∧ (s.queue v).items = []

private theorem setThr_setThr (w : PoolState) (i : Nat) (t t' : Thread) : (w.setThr i t).setThr i t' = w.setThr i t' := by
  simp only [setThr]; congr 1; funext k; simp only [upd]; split <;> rfl

private theorem setThr_self (w : PoolState) (i : Nat) (t : Thread) : (w.setThr i t).thr i = t := by simp [setThr, upd]

/-- One step of `get_task` in `wait`. -/
private theorem more {n i r : Nat} {s : PoolState} {f : Frame} {fs : List Frame} {m : Mode} {v : Nat} {k : Prog} {g g' : GetPc} (hi : i < n)
    (hd : s.dead = false) (hpc : f.pc = .run) (hc : f.code = .wait v k)
    (hg : s.getStep n i r g = .more g') :
    (s.setThr i ⟨f :: fs, some g, m⟩).step n i r false = some (s.setThr i ⟨f :: fs, some g', m⟩) := by
  have hg' : (s.setThr i ⟨f :: fs, some g, m⟩).getStep n i r g = .more g' := by
    have : ∀ t, (s.setThr i t).getStep n i r g = s.getStep n i r g := by intro t; cases g <;> rfl
    rw [this]; exact hg
  have hdd : (s.setThr i ⟨f :: fs, some g, m⟩).dead = false := hd
  simp only [PoolState.step, hdd, setThr_self, stepFrame, hpc, hc, hg', setThr_setThr]
  simp [show ¬ n ≤ i by omega]

/-- A round of `wait` that finds nothing. -/
theorem InVain.round {n i : Nat} {s : PoolState} (h : InVain n s i) : ∃ u, PoolSteps n s u ∧ InVain n u i ∧ u.sem = s.sem + 1 := by
  obtain ⟨hi, hd, ⟨f, fs, m, v, k, j, q, ht, hpc, hc, hv, hj, hq⟩, how, hmain, hoth⟩ := h
  have hni : ¬ n ≤ i := by omega
  have e1 : s.step n i 0 false = some (s.setThr i ⟨f :: fs, some .pop, m⟩) := by
    simp only [PoolState.step, hd, ht, stepFrame, hpc, hc, hv, hj, hq]
    simp [hni]
  -- the end of the round
  have hend : ∀ (r : Nat) (g : GetPc), s.getStep n i r g = .null → (s.setThr i ⟨f :: fs, some g, m⟩).step n i r false =
      some ({ s with sem := s.sem + 1 }.setThr i ⟨f :: fs, none, m⟩) := by
    intro r g hg
    have hg' : (s.setThr i ⟨f :: fs, some g, m⟩).getStep n i r g = .null := by
      have : ∀ t, (s.setThr i t).getStep n i r g = s.getStep n i r g := by intro t; cases g <;> rfl
      rw [this]; exact hg
    have hdd : (s.setThr i ⟨f :: fs, some g, m⟩).dead = false := hd
    simp only [PoolState.step, hdd, setThr_self, stepFrame, hpc, hc, hg']
    simp only [hni, or_false, Bool.false_eq_true, if_false]
    simp only [setThr]
    congr 2
    · funext k; simp only [upd]; split <;> rfl
    · exact hd.symm
  have hres : InVain n ({ s with sem := s.sem + 1 }.setThr i ⟨f :: fs, none, m⟩) i :=
    ⟨hi, hd, ⟨f, fs, m, v, k, j, q, setThr_self _ _ _, hpc, hc, hv, hj, hq⟩, how, hmain, hoth⟩
  have hpop : s.getStep n i 0 .pop = .more (if i = 0 then .rnd else .main) := by
    simp [getStep, TQueue.pop, how]
  by_cases h0 : i = 0
  · subst h0
    have e2 := more (r := 0) (fs := fs) (m := m) hi hd hpc hc hpop
    rw [if_pos rfl] at e2
    by_cases h1 : n = 1
    · have e3 := hend 0 .rnd (by simp [getStep, h1])
      exact ⟨_, .step _ _ _ (.step _ _ _ (.step _ _ _ (.refl _) e1) e2) e3, hres, rfl⟩
    · obtain ⟨w, w0, w1, w2⟩ := hoth rfl h1
      have hw : 1 + (w - 1) % (n - 1) = w := by rw [Nat.mod_eq_of_lt (by omega)]; omega
      have e3 := more (r := w - 1) (fs := fs) (m := m) (g := .rnd) (g' := .rndTake w (s.queue w).top) hi hd hpc hc
        (by simp only [getStep, hw]; rw [if_neg h1, if_neg (by omega)])
      have e4 := hend 0 (.rndTake w (s.queue w).top) (by simp [getStep, TQueue.take, w2])
      exact ⟨_, .step _ _ _ (.step _ _ _ (.step _ _ _ (.step _ _ _ (.refl _) e1) e2) e3) e4, hres, rfl⟩
  · have e2 := more (r := 0) (fs := fs) (m := m) hi hd hpc hc hpop
    rw [if_neg h0] at e2
    have e3 := more (r := 0) (fs := fs) (m := m) (g := .main) (g' := .mainTake (s.queue 0).top) hi hd hpc hc rfl
    have e4 := more (r := 0) (fs := fs) (m := m) (g := .mainTake (s.queue 0).top) (g' := .rnd) hi hd hpc hc
      (by simp [getStep, TQueue.take, hmain h0])
    have hw : 1 + (i - 1) % (n - 1) = i := by rw [Nat.mod_eq_of_lt (by omega)]; omega
    have e5 := hend (i - 1) .rnd (by simp [getStep, hw])
    exact ⟨_, .step _ _ _ (.step _ _ _ (.step _ _ _ (.step _ _ _ (.step _ _ _ (.refl _) e1) e2) e3) e4) e5, hres, rfl⟩

private theorem trans {n : Nat} {s t u : PoolState} (h1 : PoolSteps n s t) (h2 : PoolSteps n t u) : PoolSteps n s u := by
  induction h2 with
  | refl => exact h1
  | step i r a _ h ih => exact .step i r a ih h

/-- **C70 is violated** in every state of every pool in which a thread waits and finds nothing else to do: beyond every
maximum. -/
theorem C70_in_vain_violated {n i : Nat} {s : PoolState} (h : InVain n s i) (max : Nat) : ∃ u, PoolSteps n s u ∧ max < u.sem := by
  have key : ∀ N, ∃ u, PoolSteps n s u ∧ InVain n u i ∧ N ≤ u.sem := by
    intro N
    induction N with
    | zero => exact ⟨s, .refl _, h, Nat.zero_le _⟩
    | succ N ih =>
      obtain ⟨u, u1, u2, u3⟩ := ih
      obtain ⟨w, w1, w2, w3⟩ := u2.round
      exact ⟨w, trans u1 w1, w2, by omega⟩
  obtain ⟨u, u1, _, u3⟩ := key (max + 1)
  exact ⟨u, u1, by omega⟩

/-- **C70 is violated** in every pool with background workers by every program that begins by submitting a task and waiting
for it, whatever the task does and whatever comes after. -/
theorem C70_first_violated {n : Nat} (hn : 2 ≤ n) (c k : Prog) (max : Nat) :
    ∃ s, PoolReach n (.submit none c (.wait 0 k)) s ∧ max < s.sem := by
  let w : Prog := .wait 0 k
  let s0 := PoolState.init (.submit none c w)
  let q : PTask := { parent := none, counter := 1, code := c, env := [], by_ := 0, caller := 0, par := false }
  let s1 : PoolState := ({ s0 with tasks := [q] } : PoolState).setTop 0 ⟨none, w, [0], .push 0, 0⟩ []
  have h1 : s0.step n 0 0 false = some s1 := by
    simp only [PoolState.step, s0, PoolState.init, PoolState.stepFrame]
    simp [show ¬ n = 0 by omega, s1, s0, q, PoolState.init]
  have t1 : s1.thr 0 = ⟨[⟨none, w, [0], .push 0, 0⟩], none, .loop⟩ := by simp [s1, s0, PoolState.setTop, PoolState.setThr, upd, PoolState.init]
  let s2 : PoolState := ({ s1 with queue := upd s1.queue 0 ((s1.queue 0).push 0), sem := s1.sem + 1 }.setTop 0 ⟨none, w, [0], .run, 0⟩ []).modTask 0
      (PTask.setSt .queued)
  have h2 : s1.step n 0 0 false = some s2 := by
    simp only [PoolState.step, show s1.dead = false from rfl, t1, PoolState.stepFrame]
    simp [show ¬ n = 0 by omega, s2, show s1.dead = false from rfl]
  have hs2 : s2.thr 1 = ⟨[], none, .loop⟩ := by
    simp [s2, s1, s0, PoolState.modTask, PoolState.setTop, PoolState.setThr, upd, PoolState.init]
  have h20 : s2.thr 0 = ⟨[⟨none, w, [0], .run, 0⟩], none, .loop⟩ := by
    simp [s2, PoolState.modTask, PoolState.setTop, PoolState.setThr, upd, t1]
  have hq0 : s2.queue 0 = ⟨0, [0]⟩ := by
    simp [s2, s1, s0, PoolState.modTask, PoolState.setTop, PoolState.setThr, upd, PoolState.init, TQueue.push]
  have hqv : ∀ v, v ≠ 0 → s2.queue v = ⟨0, []⟩ := by
    intro v hv
    simp [s2, s1, s0, PoolState.modTask, PoolState.setTop, PoolState.setThr, upd, PoolState.init, hv]
  have hts : s2.tasks = [q.setSt .queued] := by
    simp [s2, s1, s0, PoolState.modTask, PoolState.setTop, PoolState.setThr, PoolState.init]
  have hni : ¬ n ≤ 1 := by omega
  -- worker 1 takes the task
  let s3 := s2.setThr 1 ⟨[], some .pop, .loop⟩
  have h3 : s2.step n 1 0 false = some s3 := by
    simp only [PoolState.step, show s2.dead = false from rfl, hs2, PoolState.stepLoop]
    simp [hni, s3]
  let s4 := s2.setThr 1 ⟨[], some .main, .loop⟩
  have h4 : s3.step n 1 0 false = some s4 := by
    have hp : (s3.queue 1).pop = none := by
      have : s3.queue 1 = s2.queue 1 := rfl
      rw [this, hqv 1 (by decide)]; rfl
    simp only [PoolState.step, show s3.dead = false from rfl, s3, setThr_self, PoolState.stepLoop, PoolState.getStep]
    rw [show (s2.setThr 1 ⟨[], some .pop, .loop⟩).queue 1 = s3.queue 1 from rfl, hp]
    simp [hni, s4, setThr_setThr, show (s2.setThr 1 ⟨[], some .pop, .loop⟩).dead = false from rfl]
  let s5 := s2.setThr 1 ⟨[], some (.mainTake 0), .loop⟩
  have h5 : s4.step n 1 0 false = some s5 := by
    simp only [PoolState.step, s4, setThr_self, PoolState.stepLoop, PoolState.getStep]
    rw [show (s2.setThr 1 ⟨[], some .main, .loop⟩).queue 0 = s2.queue 0 from rfl, hq0]
    simp [hni, s5, setThr_setThr, show (s2.setThr 1 ⟨[], some .main, .loop⟩).dead = false from rfl]
  let f : Frame := ⟨some 0, c, [], .run, s2.clock + 1⟩
  let s6 := (({ s5 with queue := upd s5.queue 0 ⟨1, []⟩, clock := s2.clock + 1 } : PoolState).setThr 1
      ⟨[f], none, .loop⟩).modTask 0 (PTask.begin_ 1 (s2.clock + 1))
  have h6 : s5.step n 1 0 false = some s6 := by
    have hk : (s5.queue 0).take 0 = some (0, ⟨1, []⟩) := by
      have e1 : s5.queue 0 = s2.queue 0 := rfl
      rw [e1, hq0]; rfl
    have hj : s5.tasks[0]? = some (q.setSt .queued) := by
      have e1 : s5.tasks = s2.tasks := rfl
      rw [e1, hts]; rfl
    have t5 : s5.thr 1 = ⟨[], some (.mainTake 0), .loop⟩ := setThr_self _ _ _
    simp only [PoolState.step, show s5.dead = false from rfl, t5, PoolState.stepLoop, PoolState.getStep, hk, PoolState.startTask, hj]
    simp [hni, s6, f, q, PTask.setSt, show s5.dead = false from rfl, show s5.clock = s2.clock from rfl]
  have hvain : InVain n s6 0 := by
    refine ⟨by omega, rfl, ⟨⟨none, w, [0], .run, 0⟩, [], .loop, 0, k, 0, PTask.begin_ 1 (s2.clock + 1) (q.setSt .queued), ?_, rfl, rfl, rfl, ?_, rfl⟩, ?_,
      fun h => absurd rfl h, fun _ _ => ⟨1, by decide, by omega, ?_⟩⟩
    · have : s6.thr 0 = s2.thr 0 := by simp [s6, s5, PoolState.modTask, PoolState.setThr, upd]
      rw [this]; exact h20
    · show (s2.tasks.modify 0 (PTask.begin_ 1 (s2.clock + 1)))[0]? = _
      rw [hts]; rfl
    · show (upd s5.queue 0 ⟨1, []⟩ 0).items = []
      simp [upd]
    · show (upd s5.queue 0 ⟨1, []⟩ 1).items = []
      simp only [upd]
      rw [if_neg (by decide)]
      show (s2.queue 1).items = []
      rw [hqv 1 (by decide)]
  obtain ⟨u, u1, u2⟩ := C70_in_vain_violated hvain max
  exact ⟨u, trans (.step _ _ _ (.step _ _ _ (.step _ _ _ (.step _ _ _ (.step _ _ _ (.step _ _ _ (.refl _) h1) h2) h3) h4) h5) h6) u1, u2⟩

/-- In a pool of four, 1000 releases for one task. -/
example : ∃ s, PoolReach 4 (.submit none .ret (.wait 0 .ret)) s ∧ 1000 < s.sem := C70_first_violated (by decide) _ _ _

end CoEcs.Props
