import Verif.Props.WaitForever

/-!
# Violations that need no particular number of workers (C69)
-/

namespace CoEcs.Props
open CoEcs PoolState

theorem grandchild_few : (runFew 2 (PoolState.init grandchild) (List.replicate 25 0)).map
      (fun s => ((s.tasks.map (fun q => (q.runs, q.st, q.counter))), (s.thr 0).stack)) =
    some ([(0, .queued, 0), (1, .finished, 0), (1, .finished, 0)], [⟨none, .ret, [2, 1, 0], .run, 0⟩]) := by decide +kernel

/-- **C69 is violated** in every pool, whatever the number of workers: `wait(G)` returns although the function of G has never been called.
-/
theorem C69_every_pool_violated {n : Nat} (hn : 0 < n) : ∃ s, PoolReach n grandchild s ∧ (s.thr 0).stack = [⟨none, .ret, [2, 1, 0], .run, 0⟩] ∧
    ∃ q, s.tasks[0]? = some q ∧ q.runs = 0 ∧ ¬ s.Returned 0 := by
  rcases Nat.lt_or_ge n 2 with h2 | h2
  · have : n = 1 := by omega
    subst this; exact C69_violated
  · have h := grandchild_few
    cases e : runFew 2 (PoolState.init grandchild) (List.replicate 25 0) with
    | none => rw [e] at h; simp at h
    | some s =>
      rw [e] at h
      simp only [Option.map_some, Option.some.injEq, Prod.mk.injEq] at h
      obtain ⟨hr, -⟩ := runFew_steps (by decide) h2 e (fresh_init (by decide) _)
      refine ⟨s, hr, h.2, ?_⟩
      cases ht : s.tasks with
      | nil => have := h.1; rw [ht] at this; simp at this
      | cons q l =>
        have h1 := h.1; rw [ht] at h1; simp at h1
        refine ⟨q, rfl, h1.1.1, ?_⟩
        rintro ⟨q', hq', hr', -⟩
        rw [ht] at hq'; simp only [List.getElem?_cons_zero, Option.some.injEq] at hq'; subst hq'
        omega

end CoEcs.Props
