import Verif.Model.PoolThreads

/-!
# Which worker serves a thread
-/

namespace CoEcs.Props
open PoolWorld

/-! ## C72 -/

/-- While a pool lives, `_instance` is that pool, and the pointers of its threads are theirs. -/
structure WorldInv (w : PoolWorld) : Prop where
  one : ∀ (id : Nat) (o : PoolObj), w.pools[id]? = some o → o.alive = true → w.inst = some id
  served : ∀ (id : Nat) (o : PoolObj), w.pools[id]? = some o → o.alive = true →
    w.cur o.owner = some (id, 0) ∧
    (∀ (k t : Nat), o.workers[k]? = some t → w.cur t = some (id, k + 1)) ∧ ∀ t ∈ o.workers, t < w.threads
  only : ∀ (t id k : Nat), w.cur t = some (id, k) → id < w.pools.length ∧ t < w.threads ∧
    ∀ o : PoolObj, w.pools[id]? = some o → o.alive = true → (k = 0 ∧ t = o.owner) ∨ ∃ k', k = k' + 1 ∧ o.workers[k']? = some t

theorem _root_.CoEcs.WorldReach.inv {m : Nat} {w : PoolWorld} (h : WorldReach m w) : WorldInv w := by
  have hcon : ∀ (w : PoolWorld) (t n : Nat) (f : Option Nat), t < w.threads → WorldInv w → ∀ w', (w.construct t n f = .ok w' ∨ w.construct t n f = .threw w') → WorldInv w' := by
    intro w t n f ht hI w' he
    unfold PoolWorld.construct at he
    split at he
    · simp at he; subst he; exact hI
    · rename_i hnone
      have dead : ∀ (id : Nat) (o : PoolObj), w.pools[id]? = some o → o.alive = false := by
        intro id o ho
        cases e : o.alive with
        | false => rfl
        | true => have := hI.one id o ho e; rw [hnone] at this; simp at this
      have look : ∀ (o' : PoolObj) (id : Nat) (o : PoolObj), (w.pools ++ [o'])[id]? = some o → o.alive = true → id = w.pools.length ∧ o = o' := by
        intro o' id o ho ha
        rw [List.getElem?_append] at ho
        split at ho
        · rw [dead id o ho] at ha; simp at ha
        · rw [List.getElem?_singleton] at ho
          split at ho
          · simp only [Option.some.injEq] at ho; exact ⟨by omega, ho.symm⟩
          · simp at ho
      split at he
      · simp at he; subst he
        constructor
        · intro id o ho ha
          rw [(look _ id o ho ha).1]
        · intro id o ho ha
          obtain ⟨rfl, rfl⟩ := look _ id o ho ha
          simp only [startAll]
          refine ⟨?_, ?_, ?_⟩
          · rw [if_neg (by omega)]
            simp
          · intro k t' hk
            rw [List.getElem?_map] at hk
            cases e : (List.range (n - 1))[k]? with
            | none => simp [e] at hk
            | some x =>
              simp only [e, Option.map_some, Option.some.injEq] at hk
              obtain ⟨h1, h2⟩ := List.getElem?_eq_some_iff.mp e
              simp at h1 h2
              subst h2 hk
              rw [if_pos (by omega)]
              congr 2; omega
          · intro t' ht'
            obtain ⟨x, hx, rfl⟩ := List.mem_map.mp ht'
            simp at hx; omega
        · intro t' id k hc
          simp only [startAll] at hc
          split at hc
          · rename_i hb
            simp only [Option.some.injEq, Prod.mk.injEq] at hc
            obtain ⟨rfl, rfl⟩ := hc
            refine ⟨by simp, by simp; omega, ?_⟩
            intro o ho ha
            obtain ⟨-, rfl⟩ := look _ _ o ho ha
            refine .inr ⟨t' - w.threads, rfl, ?_⟩
            rw [List.getElem?_map, List.getElem?_range (by omega)]
            simp only [Option.map_some, Option.some.injEq]
            omega
          · split at hc
            · rename_i e
              simp only [Option.some.injEq, Prod.mk.injEq] at hc
              obtain ⟨rfl, rfl⟩ := hc
              refine ⟨by simp, by simp; omega, ?_⟩
              intro o ho ha
              obtain ⟨-, rfl⟩ := look _ _ o ho ha
              exact .inl ⟨rfl, e⟩
            · obtain ⟨h1, h2, -⟩ := hI.only t' id k hc
              refine ⟨by simp; omega, by simp; omega, ?_⟩
              intro o ho ha
              have := (look _ id o ho ha).1
              omega
      · split at he
        · simp at he; subst he
          constructor
          · intro id o ho ha
            obtain ⟨rfl, rfl⟩ := look _ id o ho ha
            simp at ha
          · intro id o ho ha
            obtain ⟨rfl, rfl⟩ := look _ id o ho ha
            simp at ha
          · intro t' id k hc
            have dead' : ∀ o : PoolObj, (w.pools ++ [⟨t, [], false⟩])[id]? = some o → ¬ o.alive = true := by
              intro o ho ha
              obtain ⟨rfl, rfl⟩ := look _ id o ho ha
              simp at ha
            have hlt : id < w.pools.length + 1 ∧ t' < w.threads := by
              simp only at hc
              split at hc
              · rename_i e
                simp only [Option.some.injEq, Prod.mk.injEq] at hc
                omega
              · have := hI.only t' id k hc; omega
            exact ⟨by simpa using hlt.1, hlt.2, fun o ho ha => absurd ha (dead' o ho)⟩
        · simp at he
  have hap : ∀ (w : PoolWorld) (op : Op), op.Possible w → WorldInv w → ∀ w', (w.apply op = .ok w' ∨ w.apply op = .threw w') → WorldInv w' := by
    intro w op hp hI w' he
    cases op with
    | construct t n f => exact hcon w t n f hp hI w' he
    | get t n f =>
      simp only [PoolWorld.apply, PoolWorld.get] at he
      split at he
      · simp at he; subst he; exact hI
      · exact hcon w t n f hp hI w' he
    | destroy id =>
      simp only [PoolWorld.apply, PoolWorld.destroy] at he
      split at he
      · rename_i o ho
        split at he
        · rename_i ha
          simp at he; subst he
          have dead : ∀ (id' : Nat) (o' : PoolObj), (w.pools.modify id (fun o => { o with alive := false }))[id']? = some o' → o'.alive = false := by
            intro id' o' h'
            rw [List.getElem?_modify] at h'
            cases e : w.pools[id']? with
            | none => simp [e] at h'
            | some o2 =>
              simp only [e, Option.map_eq_map, Option.map_some, Option.some.injEq] at h'
              split at h'
              · subst h'; rfl
              · rename_i hne
                subst h'
                cases e2 : o2.alive with
                | false => rfl
                | true =>
                  have h1 := hI.one id' o2 e e2
                  have h2 := hI.one id o ho ha
                  rw [h1] at h2; simp at h2; exact absurd h2.symm hne
          constructor
          · intro id' o' h' ha'; rw [dead id' o' h'] at ha'; simp at ha'
          · intro id' o' h' ha'; rw [dead id' o' h'] at ha'; simp at ha'
          · intro t id' k hc
            obtain ⟨h1, h2, -⟩ := hI.only t id' k hc
            refine ⟨by simpa using h1, h2, ?_⟩
            intro o' h' ha'; rw [dead id' o' h'] at ha'; simp at ha'
        · simp at he
      · simp at he
  induction h with
  | init => exact ⟨by simp [PoolWorld.init], by simp [PoolWorld.init], by simp [PoolWorld.init]⟩
  | ok op _ hp he ih => exact hap _ op hp ih _ (.inl he)
  | threw op _ hp he ih => exact hap _ op hp ih _ (.inr he)

/-- C72 is violated: while a pool lives, a thread that neither constructed it nor is one of its workers has undefined
behaviour when it submits a task.  Its pointer is null, or it points into a pool that is gone. -/
theorem C72_violated :
    (∃ w, WorldReach 2 w ∧ w.inst = some 0 ∧ w.cur 1 = none ∧ w.serve 1 = none) ∧
    (∃ w, WorldReach 2 w ∧ w.inst = some 1 ∧ w.cur 0 = some (0, 0) ∧ w.serve 0 = none) := by
  constructor
  · refine ⟨_, .ok (.construct 0 4 none) .init (by unfold Op.Possible; decide) rfl, rfl, ?_, ?_⟩ <;> decide
  · refine ⟨_, .ok (.construct 1 4 none) (.ok (.destroy 0) (.ok (.construct 0 4 none) .init (by unfold Op.Possible; decide) rfl) trivial rfl) (by unfold Op.Possible; decide) rfl, rfl, ?_, ?_⟩ <;> decide

/-- C72, partially: while a pool lives, it is the only one, and the thread that constructed it and the threads of its workers are
served by their own workers of that pool.  Missing: all other threads. -/
theorem C72_own_threads_partial {m : Nat} {w : PoolWorld} (h : WorldReach m w) {id : Nat} {o : PoolObj} (ho : w.pools[id]? = some o)
    (ha : o.alive = true) :
    w.inst = some id ∧ w.serve o.owner = some (id, 0) ∧
      ∀ (k t : Nat), o.workers[k]? = some t → w.serve t = some (id, k + 1) := by
  have hI := h.inv
  obtain ⟨h1, h2, -⟩ := hI.served id o ho ha
  refine ⟨hI.one id o ho ha, ?_, ?_⟩
  · simp [PoolWorld.serve, h1, ho, ha]
  · intro k t hk; simp [PoolWorld.serve, h2 k t hk, ho, ha]

/-- C72 (exactly when): while a pool lives, `submit` and `wait` of a thread are defined exactly if the thread constructed the pool or is
one of its workers' threads; every other thread, those of earlier pools included, has undefined behaviour. -/
theorem C72_exactly_own_threads {m : Nat} {w : PoolWorld} (h : WorldReach m w) {id : Nat} {o : PoolObj} (ho : w.pools[id]? = some o)
    (ha : o.alive = true) (t : Nat) :
    (w.serve t ≠ none ↔ t = o.owner ∨ t ∈ o.workers) ∧
    ∀ i k, w.serve t = some (i, k) → i = id ∧ ((k = 0 ∧ t = o.owner) ∨ ∃ k', k = k' + 1 ∧ o.workers[k']? = some t) := by
  have hI := h.inv
  have hex : ∀ i k, w.serve t = some (i, k) → i = id ∧ ((k = 0 ∧ t = o.owner) ∨ ∃ k', k = k' + 1 ∧ o.workers[k']? = some t) := by
    intro i k hs
    unfold PoolWorld.serve at hs
    split at hs
    · cases hs
    · rename_i i' k' hc
      split at hs
      · rename_i o' ho'
        split at hs
        · rename_i ha'
          cases hs
          have h1 := hI.one _ _ ho' ha'
          rw [hI.one _ _ ho ha] at h1
          cases h1
          rw [ho] at ho'; cases ho'
          exact ⟨rfl, (hI.only _ _ _ hc).2.2 o ho ha⟩
        · cases hs
      · cases hs
  refine ⟨⟨?_, ?_⟩, hex⟩
  · intro hs
    cases e : w.serve t with
    | none => exact absurd e hs
    | some x =>
      obtain ⟨-, ⟨-, h1⟩ | ⟨k', -, h1⟩⟩ := hex x.1 x.2 e
      · exact .inl h1
      · exact .inr (List.mem_of_getElem? h1)
  · obtain ⟨-, h1, h2⟩ := C72_own_threads_partial h ho ha
    rintro (rfl | hm)
    · rw [h1]; simp
    · obtain ⟨k, hk⟩ := List.getElem?_of_mem hm
      rw [h2 k t hk]; simp

/-- The hypotheses are met by the second pool of a program. -/
example : ∃ w o, WorldReach 2 w ∧ w.pools[1]? = some o ∧ o.alive = true ∧ o.owner = 1 ∧ o.workers = [5, 6, 7] ∧ w.serve 6 = some (1, 2) := by
  refine ⟨_, _, .ok (.construct 1 4 none) (.ok (.destroy 0) (.ok (.construct 0 4 none) .init (by unfold Op.Possible; decide) rfl) trivial rfl) (by unfold Op.Possible; decide) rfl, rfl, ?_, ?_, ?_, ?_⟩ <;> decide

/-! ## C73 -/

/-- C73 is violated: if the first background thread cannot be started, the constructor throws and leaves `_instance` pointing to
the pool that was not constructed: from then on no pool can be constructed, and `get` returns that pool. -/
theorem C73_violated : ∃ w w', WorldReach 1 w ∧ w.construct 0 4 (some 1) = .threw w' ∧ w.inst = none ∧ w'.inst = some 0 ∧
    (∀ o, w'.pools[0]? = some o → o.alive = false) ∧
    (∀ t n f, w'.construct t n f = .threw w') ∧ ∀ t n f, w'.get t n f = .ok w' := by
  refine ⟨_, _, .init, rfl, rfl, rfl, ?_, fun _ _ _ => rfl, fun _ _ _ => rfl⟩
  intro o ho
  simp [PoolWorld.init] at ho
  subst ho; rfl

/-- C73: if a later thread cannot be started, the program is terminated. -/
theorem C73_terminates_violated (w : PoolWorld) (h : w.inst = none) (t n k : Nat) (hk : 2 ≤ k) : w.construct t n (some k) = .terminated := by
  simp only [PoolWorld.construct, h]
  rw [if_neg (by omega)]

/-- C73, partially: constructing a pool while there is one throws and has no effect.  Missing: failures of the system. -/
theorem C73_second_pool_partial {m : Nat} {w : PoolWorld} (h : WorldReach m w) {id : Nat} {o : PoolObj} (ho : w.pools[id]? = some o)
    (ha : o.alive = true) (t n : Nat) (f : Option Nat) : w.construct t n f = .threw w := by
  simp only [PoolWorld.construct, h.inv.one id o ho ha]

example : ∃ w o, WorldReach 1 w ∧ w.pools[0]? = some o ∧ o.alive = true := by
  refine ⟨_, _, .ok (.construct 0 4 none) .init (by unfold Op.Possible; decide) rfl, rfl, ?_⟩; decide

end CoEcs.Props
