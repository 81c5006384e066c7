import Verif.Spec.ThreadPool
import Verif.Proofs.WsQueue

/-! # The steps of a thread pool, case by case, and what always holds of it -/

namespace CoEcs
open PoolState

/-- `get_task` of worker `i` takes task `j` from queue `v`. -/
def Takes (s : PoolState) (i : Nat) (g : GetPc) (v j : Nat) (q : TQueue) : Prop :=
  (g = .pop ∧ v = i ∧ (s.queue v).pop = some (j, q)) ∨
    ∃ t, (s.queue v).take t = some (j, q) ∧ (g = .mainTake t ∧ v = 0 ∨ g = .rndTake v t)

/-- How far `get_task` is from its end. -/
def GetPc.rank : GetPc → Nat
  | .pop => 6
  | .main => 5
  | .mainTake _ => 4
  | .rnd => 3
  | .rndTake _ _ => 2

/-- `get_task` of worker `i` goes on; what is known then about its own queue, and whose queues it goes to. -/
def GoesOn (s : PoolState) (i : Nat) (g g' : GetPc) : Prop :=
  g' ≠ .pop ∧ (g = .pop → (s.queue i).items = []) ∧ g'.rank < g.rank ∧ (g' = .main → i ≠ 0) ∧ (∀ t, g' = .mainTake t → g = .main) ∧
    ∀ v t, g' = .rndTake v t → v ≠ i

theorem TQueue.pop_none {q : TQueue} (h : q.pop = none) : q.items = [] := by
  unfold TQueue.pop at h
  split at h
  · rename_i h'; simpa using h'
  · simp at h

theorem getStep_more {n : Nat} {s : PoolState} {i r : Nat} {g g' : GetPc} (h : s.getStep n i r g = .more g') :
    GoesOn s i g g' := by
  unfold getStep at h
  split at h
  · split at h
    · simp at h
    · rename_i hp
      simp at h; subst h
      exact ⟨by split <;> simp, fun _ => TQueue.pop_none hp, by split <;> simp [GetPc.rank], by split <;> simp_all, by split <;> simp,
        by split <;> simp⟩
  · simp at h; subst h; simp [GoesOn, GetPc.rank]
  · split at h
    · simp at h
    · simp at h; subst h; simp [GoesOn, GetPc.rank]
  · split at h
    · simp at h
    · split at h
      · simp at h
      · rename_i hne
        simp at h; subst h; simp only [GoesOn, GetPc.rank]
        refine ⟨by simp, by simp, by simp, by simp, by simp, ?_⟩
        intro v t e
        simp only [GetPc.rndTake.injEq] at e
        rw [← e.1]; exact hne
  · split at h <;> simp at h

theorem getStep_got {n : Nat} {s : PoolState} {i r : Nat} {g : GetPc} {j : Nat} {qs} (h : s.getStep n i r g = .got j qs) :
    ∃ v q, Takes s i g v j q ∧ qs = upd s.queue v q := by
  unfold getStep at h
  split at h
  · split at h
    · rename_i j' q' hp
      simp at h; obtain ⟨rfl, rfl⟩ := h
      exact ⟨i, q', .inl ⟨rfl, rfl, hp⟩, rfl⟩
    · simp at h
  · simp at h
  · split at h
    · rename_i hp
      simp at h; obtain ⟨rfl, rfl⟩ := h
      exact ⟨_, _, .inr ⟨_, hp, .inl ⟨rfl, rfl⟩⟩, rfl⟩
    · simp at h
  · split at h
    · simp at h
    · split at h <;> simp at h
  · split at h
    · rename_i hp
      simp at h; obtain ⟨rfl, rfl⟩ := h
      exact ⟨_, _, .inr ⟨_, hp, .inr rfl⟩, rfl⟩
    · simp at h

theorem getStep_null {n : Nat} {s : PoolState} {i r : Nat} {g : GetPc} (h : s.getStep n i r g = .null) : g ≠ .pop := by
  rintro rfl
  unfold getStep at h
  simp only at h
  split at h <;> simp at h

theorem Takes.mem {s : PoolState} {i : Nat} {g : GetPc} {v j : Nat} {q : TQueue} (h : Takes s i g v j q) :
    (∃ l r, (s.queue v).items = l ++ j :: r ∧ q.items = l ++ r) := by
  rcases h with ⟨-, -, h⟩ | ⟨t, h, -⟩
  · unfold TQueue.pop at h
    split at h
    · simp at h
    · rename_i j' hl
      simp at h; obtain ⟨rfl, rfl⟩ := h
      obtain ⟨ys, hy⟩ := List.getLast?_eq_some_iff.1 hl
      exact ⟨ys, [], hy, by simp [hy]⟩
  · unfold TQueue.take at h
    split at h
    · simp at h
    · split at h
      · rename_i hi _
        simp at h; obtain ⟨rfl, rfl⟩ := h
        exact ⟨[], _, hi, rfl⟩
      · simp at h

/-- The calls of worker `i` are inside `wait` or there are none: it may look for a task. -/
def MayGet (s : PoolState) (i : Nat) : Prop :=
  ((s.thr i).stack = [] ∧ (s.thr i).mode = .loop ∧ i ≠ 0) ∨
    ∃ f fs v k, (s.thr i).stack = f :: fs ∧ f.pc = .run ∧ f.code = .wait v k

/-- The steps of worker `i`, case by case. -/
inductive PoolStep (n : Nat) (s : PoolState) (i : Nat) : PoolState → Prop
  | idle {get' : GetPc} {sem : Nat} :
      -- `get_task` fails in the loop
      (s.thr i).stack = [] → (s.thr i).mode = .loop → i ≠ 0 → (s.thr i).get = some get' → get' ≠ .pop → sem ≤ s.sem →
      PoolStep n s i ({ s with sem := sem }.setThr i { s.thr i with get := none, mode := .check })
  | retry {get' : GetPc} :
      MayGet s i → (s.thr i).stack ≠ [] → (s.thr i).get = some get' → get' ≠ .pop →
      PoolStep n s i ({ s with sem := s.sem + 1 }.setThr i { s.thr i with get := none })
  | goOn {g g'} : MayGet s i → (s.thr i).get = some g → GoesOn s i g g' →
      PoolStep n s i (s.setThr i { s.thr i with get := some g' })
  | look : MayGet s i → (s.thr i).get = none → (∀ f fs v k, (s.thr i).stack = f :: fs → f.code = .wait v k →
      ∃ j q, f.env[v]? = some j ∧ s.tasks[j]? = some q ∧ q.counter ≠ 0) →
      PoolStep n s i (s.setThr i { s.thr i with get := some .pop })
  | start {g v j qu q} : MayGet s i → (s.thr i).get = some g → Takes s i g v j qu → s.tasks[j]? = some q →
      PoolStep n s i ((({ s with queue := upd s.queue v qu, clock := s.clock + 1 } : PoolState).setThr i
        { s.thr i with stack := ⟨some j, q.code, q.env, .run, s.clock + 1⟩ :: (s.thr i).stack, get := none }).modTask j
          (PTask.begin_ i (s.clock + 1)))
  | again : (s.thr i).stack = [] → (s.thr i).mode = .check → i ≠ 0 → s.active i = true →
      PoolStep n s i (s.setThr i { s.thr i with mode := .loop })
  | exit : (s.thr i).stack = [] → (s.thr i).mode = .check → i ≠ 0 → s.active i = false →
      PoolStep n s i (s.setThr i { s.thr i with mode := .exited })
  | push {f fs j} : (s.thr i).stack = f :: fs → f.pc = .push j →
      PoolStep n s i (({ s with queue := upd s.queue i ((s.queue i).push j), sem := s.sem + 1 }.setTop i { f with pc := .run } fs).modTask j
        (PTask.setSt .queued))
  | sub {f fs j q k} : (s.thr i).stack = f :: fs → f.pc = .sub j → s.tasks[j]? = some q → f.task = some k →
      PoolStep n s i (((s.modTask j PTask.dec).modTask k (PTask.pay k j)).setTop i { f with pc := .check j } fs)
  | up {f fs j q k p} : (s.thr i).stack = f :: fs → f.pc = .check j → s.tasks[j]? = some q → f.task = some k →
      q.counter = 0 → q.parent = some p → PoolStep n s i (s.setTop i { f with pc := .sub p } fs)
  | finish {f fs j q k} : (s.thr i).stack = f :: fs → f.pc = .check j → s.tasks[j]? = some q → f.task = some k →
      (q.counter ≠ 0 ∨ q.parent = none) →
      PoolStep n s i (({ s with sem := if fs.isEmpty then s.sem else s.sem + 1 }.setThr i { s.thr i with stack := fs }).modTask k
          (PTask.setSt .finished))
  | ret {f fs j} : (s.thr i).stack = f :: fs → f.pc = .run → f.code = .ret → f.task = some j →
      PoolStep n s i (s.setTop i { f with pc := .sub j } fs)
  | leave {f fs} : (s.thr i).stack = f :: fs → f.pc = .run → f.code = .ret → f.task = none →
      PoolStep n s i ({ s with main := .stop 1 }.setThr i { s.thr i with stack := [] })
  | unwind {f fs} : (s.thr i).stack = f :: fs → f.pc = .run → f.code = .throw → i = 0 →
      PoolStep n s i ({ s with main := .stop 1, unwound := true }.setThr i { s.thr i with stack := [], get := none })
  | terminate {f fs} : (s.thr i).stack = f :: fs → f.pc = .run → f.code = .throw → i ≠ 0 →
      PoolStep n s i { s with dead := true }
  | submitRoot {f fs c k} : (s.thr i).stack = f :: fs → f.pc = .run → f.code = .submit none c k →
      PoolStep n s i (({ s with tasks := s.tasks ++ [{ parent := none, counter := 1, code := c, env := f.env, by_ := i, caller := f.time, par := false }] } : PoolState).setTop i
          { f with code := k, env := s.tasks.length :: f.env, pc := .push s.tasks.length } fs)
  | submitChild {f fs v c k pj q} : (s.thr i).stack = f :: fs → f.pc = .run → f.code = .submit (some v) c k →
      f.env[v]? = some pj → s.tasks[pj]? = some q →
      PoolStep n s i (({ s with tasks := s.tasks.modify pj PTask.inc ++
              [{ parent := some pj, counter := 1, code := c, env := f.env, by_ := i, caller := f.time }] } : PoolState).setTop i
              { f with code := k, env := s.tasks.length :: f.env, pc := .push s.tasks.length } fs)
  | waited {f fs v k j q} : (s.thr i).stack = f :: fs → f.pc = .run → f.code = .wait v k → (s.thr i).get = none →
      f.env[v]? = some j → s.tasks[j]? = some q → q.counter = 0 → PoolStep n s i (s.setTop i { f with code := k } fs)
  | stop {k} : i = 0 → (s.thr i).stack = [] → s.main = .stop k → k < n →
      PoolStep n s i { s with active := upd s.active k false, main := .stop (k + 1) }
  | stopped {k} : i = 0 → (s.thr i).stack = [] → s.main = .stop k → n ≤ k → PoolStep n s i { s with main := .join 1 }
  | join {k} : i = 0 → (s.thr i).stack = [] → s.main = .join k → k < n → (s.thr k).mode = .exited →
      PoolStep n s i { s with main := .join (k + 1) }
  | joined {k} : i = 0 → (s.thr i).stack = [] → s.main = .join k → n ≤ k → PoolStep n s i { s with main := .gone }

theorem step_cases {n : Nat} {s u : PoolState} {i r : Nat} {a : Bool} (h : s.step n i r a = some u) :
    s.dead = false ∧ i < n ∧ PoolStep n s i u := by
  unfold PoolState.step at h
  split at h
  · simp at h
  · rename_i hd
    have hd' : s.dead = false ∧ i < n := by
      cases hs : s.dead <;> simp [hs] at hd ⊢; exact hd
    refine ⟨hd'.1, hd'.2, ?_⟩
    split at h
    · rename_i f fs hst
      unfold stepFrame at h
      split at h
      · rename_i hpc
        simp only [Option.some.injEq] at h; subst h
        exact .push hst hpc
      · rename_i hpc
        split at h
        · rename_i hq hk
          simp only [Option.some.injEq] at h; subst h
          exact .sub hst hpc hq hk
        · simp at h
      · rename_i hpc
        split at h
        · rename_i q k hq hk
          split at h
          · rename_i p hc hp
            simp only [Option.some.injEq] at h; subst h
            exact .up hst hpc hq hk (by simpa [PTask.completed] using hc) hp
          · rename_i hno
            simp only [Option.some.injEq] at h; subst h
            refine .finish hst hpc hq hk ?_
            by_cases hc : q.counter = 0
            · right
              cases hp : q.parent with
              | none => rfl
              | some p => exact absurd hp (by intro hp'; exact hno p (by simp [PTask.completed, hc]) hp')
            · exact .inl hc
        · simp at h
      · rename_i hpc
        split at h
        · rename_i hc
          split at h
          · rename_i hk
            simp only [Option.some.injEq] at h; subst h
            exact .ret hst hpc hc hk
          · rename_i hk
            simp only [Option.some.injEq] at h; subst h
            exact .leave hst hpc hc hk
        · rename_i hc
          split at h
          · rename_i hi
            simp only [Option.some.injEq] at h; subst h
            exact .unwind hst hpc hc hi
          · rename_i hi
            simp only [Option.some.injEq] at h; subst h
            exact .terminate hst hpc hc hi
        · rename_i hc
          split at h
          · simp only [Option.some.injEq] at h; subst h
            exact .submitRoot hst hpc hc
          · split at h
            · simp at h
            · rename_i hv
              split at h
              · simp at h
              · rename_i hq
                simp only [Option.some.injEq] at h; subst h
                exact .submitChild hst hpc hc hv hq
        · rename_i v k hc
          have hm : MayGet s i := .inr ⟨f, fs, v, k, hst, hpc, hc⟩
          split at h
          · rename_i hg
            split at h
            · simp at h
            · rename_i j hv
              split at h
              · simp at h
              · rename_i q hq
                split at h
                · rename_i hcc
                  simp only [Option.some.injEq] at h; subst h
                  exact .waited hst hpc hc hg hv hq (by simpa [PTask.completed] using hcc)
                · rename_i hcc
                  simp only [Option.some.injEq] at h; subst h
                  refine .look hm hg ?_
                  intro f' fs' v' k' h1 h2
                  rw [hst] at h1
                  simp only [List.cons.injEq] at h1
                  obtain ⟨rfl, rfl⟩ := h1
                  rw [hc] at h2
                  simp only [Prog.wait.injEq] at h2
                  obtain ⟨rfl, rfl⟩ := h2
                  exact ⟨j, q, hv, hq, by simpa [PTask.completed] using hcc⟩
          · rename_i g hg
            split at h
            · rename_i g' hgs
              simp only [Option.some.injEq] at h; subst h
              exact .goOn hm hg (getStep_more hgs)
            · rename_i j qs hgs
              obtain ⟨v', qu, ht, rfl⟩ := getStep_got hgs
              unfold startTask at h
              split at h
              · simp at h
              · rename_i q hq
                simp only [Option.some.injEq] at h; subst h
                exact .start hm hg ht hq
            · rename_i hgs
              simp only [Option.some.injEq] at h; subst h
              exact .retry hm (by simp [hst]) hg (getStep_null hgs)
    · rename_i hst
      split at h
      · rename_i hi
        unfold stepDtor at h
        split at h
        · simp at h
        · rename_i k hk
          split at h
          · simp only [Option.some.injEq] at h; subst h
            exact .stop hi hst hk ‹_›
          · simp only [Option.some.injEq] at h; subst h
            exact .stopped hi hst hk (by omega)
        · rename_i k hk
          split at h
          · split at h
            · simp only [Option.some.injEq] at h; subst h
              exact .join hi hst hk ‹_› ‹_›
            · simp at h
          · simp only [Option.some.injEq] at h; subst h
            exact .joined hi hst hk (by omega)
        · simp at h
      · rename_i hi
        unfold stepLoop at h
        split at h
        · rename_i hmode
          have hm : MayGet s i := .inl ⟨hst, hmode, hi⟩
          split at h
          · rename_i hg
            simp only [Option.some.injEq] at h; subst h
            exact .look hm hg (by intro f fs v k h1; simp [hst] at h1)
          · rename_i g hg
            split at h
            · rename_i g' hgs
              simp only [Option.some.injEq] at h; subst h
              exact .goOn hm hg (getStep_more hgs)
            · rename_i j qs hgs
              obtain ⟨v', qu, ht, rfl⟩ := getStep_got hgs
              unfold startTask at h
              split at h
              · simp at h
              · rename_i q hq
                simp only [Option.some.injEq] at h; subst h
                exact .start hm hg ht hq
            · rename_i hgs
              simp only [Option.some.injEq] at h; subst h
              exact .idle hst hmode hi hg (getStep_null hgs) (by split <;> omega)
        · rename_i hmode
          split at h
          · rename_i ha
            simp only [Option.some.injEq] at h; subst h
            exact .again hst hmode hi ha
          · rename_i ha
            simp only [Option.some.injEq] at h; subst h
            exact .exit hst hmode hi (by simpa using ha)
        · simp at h

/-- What always holds of calls, tasks and queues. -/
structure TPoolInv (n : Nat) (s : PoolState) : Prop where
  tm : ∀ i f, f ∈ (s.thr i).stack → f.time ≤ s.clock
  ord : ∀ i, (s.thr i).stack.Pairwise (fun f g => g.time < f.time)
  low : ∀ i f fs, (s.thr i).stack = f :: fs → ∀ g ∈ fs, g.pc = .run ∧ ∃ v k, g.code = .wait v k
  task : ∀ i f (j : Nat), f ∈ (s.thr i).stack → f.task = some j →
    ∃ q, s.tasks[j]? = some q ∧ q.st = .started ∧ q.on = i ∧ q.time = f.time ∧ q.caller < f.time
  main : ∀ i f, f ∈ (s.thr i).stack → f.task = none → i = 0 ∧ f.time = 0
  push : ∀ i f (j : Nat), f ∈ (s.thr i).stack → f.pc = .push j →
    ∃ q, s.tasks[j]? = some q ∧ q.st = .made ∧ q.by_ = i ∧ q.caller = f.time
  queue : ∀ v (j : Nat), j ∈ (s.queue v).items → ∃ q, s.tasks[j]? = some q ∧ q.st = .queued ∧ q.by_ = v
  nodup : ∀ v, (s.queue v).items.Nodup
  made : ∀ (j : Nat) (q : PTask), s.tasks[j]? = some q → q.st = .made → ∃ f ∈ (s.thr q.by_).stack, f.pc = .push j
  queued : ∀ (j : Nat) (q : PTask), s.tasks[j]? = some q → q.st = .queued → j ∈ (s.queue q.by_).items
  started : ∀ (j : Nat) (q : PTask), s.tasks[j]? = some q → q.st = .started → (∃ f ∈ (s.thr q.on).stack, f.task = some j) ∨ s.unwound = true
  runs : ∀ (j : Nat) (q : PTask), s.tasks[j]? = some q → q.runs = if q.st = .started ∨ q.st = .finished then 1 else 0
  bnd : ∀ (j : Nat) (q : PTask), s.tasks[j]? = some q → q.by_ < n ∧ q.on < n ∧ q.caller ≤ s.clock
  idx : ∀ i, n ≤ i → (s.thr i).stack = []

theorem TPoolInv.init {n : Nat} (hn : 0 < n) (p : Prog) : TPoolInv n (PoolState.init p) := by
  have hs : ∀ i, ((PoolState.init p).thr i).stack = if i = 0 then [⟨none, p, [], .run, 0⟩] else [] := by
    intro i; simp only [PoolState.init]; split <;> rfl
  have ht : (PoolState.init p).tasks = [] := rfl
  have hq : (PoolState.init p).queue = fun _ => ⟨0, []⟩ := rfl
  constructor <;> simp only [hs, ht, hq] <;> intro i <;> (try split) <;> simp <;> grind

/-- Steps that change neither calls nor tasks nor queues. -/
theorem TPoolInv.same {n : Nat} {s u : PoolState} (h : TPoolInv n s) (ht : u.tasks = s.tasks) (hq : u.queue = s.queue)
    (hc : u.clock = s.clock) (hu : u.unwound = s.unwound) (hs : ∀ i, (u.thr i).stack = (s.thr i).stack) : TPoolInv n u := by
  constructor
  · intro i f; rw [hs, hc]; exact h.tm i f
  · intro i; rw [hs]; exact h.ord i
  · intro i f fs; rw [hs]; exact h.low i f fs
  · intro i f j; rw [hs, ht]; exact h.task i f j
  · intro i f; rw [hs]; exact h.main i f
  · intro i f j; rw [hs, ht]; exact h.push i f j
  · intro v j; rw [hq, ht]; exact h.queue v j
  · intro v; rw [hq]; exact h.nodup v
  · intro j q; rw [ht, hs]; exact h.made j q
  · intro j q; rw [ht, hq]; exact h.queued j q
  · intro j q; rw [ht, hs, hu]; exact h.started j q
  · intro j q; rw [ht]; exact h.runs j q
  · intro j q; rw [ht, hc]; exact h.bnd j q
  · intro i; rw [hs]; exact h.idx i

@[simp] theorem setThr_stack (s : PoolState) (i k : Nat) (t : Thread) :
    ((s.setThr i t).thr k).stack = if k = i then t.stack else (s.thr k).stack := by
  simp only [setThr, upd]; split <;> rfl

/-- The part of a task these invariants are about. -/
def PTask.core (q : PTask) : TaskSt × Nat × Nat × Nat × Nat × Nat := (q.st, q.by_, q.on, q.time, q.caller, q.runs)

/-- Steps that change the innermost call only. -/
theorem TPoolInv.top {n : Nat} {s u : PoolState} (h : TPoolInv n s) {i : Nat} {f f' : Frame} {fs : List Frame}
    (hst : (s.thr i).stack = f :: fs) (htk : f'.task = f.task) (htm : f'.time = f.time)
    (hp : ∀ j, f.pc ≠ .push j) (hp' : ∀ j, f'.pc ≠ .push j)
    (hs : ∀ k, (u.thr k).stack = if k = i then f' :: fs else (s.thr k).stack)
    (hq : u.queue = s.queue) (hc : u.clock = s.clock) (hu : u.unwound = s.unwound)
    (ht : ∀ j : Nat, (u.tasks[j]?).map PTask.core = (s.tasks[j]?).map PTask.core) : TPoolInv n u := by
  have ht1 : ∀ (j : Nat) (q : PTask), u.tasks[j]? = some q → ∃ q', s.tasks[j]? = some q' ∧ q'.st = q.st ∧ q'.by_ = q.by_ ∧
      q'.on = q.on ∧ q'.time = q.time ∧ q'.caller = q.caller ∧ q'.runs = q.runs := by
    intro j q e
    have := ht j
    rw [e] at this
    cases e' : s.tasks[j]? with
    | none => simp [e'] at this
    | some q' => simp [e', PTask.core] at this; exact ⟨q', rfl, by simp [this]⟩
  have ht2 : ∀ (j : Nat) (q : PTask), s.tasks[j]? = some q → ∃ q', u.tasks[j]? = some q' ∧ q'.st = q.st ∧ q'.by_ = q.by_ ∧
      q'.on = q.on ∧ q'.time = q.time ∧ q'.caller = q.caller ∧ q'.runs = q.runs := by
    intro j q e
    have := ht j
    rw [e] at this
    cases e' : u.tasks[j]? with
    | none => simp [e'] at this
    | some q' => simp [e', PTask.core] at this; exact ⟨q', rfl, by simp [this]⟩
  clear ht
  constructor
  case tm => have := h.tm; grind
  case ord =>
    intro k; rw [hs]
    have := h.ord k
    split
    · rename_i e; subst e; rw [hst] at this; simpa [htm] using this
    · exact this
  case low => have := h.low; grind
  case task => have := h.task; grind
  case main => have := h.main; grind
  case push => have := h.push; grind
  case queue => rw [hq]; have := h.queue; grind
  case nodup => rw [hq]; exact h.nodup
  case made => have := h.made; grind
  case queued => have := h.queued; grind
  case started => have := h.started; grind
  case runs => have := h.runs; grind
  case bnd => have := h.bnd; grind
  case idx => have := h.idx; grind

theorem get_modify {l : List PTask} {j : Nat} {q : PTask} (F : PTask → PTask) (m : Nat) (h : l[j]? = some q) :
    (l.modify j F)[m]? = if m = j then some (F q) else l[m]? := by
  rw [List.getElem?_modify]
  by_cases e : m = j
  · subst e; simp [h]
  · rw [if_neg e]
    cases l[m]? <;> simp [Ne.symm e]

/-- A task is taken from a queue and called. -/
theorem TPoolInv.start {n : Nat} {s u : PoolState} (h : TPoolInv n s) {i v j : Nat} (hi : i < n) {f : Frame} {q : PTask}
    {l r : List Nat} {qu : TQueue} (hl : (s.queue v).items = l ++ j :: r) (hr : qu.items = l ++ r)
    (hm : ∀ f fs, (s.thr i).stack = f :: fs → f.pc = .run ∧ ∃ v k, f.code = .wait v k)
    (hq : s.tasks[j]? = some q) (hft : f.task = some j) (hfp : f.pc = .run) (hfm : f.time = s.clock + 1)
    (hs : ∀ k, (u.thr k).stack = if k = i then f :: (s.thr i).stack else (s.thr k).stack)
    (hQ : ∀ k, u.queue k = if k = v then qu else s.queue k) (hc : u.clock = s.clock + 1) (hu : u.unwound = s.unwound)
    (ht : ∀ m : Nat, u.tasks[m]? = if m = j then some (q.begin_ i (s.clock + 1)) else s.tasks[m]?) : TPoolInv n u := by
  obtain ⟨hq1, hq2⟩ : q.st = .queued ∧ q.by_ = v := by
    obtain ⟨q0, hq0, hq1⟩ := h.queue v j (by simp [hl])
    rw [hq] at hq0; simp only [Option.some.injEq] at hq0; subst hq0; exact hq1
  have hx := h.nodup v
  have hb := h.bnd j q hq
  have hj : j ∉ l ∧ j ∉ r := by rw [hl] at hx; grind
  simp only [PTask.begin_] at ht
  constructor
  case tm => have := h.tm; grind
  case ord => 
    intro k; rw [hs]; split
    · rename_i e; subst e
      refine List.pairwise_cons.2 ⟨?_, h.ord k⟩
      intro g hg; have := h.tm k g hg; omega
    · exact h.ord k
  case low =>
    intro k g gs hg
    rw [hs] at hg
    split at hg
    · simp only [List.cons.injEq] at hg
      obtain ⟨-, rfl⟩ := hg
      intro g' hg'
      cases e : (s.thr i).stack with
      | nil => simp [e] at hg'
      | cons g0 gs0 =>
        rw [e] at hg'
        rcases List.mem_cons.1 hg' with rfl | hg'
        · exact hm _ _ e
        · exact h.low i g0 gs0 e g' hg'
    · exact h.low k g gs hg
  case task => have := h.task; grind
  case main => have := h.main; grind
  case push => have := h.push; grind
  case queue =>
    intro w m hw
    have h1 : m ∈ (s.queue w).items ∧ m ≠ j := by
      rw [hQ] at hw
      split at hw
      · rename_i e; subst e
        rw [hr] at hw; rw [hl]; grind
      · refine ⟨hw, ?_⟩
        rintro rfl
        obtain ⟨q', h1, -, h2⟩ := h.queue w m hw
        rw [hq] at h1; simp only [Option.some.injEq] at h1; subst h1; omega
    rw [ht, if_neg h1.2]
    exact h.queue w m h1.1
  case nodup => 
    intro k; rw [hQ]; split
    · rw [hr]; rw [hl] at hx; grind
    · exact h.nodup k
  case made => have := h.made; grind
  case queued => have := h.queued; grind
  case started => have := h.started; grind
  case runs => have := h.runs; grind
  case bnd => have := h.bnd; grind
  case idx => have := h.idx; grind

/-- A task is pushed. -/
theorem TPoolInv.pushed {n : Nat} {s u : PoolState} (h : TPoolInv n s) {i j : Nat} {f : Frame} {fs : List Frame} {q : PTask}
    (hst : (s.thr i).stack = f :: fs) (hpc : f.pc = .push j) (hq0 : s.tasks[j]? = some q)
    (hs : ∀ k, (u.thr k).stack = if k = i then { f with pc := .run } :: fs else (s.thr k).stack)
    (hQ : ∀ k, u.queue k = if k = i then (s.queue i).push j else s.queue k) (hc : u.clock = s.clock) (hu : u.unwound = s.unwound)
    (ht : ∀ m : Nat, u.tasks[m]? = if m = j then some (q.setSt .queued) else s.tasks[m]?) : TPoolInv n u := by
  obtain ⟨hq1, hq2, hq3⟩ : q.st = .made ∧ q.by_ = i ∧ q.caller = f.time := by
    obtain ⟨q0, hq0', hq1⟩ := h.push i f j (by simp [hst]) hpc
    rw [hq0] at hq0'; simp only [Option.some.injEq] at hq0'; subst hq0'; exact hq1
  have hlow := h.low i f fs hst
  have hmem : ∀ g, g ∈ (s.thr i).stack ↔ g = f ∨ g ∈ fs := by simp [hst]
  have hm2 : ∀ k g, g ∈ (s.thr k).stack → ∃ g' ∈ (u.thr k).stack, g'.task = g.task := by
    intro k g hg
    rw [hs]
    split
    · rename_i e; subst e
      rcases (hmem g).1 hg with rfl | hg
      · exact ⟨_, List.mem_cons_self, rfl⟩
      · exact ⟨g, List.mem_cons_of_mem _ hg, rfl⟩
    · exact ⟨g, hg, rfl⟩
  simp only [PTask.setSt] at ht
  simp only [TQueue.push] at hQ
  constructor
  case tm => have := h.tm; grind
  case ord => 
    intro k; rw [hs]
    have := h.ord k
    split
    · rename_i e; subst e; rw [hst] at this; simpa using this
    · exact this
  case low => have := h.low; grind
  case task => have := h.task; grind
  case main => have := h.main; grind
  case push => have := h.push; grind
  case queue => have := h.queue; grind
  case nodup => 
    intro k; rw [hQ]; split
    · have := h.queue i j; have := h.nodup i; grind
    · exact h.nodup k
  case made => have := h.made; grind
  case queued => have := h.queued; grind
  case started => clear hs hmem hlow hQ; have := h.started; grind
  case runs => have := h.runs; grind
  case bnd => have := h.bnd; grind
  case idx => have := h.idx; grind

/-- A call ends. -/
theorem TPoolInv.finished {n : Nat} {s u : PoolState} (h : TPoolInv n s) {i j k : Nat} {f : Frame} {fs : List Frame} {q : PTask}
    (hst : (s.thr i).stack = f :: fs) (hpc : f.pc = .check j) (hk : f.task = some k) (hq0 : s.tasks[k]? = some q)
    (hs : ∀ k, (u.thr k).stack = if k = i then fs else (s.thr k).stack)
    (hQ : u.queue = s.queue) (hc : u.clock = s.clock) (hu : u.unwound = s.unwound)
    (ht : ∀ m : Nat, u.tasks[m]? = if m = k then some (q.setSt .finished) else s.tasks[m]?) : TPoolInv n u := by
  obtain ⟨hq1, hq2, hq3⟩ : q.st = .started ∧ q.on = i ∧ q.time = f.time := by
    obtain ⟨q0, hq0', hq1⟩ := h.task i f k (by simp [hst]) hk
    rw [hq0] at hq0'; simp only [Option.some.injEq] at hq0'; subst hq0'; exact ⟨hq1.1, hq1.2.1, hq1.2.2.1⟩
  have hlow := h.low i f fs hst
  have hmem : ∀ g, g ∈ (s.thr i).stack ↔ g = f ∨ g ∈ fs := by simp [hst]
  have hord : ∀ g ∈ fs, g.time < f.time := by have := h.ord i; rw [hst] at this; exact (List.pairwise_cons.1 this).1
  simp only [PTask.setSt] at ht
  constructor
  case tm => have := h.tm; grind
  case ord => 
    intro k; rw [hs]
    have := h.ord k
    split
    · rename_i e; subst e; rw [hst] at this; exact (List.pairwise_cons.1 this).2
    · exact this
  case low => have := h.low; grind
  case task => have := h.task; grind
  case main => have := h.main; grind
  case push => have := h.push; grind
  case queue => rw [hQ]; have := h.queue; grind
  case nodup => rw [hQ]; exact h.nodup
  case made => have := h.made; grind
  case queued => rw [hQ]; have := h.queued; grind
  case started => have := h.started; grind
  case runs => have := h.runs; grind
  case bnd => have := h.bnd; grind
  case idx => have := h.idx; grind

/-- A task is made; its parent's counter changes. -/
theorem TPoolInv.submitted {n : Nat} {s u : PoolState} (h : TPoolInv n s) {i : Nat} (hi : i < n) {f f' : Frame} {fs : List Frame} {q : PTask}
    (hst : (s.thr i).stack = f :: fs) (hpc : f.pc = .run) (htk : f'.task = f.task) (htm : f'.time = f.time)
    (hp' : f'.pc = .push s.tasks.length)
    (hs : ∀ k, (u.thr k).stack = if k = i then f' :: fs else (s.thr k).stack)
    (hQ : u.queue = s.queue) (hc : u.clock = s.clock) (hu : u.unwound = s.unwound)
    (hqc : q.core = (.made, i, 0, 0, f.time, 0))
    (ht : ∀ m : Nat, (u.tasks[m]?).map PTask.core = if m = s.tasks.length then some q.core else (s.tasks[m]?).map PTask.core) : TPoolInv n u := by
  have ht1 : ∀ (j : Nat) (q : PTask), j ≠ s.tasks.length → u.tasks[j]? = some q → ∃ q', s.tasks[j]? = some q' ∧ q'.st = q.st ∧ q'.by_ = q.by_ ∧
      q'.on = q.on ∧ q'.time = q.time ∧ q'.caller = q.caller ∧ q'.runs = q.runs := by
    intro j q hj e
    have := ht j
    rw [e, if_neg hj] at this
    cases e' : s.tasks[j]? with
    | none => simp [e'] at this
    | some q' => simp [e', PTask.core] at this; exact ⟨q', rfl, by simp [this]⟩
  have ht2 : ∀ (j : Nat) (q : PTask), s.tasks[j]? = some q → ∃ q', u.tasks[j]? = some q' ∧ q'.st = q.st ∧ q'.by_ = q.by_ ∧
      q'.on = q.on ∧ q'.time = q.time ∧ q'.caller = q.caller ∧ q'.runs = q.runs := by
    intro j q e
    have := ht j
    have hj : j ≠ s.tasks.length := by rintro rfl; simp at e
    rw [e, if_neg hj] at this
    cases e' : u.tasks[j]? with
    | none => simp [e'] at this
    | some q' => simp [e', PTask.core] at this; exact ⟨q', rfl, by simp [this]⟩
  obtain ⟨q', ht3, ht4⟩ : ∃ q', u.tasks[s.tasks.length]? = some q' ∧ q'.st = .made ∧ q'.by_ = i ∧ q'.on = 0 ∧ q'.caller = f.time ∧ q'.runs = 0 := by
    have := ht s.tasks.length
    rw [if_pos rfl] at this
    cases e' : u.tasks[s.tasks.length]? with
    | none => simp [e'] at this
    | some q' => rw [hqc, e'] at this; simp [PTask.core] at this; exact ⟨q', rfl, by simp [this]⟩
  clear ht hqc
  have hlow := h.low i f fs hst
  have hmem : ∀ g, g ∈ (s.thr i).stack ↔ g = f ∨ g ∈ fs := by simp [hst]
  have hft := h.tm i f (by simp [hst])
  have hlen : s.tasks[s.tasks.length]? = none := by simp
  constructor
  case tm => have := h.tm; grind
  case ord => 
    intro k; rw [hs]
    have := h.ord k
    split
    · rename_i e; subst e; rw [hst] at this; simpa [htm] using this
    · exact this
  case low => have := h.low; grind
  case task => have := h.task; grind
  case main => have := h.main; grind
  case push => have := h.push; grind
  case queue => rw [hQ]; have := h.queue; grind
  case nodup => rw [hQ]; exact h.nodup
  case made => have := h.made; grind
  case queued => rw [hQ]; have := h.queued; grind
  case started => have := h.started; grind
  case runs => have := h.runs; grind
  case bnd => have := h.bnd; grind
  case idx => have := h.idx; grind

/-- All calls of the first worker are left. -/
theorem TPoolInv.left {n : Nat} {s u : PoolState} (h : TPoolInv n s)
    (hs : ∀ k, (u.thr k).stack = if k = 0 then [] else (s.thr k).stack)
    (hp : ∀ f ∈ (s.thr 0).stack, ∀ j, f.pc ≠ .push j)
    (hQ : u.queue = s.queue) (hc : u.clock = s.clock)
    (hu : u.unwound = true ∨ u.unwound = s.unwound ∧ ∀ f ∈ (s.thr 0).stack, f.task = none) (ht : u.tasks = s.tasks) : TPoolInv n u := by
  constructor
  case tm => have := h.tm; grind
  case ord => 
    intro k; rw [hs]
    have := h.ord k
    split
    · simp
    · exact this
  case low => have := h.low; grind
  case task => have := h.task; grind
  case main => have := h.main; grind
  case push => have := h.push; grind
  case queue => rw [hQ, ht]; exact h.queue
  case nodup => rw [hQ]; exact h.nodup
  case made => have := h.made; grind
  case queued => rw [hQ, ht]; exact h.queued
  case started => have := h.started; grind
  case runs => rw [ht]; exact h.runs
  case bnd => rw [ht, hc]; exact h.bnd
  case idx => have := h.idx; grind

theorem TPoolInv.step {n : Nat} {s u : PoolState} {i : Nat} (h : TPoolInv n s) (hi : i < n) (hs : PoolStep n s i u) : TPoolInv n u := by
  cases hs with
  | idle => exact h.same rfl rfl rfl rfl (by intro k; simp [setThr, upd]; grind)
  | retry => exact h.same rfl rfl rfl rfl (by intro k; simp [setThr, upd]; grind)
  | goOn => exact h.same rfl rfl rfl rfl (by intro k; simp [setThr, upd]; grind)
  | look => exact h.same rfl rfl rfl rfl (by intro k; simp [setThr, upd]; grind)
  | again => exact h.same rfl rfl rfl rfl (by intro k; simp [setThr, upd]; grind)
  | exit => exact h.same rfl rfl rfl rfl (by intro k; simp [setThr, upd]; grind)
  | stop => exact h.same rfl rfl rfl rfl (fun _ => rfl)
  | stopped => exact h.same rfl rfl rfl rfl (fun _ => rfl)
  | join => exact h.same rfl rfl rfl rfl (fun _ => rfl)
  | joined => exact h.same rfl rfl rfl rfl (fun _ => rfl)
  | terminate => exact h.same rfl rfl rfl rfl (fun _ => rfl)
  | start hm hg ht hq =>
    obtain ⟨l, r, hl, hr⟩ := ht.mem
    refine h.start hi hl hr ?_ hq rfl rfl rfl (fun k => setThr_stack ..) (by simp [modTask, setThr, upd]) rfl rfl ?_
    · intro f fs hf
      rcases hm with hm | ⟨f', fs', v, k, h1, h2, h3⟩
      · simp [hm.1] at hf
      · rw [hf] at h1; simp only [List.cons.injEq] at h1; obtain ⟨rfl, rfl⟩ := h1; exact ⟨h2, v, k, h3⟩
    · intro m; exact get_modify _ _ hq
  | push hst hpc =>
    obtain ⟨q0, hq0, -⟩ := h.push i _ _ (by rw [hst]; simp) hpc
    exact h.pushed hst hpc hq0 (by simp [setTop, modTask]) (by simp [setTop, setThr, modTask, upd]) rfl rfl
      (fun m => get_modify _ _ hq0)
  | sub hst hpc hq hk =>
    rename_i f fs j q k
    refine h.top (f' := { f with pc := .check j }) hst rfl rfl (by simp [hpc]) (by simp) (by simp [setTop, modTask]) rfl rfl rfl ?_
    intro m
    simp only [setTop, setThr, modTask, List.getElem?_modify]
    cases s.tasks[m]? with
    | none => rfl
    | some q' =>
      have h1 : ∀ q, (PTask.pay k j q).core = q.core := by intro q; unfold PTask.pay; split <;> rfl
      have h2 : ∀ q, (PTask.dec q).core = q.core := by intro q; simp only [PTask.dec, PTask.core]
      simp only [Option.map_eq_map, Option.map_some, Option.some.injEq]
      split <;> split <;> simp [h1, h2]
  | up hst hpc hq hk hc hp =>
    rename_i f _ _ _ _ p
    exact h.top (f' := { f with pc := .sub p }) hst rfl rfl (by simp [hpc]) (by simp) (by simp [setTop]) rfl rfl rfl (fun _ => rfl)
  | finish hst hpc hq hk hc =>
    obtain ⟨q0, hq0, -⟩ := h.task i _ _ (by rw [hst]; simp) hk
    exact h.finished hst hpc hk hq0 (by simp [modTask]) rfl rfl rfl (fun m => get_modify _ _ hq0)
  | ret hst hpc hc hk =>
    rename_i f _ j
    exact h.top (f' := { f with pc := .sub j }) hst rfl rfl (by simp [hpc]) (by simp) (by simp [setTop]) rfl rfl rfl (fun _ => rfl)
  | leave hst hpc hc hk =>
    rename_i f fs
    obtain ⟨rfl, hf⟩ := h.main i f (by simp [hst]) hk
    have hfs : fs = [] := by
      have := h.ord 0
      rw [hst] at this
      cases fs with
      | nil => rfl
      | cons g gs => have := (List.pairwise_cons.1 this).1 g (by simp); omega
    subst hfs
    refine h.left (by simp) ?_ rfl rfl (.inr ⟨rfl, ?_⟩) rfl
    · simp [hst, hpc]
    · simp [hst, hk]
  | unwind hst hpc hc hi =>
    rename_i f fs
    subst hi
    refine h.left (by simp) ?_ rfl rfl (.inl rfl) rfl
    intro g hg
    rw [hst] at hg
    have := h.low 0 f fs hst g
    rcases List.mem_cons.1 hg with rfl | hg
    · simp [hpc]
    · simp [(this hg).1]
  | submitRoot hst hpc hc =>
    rename_i f _ _ k
    refine h.submitted (f' := { f with code := k, env := s.tasks.length :: f.env, pc := .push s.tasks.length }) hi hst hpc rfl rfl rfl (by simp [setTop]) rfl rfl rfl rfl (q := { parent := none, counter := 1, code := .ret, env := [], by_ := i, caller := _ }) ?_
    intro m
    simp only [setTop, setThr, List.getElem?_append]
    grind [PTask.core]
  | submitChild hst hpc hc hv hq =>
    rename_i f _ _ _ k _ _
    refine h.submitted (f' := { f with code := k, env := s.tasks.length :: f.env, pc := .push s.tasks.length }) hi hst hpc rfl rfl rfl (by simp [setTop]) rfl rfl rfl rfl (q := { parent := none, counter := 1, code := .ret, env := [], by_ := i, caller := _ }) ?_
    intro m
    simp only [setTop, setThr, List.getElem?_append, get_modify _ _ hq, List.length_modify]
    grind [PTask.core, PTask.inc]
  | waited hst hpc hc hg hv hq h0 =>
    rename_i f _ _ k _ _
    exact h.top (f' := { f with code := k }) hst rfl rfl (by simp [hpc]) (by simp [hpc]) (by simp [setTop]) rfl rfl rfl (fun _ => rfl)

/-- What always holds of the loops of the workers and the destructor. -/
structure TPoolInv2 (n : Nat) (s : PoolState) : Prop where
  mode : ∀ i, (s.thr i).mode ≠ .loop → (s.thr i).stack = [] ∧ (s.thr i).get = none
  get : ∀ i f fs, (s.thr i).get ≠ none → (s.thr i).stack = f :: fs → f.pc = .run ∧ ∃ v k, f.code = .wait v k
  empty : ∀ i, i ≠ 0 → (s.thr i).stack = [] → ((s.thr i).mode ≠ .loop ∨ ∃ g, (s.thr i).get = some g ∧ g ≠ .pop) →
    (s.queue i).items = []
  run : s.main = .run → ∃ f ∈ (s.thr 0).stack, f.task = none
  left : s.main ≠ .run → (s.thr 0).stack = []
  stop : ∀ k, s.main = .stop k → ∀ j, 1 ≤ j → j < k → s.active j = false
  join : ∀ k, s.main = .join k → (∀ j, 1 ≤ j → j < n → s.active j = false) ∧
    ∀ j, 1 ≤ j → j < k → (s.thr j).mode = .exited
  gone : s.main = .gone → ∀ j, 1 ≤ j → j < n → (s.thr j).mode = .exited

theorem TPoolInv2.init (n : Nat) (p : Prog) : TPoolInv2 n (PoolState.init p) := by
  constructor <;> simp [PoolState.init] <;> grind

theorem take_nil {s : PoolState} {i : Nat} {g : GetPc} {v j : Nat} {q : TQueue} (h : Takes s i g v j q) :
    (s.queue v).items ≠ [] := by
  obtain ⟨l, r, hl, -⟩ := h.mem
  simp [hl]

theorem TPoolInv2.step {n : Nat} {s u : PoolState} {i : Nat} (h1 : TPoolInv n s) (h : TPoolInv2 n s) (hs : PoolStep n s i u) : TPoolInv2 n u := by
  cases hs with
  | idle ha hb hc hd he =>
    constructor <;> simp only [setThr, upd]
    case mode => have := h.mode; grind
    case get => have := h.get; grind
    case empty => have := h.empty; grind
    case run => have := h.run; grind
    case left => have := h.left; grind
    case stop => have := h.stop; grind
    case join => have := h.join; grind
    case gone => have := h.gone; grind
  | retry ha hb hc hd =>
    constructor <;> simp only [setThr, upd]
    case mode => have := h.mode; grind
    case get => have := h.get; grind
    case empty => have := h.empty; grind
    case run => have := h.run; grind
    case left => have := h.left; grind
    case stop => have := h.stop; grind
    case join => have := h.join; grind
    case gone => have := h.gone; grind
  | goOn ha hb hc =>
    constructor <;> simp only [setThr, upd]
    case mode => have := h.mode; grind
    case get => have := h.get; grind
    case empty => have := h.empty; have := hc.1; have := hc.2.1; grind
    case run => have := h.run; grind
    case left => have := h.left; grind
    case stop => have := h.stop; grind
    case join => have := h.join; grind
    case gone => have := h.gone; grind
  | look ha hb hc =>
    constructor <;> simp only [setThr, upd]
    case mode => have := h.mode; simp only [MayGet] at ha; grind
    case get => have := h.get; simp only [MayGet] at ha; grind
    case empty => have := h.empty; grind
    case run => have := h.run; grind
    case left => have := h.left; grind
    case stop => have := h.stop; grind
    case join => have := h.join; grind
    case gone => have := h.gone; grind
  | again ha hb hc hd =>
    constructor <;> simp only [setThr, upd]
    case mode => have := h.mode; grind
    case get => have := h.get; grind
    case empty => have := h.empty; have := h.mode; grind
    case run => have := h.run; grind
    case left => have := h.left; grind
    case stop => have := h.stop; grind
    case join => have := h.join; grind
    case gone => have := h.gone; grind
  | exit ha hb hc hd =>
    constructor <;> simp only [setThr, upd]
    case mode => have := h.mode; grind
    case get => have := h.get; grind
    case empty => have := h.empty; have := h.mode; grind
    case run => have := h.run; grind
    case left => have := h.left; grind
    case stop => have := h.stop; grind
    case join => have := h.join; grind
    case gone => have := h.gone; grind
  | stop ha hb hc hd =>
    constructor <;> simp only [upd]
    case mode => exact h.mode
    case get => exact h.get
    case empty => exact h.empty
    case run => simp
    case left => simpa [ha] using hb
    case stop => have := h.stop; grind
    case join => simp
    case gone => simp
  | stopped ha hb hc hd =>
    constructor <;> simp only
    case mode => exact h.mode
    case get => exact h.get
    case empty => exact h.empty
    case run => simp
    case left => simpa [ha] using hb
    case stop => simp
    case join => have := h.stop; grind
    case gone => simp
  | join ha hb hc hd he =>
    constructor <;> simp only
    case mode => exact h.mode
    case get => exact h.get
    case empty => exact h.empty
    case run => simp
    case left => simpa [ha] using hb
    case stop => simp
    case join => have := h.join; grind
    case gone => simp
  | joined ha hb hc hd =>
    constructor <;> simp only
    case mode => exact h.mode
    case get => exact h.get
    case empty => exact h.empty
    case run => simp
    case left => simpa [ha] using hb
    case stop => simp
    case join => simp
    case gone => have := h.join; grind
  | terminate => exact ⟨h.mode, h.get, h.empty, h.run, h.left, h.stop, h.join, h.gone⟩
  | start hm hg ht hq =>
    have hne := take_nil ht
    constructor <;> simp only [modTask, setThr, upd]
    case mode => have := h.mode; simp only [MayGet] at hm; grind
    case get => have := h.get; grind
    case empty => have := h.empty; grind
    case run => have := h.run; grind
    case left => have := h.left; have := h.run; simp only [MayGet] at hm; grind
    case stop => have := h.stop; grind
    case join => have := h.join; grind
    case gone => have := h.gone; grind
  | push hst hpc =>
    constructor <;> simp only [modTask, setTop, setThr, upd]
    case mode => have := h.mode; grind
    case get => have := h.get; grind
    case empty => have := h.empty; grind
    case run =>
      intro hr; have := h.run hr
      by_cases e : 0 = i
      · subst e; simpa [hst] using this
      · simpa [e] using this
    case left => have := h.left; grind
    case stop => have := h.stop; grind
    case join => have := h.join; grind
    case gone => have := h.gone; grind
  | sub hst hpc hq hk =>
    constructor <;> simp only [modTask, setTop, setThr, upd]
    case mode => have := h.mode; grind
    case get => have := h.get; grind
    case empty => have := h.empty; grind
    case run =>
      intro hr; have := h.run hr
      by_cases e : 0 = i
      · subst e; simpa [hst] using this
      · simpa [e] using this
    case left => have := h.left; grind
    case stop => have := h.stop; grind
    case join => have := h.join; grind
    case gone => have := h.gone; grind
  | up hst hpc hq hk hc hp =>
    constructor <;> simp only [setTop, setThr, upd]
    case mode => have := h.mode; grind
    case get => have := h.get; grind
    case empty => have := h.empty; grind
    case run =>
      intro hr; have := h.run hr
      by_cases e : 0 = i
      · subst e; simpa [hst] using this
      · simpa [e] using this
    case left => have := h.left; grind
    case stop => have := h.stop; grind
    case join => have := h.join; grind
    case gone => have := h.gone; grind
  | finish hst hpc hq hk hc =>
    have hg : (s.thr i).get = none := by
      cases e : (s.thr i).get with
      | none => rfl
      | some g => have := h.get i _ _ (by simp [e]) hst; simp [hpc] at this
    constructor <;> simp only [modTask, setThr, upd]
    case mode => have := h.mode; grind
    case get => have := h.get; grind
    case empty => have := h.empty; have := h.mode i; grind
    case run => have := h.run; grind
    case left => have := h.left; grind
    case stop => have := h.stop; grind
    case join => have := h.join; grind
    case gone => have := h.gone; grind
  | ret hst hpc hc hk =>
    constructor <;> simp only [setTop, setThr, upd]
    case mode => have := h.mode; grind
    case get => have := h.get; grind
    case empty => have := h.empty; grind
    case run =>
      intro hr; have := h.run hr
      by_cases e : 0 = i
      · subst e; simpa [hst] using this
      · simpa [e] using this
    case left => have := h.left; grind
    case stop => have := h.stop; grind
    case join => have := h.join; grind
    case gone => have := h.gone; grind
  | leave hst hpc hc hk =>
    have hi := (h1.main i _ (by rw [hst]; simp) hk).1
    constructor <;> simp only [setThr, upd]
    case mode => have := h.mode; grind
    case get => have := h.get; grind
    case empty => have := h.empty; grind
    all_goals grind
  | unwind hst hpc hc hi =>
    constructor <;> simp only [setThr, upd]
    case mode => have := h.mode; grind
    case get => have := h.get; grind
    case empty => have := h.empty; grind
    all_goals grind
  | submitRoot hst hpc hc =>
    constructor <;> simp only [setTop, setThr, upd]
    case mode => have := h.mode; grind
    case get => have := h.get; grind
    case empty => have := h.empty; grind
    case run =>
      intro hr; have := h.run hr
      by_cases e : 0 = i
      · subst e; simpa [hst] using this
      · simpa [e] using this
    case left => have := h.left; grind
    case stop => have := h.stop; grind
    case join => have := h.join; grind
    case gone => have := h.gone; grind
  | submitChild hst hpc hc hv hq =>
    constructor <;> simp only [setTop, setThr, upd]
    case mode => have := h.mode; grind
    case get => have := h.get; grind
    case empty => have := h.empty; grind
    case run =>
      intro hr; have := h.run hr
      by_cases e : 0 = i
      · subst e; simpa [hst] using this
      · simpa [e] using this
    case left => have := h.left; grind
    case stop => have := h.stop; grind
    case join => have := h.join; grind
    case gone => have := h.gone; grind
  | waited hst hpc hc hg hv hq h0 =>
    constructor <;> simp only [setTop, setThr, upd]
    case mode => have := h.mode; grind
    case get => have := h.get; grind
    case empty => have := h.empty; grind
    case run =>
      intro hr; have := h.run hr
      by_cases e : 0 = i
      · subst e; simpa [hst] using this
      · simpa [e] using this
    case left => have := h.left; grind
    case stop => have := h.stop; grind
    case join => have := h.join; grind
    case gone => have := h.gone; grind

theorem PoolReach.inv {n : Nat} (hn : 0 < n) {p : Prog} {s : PoolState} (h : PoolReach n p s) : TPoolInv n s ∧ TPoolInv2 n s := by
  unfold PoolReach at h
  generalize hp : PoolState.init p = s0 at h
  induction h with
  | refl => subst hp; exact ⟨TPoolInv.init hn p, TPoolInv2.init n p⟩
  | step i r a _ hs ih =>
    obtain ⟨-, hi, hs⟩ := step_cases hs
    exact ⟨ih.1.step hi hs, TPoolInv2.step ih.1 ih.2 hs⟩

/-- What always holds if no function throws. -/
structure NInv (s : PoolState) : Prop where
  dead : s.dead = false
  unwound : s.unwound = false
  frame : ∀ i f, f ∈ (s.thr i).stack → f.code.NoThrow
  task : ∀ q ∈ s.tasks, q.code.NoThrow

theorem mem_modify {l : List PTask} {j : Nat} {F : PTask → PTask} {q : PTask} (h : q ∈ l.modify j F) : q ∈ l ∨ ∃ q' ∈ l, q = F q' := by
  obtain ⟨m, hm⟩ := List.getElem?_of_mem h
  rw [List.getElem?_modify] at hm
  cases e : l[m]? with
  | none => simp [e] at hm
  | some q' =>
    have := List.mem_of_getElem? e
    simp [e] at hm
    split at hm
    · exact .inr ⟨q', this, hm.symm⟩
    · subst hm; exact .inl this

theorem pay_code (k j : Nat) (q : PTask) : (PTask.pay k j q).code = q.code := by unfold PTask.pay; split <;> rfl

theorem NInv.step {n : Nat} {s u : PoolState} {i : Nat} (h : NInv s) (hs : PoolStep n s i u) : NInv u := by
  have hf := h.frame
  have ht := h.task
  have hd := h.dead
  have hu := h.unwound
  cases hs
  case unwind f fs hst hpc hc hi => have := hf i f (by simp [hst]); simp [hc, Prog.NoThrow] at this
  case terminate f fs hst hpc hc hi => have := hf i f (by simp [hst]); simp [hc, Prog.NoThrow] at this
  all_goals refine ⟨hd, hu, ?_, ?_⟩
  case start.refine_2 =>
    intro q hq
    simp only [modTask, setThr] at hq
    rcases mem_modify hq with hq | ⟨q', hq', rfl⟩
    · exact ht q hq
    · exact ht q' hq'
  case push.refine_2 =>
    intro q hq
    simp only [modTask, setTop, setThr] at hq
    rcases mem_modify hq with hq | ⟨q', hq', rfl⟩
    · exact ht q hq
    · exact ht q' hq'
  case finish.refine_2 =>
    intro q hq
    simp only [modTask, setThr] at hq
    rcases mem_modify hq with hq | ⟨q', hq', rfl⟩
    · exact ht q hq
    · exact ht q' hq'
  case sub.refine_2 j _ _ _ _ _ _ =>
    intro q hq
    simp only [modTask, setTop, setThr] at hq
    have : ∀ q ∈ s.tasks.modify j PTask.dec, q.code.NoThrow := by
      intro q hq
      rcases mem_modify hq with hq | ⟨q', hq', rfl⟩
      · exact ht q hq
      · simp only [PTask.dec]; exact ht q' hq'
    rcases mem_modify hq with hq | ⟨q', hq', rfl⟩
    · exact this q hq
    · rw [pay_code]; exact this q' hq'
  case submitRoot.refine_2 f fs c k hst hpc hc =>
    have := hf i f (by simp [hst])
    rw [hc] at this
    intro q hq
    simp only [setTop, setThr, List.mem_append, List.mem_singleton] at hq
    rcases hq with hq | rfl
    · exact ht q hq
    · exact this.1
  case submitChild.refine_2 f fs v c k pj q0 hst hpc hc hv hq0 =>
    have := hf i f (by simp [hst])
    rw [hc] at this
    intro q hq
    simp only [setTop, setThr, List.mem_append, List.mem_singleton] at hq
    rcases hq with hq | rfl
    · rcases mem_modify hq with hq | ⟨q', hq', rfl⟩
      · exact ht q hq
      · exact ht q' hq'
    · exact this.1
  all_goals first | exact ht | exact hf | skip
  case start.refine_1 q _ _ _ hq =>
    have := ht _ (List.mem_of_getElem? hq)
    simp only [modTask, setThr, upd]; grind
  case submitRoot.refine_1 f fs c k hst hpc hc =>
    have := hf i f (by simp [hst])
    rw [hc] at this
    have := this.2
    simp only [setTop, setThr, upd]; grind
  case submitChild.refine_1 f fs v c k pj q0 hst hpc hc hv hq0 =>
    have := hf i f (by simp [hst])
    rw [hc] at this
    have := this.2
    simp only [setTop, setThr, upd]; grind
  case waited.refine_1 f fs v k j q hst hpc hc hg hv hq h0 =>
    have := hf i f (by simp [hst])
    rw [hc] at this
    simp only [Prog.NoThrow] at this
    simp only [setTop, setThr, upd]; grind
  all_goals simp only [modTask, setTop, setThr, upd]; grind

theorem PoolReach.noThrow {n : Nat} {p : Prog} {s : PoolState} (hp : p.NoThrow) (h : PoolReach n p s) : NInv s := by
  unfold PoolReach at h
  generalize hp0 : PoolState.init p = s0 at h
  induction h with
  | refl => subst hp0; exact ⟨rfl, rfl, by intro i f; simp only [PoolState.init]; grind, by simp [PoolState.init]⟩
  | step i r a _ hs ih =>
    obtain ⟨-, -, hs⟩ := step_cases hs
    exact ih.step hs

/-- The worker that a thread steals from. -/
def VInv (n : Nat) (s : PoolState) : Prop := ∀ i v t, (s.thr i).get = some (.rndTake v t) → 1 ≤ v ∧ v < n ∧ v ≠ i

theorem getStep_victim {n : Nat} {s : PoolState} {i r v t : Nat} {g : GetPc} (hn : 0 < n) (h : s.getStep n i r g = .more (.rndTake v t)) :
    1 ≤ v ∧ v < n ∧ v ≠ i := by
  unfold getStep at h
  split at h
  · split at h
    · simp at h
    · simp at h; split at h <;> simp at h
  · simp at h
  · split at h <;> simp at h
  · split at h
    · simp at h
    · split at h
      · simp at h
      · rename_i h1 h2
        simp only [GetRes.more.injEq, GetPc.rndTake.injEq] at h
        have := Nat.mod_lt r (by omega : 0 < n - 1)
        omega
  · split at h <;> simp at h

theorem VInv.step {n : Nat} {s u : PoolState} {i r : Nat} {a : Bool} (hv : VInv n s) (h : s.step n i r a = some u) : VInv n u := by
  have keep : ∀ (t : Thread) (w : PoolState), w.thr = s.thr → (t.get = none ∨ t.get = (s.thr i).get ∨ ∃ g, t.get = some g ∧ (∀ v x, g = .rndTake v x → 1 ≤ v ∧ v < n ∧ v ≠ i)) →
      ∀ k v x, ((w.setThr i t).thr k).get = some (.rndTake v x) → 1 ≤ v ∧ v < n ∧ v ≠ k := by
    intro t w hw ht k v x hk
    simp only [setThr, upd, hw] at hk
    split at hk
    · rename_i e; subst e
      rcases ht with ht | ht | ⟨g, hg, ht⟩
      · rw [ht] at hk; simp at hk
      · rw [ht] at hk; exact hv k v x hk
      · rw [hg] at hk; simp only [Option.some.injEq] at hk; exact ht v x hk
    · exact hv k v x hk
  have hd := (step_cases h).2.1
  have hn : 0 < n := by omega
  unfold PoolState.step at h
  split at h
  · simp at h
  · split at h
    · unfold stepFrame at h
      repeat' split at h
      all_goals first
        | (simp only [Option.some.injEq] at h; subst h; exact keep _ _ rfl (.inr (.inl rfl)))
        | (simp only [Option.some.injEq] at h; subst h; exact keep _ _ rfl (.inl rfl))
        | (simp only [Option.some.injEq] at h; subst h
           refine keep _ _ rfl (.inr (.inr ⟨_, rfl, ?_⟩))
           intro v x e
           first | (exact absurd e GetPc.noConfusion) | (subst e; exact getStep_victim hn ‹_›))
        | (unfold startTask at h
           split at h
           · simp at h
           · simp only [Option.some.injEq] at h; subst h; exact keep _ _ rfl (.inl rfl))
        | (simp only [Option.some.injEq] at h; subst h; exact hv)
        | (simp at h)
    · split at h
      · unfold stepDtor at h
        repeat' split at h
        all_goals first
          | (simp only [Option.some.injEq] at h; subst h; exact hv)
          | (simp at h)
      · unfold stepLoop at h
        repeat' split at h
        all_goals first
          | (simp only [Option.some.injEq] at h; subst h; exact keep _ _ rfl (.inr (.inl rfl)))
          | (simp only [Option.some.injEq] at h; subst h; exact keep _ _ rfl (.inl rfl))
          | (simp only [Option.some.injEq] at h; subst h
             refine keep _ _ rfl (.inr (.inr ⟨_, rfl, ?_⟩))
             intro v x e
             first | (exact absurd e GetPc.noConfusion) | (subst e; exact getStep_victim hn ‹_›))
          | (unfold startTask at h
             split at h
             · simp at h
             · simp only [Option.some.injEq] at h; subst h; exact keep _ _ rfl (.inl rfl))
          | (simp at h)

theorem PoolReach.victim {n : Nat} {p : Prog} {s : PoolState} (h : PoolReach n p s) : VInv n s := by
  unfold PoolReach at h
  generalize hp0 : PoolState.init p = s0 at h
  induction h with
  | refl => subst hp0; intro i v t; simp only [PoolState.init]; split <;> simp
  | step i r a _ hs ih => exact ih.step hs

/-- No worker stops before it is told to, and none is told to while the pool is in use. -/
structure OInv (s : PoolState) : Prop where
  exited : ∀ i, (s.thr i).mode = .exited → s.active i = false
  on : s.main = .run → ∀ i, s.active i = true

theorem OInv.of {s u : PoolState} (hv : OInv s) (ha : u.active = s.active) (hm : u.main = .run → s.main = .run)
    (ht : ∀ k, (u.thr k).mode = .exited → (s.thr k).mode = .exited ∨ s.active k = false) : OInv u := by
  constructor
  · intro k hk
    rw [ha]
    exact (ht k hk).elim (hv.exited k) id
  · intro h k
    rw [ha]
    exact hv.on (hm h) k

theorem OInv.step {n : Nat} {s u : PoolState} {i r : Nat} {a : Bool} (hv : OInv s) (h : s.step n i r a = some u) : OInv u := by
  unfold PoolState.step at h
  split at h
  · simp at h
  · split at h
    · unfold stepFrame at h
      simp only [startTask] at h
      repeat' split at h
      all_goals first
        | (simp at h; done)
        | (simp only [Option.some.injEq] at h; subst h
           refine hv.of rfl ?_ ?_
           · simp [setTop, setThr, modTask]
           · intro k
             simp only [setTop, setThr, modTask, upd]
             first | exact Or.inl | (split <;> simp_all))
    · split at h
      · unfold stepDtor at h
        repeat' split at h
        all_goals first
          | (simp at h; done)
          | (simp only [Option.some.injEq] at h; subst h
             refine ⟨?_, fun e => nomatch e⟩
             intro k hk
             have := hv.exited k hk
             simp only [upd]
             first | exact this | (split <;> simp_all))
      · unfold stepLoop at h
        simp only [startTask] at h
        repeat' split at h
        all_goals first
          | (simp at h; done)
          | (simp only [Option.some.injEq] at h; subst h
             refine hv.of rfl id ?_
             intro k
             simp only [setTop, setThr, modTask, upd]
             first | exact Or.inl | (split <;> simp_all))

theorem PoolReach.on {n : Nat} {p : Prog} {s : PoolState} (h : PoolReach n p s) : OInv s := by
  unfold PoolReach at h
  generalize hp0 : PoolState.init p = s0 at h
  induction h with
  | refl => subst hp0; exact ⟨by intro i; simp only [PoolState.init]; split <;> simp, fun _ _ => rfl⟩
  | step i r a _ hs ih => exact ih.step hs

end CoEcs
