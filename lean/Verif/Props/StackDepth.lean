import Verif.Proofs.Depth
import Verif.Props.TwoWorkers

/-!
# How deep the calls of a worker are nested (C108)
-/

namespace CoEcs.Props
open CoEcs PoolState Spec

/-- What is below a call is less deep. -/
theorem Below.depth {p : Prog} {s : PoolState} (hL : LevInv p s) {t j : Nat} (h : Below s t j) : ∀ q, s.tasks[j]? = some q →
    q.code.depth < p.depth ∧ (0 < t → ∀ (k : Nat) (qk : PTask), s.tasks[k]? = some qk → qk.time = t → q.code.depth < qk.code.depth) := by
  induction h with
  | direct h1 h2 =>
    intro q hq
    rw [hq] at h1; simp only [Option.some.injEq] at h1; subst h1
    exact ⟨hL.low _ _ hq, fun h0 k qk hk ht => hL.task _ q hq (by omega) k qk hk (by omega)⟩
  | via h1 h2 h3 h4 _ ih =>
    rename_i qk0 _
    intro q hq
    rw [hq] at h1; simp only [Option.some.injEq] at h1; subst h1
    refine ⟨hL.low _ _ hq, fun h0 k qk hk ht => ?_⟩
    have := hL.task _ q hq (by omega) _ _ h2 h4
    have := (ih _ h2).2 h0 k qk hk ht
    omega

/-- Numbers that grow from each to the next and do not exceed `d`. -/
theorem chain_length {d : Nat} : ∀ {l : List Nat}, (∀ x a b r, l = x ++ a :: b :: r → a < b) → (∀ a ∈ l, a ≤ d) → l.length ≤ d + 1 := by
  have key : ∀ (l : List Nat) (a : Nat), (∀ x a' b r, a :: l = x ++ a' :: b :: r → a' < b) → (∀ b ∈ a :: l, b ≤ d) → a + l.length ≤ d := by
    intro l
    induction l with
    | nil => intro a _ h; exact h a (by simp)
    | cons b l ih =>
      intro a h1 h2
      have h3 := h1 [] a b l rfl
      have h4 := ih b (fun x a' b' r e => h1 (a :: x) a' b' r (by rw [e]; rfl)) (fun c hc => h2 c (List.mem_cons_of_mem _ hc))
      simp only [List.length_cons]
      omega
  intro l h1 h2
  cases l with
  | nil => simp
  | cons a l => have := key l a h1 h2; simp only [List.length_cons]; omega

/-- If nothing foreign is executed in the middle of a call that waits, every call is deeper in the program than the one below it. -/
theorem lvl_lt {n : Nat} (hn : 0 < n) {p : Prog}
    (hB : ∀ s, PoolReach n p s → (∀ j, s.children j < 65535) → ∀ i f g r, (s.thr i).stack = f :: g :: r → f.pc = .run → ∃ j, f.task = some j ∧ Below s g.time j)
    {s : PoolState} (h : PoolReach n p s) (hc : ∀ j, s.children j < 65535) :
    ∀ i l f g r, s.keys i = l ++ f :: g :: r → lvl p s f.1 < lvl p s g.1 := by
  unfold PoolReach at h
  generalize hp0 : PoolState.init p = s0 at h
  induction h with
  | refl =>
    subst hp0
    intro i l f g r he
    have := congrArg List.length he
    simp only [PoolState.keys, PoolState.init] at this
    split at this <;> simp at this <;> omega
  | step i r a hr hs ih =>
    rename_i s u
    have hs0 := hs
    obtain ⟨-, -, hs⟩ := step_cases hs
    subst hp0
    have hc' := fun j => Nat.lt_of_le_of_lt (children_mono hs j) (hc j)
    have hru : PoolReach n p u := .step i r a hr hs0
    have hP := (PoolReach.inv hn hr).1
    have hPu := (PoolReach.inv hn hru).1
    have hLu := PoolReach.lev hn hru
    have old : ∀ k f, f ∈ s.keys k → lvl p u f.1 = lvl p s f.1 := by
      intro k f hf
      cases e : f.1 with
      | none => rfl
      | some m =>
        obtain ⟨q, hq⟩ := hP.keys_task hf e
        obtain ⟨q', h1, h2⟩ := hs.code m q hq
        simp only [lvl, hq, h1, h2]
    intro k l f g r' he
    rcases hs.keys with hk | ⟨⟨f0, h1, h2⟩, h3⟩
    · obtain ⟨pre, hpre⟩ := hk k
      have e1 : s.keys k = (pre ++ l) ++ f :: g :: r' := by rw [← hpre, he, List.append_assoc]
      rw [old k f (by rw [e1]; simp), old k g (by rw [e1]; simp)]
      exact ih hc' k _ f g r' e1
    · by_cases hki : k = i
      · subst hki
        have hku : u.keys k = f0.key :: s.keys k := by simp [PoolState.keys, h1]
        rw [hku] at he
        cases l with
        | nil =>
          simp only [List.nil_append, List.cons.injEq] at he
          obtain ⟨rfl, he⟩ := he
          cases hst : (s.thr k).stack with
          | nil => simp [PoolState.keys, hst] at he
          | cons g0 gs =>
            simp only [PoolState.keys, hst, List.map_cons, List.cons.injEq] at he
            obtain ⟨rfl, rfl⟩ := he
            rw [hst] at h1
            obtain ⟨j, hj, hb⟩ := hB u hru hc k f0 g0 gs h1 h2
            obtain ⟨q, hq, -⟩ := hPu.task k f0 j (by simp [h1]) hj
            obtain ⟨a1, a2⟩ := Below.depth hLu hb q hq
            have ef : lvl p u f0.key.1 = q.code.depth := by simp [lvl, Frame.key, hj, hq]
            rw [ef]
            cases hg : g0.task with
            | none => simp [lvl, Frame.key, hg, a1]
            | some m =>
              obtain ⟨qm, b1, -, -, b4, b5⟩ := hPu.task k g0 m (by simp [h1]) hg
              have := a2 (by omega) m qm b1 b4
              simpa [lvl, Frame.key, hg, b1] using this
        | cons y l =>
          simp only [List.cons_append, List.cons.injEq] at he
          rw [old k f (by rw [he.2]; simp), old k g (by rw [he.2]; simp)]
          exact ih hc' k l f g r' he.2
      · rw [h3 k hki] at he
        rw [old k f (by rw [he]; simp), old k g (by rw [he]; simp)]
        exact ih hc' k l f g r' he

theorem depth_of {n : Nat} (hn : 0 < n) {p : Prog}
    (hB : ∀ s, PoolReach n p s → (∀ j, s.children j < 65535) → ∀ i f g r, (s.thr i).stack = f :: g :: r → f.pc = .run → ∃ j, f.task = some j ∧ Below s g.time j)
    {s : PoolState} (h : PoolReach n p s) (hc : ∀ j, s.children j < 65535) (i : Nat) : (s.thr i).stack.length ≤ if i = 0 then p.depth + 1 else p.depth := by
  have hP := (PoolReach.inv hn h).1
  have hL := PoolReach.lev hn h
  have hlt := lvl_lt hn hB h hc i
  have hch : ∀ x a b r, (s.keys i).map (fun f => lvl p s f.1) = x ++ a :: b :: r → a < b := by
    intro x a b r e
    obtain ⟨l1, l2, e1, e2, e3⟩ := List.map_eq_append_iff.1 e
    obtain ⟨f, l3, e4, e5, e6⟩ := List.map_eq_cons_iff.1 e3
    obtain ⟨g, l4, e7, e8, e9⟩ := List.map_eq_cons_iff.1 e6
    have := hlt l1 f g l4 (by rw [e1, e4, e7])
    omega
  have hlen : ((s.keys i).map (fun f => lvl p s f.1)).length = (s.thr i).stack.length := by simp [PoolState.keys]
  rw [← hlen]
  split
  · refine chain_length hch ?_
    intro a ha
    obtain ⟨f, hf, rfl⟩ := List.mem_map.1 ha
    cases e : f.1 with
    | none => exact Nat.le_refl _
    | some m =>
      obtain ⟨q, hq⟩ := hP.keys_task hf e
      have := hL.low m q hq
      simp only [lvl, hq]
      omega
  · rename_i hi
    have hlow : ∀ a ∈ (s.keys i).map (fun f => lvl p s f.1), a < p.depth := by
      intro a ha
      obtain ⟨f, hf, rfl⟩ := List.mem_map.1 ha
      cases e : f.1 with
      | none =>
        obtain ⟨f', h1, h2, -⟩ := mem_keys hf
        exact absurd (hP.main i f' h1 (by rw [h2, e])).1 hi
      | some m =>
        obtain ⟨q, hq⟩ := hP.keys_task hf e
        have := hL.low m q hq
        simp only [lvl, hq]
        exact this
    cases hd : p.depth with
    | zero =>
      cases hm : (s.keys i).map (fun f => lvl p s f.1) with
      | nil => simp
      | cons a l => have := hlow a (by simp [hm]); omega
    | succ d => exact chain_length hch (fun a ha => by have := hlow a ha; omega)

/-- C108, partially: without background workers, if every function joins what it forks, the calls on the stack are never more than the
functions of the program are nested (the function that uses the pool included). -/
theorem C108_alone_partial {p : Prog} (hp : p.Joined []) {s : PoolState} (h : PoolReach 1 p s) (hc : ∀ j, s.children j < 65535) (i : Nat) :
    (s.thr i).stack.length ≤ if i = 0 then p.depth + 1 else p.depth :=
  depth_of (by decide) (fun _ hs hcs _ _ _ _ hst hpc => C107_alone_partial hp hs hcs (l := []) hst (.inl hpc)) h hc i

/-- C108, partially: with one background worker, for `parallel_for` and stages in any nesting. -/
theorem C108_two_workers_partial {p : Prog} (hp : p.One none) {s : PoolState} (h : PoolReach 2 p s) (hc : ∀ j, s.children j < 65535) (i : Nat) :
    (s.thr i).stack.length ≤ if i = 0 then p.depth + 1 else p.depth :=
  depth_of (by decide) (fun _ hs hcs _ _ _ _ hst hpc => C107_two_workers_partial hp hs hcs (l := []) hst (.inl hpc)) h hc i

/-! ### Three workers -/

/-- Three values and another one. -/
def three {α : Type} (a b c d : α) : Nat → α := fun i => if i = 0 then a else if i = 1 then b else if i = 2 then c else d

section
variable {α : Type} (a b c d x : α)
@[simp] theorem three_0 : three a b c d 0 = a := rfl
@[simp] theorem three_1 : three a b c d 1 = b := rfl
@[simp] theorem three_2 : three a b c d 2 = c := rfl
@[simp] theorem upd_three_0 : upd (three a b c d) 0 x = three x b c d := by funext i; simp only [upd, three]; split <;> rfl
@[simp] theorem upd_three_1 : upd (three a b c d) 1 x = three a x c d := by
  funext i; simp only [upd, three]; split
  · rename_i h; subst h; rfl
  · rfl
@[simp] theorem upd_three_2 : upd (three a b c d) 2 x = three a b x d := by
  funext i; simp only [upd, three]; split
  · rename_i h; subst h; rfl
  · rfl
end

/-- A pool in which only three workers have done anything. -/
def trio (ts : List PTask) (t0 t1 t2 : Thread) (q0 q1 q2 : TQueue) (sem clock : Nat) : PoolState :=
  ⟨ts, three t0 t1 t2 ⟨[], none, .loop⟩, three q0 q1 q2 ⟨0, []⟩, fun _ => true, sem, .run, false, clock, false⟩

theorem trio_init (p : Prog) : PoolState.init p = trio [] ⟨[⟨none, p, [], .run, 0⟩], none, .loop⟩ ⟨[], none, .loop⟩ ⟨[], none, .loop⟩ ⟨0, []⟩ ⟨0, []⟩ ⟨0, []⟩ 0 0 := by
  simp only [PoolState.init, trio, three]
  congr 1
  · funext i; simp only [three]; split <;> (try rfl); split <;> (try rfl); split <;> rfl
  · funext i; simp only [three]; split <;> (try rfl); split <;> (try rfl); split <;> rfl

theorem _root_.CoEcs.PoolSteps.cons {n i r : Nat} {a : Bool} {s t u : PoolState} (h : s.step n i r a = some t) (hu : PoolSteps n t u) : PoolSteps n s u := by
  induction hu with
  | refl => exact .step _ _ _ (.refl _) h
  | step i r a _ h ih => exact .step i r a ih h

theorem _root_.CoEcs.PoolSteps.append {n : Nat} {s t u : PoolState} (h : PoolSteps n s t) (hu : PoolSteps n t u) : PoolSteps n s u := by
  induction hu with
  | refl => exact h
  | step i r a _ h ih => exact .step i r a ih h

theorem modify_last (l : List PTask) (x : PTask) (F : PTask → PTask) : (l ++ [x]).modify l.length F = l ++ [F x] := by
  induction l with
  | nil => rfl
  | cons a l ih => simp [ih]

/-- A system that runs `parallel_for` over one batch. -/
def oneBatch : Prog := .par [.ret] .ret

/-- The worker with these calls may look for a task. -/
def Waits (stk : List Frame) : Prop := stk = [] ∨ ∃ f fs v k, stk = f :: fs ∧ f.pc = .run ∧ f.code = .wait v k

/-- One system more: worker 1, about to look into the main queue, takes the system that is there and submits its batch; worker 2 takes
that; worker 1 looks whether it is completed and whether there is something in its own queue, and then worker 2 completes it. -/
theorem dive {n : Nat} (hn : 3 ≤ n) {ts : List PTask} {t0 : Thread} {stk : List Frame} (hstk : Waits stk) {a b c j sem clock : Nat} {q : PTask} (hq : ts[j]? = some q) (hcode : q.code = oneBatch) :
    ∃ (ts' : List PTask) (f : Frame) (sem' : Nat), ts'.length = ts.length + 1 ∧ f.pc = .run ∧ f.code = .wait 0 .ret ∧
      PoolSteps n (trio ts t0 ⟨stk, some .main, .loop⟩ ⟨[], none, .loop⟩ ⟨a, [j]⟩ ⟨b, []⟩ ⟨c, []⟩ sem clock)
        (trio ts' t0 ⟨f :: stk, some .main, .loop⟩ ⟨[], none, .loop⟩ ⟨a + 1, []⟩ ⟨b + 1, []⟩ ⟨c, []⟩ sem' (clock + 2)) := by
  have hn1 : n ≠ 1 := by omega
  have hn' : ¬ n ≤ 1 := by omega
  have hn2 : ¬ n ≤ 2 := by omega
  -- worker 1 takes the system
  have s1 : (trio ts t0 ⟨stk, some .main, .loop⟩ ⟨[], none, .loop⟩ ⟨a, [j]⟩ ⟨b, []⟩ ⟨c, []⟩ sem clock).step n 1 0 false =
      some (trio ts t0 ⟨stk, some (.mainTake a), .loop⟩ ⟨[], none, .loop⟩ ⟨a, [j]⟩ ⟨b, []⟩ ⟨c, []⟩ sem clock) := by
    rcases hstk with rfl | ⟨f, fs, v, k, rfl, h1, h2⟩
    · simp [PoolState.step, stepLoop, getStep, trio, setThr, hn']
    · simp [PoolState.step, stepFrame, getStep, trio, setThr, hn', h1, h2]
  have s2 : (trio ts t0 ⟨stk, some (.mainTake a), .loop⟩ ⟨[], none, .loop⟩ ⟨a, [j]⟩ ⟨b, []⟩ ⟨c, []⟩ sem clock).step n 1 0 false =
      some (trio (ts.modify j (PTask.begin_ 1 (clock + 1))) t0 ⟨⟨some j, oneBatch, q.env, .run, clock + 1⟩ :: stk, none, .loop⟩ ⟨[], none, .loop⟩ ⟨a + 1, []⟩ ⟨b, []⟩ ⟨c, []⟩ sem (clock + 1)) := by
    rcases hstk with rfl | ⟨f, fs, v, k, rfl, h1, h2⟩
    · simp [PoolState.step, stepLoop, getStep, trio, setThr, startTask, modTask, TQueue.take, hn', hq, hcode]
    · simp [PoolState.step, stepFrame, getStep, trio, setThr, startTask, modTask, TQueue.take, hn', h1, h2, hq, hcode]
  generalize ht1 : ts.modify j (PTask.begin_ 1 (clock + 1)) = ts1 at s2
  have hlen : ts1.length = ts.length := by rw [← ht1]; simp
  -- it submits the batch
  have s3 : (trio ts1 t0 ⟨⟨some j, oneBatch, q.env, .run, clock + 1⟩ :: stk, none, .loop⟩ ⟨[], none, .loop⟩ ⟨a + 1, []⟩ ⟨b, []⟩ ⟨c, []⟩ sem (clock + 1)).step n 1 0 false =
      some (trio (ts1 ++ [{ parent := none, counter := 1, code := .ret, env := q.env, by_ := 1, caller := clock + 1, par := false }]) t0
        ⟨⟨some j, .wait 0 .ret, ts1.length :: q.env, .push ts1.length, clock + 1⟩ :: stk, none, .loop⟩ ⟨[], none, .loop⟩ ⟨a + 1, []⟩ ⟨b, []⟩ ⟨c, []⟩ sem (clock + 1)) := by
    simp [PoolState.step, stepFrame, trio, setThr, setTop, hn', oneBatch, Prog.par, Prog.parRest]
  generalize hx : ({ parent := none, counter := 1, code := .ret, env := q.env, by_ := 1, caller := clock + 1, par := false } : PTask) = x at s3
  have s4 : (trio (ts1 ++ [x]) t0 ⟨⟨some j, .wait 0 .ret, ts1.length :: q.env, .push ts1.length, clock + 1⟩ :: stk, none, .loop⟩ ⟨[], none, .loop⟩ ⟨a + 1, []⟩ ⟨b, []⟩ ⟨c, []⟩ sem (clock + 1)).step n 1 0 false =
      some (trio (ts1 ++ [x.setSt .queued]) t0 ⟨⟨some j, .wait 0 .ret, ts1.length :: q.env, .run, clock + 1⟩ :: stk, none, .loop⟩ ⟨[], none, .loop⟩ ⟨a + 1, []⟩ ⟨b, [ts1.length]⟩ ⟨c, []⟩ (sem + 1) (clock + 1)) := by
    simp [PoolState.step, stepFrame, trio, setThr, setTop, modTask, hn', TQueue.push, modify_last]
  generalize hF : (⟨some j, .wait 0 .ret, ts1.length :: q.env, .run, clock + 1⟩ : Frame) = F at s4
  -- worker 2 looks everywhere and finds it
  have s5 : (trio (ts1 ++ [x.setSt .queued]) t0 ⟨F :: stk, none, .loop⟩ ⟨[], none, .loop⟩ ⟨a + 1, []⟩ ⟨b, [ts1.length]⟩ ⟨c, []⟩ (sem + 1) (clock + 1)).step n 2 0 false =
      some (trio (ts1 ++ [x.setSt .queued]) t0 ⟨F :: stk, none, .loop⟩ ⟨[], some .pop, .loop⟩ ⟨a + 1, []⟩ ⟨b, [ts1.length]⟩ ⟨c, []⟩ (sem + 1) (clock + 1)) := by
    simp [PoolState.step, stepLoop, trio, setThr, hn2]
  have s6 : (trio (ts1 ++ [x.setSt .queued]) t0 ⟨F :: stk, none, .loop⟩ ⟨[], some .pop, .loop⟩ ⟨a + 1, []⟩ ⟨b, [ts1.length]⟩ ⟨c, []⟩ (sem + 1) (clock + 1)).step n 2 0 false =
      some (trio (ts1 ++ [x.setSt .queued]) t0 ⟨F :: stk, none, .loop⟩ ⟨[], some .main, .loop⟩ ⟨a + 1, []⟩ ⟨b, [ts1.length]⟩ ⟨c, []⟩ (sem + 1) (clock + 1)) := by
    simp [PoolState.step, stepLoop, getStep, TQueue.pop, trio, setThr, hn2]
  have s7 : (trio (ts1 ++ [x.setSt .queued]) t0 ⟨F :: stk, none, .loop⟩ ⟨[], some .main, .loop⟩ ⟨a + 1, []⟩ ⟨b, [ts1.length]⟩ ⟨c, []⟩ (sem + 1) (clock + 1)).step n 2 0 false =
      some (trio (ts1 ++ [x.setSt .queued]) t0 ⟨F :: stk, none, .loop⟩ ⟨[], some (.mainTake (a + 1)), .loop⟩ ⟨a + 1, []⟩ ⟨b, [ts1.length]⟩ ⟨c, []⟩ (sem + 1) (clock + 1)) := by
    simp [PoolState.step, stepLoop, getStep, trio, setThr, hn2]
  have s8 : (trio (ts1 ++ [x.setSt .queued]) t0 ⟨F :: stk, none, .loop⟩ ⟨[], some (.mainTake (a + 1)), .loop⟩ ⟨a + 1, []⟩ ⟨b, [ts1.length]⟩ ⟨c, []⟩ (sem + 1) (clock + 1)).step n 2 0 false =
      some (trio (ts1 ++ [x.setSt .queued]) t0 ⟨F :: stk, none, .loop⟩ ⟨[], some .rnd, .loop⟩ ⟨a + 1, []⟩ ⟨b, [ts1.length]⟩ ⟨c, []⟩ (sem + 1) (clock + 1)) := by
    simp [PoolState.step, stepLoop, getStep, TQueue.take, trio, setThr, hn2]
  have s9 : (trio (ts1 ++ [x.setSt .queued]) t0 ⟨F :: stk, none, .loop⟩ ⟨[], some .rnd, .loop⟩ ⟨a + 1, []⟩ ⟨b, [ts1.length]⟩ ⟨c, []⟩ (sem + 1) (clock + 1)).step n 2 0 false =
      some (trio (ts1 ++ [x.setSt .queued]) t0 ⟨F :: stk, none, .loop⟩ ⟨[], some (.rndTake 1 b), .loop⟩ ⟨a + 1, []⟩ ⟨b, [ts1.length]⟩ ⟨c, []⟩ (sem + 1) (clock + 1)) := by
    simp [PoolState.step, stepLoop, getStep, trio, setThr, hn2, hn1]
  have s10 : (trio (ts1 ++ [x.setSt .queued]) t0 ⟨F :: stk, none, .loop⟩ ⟨[], some (.rndTake 1 b), .loop⟩ ⟨a + 1, []⟩ ⟨b, [ts1.length]⟩ ⟨c, []⟩ (sem + 1) (clock + 1)).step n 2 0 false =
      some (trio (ts1 ++ [(x.setSt .queued).begin_ 2 (clock + 2)]) t0 ⟨F :: stk, none, .loop⟩ ⟨[⟨some ts1.length, .ret, q.env, .run, clock + 2⟩], none, .loop⟩ ⟨a + 1, []⟩ ⟨b + 1, []⟩ ⟨c, []⟩ (sem + 1) (clock + 2)) := by
    simp [PoolState.step, stepLoop, getStep, TQueue.take, startTask, modTask, trio, setThr, hn2, modify_last]
    rw [← hx]; rfl
  generalize hy : (x.setSt .queued).begin_ 2 (clock + 2) = y at s10
  have hyc : y.counter = 1 ∧ y.parent = none := by rw [← hy, ← hx]; exact ⟨rfl, rfl⟩
  -- worker 1 finds it not completed
  have s11 : (trio (ts1 ++ [y]) t0 ⟨F :: stk, none, .loop⟩ ⟨[⟨some ts1.length, .ret, q.env, .run, clock + 2⟩], none, .loop⟩ ⟨a + 1, []⟩ ⟨b + 1, []⟩ ⟨c, []⟩ (sem + 1) (clock + 2)).step n 1 0 false =
      some (trio (ts1 ++ [y]) t0 ⟨F :: stk, some .pop, .loop⟩ ⟨[⟨some ts1.length, .ret, q.env, .run, clock + 2⟩], none, .loop⟩ ⟨a + 1, []⟩ ⟨b + 1, []⟩ ⟨c, []⟩ (sem + 1) (clock + 2)) := by
    rw [← hF]
    simp [PoolState.step, stepFrame, trio, setThr, hn', PTask.completed, hyc.1]
  have s12 : (trio (ts1 ++ [y]) t0 ⟨F :: stk, some .pop, .loop⟩ ⟨[⟨some ts1.length, .ret, q.env, .run, clock + 2⟩], none, .loop⟩ ⟨a + 1, []⟩ ⟨b + 1, []⟩ ⟨c, []⟩ (sem + 1) (clock + 2)).step n 1 0 false =
      some (trio (ts1 ++ [y]) t0 ⟨F :: stk, some .main, .loop⟩ ⟨[⟨some ts1.length, .ret, q.env, .run, clock + 2⟩], none, .loop⟩ ⟨a + 1, []⟩ ⟨b + 1, []⟩ ⟨c, []⟩ (sem + 1) (clock + 2)) := by
    rw [← hF]
    simp [PoolState.step, stepFrame, getStep, TQueue.pop, trio, setThr, hn']
  -- worker 2 completes it
  have s13 : (trio (ts1 ++ [y]) t0 ⟨F :: stk, some .main, .loop⟩ ⟨[⟨some ts1.length, .ret, q.env, .run, clock + 2⟩], none, .loop⟩ ⟨a + 1, []⟩ ⟨b + 1, []⟩ ⟨c, []⟩ (sem + 1) (clock + 2)).step n 2 0 false =
      some (trio (ts1 ++ [y]) t0 ⟨F :: stk, some .main, .loop⟩ ⟨[⟨some ts1.length, .ret, q.env, .sub ts1.length, clock + 2⟩], none, .loop⟩ ⟨a + 1, []⟩ ⟨b + 1, []⟩ ⟨c, []⟩ (sem + 1) (clock + 2)) := by
    simp [PoolState.step, stepFrame, trio, setThr, setTop, hn2]
  have s14 : (trio (ts1 ++ [y]) t0 ⟨F :: stk, some .main, .loop⟩ ⟨[⟨some ts1.length, .ret, q.env, .sub ts1.length, clock + 2⟩], none, .loop⟩ ⟨a + 1, []⟩ ⟨b + 1, []⟩ ⟨c, []⟩ (sem + 1) (clock + 2)).step n 2 0 false =
      some (trio (ts1 ++ [PTask.pay ts1.length ts1.length y.dec]) t0 ⟨F :: stk, some .main, .loop⟩ ⟨[⟨some ts1.length, .ret, q.env, .check ts1.length, clock + 2⟩], none, .loop⟩ ⟨a + 1, []⟩ ⟨b + 1, []⟩ ⟨c, []⟩ (sem + 1) (clock + 2)) := by
    simp [PoolState.step, stepFrame, trio, setThr, setTop, modTask, hn2, modify_last]
  generalize hz : PTask.pay ts1.length ts1.length y.dec = z at s14
  have hzc : z.counter = 0 ∧ z.parent = none := by rw [← hz]; simp [PTask.pay, PTask.dec, hyc]
  have s15 : (trio (ts1 ++ [z]) t0 ⟨F :: stk, some .main, .loop⟩ ⟨[⟨some ts1.length, .ret, q.env, .check ts1.length, clock + 2⟩], none, .loop⟩ ⟨a + 1, []⟩ ⟨b + 1, []⟩ ⟨c, []⟩ (sem + 1) (clock + 2)).step n 2 0 false =
      some (trio (ts1 ++ [z.setSt .finished]) t0 ⟨F :: stk, some .main, .loop⟩ ⟨[], none, .loop⟩ ⟨a + 1, []⟩ ⟨b + 1, []⟩ ⟨c, []⟩ (sem + 1) (clock + 2)) := by
    simp [PoolState.step, stepFrame, trio, setThr, modTask, hn2, modify_last, hzc.2]
  refine ⟨ts1 ++ [z.setSt .finished], F, sem + 1, by simp [hlen], by rw [← hF], by rw [← hF], ?_⟩
  exact .cons s1 (.cons s2 (.cons s3 (.cons s4 (.cons s5 (.cons s6 (.cons s7 (.cons s8 (.cons s9 (.cons s10 (.cons s11 (.cons s12 (.cons s13 (.cons s14 (.cons s15 (.refl _)))))))))))))))

/-- A stage of `m` such systems. -/
def manySystems (m : Nat) : Prog := .par (List.replicate m oneBatch) .ret

theorem manySystems_one (m : Nat) : (manySystems m).One none :=
  par_one (by intro b hb; rw [List.eq_of_mem_replicate hb]; exact par_one (by simp; rfl) rfl) rfl

theorem oneBatch_depth : oneBatch.depth = 1 := by decide

theorem parRest_depth : ∀ (m v : Nat), (Prog.parRest (List.replicate m oneBatch) v .ret).depth ≤ 2
  | 0, _ => by simp [Prog.parRest, Prog.depth]
  | m + 1, v => by have := parRest_depth m (v + 1); simp only [List.replicate_succ, Prog.parRest, Prog.depth, oneBatch_depth]; omega

theorem manySystems_depth (m : Nat) : (manySystems m).depth ≤ 2 := by
  cases m with
  | zero => simp [manySystems, Prog.par, Prog.depth]
  | succ m => have := parRest_depth m 0; simp only [manySystems, List.replicate_succ, Prog.par, Prog.depth, oneBatch_depth]; omega

/-- All systems, one on top of the other. -/
theorem dive_all {n : Nat} (hn : 3 ≤ n) : ∀ (m : Nat) {ts : List PTask} {v : Nat} {env : List Nat} {stk : List Frame} {a b c sem clock : Nat}, Waits stk →
    env[v]? = some 0 → 0 < ts.length → ∃ s, PoolSteps n (trio ts ⟨[⟨none, .parRest (List.replicate m oneBatch) v .ret, env, .run, 0⟩], none, .loop⟩ ⟨stk, some .main, .loop⟩ ⟨[], none, .loop⟩
      ⟨a, []⟩ ⟨b, []⟩ ⟨c, []⟩ sem clock) s ∧ (s.thr 1).stack.length = m + stk.length ∧ s.tasks.length = ts.length + 2 * m := by
  intro m
  induction m with
  | zero =>
    intro ts v env stk a b c sem clock _ _ _
    exact ⟨_, .refl _, by simp [trio], by simp [trio]⟩
  | succ m ih =>
    intro ts v env stk a b c sem clock hstk hv hts
    have hn0 : n ≠ 0 := by omega
    have h0 : ∃ q, ts[0]? = some q := ⟨ts[0], by simp⟩
    obtain ⟨q0, hq0⟩ := h0
    have s1 : (trio ts ⟨[⟨none, .parRest (List.replicate (m + 1) oneBatch) v .ret, env, .run, 0⟩], none, .loop⟩ ⟨stk, some .main, .loop⟩ ⟨[], none, .loop⟩
        ⟨a, []⟩ ⟨b, []⟩ ⟨c, []⟩ sem clock).step n 0 0 false =
      some (trio (ts.modify 0 PTask.inc ++ [{ parent := some 0, counter := 1, code := oneBatch, env := env, by_ := 0, caller := 0 }])
        ⟨[⟨none, .parRest (List.replicate m oneBatch) (v + 1) .ret, ts.length :: env, .push ts.length, 0⟩], none, .loop⟩ ⟨stk, some .main, .loop⟩ ⟨[], none, .loop⟩
        ⟨a, []⟩ ⟨b, []⟩ ⟨c, []⟩ sem clock) := by
      simp [PoolState.step, stepFrame, trio, setThr, setTop, hn0, List.replicate_succ, Prog.parRest, hv, hq0]
    generalize ht1 : ts.modify 0 PTask.inc = ts1 at s1
    have hl1 : ts1.length = ts.length := by rw [← ht1]; simp
    generalize hx : ({ parent := some 0, counter := 1, code := oneBatch, env := env, by_ := 0, caller := 0 } : PTask) = x at s1
    rw [← hl1] at s1
    have s2 : (trio (ts1 ++ [x]) ⟨[⟨none, .parRest (List.replicate m oneBatch) (v + 1) .ret, ts1.length :: env, .push ts1.length, 0⟩], none, .loop⟩ ⟨stk, some .main, .loop⟩ ⟨[], none, .loop⟩
        ⟨a, []⟩ ⟨b, []⟩ ⟨c, []⟩ sem clock).step n 0 0 false =
      some (trio (ts1 ++ [x.setSt .queued]) ⟨[⟨none, .parRest (List.replicate m oneBatch) (v + 1) .ret, ts1.length :: env, .run, 0⟩], none, .loop⟩ ⟨stk, some .main, .loop⟩ ⟨[], none, .loop⟩
        ⟨a, [ts1.length]⟩ ⟨b, []⟩ ⟨c, []⟩ (sem + 1) clock) := by
      simp [PoolState.step, stepFrame, trio, setThr, setTop, modTask, hn0, TQueue.push, modify_last]
    obtain ⟨ts2, f, sem2, h1, h2, h3, h4⟩ := dive hn (ts := ts1 ++ [x.setSt .queued])
      (t0 := ⟨[⟨none, .parRest (List.replicate m oneBatch) (v + 1) .ret, ts1.length :: env, .run, 0⟩], none, .loop⟩) hstk (a := a) (b := b) (c := c) (j := ts1.length) (sem := sem + 1)
      (clock := clock) (q := x.setSt .queued) (by simp) (by rw [← hx]; rfl)
    obtain ⟨s, h5, h6, h7⟩ := ih (ts := ts2) (v := v + 1) (env := ts1.length :: env) (stk := f :: stk) (a := a + 1) (b := b + 1) (c := c) (sem := sem2) (clock := clock + 2)
      (.inr ⟨f, stk, 0, .ret, rfl, h2, h3⟩) (by simpa using hv) (by rw [h1]; simp)
    refine ⟨s, .cons s1 (.cons s2 (h4.append h5)), ?_, ?_⟩
    · rw [h6]; simp only [List.length_cons]; omega
    · rw [h7, h1]; simp only [List.length_append, List.length_singleton]; omega

/-- **C108 is violated** in every pool with two or more background workers: however many systems a stage has, each with one
`parallel_for`, a worker can have all of them on its stack at once. -/
theorem C108_violated {n : Nat} (hn : 3 ≤ n) (m : Nat) : (manySystems m).One none ∧ (manySystems m).depth ≤ 2 ∧
    ∃ s, PoolReach n (manySystems m) s ∧ (s.thr 1).stack.length = m ∧ ∀ j, s.children j ≤ 2 * m := by
  refine ⟨manySystems_one m, manySystems_depth m, ?_⟩
  have hn0 : n ≠ 0 := by omega
  have hn' : ¬ n ≤ 1 := by omega
  unfold PoolReach
  rw [trio_init]
  cases m with
  | zero => exact ⟨_, .refl _, by simp [trio], by intro j; simp [PoolState.children, trio]⟩
  | succ m =>
    have e : manySystems (m + 1) = .submit none oneBatch (.parRest (List.replicate m oneBatch) 0 .ret) := by simp [manySystems, List.replicate_succ, Prog.par]
    rw [e]
    have s1 : (trio [] ⟨[⟨none, .submit none oneBatch (.parRest (List.replicate m oneBatch) 0 .ret), [], .run, 0⟩], none, .loop⟩ ⟨[], none, .loop⟩ ⟨[], none, .loop⟩ ⟨0, []⟩ ⟨0, []⟩ ⟨0, []⟩ 0 0).step n 1 0 false =
        some (trio [] ⟨[⟨none, .submit none oneBatch (.parRest (List.replicate m oneBatch) 0 .ret), [], .run, 0⟩], none, .loop⟩ ⟨[], some .pop, .loop⟩ ⟨[], none, .loop⟩ ⟨0, []⟩ ⟨0, []⟩ ⟨0, []⟩ 0 0) := by
      simp [PoolState.step, stepLoop, trio, setThr, hn']
    have s2 : (trio [] ⟨[⟨none, .submit none oneBatch (.parRest (List.replicate m oneBatch) 0 .ret), [], .run, 0⟩], none, .loop⟩ ⟨[], some .pop, .loop⟩ ⟨[], none, .loop⟩ ⟨0, []⟩ ⟨0, []⟩ ⟨0, []⟩ 0 0).step n 1 0 false =
        some (trio [] ⟨[⟨none, .submit none oneBatch (.parRest (List.replicate m oneBatch) 0 .ret), [], .run, 0⟩], none, .loop⟩ ⟨[], some .main, .loop⟩ ⟨[], none, .loop⟩ ⟨0, []⟩ ⟨0, []⟩ ⟨0, []⟩ 0 0) := by
      simp [PoolState.step, stepLoop, getStep, TQueue.pop, trio, setThr, hn']
    have s3 : (trio [] ⟨[⟨none, .submit none oneBatch (.parRest (List.replicate m oneBatch) 0 .ret), [], .run, 0⟩], none, .loop⟩ ⟨[], some .main, .loop⟩ ⟨[], none, .loop⟩ ⟨0, []⟩ ⟨0, []⟩ ⟨0, []⟩ 0 0).step n 0 0 false =
        some (trio [{ parent := none, counter := 1, code := oneBatch, env := [], by_ := 0, caller := 0, par := false }] ⟨[⟨none, .parRest (List.replicate m oneBatch) 0 .ret, [0], .push 0, 0⟩], none, .loop⟩ ⟨[], some .main, .loop⟩ ⟨[], none, .loop⟩ ⟨0, []⟩ ⟨0, []⟩ ⟨0, []⟩ 0 0) := by
      simp [PoolState.step, stepFrame, trio, setThr, setTop, hn0]
    have s4 : (trio [{ parent := none, counter := 1, code := oneBatch, env := [], by_ := 0, caller := 0, par := false }] ⟨[⟨none, .parRest (List.replicate m oneBatch) 0 .ret, [0], .push 0, 0⟩], none, .loop⟩ ⟨[], some .main, .loop⟩ ⟨[], none, .loop⟩ ⟨0, []⟩ ⟨0, []⟩ ⟨0, []⟩ 0 0).step n 0 0 false =
        some (trio [{ parent := none, counter := 1, code := oneBatch, env := [], by_ := 0, caller := 0, par := false, st := .queued }] ⟨[⟨none, .parRest (List.replicate m oneBatch) 0 .ret, [0], .run, 0⟩], none, .loop⟩ ⟨[], some .main, .loop⟩ ⟨[], none, .loop⟩ ⟨0, [0]⟩ ⟨0, []⟩ ⟨0, []⟩ 1 0) := by
      simp [PoolState.step, stepFrame, trio, setThr, setTop, modTask, hn0, TQueue.push, PTask.setSt]
    obtain ⟨ts, f, sem, h1, h2, h3, h4⟩ := dive hn (ts := [{ parent := none, counter := 1, code := oneBatch, env := [], by_ := 0, caller := 0, par := false, st := .queued }])
      (t0 := ⟨[⟨none, .parRest (List.replicate m oneBatch) 0 .ret, [0], .run, 0⟩], none, .loop⟩) (stk := []) (.inl rfl) (a := 0) (b := 0) (c := 0) (j := 0) (sem := 1) (clock := 0) rfl rfl
    obtain ⟨s, h5, h6, h7⟩ := dive_all hn m (ts := ts) (v := 0) (env := [0]) (stk := [f]) (a := 1) (b := 1) (c := 0) (sem := sem) (clock := 2) (.inr ⟨f, [], 0, .ret, rfl, h2, h3⟩) rfl (by rw [h1]; simp)
    refine ⟨s, .cons s1 (.cons s2 (.cons s3 (.cons s4 (h4.append h5)))), by rw [h6]; rfl, ?_⟩
    intro j
    have := children_le s j
    simp only [List.length_cons, List.length_nil] at h1
    omega

/-- For `parallel_for` and stages in any nesting: the calls of a worker are nested no deeper than the program exactly in pools of one or
two workers. -/
theorem C108_iff {n : Nat} (hn : 0 < n) : (∀ (p : Prog), p.One none → ∀ s, PoolReach n p s → (∀ j, s.children j < 65535) → ∀ i, (s.thr i).stack.length ≤ p.depth + 1) ↔ n ≤ 2 := by
  constructor
  · intro h
    rcases Nat.lt_or_ge n 3 with h3 | h3
    · omega
    · exfalso
      obtain ⟨h1, h2, s, h4, h5, h6⟩ := C108_violated h3 4
      have := h (manySystems 4) h1 s h4 (fun j => by have := h6 j; omega) 1
      omega
  · intro h p hp s hr hc i
    have : n = 1 ∨ n = 2 := by omega
    rcases this with rfl | rfl
    · have := C108_alone_partial hp.joined hr hc i; split at this <;> omega
    · have := C108_two_workers_partial hp hr hc i; split at this <;> omega

/-- Nested `parallel_for`: with one background worker, at most three calls on any stack, two on that of the background worker. -/
example (m : Nat) {s : PoolState} (h : PoolReach 2 (nestedPar m) s) (hc : ∀ j, s.children j < 65535) : (s.thr 0).stack.length ≤ 3 ∧ (s.thr 1).stack.length ≤ 2 := by
  have hd : (nestedPar m).depth ≤ 2 := by
    have rest : ∀ (bs : List Prog) (k : Prog) (v d : Nat), (∀ b ∈ bs, b.depth < d) → k.depth ≤ d → (Prog.parRest bs v k).depth ≤ d := by
      intro bs
      induction bs with
      | nil => intro k v d _ hk; exact hk
      | cons b bs ih =>
        intro k v d hb hk
        have := ih k (v + 1) d (fun b h => hb b (by simp [h])) hk
        have := hb b (by simp)
        simp only [Prog.parRest, Prog.depth]; omega
    have par : ∀ (bs : List Prog) (k : Prog) (d : Nat), (∀ b ∈ bs, b.depth < d) → k.depth ≤ d → (Prog.par bs k).depth ≤ d := by
      intro bs k d hb hk
      cases bs with
      | nil => exact hk
      | cons b bs =>
        have := rest bs k 0 d (fun b h => hb b (by simp [h])) hk
        have := hb b (by simp)
        simp only [Prog.par, Prog.depth]; omega
    have h1 : (Prog.par (List.replicate m .ret) .ret).depth ≤ 1 := par _ _ _ (by intro b hb; rw [List.eq_of_mem_replicate hb]; decide) (by decide)
    exact par _ _ _ (by intro b hb; rw [List.eq_of_mem_replicate hb]; omega) (by omega)
  have h0 := C108_two_workers_partial (nestedPar_one m) h hc 0
  have h1 := C108_two_workers_partial (nestedPar_one m) h hc 1
  simp at h0 h1
  omega

end CoEcs.Props
