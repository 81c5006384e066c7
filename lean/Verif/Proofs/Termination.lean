import Verif.Proofs.ForkJoin

/-! # Fork-join programs end under every fair schedule -/

namespace CoEcs
open PoolState

/-- The function that uses the pool is not a task, and the destructor joins workers from the first. -/
structure MInv (s : PoolState) : Prop where
  pc : ∀ i f, f ∈ (s.thr i).stack → f.task = none → ∀ j, f.pc ≠ .sub j ∧ f.pc ≠ .check j
  join : ∀ k, s.main = .join k → 1 ≤ k

theorem MInv.step {n : Nat} {s u : PoolState} {i : Nat} (h : MInv s) (hs : PoolStep n s i u) : MInv u := by
  have h1 := h.pc
  have h2 := h.join
  cases hs
  all_goals constructor
  all_goals first | exact h1 | exact h2 | skip
  all_goals simp only [modTask, setTop, setThr, upd]
  all_goals grind

theorem PoolReach.minv {n : Nat} {p : Prog} {s : PoolState} (h : PoolReach n p s) : MInv s := by
  unfold PoolReach at h
  generalize hp0 : PoolState.init p = s0 at h
  induction h with
  | refl => subst hp0; exact ⟨by intro i f; simp only [PoolState.init]; grind, by simp [PoolState.init]⟩
  | step i r a _ hs ih =>
    obtain ⟨-, -, hs⟩ := step_cases hs
    exact ih.step hs

/-! ## How much is left to do -/

def Prog.wt : Prog → Nat
  | .ret => 6
  | .throw => 1
  | .submit _ c k => c.wt + k.wt + 3
  | .wait _ k => k.wt + 1

def Frame.wt (f : Frame) : Nat :=
  match f.pc with
  | .run => f.code.wt
  | .push _ => f.code.wt + 1
  | .sub j => if f.task = some j then 5 else 3
  | .check j => if f.task = some j then 4 else 2

def PTask.wt (q : PTask) : Nat := if q.st = .made ∨ q.st = .queued then q.code.wt + 1 else 0

theorem PTask.wt_congr {a b : PTask} (h1 : a.st = b.st) (h2 : a.code = b.code) : a.wt = b.wt := by simp only [PTask.wt, h1, h2]

def Thread.wt (t : Thread) : Nat := (t.stack.map Frame.wt).sum + if t.mode = .exited then 0 else 1

def MainPc.wt (n : Nat) : MainPc → Nat
  | .run => 2 * n + 5
  | .stop k => (n - k) + n + 3
  | .join k => (n - k) + 1
  | .gone => 0

def sumTo : Nat → (Nat → Nat) → Nat
  | 0, _ => 0
  | n + 1, g => sumTo n g + g n

/-- Work left. -/
def work (n : Nat) (s : PoolState) : Nat :=
  (s.tasks.map PTask.wt).sum + sumTo n (fun i => (s.thr i).wt) + s.main.wt n

theorem sumTo_congr {n : Nat} {g g' : Nat → Nat} (h : ∀ k, k < n → g k = g' k) : sumTo n g = sumTo n g' := by
  induction n with
  | zero => rfl
  | succ n ih => simp only [sumTo]; rw [ih (fun k hk => h k (by omega)), h n (by omega)]

theorem sumTo_one {n i : Nat} (hi : i < n) {g g' : Nat → Nat} (h : ∀ k, k ≠ i → g' k = g k) :
    sumTo n g' + g i = sumTo n g + g' i := by
  induction n with
  | zero => omega
  | succ n ih =>
    simp only [sumTo]
    by_cases e : i = n
    · subst e
      have := sumTo_congr (n := i) (g := g') (g' := g) (fun k hk => h k (by omega))
      omega
    · have := ih (by omega)
      have := h n (by omega)
      omega

theorem sum_modify (F : PTask → PTask) : ∀ (l : List PTask) (k : Nat) (q : PTask), l[k]? = some q →
    ((l.modify k F).map PTask.wt).sum + q.wt = (l.map PTask.wt).sum + (F q).wt := by
  intro l
  induction l with
  | nil => intro k q h; simp at h
  | cons a l ih =>
    intro k q h
    cases k with
    | zero =>
      simp at h; subst h
      simp only [List.modify_zero_cons, List.map_cons, List.sum_cons]
      omega
    | succ k =>
      simp at h
      have := ih k q h
      simp only [List.modify_succ_cons, List.map_cons, List.sum_cons]
      omega

theorem sum_modify_same (F : PTask → PTask) (l : List PTask) (k : Nat) (h : ∀ q, (F q).wt = q.wt) :
    ((l.modify k F).map PTask.wt).sum = (l.map PTask.wt).sum := by
  cases e : l[k]? with
  | none => rw [List.modify_eq_self (by simpa using e)]
  | some q => have := sum_modify F l k q e; rw [h] at this; omega

/-- Worker `i` looks for work in vain, or looks whether to go on. -/
structure Spin (s : PoolState) (i : Nat) (u : PoolState) : Prop where
  tasks : u.tasks = s.tasks
  queue : u.queue = s.queue
  active : u.active = s.active
  main : u.main = s.main
  dead : u.dead = s.dead
  others : ∀ k, k ≠ i → u.thr k = s.thr k
  stack : (u.thr i).stack = (s.thr i).stack
  mode : (s.thr i).mode ≠ .exited ∧ (u.thr i).mode ≠ .exited

theorem Spin.setThr {s : PoolState} {i sem : Nat} {t : Thread} (h1 : t.stack = (s.thr i).stack) (h2 : (s.thr i).mode ≠ .exited)
    (h3 : t.mode ≠ .exited) : Spin s i ({ s with sem := sem }.setThr i t) := by
  refine ⟨rfl, rfl, rfl, rfl, rfl, ?_, ?_, h2, ?_⟩
  · intro k hk; simp [PoolState.setThr, upd, hk]
  · simp [h1]
  · simpa [PoolState.setThr, upd] using h3

/-- Everything that always holds. -/
structure AllInv (n : Nat) (s : PoolState) : Prop where
  P : TPoolInv n s
  P2 : TPoolInv2 n s
  N : NInv s
  F : FInv s
  M : MInv s

theorem MayGet.loop {s : PoolState} {n i : Nat} (h : AllInv n s) (hm : MayGet s i) : (s.thr i).mode = .loop := by
  rcases hm with hm | ⟨f, fs, v, k, h1, -⟩
  · exact hm.2.1
  · cases e : (s.thr i).mode with
    | loop => rfl
    | check => have := (h.P2.mode i (by simp [e])).1; simp [h1] at this
    | exited => have := (h.P2.mode i (by simp [e])).1; simp [h1] at this

theorem thr_work {n i : Nat} (hi : i < n) {s u : PoolState} (h : ∀ k, k ≠ i → u.thr k = s.thr k) :
    sumTo n (fun k => (u.thr k).wt) + (s.thr i).wt = sumTo n (fun k => (s.thr k).wt) + (u.thr i).wt :=
  sumTo_one (g := fun k => (s.thr k).wt) (g' := fun k => (u.thr k).wt) hi (fun k hk => by simp [h k hk])

/-- Replacing the innermost call. -/
theorem top_work {n i : Nat} (hi : i < n) {s u : PoolState} {f f' : Frame} {fs : List Frame} (hst : (s.thr i).stack = f :: fs)
    (hu : u.thr = upd s.thr i { s.thr i with stack := f' :: fs }) :
    sumTo n (fun k => (u.thr k).wt) + f.wt = sumTo n (fun k => (s.thr k).wt) + f'.wt := by
  have h1 := thr_work (u := u) (s := s) hi (by intro k hk; rw [hu]; simp [upd, hk])
  have h2 : (u.thr i).wt + f.wt = (s.thr i).wt + f'.wt := by
    rw [hu]; simp [upd, Thread.wt, hst]; omega
  omega

/-- Thread `i` is not waiting for another thread: its innermost call is not waiting for a task, or for one whose counter
is 0, or it has work in its own queue; or it is in the destructor and can go on; or it is a worker that has
been told to stop. -/
def Resp (n : Nat) (s : PoolState) (i : Nat) : Prop :=
  (∃ f fs, (s.thr i).stack = f :: fs ∧ ∀ v k j q, f.pc = .run → f.code = .wait v k → f.env[v]? = some j → s.tasks[j]? = some q →
    q.counter = 0 ∨ (s.queue i).items ≠ []) ∨
  (i = 0 ∧ (s.thr i).stack = [] ∧ ((∃ k, s.main = .stop k) ∨ ∃ k, s.main = .join k ∧ (k < n → (s.thr k).mode = .exited))) ∨
  (i ≠ 0 ∧ (s.thr i).stack = [] ∧ s.active i = false ∧ (s.thr i).mode ≠ .exited)

/-- Steps until a thread that need not wait for another one does something useful. -/
def rank (s : PoolState) (i : Nat) : Nat :=
  if (s.thr i).mode = .check then 0
  else
    match (s.thr i).get with
    | none => if (s.thr i).stack = [] then 7 else 1
    | some .pop => if (s.thr i).stack ≠ [] ∧ (s.queue i).items ≠ [] then 0 else 6
    | some g => g.rank

theorem progress {n : Nat} {s u : PoolState} {i : Nat} (h : AllInv n s) (hi : i < n) (hs : PoolStep n s i u) :
    work n u < work n s ∨ (Spin s i u ∧ (Resp n s i → rank u i < rank s i)) := by
  have grank : ∀ g : GetPc, g ≠ .pop → 2 ≤ g.rank ∧ g.rank < 6 := by intro g; cases g <;> simp [GetPc.rank]
  cases hs with
  | idle ha hb hc hd he hsm =>
    refine .inr ⟨Spin.setThr rfl (by simp [hb]) (by simp), fun hR => ?_⟩
    rename_i g sem
    have := grank g he
    simp only [rank, setThr, upd, if_true, hb, hd]
    cases g <;> simp_all [GetPc.rank]
  | retry ha hb hc hd =>
    refine .inr ⟨Spin.setThr rfl (by simp [ha.loop h]) (by simp [ha.loop h]), fun hR => ?_⟩
    rename_i g
    have hl := ha.loop h
    simp only [rank, setThr, upd, if_true, hl, hc]
    cases g <;> simp_all [GetPc.rank]
  | goOn ha hb hc =>
    refine .inr ⟨Spin.setThr (sem := s.sem) rfl (by simp [ha.loop h]) (by simp [ha.loop h]), fun hR => ?_⟩
    rename_i g g'
    have hl := ha.loop h
    obtain ⟨h1, h2, h3⟩ := hc
    simp only [rank, setThr, upd, if_true, hl, hb]
    cases g <;> cases g' <;> simp_all [GetPc.rank]
  | look ha hb hc =>
    refine .inr ⟨Spin.setThr (sem := s.sem) rfl (by simp [ha.loop h]) (by simp [ha.loop h]), fun hR => ?_⟩
    have hl := ha.loop h
    simp only [rank, setThr, upd, if_true, hl, hb]
    by_cases he : (s.thr i).stack = []
    · simp [he]
    · have hqn : (s.queue i).items ≠ [] := by
        rcases ha with ha | ⟨f, fs, v, k, h1, h2, h3⟩
        · exact absurd ha.1 he
        · rcases hR with ⟨f', fs', h4, h5⟩ | ⟨-, h4, -⟩ | ⟨-, h4, -⟩
          · rw [h1] at h4; simp only [List.cons.injEq] at h4; obtain ⟨rfl, rfl⟩ := h4
            obtain ⟨j, q, hj, hq, hne⟩ := hc f fs v k h1 h3
            exact (h5 v k j q h2 h3 hj hq).resolve_left hne
          · exact absurd h4 he
          · exact absurd h4 he
      simp [he, hqn]
  | again ha hb hc hd =>
    refine .inr ⟨Spin.setThr (sem := s.sem) rfl (by simp [hb]) (by simp), fun hR => ?_⟩
    rcases hR with ⟨f', fs', h4, h5⟩ | ⟨h4, -⟩ | ⟨-, -, h4, -⟩
    · rw [ha] at h4; simp at h4
    · exact absurd h4 hc
    · rw [hd] at h4; simp at h4
  | exit ha hb hc hd =>
    left
    have h1 := thr_work (u := s.setThr i { s.thr i with mode := .exited }) (s := s) hi (by intro k hk; simp [setThr, upd, hk])
    have h2 : ((s.setThr i { s.thr i with mode := .exited }).thr i).wt + 1 = (s.thr i).wt := by
      simp [setThr, upd, Thread.wt, ha, hb]
    simp only [work] at h1 ⊢
    simp only [setThr] at h1 h2 ⊢
    omega
  | stop ha hb hc hd =>
    left; simp only [work, hc, MainPc.wt]; omega
  | stopped ha hb hc hd =>
    left; simp only [work, hc, MainPc.wt]; omega
  | join ha hb hc hd he =>
    left; simp only [work, hc, MainPc.wt]; omega
  | joined ha hb hc hd =>
    left; simp only [work, hc, MainPc.wt]; omega
  | terminate hst hpc hc =>
    rename_i f fs _
    have := h.N.frame i f (by rw [hst]; simp)
    rw [hc] at this; exact this.elim
  | unwind hst hpc hc =>
    rename_i f fs _
    have := h.N.frame i f (by rw [hst]; simp)
    rw [hc] at this; exact this.elim
  | leave hst hpc hc hk =>
    left
    rename_i f fs
    have hi0 := (h.P.main i f (by simp [hst]) hk).1
    have hm : s.main = .run := by
      cases e : s.main with
      | run => rfl
      | _ => have := h.P2.left (by simp [e]); rw [← hi0, hst] at this; simp at this
    have h1 := thr_work (u := { s with main := .stop 1 }.setThr i { s.thr i with stack := [] }) (s := s) hi (by intro k hk; simp [setThr, upd, hk])
    have h2 : (({ s with main := .stop 1 }.setThr i { s.thr i with stack := [] }).thr i).wt ≤ (s.thr i).wt := by
      simp only [setThr, upd, Thread.wt, hst, if_true, List.map_nil, List.sum_nil, List.map_cons, List.sum_cons]
      split <;> omega
    simp only [work, setThr, hm, MainPc.wt] at h1 h2 ⊢
    omega
  | start hm hg ht hq =>
    left
    rename_i g v j qu q
    obtain ⟨l, r, hl, hr⟩ := ht.mem
    obtain ⟨q0, hq0, hq1, hq2⟩ := h.P.queue v j (by simp [hl])
    rw [hq] at hq0; simp only [Option.some.injEq] at hq0; subst hq0
    have h3 := sum_modify (PTask.begin_ i (s.clock + 1)) s.tasks j q hq
    have h4 : q.wt = q.code.wt + 1 := by simp [PTask.wt, hq1]
    have h5 : (PTask.begin_ i (s.clock + 1) q).wt = 0 := by simp [PTask.wt, PTask.begin_]
    let t : Thread := { s.thr i with stack := ⟨some j, q.code, q.env, .run, s.clock + 1⟩ :: (s.thr i).stack, get := none }
    have h1 := thr_work (u := s.setThr i t) (s := s) hi (by intro k hk; simp [setThr, upd, hk])
    have h2 : ((s.setThr i t).thr i).wt = (s.thr i).wt + q.code.wt := by
      simp [setThr, upd, Thread.wt, t, Frame.wt]; omega
    simp only [work, setThr, modTask, t] at h1 h2 h3 ⊢
    omega
  | push hst hpc =>
    left
    rename_i f fs j
    obtain ⟨q0, hq0, hq1, hq2, hq3⟩ := h.P.push i f j (by simp [hst]) hpc
    have h3 := sum_modify (PTask.setSt .queued) s.tasks j q0 hq0
    have h4 : (PTask.setSt .queued q0).wt = q0.wt := by simp [PTask.wt, PTask.setSt, hq1]
    have h1 := top_work (u := s.setTop i { f with pc := .run } fs) (f' := { f with pc := .run }) hi hst rfl
    have h2 : f.wt = Frame.wt { f with pc := .run } + 1 := by simp [Frame.wt, hpc]
    simp only [work, setTop, setThr, modTask] at h1 h3 ⊢
    omega
  | sub hst hpc hq hk =>
    left
    rename_i f fs j q k
    have h1 := top_work (u := s.setTop i { f with pc := .check j } fs) (f' := { f with pc := .check j }) hi hst rfl
    have h2 : Frame.wt { f with pc := .check j } + 1 = f.wt := by simp [Frame.wt, hpc]; split <;> simp
    have h3 := sum_modify_same PTask.dec s.tasks j (fun q => PTask.wt_congr (by simp only [PTask.dec]) (by simp only [PTask.dec]))
    have h4 := sum_modify_same (PTask.pay k j) (s.tasks.modify j PTask.dec) k (by intro q; unfold PTask.pay; split <;> simp [PTask.wt])
    simp only [work, setTop, setThr, modTask] at h1 ⊢
    omega
  | up hst hpc hq hk hc hp =>
    left
    rename_i f fs j q k p
    have h1 := top_work (u := s.setTop i { f with pc := .sub p } fs) (f' := { f with pc := .sub p }) hi hst rfl
    obtain ⟨q0, hq0, -⟩ := h.P.task i f k (by simp [hst]) hk
    have hfl := h.F.flags i f k q0 (by simp [hst]) hk hq0
    rw [hpc] at hfl
    simp only [Flags] at hfl
    have h2 : Frame.wt { f with pc := .sub p } < f.wt := by
      rcases hfl with ⟨rfl, -⟩ | ⟨-, hjp, -⟩
      · have hne : p ≠ j := by
          rintro rfl
          obtain ⟨q1, h3, h4, -⟩ := h.F.parent _ _ _ hq hp
          rw [hq] at h3; simp only [Option.some.injEq] at h3; subst h3
          rw [hp] at h4; simp at h4
        simp [Frame.wt, hpc, hk, Ne.symm hne]
      · obtain ⟨q1, h3, h4, -⟩ := h.F.parent _ _ _ hq0 hjp
        rw [hq] at h3; simp only [Option.some.injEq] at h3; subst h3
        rw [hp] at h4; simp at h4
    simp only [work, setTop, setThr] at h1 ⊢
    omega
  | finish hst hpc hq hk hc =>
    left
    rename_i f fs j q k
    obtain ⟨q0, hq0, hq1, -⟩ := h.P.task i f k (by simp [hst]) hk
    have h3 := sum_modify (PTask.setSt .finished) s.tasks k q0 hq0
    have h4 : (PTask.setSt .finished q0).wt = q0.wt := by simp [PTask.wt, PTask.setSt, hq1]
    have h1 := thr_work (u := s.setThr i { s.thr i with stack := fs }) (s := s) hi (by intro k hk; simp [setThr, upd, hk])
    have h2 : ((s.setThr i { s.thr i with stack := fs }).thr i).wt + f.wt = (s.thr i).wt := by
      simp [setThr, upd, Thread.wt, hst]; omega
    have h5 : 0 < f.wt := by simp [Frame.wt, hpc]; split <;> omega
    simp only [work, setThr, modTask] at h1 h2 h3 ⊢
    omega
  | ret hst hpc hc hk =>
    left
    rename_i f fs j
    have h1 := top_work (u := s.setTop i { f with pc := .sub j } fs) (f' := { f with pc := .sub j }) hi hst rfl
    have h2 : Frame.wt { f with pc := .sub j } + 1 = f.wt := by simp [Frame.wt, hpc, hc, hk, Prog.wt]
    simp only [work, setTop, setThr] at h1 ⊢
    omega
  | submitRoot hst hpc hc =>
    left
    rename_i f fs c k
    have h1 := top_work (u := s.setTop i { f with code := k, env := s.tasks.length :: f.env, pc := .push s.tasks.length } fs)
      (f' := { f with code := k, env := s.tasks.length :: f.env, pc := .push s.tasks.length }) hi hst rfl
    have h2 : Frame.wt { f with code := k, env := s.tasks.length :: f.env, pc := .push s.tasks.length } + c.wt + 2 = f.wt := by
      simp [Frame.wt, hpc, hc, Prog.wt]; omega
    simp only [work, setTop, setThr, List.map_append, List.sum_append, List.map_cons, List.sum_cons, List.map_nil, List.sum_nil, PTask.wt, if_true, true_or] at h1 ⊢
    omega
  | submitChild hst hpc hc hv hq =>
    left
    rename_i f fs v c k pj q
    have h1 := top_work (u := s.setTop i { f with code := k, env := s.tasks.length :: f.env, pc := .push s.tasks.length } fs)
      (f' := { f with code := k, env := s.tasks.length :: f.env, pc := .push s.tasks.length }) hi hst rfl
    have h2 : Frame.wt { f with code := k, env := s.tasks.length :: f.env, pc := .push s.tasks.length } + c.wt + 2 = f.wt := by
      simp [Frame.wt, hpc, hc, Prog.wt]; omega
    have h3 := sum_modify_same PTask.inc s.tasks pj (fun q => PTask.wt_congr (by simp only [PTask.inc]) (by simp only [PTask.inc]))
    have h4 : PTask.wt { parent := some pj, counter := 1, code := c, env := f.env, by_ := i, caller := f.time } = c.wt + 1 := by simp [PTask.wt]
    simp only [work, setTop, setThr, List.map_append, List.sum_append, List.map_cons, List.sum_cons, List.map_nil, List.sum_nil] at h1 ⊢
    omega
  | waited hst hpc hc hgn hv hq h0 =>
    left
    rename_i f fs v k j q
    have h1 := top_work (u := s.setTop i { f with code := k } fs) (f' := { f with code := k }) hi hst rfl
    have h2 : Frame.wt { f with code := k } + 1 = f.wt := by simp [Frame.wt, hpc, hc, Prog.wt]
    simp only [work, setTop, setThr] at h1 ⊢
    omega

/-! ## Some thread can always go on -/

theorem resp_of_frame {n : Nat} {s : PoolState} (h : AllInv n s) : ∀ (m i : Nat) (f : Frame), f ∈ (s.thr i).stack → s.clock - f.time ≤ m →
    ∃ i, i < n ∧ Resp n s i := by
  intro m
  induction m with
  | zero => ?_
  | succ m ih => ?_
  all_goals
    intro i f hf hm
    have hi : i < n := by
      rcases Nat.lt_or_ge i n with hi | hi
      · exact hi
      · rw [h.P.idx i hi] at hf; simp at hf
    obtain ⟨top, fs, hst⟩ : ∃ top fs, (s.thr i).stack = top :: fs := by
      cases e : (s.thr i).stack with
      | nil => simp [e] at hf
      | cons a l => exact ⟨a, l, rfl⟩
    have htop : top ∈ (s.thr i).stack := by simp [hst]
    have htm := h.P.tm i top htop
    have hrec : ∀ i' g, g ∈ (s.thr i').stack → f.time < g.time → ∃ i, i < n ∧ Resp n s i := by
      intro i' g hg hlt
      have := h.P.tm i' g hg
      first
      | (exfalso; omega)
      | exact ih i' g hg (by omega)
    by_cases hlt : f.time < top.time
    · exact hrec i top htop hlt
    have hft : f = top := by
      have ho := h.P.ord i
      rw [hst] at hf ho
      rcases List.mem_cons.mp hf with hf | hf
      · exact hf
      · exact absurd ((List.pairwise_cons.mp ho).1 f hf) hlt
    subst hft
    by_cases hR : Resp n s i
    · exact ⟨i, hi, hR⟩
    have hR' : ¬ ∀ v k j q, f.pc = .run → f.code = .wait v k → f.env[v]? = some j → s.tasks[j]? = some q →
        q.counter = 0 ∨ (s.queue i).items ≠ [] := fun hc => hR (.inl ⟨f, fs, hst, hc⟩)
    simp only [Classical.not_forall, not_or, Decidable.not_not] at hR'
    obtain ⟨v, k, j, q, hpc, hcode, hv, hq, hcnt, hqe⟩ := hR'
    obtain ⟨Γ, -, hfj, hty⟩ := h.F.typ i f hf
    rw [hcode] at hfj
    obtain ⟨q', hq', hby, hcl, -⟩ := hty v j hfj.1 hv
    rw [hq] at hq'; simp only [Option.some.injEq] at hq'; subst hq'
    -- a task that has not been counted down
    obtain ⟨t, qt, hqt, hby', hcl', hfin⟩ : ∃ (t : Nat) (qt : PTask), s.tasks[t]? = some qt ∧ qt.by_ = i ∧ qt.caller = f.time ∧ qt.st ≠ .finished := by
      have hc := h.F.cnt j q hq
      by_cases hown : q.own = true
      · refine ⟨j, q, hq, hby, hcl, fun hc => ?_⟩
        have := (h.F.fin j q hq hc).1
        simp [this] at hown
      · have hown : q.own = false := by simpa using hown
        have hpos : 0 < pend s.tasks j := by
          rcases Nat.eq_zero_or_pos (pend s.tasks j) with h0 | h0
          · simp [hown, h0, b2n] at hc; exact absurd hc hcnt
          · exact h0
        unfold pend at hpos
        rw [List.countP_pos_iff] at hpos
        obtain ⟨qt, hmem, hp⟩ := hpos
        obtain ⟨t, ht⟩ := List.getElem?_of_mem hmem
        simp only [Bool.and_eq_true, decide_eq_true_eq] at hp
        obtain ⟨q1, h1, -, h3, h4⟩ := h.F.parent t j qt ht (by simpa using hp.1)
        rw [hq] at h1; simp only [Option.some.injEq] at h1; subst h1
        refine ⟨t, qt, ht, by rw [← h3, hby], by rw [← h4, hcl], fun hc => ?_⟩
        have := (h.F.fin t qt ht hc).2
        simp [this] at hp
    cases hst' : qt.st with
    | finished => exact absurd hst' hfin
    | made =>
      obtain ⟨g, hg, hgp⟩ := h.P.made t qt hqt hst'
      rw [hby', hst] at hg
      rcases List.mem_cons.mp hg with rfl | hg
      · rw [hpc] at hgp; simp at hgp
      · have := (h.P.low i f fs hst g hg).1; rw [this] at hgp; simp at hgp
    | queued =>
      have := h.P.queued t qt hqt hst'
      rw [hby', hqe] at this; simp at this
    | started =>
      rcases h.P.started t qt hqt hst' with ⟨g, hg, hgt⟩ | hu
      · obtain ⟨q1, h1, -, -, -, h2⟩ := h.P.task _ g t hg hgt
        rw [hqt] at h1; simp only [Option.some.injEq] at h1; subst h1
        exact hrec _ g hg (by omega)
      · rw [h.N.unwound] at hu; simp at hu

theorem resp_exists {n : Nat} (hn : 0 < n) {s : PoolState} (h : AllInv n s) (hg : s.main ≠ .gone) : ∃ i, i < n ∧ Resp n s i := by
  by_cases hfr : ∃ i f, f ∈ (s.thr i).stack
  · obtain ⟨i, f, hf⟩ := hfr
    exact resp_of_frame h _ i f hf (Nat.le_refl _)
  · have hem : ∀ i, (s.thr i).stack = [] := by
      intro i
      cases e : (s.thr i).stack with
      | nil => rfl
      | cons a l => exact absurd ⟨i, a, by simp [e]⟩ hfr
    cases hm : s.main with
    | gone => exact absurd hm hg
    | run => obtain ⟨f, hf, -⟩ := h.P2.run hm; exact absurd ⟨0, f, hf⟩ hfr
    | stop k => exact ⟨0, hn, .inr (.inl ⟨rfl, hem 0, .inl ⟨k, hm⟩⟩)⟩
    | join k =>
      by_cases hk : k < n
      · by_cases hx : (s.thr k).mode = .exited
        · exact ⟨0, hn, .inr (.inl ⟨rfl, hem 0, .inr ⟨k, hm, fun _ => hx⟩⟩)⟩
        · have := h.M.join k hm
          exact ⟨k, hk, .inr (.inr ⟨by omega, hem k, (h.P2.join k hm).1 k this hk, hx⟩)⟩
      · exact ⟨0, hn, .inr (.inl ⟨rfl, hem 0, .inr ⟨k, hm, fun hc => absurd hc hk⟩⟩)⟩

/-! ## A thread that does not wait for another one makes progress -/

theorem start_some {n : Nat} {s : PoolState} (h : AllInv n s) {i rnd : Nat} {g : GetPc} {j : Nat} {queue : Nat → TQueue}
    (e : s.getStep n i rnd g = .got j queue) : (s.startTask i j queue).isSome = true := by
  obtain ⟨v, qu, ht, -⟩ := getStep_got e
  obtain ⟨l, r, hl, -⟩ := ht.mem
  obtain ⟨q, hq, -⟩ := h.P.queue v j (by simp [hl])
  simp [startTask, hq]

/-- A call in a fork-join program can always go on. -/
theorem frame_enabled {n : Nat} {s : PoolState} (h : AllInv n s) {i : Nat} (hi : i < n) {f : Frame} {fs : List Frame}
    (hst : (s.thr i).stack = f :: fs) (rnd : Nat) (acq : Bool) : (s.step n i rnd acq).isSome = true := by
  have hf : f ∈ (s.thr i).stack := by simp [hst]
  have hflag : ∀ j, f.pc = .sub j ∨ f.pc = .check j → ∃ k q, f.task = some k ∧ s.tasks[j]? = some q := by
    intro j hj
    cases hk : f.task with
    | none => have := h.M.pc i f hf hk j; rcases hj with hj | hj <;> simp [hj] at this
    | some k =>
      obtain ⟨q, hq, -⟩ := h.P.task i f k hf hk
      have hfl := h.F.flags i f k q hf hk hq
      refine ⟨k, ?_⟩
      have hc : j = k ∨ q.parent = some j := by
        rcases hj with hj | hj <;> rw [hj] at hfl <;> simp only [Flags] at hfl <;> grind
      rcases hc with rfl | hc
      · exact ⟨q, rfl, hq⟩
      · obtain ⟨q', hq', -⟩ := h.F.parent k j q hq hc
        exact ⟨q', rfl, hq'⟩
  obtain ⟨Γ, hlen, hfj, hty⟩ := h.F.typ i f hf
  have henv : ∀ v : Nat, (Γ[v]? = some Kind.root ∨ Γ[v]? = some Kind.child) → ∃ (j : Nat) (q : PTask), f.env[v]? = some j ∧ s.tasks[j]? = some q := by
    intro v hv
    have hlt : v < f.env.length := by
      rw [← hlen]
      rcases hv with hv | hv <;> exact (List.getElem?_eq_some_iff.mp hv).1
    obtain ⟨q, hq, -⟩ := hty v f.env[v] hv (List.getElem?_eq_getElem hlt)
    exact ⟨f.env[v], q, List.getElem?_eq_getElem hlt, hq⟩
  have hn : ¬ (s.dead = true ∨ n ≤ i) := by simp [h.N.dead]; omega
  unfold PoolState.step
  rw [if_neg hn, hst]
  simp only [stepFrame]
  cases hpc : f.pc with
  | push j => rfl
  | sub j =>
    obtain ⟨k, q, hk, hq⟩ := hflag j (.inl hpc)
    simp [hk, hq]
  | check j =>
    obtain ⟨k, q, hk, hq⟩ := hflag j (.inr hpc)
    simp only [hk, hq]
    split <;> rfl
  | run =>
    cases hc : f.code with
    | ret => simp only; split <;> rfl
    | throw => simp only; split <;> rfl
    | submit p c k =>
      rw [hc] at hfj
      cases p with
      | none => rfl
      | some v =>
        obtain ⟨j, q, hj, hq⟩ := henv v (.inl hfj.1)
        simp [hj, hq]
    | wait v k =>
      rw [hc] at hfj
      obtain ⟨j, q, hj, hq⟩ := henv v hfj.1
      simp only [hj, hq]
      split
      · split <;> rfl
      · split
        · rfl
        · rename_i e; exact start_some h e
        · rfl

theorem resp_enabled {n : Nat} {s : PoolState} (h : AllInv n s) {i : Nat} (hi : i < n) (hR : Resp n s i) (rnd : Nat) (acq : Bool) :
    (s.step n i rnd acq).isSome = true := by
  have hn : ¬ (s.dead = true ∨ n ≤ i) := by simp [h.N.dead]; omega
  rcases hR with ⟨f, fs, hst, -⟩ | ⟨h0, hst, hm⟩ | ⟨h0, hst, ha, hx⟩
  · exact frame_enabled h hi hst rnd acq
  · unfold PoolState.step
    rw [if_neg hn, hst]
    simp only [h0, if_true, stepDtor]
    rcases hm with ⟨k, hm⟩ | ⟨k, hm, hk⟩
    · simp only [hm]; split <;> rfl
    · simp only [hm]
      split
      · rw [if_pos (hk ‹_›)]; rfl
      · rfl
  · unfold PoolState.step
    rw [if_neg hn, hst]
    simp only [h0, if_false, stepLoop]
    split
    · split
      · rfl
      · split
        · rfl
        · rename_i e; exact start_some h e
        · rfl
    · split <;> rfl
    · exact absurd ‹_› hx

theorem Spin.work {n : Nat} {s u : PoolState} {i : Nat} (h : Spin s i u) : CoEcs.work n u = CoEcs.work n s := by
  have h1 : sumTo n (fun k => (u.thr k).wt) = sumTo n (fun k => (s.thr k).wt) := by
    apply sumTo_congr
    intro k _
    by_cases e : k = i
    · subst e; simp [Thread.wt, h.stack, h.mode.1, h.mode.2]
    · rw [h.others k e]
  simp only [CoEcs.work, h.tasks, h.main, h1]

theorem Spin.resp {n : Nat} {s u : PoolState} {i k : Nat} (ha : AllInv n s) (h : Spin s k u) (hR : Resp n s i) : Resp n u i := by
  have hst : (u.thr i).stack = (s.thr i).stack := by
    by_cases e : i = k
    · subst e; exact h.stack
    · rw [h.others i e]
  have hex : ∀ j, (s.thr j).mode = .exited ↔ (u.thr j).mode = .exited := by
    intro j
    by_cases e : j = k
    · subst e; exact ⟨fun hc => absurd hc h.mode.1, fun hc => absurd hc h.mode.2⟩
    · rw [h.others j e]
  unfold Resp
  rw [hst, h.tasks, h.queue, h.main, h.active]
  rcases hR with h1 | ⟨h1, h2, h3⟩ | ⟨h1, h2, h3, h4⟩
  · exact .inl h1
  · refine .inr (.inl ⟨h1, h2, ?_⟩)
    rcases h3 with h3 | ⟨j, h3, h4⟩
    · exact .inl h3
    · exact .inr ⟨j, h3, fun hj => (hex j).1 (h4 hj)⟩
  · exact .inr (.inr ⟨h1, h2, h3, fun hc => h4 ((hex i).2 hc)⟩)

theorem Spin.rank_other {s u : PoolState} {i k : Nat} (h : Spin s k u) (hk : i ≠ k) : rank u i = rank s i := by
  simp only [rank, h.others i hk, h.queue]

theorem PoolReach.all {n : Nat} (hn : 0 < n) {p : Prog} (hp : p.FJ []) {s : PoolState} (h : PoolReach n p s) : AllInv n s :=
  ⟨(h.inv hn).1, (h.inv hn).2, h.noThrow hp.noThrow, h.fork hn hp, h.minv⟩

theorem PoolExec.reach {n : Nat} {p : Prog} (e : PoolExec n p) (k : Nat) : PoolReach n p (e.state k) := by
  induction k with
  | zero => rw [e.init]; exact .refl _
  | succ k ih =>
    rcases e.next k with h | ⟨-, h⟩
    · exact .step _ _ _ ih h
    · rw [h]; exact ih

/-- A thread that need not wait gets something done. -/
theorem PoolExec.resp_works {n : Nat} (hn : 0 < n) {p : Prog} (hp : p.FJ []) (e : PoolExec n p) (hf : e.Fair) {i : Nat} (hi : i < n) :
    ∀ (r k : Nat), Resp n (e.state k) i → rank (e.state k) i ≤ r → ∃ m, k < m ∧ work n (e.state m) < work n (e.state k) := by
  intro r
  induction r with
  | zero => ?_
  | succ r ih => ?_
  all_goals
    intro k hR hr
    obtain ⟨m, hkm, hm⟩ := hf i hi k
    obtain ⟨d, hd⟩ : ∃ d, d = m - k := ⟨_, rfl⟩
    induction d generalizing k with
    | zero => ?_
    | succ d ihd => ?_
    all_goals
      have hI := (e.reach k).all hn hp
      by_cases hw : e.who k = i
      · have hen := resp_enabled hI hi hR (e.rnd k) (e.acq k)
        rcases e.next k with hs | ⟨hs, -⟩
        · obtain ⟨-, -, hs⟩ := step_cases hs
          rw [hw] at hs
          rcases progress hI hi hs with hlt | ⟨hsp, hrk⟩
          · exact ⟨k + 1, by omega, hlt⟩
          · have hrk := hrk hR
            first
            | (exfalso; omega)
            | (obtain ⟨m', hm', hlt⟩ := ih (k + 1) (hsp.resp hI hR) (by omega)
               exact ⟨m', by omega, by rw [← hsp.work]; exact hlt⟩)
        · rw [hw] at hs; simp [hs] at hen
      · have hne : m ≠ k := by rintro rfl; exact hw hm
        first
        | (exfalso; omega)
        | (rcases e.next k with hs | ⟨-, hs⟩
           · obtain ⟨-, hlt, hs⟩ := step_cases hs
             rcases progress hI hlt hs with hlt | ⟨hsp, -⟩
             · exact ⟨k + 1, by omega, hlt⟩
             · obtain ⟨m', hm', hlt⟩ := ihd (k + 1) (hsp.resp hI hR) (by rw [hsp.rank_other (Ne.symm hw)]; exact hr) (by omega) (by omega)
               exact ⟨m', by omega, by rw [← hsp.work]; exact hlt⟩
           · obtain ⟨m', hm', hlt⟩ := ihd (k + 1) (by rw [hs]; exact hR) (by rw [hs]; exact hr) (by omega) (by omega)
             rw [hs] at hlt
             exact ⟨m', by omega, hlt⟩)

/-- A fork-join program ends, and the pool with it, under every fair schedule. -/
theorem PoolExec.ends {n : Nat} (hn : 0 < n) {p : Prog} (hp : p.FJ []) (e : PoolExec n p) (hf : e.Fair) :
    ∃ k, (e.state k).main = .gone := by
  suffices h : ∀ (w k : Nat), work n (e.state k) ≤ w → ∃ m, (e.state m).main = .gone from h _ 0 (Nat.le_refl _)
  intro w
  induction w with
  | zero => ?_
  | succ w ih => ?_
  all_goals
    intro k hk
    by_cases hg : (e.state k).main = .gone
    · exact ⟨k, hg⟩
    · obtain ⟨i, hi, hR⟩ := resp_exists hn ((e.reach k).all hn hp) hg
      obtain ⟨m, -, hm⟩ := e.resp_works hn hp hf hi _ k hR (Nat.le_refl _)
      first
      | (exfalso; omega)
      | exact ih m (by omega)

end CoEcs
