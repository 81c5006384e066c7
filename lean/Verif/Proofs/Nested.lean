import Verif.Proofs.Joined

/-! # What a worker executes on top of a call that waits -/

namespace CoEcs
open PoolState

/-- The task has been taken by another worker than the one that submitted it. -/
def PTask.stolen (q : PTask) : Bool := decide (q.on ≠ q.by_) && (decide (q.st = .started) || decide (q.st = .finished))

/-- The part of a task these invariants are about. -/
def PTask.nest (q : PTask) : Nat × Nat × Bool := (q.by_, q.caller, q.stolen)

/-- Of the tasks that the call which began at `t` submitted on worker `i`, one is in the queue of the worker or has been stolen. -/
def Mine (s : PoolState) (i t : Nat) : Prop :=
  (∃ x ∈ (s.queue i).items, ∃ q, s.tasks[x]? = some q ∧ q.caller = t) ∨
    ∃ (c : Nat) (q : PTask), s.tasks[c]? = some q ∧ q.by_ = i ∧ q.stolen = true ∧ q.caller = t

/-- What always holds of the order in which a worker submits tasks, and of its calls. -/
structure NestInv (s : PoolState) : Prop where
  far : ∀ i, (((s.thr i).get = some .main ∨ ∃ t, (s.thr i).get = some (.mainTake t)) → i ≠ 0) ∧ ∀ v t, (s.thr i).get = some (.rndTake v t) → v ≠ i
  mono : ∀ (c x : Nat) (qc qx : PTask), s.tasks[c]? = some qc → s.tasks[x]? = some qx → c < x → qc.by_ = qx.by_ →
    (∃ f ∈ (s.thr qc.by_).stack, f.time = qc.caller) → qc.caller ≤ qx.caller
  sorted : ∀ i, (s.queue i).items.Pairwise (· < ·)
  newest : ∀ i f j, f ∈ (s.thr i).stack → f.pc = .push j → ∀ (c : Nat) (q : PTask), s.tasks[c]? = some q → q.by_ = i → c ≤ j
  stolen : ∀ (c : Nat) (q : PTask), s.tasks[c]? = some q → q.stolen = true → ∀ x ∈ (s.queue q.by_).items, c < x
  popping : ∀ i g fs, (s.thr i).get = some .pop → (s.thr i).stack = g :: fs → Mine s i g.time
  over : ∀ i f g, f ∈ (s.thr i).stack → g ∈ (s.thr i).stack → g.time < f.time → ∀ (k : Nat) (q : PTask), f.task = some k → s.tasks[k]? = some q →
    q.by_ = i → g.time ≤ q.caller

theorem NestInv.init (p : Prog) : NestInv (PoolState.init p) := by
  have hs : ∀ i, ((PoolState.init p).thr i).stack = if i = 0 then [⟨none, p, [], .run, 0⟩] else [] := by
    intro i; simp only [PoolState.init]; split <;> rfl
  have hg : ∀ i, ((PoolState.init p).thr i).get = none := by intro i; simp only [PoolState.init]; split <;> rfl
  have ht : (PoolState.init p).tasks = [] := rfl
  have hq : (PoolState.init p).queue = fun _ => ⟨0, []⟩ := rfl
  constructor <;> simp [hs, hg, ht, hq]

theorem nest_get {l l' : List PTask} (ht : ∀ m : Nat, (l'[m]?).map PTask.nest = (l[m]?).map PTask.nest) {m : Nat} {q : PTask} (h : l'[m]? = some q) :
    ∃ q', l[m]? = some q' ∧ q'.by_ = q.by_ ∧ q'.caller = q.caller ∧ q'.stolen = q.stolen := by
  have := ht m
  rw [h] at this
  cases e : l[m]? with
  | none => simp [e] at this
  | some q' => simp [e, PTask.nest] at this; exact ⟨q', rfl, this.1.symm, this.2.1.symm, this.2.2.symm⟩

theorem Mine.keep {s u : PoolState} {i t : Nat} (h : Mine s i t) (hq : u.queue = s.queue)
    (ht : ∀ m : Nat, (u.tasks[m]?).map PTask.nest = (s.tasks[m]?).map PTask.nest) : Mine u i t := by
  rcases h with ⟨x, hx, q, h1, h2⟩ | ⟨c, q, h1, h2, h3, h4⟩
  · obtain ⟨q', e1, -, e2, -⟩ := nest_get (fun m => (ht m).symm) h1
    exact .inl ⟨x, by rw [hq]; exact hx, q', e1, by omega⟩
  · obtain ⟨q', e1, e3, e2, e4⟩ := nest_get (fun m => (ht m).symm) h1
    exact .inr ⟨c, q', e1, by omega, by rw [e4]; exact h3, by omega⟩

/-- Steps that neither submit nor take a task. -/
theorem NestInv.calm {s u : PoolState} (h : NestInv s) (hq : u.queue = s.queue)
    (ht : ∀ m : Nat, (u.tasks[m]?).map PTask.nest = (s.tasks[m]?).map PTask.nest)
    (hf : ∀ k f, f ∈ (u.thr k).stack → ∃ f' ∈ (s.thr k).stack, f'.task = f.task ∧ f'.time = f.time ∧ ∀ j, f.pc = .push j → f'.pc = .push j)
    (hg : ∀ k, (((u.thr k).get = some .main ∨ ∃ t, (u.thr k).get = some (.mainTake t)) → k ≠ 0) ∧ ∀ v t, (u.thr k).get = some (.rndTake v t) → v ≠ k)
    (hp : ∀ k g fs, (u.thr k).get = some .pop → (u.thr k).stack = g :: fs → Mine s k g.time) : NestInv u := by
  refine ⟨hg, ?_, by rw [hq]; exact h.sorted, ?_, ?_, fun k g fs h1 h2 => (hp k g fs h1 h2).keep hq ht, ?_⟩
  · intro c x qc qx h1 h2 hlt hb ⟨f, hfm, hft⟩
    obtain ⟨qc', c1, c2, c3, -⟩ := nest_get ht h1
    obtain ⟨qx', x1, x2, x3, -⟩ := nest_get ht h2
    obtain ⟨f', f1, -, f2, -⟩ := hf _ f hfm
    have := h.mono c x qc' qx' c1 x1 hlt (by omega) ⟨f', by rw [c2]; exact f1, by omega⟩
    omega
  · intro i f j hfm hpc c q h1 hb
    obtain ⟨q', c1, c2, -, -⟩ := nest_get ht h1
    obtain ⟨f', f1, -, -, f2⟩ := hf _ f hfm
    exact h.newest i f' j f1 (f2 j hpc) c q' c1 (by omega)
  · intro c q h1 hst x hx
    obtain ⟨q', c1, c2, -, c4⟩ := nest_get ht h1
    rw [hq, ← c2] at hx
    exact h.stolen c q' c1 (by rw [c4]; exact hst) x hx
  · intro i f g hfm hgm hlt k q hk h1 hb
    obtain ⟨q', c1, c2, c3, -⟩ := nest_get ht h1
    obtain ⟨f', f1, f2, f3, -⟩ := hf _ f hfm
    obtain ⟨g', g1, -, g3, -⟩ := hf _ g hgm
    have := h.over i f' g' f1 g1 (by omega) k q' (by rw [f2]; exact hk) c1 (by omega)
    omega

/-- The innermost call is the one that began last. -/
theorem TPoolInv.top_max {n : Nat} {s : PoolState} (h : TPoolInv n s) {i : Nat} {g : Frame} {fs : List Frame} (hst : (s.thr i).stack = g :: fs) {f : Frame}
    (hf : f ∈ (s.thr i).stack) : f.time ≤ g.time := by
  have := h.ord i
  rw [hst] at this hf
  rcases List.mem_cons.1 hf with rfl | hf
  · exact Nat.le_refl _
  · exact Nat.le_of_lt ((List.pairwise_cons.1 this).1 f hf)

/-- A task is pushed. -/
theorem NestInv.pushed {n : Nat} {s u : PoolState} (hP : TPoolInv n s) (hP2 : TPoolInv2 n s) (h : NestInv s) {i j : Nat} {f : Frame} {fs : List Frame}
    (hst : (s.thr i).stack = f :: fs) (hpc : f.pc = .push j)
    (hs : ∀ k, (u.thr k).stack = if k = i then { f with pc := .run } :: fs else (s.thr k).stack)
    (hg : ∀ k, (u.thr k).get = (s.thr k).get)
    (hQ : ∀ k, u.queue k = if k = i then (s.queue i).push j else s.queue k)
    (ht : ∀ m : Nat, (u.tasks[m]?).map PTask.nest = (s.tasks[m]?).map PTask.nest) : NestInv u := by
  have hfs : f ∈ (s.thr i).stack := by simp [hst]
  have hf : ∀ k f, f ∈ (u.thr k).stack → ∃ f' ∈ (s.thr k).stack, f'.task = f.task ∧ f'.time = f.time ∧ ∀ j, f.pc = .push j → f'.pc = .push j := by
    intro k f' hf'
    rw [hs] at hf'
    split at hf'
    · rename_i e; subst e
      rcases List.mem_cons.1 hf' with rfl | hf'
      · exact ⟨f, hfs, rfl, rfl, by simp⟩
      · exact ⟨f', by rw [hst]; simp [hf'], rfl, rfl, fun _ => id⟩
    · exact ⟨f', hf', rfl, rfl, fun _ => id⟩
  have hno : (s.thr i).get = none := by
    cases hgt : (s.thr i).get with
    | none => rfl
    | some x => have := (hP2.get i f fs (by simp [hgt]) hst).1; rw [hpc] at this; cases this
  obtain ⟨qj, hqj, hqs, hqb, hqc⟩ := hP.push i f j hfs hpc
  have hnew := h.newest i f j hfs hpc
  refine ⟨by intro k; rw [hg]; exact h.far k, ?_, ?_, ?_, ?_, ?_, ?_⟩
  · intro c x qc qx h1 h2 hlt hb ⟨f, hfm, hft⟩
    obtain ⟨qc', c1, c2, c3, -⟩ := nest_get ht h1
    obtain ⟨qx', x1, x2, x3, -⟩ := nest_get ht h2
    obtain ⟨f', f1, -, f2, -⟩ := hf _ f hfm
    have := h.mono c x qc' qx' c1 x1 hlt (by omega) ⟨f', by rw [c2]; exact f1, by omega⟩
    omega
  · intro k
    rw [hQ]
    split
    · simp only [TQueue.push]
      rw [List.pairwise_append]
      refine ⟨h.sorted i, by simp, ?_⟩
      intro a ha b hb
      simp only [List.mem_singleton] at hb; subst hb
      obtain ⟨qa, a1, a2, a3⟩ := hP.queue i a ha
      have := hnew a qa a1 a3
      have : a ≠ b := by rintro rfl; rw [hqj] at a1; simp only [Option.some.injEq] at a1; subst a1; rw [hqs] at a2; cases a2
      omega
    · exact h.sorted k
  · intro k f j hfm hpc c q h1 hb
    obtain ⟨q', c1, c2, -, -⟩ := nest_get ht h1
    obtain ⟨f', f1, -, -, f2⟩ := hf _ f hfm
    exact h.newest k f' j f1 (f2 j hpc) c q' c1 (by omega)
  · intro c q h1 hsl x hx
    obtain ⟨q', c1, c2, -, c4⟩ := nest_get ht h1
    rw [hQ] at hx
    split at hx
    · rename_i e
      simp only [TQueue.push, List.mem_append, List.mem_singleton] at hx
      rcases hx with hx | rfl
      · exact h.stolen c q' c1 (by rw [c4]; exact hsl) x (by rw [c2, e]; exact hx)
      · have := hnew c q' c1 (by omega)
        have : c ≠ x := by
          rintro rfl
          rw [hqj] at c1; simp only [Option.some.injEq] at c1; subst c1
          rw [hsl] at c4; simp [PTask.stolen, hqs] at c4
        omega
    · exact h.stolen c q' c1 (by rw [c4]; exact hsl) x (by rw [c2]; exact hx)
  · intro k g fs' h1 h2
    have hk : k ≠ i := by rintro rfl; rw [hg, hno] at h1; cases h1
    rw [hg] at h1
    rw [hs, if_neg hk] at h2
    rcases h.popping k g fs' h1 h2 with ⟨x, hx, q, h1, h2⟩ | ⟨c, q, h1, h2, h3, h4⟩
    · obtain ⟨q', e1, -, e2, -⟩ := nest_get (fun m => (ht m).symm) h1
      exact .inl ⟨x, by rw [hQ, if_neg hk]; exact hx, q', e1, by omega⟩
    · obtain ⟨q', e1, e3, e2, e4⟩ := nest_get (fun m => (ht m).symm) h1
      exact .inr ⟨c, q', e1, by omega, by rw [e4]; exact h3, by omega⟩
  · intro k f g hfm hgm hlt m q hk h1 hb
    obtain ⟨q', c1, c2, c3, -⟩ := nest_get ht h1
    obtain ⟨f', f1, f2, f3, -⟩ := hf _ f hfm
    obtain ⟨g', g1, -, g3, -⟩ := hf _ g hgm
    have := h.over k f' g' f1 g1 (by omega) m q' (by rw [f2]; exact hk) c1 (by omega)
    omega

/-- A task is made. -/
theorem NestInv.submitted {n : Nat} {s u : PoolState} (hP : TPoolInv n s) (hP2 : TPoolInv2 n s) (h : NestInv s) {i : Nat} {f f' : Frame} {fs : List Frame}
    (hst : (s.thr i).stack = f :: fs) (hnw : ∀ v k, f.code ≠ .wait v k) (htk : f'.task = f.task) (htm : f'.time = f.time)
    (hp' : f'.pc = .push s.tasks.length)
    (hs : ∀ k, (u.thr k).stack = if k = i then f' :: fs else (s.thr k).stack)
    (hg : ∀ k, (u.thr k).get = (s.thr k).get) (hQ : u.queue = s.queue)
    (ht : ∀ m : Nat, (u.tasks[m]?).map PTask.nest = if m = s.tasks.length then some (i, f.time, false) else (s.tasks[m]?).map PTask.nest) : NestInv u := by
  have hfs : f ∈ (s.thr i).stack := by simp [hst]
  have hlow := hP.low i f fs hst
  have hno : (s.thr i).get = none := by
    cases hgt : (s.thr i).get with
    | none => rfl
    | some x => obtain ⟨-, v, k, hw⟩ := hP2.get i f fs (by simp [hgt]) hst; exact absurd hw (hnw v k)
  have hf : ∀ k g, g ∈ (u.thr k).stack → ∃ g' ∈ (s.thr k).stack, g'.task = g.task ∧ g'.time = g.time ∧
      ∀ j, g.pc = .push j → g'.pc = .push j ∨ (k = i ∧ j = s.tasks.length) := by
    intro k g hg'
    rw [hs] at hg'
    split at hg'
    · rename_i e; subst e
      rcases List.mem_cons.1 hg' with rfl | hg'
      · exact ⟨f, hfs, htk.symm, htm.symm, fun j hj => .inr ⟨rfl, by rw [hp'] at hj; simp only [FramePc.push.injEq] at hj; exact hj.symm⟩⟩
      · exact ⟨g, by rw [hst]; simp [hg'], rfl, rfl, fun _ => .inl⟩
    · exact ⟨g, hg', rfl, rfl, fun _ => .inl⟩
  have old : ∀ {m : Nat} {q : PTask}, u.tasks[m]? = some q → (m = s.tasks.length ∧ q.by_ = i ∧ q.caller = f.time ∧ q.stolen = false) ∨
      ∃ q', m < s.tasks.length ∧ s.tasks[m]? = some q' ∧ q'.by_ = q.by_ ∧ q'.caller = q.caller ∧ q'.stolen = q.stolen := by
    intro m q hm
    have := ht m
    rw [hm] at this
    split at this
    · rename_i e
      simp only [Option.map_some, PTask.nest, Option.some.injEq, Prod.mk.injEq] at this
      exact .inl ⟨e, this⟩
    · cases e : s.tasks[m]? with
      | none => simp [e] at this
      | some q' =>
        simp [e, PTask.nest] at this
        exact .inr ⟨q', (List.getElem?_eq_some_iff.1 e).1, rfl, this.1.symm, this.2.1.symm, this.2.2.symm⟩
  have new : ∀ {m : Nat} {q : PTask}, s.tasks[m]? = some q → ∃ q', u.tasks[m]? = some q' ∧ q'.by_ = q.by_ ∧ q'.caller = q.caller ∧ q'.stolen = q.stolen := by
    intro m q hm
    have hlt := (List.getElem?_eq_some_iff.1 hm).1
    have := ht m
    rw [if_neg (by omega), hm] at this
    cases e : u.tasks[m]? with
    | none => simp [e] at this
    | some q' => simp [e, PTask.nest] at this; exact ⟨q', rfl, this⟩
  refine ⟨by intro k; rw [hg]; exact h.far k, ?_, by rw [hQ]; exact h.sorted, ?_, ?_, ?_, ?_⟩
  · intro c x qc qx h1 h2 hlt hb ⟨g, hgm, hgt⟩
    obtain ⟨g', g1, -, g2, -⟩ := hf _ g hgm
    rcases old h2 with ⟨hx, x1, x2, -⟩ | ⟨qx', hx, x1, x2, x3, -⟩
    · rw [hb, x1] at g1
      have := hP.top_max hst g1
      omega
    · rcases old h1 with ⟨hc, -⟩ | ⟨qc', hc, c1, c2, c3, -⟩
      · omega
      · have := h.mono c x qc' qx' c1 x1 hlt (by omega) ⟨g', by rw [c2]; exact g1, by omega⟩
        omega
  · intro k g j hgm hpc c q h1 hb
    obtain ⟨g', g1, -, -, g2⟩ := hf _ g hgm
    have hlen : c ≤ s.tasks.length := by
      rcases old h1 with ⟨hc, -⟩ | ⟨_, hc, -⟩ <;> omega
    rcases g2 j hpc with g2 | ⟨-, rfl⟩
    · rcases old h1 with ⟨hc, c1, -⟩ | ⟨q', hc, c1, c2, -⟩
      · -- the only call of this worker that could be pushing is the innermost one
        have hki : k = i := by omega
        subst hki
        rw [hs, if_pos rfl] at hgm
        rcases List.mem_cons.1 hgm with rfl | hgm
        · rw [hp'] at hpc; simp only [FramePc.push.injEq] at hpc; omega
        · have := (hlow g hgm).1; rw [hpc] at this; cases this
      · exact h.newest k g' j g1 g2 c q' c1 (by omega)
    · exact hlen
  · intro c q h1 hsl x hx
    rcases old h1 with ⟨-, -, -, hc⟩ | ⟨q', hc, c1, c2, -, c4⟩
    · rw [hsl] at hc; cases hc
    · rw [hQ, ← c2] at hx
      exact h.stolen c q' c1 (by rw [c4]; exact hsl) x hx
  · intro k g fs' h1 h2
    have hk : k ≠ i := by rintro rfl; rw [hg, hno] at h1; cases h1
    rw [hg] at h1
    rw [hs, if_neg hk] at h2
    rcases h.popping k g fs' h1 h2 with ⟨x, hx, q, h1, h2⟩ | ⟨c, q, h1, h2, h3, h4⟩
    · obtain ⟨q', e1, -, e2, -⟩ := new h1
      exact .inl ⟨x, by rw [hQ]; exact hx, q', e1, by omega⟩
    · obtain ⟨q', e1, e3, e2, e4⟩ := new h1
      exact .inr ⟨c, q', e1, by omega, by rw [e4]; exact h3, by omega⟩
  · intro k f1 g1 hfm hgm hlt m q hk h1 hb
    obtain ⟨f', f1, f2, f3, -⟩ := hf _ f1 hfm
    obtain ⟨g', g1, -, g3, -⟩ := hf _ g1 hgm
    rcases old h1 with ⟨hm, -⟩ | ⟨q', hc, c1, c2, c3, -⟩
    · obtain ⟨q0, h0, -⟩ := hP.task k f' m f1 (by rw [f2]; exact hk)
      have := (List.getElem?_eq_some_iff.1 h0).1
      omega
    · have := h.over k f' g' f1 g1 (by omega) m q' (by rw [f2]; exact hk) c1 (by omega)
      omega

/-- What a worker pops on top of a call that waits was submitted after this call began. -/
theorem NestInv.popped {n : Nat} {s : PoolState} (hP : TPoolInv n s) (h : NestInv s) {i : Nat} {g : Frame} {fs : List Frame}
    (hget : (s.thr i).get = some .pop) (hst : (s.thr i).stack = g :: fs) {j : Nat} {l : List Nat} (hl : (s.queue i).items = l ++ [j]) {q : PTask}
    (hq : s.tasks[j]? = some q) : g.time ≤ q.caller := by
  have hjq : j ∈ (s.queue i).items := by simp [hl]
  have hqb : q.by_ = i := by
    obtain ⟨q', h1, -, h2⟩ := hP.queue i j hjq
    rw [hq] at h1; simp only [Option.some.injEq] at h1; subst h1; exact h2
  have hgs : g ∈ (s.thr i).stack := by simp [hst]
  rcases h.popping i g fs hget hst with ⟨x, hx, qx, h1, h2⟩ | ⟨c, qc, h1, h2, h3, h4⟩
  · have hxb : qx.by_ = i := by
      obtain ⟨q', e1, -, e2⟩ := hP.queue i x hx
      rw [h1] at e1; simp only [Option.some.injEq] at e1; subst e1; exact e2
    have hle : x = j ∨ x < j := by
      have := h.sorted i
      rw [hl] at this hx
      rw [List.pairwise_append] at this
      rcases List.mem_append.1 hx with hx | hx
      · exact .inr (this.2.2 x hx j (by simp))
      · exact .inl (by simpa using hx)
    rcases hle with rfl | hlt
    · rw [h1] at hq; simp only [Option.some.injEq] at hq; subst hq; omega
    · have := h.mono x j qx q h1 hq hlt (by omega) ⟨g, by rw [hxb]; exact hgs, h2.symm⟩
      omega
  · have hlt := h.stolen c qc h1 h3 j (by rw [h2]; exact hjq)
    have := h.mono c j qc q h1 hq hlt (by omega) ⟨g, by rw [h2]; exact hgs, h4.symm⟩
    omega

/-- A task is taken from a queue and called. -/
theorem NestInv.start {n : Nat} {s u : PoolState} (hP : TPoolInv n s) (h : NestInv s) {i v j : Nat} {f : Frame} {q : PTask} {gp : GetPc}
    {qu : TQueue} (hget : (s.thr i).get = some gp) (hT : Takes s i gp v j qu)
    (hq : s.tasks[j]? = some q) (hft : f.task = some j) (hfp : f.pc = .run) (hfm : f.time = s.clock + 1)
    (hs : ∀ k, (u.thr k).stack = if k = i then f :: (s.thr i).stack else (s.thr k).stack)
    (hg : ∀ k, (u.thr k).get = if k = i then none else (s.thr k).get)
    (hQ : ∀ k, u.queue k = if k = v then qu else s.queue k)
    (ht : ∀ m : Nat, u.tasks[m]? = if m = j then some (q.begin_ i (s.clock + 1)) else s.tasks[m]?) : NestInv u := by
  obtain ⟨l, r, hl, hr⟩ := hT.mem
  have hjq : j ∈ (s.queue v).items := by simp [hl]
  obtain ⟨hqs, hqb⟩ : q.st = .queued ∧ q.by_ = v := by
    obtain ⟨q', h1, h2⟩ := hP.queue v j hjq
    rw [hq] at h1; simp only [Option.some.injEq] at h1; subst h1; exact h2
  have sub : ∀ k x, x ∈ (u.queue k).items → x ∈ (s.queue k).items := by
    intro k x hx
    rw [hQ] at hx
    split at hx
    · rename_i e; subst e
      rw [hr] at hx; rw [hl]
      rcases List.mem_append.1 hx with hx | hx <;> simp [hx]
    · exact hx
  have old : ∀ {m : Nat} {q' : PTask}, u.tasks[m]? = some q' → ∃ q0, s.tasks[m]? = some q0 ∧ q0.by_ = q'.by_ ∧ q0.caller = q'.caller ∧
      (q'.stolen = true → q0.stolen = true ∨ (m = j ∧ v ≠ i)) := by
    intro m q' hm
    rw [ht] at hm
    split at hm
    · rename_i e; subst e
      simp only [Option.some.injEq] at hm; subst hm
      refine ⟨q, hq, rfl, rfl, ?_⟩
      intro h1
      simp only [PTask.stolen, PTask.begin_, hqb, Bool.and_eq_true, decide_eq_true_eq] at h1
      exact .inr ⟨rfl, fun e => h1.1 e.symm⟩
    · exact ⟨q', hm, rfl, rfl, .inl⟩
  have new : ∀ {m : Nat} {q0 : PTask}, s.tasks[m]? = some q0 → ∃ q', u.tasks[m]? = some q' ∧ q'.by_ = q0.by_ ∧ q'.caller = q0.caller ∧
      (q0.stolen = true → q'.stolen = true) := by
    intro m q0 hm
    rw [ht]
    split
    · rename_i e; subst e
      rw [hq] at hm; simp only [Option.some.injEq] at hm; subst hm
      exact ⟨_, rfl, rfl, rfl, by simp [PTask.stolen, hqs]⟩
    · exact ⟨q0, hm, rfl, rfl, id⟩
  have hfar : v ≠ i → l = [] := by
    intro hne
    rcases hT with ⟨-, e, -⟩ | ⟨t, htk, -⟩
    · exact absurd e hne
    · unfold TQueue.take at htk
      split at htk
      · cases htk
      · rename_i j' js hi
        split at htk
        · simp only [Option.some.injEq, Prod.mk.injEq] at htk
          obtain ⟨rfl, rfl⟩ := htk
          have hnd := hP.nodup v
          rw [hl] at hnd hi
          cases l with
          | nil => rfl
          | cons a l =>
            simp only [List.cons_append, List.cons.injEq] at hi
            rw [hi.1] at hnd
            simp at hnd
        · cases htk
  have ownpop : v = i → gp = .pop ∧ r = [] := by
    intro e
    rcases hT with ⟨e1, -, hp⟩ | ⟨t, -, ⟨e1, e2⟩ | e1⟩
    · refine ⟨e1, ?_⟩
      unfold TQueue.pop at hp
      split at hp
      · cases hp
      · rename_i j' hlast
        simp only [Option.some.injEq, Prod.mk.injEq] at hp
        obtain ⟨rfl, rfl⟩ := hp
        have hnd := hP.nodup v
        rw [hl] at hnd hlast
        cases r with
        | nil => rfl
        | cons a r =>
          rw [List.getLast?_append, List.getLast?_cons_cons] at hlast
          cases hx : (a :: r).getLast? with
          | none => simp at hx
          | some y =>
            rw [hx] at hlast
            simp only [Option.some_or, Option.some.injEq] at hlast
            subst hlast
            have := List.mem_of_getLast? hx
            rw [List.nodup_append] at hnd
            exact absurd this (List.nodup_cons.1 hnd.2.1).1
    · exact absurd (by omega) ((h.far i).1 (.inr ⟨t, by rw [hget, e1]⟩))
    · exact absurd e ((h.far i).2 v t (by rw [hget, e1]))
  refine ⟨?_, ?_, ?_, ?_, ?_, ?_, ?_⟩
  · intro k
    rw [hg]
    split
    · simp
    · exact h.far k
  · intro c x qc qx h1 h2 hlt hb ⟨g, hgm, hgt⟩
    obtain ⟨qc', c1, c2, c3, -⟩ := old h1
    obtain ⟨qx', x1, x2, x3, -⟩ := old h2
    have hg' : g ∈ (s.thr qc.by_).stack := by
      rw [hs] at hgm
      split at hgm
      · rename_i e
        rcases List.mem_cons.1 hgm with rfl | hgm
        · have := (hP.bnd c qc' c1).2.2
          omega
        · rw [e]; exact hgm
      · exact hgm
    have := h.mono c x qc' qx' c1 x1 hlt (by omega) ⟨g, by rw [c2]; exact hg', by omega⟩
    omega
  · intro k
    rw [hQ]
    split
    · have := h.sorted v
      rw [hl] at this; rw [hr]
      rw [List.pairwise_append] at this ⊢
      exact ⟨this.1, (List.pairwise_cons.1 this.2.1).2, fun a ha b hb => this.2.2 a ha b (by simp [hb])⟩
    · exact h.sorted k
  · intro k g m hgm hpc c q' h1 hb
    obtain ⟨q0, c1, c2, -, -⟩ := old h1
    have hg' : g ∈ (s.thr k).stack := by
      rw [hs] at hgm
      split at hgm
      · rename_i e; subst e
        rcases List.mem_cons.1 hgm with rfl | hgm
        · rw [hfp] at hpc; cases hpc
        · exact hgm
      · exact hgm
    exact h.newest k g m hg' hpc c q0 c1 (by omega)
  · intro c q' h1 hsl x hx
    obtain ⟨q0, c1, c2, -, c4⟩ := old h1
    rcases c4 hsl with c4 | ⟨rfl, hne⟩
    · exact h.stolen c q0 c1 c4 x (by rw [c2]; exact sub _ x hx)
    · have e0 : q0.by_ = v := by rw [hq] at c1; simp only [Option.some.injEq] at c1; subst c1; exact hqb
      rw [hQ, if_pos (by omega), hr, hfar hne] at hx
      have := h.sorted v
      rw [hl, hfar hne] at this
      simp only [List.nil_append] at this hx
      exact (List.pairwise_cons.1 this).1 x hx
  · intro k g fs h1 h2
    have hk : k ≠ i := by rintro rfl; rw [hg, if_pos rfl] at h1; cases h1
    rw [hg, if_neg hk] at h1
    rw [hs, if_neg hk] at h2
    rcases h.popping k g fs h1 h2 with ⟨x, hx, q0, e1, e2⟩ | ⟨c, q0, e1, e2, e3, e4⟩
    · by_cases hxj : x = j
      · -- it is stolen now
        subst hxj
        rw [hq] at e1; simp only [Option.some.injEq] at e1; subst e1
        have hkv : k = v := by
          obtain ⟨q', a1, -, a2⟩ := hP.queue k x hx
          rw [hq] at a1; simp only [Option.some.injEq] at a1; subst a1; omega
        refine .inr ⟨x, q.begin_ i (s.clock + 1), by rw [ht, if_pos rfl], by show q.by_ = k; omega, ?_, e2⟩
        simp only [PTask.stolen, PTask.begin_, hqb, Bool.and_eq_true, decide_eq_true_eq]
        exact ⟨by omega, by simp⟩
      · obtain ⟨q', a1, -, a2, -⟩ := new e1
        refine .inl ⟨x, ?_, q', a1, by omega⟩
        rw [hQ]
        split
        · rename_i e; subst e
          rw [hr]; rw [hl] at hx
          rcases List.mem_append.1 hx with hx | hx
          · simp [hx]
          · rcases List.mem_cons.1 hx with hx | hx
            · exact absurd hx hxj
            · simp [hx]
        · exact hx
    · obtain ⟨q', a1, a2, a3, a4⟩ := new e1
      exact .inr ⟨c, q', a1, by omega, a4 e3, by omega⟩
  · intro k f1 g1 hfm hgm hlt m q' hk h1 hb
    obtain ⟨q0, c1, c2, c3, -⟩ := old h1
    have hin : ∀ g, g ∈ (u.thr k).stack → (k = i ∧ g = f) ∨ g ∈ (s.thr k).stack := by
      intro g hgm
      rw [hs] at hgm
      split at hgm
      · rename_i e; subst e
        rcases List.mem_cons.1 hgm with hgm | hgm
        · exact .inl ⟨rfl, hgm⟩
        · exact .inr hgm
      · exact .inr hgm
    rcases hin f1 hfm with ⟨rfl, rfl⟩ | hfm'
    · rw [hft] at hk; simp only [Option.some.injEq] at hk; subst hk
      rw [hq] at c1; simp only [Option.some.injEq] at c1; subst c1
      obtain ⟨hpop, hr0⟩ := ownpop (by omega)
      have hg1 : g1 ∈ (s.thr k).stack := by
        rcases hin g1 hgm with ⟨-, rfl⟩ | h'
        · omega
        · exact h'
      cases hst : (s.thr k).stack with
      | nil => rw [hst] at hg1; cases hg1
      | cons g fs =>
        have hvk : v = k := by omega
        have := h.popped hP (by rw [hget, hpop]) hst (j := j) (l := l) (by rw [← hvk, hl, hr0]) hq
        have := hP.top_max hst hg1
        omega
    · rcases hin g1 hgm with ⟨rfl, rfl⟩ | hgm'
      · have := hP.tm k f1 hfm'
        omega
      · have := h.over k f1 g1 hfm' hgm' hlt m q0 hk c1 (by omega)
        omega

/-- A call that finds the task it waits for not completed: one of its tasks is queued or stolen. -/
theorem AllInv.mine {n : Nat} {s : PoolState} (h : AllInv n s) {i : Nat} {g : Frame} {fs : List Frame} (hst : (s.thr i).stack = g :: fs) {v : Nat} {k : Prog}
    (hpc : g.pc = .run) (hc : g.code = .wait v k) {j : Nat} {q : PTask} (hv : g.env[v]? = some j) (hq : s.tasks[j]? = some q) (h0 : q.counter ≠ 0) : Mine s i g.time := by
  have hgs : g ∈ (s.thr i).stack := by simp [hst]
  obtain ⟨Γ, -, hcode, htyp⟩ := h.F.typ i g hgs
  rw [hc] at hcode
  obtain ⟨q', hq', hb, hcal, -⟩ := htyp v j hcode.1 hv
  rw [hq] at hq'; simp only [Option.some.injEq] at hq'; subst hq'
  -- a task of this call that has not finished
  have key : ∀ (c : Nat) (qc : PTask), s.tasks[c]? = some qc → qc.by_ = i → qc.caller = g.time → qc.st ≠ .finished → Mine s i g.time := by
    intro c qc hqc hcb hcc hne
    cases hs : qc.st with
    | made =>
      obtain ⟨f, hf, hfp⟩ := h.P.made c qc hqc hs
      rw [hcb, hst] at hf
      rcases List.mem_cons.1 hf with rfl | hf
      · rw [hpc] at hfp; cases hfp
      · have := (h.P.low i g fs hst f hf).1; rw [hfp] at this; cases this
    | queued => exact .inl ⟨c, by have := h.P.queued c qc hqc hs; rwa [hcb] at this, qc, hqc, hcc⟩
    | finished => exact absurd hs hne
    | started =>
      by_cases ho : qc.on = qc.by_
      · rcases h.P.started c qc hqc hs with ⟨f, hf, hft⟩ | hu
        · rw [ho, hcb] at hf
          obtain ⟨q0, e1, -, -, -, e2⟩ := h.P.task i f c hf hft
          rw [hqc] at e1; simp only [Option.some.injEq] at e1; subst e1
          have := h.P.top_max hst hf
          omega
        · rw [h.N.unwound] at hu; cases hu
      · exact .inr ⟨c, qc, hqc, hcb, by simp [PTask.stolen, ho, hs], hcc⟩
  by_cases hf : q.st = .finished
  · -- then a child has not
    have hcnt := h.F.cnt j q hq
    rw [(h.F.fin j q hq hf).1] at hcnt
    have hpos : 0 < pend s.tasks j := by
      rcases Nat.eq_zero_or_pos (pend s.tasks j) with e | e
      · rw [e] at hcnt; simp [b2n] at hcnt; exact absurd hcnt h0
      · exact e
    unfold pend at hpos
    rw [List.countP_pos_iff] at hpos
    obtain ⟨qc, hm, hpar⟩ := hpos
    simp only [Bool.and_eq_true, beq_iff_eq] at hpar
    obtain ⟨c, hqc⟩ := List.getElem?_of_mem hm
    obtain ⟨qp, e1, -, e2, e3⟩ := h.F.parent c j qc hqc hpar.1
    rw [hq] at e1; simp only [Option.some.injEq] at e1; subst e1
    refine key c qc hqc (by omega) (by omega) ?_
    intro hfin
    have := (h.F.fin c qc hqc hfin).2
    rw [hpar.2] at this; cases this
  · exact key j q hq hb hcal hf

theorem NestInv.step {n : Nat} {s u : PoolState} {i : Nat} (ha : AllInv n s) (h : NestInv s) (hs : PoolStep n s i u) : NestInv u := by
  have id0 : ∀ (w : PoolState) (k : Nat) (f : Frame), (w.thr k).stack = (s.thr k).stack → f ∈ (w.thr k).stack →
      ∃ f' ∈ (s.thr k).stack, f'.task = f.task ∧ f'.time = f.time ∧ ∀ j, f.pc = .push j → f'.pc = .push j := by
    intro w k f e hf
    exact ⟨f, by rw [← e]; exact hf, rfl, rfl, fun _ => id⟩
  have top : ∀ (f f' : Frame) (fs : List Frame) (w : PoolState), (s.thr i).stack = f :: fs → f'.task = f.task → f'.time = f.time →
      (∀ j, f'.pc ≠ .push j) → (∀ k, (w.thr k).stack = if k = i then f' :: fs else (s.thr k).stack) → (∀ k, (w.thr k).get = (s.thr k).get) → w.queue = s.queue →
      (∀ m : Nat, (w.tasks[m]?).map PTask.nest = (s.tasks[m]?).map PTask.nest) → NestInv w := by
    intro f f' fs w hst e1 e2 hp hw hg hq ht
    refine h.calm hq ht ?_ (by intro k; rw [hg]; exact h.far k) ?_
    · intro k x hx
      rw [hw] at hx
      split at hx
      · rename_i e; subst e
        rcases List.mem_cons.1 hx with rfl | hx
        · exact ⟨f, by simp [hst], e1.symm, e2.symm, fun j hj => absurd hj (hp j)⟩
        · exact ⟨x, by simp [hst, hx], rfl, rfl, fun _ => id⟩
      · exact ⟨x, hx, rfl, rfl, fun _ => id⟩
    · intro k g gs h1 h2
      rw [hg] at h1
      rw [hw] at h2
      split at h2
      · rename_i e; subst e
        simp only [List.cons.injEq] at h2
        rw [← h2.1, e2]
        exact h.popping k f fs h1 hst
      · exact h.popping k g gs h1 h2
  cases hs with
  | idle hst hm hi hg hne hsem =>
    refine h.calm rfl (fun _ => rfl) (fun k f hf => id0 _ k f (by simp; intro e; rw [e]) hf) ?_ ?_
    · intro k; simp only [setThr, upd]; split
      · simp
      · exact h.far k
    · intro k g fs h1 h2
      simp only [setThr, upd] at h1 h2
      split at h1
      · cases h1
      · rename_i e; rw [if_neg e] at h2; exact h.popping k g fs h1 h2
  | retry hm hne hg hne' =>
    refine h.calm rfl (fun _ => rfl) (fun k f hf => id0 _ k f (by simp; intro e; rw [e]) hf) ?_ ?_
    · intro k; simp only [setThr, upd]; split
      · simp
      · exact h.far k
    · intro k g fs h1 h2
      simp only [setThr, upd] at h1 h2
      split at h1
      · cases h1
      · rename_i e; rw [if_neg e] at h2; exact h.popping k g fs h1 h2
  | goOn hm hg hgo =>
    obtain ⟨g1, -, -, g2, g3, g4⟩ := hgo
    refine h.calm rfl (fun _ => rfl) (fun k f hf => id0 _ k f (by simp; intro e; rw [e]) hf) ?_ ?_
    · intro k; simp only [setThr, upd]; split
      · rename_i e; subst e
        refine ⟨?_, fun v t hv => g4 v t (by simpa using hv)⟩
        rintro (hx | ⟨t, hx⟩)
        · exact g2 (by simpa using hx)
        · exact (h.far k).1 (.inl (by rw [hg, g3 t (by simpa using hx)]))
      · exact h.far k
    · intro k g fs h1 h2
      simp only [setThr, upd] at h1 h2
      split at h1
      · exact absurd (by simpa using h1) g1
      · rename_i e; rw [if_neg e] at h2; exact h.popping k g fs h1 h2
  | look hm hg hne =>
    refine h.calm rfl (fun _ => rfl) (fun k f hf => id0 _ k f (by simp; intro e; rw [e]) hf) ?_ ?_
    · intro k; simp only [setThr, upd]; split
      · simp
      · exact h.far k
    · intro k g fs h1 h2
      simp only [setThr, upd] at h1 h2
      split at h1
      · rename_i e; subst e
        rw [if_pos rfl] at h2
        rcases hm with ⟨hm, -⟩ | ⟨f, fs', v, c, hst, hpc, hc⟩
        · rw [hm] at h2; cases h2
        · rw [hst] at h2; simp only [List.cons.injEq] at h2; obtain ⟨rfl, rfl⟩ := h2
          obtain ⟨j, q, hv, hq, h0⟩ := hne f fs' v c hst hc
          exact ha.mine hst hpc hc hv hq h0
      · rename_i e; rw [if_neg e] at h2; exact h.popping k g fs h1 h2
  | start hm hg hT hq =>
    exact h.start ha.P hg hT hq rfl rfl rfl (by simp [setThr, modTask, upd]; intro k; split <;> rfl)
      (by simp [setThr, modTask, upd]; intro k; split <;> rfl) (by simp [setThr, modTask, upd])
      (by intro m; simp only [modTask, setThr]; exact get_modify _ _ hq)
  | again hst hm hi hac =>
    refine h.calm rfl (fun _ => rfl) (fun k f hf => id0 _ k f (by simp; intro e; rw [e]) hf) ?_ ?_
    · intro k; simp only [setThr, upd]; split
      · rename_i e; subst e; exact h.far k
      · exact h.far k
    · intro k g fs h1 h2
      simp only [setThr, upd] at h1 h2
      split at h1
      · rename_i e; rw [if_pos e] at h2; subst e; exact h.popping k g fs h1 h2
      · rename_i e; rw [if_neg e] at h2; exact h.popping k g fs h1 h2
  | exit hst hm hi hac =>
    refine h.calm rfl (fun _ => rfl) (fun k f hf => id0 _ k f (by simp; intro e; rw [e]) hf) ?_ ?_
    · intro k; simp only [setThr, upd]; split
      · rename_i e; subst e; exact h.far k
      · exact h.far k
    · intro k g fs h1 h2
      simp only [setThr, upd] at h1 h2
      split at h1
      · rename_i e; rw [if_pos e] at h2; subst e; exact h.popping k g fs h1 h2
      · rename_i e; rw [if_neg e] at h2; exact h.popping k g fs h1 h2
  | push hst hpc =>
    rename_i f fs j
    obtain ⟨q, hq, hqs, -, -⟩ := ha.P.push i f j (by simp [hst]) hpc
    refine h.pushed ha.P ha.P2 hst hpc (by simp [setTop, modTask]) ?_ (by simp [setTop, setThr, modTask, upd]) ?_
    · intro k; simp only [setTop, setThr, modTask, upd]; split
      · rename_i e; rw [e]
      · rfl
    · intro m
      simp only [setTop, setThr, modTask, get_modify _ m hq]
      split
      · rename_i e; subst e; simp [hq, PTask.nest, PTask.setSt, PTask.stolen, hqs]
      · rfl
  | sub hst hpc hq hk =>
    rename_i f fs j q k
    refine top f { f with pc := .check j } fs _ hst rfl rfl (by simp) (by simp [setTop, modTask]) ?_ rfl ?_
    · intro k; simp only [setTop, setThr, modTask, upd]; split
      · rename_i e; rw [e]
      · rfl
    · intro m
      obtain ⟨qk, hqk, -⟩ := ha.P.task i f k (by simp [hst]) hk
      simp only [setTop, setThr, modTask]
      rw [List.getElem?_modify, List.getElem?_modify]
      cases s.tasks[m]? with
      | none => simp
      | some q =>
        by_cases e1 : j = m <;> by_cases e2 : k = m <;> by_cases e3 : k = j <;> simp [e1, e2, PTask.nest, PTask.stolen, PTask.dec, PTask.pay] <;>
          (try split) <;> simp
  | up hst hpc hq hk h0 hp =>
    rename_i f fs j q k p
    refine top f { f with pc := .sub p } fs _ hst rfl rfl (by simp) (by simp [setTop, modTask]) ?_ rfl (fun _ => rfl)
    intro k; simp only [setTop, setThr, upd]; split
    · rename_i e; rw [e]
    · rfl
  | finish hst hpc hq hk h0 =>
    rename_i f fs j q k
    obtain ⟨qk, hqk, hks, -⟩ := ha.P.task i f k (by simp [hst]) hk
    have hno : (s.thr i).get = none := by
      cases hgt : (s.thr i).get with
      | none => rfl
      | some x => have := (ha.P2.get i f fs (by simp [hgt]) hst).1; rw [hpc] at this; cases this
    refine h.calm rfl ?_ ?_ ?_ ?_
    · intro m
      simp only [setThr, modTask, get_modify _ m hqk]
      split
      · rename_i e; subst e; simp [hqk, PTask.nest, PTask.setSt, PTask.stolen, hks]
      · rfl
    · intro k g hg
      simp only [setThr, modTask, upd] at hg
      split at hg
      · rename_i e; subst e; exact ⟨g, by rw [hst]; simp [hg], rfl, rfl, fun _ => id⟩
      · exact ⟨g, hg, rfl, rfl, fun _ => id⟩
    · intro k; simp only [setThr, modTask, upd]; split
      · rename_i e; subst e; exact h.far k
      · exact h.far k
    · intro k g gs h1 h2
      simp only [setThr, modTask, upd] at h1 h2
      split at h1
      · rw [hno] at h1; cases h1
      · rename_i e; rw [if_neg e] at h2; exact h.popping k g gs h1 h2
  | ret hst hpc hc hk =>
    rename_i f fs j
    refine top f { f with pc := .sub j } fs _ hst rfl rfl (by simp) (by simp [setTop, modTask]) ?_ rfl (fun _ => rfl)
    intro k; simp only [setTop, setThr, upd]; split
    · rename_i e; rw [e]
    · rfl
  | leave hst hpc hc hk =>
    refine h.calm rfl (fun _ => rfl) ?_ ?_ ?_
    · intro k g hg
      simp only [setThr, upd] at hg
      split at hg
      · cases hg
      · exact ⟨g, hg, rfl, rfl, fun _ => id⟩
    · intro k; simp only [setThr, upd]; split
      · rename_i e; subst e; exact h.far k
      · exact h.far k
    · intro k g gs h1 h2
      simp only [setThr, upd] at h1 h2
      split at h1
      · rename_i e; rw [if_pos e] at h2; cases h2
      · rename_i e; rw [if_neg e] at h2; exact h.popping k g gs h1 h2
  | unwind hst hpc hc hi =>
    rename_i f fs
    have := ha.N.frame i f (by simp [hst])
    rw [hc] at this; exact this.elim
  | terminate hst hpc hc hi =>
    rename_i f fs
    have := ha.N.frame i f (by simp [hst])
    rw [hc] at this; exact this.elim
  | submitRoot hst hpc hc =>
    rename_i f fs c k
    refine h.submitted ha.P ha.P2 (f' := { f with code := k, env := s.tasks.length :: f.env, pc := .push s.tasks.length }) hst (by simp [hc]) rfl rfl rfl (by simp [setTop]) ?_ rfl ?_
    · intro k; simp only [setTop, setThr, upd]; split
      · rename_i e; rw [e]
      · rfl
    · intro m
      simp only [setTop, setThr, List.getElem?_append]
      by_cases e : m < s.tasks.length
      · simp [e, show m ≠ s.tasks.length by omega]
      · by_cases e' : m = s.tasks.length
        · subst e'; simp [PTask.nest, PTask.stolen]
        · simp [e, e', show m - s.tasks.length ≠ 0 by omega, List.getElem?_eq_none (show s.tasks.length ≤ m by omega)]
  | submitChild hst hpc hc hv hq =>
    rename_i f fs v c k pj q
    refine h.submitted ha.P ha.P2 (f' := { f with code := k, env := s.tasks.length :: f.env, pc := .push s.tasks.length }) hst (by simp [hc]) rfl rfl rfl (by simp [setTop]) ?_ rfl ?_
    · intro k; simp only [setTop, setThr, upd]; split
      · rename_i e; rw [e]
      · rfl
    · intro m
      simp only [setTop, setThr, List.getElem?_append, get_modify _ _ hq, List.length_modify]
      by_cases e : m < s.tasks.length
      · by_cases e2 : m = pj
        · subst e2; simp only [if_pos e, if_neg (show m ≠ s.tasks.length by omega), if_true, hq]; rfl
        · simp [e, e2, show m ≠ s.tasks.length by omega]
      · by_cases e' : m = s.tasks.length
        · subst e'; simp [PTask.nest, PTask.stolen]
        · simp [e, e', show m - s.tasks.length ≠ 0 by omega, List.getElem?_eq_none (show s.tasks.length ≤ m by omega)]
  | waited hst hpc hc hg hv hq h0 =>
    rename_i f fs v k j q
    refine top f { f with code := k } fs _ hst rfl rfl (by simp [hpc]) (by simp [setTop, modTask]) ?_ rfl (fun _ => rfl)
    intro k; simp only [setTop, setThr, upd]; split
    · rename_i e; rw [e]
    · rfl
  | stop ha hb hc hd => exact h.calm rfl (fun _ => rfl) (fun k f hf => id0 _ k f rfl hf) h.far h.popping
  | stopped ha hb hc hd => exact h.calm rfl (fun _ => rfl) (fun k f hf => id0 _ k f rfl hf) h.far h.popping
  | join ha hb hc hd he => exact h.calm rfl (fun _ => rfl) (fun k f hf => id0 _ k f rfl hf) h.far h.popping
  | joined ha hb hc hd => exact h.calm rfl (fun _ => rfl) (fun k f hf => id0 _ k f rfl hf) h.far h.popping

theorem PoolReach.nest {n : Nat} (hn : 0 < n) {p : Prog} (hp : p.FJ []) {s : PoolState} (h : PoolReach n p s) : NestInv s := by
  unfold PoolReach at h
  generalize hp0 : PoolState.init p = s0 at h
  induction h with
  | refl => subst hp0; exact NestInv.init p
  | step i r a hr hs ih =>
    obtain ⟨-, -, hs⟩ := step_cases hs
    subst hp0
    exact NestInv.step (PoolReach.all hn hp hr) ih hs

end CoEcs
