import Verif.Proofs.Leapfrog
import Verif.Props.Nested

/-!
# One background worker: nothing foreign in the middle of a call that waits (C107)
-/

namespace CoEcs.Props
open CoEcs PoolState Spec

theorem parRest_one {k : Prog} (hk : k.One none) : ∀ {bs : List Prog} (v : Nat), (∀ b ∈ bs, b.One none) → (Prog.parRest bs v k).One (some v)
  | [], _, _ => ⟨rfl, hk⟩
  | b :: _, v, hb => ⟨rfl, hb b (by simp), parRest_one hk (v + 1) (fun b h => hb b (by simp [h]))⟩

/-- `parallel_for` and stages of functions of this kind, followed by one, are of this kind. -/
theorem par_one {bs : List Prog} {k : Prog} (hb : ∀ b ∈ bs, b.One none) (hk : k.One none) : (Prog.par bs k).One none := by
  cases bs with
  | nil => exact hk
  | cons b bs => exact ⟨rfl, hb b (by simp), parRest_one hk 0 (fun b h => hb b (by simp [h]))⟩

theorem nestedPar_one (m : Nat) : (nestedPar m).One none := by
  have h0 : Prog.ret.One none := rfl
  have h1 : (Prog.par (List.replicate m .ret) .ret).One none := par_one (by intro b hb; rw [List.eq_of_mem_replicate hb]; exact h0) h0
  exact par_one (by intro b hb; rw [List.eq_of_mem_replicate hb]; exact h1) h1

theorem Below.trans {s : PoolState} {t m j : Nat} {q : PTask} (hq : s.tasks[m]? = some q) (h0 : 0 < q.time) (hm : Below s t m) (h : Below s q.time j) : Below s t j := by
  generalize ht : q.time = t' at h
  induction h with
  | direct h1 h2 => exact .via h1 hq h0 (by omega) hm
  | via h1 h2 h3 h4 _ ih => exact .via h1 h2 h3 h4 ih

/-- The call below, in a stack. -/
theorem next_below {s : PoolState} {n : Nat} (hP : TPoolInv n s) {k : Nat} {x c : Frame} (hx : x ∈ (s.thr k).stack) (hc : c ∈ (s.thr k).stack) (hlt : c.time < x.time) :
    ∃ l y r, (s.thr k).stack = l ++ x :: y :: r ∧ c.time ≤ y.time ∧ y.time < x.time := by
  obtain ⟨l, rest, hl⟩ := List.append_of_mem hx
  have hord := hP.ord k
  rw [hl, List.pairwise_append] at hord
  obtain ⟨-, h1, h2⟩ := hord
  have h1 := List.pairwise_cons.1 h1
  rw [hl] at hc
  rcases List.mem_append.1 hc with hc | hc
  · have := h2 c hc x (by simp); omega
  · rcases List.mem_cons.1 hc with rfl | hc
    · omega
    · cases rest with
      | nil => cases hc
      | cons y r =>
        refine ⟨l, y, r, hl, ?_, h1.1 y (by simp)⟩
        rcases List.mem_cons.1 hc with rfl | hc
        · exact Nat.le_refl _
        · exact Nat.le_of_lt ((List.pairwise_cons.1 h1.2).1 c hc)

theorem same_time {s : PoolState} {n : Nat} (hP : TPoolInv n s) {k : Nat} {x c : Frame} (hx : x ∈ (s.thr k).stack) (hc : c ∈ (s.thr k).stack) (he : c.time = x.time) : c = x := by
  obtain ⟨l, rest, hl⟩ := List.append_of_mem hx
  have hord := hP.ord k
  rw [hl, List.pairwise_append] at hord
  obtain ⟨-, h1, h2⟩ := hord
  rw [hl] at hc
  rcases List.mem_append.1 hc with hc | hc
  · have := h2 c hc x (by simp); omega
  · rcases List.mem_cons.1 hc with rfl | hc
    · rfl
    · have := (List.pairwise_cons.1 h1).1 c hc; omega

theorem two_workers {s : PoolState} (hD : DuoInv s) (hL : LeapInv s) : ∀ (t : Nat) (i : Nat) (l r : List Frame) (f g : Frame), f.time = t → i < 2 →
    (s.thr i).stack = l ++ f :: g :: r → ∀ (j : Nat) (q : PTask), f.task = some j → s.tasks[j]? = some q → q.own = true → Below s g.time j := by
  intro t
  induction t using Nat.strongRecOn with
  | _ t ih =>
    intro i l r f g ht hi hst j q hj hq hown
    have hP := hD.A.P
    have hf : f ∈ (s.thr i).stack := by simp [hst]
    have hgm : g ∈ (s.thr i).stack := by simp [hst]
    obtain ⟨q', e1, -, -, -, hlt⟩ := hP.task i f j hf hj
    rw [hq] at e1; simp only [Option.some.injEq] at e1; subst e1
    obtain ⟨x, hx, hxt⟩ := hD.J.live j q hq hown
    have hord := hP.ord i
    rw [hst, List.pairwise_append] at hord
    obtain ⟨-, hord, hab⟩ := hord
    obtain ⟨hfg, hgr⟩ := List.pairwise_cons.1 hord
    by_cases hb : q.by_ = i
    · have hge := hD.N.over i f g hf hgm (hfg g (by simp)) j q hj hq hb
      rw [hb, hst] at hx
      refine .direct hq ?_
      rcases List.mem_append.1 hx with hx | hx
      · have := hab x hx f (by simp); omega
      · rcases List.mem_cons.1 hx with rfl | hx
        · omega
        · rcases List.mem_cons.1 hx with rfl | hx
          · exact hxt.symm
          · have := (List.pairwise_cons.1 hgr).1 x hx; omega
    · have hk : q.by_ < 2 := (hP.bnd j q hq).1
      obtain ⟨ck, hck, ⟨m, qm, hm, hqm, -, hmc⟩, hle⟩ := hL.chain i q.by_ hi hk (Ne.symm hb) (l.map Frame.key) f.key g.key (r.map Frame.key)
        (by simp [PoolState.keys, hst]) j q hj hq rfl x.key (List.mem_map.2 ⟨x, hx, rfl⟩) hxt
      obtain ⟨c, hc, c1, c2⟩ := mem_keys hck
      have hle' : c.time ≤ x.time := by rw [c2]; exact hle
      have hxf : x.time < t := by omega
      have hxpc : x.pc = .run ∨ ∃ j, x.pc = .push j := by
        obtain ⟨ps, hj', hps⟩ := hD.J.frame q.by_ x hx
        have : ∀ j', ¬ (x.pc = .sub j' ∨ x.pc = .check j') := by
          intro j' hp
          rw [hD.J.pc q.by_ x j' hx hp] at hj'
          obtain ⟨v, hv, -⟩ := hps j q hq rfl hxt.symm hown
          rw [show ps = [] from hj'] at hv; cases hv
        cases hp : x.pc with
        | run => exact .inl rfl
        | push j => exact .inr ⟨j, rfl⟩
        | sub j' => exact absurd (.inl hp) (this j')
        | check j' => exact absurd (.inr hp) (this j')
      -- every call from `c` to `x` is below `g`
      have hpc : ∀ y ∈ (s.thr q.by_).stack, y.time ≤ x.time → y.pc = .run ∨ ∃ j, y.pc = .push j := by
        intro y hy hyx
        rcases Nat.lt_or_eq_of_le hyx with hyx | hyx
        · left
          cases hs0 : (s.thr q.by_).stack with
          | nil => rw [hs0] at hy; cases hy
          | cons z zs =>
            have := hP.top_max hs0 hx
            rw [hs0] at hy
            rcases List.mem_cons.1 hy with rfl | hy
            · omega
            · exact (hP.low _ z zs hs0 y hy).1
        · have := same_time hP hx hy hyx
          subst this; exact hxpc
      have main : ∀ (ty : Nat) (y : Frame), y.time = ty → y ∈ (s.thr q.by_).stack → c.time ≤ y.time → y.time ≤ x.time →
          ∃ my qy, y.task = some my ∧ s.tasks[my]? = some qy ∧ qy.time = y.time ∧ 0 < qy.time ∧ Below s g.time my := by
        intro ty
        induction ty using Nat.strongRecOn with
        | _ ty ih2 =>
          intro y hyt hy hcy hyx
          rcases Nat.lt_or_eq_of_le hcy with hcy | hcy
          · obtain ⟨l', z, r', hl', h1, h2⟩ := next_below hP hy hc hcy
            obtain ⟨mz, qz, a1, a2, a3, a4, a5⟩ := ih2 z.time (by omega) z rfl (by simp [hl']) h1 (by omega)
            cases hyt' : y.task with
            | none => have := (hP.main _ y hy hyt').2; omega
            | some my =>
              obtain ⟨qy, b1, -, -, b4, b5⟩ := hP.task _ y my hy hyt'
              have hyo : qy.own = true := by
                have := hD.A.F.flags _ y my qy hy hyt' b1
                rcases hpc y hy hyx with e | ⟨j', e⟩ <;> (rw [e] at this; exact this.1)
              have := ih y.time (by omega) q.by_ l' r' y z rfl hk hl' my qy hyt' b1 hyo
              exact ⟨my, qy, rfl, b1, b4, by omega, Below.trans a2 a4 a5 (by rw [a3]; exact this)⟩
          · have := same_time hP hy hc hcy
            subst this
            have hcm : c.task = some m := by rw [c1, hm]
            obtain ⟨qy, b1, -, -, b4, b5⟩ := hP.task _ c m hc hcm
            exact ⟨m, qy, hcm, b1, b4, by omega, .direct hqm hmc⟩
      obtain ⟨mx, qx, -, a2, a3, a4, a5⟩ := main x.time x rfl hx hle' (Nat.le_refl _)
      exact .via hq a2 a4 (by omega) a5

/-- C107 holds with one background worker, for `parallel_for` and stages in any nesting. -/
theorem C107_two_workers_partial {p : Prog} (hp : p.One none) {s : PoolState} (h : PoolReach 2 p s) (hc : ∀ j, s.children j < 65535)
    {i : Nat} {l r : List Frame} {f g : Frame} (hst : (s.thr i).stack = l ++ f :: g :: r) (hpc : f.pc = .run ∨ ∃ j, f.pc = .push j) :
    ∃ j, f.task = some j ∧ Below s g.time j := by
  have hD := h.duo hp hc
  have hf : f ∈ (s.thr i).stack := by simp [hst]
  have hi : i < 2 := by
    rcases Nat.lt_or_ge i 2 with h2 | h2
    · exact h2
    · have := hD.A.P.idx i h2; rw [hst] at this; simp at this
  cases hj : f.task with
  | none =>
    have h0 := (hD.A.P.main i f hf hj).2
    have hord := hD.A.P.ord i
    rw [hst, List.pairwise_append] at hord
    have := (List.pairwise_cons.1 hord.2.1).1 g (by simp)
    omega
  | some j =>
    obtain ⟨q, hq, -⟩ := hD.A.P.task i f j hf hj
    refine ⟨j, rfl, two_workers hD (h.leap hp hc) _ i l r f g rfl hi hst j q hj hq ?_⟩
    have := hD.A.F.flags i f j q hf hj hq
    rcases hpc with e | ⟨m, e⟩ <;> (rw [e] at this; exact this.1)

theorem twoSystems_one : twoSystems.One none :=
  par_one (by intro b hb; simp at hb; rcases hb with rfl | rfl; exact par_one (by simp; rfl) rfl; rfl) rfl

theorem children_le (s : PoolState) (j : Nat) : s.children j ≤ s.tasks.length := List.countP_le_length

/-- What a worker executes in the middle of a call that waits was submitted by this call, or by a task which was, and so on: for
`parallel_for` and stages in any nesting this is so in a pool of one or two workers, and in no larger one. -/
theorem C107_iff {n : Nat} (hn : 0 < n) : (∀ (p : Prog), p.One none → ∀ s, PoolReach n p s → (∀ j, s.children j < 65535) → ∀ (i : Nat) (l r : List Frame) (f g : Frame),
    (s.thr i).stack = l ++ f :: g :: r → f.pc = .run → ∃ j, f.task = some j ∧ Below s g.time j) ↔ n ≤ 2 := by
  constructor
  · intro h
    rcases Nat.lt_or_ge n 3 with h3 | h3
    · omega
    · exfalso
      have hrun := twoSystems_run
      rw [Option.any_eq_true] at hrun
      obtain ⟨s, hs, hb⟩ := hrun
      obtain ⟨hr, -⟩ := runFew_steps (by decide) h3 hs (fresh_init (by decide) _)
      simp only [twoSystemsB, Bool.and_eq_true, decide_eq_true_eq] at hb
      obtain ⟨b1, b2⟩ := hb
      have hlen : s.tasks.length = 4 := by simpa using congrArg List.length b2
      obtain ⟨j, hj, hB⟩ := h twoSystems twoSystems_one s hr (fun j => by have := children_le s j; omega) 1 [] [] _ _ b1 rfl
      simp only [Option.some.injEq] at hj; subst hj
      have := congrArg (fun l => l[3]?) b2
      simp only [List.getElem?_map] at this
      cases e : s.tasks[3]? with
      | none => simp [e] at this
      | some q => simp [e] at this; exact Below.not_main (by decide) e this.1 hB
  · intro h p hp s hr hc i l r f g hst hpc
    have : n = 1 ∨ n = 2 := by omega
    rcases this with rfl | rfl
    · exact C107_alone_partial hp.joined hr hc hst (.inl hpc)
    · exact C107_two_workers_partial hp hr hc hst (.inl hpc)

/-! What `C107_two_workers_partial` speaks about: the thread that runs the stage steals a batch of the system which the background worker
executes. -/

def deepStage : Prog := .par [.par [.ret, .ret] .ret] .ret

theorem deepStage_one : deepStage.One none := par_one (by intro b hb; simp at hb; subst hb; exact par_one (by simp; rfl) rfl) rfl

def deepB (s : PoolState) : Bool :=
  decide ((s.thr 0).stack.map (fun f => (f.task, f.pc, f.time)) = [(some 1, .run, 2), (none, .run, 0)]) && decide (s.tasks.map (fun q => (q.by_, q.caller)) = [(0, 0), (1, 1), (1, 1)])

theorem deepStage_run : (runFew 2 (PoolState.init deepStage) (List.replicate 3 0 ++ List.replicate 8 1 ++ List.replicate 3 0)).any deepB = true := by decide +kernel

example : ∃ s, PoolReach 2 deepStage s ∧ ∃ f g, (s.thr 0).stack = [f, g] ∧ f.task = some 1 ∧ f.pc = .run ∧ g.task = none ∧ Below s g.time 1 ∧
    ¬ ∃ q, s.tasks[1]? = some q ∧ q.caller = g.time := by
  have h := deepStage_run
  rw [Option.any_eq_true] at h
  obtain ⟨s, hs, hb⟩ := h
  obtain ⟨hr, -⟩ := runFew_steps (n := 2) (by decide) (by decide) hs (fresh_init (by decide) _)
  simp only [deepB, Bool.and_eq_true, decide_eq_true_eq] at hb
  obtain ⟨hb, ht⟩ := hb
  have hlen : s.tasks.length = 3 := by simpa using congrArg List.length ht
  match hst : (s.thr 0).stack with
  | [f, g] =>
    rw [hst] at hb
    simp only [List.map_cons, List.map_nil, List.cons.injEq, Prod.mk.injEq] at hb
    refine ⟨s, hr, f, g, hst, hb.1.1, hb.1.2.1, hb.2.1.1, ?_, ?_⟩
    · obtain ⟨j, hj, hB⟩ := C107_two_workers_partial deepStage_one hr (fun j => by have := children_le s j; omega) (l := []) hst (.inl hb.1.2.1)
      rw [hb.1.1] at hj; simp only [Option.some.injEq] at hj
      rw [hj]; exact hB
    · rintro ⟨q, hq, hc⟩
      have := congrArg (fun l => l[1]?) ht
      simp [hq] at this
      have := hb.2.1.2.2
      omega
  | [] | [_] | _ :: _ :: _ :: _ => rw [hst] at hb; simp at hb

end CoEcs.Props
