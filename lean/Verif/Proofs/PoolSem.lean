import Verif.Proofs.ForkJoin

/-! # The semaphore of the pool, and exceptions -/

namespace CoEcs
open PoolState

def madeCount (l : List PTask) : Nat := l.countP (fun q => decide (q.st = .made))

theorem madeCount_modify (F : PTask → PTask) (l : List PTask) (k : Nat) (q : PTask) (h : l[k]? = some q) :
    madeCount (l.modify k F) + b2n (decide (q.st = .made)) = madeCount l + b2n (decide ((F q).st = .made)) :=
  countP_modify _ F l k q h

/-- Without `wait`, the semaphore counts tasks that were pushed. -/
structure SemInv (s : PoolState) : Prop where
  frame : ∀ i f, f ∈ (s.thr i).stack → f.code.NoWait
  task : ∀ q ∈ s.tasks, q.code.NoWait
  sem : s.sem + madeCount s.tasks ≤ s.tasks.length

theorem SemInv.step {n : Nat} {s u : PoolState} {i : Nat} (hI : TPoolInv n s) (h : SemInv s) (hs : PoolStep n s i u) : SemInv u := by
  have hfr := h.frame
  have hta := h.task
  have hse := h.sem
  -- a call cannot be on top of another one
  have hone : ∀ f fs, (s.thr i).stack = f :: fs → fs = [] := by
    intro f fs hst
    cases fs with
    | nil => rfl
    | cons g l =>
      obtain ⟨-, v, k, hk⟩ := hI.low i f (g :: l) hst g (by simp)
      have := hfr i g (by simp [hst])
      rw [hk] at this; exact this.elim
  have hmay : MayGet s i → (s.thr i).stack = [] := by
    rintro (h1 | ⟨f, fs, v, k, h1, -, h2⟩)
    · exact h1.1
    · have := hfr i f (by simp [h1])
      rw [h2] at this; exact this.elim
  have topf : ∀ (f f' : Frame) (fs : List Frame) (w : PoolState), (s.thr i).stack = f :: fs → w.thr = s.thr → f'.code.NoWait →
      ∀ k g, g ∈ ((w.setTop i f' fs).thr k).stack → g.code.NoWait := by
    intro f f' fs w hst e hf' k g hg
    simp only [setTop, setThr_stack] at hg
    split at hg
    · rcases List.mem_cons.mp hg with rfl | hg
      · exact hf'
      · exact hfr i g (by simp [hst, hg])
    · rw [e] at hg; exact hfr k g hg
  have thr0 : ∀ (w : PoolState) (t : Thread), w.thr = s.thr → (∀ g ∈ t.stack, g.code.NoWait) → ∀ k g, g ∈ ((w.setThr i t).thr k).stack → g.code.NoWait := by
    intro w t e ht k g hg
    rw [setThr_stack] at hg
    split at hg
    · exact ht g hg
    · rw [e] at hg; exact hfr k g hg
  have modt : ∀ (l : List PTask) (k : Nat) (F : PTask → PTask), (∀ q, (F q).code = q.code) → (∀ q ∈ l, q.code.NoWait) →
      ∀ q ∈ l.modify k F, q.code.NoWait := by
    intro l k F hF hl q hq
    rcases mem_modify hq with hq | ⟨q', hq', rfl⟩
    · exact hl q hq
    · rw [hF]; exact hl q' hq'
  cases hs with
  | idle ha hb hc hd he hsm => exact ⟨thr0 _ _ rfl (hfr i), hta, by simp only [setThr]; omega⟩
  | retry ha hb hc hd => exact absurd (hmay ha) hb
  | goOn ha hb hc => exact ⟨thr0 _ _ rfl (hfr i), hta, hse⟩
  | look ha hb hc => exact ⟨thr0 _ _ rfl (hfr i), hta, hse⟩
  | again ha hb hc hd => exact ⟨thr0 _ _ rfl (hfr i), hta, hse⟩
  | exit ha hb hc hd => exact ⟨thr0 _ _ rfl (hfr i), hta, hse⟩
  | stop _ _ _ _ => exact ⟨hfr, hta, hse⟩
  | stopped _ _ _ _ => exact ⟨hfr, hta, hse⟩
  | join _ _ _ _ _ => exact ⟨hfr, hta, hse⟩
  | joined _ _ _ _ => exact ⟨hfr, hta, hse⟩
  | terminate _ _ _ _ => exact ⟨hfr, hta, hse⟩
  | unwind _ _ _ _ => exact ⟨thr0 _ _ rfl (by simp), hta, hse⟩
  | leave _ _ _ _ => exact ⟨thr0 _ _ rfl (by simp), hta, hse⟩
  | start hm hg ht hq =>
    rename_i g v j qu q
    obtain ⟨l, r, hl, hr⟩ := ht.mem
    obtain ⟨q0, hq0, hq1, hq2⟩ := hI.queue v j (by simp [hl])
    rw [hq] at hq0; simp only [Option.some.injEq] at hq0; subst hq0
    refine ⟨thr0 _ _ rfl ?_, modt _ _ _ (fun _ => rfl) hta, ?_⟩
    · intro g hg
      rcases List.mem_cons.mp hg with rfl | hg
      · exact hta q (List.mem_of_getElem? hq)
      · exact hfr i g hg
    · have := madeCount_modify (PTask.begin_ i (s.clock + 1)) s.tasks j q hq
      have e1 : b2n (decide ((PTask.begin_ i (s.clock + 1) q).st = .made)) = 0 := by simp [PTask.begin_, b2n]
      simp only [modTask, setThr, List.length_modify]
      omega
  | push hst hpc =>
    rename_i f fs j
    obtain ⟨q0, hq0, hq1, hq2, hq3⟩ := hI.push i f j (by simp [hst]) hpc
    refine ⟨topf f _ fs _ hst rfl (hfr i f (by simp [hst])), modt _ _ _ (fun _ => rfl) hta, ?_⟩
    have := madeCount_modify (PTask.setSt .queued) s.tasks j q0 hq0
    have e1 : b2n (decide ((PTask.setSt .queued q0).st = .made)) = 0 := by simp [PTask.setSt, b2n]
    have e2 : b2n (decide (q0.st = .made)) = 1 := by simp [hq1, b2n]
    simp only [modTask, setTop, setThr, List.length_modify]
    omega
  | sub hst hpc hq hk =>
    rename_i f fs j q k
    have hsame : ∀ (l : List PTask) (m : Nat) (F : PTask → PTask), (∀ q, (F q).st = q.st) → madeCount (l.modify m F) = madeCount l := by
      intro l m F hF
      cases e : l[m]? with
      | none => rw [List.modify_eq_self (by simpa using e)]
      | some q => have := madeCount_modify F l m q e; rw [hF] at this; omega
    have hp : ∀ q : PTask, (PTask.pay k j q).st = q.st ∧ (PTask.pay k j q).code = q.code := by intro q; unfold PTask.pay; split <;> exact ⟨rfl, rfl⟩
    have hd : ∀ q : PTask, (PTask.dec q).st = q.st ∧ (PTask.dec q).code = q.code := by intro q; simp only [PTask.dec]; exact ⟨trivial, trivial⟩
    refine ⟨topf f _ fs _ hst rfl (hfr i f (by simp [hst])), ?_, ?_⟩
    · exact modt _ _ _ (fun q => (hp q).2) (modt _ _ _ (fun q => (hd q).2) hta)
    · simp only [setTop, setThr, modTask, List.length_modify]
      rw [hsame _ _ _ (fun q => (hp q).1), hsame _ _ _ (fun q => (hd q).1)]
      exact hse
  | up hst hpc hq hk hcc hp => rename_i f fs j q k p; exact ⟨topf f _ fs _ hst rfl (hfr i f (by simp [hst])), hta, hse⟩
  | ret hst _ _ _ => rename_i f fs j _ _ _; exact ⟨topf f _ fs _ hst rfl (hfr i f (by simp [hst])), hta, hse⟩
  | waited hst _ hc _ _ _ _ =>
    rename_i f fs v k j q _ _ _ _ _
    have := hfr i f (by simp [hst])
    rw [hc] at this; exact this.elim
  | finish hst hpc hq hk hcc =>
    rename_i f fs j q k
    have hfs := hone f fs hst
    subst hfs
    obtain ⟨q0, hq0, hq1, -⟩ := hI.task i f k (by simp [hst]) hk
    refine ⟨thr0 _ _ rfl (by simp), modt _ _ _ (fun _ => rfl) hta, ?_⟩
    have := madeCount_modify (PTask.setSt .finished) s.tasks k q0 hq0
    have e1 : b2n (decide ((PTask.setSt .finished q0).st = .made)) = 0 := by simp [PTask.setSt, b2n]
    simp only [modTask, setThr, List.length_modify, List.isEmpty_nil, if_true]
    omega
  | submitRoot hst _ hc =>
    rename_i f fs c k _
    have hn := hfr i f (by simp [hst])
    rw [hc] at hn
    refine ⟨topf f _ fs _ hst rfl hn.2, ?_, ?_⟩
    · intro q hq
      simp only [setTop, setThr, List.mem_append, List.mem_singleton] at hq
      rcases hq with hq | rfl
      · exact hta q hq
      · exact hn.1
    · simp only [setTop, setThr, madeCount, List.countP_append, List.length_append] at hse ⊢
      simp
      omega
  | submitChild hst _ hc hv hq =>
    rename_i f fs v c k pj q _
    have hn := hfr i f (by simp [hst])
    rw [hc] at hn
    have hd : ∀ q : PTask, (PTask.inc q).st = q.st ∧ (PTask.inc q).code = q.code := by intro q; simp only [PTask.inc]; exact ⟨trivial, trivial⟩
    refine ⟨topf f _ fs _ hst rfl hn.2, ?_, ?_⟩
    · intro q hq
      simp only [setTop, setThr, List.mem_append, List.mem_singleton] at hq
      rcases hq with hq | rfl
      · exact modt _ _ _ (fun q => (hd q).2) hta q hq
      · exact hn.1
    · have h1 := madeCount_modify PTask.inc s.tasks pj q hq
      rw [(hd q).1] at h1
      simp only [madeCount] at h1 hse
      simp only [setTop, setThr, madeCount, List.countP_append, List.length_append, List.length_modify]
      simp
      omega

theorem PoolReach.sem {n : Nat} (hn : 0 < n) {p : Prog} (hp : p.NoWait) {s : PoolState} (h : PoolReach n p s) : SemInv s := by
  unfold PoolReach at h
  generalize hp0 : PoolState.init p = s0 at h
  induction h with
  | refl =>
    subst hp0
    refine ⟨?_, by simp [PoolState.init], by simp [PoolState.init, madeCount]⟩
    intro i f hf
    simp only [PoolState.init] at hf
    split at hf
    · simp only [List.mem_singleton] at hf; subst hf; exact hp
    · simp at hf
  | step i r a hreach hs ih =>
    obtain ⟨-, -, hs⟩ := step_cases hs
    subst hp0
    exact ih.step (PoolReach.inv hn hreach).1 hs

/-- With one worker nothing terminates the program. -/
theorem PoolReach.alone {p : Prog} {s : PoolState} (h : PoolReach 1 p s) : s.dead = false := by
  unfold PoolReach at h
  generalize hp0 : PoolState.init p = s0 at h
  induction h with
  | refl => subst hp0; rfl
  | step i r a hreach hs ih =>
    obtain ⟨hd, hi, hs⟩ := step_cases hs
    cases hs
    all_goals first | exact hd | (exfalso; omega)

end CoEcs
