import Verif.Spec.FirstFit
import Verif.Proofs.Schedule

/-!
# The batches of a stage are a first fit
-/

namespace CoEcs
open Spec

/-- One pass over the items: `b` joined the group, `r` did not. -/
inductive OnePass {α : Type} (refuses : List α → α → Prop) : List α → List α → List α → Prop
  | nil : OnePass refuses [] [] []
  | join {ss b r : List α} {s : α} : OnePass refuses ss b r → ¬ refuses b s → OnePass refuses (ss ++ [s]) (b ++ [s]) r
  | skip {ss b r : List α} {s : α} : OnePass refuses ss b r → refuses b s → OnePass refuses (ss ++ [s]) b (r ++ [s])

theorem Spec.FirstFit.snoc_inv {α : Type} {refuses : List α → α → Prop} {r : List α} {s : α} {bs : List (List α)}
    (h : FirstFit refuses (r ++ [s]) bs) : ∃ bs0, FirstFit refuses r bs0 ∧ Placed refuses s bs0 bs := by
  generalize hq : r ++ [s] = q at h
  cases h with
  | nil => simp at hq
  | @snoc ss t bs0 _ h1 h2 =>
    obtain ⟨rfl, h⟩ := List.append_inj' hq rfl
    cases h
    exact ⟨bs0, h1, h2⟩

theorem Spec.FirstFit.nil_inv {α : Type} {refuses : List α → α → Prop} {bs : List (List α)} (h : FirstFit refuses [] bs) : bs = [] := by
  generalize hq : ([] : List α) = q at h
  cases h with
  | nil => rfl
  | snoc => simp at hq

/-- Passes one after the other are a first fit. -/
theorem OnePass.firstFit {α : Type} {refuses : List α → α → Prop} (he : ∀ s, ¬ refuses [] s) {ss b r : List α}
    (h : OnePass refuses ss b r) : ∀ {bs : List (List α)}, FirstFit refuses r bs →
    (ss = [] ∧ b = [] ∧ r = []) ∨ FirstFit refuses ss (b :: bs) := by
  induction h with
  | nil => intro bs _; exact .inl ⟨rfl, rfl, rfl⟩
  | @join ss b r s _ hn ih =>
    intro bs hf
    right
    rcases ih hf with ⟨rfl, rfl, rfl⟩ | h
    · rw [hf.nil_inv]
      exact .snoc .nil .new
    · exact .snoc h (.here hn)
  | @skip ss b r s _ hr ih =>
    intro bs hf
    right
    obtain ⟨bs0, h1, h2⟩ := hf.snoc_inv
    rcases ih h1 with ⟨rfl, rfl, rfl⟩ | h
    · exact absurd hr (he s)
    · exact .snoc h (.later hr h2)

/-- A batch refuses a system that conflicts with one of its systems; one with a system that writes the whole registry
refuses every system. -/
def SysDesc.Refuses (b : List SysDesc) (s : SysDesc) : Prop := ∃ k ∈ b, SysDesc.Conflict k s ∨ k.pattern.reg = .write

theorem AccRep.refuses {acc : Access} {B : List SysDesc} {s : SysDesc} (h : AccRep acc B) (hs : s.pattern.Ok) :
    (acc.allows s.pattern = .ok true ∧ ¬ SysDesc.Refuses B s) ∨ (acc.allows s.pattern = .ok false ∧ SysDesc.Refuses B s) := by
  have hreg : acc.reg ≠ .read := by rcases h.reg with h | ⟨h, _⟩ <;> rw [h] <;> decide
  have hw : ∀ k ∈ B, k.pattern.reg = .write → acc.reg = .write := by
    intro k hk hkw
    have h0 : ∀ c, acc.footprint.writes c := fun c => (h.writes c).2 ⟨k, hk, Or.inl hkw⟩
    rcases h.reg with hr | hr
    · exfalso
      -- the list of components is finite
      have h1 : ∀ c, (c, AccessType.write) ∈ acc.comps.dense := by
        intro c
        rcases h0 c with h2 | h2
        · rw [hr] at h2; cases h2
        · exact h2
      have h2 := h.ok.ids _ (h1 (2 ^ 32))
      simp at h2
    · exact hr.1
  rcases Access.allows_total (p := acc) hs with hal | hal
  · refine .inl ⟨hal, ?_⟩
    rintro ⟨k, hk, hc | hc⟩
    · refine Access.allows_sound hs hreg hal ?_
      obtain ⟨c, ⟨h1, h2⟩ | ⟨h1, h2⟩⟩ := hc
      · exact ⟨c, Or.inl ⟨(h.writes c).2 ⟨k, hk, h1⟩, h2⟩⟩
      · exact ⟨c, Or.inr ⟨h1, (h.reads c).2 ⟨k, hk, h2⟩⟩⟩
    · have := hw k hk hc
      unfold Access.allows at hal
      rw [if_pos (by simp only [Access.writesAll, Access.readsAll, this]; cases s.pattern.reg <;> simp)] at hal
      cases hal
  · refine .inr ⟨hal, ?_⟩
    rcases h.reg with hr | ⟨_, k, hk, hkw⟩
    · have : acc.footprint.Conflict s.pattern.footprint := by
        apply Classical.byContradiction
        intro hn
        rw [Access.allows_complete hs hr hn] at hal
        cases hal
      obtain ⟨c, ⟨h1, h2⟩ | ⟨h1, h2⟩⟩ := this
      · obtain ⟨k, hk, hkc⟩ := (h.writes c).1 h1
        exact ⟨k, hk, .inl ⟨c, Or.inl ⟨hkc, h2⟩⟩⟩
      · obtain ⟨k, hk, hkc⟩ := (h.reads c).1 h2
        exact ⟨k, hk, .inl ⟨c, Or.inr ⟨h1, hkc⟩⟩⟩
    · exact ⟨k, hk, .inr hkw⟩

theorem pass_onePass : ∀ (ss : List SysDesc) (acc : Access) (s0 B r0 : List SysDesc), AccRep acc B → PatternsOk ss → NoRegRead ss →
    OnePass SysDesc.Refuses s0 B r0 → ∀ {b r}, Stage.pass acc ss = .ok (b, r) → OnePass SysDesc.Refuses (s0 ++ ss) (B ++ b) (r0 ++ r) := by
  intro ss
  induction ss with
  | nil => intro acc s0 B r0 _ _ _ h b r hp; cases hp; simpa using h
  | cons s ss ih =>
    intro acc s0 B r0 hacc hp hn h b r he
    have hs := hp s (List.mem_cons_self ..)
    have hp' : PatternsOk ss := fun x hx => hp x (List.mem_cons_of_mem _ hx)
    have hn' : NoRegRead ss := fun x hx => hn x (List.mem_cons_of_mem _ hx)
    rcases hacc.refuses hs with ⟨hal, hr⟩ | ⟨hal, hr⟩
    · obtain ⟨acc', hm, hok, _⟩ := Access.merge_ok hacc.ok hs
      obtain ⟨b', r', h1, _⟩ := pass_ok ss acc' hok hp'
      simp only [Stage.pass, hal, hm, h1, Run.bind, Run.ok.injEq, Prod.mk.injEq] at he
      obtain ⟨rfl, rfl⟩ := he
      have := ih acc' (s0 ++ [s]) (B ++ [s]) r0 (hacc.merge hs (hn s (List.mem_cons_self ..)) hm) hp' hn' (.join h hr) h1
      simpa using this
    · obtain ⟨b', r', h1, _⟩ := pass_ok ss acc hacc.ok hp'
      simp only [Stage.pass, hal, h1, Run.bind, Run.ok.injEq, Prod.mk.injEq] at he
      obtain ⟨rfl, rfl⟩ := he
      have := ih acc (s0 ++ [s]) B (r0 ++ [s]) hacc hp' hn' (.skip h hr) h1
      simpa using this

theorem batches_firstFit : ∀ (fuel : Nat) (ss : List SysDesc), PatternsOk ss → NoRegRead ss →
    ∀ bs, Stage.batches fuel ss = .ok bs → FirstFit SysDesc.Refuses ss bs := by
  intro fuel
  induction fuel with
  | zero =>
    intro ss _ _ bs h
    cases ss with
    | nil => cases h; exact .nil
    | cons => cases h
  | succ fuel ih =>
    intro ss hp hn bs h
    cases ss with
    | nil => cases h; exact .nil
    | cons s ss =>
      obtain ⟨b, r, h1, _, _, _, h5⟩ := pass_head s ss hp
      simp only [Stage.batches, h1, Run.bind] at h
      cases hq : Stage.batches fuel r with
      | ok q =>
        rw [hq] at h
        cases h
        have hf := ih r (fun x hx => hp x (List.mem_cons_of_mem _ (h5.subset hx)))
          (fun x hx => hn x (List.mem_cons_of_mem _ (h5.subset hx))) q hq
        have ho := pass_onePass (s :: ss) _ [] [] [] accRep_empty hp hn .nil h1
        rcases ho.firstFit (fun s ⟨k, hk, _⟩ => by cases hk) hf with ⟨h, _⟩ | h
        · simp at h
        · exact h
      | ub => rw [hq] at h; cases h
      | stuck => rw [hq] at h; cases h

/-! ## Building executions -/

/-- All submitted tasks run now. -/
theorem drain (c : List Instr) : ∀ (ts : List (SysDesc × Bool)), ∃ tr, SchedSteps ⟨c, ts⟩ tr ⟨c, []⟩ := by
  intro ts
  induction ts with
  | nil => exact ⟨_, .refl _⟩
  | cons t ts ih =>
    obtain ⟨tr, h⟩ := ih
    obtain ⟨x, f⟩ := t
    have h2 : SchedSteps ⟨c, (x, true) :: ts⟩ _ ⟨c, []⟩ := .step (.finish x c [] ts) h
    cases f with
    | true => exact ⟨_, h2⟩
    | false => exact ⟨_, .step (.start x c [] ts) h2⟩

/-- All code can be run to its end. -/
theorem trace_exists : ∀ (c : List Instr), ∃ tr, SchedTrace c tr := by
  intro c
  induction c with
  | nil => exact ⟨_, .refl _⟩
  | cons i c ih =>
    obtain ⟨tr, h⟩ := ih
    cases i with
    | submit s =>
      obtain ⟨t1, h1⟩ := drain c ([] ++ [(s, false)])
      exact ⟨_, .step (.submit s c []) (h1.append h)⟩
    | runMain m => exact ⟨_, .step (.mainStart m c []) (.step (.mainFinish m c []) h)⟩
    | endMain m => exact ⟨_, .step (.mainFinish m c []) h⟩
    | wait => exact ⟨_, .step (.wait c) h⟩
    | flush => exact ⟨_, .step (.flush c []) h⟩

theorem submit_all (c : List Instr) : ∀ (b : List SysDesc) (ts : List (SysDesc × Bool)),
    SchedSteps ⟨b.map .submit ++ c, ts⟩ [] ⟨c, ts ++ b.map (·, false)⟩ := by
  intro b
  induction b with
  | nil => intro ts; simpa using SchedSteps.refl _
  | cons x b ih =>
    intro ts
    have := ih (ts ++ [(x, false)])
    simp only [List.append_assoc, List.singleton_append] at this
    exact .step (.submit x _ ts) this

theorem run_mains (c : List Instr) (ts : List (SysDesc × Bool)) : ∀ (m : List SysDesc),
    ∃ tr, SchedSteps ⟨m.map .runMain ++ c, ts⟩ tr ⟨c, ts⟩ := by
  intro m
  induction m with
  | nil => exact ⟨_, .refl _⟩
  | cons x m ih =>
    obtain ⟨tr, h⟩ := ih
    exact ⟨_, .step (.mainStart x _ ts) (.step (.mainFinish x _ ts) h)⟩

/-- Whatever the batches and the main-thread systems are, every parallel system can be running together with every
main-thread system. -/
theorem run_together {e : StageExec} {x m : SysDesc} (hx : x ∈ e.batches.flatten) (hm : m ∈ e.main) (q : List Instr) :
    ∃ tr c ts, SchedSteps ⟨e.code ++ q, []⟩ tr ⟨.endMain m :: c, ts⟩ ∧ (x, true) ∈ ts := by
  obtain ⟨b, hb, hx⟩ := List.mem_flatten.1 hx
  obtain ⟨pre, post, hbs⟩ := List.append_of_mem hb
  obtain ⟨b1, b2, rfl⟩ := List.append_of_mem hx
  obtain ⟨m1, m2, hms⟩ := List.append_of_mem hm
  have hcode : e.code ++ q = pre.flatMap (execBatch e.main) ++ ((b1 ++ x :: b2).map .submit ++ (m1.map .runMain ++ (.runMain m ::
      (m2.map .runMain ++ ([.wait] ++ (post.flatMap (execBatch e.main) ++ q)))))) := by
    unfold StageExec.code
    rw [hbs, List.flatMap_append, List.flatMap_cons]
    conv => lhs; rw [execBatch]
    simp [hms]
  rw [hcode]
  obtain ⟨t1, h1⟩ := trace_exists (pre.flatMap (execBatch e.main))
  have h1 := h1.extend ((b1 ++ x :: b2).map .submit ++ (m1.map .runMain ++ (.runMain m ::
      (m2.map .runMain ++ ([.wait] ++ (post.flatMap (execBatch e.main) ++ q))))))
  have h2 := submit_all (m1.map .runMain ++ (.runMain m :: (m2.map .runMain ++ ([.wait] ++ (post.flatMap (execBatch e.main) ++ q)))))
    (b1 ++ x :: b2) []
  obtain ⟨t3, h3⟩ := run_mains (.runMain m :: (m2.map .runMain ++ ([.wait] ++ (post.flatMap (execBatch e.main) ++ q))))
    ([] ++ (b1 ++ x :: b2).map (·, false)) m1
  have h4 := (h1.append h2).append h3
  simp only [List.nil_append, List.map_append, List.map_cons] at h4 ⊢
  refine ⟨_, _, _, h4.append (.step (.start x _ _ _) (.step (.mainStart m _ _) (.refl _))), ?_⟩
  simp

/-- Every unfinished task was submitted by the code, and every main-thread system that runs belongs to it. -/
theorem steps_within {P M : SysDesc → Prop} {s t : SchedState} {tr : List SchedEvent} (h : SchedSteps s tr t)
    (hc : ∀ i ∈ s.code, (∀ x, i = .submit x → P x) ∧ ∀ m, i = .runMain m ∨ i = .endMain m → M m) (ht : ∀ k ∈ s.tasks, P k.1) :
    (∀ i ∈ t.code, (∀ x, i = .submit x → P x) ∧ ∀ m, i = .runMain m ∨ i = .endMain m → M m) ∧ ∀ k ∈ t.tasks, P k.1 := by
  induction h with
  | refl => exact ⟨hc, ht⟩
  | step hst _ ih =>
    apply ih
    · cases hst with
      | submit x c ts => exact fun i hi => hc i (List.mem_cons_of_mem _ hi)
      | mainStart m c ts =>
        intro i hi
        rcases List.mem_cons.1 hi with rfl | hi
        · refine ⟨fun x h => (by cases h), fun m' h => ?_⟩
          rcases h with h | h
          · cases h
          · cases h
            exact (hc _ (List.mem_cons_self ..)).2 m (.inl rfl)
        · exact hc i (List.mem_cons_of_mem _ hi)
      | mainFinish m c ts => exact fun i hi => hc i (List.mem_cons_of_mem _ hi)
      | wait c => exact fun i hi => hc i (List.mem_cons_of_mem _ hi)
      | flush c ts => exact fun i hi => hc i (List.mem_cons_of_mem _ hi)
      | start x c l r => exact hc
      | finish x c l r => exact hc
    · cases hst with
      | submit x c ts =>
        intro k hk
        rcases List.mem_append.1 hk with hk | hk
        · exact ht k hk
        · rw [List.mem_singleton] at hk
          subst hk
          exact (hc _ (List.mem_cons_self ..)).1 x rfl
      | mainStart m c ts => exact ht
      | mainFinish m c ts => exact ht
      | wait c => exact ht
      | flush c ts => exact ht
      | start x c l r =>
        intro k hk
        rcases List.mem_append.1 hk with hk | hk
        · exact ht k (List.mem_append_left _ hk)
        · rcases List.mem_cons.1 hk with rfl | hk
          · exact ht (x, false) (by simp)
          · exact ht k (by simp [hk])
      | finish x c l r =>
        intro k hk
        exact ht k (by simp at hk ⊢; grind)

end CoEcs
