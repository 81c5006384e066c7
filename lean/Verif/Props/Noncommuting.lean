import Verif.Proofs.Noncommuting
import Verif.Props.Determinism

/-!
# C57: which schedules are not deterministic
-/

namespace CoEcs.Props
open Spec

open Classical in
/-- **C57 is violated** by every schedule with a main-thread system that conflicts with a parallel system of its stage, if both
write some component: there are bodies that touch only what the systems declare, such that from every start state two
executions end with different component data. -/
theorem C57_conflict_violated (sch sch' : Schedule) (e : ScheduleExec) (fuel n : Nat) (hf : ScheduleFromArgs sch)
    (h : sch.createExecutor fuel = .ok (sch', e)) (st : Stage) (hst : st = sch.init ∨ (st ∈ sch.stages ∧ 0 < n))
    (x m : SysDesc) (hx : x ∈ st.systems) (hm : m ∈ st.main) (hne : x ≠ m) (hc : x.pattern.footprint.Conflict m.pattern.footprint)
    (hxw : ∃ c, x.pattern.footprint.writes c) (hmw : ∃ c, m.pattern.footprint.writes c) :
    ∃ bodies : SysDesc → Body Nat Bool, (∀ s, (bodies s).Respects s.pattern.footprint) ∧
      ∀ σ : Store Nat, ∃ j k t u, PSteps bodies id j ⟨e.program n, none, [], σ⟩ t ∧ t.Finished ∧
        PSteps bodies id k ⟨e.program n, none, [], σ⟩ u ∧ u.Finished ∧ t.store ≠ u.store := by
  obtain ⟨⟨si, h1, _⟩, h2, h3, h4⟩ := schedule_spec h
  have hcode : ∃ a b c, e.program n = a ++ (.submit x :: (b ++ (.runMain m :: c))) ∧ Instr.wait ∉ b := by
    have key : ∀ (st' : Stage) (y : StageExec), (∀ s ∈ st.systems, FromArgs s) → st.createExecutor fuel = .ok (st', y) →
        ∃ a b c, y.code = a ++ (.submit x :: (b ++ (.runMain m :: c))) ∧ Instr.wait ∉ b := by
      intro st' y hs hy
      obtain ⟨_, k1, _, _, k2⟩ := stage_batches hy (fun s hs' => (fromArgs_ok (hs s hs')).1)
      exact stage_code_split (k2.symm.subset hx) (k1 ▸ hm)
    rcases hst with rfl | ⟨hst, hn⟩
    · obtain ⟨a, b, c, hy, hb⟩ := key _ _ hf.1 h1
      refine ⟨a, b, c ++ ([.flush] ++ (List.replicate n e.runOnce).flatten), ?_, hb⟩
      simp [ScheduleExec.program, ScheduleExec.construct, hy]
    · obtain ⟨i, hi, hsi⟩ := List.mem_iff_getElem.1 hst
      obtain ⟨st', y, k1, k2, k3⟩ := h4 i st (by rw [List.getElem?_eq_getElem hi, hsi])
      obtain ⟨a, b, c, hy, hb⟩ := key _ _ (hf.2 st hst) k3
      obtain ⟨p, q, hpq⟩ := List.append_of_mem (List.mem_of_getElem? k2)
      obtain ⟨n, rfl⟩ : ∃ k, n = k + 1 := ⟨n - 1, by omega⟩
      refine ⟨e.construct ++ (p.flatMap StageExec.code ++ a), b,
        c ++ (q.flatMap StageExec.code ++ ([.flush] ++ (List.replicate n e.runOnce).flatten)), ?_, hb⟩
      rw [ScheduleExec.program, List.replicate_succ, List.flatten_cons]
      conv => lhs; rhs; lhs; rw [ScheduleExec.runOnce, hpq]
      simp [hy]
  obtain ⟨a, b, c, hcode, hb⟩ := hcode
  -- any two functions that respect the patterns, are injective and do not commute
  have fin : ∀ f g : Store Nat → Store Nat, (fnBody f).Respects x.pattern.footprint → (fnBody g).Respects m.pattern.footprint →
      (∀ σ τ, f σ = f τ → σ = τ) → (∀ σ τ, g σ = g τ → σ = τ) → (∀ τ, g (f τ) ≠ f (g τ)) →
      ∃ bodies : SysDesc → Body Nat Bool, (∀ s, (bodies s).Respects s.pattern.footprint) ∧
      ∀ σ : Store Nat, ∃ j k t u, PSteps bodies id j ⟨e.program n, none, [], σ⟩ t ∧ t.Finished ∧
        PSteps bodies id k ⟨e.program n, none, [], σ⟩ u ∧ u.Finished ∧ t.store ≠ u.store := by
    intro f g hfr hgr hfi hgi hfg
    let F : SysDesc → Store Nat → Store Nat := fun s => if s = x then f else if s = m then g else id
    have hFx : F x = f := if_pos rfl
    have hFm : F m = g := by
      show (if m = x then f else if m = m then g else id) = g
      rw [if_neg (fun h => hne h.symm), if_pos rfl]
    have hFi : ∀ s σ τ, F s σ = F s τ → σ = τ := by
      intro s σ τ hst
      simp only [F] at hst
      split at hst
      · exact hfi _ _ hst
      · split at hst
        · exact hgi _ _ hst
        · exact hst
    refine ⟨fun s => fnBody (F s), fun s => ?_, fun σ => ?_⟩
    · simp only [F]
      split
      · rename_i hs; rw [hs]; exact hfr
      · split
        · rename_i hs; rw [hs]; exact hgr
        · exact fnBody_respects (fun _ _ _ => rfl) (fun σ τ ha c hc => ha c (Access.writes_reads hc))
    · obtain ⟨⟨j, t, g1, g2, g3⟩, k, u, g4, g5, g6⟩ := both_orders F a b c x m hb σ
      rw [← hcode] at g1 g4
      refine ⟨j, k, t, u, g1, g2, g4, g5, ?_⟩
      rw [g3, g6, hFx, hFm]
      exact fun he => hfg _ (seqFn_inj hFi _ _ _ he)
  obtain ⟨k, ⟨hw, hr⟩ | ⟨hw, hr⟩⟩ := hc
  · obtain ⟨w, hw'⟩ := hmw
    exact fin (addTo k none) (addTo w (some k)) (addTo_respects hw (fun _ h => by cases h))
      (addTo_respects hw' (fun _ h => by cases h; exact hr)) (fun _ _ => addTo_inj) (fun _ _ => addTo_inj) (addTo_comm_ne k w)
  · obtain ⟨w, hw'⟩ := hxw
    exact fin (addTo w (some k)) (addTo k none) (addTo_respects hw' (fun _ h => by cases h; exact hr))
      (addTo_respects hw (fun _ h => by cases h)) (fun _ _ => addTo_inj) (fun _ _ => addTo_inj)
      (fun τ h => addTo_comm_ne k w τ h.symm)

/-- A parallel system that reads component 0 and writes component 1, and one for the main thread that writes component 0. -/
example : (rdwr 1).pattern.footprint.Conflict (wr 2 0).pattern.footprint ∧ (∃ c, (rdwr 1).pattern.footprint.writes c) ∧
    ∃ c, (wr 2 0).pattern.footprint.writes c :=
  ⟨⟨0, Or.inr ⟨Or.inr (by decide), Or.inr ⟨.read, by decide⟩⟩⟩, ⟨1, Or.inr (by decide)⟩, ⟨0, Or.inr (by decide)⟩⟩

end CoEcs.Props
