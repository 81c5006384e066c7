import Verif.Model.Buffers
import Verif.Proofs.History
import Verif.Proofs.Growth

/-!
# Forgetting the buffers; where the entities are after a call
-/

namespace CoEcs
open Spec (RegOp SysOp Sys Out noHandle withHandle)
variable {V : Type}

/-- Apply a function to the state of a result. -/
def Res.onState {σ τ α : Type} (f : σ → τ) : Res σ α → Res τ α
  | .ok s a => .ok (f s) a
  | .throw s e => .throw (f s) e
  | .ub => .ub

theorem noHandle_onState {σ τ α : Type} (f : σ → τ) (x : Res σ α) : noHandle (x.onState f) = (noHandle x).onState f := by
  cases x <;> rfl

theorem withHandle_onState {σ τ : Type} (f : σ → τ) (x : Res σ Handle) : withHandle (x.onState f) = (withHandle x).onState f := by
  cases x <;> rfl

namespace BReg

/-! ### Forgetting the buffers -/

@[simp] theorem withArchs_reg (b : BReg V) (s : Archs V) : (b.withArchs s).reg = { b.reg with archs := s } := by
  unfold withArchs; split <;> rfl

@[simp] theorem setArch_reg (b : BReg V) (i : Nat) (a : Arch V) : (b.setArch i a).reg = b.reg.setArch i a := by
  unfold setArch; split
  · rfl
  · split <;> rfl

@[simp] theorem withPool_reg (b : BReg V) (p : Pool) : (b.withPool p).reg = { b.reg with pool := p } := rfl

theorem setLoc_reg (b : BReg V) (id : Nat) (l : Loc) : (b.setLoc id l).map reg = b.reg.setLoc id l := by
  unfold setLoc; cases b.reg.setLoc id l <;> rfl

theorem create_reg (ty : Types) (b : BReg V) (args : List (Nat × V)) : (b.create ty args).onState reg = b.reg.create ty args := by
  unfold create Reg.create
  cases b.reg.pool.create with
  | none => rfl
  | some x =>
    obtain ⟨p, h⟩ := x
    simp only [withPool_reg]
    cases b.reg.archs.ensure (args.map fun x => ty.info x.1) with
    | ub => rfl
    | throw s e => simp [Res.onState]
    | ok s ai =>
      simp only
      cases s.arches[ai]? with
      | none => rfl
      | some a =>
        simp only
        cases a.emplace h args with
        | ub => rfl
        | throw a' e => simp [Res.onState]
        | ok a' p =>
          obtain ⟨ci, idx⟩ := p
          simp only [setLoc, setArch_reg, withArchs_reg, withPool_reg]
          generalize Reg.setLoc _ _ _ = x
          cases x <;> rfl

theorem destroy_reg (b : BReg V) (h : Handle) : (b.destroy h).onState reg = b.reg.destroy h := by
  unfold destroy Reg.destroy
  cases b.reg.location h with
  | ub => rfl
  | throw e => rfl
  | ok l =>
    simp only
    cases b.reg.archOf l with
    | none => rfl
    | some x =>
      obtain ⟨ai, a⟩ := x
      simp only
      cases a.swapErase l.chunk l.entry with
      | none => rfl
      | some x =>
        obtain ⟨a', moved⟩ := x
        simp only [removeLoc, setArch_reg]
        generalize Reg.removeLoc _ _ = x
        cases x with
        | none => rfl
        | some r =>
          simp only [setMoved]
          cases r.setMoved moved l <;> rfl

theorem relocate_reg (b : BReg V) (h : Handle) (l : Loc) (ai ni : Nat) :
    (b.relocate h l ai ni).map (fun x => (x.1.reg, x.2)) = b.reg.relocate h l ai ni := by
  unfold relocate Reg.relocate
  cases b.reg.archs.arches[ai]? with
  | none => rfl
  | some a =>
    cases b.reg.archs.arches[ni]? with
    | none => rfl
    | some n =>
      simp only
      split
      · rfl
      · cases a.move l.chunk l.entry n with
        | none => rfl
        | some x =>
          obtain ⟨a', n', ⟨ci, idx⟩, moved⟩ := x
          simp only [setMoved, setArch_reg]
          generalize Reg.setMoved _ _ _ = x
          cases x with
          | none => rfl
          | some r =>
            simp only [setLoc]
            cases r.setLoc h.id ⟨some ni, ci, idx⟩ <;> rfl

theorem setImpl_reg (ty : Types) (b : BReg V) (h : Handle) (c : Nat) : (b.setImpl ty h c).onState reg = b.reg.setImpl ty h c := by
  unfold setImpl Reg.setImpl
  cases b.reg.location h with
  | ub => rfl
  | throw e => rfl
  | ok l =>
    simp only
    cases b.reg.archOf l with
    | none => rfl
    | some x =>
      obtain ⟨ai, a⟩ := x
      simp only
      split
      · rfl
      · cases b.reg.archs.ensureAdded ai (ty.info c) with
        | ub => rfl
        | throw s e => simp [Res.onState]
        | ok s ni =>
          simp only
          rw [← withArchs_reg, ← relocate_reg]
          cases (b.withArchs s).relocate h l ai ni <;> rfl

theorem writeAt_reg (b : BReg V) (l : Loc) (c : Nat) (cn : Bool) (v : V) : (b.writeAt l c cn v).map reg = b.reg.writeAt l c cn v := by
  unfold writeAt Reg.writeAt
  cases b.reg.archOf l with
  | none => rfl
  | some x =>
    obtain ⟨ai, a⟩ := x
    simp only
    split
    · cases a.writeCell l.chunk l.entry (some c) cn (.comp v) with
      | none => rfl
      | some a' => simp
    · rfl

theorem set_reg (ty : Types) (b : BReg V) (h : Handle) (c : Nat) (v : V) : (b.set ty h c v).onState reg = b.reg.set ty h c v := by
  unfold set Reg.set
  rw [← setImpl_reg]
  cases b.setImpl ty h c with
  | ub => rfl
  | throw b e => rfl
  | ok b' x =>
    obtain ⟨ins, l⟩ := x
    simp only [Res.onState, ← writeAt_reg]
    cases b'.writeAt l c ins v <;> rfl

theorem remove_reg (ty : Types) (b : BReg V) (h : Handle) (c : Nat) : (b.remove ty h c).onState reg = b.reg.remove ty h c := by
  unfold remove Reg.remove
  cases b.reg.location h with
  | ub => rfl
  | throw e => rfl
  | ok l =>
    simp only
    cases b.reg.archOf l with
    | none => rfl
    | some x =>
      obtain ⟨ai, a⟩ := x
      simp only
      split
      · cases b.reg.archs.ensureRemoved ai (ty.info c) with
        | ub => rfl
        | throw s e => simp [Res.onState]
        | ok s ni =>
          simp only
          rw [← withArchs_reg, ← relocate_reg]
          cases (b.withArchs s).relocate h l ai ni <;> rfl
      · rfl

theorem assign_reg (b : BReg V) (h : Handle) (c : Nat) (v : V) : (b.assign h c v).onState reg = b.reg.assign h c v := by
  unfold assign Reg.assign
  cases b.reg.location h with
  | ub => rfl
  | throw e => rfl
  | ok l =>
    simp only
    cases b.reg.archOf l with
    | none => rfl
    | some x =>
      obtain ⟨ai, a⟩ := x
      simp only
      cases a.row? l.chunk l.entry with
      | none => rfl
      | some row =>
        simp only
        split
        · rw [← writeAt_reg]
          cases b.writeAt l c false v <;> rfl
        · rfl

theorem getOrInsert_reg (ty : Types) (b : BReg V) (h : Handle) (c : Nat) (v : V) :
    (b.getOrInsert ty h c v).onState reg = b.reg.getOrInsert ty h c v := by
  unfold getOrInsert Reg.getOrInsert
  rw [← setImpl_reg]
  cases b.setImpl ty h c with
  | ub => rfl
  | throw b e => rfl
  | ok b' x =>
    obtain ⟨ins, l⟩ := x
    simp only [Res.onState, ← writeAt_reg]
    cases ins with
    | true =>
      simp only [if_true]
      cases b'.writeAt l c true v with
      | none => rfl
      | some b'' => simp only [Option.map_some]; cases b''.reg.readAt l c <;> rfl
    | false =>
      simp only [Bool.false_eq_true, if_false]
      cases b'.reg.readAt l c <;> rfl

theorem receive_reg (b : BReg V) (a : Arch V) (row : Row V) (ph : Handle) : (b.receive a row ph).onState reg = b.reg.receive a row ph := by
  unfold receive Reg.receive
  cases b.reg.archs.ensureSet a.comps with
  | ub => rfl
  | throw s e => simp [Res.onState]
  | ok s di =>
    simp only
    cases s.arches[di]? with
    | none => rfl
    | some da =>
      simp only
      cases da.copyFrom row a.copyBlocks with
      | ub => rfl
      | throw da' e => simp [Res.onState]
      | ok da' p =>
        obtain ⟨ci, idx⟩ := p
        simp only
        cases da'.writeCell ci idx none false (.ent ph) with
        | none => rfl
        | some da'' =>
          simp only [setLoc, setArch_reg, withArchs_reg]
          generalize Reg.setLoc _ _ _ = x
          cases x <;> rfl

theorem copyInto_reg (r : Reg V) (h : Handle) (b : BReg V) (ph : Handle) : (copyInto r h b ph).onState reg = r.copyInto h b.reg ph := by
  unfold copyInto Reg.copyInto
  cases r.rowOf h with
  | ub => rfl
  | throw e => rfl
  | ok x => exact receive_reg _ _ _ _

theorem copyTo_reg (r : Reg V) (h : Handle) (b : BReg V) : (copyTo r h b).onState reg = r.copyTo h b.reg := by
  unfold copyTo Reg.copyTo
  cases b.reg.pool.create with
  | none => rfl
  | some x => exact copyInto_reg _ _ _ _

theorem clone_reg (b : BReg V) (h : Handle) : (b.clone h).onState reg = b.reg.clone h := by
  unfold clone Reg.clone
  cases b.reg.pool.create with
  | none => rfl
  | some x => exact copyInto_reg _ _ _ _

/-- The two registries of a move. -/
def both (x : BReg V × BReg V) : Reg V × Reg V := (x.1.reg, x.2.reg)

theorem moveInto_reg (b : BReg V) (h : Handle) (d : BReg V) (ph : Handle) :
    (b.moveInto h d ph).onState both = b.reg.moveInto h d.reg ph := by
  unfold moveInto Reg.moveInto
  cases b.reg.location h with
  | ub => rfl
  | throw e => rfl
  | ok l =>
    simp only
    cases b.reg.archOf l with
    | none => rfl
    | some x =>
      obtain ⟨ai, a⟩ := x
      simp only
      cases d.reg.archs.ensureSet a.comps with
      | ub => rfl
      | throw s e => simp [Res.onState, both]
      | ok s di =>
        simp only
        cases s.arches[di]? with
        | none => rfl
        | some da =>
          simp only
          cases a.move l.chunk l.entry da with
          | none => rfl
          | some x =>
            obtain ⟨a', da', ⟨ci, idx⟩, moved⟩ := x
            simp only [removeLoc, setArch_reg]
            generalize Reg.removeLoc _ _ = x
            cases x with
            | none => rfl
            | some r =>
              simp only [setMoved]
              cases r.setMoved (if moved = some h then none else moved) l with
              | none => rfl
              | some r2 =>
                simp only
                cases da'.writeCell ci idx none false (.ent ph) with
                | none => rfl
                | some da'' =>
                  simp only [setLoc, setArch_reg, withArchs_reg]
                  generalize Reg.setLoc _ _ _ = x
                  cases x <;> rfl

theorem moveTo_reg (b : BReg V) (h : Handle) (d : BReg V) : (b.moveTo h d).onState both = b.reg.moveTo h d.reg := by
  unfold moveTo Reg.moveTo
  cases d.reg.pool.create with
  | none => rfl
  | some x => exact moveInto_reg _ _ _ _

theorem reserve_reg (b : BReg V) : b.reserve.onState reg = b.reg.reserve := by
  unfold reserve Reg.reserve
  cases b.reg.pool.reserve <;> rfl

theorem run_reg (ty : Types) (b : BReg V) (op : RegOp V) : (b.run ty op).onState reg = op.run ty b.reg := by
  cases op with
  | create args => simp only [run, RegOp.run, ← withHandle_onState, create_reg]
  | destroy h => simp only [run, RegOp.run, ← noHandle_onState, destroy_reg]
  | set h c v => simp only [run, RegOp.run, ← noHandle_onState, set_reg]
  | remove h c => simp only [run, RegOp.run, ← noHandle_onState, remove_reg]
  | assign h c v => simp only [run, RegOp.run, ← noHandle_onState, assign_reg]
  | getOrInsert h c v => simp only [run, RegOp.run, ← noHandle_onState, getOrInsert_reg]
  | clone h ph =>
    cases ph with
    | none => simp only [run, RegOp.run, ← withHandle_onState, clone_reg]
    | some ph => simp only [run, RegOp.run, ← withHandle_onState, copyInto_reg, cloneInto_eq]
  | reserve => simp only [run, RegOp.run, ← withHandle_onState, reserve_reg]
  | sync => rfl

end BReg

/-- Forgetting the buffers gives back the model without them. -/
theorem BSys.step_sys (ty : Types) (s : BSys V) (op : SysOp V) :
    (s.step ty op).map (fun x => (x.1.sys, x.2)) = s.sys.step ty op := by
  cases op with
  | on i op =>
    unfold BSys.step Sys.step
    simp only
    rw [show s.sys.reg i = (s.reg i).reg from rfl, ← BReg.run_reg]
    cases (s.reg i).run ty op <;> rfl
  | copy i h j ph =>
    unfold BSys.step Sys.step
    cases ph with
    | none =>
      simp only
      rw [show (s.sys.reg i).copyTo h (s.sys.reg j) = (s.reg i).reg.copyTo h (s.reg j).reg from rfl, ← BReg.copyTo_reg]
      cases BReg.copyTo (s.reg i).reg h (s.reg j) <;> rfl
    | some p =>
      simp only
      rw [show (s.sys.reg i).copyInto h (s.sys.reg j) p = (s.reg i).reg.copyInto h (s.reg j).reg p from rfl, ← BReg.copyInto_reg]
      cases BReg.copyInto (s.reg i).reg h (s.reg j) p <;> rfl
  | move i h j ph =>
    unfold BSys.step Sys.step
    cases ph with
    | none =>
      simp only
      rw [show (s.sys.reg i).moveTo h (s.sys.reg j) = (s.reg i).reg.moveTo h (s.reg j).reg from rfl, ← BReg.moveTo_reg]
      cases (s.reg i).moveTo h (s.reg j) <;> rfl
    | some p =>
      simp only
      rw [show (s.sys.reg i).moveInto h (s.sys.reg j) p = (s.reg i).reg.moveInto h (s.reg j).reg p from rfl, ← BReg.moveInto_reg]
      cases (s.reg i).moveInto h (s.reg j) p <;> rfl

end CoEcs
