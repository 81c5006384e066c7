import Verif.Model.OutOfMemory
import Verif.Spec.Registry

/-!
# Histories in which memory runs out
-/

namespace CoEcs.Spec
variable {V : Type}

/-- Calls on one registry in which an allocation throws. -/
inductive RegCall (V : Type) where
  | create (args : List (Nat × V)) (pt : MemPoint)
  | destroy (h : Handle)
  | set (h : Handle) (c : Nat) (v : V) (pt : MemPoint)
  | getOrInsert (h : Handle) (c : Nat) (v : V) (pt : MemPoint)
  | remove (h : Handle) (c : Nat) (pt : MemPoint)
  | clone (h : Handle) (ph : Option Handle) (pt : MemPoint)

namespace RegCall

/-- The call itself. -/
def op : RegCall V → RegOp V
  | .create args _ => .create args
  | .destroy h => .destroy h
  | .set h c v _ => .set h c v
  | .getOrInsert h c v _ => .getOrInsert h c v
  | .remove h c _ => .remove h c
  | .clone h ph _ => .clone h ph

/-- The allocation. -/
def point : RegCall V → MemPoint
  | .create _ pt => pt
  | .destroy _ => .free
  | .set _ _ _ pt => pt
  | .getOrInsert _ _ _ pt => pt
  | .remove _ _ pt => pt
  | .clone _ _ pt => pt

/-- What it leaves behind; `none` if it does not get to the allocation. -/
def run (ty : Types) (r : Reg V) : RegCall V → Option (Reg V)
  | .create args pt => r.createOom ty args pt
  | .destroy h => r.destroyOom h
  | .set h c _ pt => r.setOom ty h c pt
  | .getOrInsert h c _ pt => r.setOom ty h c pt
  | .remove h c pt => r.removeOom ty h c pt
  | .clone h ph pt => r.copyOom h r ph pt

end RegCall

/-- Calls in which an allocation throws. -/
inductive MemCall (V : Type) where
  | on (i : Nat) (c : RegCall V)
  | copy (i : Nat) (h : Handle) (j : Nat) (ph : Option Handle) (pt : MemPoint)
  | move (i : Nat) (h : Handle) (j : Nat) (ph : Option Handle) (pt : MemPoint)

namespace MemCall

/-- The call itself. -/
def op : MemCall V → SysOp V
  | .on i c => .on i c.op
  | .copy i h j ph _ => .copy i h j ph
  | .move i h j ph _ => .move i h j ph

/-- What it leaves behind; `none` if it does not get to the allocation. -/
def run (ty : Types) (s : Sys V) : MemCall V → Option (Sys V)
  | .on i c => (c.run ty (s.reg i)).map (s.setReg i)
  | .copy i h j ph pt => ((s.reg i).copyOom h (s.reg j) ph pt).map (s.setReg j)
  | .move i h j ph pt => ((s.reg i).moveOom h (s.reg j) ph pt).map fun x => (s.setReg i x.1).setReg j x.2

/-- The contents after it: nothing happened, except that an entity whose id could not be put aside is gone. -/
def after (W : World V) : MemCall V → World V
  | .on i (.destroy h) => W.upd i h none
  | _ => W

/-- The registry whose memory is asked for. -/
def target : MemCall V → Nat
  | .on i _ => i
  | .copy _ _ j _ _ => j
  | .move _ _ j _ _ => j

/-- The allocation. -/
def point : MemCall V → MemPoint
  | .on _ c => c.point
  | .copy _ _ _ _ pt => pt
  | .move _ _ _ _ pt => pt

/-- The allocation is neither that of the generation of a new entity nor that of the free id in a move. -/
def Harmless (c : MemCall V) : Prop :=
  c.point ≠ .gens ∧ match c with
    | .move _ _ _ _ pt => pt ≠ .free
    | _ => True

instance (c : MemCall V) : Decidable c.Harmless := by
  unfold Harmless; cases c <;> infer_instance

end MemCall

/-- Histories of calls as in `Reach` among which are calls that satisfy `Q` and run out of memory. -/
inductive MemReach (ty : Types) (P : Sys V → SysOp V → Prop) (Q : MemCall V → Prop) : Sys V → World V → Prop
  | init : MemReach ty P Q Sys.init (fun _ _ => none)
  | step {s s' : Sys V} {W : World V} {op : SysOp V} {out : Out} :
      MemReach ty P Q s W → s.Allowed op → P s op → s.step ty op = some (s', out) → MemReach ty P Q s' (W.step op out)
  | fail {s s' : Sys V} {W : World V} {c : MemCall V} :
      MemReach ty P Q s W → s.Allowed c.op → Q c → c.run ty s = some s' → MemReach ty P Q s' (c.after W)

end CoEcs.Spec
