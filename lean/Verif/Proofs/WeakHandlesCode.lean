import Verif.Spec.WeakHandles
import Verif.Proofs.WeakQueueCode

/-! # The threads that reserve handles, line by line -/

namespace CoEcs.Weak

/-- Points of a thread that reserves. -/
inductive RPc where
  | start | r1 (n : Int) | r2 (n : Int) | r3 (id : Int) | r4 (id : Int) | r5 | r6 (id g : Int) | r7 (id g : Int) | gone

/-- Points of the thread that flushes; `c` is the cursor, `j` counts the iterations that are left. -/
inductive SPc where
  | start | f1 | a0 (c : Int) (j : Nat) | a1 (c : Int) (j : Nat) (k : Int) | a2 (c : Int) (j : Nat) (k : Int)
  | d0 (c : Int) | d1 (c : Int) (j : Nat) | d2 (c : Int) (j : Nat) (k : Int) | e0 (c : Int) | e1 | gone

inductive HPc where
  | res (t k m : Nat) (q : RPc)
  | syn (N f : Nat) (q : SPc)
  | off

/-- The point where the first loop begins or goes on. -/
def SPc.adding (c : Int) : Nat → SPc
  | 0 => .d0 c
  | j + 1 => .a0 c j

def SPc.dropping (c : Int) : Nat → SPc
  | 0 => .e0 c
  | j + 1 => .d1 c j

def resOp (t k m : Nat) : RPc → Option (Op Loc)
  | .start => match m with
    | 0 => some (.rmw .rel signal fun x => some (x + 1))
    | _ + 1 => some (.rmw .rlx cursor fun x => some (x - 1))
  | .r1 _ => some (.read frees)
  | .r2 n => some (.read (freeId (n - 1).toNat))
  | .r3 _ => some (.read gens)
  | .r4 id => some (.read (gen id.toNat))
  | .r5 => some (.rmw .rlx nextId fun x => some ((x + 1) % 4294967296))
  | .r6 id _ => some (.write (noteId t k) id)
  | .r7 _ g => some (.write (noteGen t k) g)
  | .gone => none

def resNext (t k m : Nat) (v : Int) : RPc → HPc
  | .start => match m with
    | 0 => .res t k 0 .gone
    | m + 1 => if v > 0 then .res t k m (.r1 v) else .res t k m .r5
  | .r1 n => .res t k m (.r2 n)
  | .r2 _ => .res t k m (.r3 v)
  | .r3 id => .res t k m (.r4 id)
  | .r4 id => .res t k m (.r6 id v)
  | .r5 => .res t k m (.r6 v 0)
  | .r6 id g => .res t k m (.r7 id g)
  | .r7 _ _ => .res t (k + 1) m .start
  | .gone => .res t k m .gone

def synOp (f : Nat) : SPc → Option (Op Loc)
  | .start => match f with
    | 0 => none
    | _ + 1 => some (.load .acq signal)
  | .f1 => some (.load .rlx cursor)
  | .a0 _ _ => some (.read gens)
  | .a1 _ _ k => some (.write (gen k.toNat) 0)
  | .a2 _ _ k => some (.write gens (k + 1))
  | .d0 _ => some (.read frees)
  | .d1 _ _ => some (.read frees)
  | .d2 _ _ k => some (.write frees (k - 1))
  | .e0 c => some (.store .rlx cursor (max c 0))
  | .e1 => some (.write synced 1)
  | .gone => none

def synNext (N f : Nat) (v : Int) : SPc → HPc
  | .start => if v = (N : Int) then .syn N (f - 1) .f1 else .syn N (f - 1) .start
  | .f1 => .syn N f (.adding v (-v).toNat)
  | .a0 c j => .syn N f (.a1 c j v)
  | .a1 c j k => .syn N f (.a2 c j k)
  | .a2 c j _ => .syn N f (.adding c j)
  | .d0 c => .syn N f (.dropping c (v - max c 0).toNat)
  | .d1 c j => .syn N f (.d2 c j v)
  | .d2 c j _ => .syn N f (.dropping c j)
  | .e0 _ => .syn N f .e1
  | .e1 => .syn N f .gone
  | .gone => .syn N f .gone

def hAuto : Auto Loc HPc where
  op
    | .res t k m q => resOp t k m q
    | .syn _ f q => synOp f q
    | .off => none
  next
    | .res t k m q, v => resNext t k m v q
    | .syn N f q, v => synNext N f v q
    | .off, _ => .off

/-! ## The programs behind the points -/

/-- What follows `reserve`. -/
def afterReserve (t k m : Nat) (h : Int × Int) : P Unit := do
  let _ ← write (noteId t k) h.1
  let _ ← write (noteGen t k) h.2
  reserver t (k + 1) m

def resCode (t k m : Nat) : RPc → P Unit
  | .start => reserver t k m
  | .r1 n => do
      let _ ← read frees
      let id ← read (freeId (n - 1).toNat)
      let _ ← read gens
      let g ← read (gen id.toNat)
      afterReserve t k m (id, g)
  | .r2 n => do
      let id ← read (freeId (n - 1).toNat)
      let _ ← read gens
      let g ← read (gen id.toNat)
      afterReserve t k m (id, g)
  | .r3 id => do
      let _ ← read gens
      let g ← read (gen id.toNat)
      afterReserve t k m (id, g)
  | .r4 id => do
      let g ← read (gen id.toNat)
      afterReserve t k m (id, g)
  | .r5 => do
      let id ← rmw .rlx nextId fun x => some ((x + 1) % 4294967296)
      afterReserve t k m (id, 0)
  | .r6 id g => afterReserve t k m (id, g)
  | .r7 _ g => do
      let _ ← write (noteGen t k) g
      reserver t (k + 1) m
  | .gone => pure ()

/-- The end of `flush` and what follows it. -/
def tailE (c : Int) : P Unit := do
  let _ ← store .rlx cursor (max c 0)
  let _ ← write synced 1
  pure ()

def tailD (c : Int) (j : Nat) : P Unit := do
  dropFrees j
  tailE c

def tailD0 (c : Int) : P Unit := do
  let k ← read frees
  tailD c (k - max c 0).toNat

def tailA (c : Int) (j : Nat) : P Unit := do
  addGens j
  tailD0 c

def synCode (N f : Nat) : SPc → P Unit
  | .start => syncer N f
  | .f1 => do
      let c ← load .rlx cursor
      tailA c (-c).toNat
  | .a0 c j => do
      let k ← read gens
      let _ ← write (gen k.toNat) 0
      let _ ← write gens (k + 1)
      tailA c j
  | .a1 c j k => do
      let _ ← write (gen k.toNat) 0
      let _ ← write gens (k + 1)
      tailA c j
  | .a2 c j k => do
      let _ ← write gens (k + 1)
      tailA c j
  | .d0 c => tailD0 c
  | .d1 c j => do
      let k ← read frees
      let _ ← write frees (k - 1)
      tailD c j
  | .d2 c j k => do
      let _ ← write frees (k - 1)
      tailD c j
  | .e0 c => tailE c
  | .e1 => do
      let _ ← write synced 1
      pure ()
  | .gone => pure ()

def HPc.code : HPc → P Unit
  | .res t k m q => resCode t k m q
  | .syn N f q => synCode N f q
  | .off => pure ()

theorem hcode_op (p : HPc) : (Prog.auto Loc).op p.code = hAuto.op p := by
  cases p with
  | res t k m q =>
    cases q <;> try rfl
    case start => cases m <;> rfl
  | syn N f q =>
    cases q <;> try rfl
    case start => cases f <;> rfl
  | off => rfl

theorem res_next_code (t k m : Nat) (q : RPc) (v : Int) {o : Op Loc} (h : resOp t k m q = some o) :
    (Prog.auto Loc).next (resCode t k m q) v = (resNext t k m v q).code := by
  have hq : ∀ m, reserver t k (m + 1) = Prog.bind reserve (afterReserve t k m) := fun _ => rfl
  cases q
  case start =>
    cases m with
    | zero => rfl
    | succ m =>
      simp only [resCode, hq, reserve, resNext, load, store, rmw, read, write, Prog.bind_eq, Prog.bind_assoc,
        Prog.call_bind, Prog.op_bind, Prog.ret_bind, Prog.pure_eq, Prog.ite_bind, Prog.auto_next]
      split <;> rfl
  case gone => cases h
  all_goals rfl

theorem addGens_code (c : Int) (N f j : Nat) : tailA c j = synCode N f (.adding c j) := by
  cases j <;> rfl

theorem dropFrees_code (c : Int) (N f j : Nat) : tailD c j = synCode N f (.dropping c j) := by
  cases j <;> rfl

theorem syn_next_code (N f : Nat) (q : SPc) (v : Int) {o : Op Loc} (h : synOp f q = some o) :
    (Prog.auto Loc).next (synCode N f q) v = (synNext N f v q).code := by
  cases q
  case start =>
    cases f with
    | zero => cases h
    | succ f =>
      have hs : syncer N (f + 1) = .op (.load .acq signal) fun d =>
        if d = (N : Int) then Prog.bind flush fun _ => Prog.bind (write synced 1) fun _ => .ret () else syncer N f := rfl
      simp only [synCode, hs, Prog.auto_next, synNext, Nat.add_sub_cancel]
      split
      · simp only [HPc.code, synCode, flush, tailA, tailD0, tailD, tailE, load, store, rmw, read, write, Prog.bind_eq, Prog.bind_assoc,
          Prog.call_bind, Prog.op_bind, Prog.ret_bind, Prog.pure_eq]
      · rfl
  case f1 => exact addGens_code v N f _
  case a2 c j k => exact addGens_code c N f j
  case d0 c => exact dropFrees_code c N f _
  case d2 c j k => exact dropFrees_code c N f j
  case gone => cases h
  all_goals rfl

theorem hcode_next (p : HPc) (v : Int) {o : Op Loc} (h : hAuto.op p = some o) :
    (Prog.auto Loc).next p.code v = (hAuto.next p v).code := by
  cases p with
  | res t k m q => exact res_next_code t k m q v h
  | syn N f q => exact syn_next_code N f q v h
  | off => cases h

end CoEcs.Weak
