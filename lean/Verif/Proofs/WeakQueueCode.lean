import Verif.Spec.WeakQueue

/-! # The clients of the queue, line by line

An automaton with the points the owner and the thieves can be at, and that it does what the programs do, up to the point where the
queue grows. -/

namespace CoEcs.Weak

/-- Points of the owner.  `b`, `t`, `a`, `m`, `v`, `x` are the local variables. -/
inductive OPc where
  | start | p1 | p2 (b : Int) | p3 (b t : Int) | p4 (b t a : Int) | p5 (b a : Int) | p6 (b a : Int) | p7 (b a m : Int) | p8 (b : Int)
  | p9 (b : Int) | g0 (b t a : Int) | g1 (b t a c : Int) | gone
  | q2 (b : Int) | q3 (b a : Int) | q4 (b a : Int) | q5 (b a : Int) | q6 (b a t : Int) | q7 (b a t : Int) | q8 (b a t m : Int)
  | q9 (b t v : Int) | q10 (b t v old : Int) | q11 (b : Int) | u1 (v : Int) | u2 (v x : Int)

/-- Points of a thief. -/
inductive TPc where
  | start | s1 (t : Int) | s2 (t : Int) | s3 (t : Int) | s4 (t a : Int) | s5 (t a : Int) | s6 (t a m : Int) | s7 (t v : Int)
  | u1 (v : Int) | u2 (v x : Int)

/-- A thread: the owner with its number of pushes and what is left to do, or a thief with the attempts it has left. -/
inductive Pc where
  | own (k : Nat) (r : List OwnerOp) (q : OPc)
  | thf (n : Nat) (q : TPc)

def casTop (t : Int) : Op Loc := .rmw .sc (.top 0) fun x => if x = t then some (t + 1) else none

def ownOp (k : Nat) (r : List OwnerOp) : OPc → Option (Op Loc)
  | .start => match r with
    | [] => none
    | .push :: _ => some (.write (.user k) 1)
    | .pop :: _ => some (.load .rlx (.bottom 0))
  | .p1 => some (.load .rlx (.bottom 0))
  | .p2 _ => some (.load .acq (.top 0))
  | .p3 _ _ => some (.load .rlx (.array 0))
  | .p4 _ _ a => some (.read (.cap a))
  | .p5 _ a => some (.read (.data a))
  | .p6 _ a => some (.read (.mask a))
  | .p7 b a m => some (.store .rlx (.cell a (b.toNat &&& m.toNat)) k)
  | .p8 _ => some (.fence .rel)
  | .p9 b => some (.store .rlx (.bottom 0) (b + 1))
  | .g0 _ _ a => some (.read (.cap a))
  | .g1 _ _ _ c => some (.write (.cap ((k : Int) + 2)) (2 * c))
  | .gone => none
  | .q2 _ => some (.load .rlx (.array 0))
  | .q3 b _ => some (.store .rlx (.bottom 0) (b - 1))
  | .q4 _ _ => some (.fence .sc)
  | .q5 _ _ => some (.load .rlx (.top 0))
  | .q6 _ a _ => some (.read (.data a))
  | .q7 _ a _ => some (.read (.mask a))
  | .q8 b a _ m => some (.load .rlx (.cell a ((b - 1).toNat &&& m.toNat)))
  | .q9 _ t _ => some (casTop t)
  | .q10 b _ _ _ => some (.store .rlx (.bottom 0) (b - 1 + 1))
  | .q11 b => some (.store .rlx (.bottom 0) (b - 1 + 1))
  | .u1 v => some (.read (.user v.toNat))
  | .u2 v x => some (.write (.user v.toNat) (x + 1))

def ownNext (k : Nat) (r : List OwnerOp) (v : Int) : OPc → Pc
  | .start => match r with
    | [] => .own k r .gone
    | .push :: r' => .own k r' .p1
    | .pop :: r' => .own k r' (.q2 v)
  | .p1 => .own k r (.p2 v)
  | .p2 b => .own k r (.p3 b v)
  | .p3 b t => .own k r (.p4 b t v)
  | .p4 b t a => if v - 1 < b - t then .own k r (.g0 b t a) else .own k r (.p5 b a)
  | .p5 b a => .own k r (.p6 b a)
  | .p6 b a => .own k r (.p7 b a v)
  | .p7 b _ _ => .own k r (.p8 b)
  | .p8 b => .own k r (.p9 b)
  | .p9 _ => .own (k + 1) r .start
  | .g0 b t a => .own k r (.g1 b t a v)
  | .g1 _ _ _ _ => .own k r .gone
  | .gone => .own k r .gone
  | .q2 b => .own k r (.q3 b v)
  | .q3 b a => .own k r (.q4 b a)
  | .q4 b a => .own k r (.q5 b a)
  | .q5 b a => if v ≤ b - 1 then .own k r (.q6 b a v) else .own k r (.q11 b)
  | .q6 b a t => .own k r (.q7 b a t)
  | .q7 b a t => .own k r (.q8 b a t v)
  | .q8 b _ t _ => if t = b - 1 then .own k r (.q9 b t v) else .own k r (.u1 v)
  | .q9 b t w => .own k r (.q10 b t w v)
  | .q10 _ t w old => if old = t then .own k r (.u1 w) else .own k r .start
  | .q11 _ => .own k r .start
  | .u1 w => .own k r (.u2 w v)
  | .u2 _ _ => .own k r .start

def thfOp (n : Nat) : TPc → Option (Op Loc)
  | .start => match n with
    | 0 => none
    | _ + 1 => some (.load .acq (.top 0))
  | .s1 _ => some (.fence .sc)
  | .s2 _ => some (.load .acq (.bottom 0))
  | .s3 _ => some (.load .acq (.array 0))
  | .s4 _ a => some (.read (.data a))
  | .s5 _ a => some (.read (.mask a))
  | .s6 t a m => some (.load .rlx (.cell a (t.toNat &&& m.toNat)))
  | .s7 t _ => some (casTop t)
  | .u1 v => some (.read (.user v.toNat))
  | .u2 v x => some (.write (.user v.toNat) (x + 1))

def thfNext (n : Nat) (v : Int) : TPc → Pc
  | .start => .thf (n - 1) (.s1 v)
  | .s1 t => .thf n (.s2 t)
  | .s2 t => if t < v then .thf n (.s3 t) else .thf n .start
  | .s3 t => .thf n (.s4 t v)
  | .s4 t a => .thf n (.s5 t a)
  | .s5 t a => .thf n (.s6 t a v)
  | .s6 t _ _ => .thf n (.s7 t v)
  | .s7 t w => if v = t then .thf n (.u1 w) else .thf n .start
  | .u1 w => .thf n (.u2 w v)
  | .u2 _ _ => .thf n .start

/-- The automaton. -/
def pcAuto : Auto Loc Pc where
  op
    | .own k r q => ownOp k r q
    | .thf n q => thfOp n q
  next
    | .own k r q, v => ownNext k r v q
    | .thf n q, v => thfNext n v q

/-! ## The programs behind the points -/

/-- The end of `push`. -/
def tailP5 (k : Nat) (b a : Int) : P Unit := do
  arrPush a b k
  let _ ← fence .rel
  let _ ← store .rlx (.bottom 0) (b + 1)
  pure ()

def tailQ6 (b a t : Int) : P (Option Int) := do
  let item ← arrPop a (b - 1)
  if t = b - 1 then do
    let old ← rmw .sc (.top 0) fun x => if x = t then some (t + 1) else none
    let _ ← store .rlx (.bottom 0) (b - 1 + 1)
    if old = t then pure (some item) else pure none
  else pure (some item)

def tailQ8 (b t item : Int) : P (Option Int) :=
  if t = b - 1 then do
    let old ← rmw .sc (.top 0) fun x => if x = t then some (t + 1) else none
    let _ ← store .rlx (.bottom 0) (b - 1 + 1)
    if old = t then pure (some item) else pure none
  else pure (some item)

def tailG0 (k : Nat) (b t a : Int) : P Unit := do
  let tmp ← grow a ((k : Int) + 2) b t
  let _ ← store .rlx (.array 0) tmp
  tailP5 k b tmp

def tailG1 (k : Nat) (b t a c : Int) : P Unit := do
  arrNew ((k : Int) + 2) (2 * c)
  copyLoop a ((k : Int) + 2) (b - t).toNat t
  let _ ← store .rlx (.array 0) ((k : Int) + 2)
  tailP5 k b ((k : Int) + 2)

/-- After a `pop` of the owner. -/
def afterPop (k : Nat) (r : List OwnerOp) : Option Int → P Unit
  | some v => do
    use v
    owner k r
  | none => owner k r

/-- After a `steal`. -/
def afterSteal (n : Nat) : Option Int → P Unit
  | some v => do
    use v
    thief n
  | none => thief n

def ownCode (k : Nat) (r : List OwnerOp) : OPc → P Unit
  | .start => owner k r
  | .p1 => do push 0 ((k : Int) + 2) k; owner (k + 1) r
  | .p2 b => do
      let top ← load .acq (.top 0)
      let array ← load .rlx (.array 0)
      let c ← read (.cap array)
      if c - 1 < b - top then tailG0 k b top array else tailP5 k b array
      owner (k + 1) r
  | .p3 b t => do
      let array ← load .rlx (.array 0)
      let c ← read (.cap array)
      if c - 1 < b - t then tailG0 k b t array else tailP5 k b array
      owner (k + 1) r
  | .p4 b t a => do
      let c ← read (.cap a)
      if c - 1 < b - t then tailG0 k b t a else tailP5 k b a
      owner (k + 1) r
  | .p5 b a => do tailP5 k b a; owner (k + 1) r
  | .p6 b a => do
      let m ← read (.mask a)
      let _ ← store .rlx (.cell a (b.toNat &&& m.toNat)) k
      let _ ← fence .rel
      let _ ← store .rlx (.bottom 0) (b + 1)
      owner (k + 1) r
  | .p7 b a m => do
      let _ ← store .rlx (.cell a (b.toNat &&& m.toNat)) k
      let _ ← fence .rel
      let _ ← store .rlx (.bottom 0) (b + 1)
      owner (k + 1) r
  | .p8 b => do
      let _ ← fence .rel
      let _ ← store .rlx (.bottom 0) (b + 1)
      owner (k + 1) r
  | .p9 b => do
      let _ ← store .rlx (.bottom 0) (b + 1)
      owner (k + 1) r
  | .g0 b t a => do tailG0 k b t a; owner (k + 1) r
  | .g1 b t a c => do tailG1 k b t a c; owner (k + 1) r
  | .gone => pure ()
  | .q2 b => do
      let array ← load .rlx (.array 0)
      let _ ← store .rlx (.bottom 0) (b - 1)
      let _ ← fence .sc
      let top ← load .rlx (.top 0)
      let v ← if top ≤ b - 1 then tailQ6 b array top else do
        let _ ← store .rlx (.bottom 0) (b - 1 + 1)
        pure none
      afterPop k r v
  | .q3 b a => do
      let _ ← store .rlx (.bottom 0) (b - 1)
      let _ ← fence .sc
      let top ← load .rlx (.top 0)
      let v ← if top ≤ b - 1 then tailQ6 b a top else do
        let _ ← store .rlx (.bottom 0) (b - 1 + 1)
        pure none
      afterPop k r v
  | .q4 b a => do
      let _ ← fence .sc
      let top ← load .rlx (.top 0)
      let v ← if top ≤ b - 1 then tailQ6 b a top else do
        let _ ← store .rlx (.bottom 0) (b - 1 + 1)
        pure none
      afterPop k r v
  | .q5 b a => do
      let top ← load .rlx (.top 0)
      let v ← if top ≤ b - 1 then tailQ6 b a top else do
        let _ ← store .rlx (.bottom 0) (b - 1 + 1)
        pure none
      afterPop k r v
  | .q6 b a t => do
      let v ← tailQ6 b a t
      afterPop k r v
  | .q7 b a t => do
      let m ← read (.mask a)
      let item ← load .rlx (.cell a ((b - 1).toNat &&& m.toNat))
      let v ← tailQ8 b t item
      afterPop k r v
  | .q8 b a t m => do
      let item ← load .rlx (.cell a ((b - 1).toNat &&& m.toNat))
      let v ← tailQ8 b t item
      afterPop k r v
  | .q9 b t w => do
      let old ← rmw .sc (.top 0) fun x => if x = t then some (t + 1) else none
      let _ ← store .rlx (.bottom 0) (b - 1 + 1)
      let v ← if old = t then pure (some w) else pure none
      afterPop k r v
  | .q10 b t w old => do
      let _ ← store .rlx (.bottom 0) (b - 1 + 1)
      let v ← if old = t then pure (some w) else pure none
      afterPop k r v
  | .q11 b => do
      let _ ← store .rlx (.bottom 0) (b - 1 + 1)
      owner k r
  | .u1 v => do use v; owner k r
  | .u2 v x => do
      let _ ← write (.user v.toNat) (x + 1)
      owner k r

def stealTail (t : Int) (b : Int) : P (Option Int) :=
  if t < b then do
    let array ← load .acq (.array 0)
    let item ← arrPop array t
    let old ← rmw .sc (.top 0) fun x => if x = t then some (t + 1) else none
    if old = t then pure (some item) else pure none
  else pure none

def thfCode (n : Nat) : TPc → P Unit
  | .start => thief n
  | .s1 t => do
      let _ ← fence .sc
      let b ← load .acq (.bottom 0)
      let v ← stealTail t b
      afterSteal n v
  | .s2 t => do
      let b ← load .acq (.bottom 0)
      let v ← stealTail t b
      afterSteal n v
  | .s3 t => do
      let array ← load .acq (.array 0)
      let item ← arrPop array t
      let old ← rmw .sc (.top 0) fun x => if x = t then some (t + 1) else none
      let v ← if old = t then pure (some item) else pure none
      afterSteal n v
  | .s4 t a => do
      let item ← arrPop a t
      let old ← rmw .sc (.top 0) fun x => if x = t then some (t + 1) else none
      let v ← if old = t then pure (some item) else pure none
      afterSteal n v
  | .s5 t a => do
      let m ← read (.mask a)
      let item ← load .rlx (.cell a (t.toNat &&& m.toNat))
      let old ← rmw .sc (.top 0) fun x => if x = t then some (t + 1) else none
      let v ← if old = t then pure (some item) else pure none
      afterSteal n v
  | .s6 t a m => do
      let item ← load .rlx (.cell a (t.toNat &&& m.toNat))
      let old ← rmw .sc (.top 0) fun x => if x = t then some (t + 1) else none
      let v ← if old = t then pure (some item) else pure none
      afterSteal n v
  | .s7 t w => do
      let old ← rmw .sc (.top 0) fun x => if x = t then some (t + 1) else none
      let v ← if old = t then pure (some w) else pure none
      afterSteal n v
  | .u1 v => do use v; thief n
  | .u2 v x => do
      let _ ← write (.user v.toNat) (x + 1)
      thief n

def Pc.code : Pc → P Unit
  | .own k r q => ownCode k r q
  | .thf n q => thfCode n q

namespace Prog
variable {L α β γ : Type}

theorem bind_eq (x : Prog L α) (f : α → Prog L β) : (x >>= f) = bind x f := rfl
theorem pure_eq (a : α) : (pure a : Prog L α) = ret a := rfl
theorem op_bind (o : Op L) (k : Int → Prog L α) (f : α → Prog L β) : bind (op o k) f = op o fun v => bind (k v) f := rfl
theorem ret_bind (a : α) (f : α → Prog L β) : bind (ret a) f = f a := rfl
theorem call_bind (o : Op L) (f : Int → Prog L β) : bind (call o) f = op o f := rfl

theorem bind_assoc (x : Prog L α) (f : α → Prog L β) (g : β → Prog L γ) : bind (bind x f) g = bind x fun a => bind (f a) g := by
  induction x with
  | ret a => rfl
  | op o k ih => simp only [op_bind]; congr 1; funext v; exact ih v

theorem ite_bind (p : Prop) [Decidable p] (x y : Prog L α) (f : α → Prog L β) :
    bind (if p then x else y) f = if p then bind x f else bind y f := by split <;> rfl

theorem auto_op (o : Op L) (k : Int → Prog L Unit) : (auto L).op (op o k) = some o := rfl
theorem auto_next (o : Op L) (k : Int → Prog L Unit) (v : Int) : (auto L).next (op o k) v = k v := rfl

end Prog

theorem code_op (p : Pc) : (Prog.auto Loc).op p.code = pcAuto.op p := by
  cases p with
  | own k r q =>
    cases q <;> try rfl
    case start => rcases r with _ | ⟨_ | _, r⟩ <;> rfl
  | thf n q =>
    cases q <;> try rfl
    case start => cases n <;> rfl

/-- The owner is about to write the new array. -/
def Pc.growing : Pc → Bool
  | .own _ _ (.g1 ..) => true
  | _ => false

theorem own_next_code (k : Nat) (r : List OwnerOp) (q : OPc) (v : Int) {o : Op Loc} (h : ownOp k r q = some o)
    (hg : (Pc.own k r q).growing = false) : (Prog.auto Loc).next (ownCode k r q) v = (ownNext k r v q).code := by
  have hs : ∀ r', owner k (.push :: r') = .op (.write (.user k) 1) fun _ => Prog.bind (push 0 ((k : Int) + 2) k) fun _ => owner (k + 1) r' :=
    fun _ => rfl
  have hq : ∀ r', owner k (.pop :: r') = Prog.bind (pop 0) (afterPop k r') := by
    intro r'
    show Prog.bind (pop 0) _ = _
    congr 1
  cases q
  case start =>
    rcases r with _ | ⟨_ | _, r⟩
    · cases h
    · rfl
    · simp only [ownCode, ownNext, Pc.code, hq, pop, tailQ6, arrPop, load, store, rmw, fence, read, write, Prog.bind_eq, Prog.bind_assoc,
        Prog.call_bind, Prog.op_bind, Prog.ret_bind, Prog.pure_eq, Prog.ite_bind, Prog.auto_next]
  case g1 => cases hg
  all_goals
    simp only [ownCode, ownNext, Pc.code, push, grow, arrNew, use, tailG0, tailG1, tailP5, tailQ6, tailQ8, arrPop, arrPush, load, store, rmw, fence, read, write, Prog.bind_eq,
        Prog.bind_assoc, Prog.call_bind, Prog.op_bind, Prog.ret_bind, Prog.pure_eq, Prog.ite_bind, Prog.auto_next]
  case gone => cases h
  all_goals
    first
      | done
      | (split <;> simp only [ownCode, Pc.code, use, tailG0, tailP5, tailQ6, arrPop, grow, arrPush, load, store, rmw, fence, read, write, Prog.bind_eq,
          Prog.bind_assoc, Prog.call_bind, Prog.op_bind, Prog.ret_bind, Prog.pure_eq, Prog.ite_bind, Prog.auto_next, afterPop])

theorem thf_next_code (n : Nat) (q : TPc) (v : Int) {o : Op Loc} (h : thfOp n q = some o) :
    (Prog.auto Loc).next (thfCode n q) v = (thfNext n v q).code := by
  have hq : ∀ n, thief (n + 1) = Prog.bind (steal 0) (afterSteal n) := by
    intro r'
    show Prog.bind (steal 0) _ = _
    congr 1
  cases q
  case start =>
    cases n with
    | zero => cases h
    | succ n =>
      simp only [thfCode, thfNext, Pc.code, hq, steal, stealTail, arrPop, load, store, rmw, fence, read, write, Prog.bind_eq, Prog.bind_assoc,
        Prog.call_bind, Prog.op_bind, Prog.ret_bind, Prog.pure_eq, Prog.ite_bind, Prog.auto_next, Nat.add_sub_cancel]
  all_goals
    simp only [thfCode, thfNext, Pc.code, use, stealTail, arrPop, load, store, rmw, fence, read, write, Prog.bind_eq,
        Prog.bind_assoc, Prog.call_bind, Prog.op_bind, Prog.ret_bind, Prog.pure_eq, Prog.ite_bind, Prog.auto_next]
  all_goals
    first
      | done
      | (split <;> simp only [thfCode, Pc.code, use, stealTail, arrPop, load, store, rmw, fence, read, write, Prog.bind_eq,
          Prog.bind_assoc, Prog.call_bind, Prog.op_bind, Prog.ret_bind, Prog.pure_eq, Prog.ite_bind, Prog.auto_next, afterSteal])

theorem code_next (p : Pc) (v : Int) {o : Op Loc} (h : pcAuto.op p = some o) (hg : p.growing = false) :
    (Prog.auto Loc).next p.code v = (pcAuto.next p v).code := by
  cases p with
  | own k r q => exact own_next_code k r q v h hg
  | thf n q => exact thf_next_code n q v h

end CoEcs.Weak
