import Verif.Model.WeakHandles

/-!
# Taking turns

What a program means when nobody else is there, and threads that take turns.
-/

namespace CoEcs.Weak
variable {L : Type}

/-- Plain memory: one value per object. -/
structure Store (L : Type) where
  atom : L → Int
  cell : L → Int

section
variable [DecidableEq L]

def Store.setAtom (s : Store L) (l : L) (v : Int) : Store L := { s with atom := fun x => if x = l then v else s.atom x }
def Store.setCell (s : Store L) (l : L) (v : Int) : Store L := { s with cell := fun x => if x = l then v else s.cell x }

/-- An operation on plain memory. -/
def Op.seq : Op L → Store L → Int × Store L
  | .load _ l, s => (s.atom l, s)
  | .store _ l v, s => (0, s.setAtom l v)
  | .rmw _ l f, s =>
    match f (s.atom l) with
    | none => (s.atom l, s)
    | some v => (s.atom l, s.setAtom l v)
  | .fence _, s => (0, s)
  | .read l, s => (s.cell l, s)
  | .write l v, s => (0, s.setCell l v)

/-- A program on plain memory. -/
def Prog.seq {α : Type} : Prog L α → Store L → α × Store L
  | .ret a, s => (a, s)
  | .op o k, s => (k (o.seq s).1).seq (o.seq s).2

/-- One program after the other. -/
def seqAll : List (Prog L Unit) → Store L → Store L
  | [], s => s
  | p :: ps, s => seqAll ps (p.seq s).2
end

/-- The object an operation is about. -/
def Op.loc : Op L → Option L
  | .load _ l => some l
  | .store _ l _ => some l
  | .rmw _ l _ => some l
  | .fence _ => none
  | .read l => some l
  | .write l _ => some l

/-- The program never uses the object. -/
def Prog.Avoids (l : L) {α : Type} : Prog L α → Prop
  | .ret _ => True
  | .op o k => o.loc ≠ some l ∧ ∀ v, (k v).Avoids l

/-- Run `p` and pass the turn on, to thread `t + 1`. -/
def handing (ord : Order) (turn : L) (t : Nat) (p : Prog L Unit) : Prog L Unit :=
  p.bind fun _ => .op (.store ord turn ((t + 1 : Nat) : Int)) fun _ => .ret ()

/-- Thread `t` looks up to `f` times whether it is its turn. -/
def taker (ordL ordS : Order) (turn : L) (t : Nat) (p : Prog L Unit) : Nat → Prog L Unit
  | 0 => .ret ()
  | f + 1 => .op (.load ordL turn) fun v =>
    if v = (t : Int) then handing ordS turn t p else taker ordL ordS turn t p f

/-- Threads that take turns, in the order of the list. -/
def turnThreads (ordL ordS : Order) (turn : L) (f : Nat) (ps : List (Prog L Unit)) (t : Nat) : Prog L Unit :=
  match ps[t]? with
  | some p => taker ordL ordS turn t p f
  | none => .ret ()

/-- The current values. -/
def Mem.vals (m : Mem L) : Store L := ⟨fun l => match (m.msgs l).getLast? with | some x => x.val | none => 0, m.cell⟩

end CoEcs.Weak
