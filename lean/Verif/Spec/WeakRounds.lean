import Verif.Spec.WeakTurns

/-!
# Rounds of parallel work

A main thread alternates between work of its own and work it lets `N` workers do at the same time.  It tells them to start with a
release store that they acquire, and they tell it with a release operation that they are ready, which it acquires.
-/

namespace CoEcs.Weak
variable {L : Type}

/-- What a program may read, and what it may read and write. -/
structure Foot (L : Type) where
  rd : L → Prop
  wr : L → Prop

def Foot.has (F : Foot L) (l : L) : Prop := F.rd l ∨ F.wr l

def Op.Within (F : Foot L) : Op L → Prop
  | .load _ l => F.has l
  | .store _ l _ => F.wr l
  | .rmw _ l _ => F.wr l
  | .fence _ => True
  | .read l => F.has l
  | .write l _ => F.wr l

/-- The program keeps to the objects. -/
def Prog.Within (F : Foot L) {α : Type} : Prog L α → Prop
  | .ret _ => True
  | .op o k => o.Within F ∧ ∀ v, (k v).Within F

/-- Everything but two objects. -/
def Foot.but (a b : L) : Foot L := ⟨fun l => l ≠ a ∧ l ≠ b, fun l => l ≠ a ∧ l ≠ b⟩

/-- What the main thread does first, and what the workers do then. -/
structure Round (L : Type) where
  main : Prog L Unit
  work : Nat → Prog L Unit

/-- The workers do not write what another one uses, and nobody uses the two objects used for synchronisation. -/
def Round.Separate (N : Nat) (go dn : L) (R : Round L) : Prop :=
  R.main.Within (Foot.but go dn) ∧
  ∃ F : Nat → Foot L, (∀ t, t < N → (R.work t).Within (F t)) ∧ (∀ t, t < N → ∀ l, (F t).has l → l ≠ go ∧ l ≠ dn) ∧
    ∀ t t', t < N → t' < N → t ≠ t' → ∀ l, (F t).wr l → ¬ (F t').has l

/-- Look up to `f` times for a value, then go on with `q`. -/
def await (ord : Order) (l : L) (v : Int) (q : Prog L Unit) : Nat → Prog L Unit
  | 0 => .ret ()
  | f + 1 => .op (.load ord l) fun x => if x = v then q else await ord l v q f

/-- The main thread, from round number `r` on. -/
def leader (ordL ordS : Order) (go dn : L) (N f : Nat) : Nat → List (Round L) → Prog L Unit
  | r, [] => .op (.store ordS go ((r + 1 : Nat) : Int)) fun _ => .ret ()
  | r, R :: Rs => R.main.bind fun _ => .op (.store ordS go ((r + 1 : Nat) : Int)) fun _ =>
    await ordL dn ((N * (r + 1) : Nat) : Int) (leader ordL ordS go dn N f (r + 1) Rs) f

/-- Worker `t`, from round number `r` on. -/
def follower (ordL ordS : Order) (go dn : L) (f t : Nat) : Nat → List (Round L) → Prog L Unit
  | _, [] => .ret ()
  | r, R :: Rs => await ordL go ((r + 1 : Nat) : Int) ((R.work t).bind fun _ => .op (.rmw ordS dn fun x => some (x + 1)) fun _ =>
      follower ordL ordS go dn f t (r + 1) Rs) f

/-- Thread 0 leads, threads 1 to `N` follow. -/
def roundThreads (ordL ordS : Order) (go dn : L) (N f : Nat) (Rs : List (Round L)) : Nat → Prog L Unit
  | 0 => leader ordL ordS go dn N f 0 Rs
  | t + 1 => if t < N then follower ordL ordS go dn f t 0 Rs else .ret ()

/-- The same work without threads: the workers one after the other. -/
def seqRounds [DecidableEq L] (N : Nat) : List (Round L) → Store L → Store L
  | [], s => s
  | R :: Rs, s => seqRounds N Rs (seqAll ((List.range N).map R.work) (R.main.seq s).2)

/-- The same values in these objects. -/
def Store.On (P : L → Prop) (s s' : Store L) : Prop := ∀ l, P l → s.atom l = s'.atom l ∧ s.cell l = s'.cell l

end CoEcs.Weak
