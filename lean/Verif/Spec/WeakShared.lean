import Verif.Spec.WeakRounds

/-!
# Rounds of parallel work with shared counters

The workers of a round may share counters: atomic objects that they change with operations that read and write at once and
always write, such as `fetch_add` and `fetch_sub`, whatever memory order these ask for.  What a round does then depends on the order of the
operations; `Mix` are the executions of the workers on plain memory, operation by operation, in any order.
-/

namespace CoEcs.Weak
variable {L : Type}

/-- The operation keeps to the objects, or changes a counter. -/
def Op.Keeps (A : L → Prop) (F : Foot L) (o : Op L) : Prop :=
  o.Within F ∨ ∃ ord l f, o = .rmw ord l f ∧ A l ∧ ∀ v, f v ≠ none

/-- All operations of the program do. -/
def Prog.Keeps (A : L → Prop) (F : Foot L) {α : Type} : Prog L α → Prop
  | .ret _ => True
  | .op o k => o.Keeps A F ∧ ∀ v, (k v).Keeps A F

/-- The workers do not write what another one uses, but for the counters; nobody uses the two objects used for synchronisation. -/
def Round.Sharing (N : Nat) (go dn : L) (A : L → Prop) (R : Round L) : Prop :=
  R.main.Within (Foot.but go dn) ∧
  ∃ F : Nat → Foot L, (∀ t, t < N → (R.work t).Keeps A (F t)) ∧ (∀ t, t < N → ∀ l, (F t).has l → l ≠ go ∧ l ≠ dn ∧ ¬ A l) ∧
    ∀ t t', t < N → t' < N → t ≠ t' → ∀ l, (F t).wr l → ¬ (F t').has l

/-- Programs `0` to `N - 1` on plain memory, an operation at a time, in any order. -/
inductive Mix [DecidableEq L] (N : Nat) : (Nat → Prog L Unit) → Store L → Store L → Prop
  | done {w : Nat → Prog L Unit} {s : Store L} : (∀ t, t < N → w t = .ret ()) → Mix N w s s
  | step {w : Nat → Prog L Unit} {s s' : Store L} (t : Nat) {o : Op L} {k : Int → Prog L Unit} : t < N → w t = .op o k →
      Mix N (fun i => if i = t then k (o.seq s).1 else w i) (o.seq s).2 s' → Mix N w s s'

/-- Rounds on plain memory. -/
inductive MixRounds [DecidableEq L] (N : Nat) : List (Round L) → Store L → Store L → Prop
  | nil {s : Store L} : MixRounds N [] s s
  | cons {R : Round L} {Rs : List (Round L)} {s s1 s2 : Store L} : Mix N R.work (R.main.seq s).2 s1 → MixRounds N Rs s1 s2 →
      MixRounds N (R :: Rs) s s2

end CoEcs.Weak
