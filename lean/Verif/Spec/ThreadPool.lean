import Verif.Model.ThreadPool

/-! # Programs that use a thread pool, and their executions -/

namespace CoEcs

/-- No function throws. -/
def Prog.NoThrow : Prog → Prop
  | .ret => True
  | .throw => False
  | .submit _ c k => c.NoThrow ∧ k.NoThrow
  | .wait _ k => k.NoThrow

/-- How a function got to know a task: from somewhere else, by submitting it without a parent, or by submitting
it with a parent. -/
inductive Kind where
  | other
  | root
  | child
  deriving DecidableEq, Repr

/-- Fork and join: every function waits only for tasks that it submitted itself, and a parent it gives is a task that
it submitted itself without a parent.  No function throws. -/
def Prog.FJ : List Kind → Prog → Prop
  | _, .ret => True
  | _, .throw => False
  | Γ, .submit none c k => c.FJ (Γ.map fun _ => .other) ∧ k.FJ (.root :: Γ)
  | Γ, .submit (some v) c k => Γ[v]? = some .root ∧ c.FJ (Γ.map fun _ => .other) ∧ k.FJ (.child :: Γ)
  | Γ, .wait v k => (Γ[v]? = some .root ∨ Γ[v]? = some .child) ∧ k.FJ Γ

/-- Fork and join, and everything that was forked is joined: `ps` are the variables of the tasks without parent that a
function has submitted and not yet waited for; a parent is one of them, and there are none left when it
returns. -/
def Prog.Joined : List Nat → Prog → Prop
  | ps, .ret => ps = []
  | _, .throw => False
  | ps, .submit none c k => c.Joined [] ∧ k.Joined (0 :: ps.map (· + 1))
  | ps, .submit (some v) c k => v ∈ ps ∧ c.Joined [] ∧ k.Joined (ps.map (· + 1))
  | ps, .wait v k => v ∈ ps ∧ k.Joined (ps.erase v)

/-- The rest of `parallel_for` or of `execute_batch` after the first batch was submitted as variable `v`. -/
def Prog.parRest : List Prog → Nat → Prog → Prog
  | [], v, k => .wait v k
  | b :: bs, v, k => .submit (some v) b (Prog.parRest bs (v + 1) k)

/-- `parallel_for` over batches `bs` (parallel_for.hpp:39-50), or `execute_batch` without main thread systems
(stage.hpp:163-184), followed by `k`. -/
def Prog.par : List Prog → Prog → Prog
  | [], k => k
  | b :: bs, k => .submit none b (Prog.parRest bs 0 k)

/-- `parallel_for` and stages (parallel_for.hpp:39-50, stage.hpp:163-184), one after the other and in any nesting: a function has at most one task without parent that it has not
yet waited for (its variable is given), and all its other tasks are children of that one. -/
def Prog.One : Option Nat → Prog → Prop
  | o, .ret => o = none
  | _, .throw => False
  | o, .submit none c k => o = none ∧ c.One none ∧ k.One (some 0)
  | o, .submit (some v) c k => o = some v ∧ c.One none ∧ k.One (some (v + 1))
  | o, .wait v k => o = some v ∧ k.One none

/-- How deep the functions of a program are nested: 0 if it submits nothing, one more than the deepest of what it submits otherwise. -/
def Prog.depth : Prog → Nat
  | .ret => 0
  | .throw => 0
  | .submit _ c k => max (c.depth + 1) k.depth
  | .wait _ k => k.depth

/-- No function waits. -/
def Prog.NoWait : Prog → Prop
  | .ret => True
  | .throw => True
  | .submit _ c k => c.NoWait ∧ k.NoWait
  | .wait _ _ => False

/-- The number of tasks submitted with parent `j`. -/
def PoolState.children (s : PoolState) (j : Nat) : Nat := s.tasks.countP (fun q => q.parent == some j)

/-- The function of task `t` has returned. -/
def PoolState.Returned (s : PoolState) (t : Nat) : Prop :=
  ∃ q, s.tasks[t]? = some q ∧ q.runs = 1 ∧
    (q.st = .finished ∨ ∃ i f, f ∈ (s.thr i).stack ∧ f.task = some t ∧ ∃ j, f.pc = .sub j ∨ f.pc = .check j)

/-- An infinite execution of a pool with `n` workers that is used by `p`: at time `k`, worker `who k` is scheduled, with
choices `rnd k` and `acq k`.  A worker that cannot proceed does nothing. -/
structure PoolExec (n : Nat) (p : Prog) where
  state : Nat → PoolState
  who : Nat → Nat
  rnd : Nat → Nat
  acq : Nat → Bool
  init : state 0 = PoolState.init p
  next : ∀ k, (state k).step n (who k) (rnd k) (acq k) = some (state (k + 1)) ∨
    (state k).step n (who k) (rnd k) (acq k) = none ∧ state (k + 1) = state k

/-- Every worker is scheduled again and again. -/
def PoolExec.Fair {n : Nat} {p : Prog} (e : PoolExec n p) : Prop := ∀ i, i < n → ∀ k, ∃ m, k ≤ m ∧ e.who m = i

end CoEcs
