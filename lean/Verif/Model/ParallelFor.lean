import Verif.Model.HashTable

/-!
# Model of `parallel_for`
(/repo/include/co_ecs/thread_pool/parallel_for.hpp)

A range is a list.  The submitted tasks run in any interleaving; what is observed is the sequence of elements `func`
is called with.
-/

namespace CoEcs

variable {α : Type}

/-- The loop that prepares batches, parallel_for.hpp:32-36: `i` counts up to `n`, `l` is the range from iterator `b`
to the end.  `std::next` beyond the end is undefined behaviour. -/
def parBatches (n size : Nat) : Nat → List α → Run (List (List α))
  | 0, _ => .ok []
  | k + 1, l =>
    -- i = n - (k + 1); `i < num_workers - 1` iff `k > 0`
    if k > 0 then
      if size ≤ l.length then (parBatches n size k (l.drop size)).bind fun bs => .ok (l.take size :: bs) else .ub
    else .ok [l]

/-- What `parallel_for` does: run in the calling thread, or submit tasks (parallel_for.hpp:13-52).  Division by zero
workers is undefined behaviour. -/
inductive ParPlan (α : Type) where
  | inline (l : List α)
  | tasks (bs : List (List α))

def parallelFor (workers : Nat) (l : List α) : Run (ParPlan α) :=
  if workers = 0 then .ub
  else if l.length / workers < 1 then .ok (.inline l)
  else (parBatches workers (l.length / workers) workers l).bind fun bs => .ok (.tasks bs)

/-- Tasks, each with the elements still to be visited, and the calls so far. -/
structure ParState (α : Type) where
  tasks : List (List α)
  log : List α

/-- Some task visits its next element. -/
inductive ParStep : ParState α → ParState α → Prop
  | visit (pre post : List (List α)) (x : α) (l : List α) (log : List α) :
      ParStep ⟨pre ++ (x :: l) :: post, log⟩ ⟨pre ++ l :: post, log ++ [x]⟩

inductive ParSteps : ParState α → ParState α → Prop
  | refl (s) : ParSteps s s
  | step {s t u} : ParStep s t → ParSteps t u → ParSteps s u

/-- A complete execution of the plan calls `func` with the elements of `log`, in this order.  `wait` returns when all
tasks have returned. -/
inductive ParPlan.Executes : ParPlan α → List α → Prop
  | inline (l) : (ParPlan.inline l).Executes l
  | tasks {bs log} {ts : List (List α)} : ParSteps ⟨bs, []⟩ ⟨ts, log⟩ → (∀ t ∈ ts, t = []) → (ParPlan.tasks bs).Executes log

/-- `view::par_each`, view.hpp:132-148: `parallel_for` over the chunks, and each chunk element by element.  The elements of
a batch of chunks are visited one after another by the task. -/
def parEach (workers : Nat) (chunks : List (List α)) : Run (ParPlan α) :=
  (parallelFor workers chunks).bind fun p => .ok (match p with
    | .inline l => .inline l.flatten
    | .tasks bs => .tasks (bs.map List.flatten))

end CoEcs
