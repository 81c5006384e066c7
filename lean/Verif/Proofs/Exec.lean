import Verif.Proofs.History

/-!
# Running concrete histories
-/

namespace CoEcs
open Spec
variable {V : Type}

instance (s : Sys V) (op : SysOp V) : Decidable (s.Allowed op) := by
  cases op with
  | on i op =>
    cases op with
    | clone h ph => cases ph <;> (unfold Sys.Allowed; infer_instance)
    | _ => unfold Sys.Allowed; infer_instance
  | copy i h j ph => cases ph <;> (unfold Sys.Allowed; infer_instance)
  | move i h j ph => cases ph <;> (unfold Sys.Allowed; infer_instance)

/-- Run allowed operations from a given state. -/
def execFrom (ty : Types) : Sys V → Spec.World V → List (SysOp V) → Option (Sys V × Spec.World V)
  | s, W, [] => some (s, W)
  | s, W, op :: ops =>
    if s.Allowed op then
      match s.step ty op with
      | none => none
      | some (s', out) => execFrom ty s' (W.step op out) ops
    else none

/-- Run allowed operations from empty registries. -/
def exec (ty : Types) (ops : List (SysOp V)) : Option (Sys V × Spec.World V) := execFrom ty Sys.init (fun _ _ => none) ops

theorem execFrom_reach {ty : Types} {s s' : Sys V} {W W' : Spec.World V} (ops : List (SysOp V)) (h : Reachable ty s W)
    (he : execFrom ty s W ops = some (s', W')) : Reachable ty s' W' := by
  induction ops generalizing s W with
  | nil => simp [execFrom] at he; obtain ⟨rfl, rfl⟩ := he; exact h
  | cons op ops ih =>
    unfold execFrom at he
    split at he
    · rename_i ha
      cases hs : s.step ty op with
      | none => rw [hs] at he; cases he
      | some x =>
        obtain ⟨s1, out⟩ := x
        rw [hs] at he
        exact ih (.step h ha trivial hs) he
    · cases he

theorem exec_reach {ty : Types} {s : Sys V} {W : Spec.World V} (ops : List (SysOp V)) (he : exec ty ops = some (s, W)) :
    Reachable ty s W := execFrom_reach ops .init he

theorem exec_get {ty : Types} (ops : List (SysOp V)) (h : (exec ty ops).isSome = true) :
    Reachable ty ((exec ty ops).get h).1 ((exec ty ops).get h).2 :=
  exec_reach ops (Option.some_get h).symm

end CoEcs
