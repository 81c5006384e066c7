import Verif.Model.HandlePool

/-!
# What a user may expect of handles, in terms of the observed calls only

The definitions below look only at the sequence of calls and returned handles.
-/

namespace CoEcs.Spec

/-- `IssuedLive evs h`: after the calls `evs` (oldest first) handle `h` has been handed out by
`create` or `reserve` and has not been recycled since it was last handed out. -/
def IssuedLive (evs : List PoolEvent) (h : Handle) : Prop :=
  ∃ pre issue post, evs = pre ++ issue :: post ∧
    (issue = .created h ∨ issue = .reserved h) ∧ PoolEvent.recycled h ∉ post

/-- Number of reservations not yet followed by a flush. -/
def pending : List PoolEvent → Nat :=
  List.foldl (fun n ev => match ev with
    | .reserved _ => n + 1
    | .flushed => 0
    | _ => n) 0

/-- The protocol under which the pool is meant to be used: while reservations are pending, only
`reserve` and `flush` are called; and only handles that were handed out are recycled (recycling a
handle for which `alive` answers false is also fine). -/
def SyncedOp (p : Pool) (evs : List PoolEvent) : PoolOp → Prop
  | .create => pending evs = 0
  | .recycle h => pending evs = 0 ∧ (IssuedLive evs h ∨ p.alive h = false)
  | .reserve => True
  | .flush => True

/-- Histories: pools and observed events reachable from the empty pool by protocol-respecting
calls, as long as the 32-bit id counter has not been exhausted. -/
inductive SyncedHistory : Pool → List PoolEvent → Prop
  | init : SyncedHistory Pool.empty []
  | step {p p' : Pool} {evs : List PoolEvent} {op : PoolOp} {ev : PoolEvent} :
      SyncedHistory p evs → SyncedOp p evs op → p.nextId + 1 < U32 →
      p.step op = some (p', ev) → SyncedHistory p' (evs ++ [ev])

end CoEcs.Spec
