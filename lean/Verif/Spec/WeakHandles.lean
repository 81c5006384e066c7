import Verif.Model.WeakHandles

/-!
# Threads that reserve handles

Threads 1 to `N` reserve handles, note them and then say that they are done, with a release operation.  Thread 0 looks with an
acquire operation whether all are done, and then flushes the pool.
-/

namespace CoEcs.Weak

def noteId (t k : Nat) : Loc := .pool (.noteId t k)
def noteGen (t k : Nat) : Loc := .pool (.noteGen t k)
def signal : Loc := .pool .signal
def synced : Loc := .pool .synced

/-- Thread `t` has `k` handles and reserves more of them. -/
def reserver (t : Nat) : Nat → Nat → P Unit
  | _, 0 => do
    let _ ← rmw .rel signal fun x => some (x + 1)
    pure ()
  | k, m + 1 => do
    let h ← reserve
    let _ ← write (noteId t k) h.1
    let _ ← write (noteGen t k) h.2
    reserver t (k + 1) m

/-- Thread 0 looks up to `f` times. -/
def syncer (N : Nat) : Nat → P Unit
  | 0 => pure ()
  | f + 1 => do
    let d ← load .acq signal
    if d = (N : Int) then do
      flush
      let _ ← write synced 1
      pure ()
    else syncer N f

/-- Thread `t` reserves `n t` handles. -/
def reserveThreads (N f : Nat) (n : Nat → Nat) (t : Nat) : P Unit :=
  if t = 0 then syncer N f else if t ≤ N then reserver t 0 (n t) else pure ()

def reserveStart (N f : Nat) (n : Nat → Nat) (F G : List Nat) : St Loc (Prog Loc Unit) :=
  .init (pooled 2 F G) (reserveThreads N f n)

/-- The pool is in order: free ids are different ones of those that exist. -/
structure PoolOk (F G : List Nat) : Prop where
  bound : ∀ f ∈ F, f < G.length
  nodup : F.Nodup

/-- Thread `t` has got and noted its handle number `k`. -/
def Noted (m : Mem Loc) (t k : Nat) : Prop := m.accs (noteGen t k) ≠ []

/-- The handle it noted. -/
def noted (m : Mem Loc) (t k : Nat) : Int × Int := (m.cell (noteId t k), m.cell (noteGen t k))

/-- `alive` of the handle in this memory. -/
def AliveIn (m : Mem Loc) (h : Int × Int) : Prop := 0 ≤ h.1 ∧ h.1 < m.cell gens ∧ m.cell (gen h.1.toNat) = h.2

/-- The ids still free. -/
def FreeIn (m : Mem Loc) (i : Int) : Prop := ∃ k : Nat, (k : Int) < m.cell frees ∧ m.cell (freeId k) = i

/-- The last value of an atomic object. -/
def lastOf (m : Mem Loc) (l : Loc) : Option Int := (m.msgs l).getLast?.map Msg.val

end CoEcs.Weak
