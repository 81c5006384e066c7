import Verif.Props.PoolThreads

/-!
# C73 after every history: what a pool that could not be constructed leaves behind is final
-/

namespace CoEcs.Props
open PoolWorld

/-- What a program can reach from `w`. -/
inductive WorldFrom (w : PoolWorld) : PoolWorld → Prop
  | refl : WorldFrom w w
  | ok {u u' : PoolWorld} (op : Op) : WorldFrom w u → op.Possible u → u.apply op = .ok u' → WorldFrom w u'
  | threw {u u' : PoolWorld} (op : Op) : WorldFrom w u → op.Possible u → u.apply op = .threw u' → WorldFrom w u'

/-- **C73, violated after every history**: whenever no pool lives and the first background thread of a new one cannot be
started (or the storage of the workers cannot be allocated), the constructor throws and leaves `_instance` pointing to an
object that was not constructed.  From then on nothing the program does with pools has any effect: every construction
throws, `get` returns the object that was not constructed, no thread is served, and destroying anything is undefined. -/
theorem C73_forever_violated {m : Nat} {w : PoolWorld} (hw : WorldReach m w) (hi : w.inst = none) (t n k : Nat) (hk : k < 2) :
    ∃ w', w.construct t n (some k) = .threw w' ∧ w'.inst = some w.pools.length ∧
      (∀ o, w'.pools[w.pools.length]? = some o → o.alive = false) ∧
      ∀ u, WorldFrom w' u → u = w' ∧ (∀ t n f, u.construct t n f = .threw w') ∧ (∀ t n f, u.get t n f = .ok w') ∧
        (∀ id, u.destroy id = .ub) ∧ ∀ t, u.serve t = none := by
  have hc : w.construct t n (some k) = .threw ⟨some w.pools.length, w.pools ++ [⟨t, [], false⟩],
      fun s => if s = t then some (w.pools.length, 0) else w.cur s, w.threads⟩ := by
    simp only [PoolWorld.construct, hi, if_pos hk]
  have hdead : ∀ (id : Nat) (o : PoolObj), (w.pools ++ [⟨t, [], false⟩])[id]? = some o → o.alive = false := by
    intro id o ho
    rcases List.mem_append.1 (List.mem_of_getElem? ho) with h | h
    · obtain ⟨j, hj⟩ := List.getElem?_of_mem h
      cases ha : o.alive with
      | false => rfl
      | true => have := hw.inv.one j o hj ha; rw [hi] at this; cases this
    · rw [List.mem_singleton] at h; subst h; rfl
  refine ⟨_, hc, rfl, fun o ho => hdead _ o ho, ?_⟩
  intro u hu
  have hub : ∀ id, (⟨some w.pools.length, w.pools ++ [⟨t, [], false⟩],
      fun s => if s = t then some (w.pools.length, 0) else w.cur s, w.threads⟩ : PoolWorld).destroy id = .ub := by
    intro id
    unfold PoolWorld.destroy
    split
    · rename_i o ho
      rw [hdead id o ho]; rfl
    · rfl
  have key : u = ⟨some w.pools.length, w.pools ++ [⟨t, [], false⟩],
      fun s => if s = t then some (w.pools.length, 0) else w.cur s, w.threads⟩ := by
    induction hu with
    | refl => rfl
    | ok op _ _ h ih =>
      subst ih
      cases op with
      | construct t' n' f => cases h
      | destroy id => rw [PoolWorld.apply, hub id] at h; cases h
      | get t' n' f => cases h; rfl
    | threw op _ _ h ih =>
      subst ih
      cases op with
      | construct t' n' f => cases h; rfl
      | destroy id => rw [PoolWorld.apply, hub id] at h; cases h
      | get t' n' f => cases h
  subst key
  refine ⟨rfl, fun _ _ _ => rfl, fun _ _ _ => rfl, hub, ?_⟩
  intro t'
  unfold PoolWorld.serve
  split
  · rfl
  · split
    · rename_i o ho
      rw [hdead _ o ho]; rfl
    · rfl

/-- Non-vacuous: after a pool was constructed, used and destroyed. -/
example : ∃ w, WorldReach 2 w ∧ w.inst = none ∧ w.pools.length = 1 ∧ ∃ w', w.construct 1 4 (some 1) = .threw w' :=
  ⟨_, .ok (.destroy 0) (.ok (.construct 0 4 none) .init (by unfold Op.Possible; decide) rfl) trivial rfl, rfl, rfl, _, rfl⟩

end CoEcs.Props
