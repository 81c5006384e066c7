import Verif.Proofs.DestructorsNest
import Verif.Props.Registry

/-!
# Property of destructors that call the registry (C98)
-/

namespace CoEcs.Props
open CoEcs Spec

variable {V : Type} {ty : Types} {hook : Released V} {s s' : Sys V} {W W' : Spec.World V}

/-- **C98** (partial; missing: destructors that use a table of entities that is in use, and values dropped by
`remove`, see below): destructors may destroy, create and change entities of other tables, nested to any
depth.  The calls then have the effect of the plain calls, where those of the destructors come before the call
that releases the value, and the registry answers accordingly. -/
theorem C98_destructors_partial (hr : Reachable ty s W) {i d : Nat} {ks : List (RegOp V)} (hn : Nest ty hook i d [] s W ks s' W') :
    (∀ n, d ≤ n → runWith ty hook n ks (s.reg i) = .ok (s'.reg i)) ∧ Reachable ty s' W' := by
  refine ⟨fun n hd => ?_, nest_reach hn hr⟩
  have h := runs ty hook i d [] s s' W W' ks hn hr.inv n hd (fun _ => none) [] (fun j x hx => by cases hx) (fun j x hx => by cases hx)
    (fun u hu => by cases hu)
  rw [over_none, over_none] at h
  exact h

/-- **C98**: entities whose table is in use keep all their components while destructors run. -/
theorem C98_in_use (hr : Reachable ty s W) {i d : Nat} {busy : List (Nat → Bool)} {ks : List (RegOp V)}
    (hn : Nest ty hook i d busy s W ks s' W') {h : Handle} {x : Nat → Option V} (hw : W i h = some x) (hb : kinds x ∈ busy) :
    W' i h = some x ∧ (s'.reg i).location h = (s.reg i).location h := by
  obtain ⟨I', K⟩ := nest_inv hn hr.inv
  obtain ⟨l, ai, a, c, row, t⟩ := (hr.inv i).rep.at_ hw
  obtain ⟨h1, h2⟩ := t.later (I' i).rep (K ai a t.get (by rw [t.kinds]; exact hb))
  exact ⟨h1, by rw [h2.loc, t.loc]⟩

/-- **C98**: when destructors call nothing, a call has exactly the effect it has in the model without them. -/
theorem C98_no_calls (hk : ∀ c v, hook c v = []) (hr : Reachable ty s W) {i : Nat} {op : RegOp V} (ha : s.Allowed (.on i op)) {out : Out}
    (hs : s.step ty (.on i op) = some (s', out)) : ∀ n, 1 ≤ n → runWith ty hook n [op] (s.reg i) = .ok (s'.reg i) := by
  have hn : ∀ op : RegOp V, releases hook (s.reg i) op = [] := by
    intro op
    cases op <;> simp only [releases] <;> split <;> simp [hk]
  refine (C98_destructors_partial hr (d := 1) (ks := [op]) (hook := hook) (i := i) (W' := W.step (.on i op) out) ?_).1
  refine .cons (fun T _ hT => by cases hT) (fun h c _ => hn op) ?_ ha hs .nil
  rw [hn op]
  exact .nil

/-! ### A destructor that destroys and creates entities of other tables -/

/-- Value 100 owns entity ⟨1,0⟩ and leaves an entity behind, and so does 101. -/
def boss : Released Nat := fun _ v =>
  if v = 100 then [.destroy ⟨1, 0⟩, .create [(1, 77)]] else if v = 101 then [.create [(2, 9)]] else []

def ownerOps : List (SysOp Nat) :=
  [.on 0 (.create [(0, 100)]), .on 0 (.create [(0, 101), (1, 1)]), .on 0 (.create [(0, 5)]), .on 0 (.create [(0, 6)])]

theorem owner_isSome : (exec smallTy ownerOps).isSome = true := by decide +kernel
def owner0 : Sys Nat := ((exec smallTy ownerOps).get owner_isSome).1
def ownerW0 : Spec.World Nat := ((exec smallTy ownerOps).get owner_isSome).2
theorem owner_reachable : Reachable smallTy owner0 ownerW0 := exec_get ownerOps owner_isSome

theorem owner1_isSome : (owner0.step smallTy (.on 0 (.create [(2, 9)]))).isSome = true := by decide +kernel
def owner1 : Sys Nat := ((owner0.step smallTy (.on 0 (.create [(2, 9)]))).get owner1_isSome).1
def ownerW1 : Spec.World Nat := ownerW0.step (.on 0 (.create [(2, 9)])) ((owner0.step smallTy (.on 0 (.create [(2, 9)]))).get owner1_isSome).2
theorem owner2_isSome : (owner1.step smallTy (.on 0 (.destroy ⟨1, 0⟩))).isSome = true := by decide +kernel
def owner2 : Sys Nat := ((owner1.step smallTy (.on 0 (.destroy ⟨1, 0⟩))).get owner2_isSome).1
def ownerW2 : Spec.World Nat := ownerW1.step (.on 0 (.destroy ⟨1, 0⟩)) ((owner1.step smallTy (.on 0 (.destroy ⟨1, 0⟩))).get owner2_isSome).2
theorem owner3_isSome : (owner2.step smallTy (.on 0 (.create [(1, 77)]))).isSome = true := by decide +kernel
def owner3 : Sys Nat := ((owner2.step smallTy (.on 0 (.create [(1, 77)]))).get owner3_isSome).1
def ownerW3 : Spec.World Nat := ownerW2.step (.on 0 (.create [(1, 77)])) ((owner2.step smallTy (.on 0 (.create [(1, 77)]))).get owner3_isSome).2
theorem owner4_isSome : (owner3.step smallTy (.on 0 (.destroy ⟨0, 0⟩))).isSome = true := by decide +kernel
def owner4 : Sys Nat := ((owner3.step smallTy (.on 0 (.destroy ⟨0, 0⟩))).get owner4_isSome).1

theorem get_pair {σ τ : Type} {o : Option (σ × τ)} (h : o.isSome = true) : o = some ((o.get h).1, (o.get h).2) := by
  cases o with
  | none => cases h
  | some x => rfl

/-- The calls of the destructors are within the protocol: they use the tables {0,1}, {1} and {2} while {0}, and
{0} and {0,1}, are in use. -/
theorem owner_inner : Nest smallTy boss 0 2 ([kinds (World.listed [(0, 100)])] ++ []) owner0 ownerW0
    [.destroy ⟨1, 0⟩, .create [(1, 77)]] owner3 ownerW3 := by
  have ne : ∀ {f g : Nat → Bool} (c : Nat), f c ≠ g c → f ≠ g := fun c h e => h (by rw [e])
  have v1 : (owner0.reg 0).visit ⟨1, 0⟩ = .ok [(0, 101), (1, 1)] := by decide +kernel
  have r1 : releases boss (owner0.reg 0) (.destroy ⟨1, 0⟩) = [.create [(2, 9)]] := by
    simp only [releases, v1]; rfl
  have t1 : tables (ownerW0 0) (.destroy ⟨1, 0⟩) = [kinds (World.listed [(0, 101), (1, 1)])] := rfl
  have t2 : ∀ (W : Handle → Option (Nat → Option Nat)) args, tables W (.create args) = [kinds (World.listed args)] := fun _ _ => rfl
  refine .cons (W1 := ownerW1) (s1 := owner1) ?_ (fun h c e => by cases e) ?_ (by decide +kernel) (get_pair owner2_isSome) ?_
  · rw [t1]
    simp only [List.mem_cons, List.append_nil, List.not_mem_nil, or_false, forall_eq]
    exact ne 1 (by decide)
  · rw [r1, t1]
    refine .cons ?_ (fun h c e => by cases e) .nil (by decide +kernel) (get_pair owner1_isSome) .nil
    rw [t2]
    simp only [List.mem_cons, List.cons_append, List.nil_append, List.not_mem_nil, or_false, forall_eq, not_or]
    exact ⟨ne 2 (by decide), ne 2 (by decide)⟩
  · refine .cons ?_ (fun h c e => by cases e) .nil (by decide +kernel) (get_pair owner3_isSome) .nil
    rw [t2]
    simp only [List.mem_cons, List.append_nil, List.not_mem_nil, or_false, forall_eq]
    exact ne 1 (by decide)

theorem owner_nest : ∃ W', Nest smallTy boss 0 3 [] owner0 ownerW0 [.destroy ⟨0, 0⟩] owner4 W' := by
  have v0 : (owner0.reg 0).visit ⟨0, 0⟩ = .ok [(0, 100)] := by decide +kernel
  have r0 : releases boss (owner0.reg 0) (.destroy ⟨0, 0⟩) = [.destroy ⟨1, 0⟩, .create [(1, 77)]] := by
    simp only [releases, v0]; rfl
  have t0 : tables (ownerW0 0) (.destroy ⟨0, 0⟩) = [kinds (World.listed [(0, 100)])] := rfl
  refine ⟨_, .cons (W1 := ownerW3) (s1 := owner3) (by simp) (fun h c e => by cases e) ?_ (by decide +kernel) (get_pair owner4_isSome) .nil⟩
  rw [r0, t0]
  exact owner_inner

example : ∃ s' W', Reachable smallTy s' W' ∧ runWith smallTy boss 3 [.destroy ⟨0, 0⟩] (owner0.reg 0) = .ok (s'.reg 0) ∧
    (s'.reg 0).get ⟨4, 0⟩ 2 = .ok 9 ∧ (s'.reg 0).get ⟨1, 1⟩ 1 = .ok 77 ∧ (s'.reg 0).alive ⟨0, 0⟩ = false ∧
    (s'.reg 0).alive ⟨1, 0⟩ = false := by
  obtain ⟨W', h⟩ := owner_nest
  obtain ⟨h1, h2⟩ := C98_destructors_partial owner_reachable h
  exact ⟨owner4, W', h2, h1 3 (Nat.le_refl _), by decide +kernel, by decide +kernel, by decide +kernel, by decide +kernel⟩

example : ownerW3 0 ⟨2, 0⟩ = some (World.listed [(0, 5)]) ∧ (owner3.reg 0).location ⟨2, 0⟩ = (owner0.reg 0).location ⟨2, 0⟩ := by
  refine C98_in_use owner_reachable owner_inner (h := ⟨2, 0⟩) rfl ?_
  have : kinds (World.listed [((0 : Nat), (5 : Nat))]) = kinds (World.listed [(0, 100)]) := by
    funext c
    by_cases h : 0 = c <;> simp [kinds, World.listed, h]
  simp [this]

example : owner0.Allowed (.on 0 (.destroy ⟨1, 0⟩)) ∧ (owner0.step smallTy (.on 0 (.destroy ⟨1, 0⟩))).isSome = true := by
  decide +kernel

/-! ### Destructors that use a table in use -/

/-- The outcome is undefined behaviour. -/
def Ran.isUb {σ : Type} : Ran σ → Bool
  | .ub => true
  | _ => false

/-- A question about the registry after calls that returned. -/
def Ran.and {σ : Type} (f : σ → Bool) : Ran σ → Bool
  | .ok s => f s
  | _ => false

theorem Ran.eq_ub {σ : Type} {x : Ran σ} (h : Ran.isUb x = true) : x = .ub := by
  cases x with
  | ub => rfl
  | ok s => cases h
  | more => cases h

theorem Ran.and_ok {σ : Type} {f : σ → Bool} {x : Ran σ} (h : Ran.and f x = true) : ∃ s, x = .ok s ∧ f s = true := by
  cases x with
  | ok s => exact ⟨s, rfl, h⟩
  | ub => cases h
  | more => cases h

/-- Value 100 makes one call. -/
def once (op : RegOp Nat) : Released Nat := fun _ v => if v = 100 then [op] else []

def alikeOps : List (SysOp Nat) := [.on 0 (.create [(0, 100)]), .on 0 (.create [(0, 2)]), .on 0 (.create [(0, 3)])]
theorem alike_isSome : (exec smallTy alikeOps).isSome = true := by decide +kernel
def alike : Sys Nat := ((exec smallTy alikeOps).get alike_isSome).1
theorem alike_reachable : ∃ W, Reachable smallTy alike W := ⟨_, exec_get alikeOps alike_isSome⟩

/-- **C98 is false** when a destructor destroys an entity with the same component types: `swap_erase` goes on
with an entry that the inner call has emptied (chunk.hpp:136-144). -/
theorem C98_violated_same_types : ∃ (s : Sys Nat) (W : Spec.World Nat) (h k : Handle), Reachable smallTy s W ∧
    (s.reg 0).has h [0] = .ok true ∧ (s.reg 0).has k [0] = .ok true ∧ h ≠ k ∧ s.Allowed (.on 0 (.destroy h)) ∧
    runWith smallTy (once (.destroy k)) 3 [.destroy h] (s.reg 0) = .ub := by
  obtain ⟨W, hr⟩ := alike_reachable
  exact ⟨alike, W, ⟨0, 0⟩, ⟨1, 0⟩, hr, by decide +kernel, by decide +kernel, by decide, by decide +kernel,
    Ran.eq_ub (by decide +kernel)⟩

def twinOps : List (SysOp Nat) := [.on 0 (.create [(0, 1)]), .on 0 (.create [(0, 100)])]
theorem twin_isSome : (exec smallTy twinOps).isSome = true := by decide +kernel
def twin : Sys Nat := ((exec smallTy twinOps).get twin_isSome).1
theorem twin_reachable : ∃ W, Reachable smallTy twin W := ⟨_, exec_get twinOps twin_isSome⟩

/-- **C98 is false** when a destructor creates an entity with the same component types: `pop_back` has reduced
the size already (chunk.hpp:115-117), the new entity is constructed over the one being destroyed, and the rest of the
destruction destroys its objects.  The entity is alive and reading its component is undefined. -/
theorem C98_violated_create : ∃ (s : Sys Nat) (W : Spec.World Nat) (h k : Handle), Reachable smallTy s W ∧
    (s.reg 0).has h [0] = .ok true ∧ ∃ r, runWith smallTy (once (.create [(0, 7)])) 3 [.destroy h] (s.reg 0) = .ok r ∧
    r.alive k = true ∧ (s.reg 0).alive k = false ∧ r.get k 0 = .ub := by
  obtain ⟨W, hr⟩ := twin_reachable
  refine ⟨twin, W, ⟨1, 0⟩, ⟨2, 0⟩, hr, by decide +kernel, ?_⟩
  obtain ⟨r, h1, h2⟩ := Ran.and_ok (x := runWith smallTy (once (.create [(0, 7)])) 3 [.destroy ⟨1, 0⟩] (twin.reg 0))
    (f := fun r : Reg Nat => decide (r.alive ⟨2, 0⟩ = true ∧ (twin.reg 0).alive ⟨2, 0⟩ = false ∧ r.get ⟨2, 0⟩ 0 = .ub)) (by decide +kernel)
  exact ⟨r, h1, by simpa using h2⟩

def dropOps : List (SysOp Nat) := [.on 0 (.create [(1, 1)]), .on 0 (.create [(0, 1), (2, 100)])]
theorem drop_isSome : (exec smallTy dropOps).isSome = true := by decide +kernel
def drop : Sys Nat := ((exec smallTy dropOps).get drop_isSome).1
theorem drop_reachable : ∃ W, Reachable smallTy drop W := ⟨_, exec_get dropOps drop_isSome⟩

/-- **C98 is false** for values dropped by `remove`, even if the destructor uses other tables only: `location`
is a reference into the dense vector of the location map (base_registry.hpp:177), the inner call moves the
last entry of that vector, and `location` is used afterwards (187-191). -/
theorem C98_violated_remove : ∃ (s : Sys Nat) (W : Spec.World Nat) (h k : Handle), Reachable smallTy s W ∧
    (s.reg 0).has h [0, 2] = .ok true ∧ (s.reg 0).has k [1] = .ok true ∧ (s.reg 0).has k [0] = .ok false ∧
    (s.reg 0).has k [2] = .ok false ∧
    runWith smallTy (once (.destroy k)) 3 [.remove h 2] (s.reg 0) = .ub := by
  obtain ⟨W, hr⟩ := drop_reachable
  exact ⟨drop, W, ⟨1, 0⟩, ⟨0, 0⟩, hr, by decide +kernel, by decide +kernel, by decide +kernel, by decide +kernel,
    Ran.eq_ub (by decide +kernel)⟩

def targetOps : List (SysOp Nat) := [.on 0 (.create [(0, 1), (2, 100)]), .on 0 (.create [(0, 5)])]
theorem target_isSome : (exec smallTy targetOps).isSome = true := by decide +kernel
def target : Sys Nat := ((exec smallTy targetOps).get target_isSome).1
theorem target_reachable : ∃ W, Reachable smallTy target W := ⟨_, exec_get targetOps target_isSome⟩

/-- **C98 is false** when the value dropped by `remove` destroys an entity of the table that the entity goes to:
the inner call moves the entity there, and its old entry is recorded as its location.  Reading a component
the entity has is undefined. -/
theorem C98_violated_remove_target : ∃ (s : Sys Nat) (W : Spec.World Nat) (h k : Handle), Reachable smallTy s W ∧
    (s.reg 0).has h [0, 2] = .ok true ∧ (s.reg 0).has k [0] = .ok true ∧
    ∃ r, runWith smallTy (once (.destroy k)) 3 [.remove h 2] (s.reg 0) = .ok r ∧ r.has h [0] = .ok true ∧ r.get h 0 = .ub := by
  obtain ⟨W, hr⟩ := target_reachable
  refine ⟨target, W, ⟨0, 0⟩, ⟨1, 0⟩, hr, by decide +kernel, by decide +kernel, ?_⟩
  obtain ⟨r, h1, h2⟩ := Ran.and_ok (x := runWith smallTy (once (.destroy ⟨1, 0⟩)) 3 [.remove ⟨0, 0⟩ 2] (target.reg 0))
    (f := fun r : Reg Nat => decide (r.has ⟨0, 0⟩ [0] = .ok true ∧ r.get ⟨0, 0⟩ 0 = .ub)) (by decide +kernel)
  exact ⟨r, h1, by simpa using h2⟩

def loneOps : List (SysOp Nat) := [.on 0 (.create [(0, 100)])]
theorem lone_isSome : (exec smallTy loneOps).isSome = true := by decide +kernel
def lone : Sys Nat := ((exec smallTy loneOps).get lone_isSome).1
theorem lone_reachable : ∃ W, Reachable smallTy lone W := ⟨_, exec_get loneOps lone_isSome⟩

/-- **C98 is false** when the destructor of a replaced value adds a component to the entity: `set` assigns
through a pointer to where the entity was (entity_ref.hpp:177-181). -/
theorem C98_violated_set : ∃ (s : Sys Nat) (W : Spec.World Nat) (h : Handle), Reachable smallTy s W ∧
    (s.reg 0).has h [0] = .ok true ∧ runWith smallTy (once (.set h 1 3)) 3 [.set h 0 5] (s.reg 0) = .ub := by
  obtain ⟨W, hr⟩ := lone_reachable
  exact ⟨lone, W, ⟨0, 0⟩, hr, by decide +kernel, Ran.eq_ub (by decide +kernel)⟩

/-- If there are other entities in the table, one of them has been moved to that place and gets the value; the
entity that it was meant for keeps the old one. -/
theorem C98_violated_set_other : ∃ (s : Sys Nat) (W : Spec.World Nat) (h k : Handle), Reachable smallTy s W ∧ h ≠ k ∧
    (s.reg 0).get k 0 = .ok 3 ∧ ∃ r, runWith smallTy (once (.set h 1 3)) 3 [.set h 0 5] (s.reg 0) = .ok r ∧
    r.get k 0 = .ok 5 ∧ r.get h 0 = .ok 100 := by
  obtain ⟨W, hr⟩ := alike_reachable
  refine ⟨alike, W, ⟨0, 0⟩, ⟨2, 0⟩, hr, by decide, by decide +kernel, ?_⟩
  obtain ⟨r, h1, h2⟩ := Ran.and_ok (x := runWith smallTy (once (.set ⟨0, 0⟩ 1 3)) 3 [.set ⟨0, 0⟩ 0 5] (alike.reg 0))
    (f := fun r : Reg Nat => decide (r.get ⟨2, 0⟩ 0 = .ok 5 ∧ r.get ⟨0, 0⟩ 0 = .ok 100)) (by decide +kernel)
  exact ⟨r, h1, by simpa using h2⟩

/-- **C98 is false** when the destructor destroys its own entity. -/
theorem C98_violated_self : ∃ (s : Sys Nat) (W : Spec.World Nat) (h : Handle), Reachable smallTy s W ∧
    (s.reg 0).has h [0] = .ok true ∧ runWith smallTy (once (.destroy h)) 3 [.destroy h] (s.reg 0) = .ub := by
  obtain ⟨W, hr⟩ := twin_reachable
  exact ⟨twin, W, ⟨1, 0⟩, hr, by decide +kernel, Ran.eq_ub (by decide +kernel)⟩

end CoEcs.Props
