import Verif.Proofs.Placeholder
import Verif.Props.RegistryObservers
import Verif.Props.View
import Verif.Props.RegistryStorage

/-!
# Filling a reserved entity more than once, or after its destruction (C92)

`r.copyInto h q ph` is `entity_ref::copy(destination, placeholder)`; with `q = r` it is `entity_ref::clone(placeholder)`.
-/

namespace CoEcs.Props
open CoEcs Spec

variable {V : Type} {ty : Types} {s : Sys V} {W : Spec.World V}

/-- A handle of a live entity is filled: two entries are stored under it, it answers with the new components `f`, and the
number of entities is as before. -/
structure Doubled (q q' : Reg V) (ph : Handle) (f : Nat → Obs V) : Prop where
  entries : ∃ l₁ l₂, l₁ ≠ l₂ ∧ q'.tupleAt [none] l₁ = .ok [.ent ph] ∧ q'.tupleAt [none] l₂ = .ok [.ent ph]
  get : ∀ x, q'.get ph x = f x
  size : q'.size = q.size

/-- A stale handle of the live entity `e` is filled: `e` answers with the components `f`. -/
structure Replaced (q q' : Reg V) (e ph : Handle) (f : Nat → Obs V) : Prop where
  live : q'.alive e = true
  get : ∀ x, q'.get e x = f x
  size : q'.size = q.size

/-- A dead handle whose id nothing has is filled: an entry is stored under it and counted, but the handle is dead. -/
structure Haunted (q q' : Reg V) (ph : Handle) : Prop where
  entry : ∃ l, q'.tupleAt [none] l = .ok [.ent ph]
  dead : q'.alive ph = false
  get : ∀ x, q'.get ph x = .throw .entityNotFound
  size : q'.size = q.size + 1

theorem doubled_of {k : Nat} {q q' : Reg V} {Wq : Handle → Option (Comps V)} {r : Reg V} {k' : Nat} {Wr : Handle → Option (Comps V)}
    (Q : Rep ty q k Wq) (R : Rep ty r k' Wr) {h ph : Handle} {d : Comps V} {ln : Loc} (hw : Wr h = some d)
    (F : FilledAny ty q q' Wq ph d ln) (hph : q.has ph [] = .ok true) : Doubled q q' ph (r.get h) := by
  obtain ⟨d₀, hw₀⟩ := Q.entity_some hph
  obtain ⟨l, ai, a, c, row, t⟩ := Q.at_ hw₀
  obtain ⟨m, hm⟩ := F.archs
  have hn : slots q'.archs.arches ln = some (ph, d) := by rw [F.slots, if_pos rfl]
  have hne : l ≠ ln := by
    rintro rfl
    have := t.slot
    rw [F.free] at this
    cases this
  have ho : slots q'.archs.arches l = some (ph, d₀) := by rw [F.slots, if_neg hne]; exact t.slot
  refine ⟨⟨l, ln, hne, tupleAt_slot hm ho, tupleAt_slot hm hn⟩, fun x => ?_, F.used ⟨ph, rfl, by rw [hw₀]; simp⟩⟩
  rw [get_slot hm (F.here ph (Q.alive hw₀) rfl) hn, R.get_eq, hw]
  cases hx : d x <;> simp [hx]

theorem replaced_of {k : Nat} {q q' : Reg V} {Wq : Handle → Option (Comps V)} {r : Reg V} {k' : Nat} {Wr : Handle → Option (Comps V)}
    (Q : Rep ty q k Wq) (R : Rep ty r k' Wr) {h e ph : Handle} {d : Comps V} {ln : Loc} (hw : Wr h = some d)
    (F : FilledAny ty q q' Wq ph d ln) (he : q.has e [] = .ok true) (hid : ph.id = e.id) : Replaced q q' e ph (r.get h) := by
  obtain ⟨d₀, hw₀⟩ := Q.entity_some he
  have ha := Q.alive hw₀
  obtain ⟨m, hm⟩ := F.archs
  refine ⟨?_, fun x => ?_, F.used ⟨e, hid.symm, by rw [hw₀]; simp⟩⟩
  · unfold Reg.alive at ha ⊢
    rw [F.pool]; exact ha
  · rw [get_slot hm (F.here e ha hid.symm) (by rw [F.slots, if_pos rfl]), R.get_eq, hw]
    cases hx : d x <;> simp [hx]

theorem haunted_of {k : Nat} {q q' : Reg V} {Wq : Handle → Option (Comps V)} (Q : Rep ty q k Wq) {ph : Handle} {d : Comps V} {ln : Loc}
    (F : FilledAny ty q q' Wq ph d ln) (hd : q.alive ph = false) (hn : ∀ e, e.id = ph.id → q.has e [] ≠ .ok true) : Haunted q q' ph := by
  obtain ⟨m, hm⟩ := F.archs
  have ha : q'.alive ph = false := by
    unfold Reg.alive at hd ⊢
    rw [F.pool]; exact hd
  refine ⟨⟨ln, tupleAt_slot hm (d := d) (by rw [F.slots, if_pos rfl])⟩, ha, fun x => ?_, F.unused fun e he => ?_⟩
  · simp [Reg.get, Reg.rowOf, Reg.location, ha]
  · cases hw : Wq e with
    | none => rfl
    | some d0 => exact absurd (by rw [Q.has_some hw]; rfl) (hn e he)

theorem lt_of_has {i : Nat} (hr : Reachable ty s W) {e : Handle} (he : (s.reg i).has e [] = .ok true) : e.id + 1 < U32 := by
  obtain ⟨d, hw⟩ := (hr.inv i).rep.entity_some he
  have h1 := (List.getElem?_eq_some_iff.1 ((alive_iff _ _).1 ((hr.inv i).rep.alive hw))).1
  have h2 := (hr.inv i).rep.pool.gens_le
  have h3 := (hr.inv i).rep.small
  omega

/-- **C92 is violated**: a reserved entity that has been filled is filled again without complaint.  It answers with the
new components, its old entry stays stored under the same handle, and the number of entities does not count it.
(Every history, every two registries, also the same one, every entity whose components are all copyable.) -/
theorem C92_filled_twice_violated (hr : Reachable ty s W) {i j : Nat} {h ph : Handle} (he : (s.reg i).has h [] = .ok true)
    (hcp : ∀ c v, (s.reg i).get h c = .ok v → (ty.info c).copyable = true) (hph : (s.reg j).has ph [] = .ok true) :
    ∃ q', (s.reg i).copyInto h (s.reg j) ph = .ok q' ph ∧ Doubled (s.reg j) q' ph ((s.reg i).get h) := by
  have R := (hr.inv i).rep
  obtain ⟨d, hw⟩ := R.entity_some he
  obtain ⟨q', ln, h1, F⟩ := R.copyInto_any (hr.inv j).rep hw (fun c v hv => hcp c v (R.get_some hw hv)) (lt_of_has hr hph)
  exact ⟨q', h1, doubled_of (hr.inv j).rep R hw F hph⟩

/-- **C92 is violated**: filling a reserved entity that was destroyed and whose id was given to another entity `e`
replaces the components of `e`.  (Every history, every two registries, every stale handle of a live entity.) -/
theorem C92_stale_violated (hr : Reachable ty s W) {i j : Nat} {h e ph : Handle} (he : (s.reg i).has h [] = .ok true)
    (hcp : ∀ c v, (s.reg i).get h c = .ok v → (ty.info c).copyable = true) (hl : (s.reg j).has e [] = .ok true)
    (hid : ph.id = e.id) :
    ∃ q', (s.reg i).copyInto h (s.reg j) ph = .ok q' ph ∧ Replaced (s.reg j) q' e ph ((s.reg i).get h) := by
  have R := (hr.inv i).rep
  obtain ⟨d, hw⟩ := R.entity_some he
  obtain ⟨q', ln, h1, F⟩ := R.copyInto_any (hr.inv j).rep hw (ph := ph) (fun c v hv => hcp c v (R.get_some hw hv))
    (hid ▸ lt_of_has hr hl)
  exact ⟨q', h1, replaced_of (hr.inv j).rep R hw F hl hid⟩

/-- **C92 is violated**: filling a reserved entity that was destroyed, whose id is free, stores and counts an entry that
belongs to no entity.  (Every history, every two registries, every dead handle whose id was given out and is not in use.) -/
theorem C92_destroyed_violated (hr : Reachable ty s W) {i j : Nat} {h ph : Handle} (he : (s.reg i).has h [] = .ok true)
    (hcp : ∀ c v, (s.reg i).get h c = .ok v → (ty.info c).copyable = true) (hd : (s.reg j).alive ph = false)
    (hn : ∀ e, e.id = ph.id → (s.reg j).has e [] ≠ .ok true) (hg : ph.id + 1 < U32) :
    ∃ q', (s.reg i).copyInto h (s.reg j) ph = .ok q' ph ∧ Haunted (s.reg j) q' ph := by
  have R := (hr.inv i).rep
  obtain ⟨d, hw⟩ := R.entity_some he
  obtain ⟨q', ln, h1, F⟩ := R.copyInto_any (hr.inv j).rep hw (fun c v hv => hcp c v (R.get_some hw hv)) hg
  exact ⟨q', h1, haunted_of (hr.inv j).rep F hd hn⟩

/-- **C92 is violated**: a reserved entity of another registry, with an id this registry has not given out yet, can be filled
as well, with the same result. -/
theorem C92_foreign_violated (hr : Reachable ty s W) {i j : Nat} {h ph : Handle} (he : (s.reg i).has h [] = .ok true)
    (hcp : ∀ c v, (s.reg i).get h c = .ok v → (ty.info c).copyable = true) (hn : (s.reg j).pool.nextId ≤ ph.id) (hg : ph.id + 1 < U32) :
    ∃ q', (s.reg i).copyInto h (s.reg j) ph = .ok q' ph ∧ Haunted (s.reg j) q' ph := by
  have Q := (hr.inv j).rep
  have hl := Q.pool.gens_le
  have hdead : ∀ e : Handle, e.id = ph.id → (s.reg j).alive e = false := by
    intro e he'
    cases ha : (s.reg j).alive e with
    | false => rfl
    | true =>
      have := (List.getElem?_eq_some_iff.1 ((alive_iff _ _).1 ha)).1
      omega
  refine C92_destroyed_violated hr he hcp (hdead ph rfl) (fun e he' hh => ?_) hg
  obtain ⟨d, hw⟩ := Q.entity_some hh
  have := Q.alive hw
  rw [hdead e he'] at this
  cases this

/-- **C92 is violated** by moves as well, to another registry and without a condition on copying; as everywhere, unless an
archetype of the source ends with an empty chunk. -/
theorem C92_move_violated (hr : Reachable ty s W) {i j : Nat} {h ph : Handle} (hp : s.pend i = 0) (he : (s.reg i).has h [] = .ok true)
    (ht : ∀ (k : Nat) (a : Arch V), (s.reg i).archs.arches[k]? = some a → ¬ TrailingEmpty a) (hg : ph.id + 1 < U32) :
    ∃ r' q', (s.reg i).moveInto h (s.reg j) ph = .ok (r', q') ph ∧
      ((s.reg j).has ph [] = .ok true → Doubled (s.reg j) q' ph ((s.reg i).get h)) ∧
      (∀ e, (s.reg j).has e [] = .ok true → ph.id = e.id → Replaced (s.reg j) q' e ph ((s.reg i).get h)) ∧
      ((s.reg j).alive ph = false → (∀ e, e.id = ph.id → (s.reg j).has e [] ≠ .ok true) → Haunted (s.reg j) q' ph) := by
  have R := (hr.inv i).rep
  have Q := (hr.inv j).rep
  rw [hp] at R
  obtain ⟨d, hw⟩ := R.entity_some he
  rcases R.moveInto_any Q hw hg with ⟨_, k, a, h1, h2⟩ | ⟨r', q', ln, h1, F⟩
  · exact absurd (lastOk_of (ht k a h1)) h2
  · exact ⟨r', q', h1, doubled_of Q R hw F, fun e he hid => replaced_of Q R hw F he hid, haunted_of Q F⟩

/-- An entity, and a reserved entity that has been filled from it. -/
def filledOnce : List (SysOp Nat) :=
  [.on 0 (.create [(0, 10)]), .on 0 .reserve, .on 0 .sync, .on 0 (.clone ⟨0, 0⟩ (some ⟨1, 0⟩))]

theorem filledOnce_isSome : (exec smallTy filledOnce).isSome = true := by decide +kernel

/-- The handle is in use, as the theorem asks; after the second filling a view shows it twice among two entities. -/
example : ∃ (s : Sys Nat) (W : Spec.World Nat), Reachable smallTy s W ∧ (s.reg 0).has ⟨0, 0⟩ [] = .ok true ∧
    (s.reg 0).has ⟨1, 0⟩ [] = .ok true ∧ (s.reg 0).size = 2 ∧
    ∃ q' q'', (s.reg 0).copyInto ⟨0, 0⟩ (s.reg 0) ⟨1, 0⟩ = .ok q' ⟨1, 0⟩ ∧ q'.size = 2 ∧
      q'.each [none] [] (fun _ _ => 0) = .ok q'' [[.ent ⟨0, 0⟩], [.ent ⟨1, 0⟩], [.ent ⟨1, 0⟩]] := by
  refine ⟨_, _, exec_get filledOnce filledOnce_isSome, by decide +kernel, by decide +kernel, by decide +kernel, ?_⟩
  have : (match (((exec smallTy filledOnce).get filledOnce_isSome).1.reg 0).copyInto ⟨0, 0⟩
        (((exec smallTy filledOnce).get filledOnce_isSome).1.reg 0) ⟨1, 0⟩ with
      | .ok q' x => decide (x = ⟨1, 0⟩ ∧ q'.size = 2) && (match q'.each [none] [] (fun _ _ => 0) with
        | .ok _ ts => decide (ts = [[.ent ⟨0, 0⟩], [.ent ⟨1, 0⟩], [.ent ⟨1, 0⟩]])
        | _ => false)
      | _ => false) = true := by decide +kernel
  split at this
  · rename_i q' x hx
    rw [Bool.and_eq_true, decide_eq_true_eq] at this
    obtain ⟨⟨rfl, h1⟩, h2⟩ := this
    split at h2
    · rename_i q'' ts ht
      rw [decide_eq_true_eq] at h2
      subst h2
      exact ⟨q', q'', hx, h1, ht⟩
    · cases h2
  · cases this

/-- The filled entity is destroyed and its id goes to a new entity with another value. -/
def filledStale : List (SysOp Nat) := filledOnce ++ [.on 0 (.destroy ⟨1, 0⟩), .on 0 (.create [(0, 77)])]

theorem filledStale_isSome : (exec smallTy filledStale).isSome = true := by decide +kernel

/-- The new entity has 77, until the stale handle is filled. -/
example : ∃ (s : Sys Nat) (W : Spec.World Nat), Reachable smallTy s W ∧ (s.reg 0).has ⟨0, 0⟩ [] = .ok true ∧
    (s.reg 0).alive ⟨1, 0⟩ = false ∧ (s.reg 0).has ⟨1, 1⟩ [] = .ok true ∧ (s.reg 0).get ⟨1, 1⟩ 0 = .ok 77 ∧
    ∃ q', (s.reg 0).copyInto ⟨0, 0⟩ (s.reg 0) ⟨1, 0⟩ = .ok q' ⟨1, 0⟩ ∧ q'.get ⟨1, 1⟩ 0 = .ok 10 := by
  refine ⟨_, _, exec_get filledStale filledStale_isSome, by decide +kernel, by decide +kernel, by decide +kernel, by decide +kernel, ?_⟩
  have : (match (((exec smallTy filledStale).get filledStale_isSome).1.reg 0).copyInto ⟨0, 0⟩
        (((exec smallTy filledStale).get filledStale_isSome).1.reg 0) ⟨1, 0⟩ with
      | .ok q' x => decide (x = ⟨1, 0⟩ ∧ q'.get ⟨1, 1⟩ 0 = .ok 10)
      | _ => false) = true := by decide +kernel
  split at this
  · rename_i q' x hx
    rw [decide_eq_true_eq] at this
    obtain ⟨rfl, h⟩ := this
    exact ⟨q', hx, h⟩
  · cases this

/-- The id of the destroyed entity is free. -/
def filledDead : List (SysOp Nat) := filledOnce ++ [.on 0 (.destroy ⟨1, 0⟩)]

theorem filledDead_isSome : (exec smallTy filledDead).isSome = true := by decide +kernel

/-- The destroyed entity appears in a view again, is counted, and is dead. -/
example : ∃ (s : Sys Nat) (W : Spec.World Nat), Reachable smallTy s W ∧ (s.reg 0).has ⟨0, 0⟩ [] = .ok true ∧
    (s.reg 0).alive ⟨1, 0⟩ = false ∧ 1 < (s.reg 0).pool.gens.length ∧ (s.reg 0).size = 1 ∧
    ∃ q' q'', (s.reg 0).copyInto ⟨0, 0⟩ (s.reg 0) ⟨1, 0⟩ = .ok q' ⟨1, 0⟩ ∧ q'.size = 2 ∧ q'.alive ⟨1, 0⟩ = false ∧
      q'.each [none] [] (fun _ _ => 0) = .ok q'' [[.ent ⟨0, 0⟩], [.ent ⟨1, 0⟩]] := by
  refine ⟨_, _, exec_get filledDead filledDead_isSome, by decide +kernel, by decide +kernel, by decide +kernel, by decide +kernel, ?_⟩
  have : (match (((exec smallTy filledDead).get filledDead_isSome).1.reg 0).copyInto ⟨0, 0⟩
        (((exec smallTy filledDead).get filledDead_isSome).1.reg 0) ⟨1, 0⟩ with
      | .ok q' x => decide (x = ⟨1, 0⟩ ∧ q'.size = 2 ∧ q'.alive ⟨1, 0⟩ = false) && (match q'.each [none] [] (fun _ _ => 0) with
        | .ok _ ts => decide (ts = [[.ent ⟨0, 0⟩], [.ent ⟨1, 0⟩]])
        | _ => false)
      | _ => false) = true := by decide +kernel
  split at this
  · rename_i q' x hx
    rw [Bool.and_eq_true, decide_eq_true_eq] at this
    obtain ⟨⟨rfl, h1, h1'⟩, h2⟩ := this
    split at h2
    · rename_i q'' ts ht
      rw [decide_eq_true_eq] at h2
      subst h2
      exact ⟨q', q'', hx, h1, h1', ht⟩
    · cases h2
  · cases this

def oneTwo : List (SysOp Nat) := [.on 0 (.create [(0, 10)])]

theorem oneTwo_isSome : (exec smallTy oneTwo).isSome = true := by decide +kernel

/-- The reserved entity 1 of another registry is filled in a registry with one entity.  The next entity created there gets the
handle, and a view shows it twice. -/
example : ∃ (s : Sys Nat) (W : Spec.World Nat), Reachable smallTy s W ∧ (s.reg 0).has ⟨0, 0⟩ [] = .ok true ∧ (s.reg 0).pool.nextId = 1 ∧
    ∃ q' q'' q3, (s.reg 0).copyInto ⟨0, 0⟩ (s.reg 0) ⟨1, 0⟩ = .ok q' ⟨1, 0⟩ ∧ q'.create smallTy [(0, 20)] = .ok q'' ⟨1, 0⟩ ∧ q''.size = 2 ∧
      q''.each [none] [] (fun _ _ => 0) = .ok q3 [[.ent ⟨0, 0⟩], [.ent ⟨1, 0⟩], [.ent ⟨1, 0⟩]] := by
  refine ⟨_, _, exec_get oneTwo oneTwo_isSome, by decide +kernel, by decide +kernel, ?_⟩
  have : (match (((exec smallTy oneTwo).get oneTwo_isSome).1.reg 0).copyInto ⟨0, 0⟩
        (((exec smallTy oneTwo).get oneTwo_isSome).1.reg 0) ⟨1, 0⟩ with
      | .ok q' x => decide (x = ⟨1, 0⟩) && (match q'.create smallTy [(0, 20)] with
        | .ok q'' y => decide (y = ⟨1, 0⟩ ∧ q''.size = 2) && (match q''.each [none] [] (fun _ _ => 0) with
          | .ok _ ts => decide (ts = [[.ent ⟨0, 0⟩], [.ent ⟨1, 0⟩], [.ent ⟨1, 0⟩]])
          | _ => false)
        | _ => false)
      | _ => false) = true := by decide +kernel
  split at this
  · rename_i q' x hx
    rw [Bool.and_eq_true, decide_eq_true_eq] at this
    obtain ⟨rfl, h1⟩ := this
    split at h1
    · rename_i q'' y hy
      rw [Bool.and_eq_true, decide_eq_true_eq] at h1
      obtain ⟨⟨rfl, hs⟩, h2⟩ := h1
      split at h2
      · rename_i q3 ts ht
        rw [decide_eq_true_eq] at h2
        subst h2
        exact ⟨q', q'', q3, hx, hy, hs, ht⟩
      · cases h2
    · cases h1
  · cases this

/-- In the second registry, an entity to move to the filled entity of the first. -/
def filledMove : List (SysOp Nat) := filledOnce ++ [.on 1 (.create [(0, 55)])]

theorem filledMove_isSome : (exec smallTy filledMove).isSome = true := by decide +kernel

example : ∃ (s : Sys Nat) (W : Spec.World Nat), Reachable smallTy s W ∧ s.pend 1 = 0 ∧ (s.reg 1).has ⟨0, 0⟩ [] = .ok true ∧
    (s.reg 0).has ⟨1, 0⟩ [] = .ok true ∧ ((s.reg 1).archs.arches.all fun a => decide (a.chunks.length ≤ 1)) = true ∧
    ∃ r' q', (s.reg 1).moveInto ⟨0, 0⟩ (s.reg 0) ⟨1, 0⟩ = .ok (r', q') ⟨1, 0⟩ ∧ q'.get ⟨1, 0⟩ 0 = .ok 55 ∧ q'.size = (s.reg 0).size := by
  refine ⟨_, _, exec_get filledMove filledMove_isSome, by decide +kernel, by decide +kernel, by decide +kernel, by decide +kernel, ?_⟩
  have : (match (((exec smallTy filledMove).get filledMove_isSome).1.reg 1).moveInto ⟨0, 0⟩
        (((exec smallTy filledMove).get filledMove_isSome).1.reg 0) ⟨1, 0⟩ with
      | .ok (_, q') x => decide (x = ⟨1, 0⟩ ∧ q'.get ⟨1, 0⟩ 0 = .ok 55 ∧
          q'.size = (((exec smallTy filledMove).get filledMove_isSome).1.reg 0).size)
      | _ => false) = true := by decide +kernel
  split at this
  · rename_i r' q' x hx
    rw [decide_eq_true_eq] at this
    obtain ⟨rfl, h⟩ := this
    exact ⟨r', q', hx, h⟩
  · cases this

/-- **C92** (partial; missing: the rejection of every other handle, which is false): a reserved entity that has not been
filled takes the components of the source, and no other handle of the destination is affected. -/
theorem C92_first_fill_partial (hr : Reachable ty s W) {i j : Nat} {h ph : Handle} (hph : ph ∈ s.res j) (hp : s.pend j = 0)
    (he : (s.reg i).has h [] = .ok true) (hcp : ∀ c v, (s.reg i).get h c = .ok v → (ty.info c).copyable = true) :
    ∃ q', (s.reg i).copyInto h (s.reg j) ph = .ok q' ph ∧ q'.alive ph = true ∧ (∀ x, q'.get ph x = (s.reg i).get h x) ∧
      (∀ xs, q'.has ph xs = (s.reg i).has h xs) ∧ ∀ h', h' ≠ ph → Same (s.reg j) q' h' := by
  have R := (hr.inv i).rep
  have I := hr.inv j
  have Q := I.rep
  have hres := I.res ph hph
  rw [hp] at Q hres
  obtain ⟨d, hw⟩ := R.entity_some he
  rcases R.copyInto Q hw (hres.1.held Q.pool) hres.2 with ⟨q', q1, _, q3, Q', _⟩ | ⟨q', _, q2, _⟩
  · have hwp : World.put (W j) ph (some d) ph = some d := by simp [World.put]
    refine ⟨q', q1, Q'.alive hwp, fun x => ?_, fun xs => ?_, fun h' hn => Q.same Q' (put_ne hn) ?_⟩
    · rw [Q'.get_eq, R.get_eq, hwp, hw]
    · rw [Q'.has_some hwp, R.has_some hw]
    · unfold Reg.alive; rw [q3]
  · exact absurd (fun c v hv => hcp c v (R.get_some hw hv)) q2

/-- A reserved entity that has not been filled, beside an entity with a copyable component. -/
example : ∃ (s : Sys Nat) (W : Spec.World Nat), Reachable smallTy s W ∧ ⟨1, 0⟩ ∈ s.res 0 ∧ s.pend 0 = 0 ∧
    (s.reg 0).has ⟨0, 0⟩ [] = .ok true ∧ (s.reg 0).get ⟨0, 0⟩ 0 = .ok 10 ∧ (smallTy.info 0).copyable = true :=
  ⟨_, _, exec_get (filledOnce.take 3) (by decide +kernel), by decide +kernel, by decide +kernel, by decide +kernel, by decide +kernel,
    by decide +kernel⟩

end CoEcs.Props
