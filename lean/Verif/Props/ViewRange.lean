import Verif.Proofs.ViewRange
import Verif.Props.ViewOthers

/-!
# C112: ranges of views that are kept and iterated again
-/

namespace CoEcs.Props
open CoEcs Spec

variable {V : Type} {ty : Types} {s : Sys V} {W : Spec.World V}

/-- What a loop over the view does. -/
def shown : Res (Reg V) (List (List (Val V))) → RangeOut V
  | .ok r ts => .done r ts
  | .throw _ _ => .terminated
  | .ub => .ub

/-- Where the search stops, the first chunk can be entered. -/
theorem seek_fetch {d : Nat} {W : Handle → Option (Comps V)} {r : Reg V} (R : Rep ty r d W) {args : List BlockId} : ∀ {k p q : Nat},
    p + k = r.archs.map.n → r.seekBucket args k p = some q → r.fetchFails args q = false
  | 0, p, q, hp, h => by
    cases h
    unfold Reg.fetchFails HTable.slot?
    rw [if_neg (by omega)]
  | k + 1, p, q, hp, h => by
    unfold Reg.seekBucket at h
    split at h
    · cases h
    · exact seek_fetch R (by omega) h
    · rename_i e hs
      split at h
      · cases h
      · rename_i ai a ha
        split at h
        · rename_i hm
          cases h
          unfold Reg.fetchFails
          simp only [hs, ha]
          have hok : a.Ok := by
            obtain ⟨m, hm⟩ := R.archs
            unfold Reg.archIn at ha
            split at ha
            · cases ha
            · split at ha
              · cases ha
              · rename_i hg
                cases ha
                exact hm.ok _ _ hg
          have : (args.all fun b => decide (b ∈ a.blocks)) = true := by
            rw [List.all_eq_true] at hm ⊢
            intro b hb
            have := hm b hb
            cases b with
            | none => simp [Arch.none_mem_blocks]
            | some c => exact decide_eq_true ((hok.toShape.contains c).1 this)
          simp [this]
        · exact seek_fetch R (by omega) h

theorem each_fresh {d : Nat} {W : Handle → Option (Comps V)} {r : Reg V} (R : Rep ty r d W) (args : List BlockId) (muts : List Nat)
    (f : List (Val V) → Nat → V) : (ViewRange.fresh args).each r muts f = shown (r.each args muts f) := by
  unfold ViewRange.each
  rcases iterate_fresh (args := args) R.map_n with ⟨h1, h2⟩ | ⟨p, cs, _, hs, h1, _, h2⟩
  · have e : r.each args muts f = .ub := by unfold Reg.each; rw [h2]
    rw [e, h1]
    split
    · rfl
    · rename_i p hp
      have hp : r.seekBucket args r.archs.map.n 0 = some p := hp
      rw [if_neg (by rw [show (ViewRange.fresh args).args = args from rfl, seek_fetch R (Nat.zero_add _) hp]; simp)]
      rfl
  · have hb : (ViewRange.fresh args).begin_ r = some p := hs
    have e : r.each args muts f = Reg.eachLocs args muts f r cs.flatten := by unfold Reg.each; rw [h1]
    simp only [hb]
    rw [if_neg (by rw [show (ViewRange.fresh args).args = args from rfl, seek_fetch R (Nat.zero_add _) hs]; simp), h2, e]
    simp only [show (ViewRange.fresh args).args = args from rfl]
    cases Reg.eachLocs args muts f r cs.flatten <;> rfl

/-- **C112**, the first time: whenever a range is iterated for the first time, however long after it was obtained, the loop does
what a loop over the view does then. -/
theorem C112_first (hr : Reachable ty s W) (i : Nat) (args : List BlockId) (muts : List Nat) (f : List (Val V) → Nat → V) :
    (ViewRange.fresh args).each (s.reg i) muts f = shown ((s.reg i).each args muts f) :=
  each_fresh (hr.inv i).rep args muts f

example : (ViewRange.fresh [none, some 0]).each (((exec smallTy twoPairs).get twoPairs_isSome).1.reg 0) [] (fun _ _ => 0) =
    shown ((((exec smallTy twoPairs).get twoPairs_isSome).1.reg 0).each [none, some 0] [] (fun _ _ => 0)) :=
  C112_first (exec_get twoPairs twoPairs_isSome) 0 _ _ _

/-- **C112** (partial; missing: operations that need an archetype the registry does not have yet): a range that has been iterated is
iterated again after any operations that succeed and need no new archetype.  The loop does what a loop over the view does then,
and the range stays as it is. -/
theorem C112_again_partial (hr : Reachable ty s W) (i : Nat) (hp : s.pend i = 0) {args : List BlockId} {g : ViewRange} {cs : List (List Loc)}
    (h1 : (ViewRange.fresh args).iterate (s.reg i) = some (g, cs)) {ops : List (CbOp V)} {r' : Reg V} (ho : OldRun ty (s.reg i) ops r')
    (muts : List Nat) (f : List (Val V) → Nat → V) :
    g.each r' muts f = shown (r'.each args muts f) ∧ ∀ g' cs', g.iterate r' = some (g', cs') → g' = g := by
  have R := (hr.inv i).rep
  rw [hp] at R
  obtain ⟨hs, W', R'⟩ := OldRun.same R ho
  rcases iterate_fresh (args := args) R.map_n with ⟨h2, _⟩ | ⟨p, cs1, _, h2, _, _, h3⟩
  · rw [h1] at h2; cases h2
  · rw [h1] at h3
    cases h3
    refine ⟨?_, ?_⟩
    · rw [← each_fresh R']
      unfold ViewRange.each ViewRange.iterate ViewRange.begin_ ViewRange.fresh
      simp only [hs.map, hs.seek h2, if_true]
    · intro g' cs' he
      unfold ViewRange.iterate ViewRange.begin_ at he
      simp only [hs.map, if_true] at he
      split at he
      · cases he
      · cases he; rfl

/-- Where the search stops before the end there is an archetype that matches. -/
theorem seekBucket_match {r : Reg V} {args : List BlockId} : ∀ {k p q : Nat}, r.seekBucket args k p = some q → q ≠ p + k →
    ∃ a ∈ r.archs.arches, args.all (Reg.matchArg a) = true
  | 0, p, q, h, hq => by cases h; exact absurd rfl hq
  | k + 1, p, q, h, hq => by
    unfold Reg.seekBucket at h
    split at h
    · cases h
    · exact seekBucket_match h (by omega)
    · split at h
      · cases h
      · rename_i e ai a ha
        split at h
        · rename_i hm
          refine ⟨a, ?_, hm⟩
          unfold Reg.archIn at ha
          grind
        · exact seekBucket_match h (by omega)

/-- **C112** violated, for all histories: a range that is first iterated when the registry has no archetype with the components asked for
shows nothing at any later time, whatever entities there are, as long as the map of archetypes has not grown. -/
theorem C112_empty_violated (hr : Reachable ty s W) (i : Nat) {args : List BlockId}
    (hn : ∀ a ∈ (s.reg i).archs.arches, args.all (Reg.matchArg a) = false) {g : ViewRange} {cs : List (List Loc)}
    (h1 : (ViewRange.fresh args).iterate (s.reg i) = some (g, cs)) (r' : Reg V) (hs : r'.archs.map.n = (s.reg i).archs.map.n)
    (muts : List Nat) (f : List (Val V) → Nat → V) : g.each r' muts f = .done r' [] := by
  rcases iterate_fresh (args := args) (hr.inv i).rep.map_n with ⟨h2, _⟩ | ⟨p, cs1, hp, h2, _, _, h3⟩
  · rw [h1] at h2; cases h2
  · rw [h1] at h3
    cases h3
    have : p = (s.reg i).archs.map.n := by
      apply Classical.byContradiction
      intro hq
      obtain ⟨a, ha, hm⟩ := seekBucket_match h2 (by omega)
      rw [hn a ha] at hm; cases hm
    have hf : r'.fetchFails args (s.reg i).archs.map.n = false := by
      unfold Reg.fetchFails HTable.slot?
      rw [if_neg (by omega)]
    unfold ViewRange.each ViewRange.iterate ViewRange.begin_
    simp only [hs, if_true, this, Nat.sub_self, Reg.chunksAt, hf]
    rfl

/-- **C112** violated, for all histories: once the map of archetypes has grown, every further use of a range that has been iterated
before is undefined. -/
theorem C112_growth_violated {r r' : Reg V} {g0 g : ViewRange} {cs : List (List Loc)} (h1 : g0.iterate r = some (g, cs))
    (hs : r'.archs.map.n ≠ r.archs.map.n) (muts : List Nat) (f : List (Val V) → Nat → V) : g.each r' muts f = .ub := by
  unfold ViewRange.iterate at h1
  split at h1
  · cases h1
  · split at h1
    · cases h1
    · cases h1
      unfold ViewRange.each ViewRange.iterate ViewRange.begin_
      simp only [if_neg (Ne.symm hs)]

def emptyOps : List (SysOp Nat) := []

theorem emptyOps_isSome : (exec smallTy emptyOps).isSome = true := by decide +kernel

/-- **C112** violated, the missed entity: a range of entities with component 0 is iterated in an empty registry.  Then an entity with
component 0 is created.  The view shows it, the range does not. -/
theorem C112_missed_violated : ∃ (s : Sys Nat) (W : Spec.World Nat) (g : ViewRange) (r' : Reg Nat) (h : Handle),
    Reachable smallTy s W ∧ (ViewRange.fresh [none, some 0]).iterate (s.reg 0) = some (g, []) ∧
    (s.reg 0).create smallTy [(0, 10)] = .ok r' h ∧
    (∃ r1, r'.each [none, some 0] [] (fun _ _ => 0) = .ok r1 [[.ent h, .comp 10]]) ∧ g.each r' [] (fun _ _ => 0) = .done r' [] := by
  have h0 : (match (ViewRange.fresh [none, some 0]).iterate (((exec smallTy emptyOps).get emptyOps_isSome).1.reg 0) with
      | some (_, []) =>
        (match (((exec smallTy emptyOps).get emptyOps_isSome).1.reg 0).create smallTy [(0, 10)] with
          | .ok r' h => decide (r'.archs.map.n = (((exec smallTy emptyOps).get emptyOps_isSome).1.reg 0).archs.map.n) &&
            (match r'.each [none, some 0] [] (fun _ _ => 0) with | .ok _ ts => decide (ts = [[.ent h, .comp 10]]) | _ => false)
          | _ => false)
      | _ => false) = true := by decide +kernel
  split at h0
  · rename_i g hi
    split at h0
    · rename_i r' h hc
      simp only [Bool.and_eq_true, decide_eq_true_eq] at h0
      obtain ⟨hn, h1⟩ := h0
      split at h1
      · rename_i r1 ts he
        have ht := of_decide_eq_true h1
        subst ht
        refine ⟨_, _, g, r', h, exec_get _ emptyOps_isSome, hi, hc, ⟨r1, he⟩, ?_⟩
        exact C112_empty_violated (exec_get _ emptyOps_isSome) 0 (by decide +kernel) hi r' hn _ _
      · cases h1
    · cases h0
  · cases h0

/-- **C112** violated, the displaced bucket: one entity has component 0 and is shown by a range.  Then entities with the components 1
to 5 are created.  The view still shows the one entity, a loop over the range ends the
program: `component_not_found` is thrown in a `noexcept` function. -/
theorem C112_displaced_violated : ∃ (s : Sys Nat) (W : Spec.World Nat) (g : ViewRange) (cs : List (List Loc)) (r' : Reg Nat),
    Reachable smallTy s W ∧ (ViewRange.fresh [none, some 0]).iterate (s.reg 0) = some (g, cs) ∧
    Reg.acts 0 (s.reg 0) true ((createsEach [1, 2, 3, 4, 5] []).map (CbOp.call smallTy)) = .ok (r', true) () ∧
    (∃ r1, r'.each [none, some 0] [] (fun _ _ => 0) = .ok r1 [[.ent ⟨0, 0⟩, .comp 10]]) ∧
    g.each r' [] (fun _ _ => 0) = .terminated := by
  have h0 : (match (ViewRange.fresh [none, some 0]).iterate (((exec smallTy ([.on 0 (.create [(0, 10)])] : List (SysOp Nat))).get oneOfZero_isSome).1.reg 0) with
      | some (g, _) =>
        (match Reg.acts 0 (((exec smallTy ([.on 0 (.create [(0, 10)])] : List (SysOp Nat))).get oneOfZero_isSome).1.reg 0) true
            ((createsEach [1, 2, 3, 4, 5] []).map (CbOp.call smallTy)) with
          | .ok (r', true) _ =>
            (match r'.each [none, some 0] [] (fun _ _ => 0) with | .ok _ ts => decide (ts = [[.ent ⟨0, 0⟩, .comp 10]]) | _ => false) &&
            (match g.each r' [] (fun _ _ => 0) with | .terminated => true | _ => false)
          | _ => false)
      | _ => false) = true := by decide +kernel
  split at h0
  · rename_i g cs hi
    split at h0
    · rename_i r' u hc
      simp only [Bool.and_eq_true] at h0
      obtain ⟨h1, h2⟩ := h0
      split at h1
      · rename_i r1 ts he
        have ht := of_decide_eq_true h1
        subst ht
        split at h2
        · rename_i hg
          exact ⟨_, _, g, cs, r', exec_get _ oneOfZero_isSome, hi, hc, ⟨r1, he⟩, hg⟩
        · cases h2
      · cases h1
    · cases h0
  · cases h0

/-- Operations between two iterations of a range of `twoPairs`: an entity without component 0 gets none, one with it is destroyed
and another one is made. -/
def between : List (CbOp Nat) := [.set ⟨0, 0⟩ 0 11, .destroy ⟨1, 0⟩, .create [(1, 7)], .destroy ⟨2, 0⟩]

/-- Decides `OldRun`. -/
def oldRun (ty : Types) : Reg V → List (CbOp V) → Option (Reg V)
  | r, [] => some r
  | r, op :: ops =>
    match op with
    | .create vals =>
      match r.create ty vals with
      | .ok r1 _ => if (vals.map Prod.fst).Nodup ∧ r.pool.nextId + 1 < U32 ∧ r1.archs.arches.length = r.archs.arches.length then oldRun ty r1 ops else none
      | _ => none
    | .destroy h =>
      match r.destroy h with
      | .ok r1 _ => if r1.archs.arches.length = r.archs.arches.length then oldRun ty r1 ops else none
      | _ => none
    | .set h c v =>
      match r.set ty h c v with
      | .ok r1 _ => if r1.archs.arches.length = r.archs.arches.length then oldRun ty r1 ops else none
      | _ => none
    | .remove h c =>
      match r.remove ty h c with
      | .ok r1 _ => if r1.archs.arches.length = r.archs.arches.length then oldRun ty r1 ops else none
      | _ => none

theorem oldRun_sound : ∀ {ops : List (CbOp V)} {r r' : Reg V}, oldRun ty r ops = some r' → OldRun ty r ops r'
  | [], r, r', h => by cases h; exact .nil _
  | op :: ops, r, r', h => by
    unfold oldRun at h
    cases op with
    | create vals =>
      simp only at h
      split at h
      · rename_i r1 g hc
        split at h
        · rename_i hb
          exact .cons (.create hb.1 hb.2.1 hc) hb.2.2 (oldRun_sound h)
        · cases h
      · cases h
    | destroy g =>
      simp only at h
      split at h
      · rename_i r1 _ hc
        split at h
        · rename_i hb
          exact .cons (.destroy hc) hb (oldRun_sound h)
        · cases h
      · cases h
    | set g c v =>
      simp only at h
      split at h
      · rename_i r1 _ hc
        split at h
        · rename_i hb
          exact .cons (.set hc) hb (oldRun_sound h)
        · cases h
      · cases h
    | remove g c =>
      simp only at h
      split at h
      · rename_i r1 _ hc
        split at h
        · rename_i hb
          exact .cons (.remove hc) hb (oldRun_sound h)
        · cases h
      · cases h

/-- A range that showed two entities shows one of them, changed, after the operations. -/
example : ∃ (s : Sys Nat) (W : Spec.World Nat) (g : ViewRange) (cs : List (List Loc)) (r' r1 : Reg Nat), Reachable smallTy s W ∧ s.pend 0 = 0 ∧
    (ViewRange.fresh [none, some 0]).iterate (s.reg 0) = some (g, cs) ∧ cs.flatten.length = 2 ∧ OldRun smallTy (s.reg 0) between r' ∧
    g.each r' [] (fun _ _ => 0) = .done r1 [[.ent ⟨0, 0⟩, .comp 11]] := by
  have h0 : (match (ViewRange.fresh [none, some 0]).iterate (((exec smallTy twoPairs).get twoPairs_isSome).1.reg 0) with
      | some (g, cs) => decide (cs.flatten.length = 2) &&
        (match oldRun smallTy (((exec smallTy twoPairs).get twoPairs_isSome).1.reg 0) between with
          | some r' => (match g.each r' [] (fun _ _ => 0) with | .done _ ts => decide (ts = [[.ent ⟨0, 0⟩, .comp 11]]) | _ => false)
          | _ => false)
      | _ => false) = true := by decide +kernel
  split at h0
  · rename_i g cs hi
    simp only [Bool.and_eq_true, decide_eq_true_eq] at h0
    obtain ⟨h1, h2⟩ := h0
    split at h2
    · rename_i r' ho
      split at h2
      · rename_i r1 ts he
        have ht := of_decide_eq_true h2
        subst ht
        exact ⟨_, _, g, cs, r', r1, exec_get twoPairs twoPairs_isSome, by decide +kernel, hi, h1, oldRun_sound ho, he⟩
      · cases h2
    · cases h2
  · cases h0

/-- The map of archetypes does grow: fourteen archetypes after the first. -/
example : ∃ (s : Sys Nat) (W : Spec.World Nat) (g : ViewRange) (cs : List (List Loc)) (r' : Reg Nat), Reachable smallTy s W ∧
    (ViewRange.fresh [none, some 5]).iterate (s.reg 0) = some (g, cs) ∧
    Reg.acts 0 (s.reg 0) true ((createsEach fourteen []).map (CbOp.call smallTy)) = .ok (r', true) () ∧
    r'.archs.map.n ≠ (s.reg 0).archs.map.n := by
  have h0 : (match (ViewRange.fresh [none, some 5]).iterate (((exec smallTy ([.on 0 (.create [(5, 10)])] : List (SysOp Nat))).get oneOfFive_isSome).1.reg 0) with
      | some _ =>
        (match Reg.acts 0 (((exec smallTy ([.on 0 (.create [(5, 10)])] : List (SysOp Nat))).get oneOfFive_isSome).1.reg 0) true
            ((createsEach fourteen []).map (CbOp.call smallTy)) with
          | .ok (r', true) _ => decide (r'.archs.map.n ≠ (((exec smallTy ([.on 0 (.create [(5, 10)])] : List (SysOp Nat))).get oneOfFive_isSome).1.reg 0).archs.map.n)
          | _ => false)
      | _ => false) = true := by decide +kernel
  split at h0
  · rename_i x hi
    split at h0
    · rename_i r' u hc
      exact ⟨_, _, x.1, x.2, r', exec_get _ oneOfFive_isSome, hi, hc, of_decide_eq_true h0⟩
    · cases h0
  · cases h0

end CoEcs.Props
