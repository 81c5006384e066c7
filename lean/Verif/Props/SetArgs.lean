import Verif.Model.SetArgs
import Verif.Props.Registry

/-!
# `set` gives one value, whatever was there (C100)
-/

namespace CoEcs.Props
open CoEcs Spec

variable {V A : Type} {ty : Types} {s : Sys V} {W : World V}

/-- `set(args...)` is `set` of the value made with braces if the component is there and with parentheses
if it is not. -/
theorem setArgs_eq (ini : Inits A V) (ty : Types) (r : Reg V) (h : Handle) (c : Nat) (a : A) :
    r.setArgs ini ty h c a = r.set ty h c (if r.has h [c] = .ok true then ini.brace c a else ini.paren c a) := by
  generalize hv : (if r.has h [c] = .ok true then ini.brace c a else ini.paren c a) = v
  have hb : r.has h [c] = .ok true → v = ini.brace c a := fun e => by rw [← hv, if_pos e]
  have hp : r.has h [c] ≠ .ok true → v = ini.paren c a := fun e => by rw [← hv, if_neg e]
  clear hv
  unfold Reg.setArgs Reg.set Reg.setImpl
  unfold Reg.has at hb hp
  cases hl : r.location h with
  | ub => rfl
  | throw e => rfl
  | ok l =>
    simp only [hl] at hb hp ⊢
    cases ha : r.archOf l with
    | none => rfl
    | some x =>
      obtain ⟨ai, ar⟩ := x
      simp only [ha] at hb hp ⊢
      by_cases hc : ar.contains c = true
      · have := hb (by simp [hc])
        subst this
        simp only [hc, if_true, Bool.false_eq_true, if_false]
        split <;> simp_all
      · have := hp (by simp [hc])
        subst this
        simp only [hc]
        cases r.archs.ensureAdded ai (ty.info c) with
        | ub => rfl
        | throw s e => rfl
        | ok s ni =>
          simp only
          cases ({ r with archs := s } : Reg V).relocate h l ai ni with
          | none => rfl
          | some y =>
            simp only [Bool.false_eq_true, if_false, if_true]
            split <;> simp_all

/-- **C100** (exact value): in every reachable state, a call `set<C>(args...)` that returns leaves `C{ args... }`
if the entity had `C` and `C(args...)` if it had not; nothing else changes. -/
theorem C100_set_value (hr : Reachable ty s W) (ini : Inits A V) {i : Nat} {h : Handle} {c : Nat} {a : A} {r' : Reg V}
    (hs : (s.reg i).setArgs ini ty h c a = .ok r' ()) :
    (((s.reg i).has h [c] = .ok true ∧ r'.get h c = .ok (ini.brace c a)) ∨
      ((s.reg i).has h [c] = .ok false ∧ r'.get h c = .ok (ini.paren c a))) ∧ r'.has h [c] = .ok true ∧
    (∀ c', c' ≠ c → r'.get h c' = (s.reg i).get h c' ∧ r'.has h [c'] = (s.reg i).has h [c']) ∧
    (∀ h', r'.alive h' = (s.reg i).alive h') ∧ ∀ h', h' ≠ h → Same (s.reg i) r' h' := by
  rw [setArgs_eq] at hs
  obtain ⟨h1, h2⟩ := C18_set_one_component hr hs
  refine ⟨?_, h2⟩
  have R := (hr.inv i).rep
  cases hw : W i h with
  | none => rw [R.set_none hw] at hs; cases hs
  | some d =>
    rw [R.has_some hw] at h1 ⊢
    simp only [List.all_cons, List.all_nil, Bool.and_true, Obs.ok.injEq] at h1 ⊢
    cases hb : (d c).isSome with
    | true => rw [hb] at h1; exact .inl ⟨rfl, h1⟩
    | false => rw [hb] at h1; exact .inr ⟨rfl, h1⟩

/-- **C100** (commands): the value left by a command `set<C>(args...)` that is flushed: braces around the
arguments, and once more around the value if the entity has `C`. -/
theorem C100_command_value (hr : Reachable ty s W) (ini : Inits A V) {i : Nat} {h : Handle} {c : Nat} {a : A} {r' : Reg V}
    (hs : (s.reg i).setCommand ini ty h c a = .ok r' ()) :
    ((s.reg i).has h [c] = .ok true ∧ r'.get h c = .ok (ini.rebrace c (ini.brace c a))) ∨
      ((s.reg i).has h [c] = .ok false ∧ r'.get h c = .ok (ini.brace c a)) :=
  (C100_set_value hr _ hs).1

/-- **C100** (`get_or_insert`): returns what was there, or `C(args...)` if there was nothing. -/
theorem C100_get_or_insert (ini : Inits A V) (r : Reg V) (h : Handle) (c : Nat) (a : A) :
    r.insertArgs ini ty h c a = r.getOrInsert ty h c (ini.paren c a) := rfl

/-- **C100** (partial: braces and parentheses make the same value, and braces around a value of the type
copy it): in every reachable state direct `set`, whatever the entity had before, and the command leave
`C(args...)`. -/
theorem C100_same_value_partial (hr : Reachable ty s W) (ini : Inits A V) {i : Nat} {h : Handle} {c : Nat} {a : A}
    (same : ini.brace c a = ini.paren c a) (copies : ∀ v, ini.rebrace c v = v) :
    (s.reg i).setArgs ini ty h c a = (s.reg i).set ty h c (ini.paren c a) ∧
    (s.reg i).setCommand ini ty h c a = (s.reg i).set ty h c (ini.paren c a) ∧
    ∀ r', (s.reg i).setArgs ini ty h c a = .ok r' () → r'.get h c = .ok (ini.paren c a) := by
  have h1 : (s.reg i).setArgs ini ty h c a = (s.reg i).set ty h c (ini.paren c a) := by
    rw [setArgs_eq, same, ite_self]
  refine ⟨h1, ?_, fun r' hs => ?_⟩
  · unfold Reg.setCommand Reg.setValue
    rw [setArgs_eq]
    simp only [copies, ite_self, same]
  · rw [h1] at hs
    exact (C18_set_one_component hr hs).1

/-- **C100** fails for every type and every arguments for which braces and parentheses differ, in every
reachable state with an entity without the component: the same call, made twice, leaves two values. -/
theorem C100_violated_twice (hr : Reachable ty s W) (ini : Inits A V) {i : Nat} {h : Handle} {c : Nat} {a : A} {r' : Reg V}
    (differ : ini.brace c a ≠ ini.paren c a) (absent : (s.reg i).has h [c] = .ok false)
    (hs : (s.reg i).setArgs ini ty h c a = .ok r' ()) :
    ∃ r'', r'.setArgs ini ty h c a = .ok r'' () ∧ r'.get h c = .ok (ini.paren c a) ∧
      r''.get h c = .ok (ini.brace c a) ∧ r''.get h c ≠ r'.get h c := by
  obtain ⟨h1, h2, _⟩ := C100_set_value hr ini hs
  rcases h1 with ⟨h1, _⟩ | ⟨_, h1⟩
  · rw [absent] at h1; cases h1
  have hs' := hs
  rw [setArgs_eq, if_neg (by rw [absent]; simp)] at hs'
  have R := (hr.inv i).rep
  cases hw : W i h with
  | none => rw [R.set_none hw] at hs'; cases hs'
  | some d =>
    rcases R.set hw c (ini.paren c a) with ⟨q1, _⟩ | ⟨r1, q1, _, q3, _⟩ | ⟨r1, q1, _⟩
    · rw [hs'] at q1; cases q1
    · rw [hs'] at q1
      cases q1
      have hwh : World.put (W i) h (some fun x => if x = c then some (ini.paren c a) else d x) h = _ := put_self
      rcases q3.setImpl hwh c (ini.brace c a) with ⟨v0, l, r2, e1, e2, e3, e4, e5⟩ | ⟨e1, _⟩
      · have hset : r'.set ty h c (ini.brace c a) = .ok r2 () := by
          unfold Reg.set; simp only [e2, e4]
        refine ⟨r2, by rw [setArgs_eq, h2, if_pos rfl]; exact hset, h1, ?_, ?_⟩
        · exact e5.2.1.get_some put_self (by simp)
        · rw [h1, e5.2.1.get_some put_self (c := c) (v := ini.brace c a) (by simp)]
          simpa using differ
      · simp at e1
    · rw [hs'] at q1; cases q1

/-- **C100** fails between the call and the command in the same way. -/
theorem C100_violated_command (hr : Reachable ty s W) (ini : Inits A V) {i : Nat} {h : Handle} {c : Nat} {a : A}
    {r' r'' : Reg V} (differ : ini.brace c a ≠ ini.paren c a) (absent : (s.reg i).has h [c] = .ok false)
    (hs : (s.reg i).setArgs ini ty h c a = .ok r' ()) (hc : (s.reg i).setCommand ini ty h c a = .ok r'' ()) :
    r''.get h c ≠ r'.get h c := by
  rcases (C100_set_value hr ini hs).1 with ⟨h1, _⟩ | ⟨_, h1⟩
  · rw [absent] at h1; cases h1
  rcases C100_command_value hr ini hc with ⟨h2, _⟩ | ⟨_, h2⟩
  · rw [absent] at h2; cases h2
  rw [h1, h2]
  simpa using differ

/-! ### Witness: `std::vector<int>` as component -/

/-- `std::vector<int>(n, x)` is `n` times `x`, `std::vector<int>{ n, x }` the list; braces around a vector copy
it. -/
def vectorInits : Inits (Nat × Nat) (List Nat) :=
  ⟨fun _ a => List.replicate a.1 a.2, fun _ a => [a.1, a.2], fun _ v => v⟩

/-- `std::vector<std::any>` with numbers written as empty lists: braces around a vector make a vector of one
element. -/
inductive Nested where
  | node (l : List Nested)

def nestedInits : Inits (List Nested) Nested := ⟨fun _ a => .node a, fun _ a => .node a, fun _ v => .node [v]⟩

/-- One entity with component 0. -/
def vectorOps : List (SysOp (List Nat)) := [.on 0 (.create [(0, [7])])]

theorem vectorOps_isSome : (exec smallTy vectorOps).isSome = true := by decide +kernel

def vectorSys : Sys (List Nat) := ((exec smallTy vectorOps).get vectorOps_isSome).1

theorem vector_reachable : ∃ W, Reachable smallTy vectorSys W := ⟨_, exec_get vectorOps vectorOps_isSome⟩

/-- `e.set<C>(3, 5)` leaves 5, 5, 5; made again it leaves 3, 5. -/
theorem C100_violated_vector : ∃ (s : Sys (List Nat)) (W : World (List Nat)) (r' r'' : Reg (List Nat)),
    Reachable smallTy s W ∧ (s.reg 0).setArgs vectorInits smallTy ⟨0, 0⟩ 1 (3, 5) = .ok r' () ∧
    r'.setArgs vectorInits smallTy ⟨0, 0⟩ 1 (3, 5) = .ok r'' () ∧ r'.get ⟨0, 0⟩ 1 = .ok [5, 5, 5] ∧
    r''.get ⟨0, 0⟩ 1 = .ok [3, 5] := by
  obtain ⟨W, hr⟩ := vector_reachable
  obtain ⟨r', b, h⟩ := okOf_eq (x := (vectorSys.reg 0).setArgs vectorInits smallTy ⟨0, 0⟩ 1 (3, 5)) (by decide +kernel)
  obtain ⟨r'', h1, h2, h3, _⟩ := C100_violated_twice hr vectorInits (a := (3, 5)) (by decide)
    (show (vectorSys.reg 0).has ⟨0, 0⟩ [1] = .ok false by decide +kernel) h
  exact ⟨vectorSys, W, r', r'', hr, h, h1, h2, h3⟩

/-- The hypotheses of the partial statement hold for `std::vector<int>` when the two ways agree: two
twos. -/
example : vectorInits.brace 1 (2, 2) = vectorInits.paren 1 (2, 2) ∧ (∀ v, vectorInits.rebrace 1 v = v) ∧
    ∃ r', (vectorSys.reg 0).setArgs vectorInits smallTy ⟨0, 0⟩ 1 (2, 2) = .ok r' () := by
  refine ⟨by decide, fun _ => rfl, ?_⟩
  obtain ⟨r', b, h⟩ := okOf_eq (x := (vectorSys.reg 0).setArgs vectorInits smallTy ⟨0, 0⟩ 1 (2, 2)) (by decide +kernel)
  exact ⟨r', h⟩

/-- With `nestedInits` braces and parentheses agree and yet a command leaves another value than the call on an
entity that has the component. -/
theorem C100_violated_nested {s : Sys Nested} {W : World Nested} (hr : Reachable ty s W) {i : Nat} {h : Handle} {c : Nat}
    {a : List Nested} {r' r'' : Reg Nested} (present : (s.reg i).has h [c] = .ok true)
    (hs : (s.reg i).setArgs nestedInits ty h c a = .ok r' ()) (hc : (s.reg i).setCommand nestedInits ty h c a = .ok r'' ()) :
    r'.get h c = .ok (.node a) ∧ r''.get h c = .ok (.node [.node a]) := by
  refine ⟨?_, ?_⟩
  · rcases (C100_set_value hr _ hs).1 with ⟨_, h1⟩ | ⟨h1, _⟩
    · exact h1
    · rw [present] at h1; cases h1
  · rcases C100_command_value hr _ hc with ⟨_, h1⟩ | ⟨h1, _⟩
    · exact h1
    · rw [present] at h1; cases h1

def nestedOps : List (SysOp Nested) := [.on 0 (.create [(0, .node [])])]

theorem nestedOps_isSome : (exec smallTy nestedOps).isSome = true := by decide +kernel

/-- Such calls exist. -/
example : ∃ r' r'', (((exec smallTy nestedOps).get nestedOps_isSome).1.reg 0).setArgs nestedInits smallTy ⟨0, 0⟩ 0 [.node []] = .ok r' () ∧
    (((exec smallTy nestedOps).get nestedOps_isSome).1.reg 0).setCommand nestedInits smallTy ⟨0, 0⟩ 0 [.node []] = .ok r'' () ∧
    (((exec smallTy nestedOps).get nestedOps_isSome).1.reg 0).has ⟨0, 0⟩ [0] = .ok true := by
  obtain ⟨r', b, h⟩ := okOf_eq (x := (((exec smallTy nestedOps).get nestedOps_isSome).1.reg 0).setArgs nestedInits smallTy ⟨0, 0⟩ 0 [.node []]) (by decide +kernel)
  obtain ⟨r'', b', h'⟩ := okOf_eq (x := (((exec smallTy nestedOps).get nestedOps_isSome).1.reg 0).setCommand nestedInits smallTy ⟨0, 0⟩ 0 [.node []]) (by decide +kernel)
  exact ⟨r', r'', h, h', by decide +kernel⟩

end CoEcs.Props
