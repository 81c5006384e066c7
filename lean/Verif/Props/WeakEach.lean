import Verif.Proofs.WeakEach
import Verif.Props.WeakRounds
import Verif.Props.View
import Verif.Props.RegistryStorage

/-!
# C89: parallel iteration in C++ memory
-/

namespace CoEcs.Props
open CoEcs.Weak

/-- **C89**, for every callback that keeps to its entry: calls of `par_each` one after the other, whose batches are dealt to the threads
in any way, have no data race, and leave every object as calls of `each` do. -/
theorem C89_par_each_rows {calls : List RowCall} (hg : ∀ c ∈ calls, c.Good) : ∃ phs, rowPhases calls = some phs ∧
    ∀ (N : Nat) (who : Nat → Nat → Nat) (_ : ∀ r i, who r i < N) (init : RowObj → Int) (_ : init .go = 0) (_ : init .dn = 0) (f : Nat)
      (strong : Bool) (s : St RowObj (Prog RowObj Unit)), Reach (Prog.auto RowObj) strong (.init init (roundThreads .acq .rel .go .dn N f (dealt who phs))) s →
    (∀ t c, s.step (Prog.auto RowObj) strong t c ≠ .race) ∧
    (s.mem.vals.atom .go = ((calls.length + 1 : Nat) : Int) → ∀ l, l ≠ .go → l ≠ .dn →
      s.mem.vals.atom l = (seqRows calls ⟨init, init⟩).atom l ∧ s.mem.vals.cell l = (seqRows calls ⟨init, init⟩).cell l) := by
  obtain ⟨phs, h1, h2, h3, h4⟩ := rowPhases_ok hg
  refine ⟨phs, h1, fun N who hwho init hgo hdn f strong s h => ?_⟩
  obtain ⟨r1, r2⟩ := C87_rounds (by decide) (dealt_separate h3 who) hgo hdn h
  refine ⟨r1, fun hN l hl hl' => ?_⟩
  have e1 := r2 (by rw [hN]; simp [dealt, h2]) l hl hl'
  have e2 := dealt_seq h3 hwho ⟨init, init⟩ l (.inl ⟨hl, hl'⟩)
  rw [h4] at e2
  exact ⟨e1.1.trans e2.1, e1.2.trans e2.2⟩

/-- **C89**, for a registry: memory that holds the components of the entities of a registry holds, after calls of `par_each` on any views with any
callbacks, the components of the entities of the registry that calls of `each` leave; and there is no data race. -/
theorem C89_par_each_registry {ty : Types} {s : Spec.Sys Int} {W : Spec.World Int} (hr : Spec.Reachable ty s W) (i : Nat) {calls : List EachCall}
    (hmut : ∀ c ∈ calls, ∀ x ∈ c.muts, some x ∈ c.args) {phs : List (Phase RowObj)} {r' : Reg Int}
    (he : eachPhases (s.reg i) calls = some (phs, r')) {N : Nat} {who : Nat → Nat → Nat} (hwho : ∀ r i, who r i < N)
    {init : RowObj → Int} (hgo : init .go = 0) (hdn : init .dn = 0) (hm : Mirror init (s.reg i)) {f : Nat} {strong : Bool}
    {st : St RowObj (Prog RowObj Unit)}
    (h : Reach (Prog.auto RowObj) strong (.init init (roundThreads .acq .rel .go .dn N f (dealt who phs))) st) :
    (∀ t c, st.step (Prog.auto RowObj) strong t c ≠ .race) ∧
    (st.mem.vals.atom .go = ((calls.length + 1 : Nat) : Int) → Mirror st.mem.vals.cell r') := by
  obtain ⟨h2, h3, h4⟩ := eachPhases_ok (hr.inv i).rep hmut he
  obtain ⟨r1, r2⟩ := C87_rounds (by decide) (dealt_separate h3 who) hgo hdn h
  refine ⟨r1, fun hN x l c v hx hv => ?_⟩
  have e1 := r2 (by rw [hN]; simp [dealt, h2]) (.comp c l) nofun nofun
  have e2 := dealt_seq h3 hwho ⟨init, init⟩ (.comp c l) (.inl ⟨nofun, nofun⟩)
  rw [e1.2, e2.2]
  exact h4 ⟨init, init⟩ hm x l c v hx hv

/-- The hypotheses of the theorem can be met in every history in which no component list was too large, whatever the calls. -/
theorem C89_defined {ty : Types} {s : Spec.Sys Int} {W : Spec.World Int} (hr : Spec.Reach ty (Spec.NoFailedFit ty) s W) (i : Nat) {calls : List EachCall}
    (hc : ∀ c ∈ calls, 0 < c.workers ∧ ∀ x ∈ c.muts, some x ∈ c.args) :
    (∃ x, eachPhases (s.reg i) calls = some x) ∧ ∃ init : RowObj → Int, init .go = 0 ∧ init .dn = 0 ∧ Mirror init (s.reg i) := by
  have R := (hr.inv i).rep
  exact ⟨eachPhases_some R (Reach.noNull hr (fun _ _ h => h) i) hc, mirror_exists R⟩

/-! ### Examples -/

/-- Three entities, two of them in one chunk. -/
def intReg : List (Spec.SysOp Int) :=
  [.on 0 (.create [(0, 10), (1, 11)]), .on 0 (.create [(1, 21), (0, 20)]), .on 0 (.create [(0, 30)])]

theorem intReg_isSome : (execFit smallTy Spec.Sys.init (fun _ _ => none) intReg).isSome = true := by decide +kernel

def intSys : Spec.Sys Int := ((execFit smallTy Spec.Sys.init (fun _ _ => none) intReg).get intReg_isSome).1

/-- Two calls: component 0 is doubled; then component 1 gets the sum of both. -/
def intCalls : List EachCall :=
  [⟨2, [some 0], [0], fun t _ => match t with | [.comp v] => 2 * v | _ => 0⟩,
   ⟨1, [none, some 0, some 1], [1], fun t _ => match t with | [_, .comp v, .comp w] => v + w | _ => 0⟩]

/-- The hypotheses of `C89_par_each_registry` can be met, -/
example : ∃ (W : Spec.World Int) (init : RowObj → Int) (phs : List (Phase RowObj)) (r' : Reg Int), Spec.Reachable smallTy intSys W ∧ eachPhases (intSys.reg 0) intCalls = some (phs, r') ∧
    init .go = 0 ∧ init .dn = 0 ∧ Mirror init (intSys.reg 0) := by
  have hr : Spec.Reach smallTy (Spec.NoFailedFit smallTy) intSys _ := execFit_reach intReg .init (Option.some_get intReg_isSome).symm
  have hr' := Reach.mono (Q := fun _ _ => True) (fun _ _ _ => trivial) hr
  obtain ⟨⟨⟨phs, r'⟩, h1⟩, init, h2⟩ := C89_defined hr 0 (calls := intCalls) (by
    intro c hc
    simp only [intCalls, List.mem_cons, List.not_mem_nil, or_false] at hc
    rcases hc with rfl | rfl <;> simp)
  exact ⟨_, init, phs, r', hr', h1, h2⟩

/-- and the values asserted are these: -/
example : (match eachPhases (intSys.reg 0) intCalls with
    | some (_, r) => [r.get ⟨0, 0⟩ 0, r.get ⟨0, 0⟩ 1, r.get ⟨1, 0⟩ 0, r.get ⟨1, 0⟩ 1, r.get ⟨2, 0⟩ 0]
    | none => []) = [.ok 20, .ok 31, .ok 40, .ok 61, .ok 60] := by decide +kernel

def rowA : CoEcs.Loc := ⟨some 0, 0, 0⟩
def rowB : CoEcs.Loc := ⟨some 0, 1, 0⟩

/-- Two entries in two chunks; the callback adds a number all calls read to component 0. -/
def rowCall : RowCall := ⟨2, [[rowA], [rowB]], [some 0], [0],
  fun l => .op (.read (.other 0)) fun v => .op (.read (.comp 0 l)) fun w => .op (.write (.comp 0 l) (v + w)) fun _ => .ret ()⟩

example : rowCall.Good := by
  refine ⟨by decide, by decide, fun l hl => ?_⟩
  simp [rowCall, Prog.Within, Op.Within, callFoot, Foot.has]

/-- Each call also writes the entry of the other. -/
def badCall : RowCall := ⟨2, [[rowA], [rowB]], [some 0], [0],
  fun l => .op (.write (.comp 0 (if l = rowA then rowB else rowA)) 1) fun _ => .op (.read (.comp 0 l)) fun _ => .ret ()⟩

def rowStart (c : RowCall) : St RowObj (Prog RowObj Unit) :=
  .init (fun o => if o = .other 0 then 5 else 0) (roundThreads .acq .rel .go .dn 2 2 (dealt (fun _ i => i % 2) (match rowPhases [c] with | some p => p | none => [])))

def rowRun : List (Nat × Nat) :=
  [(0, 0), (1, 1), (1, 0), (1, 0), (1, 0), (1, 0), (2, 1), (2, 0), (2, 0), (2, 0), (2, 1), (0, 2), (0, 0)]

/-- Both calls are made, by two threads. -/
example (strong : Bool) : ∃ s, Reach (Prog.auto RowObj) strong (rowStart rowCall) s ∧ s.mem.vals.atom .go = 2 ∧
    s.mem.vals.cell (.comp 0 rowA) = 5 ∧ s.mem.vals.cell (.comp 0 rowB) = 5 := by
  have h : (match (rowStart rowCall).run (Prog.auto RowObj) strong rowRun with
      | .ok s => decide (s.mem.vals.atom .go = 2) && (decide (s.mem.vals.cell (.comp 0 rowA) = 5) && decide (s.mem.vals.cell (.comp 0 rowB) = 5))
      | _ => false) = true := by cases strong <;> decide +kernel
  split at h
  · rename_i s hs
    simp only [Bool.and_eq_true, decide_eq_true_eq] at h
    exact ⟨s, Reach.run .init hs, h.1, h.2.1, h.2.2⟩
  · cases h

/-- The hypothesis on the callback is needed: a callback that writes to another entry of the view races. -/
theorem C89_needs_own_row (strong : Bool) : 0 < badCall.workers ∧ badCall.chunks.flatten.Nodup ∧
    ∃ sched, (rowStart badCall).run (Prog.auto RowObj) strong sched = .race := by
  refine ⟨by decide, by decide, [(0, 0), (1, 1), (1, 0), (1, 0), (1, 0), (2, 1), (2, 0)], isRace_iff.1 ?_⟩
  cases strong <;> decide +kernel

end CoEcs.Props
