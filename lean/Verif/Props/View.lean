import Verif.Proofs.ViewSpec
import Verif.Props.Registry
import Verif.Props.ParallelFor

/-!
# Properties of views and of registries after a failed creation (C20, C23, C24, C59, C60)

The arguments of a view are a list: `none` for the entity, `some c` for component `c`.  `callOf` and
`has` say what should be seen, in terms of single entities.
-/

namespace CoEcs.Props
open CoEcs Spec

variable {V : Type} {ty : Types} {s : Sys V} {W : Spec.World V}

/-! ## Histories without failed allocation of an archetype -/

/-- Run allowed operations in which every component list fits. -/
def execFit (ty : Types) (s : Sys V) (W : Spec.World V) : List (SysOp V) → Option (Sys V × Spec.World V)
  | [] => some (s, W)
  | op :: ops =>
    if s.Allowed op then
      match s.step ty op with
      | none => none
      | some (s', out) => if out = .throw .insufficientChunkSize then none else execFit ty s' (W.step op out) ops
    else none

theorem execFit_reach {s' : Sys V} {W' : Spec.World V} (ops : List (SysOp V)) (h : Reach ty (NoFailedFit ty) s W)
    (he : execFit ty s W ops = some (s', W')) : Reach ty (NoFailedFit ty) s' W' := by
  induction ops generalizing s W with
  | nil => simp [execFit] at he; obtain ⟨rfl, rfl⟩ := he; exact h
  | cons op ops ih =>
    unfold execFit at he
    split at he
    · rename_i ha
      cases hs : s.step ty op with
      | none => rw [hs] at he; cases he
      | some x =>
        obtain ⟨s1, out⟩ := x
        rw [hs] at he
        simp only at he
        split at he
        · cases he
        · rename_i hne
          refine ih (.step h ha (fun s2 h2 => ?_) hs) he
          rw [hs] at h2
          simp only [Option.some.injEq, Prod.mk.injEq] at h2
          exact hne h2.2
    · cases he

theorem sampleFit_isSome : (execFit smallTy Sys.init (fun _ _ => none) sampleReg).isSome = true := by decide +kernel

def fitSys : Sys Nat := ((execFit smallTy Sys.init (fun _ _ => none) sampleReg).get sampleFit_isSome).1

theorem fit_reach : ∃ W, Reach smallTy (NoFailedFit smallTy) fitSys W :=
  ⟨_, execFit_reach sampleReg .init (Option.some_get sampleFit_isSome).symm⟩

/-! ## C23 -/

/-- Every component is larger than a chunk. -/
def hugeTy : Types := ⟨fun c => ⟨c, if c = 7 then 17000 else 4, 4, true⟩, fun _ => rfl⟩

/-- An entity, then the creation of one that does not fit, which throws. -/
def failedCreate : List (SysOp Nat) := [.on 0 (.create [(0, 10)]), .on 0 (.create [(7, 1)])]

theorem failedCreate_isSome : (exec hugeTy failedCreate).isSome = true := by decide +kernel

/-- **C23 is violated**: after a creation that threw, iteration over the entities that were there before
is undefined behaviour. -/
theorem C23_each_after_failure_violated :
    ∃ (ty : Types) (s : Sys Nat) (W : Spec.World Nat) (h : Handle), Reachable ty s W ∧ (s.reg 0).get h 0 = .ok 10 ∧
      ∀ f, (s.reg 0).each [some 0] [] f = .ub := by
  refine ⟨hugeTy, _, _, ⟨0, 0⟩, exec_get failedCreate failedCreate_isSome, by decide +kernel, ?_⟩
  intro f
  have : ((((exec hugeTy failedCreate).get failedCreate_isSome).1.reg 0).viewChunks [some 0]).isNone = true := by decide +kernel
  rw [Option.isNone_iff_eq_none] at this
  simp [Reg.each, this]

/-- **C23**: along every history in which every component list fitted into a chunk, `each` calls the
function exactly once for every entity that has all components, with its own handle and values, and for
nothing else, also if the function writes to components. -/
theorem C23_each_visits_matching_partial (hr : Reach ty (NoFailedFit ty) s W) (i : Nat) (args : List BlockId) (muts : List Nat)
    (hmut : ∀ c ∈ muts, some c ∈ args) (f : List (Val V) → Nat → V) :
    ∃ (r' : Reg V) (calls : List (List (Val V))) (hs : List Handle), (s.reg i).each args muts f = .ok r' calls ∧ hs.Nodup ∧
      (∀ h, h ∈ hs ↔ (s.reg i).has h (compsOf args) = .ok true) ∧ hs.map (callOf (s.reg i) args) = calls.map some := by
  have R := (hr.inv i).rep
  obtain ⟨r', ts, hs, h1, h2, h3, h4, h5, h6, h7⟩ := R.each (Reach.noNull hr (fun _ _ h => h) i) args muts hmut f
  refine ⟨r', ts, hs, h1, h2, fun h => by rw [h3, R.matches_iff], ?_⟩
  rw [← h4]
  apply List.map_congr_left
  intro h hh
  obtain ⟨d, hd, _⟩ := (h3 h).1 hh
  rw [R.callOf hd, hd]; rfl

/-- Two of the three entities have component 2 and component 0; they are visited with their handles. -/
example : (match fitSys.reg 0 |>.each [none, some 2, some 0] [] (fun _ c => c) with
    | .ok _ calls => calls
    | _ => []) = [[.ent ⟨0, 0⟩, .comp 12, .comp 10], [.ent ⟨2, 1⟩, .comp 12, .comp 10]] := by decide +kernel

/-- **C23** (exactly when): in every reachable state, iteration is undefined behaviour exactly if the map
holds a null pointer; otherwise it does what C23 says. -/
theorem C23_each_undefined_exactly_partial (hr : Reachable ty s W) (i : Nat) (args : List BlockId) (muts : List Nat)
    (hmut : ∀ c ∈ muts, some c ∈ args) (f : List (Val V) → Nat → V) :
    ∃ ps, (s.reg i).viewPtrs = some ps ∧ ((s.reg i).each args muts f = .ub ↔ none ∈ ps) ∧
      (none ∉ ps → ∃ (r' : Reg V) (calls : List (List (Val V))) (hs : List Handle), (s.reg i).each args muts f = .ok r' calls ∧ hs.Nodup ∧
        (∀ h, h ∈ hs ↔ (s.reg i).has h (compsOf args) = .ok true) ∧ hs.map (callOf (s.reg i) args) = calls.map some) := by
  have R := (hr.inv i).rep
  obtain ⟨ps, p1, p2, p3, p4, p5, p6⟩ := R.viewPtrs
  have key : none ∉ ps → ∃ (r' : Reg V) (calls : List (List (Val V))) (hs : List Handle), (s.reg i).each args muts f = .ok r' calls ∧ hs.Nodup ∧
        (∀ h, h ∈ hs ↔ (s.reg i).has h (compsOf args) = .ok true) ∧ hs.map (callOf (s.reg i) args) = calls.map some := by
    intro hn
    obtain ⟨r', ts, hs, h1, h2, h3, h4, h5, h6, h7⟩ := R.each (p6 hn) args muts hmut f
    refine ⟨r', ts, hs, h1, h2, fun h => by rw [h3, R.matches_iff], ?_⟩
    rw [← h4]
    apply List.map_congr_left
    intro h hh
    obtain ⟨d, hd, _⟩ := (h3 h).1 hh
    rw [R.callOf hd, hd]; rfl
  refine ⟨ps, p1, ⟨fun hu => ?_, fun hm => ?_⟩, key⟩
  · apply Classical.byContradiction
    intro hn
    obtain ⟨r', calls, hs, h1, _⟩ := key hn
    rw [hu] at h1; cases h1
  · have := R.view_null (fun hn => p4 hn hm) args
    simp [Reg.each, this]

/-! ## C24 -/

/-- A creation that throws. -/
def onlyFailed : List (SysOp Nat) := [.on 0 (.create [(7, 1)])]

theorem onlyFailed_isSome : (exec hugeTy onlyFailed).isSome = true := by decide +kernel

/-- **C24 is violated**: in a registry in which a creation has thrown, `single()` is undefined behaviour. -/
theorem C24_single_after_failure_violated :
    ∃ (ty : Types) (s : Sys Nat) (W : Spec.World Nat), Reachable ty s W ∧ (s.reg 0).single [some 0] = .ub := by
  refine ⟨hugeTy, _, _, exec_get onlyFailed onlyFailed_isSome, ?_⟩
  have : (match (((exec hugeTy onlyFailed).get onlyFailed_isSome).1.reg 0).single [some 0] with | .ub => true | _ => false) = true := by
    decide +kernel
  split at this
  · assumption
  · cases this

/-- **C24**: along every history in which every component list fitted into a chunk, `single()` is empty
exactly if no entity has all components; otherwise it yields the values of one that has. -/
theorem C24_single_partial (hr : Reach ty (NoFailedFit ty) s W) (i : Nat) (args : List BlockId) :
    ∃ o, (s.reg i).single args = .ok o ∧ (o = none ↔ ∀ h, (s.reg i).has h (compsOf args) ≠ .ok true) ∧
      ∀ t, o = some t → ∃ h, (s.reg i).has h (compsOf args) = .ok true ∧ callOf (s.reg i) args h = some t := by
  have R := (hr.inv i).rep
  rcases R.single (Reach.noNull hr (fun _ _ h => h) i) args with ⟨h1, h2⟩ | ⟨h, d, t, h1, h2, h3, h4⟩
  · refine ⟨none, h1, ⟨fun _ h hh => ?_, fun _ => rfl⟩, fun t ht => by cases ht⟩
    obtain ⟨d, hd, hm⟩ := (R.matches_iff h args).1 hh
    exact h2 h d hd hm
  · have hm : (s.reg i).has h (compsOf args) = .ok true := (R.matches_iff h args).2 ⟨d, h1, h2⟩
    refine ⟨some t, h4, ⟨fun hn => (by cases hn), fun hn => absurd hm (hn h)⟩, fun t' ht => ?_⟩
    cases ht
    exact ⟨h, hm, by rw [R.callOf h1, h3]⟩

/-- After the destruction of `c`, the archetype of {0} still holds b; nothing has {0, 7}. -/
example : (match (fitSys.reg 0).single [some 2] with | .ok o => o | _ => none) = some [.comp 12] ∧
    (match (fitSys.reg 0).single [some 0, some 7] with | .ok o => o.isNone | _ => false) = true := by decide +kernel

/-! ## C59: writing through a view -/

/-- **C59**: after an `each` that returns, with a function that writes, exactly the components written of exactly the
matching entities have changed, to the values computed from what the entity held before; nothing else
has.  The registry could have been reached by single assignments. -/
theorem C59_each_writes_matching (hr : Reachable ty s W) (i : Nat) (args : List BlockId) (muts : List Nat)
    (hmut : ∀ c ∈ muts, some c ∈ args) (f : List (Val V) → Nat → V) {r' : Reg V} {calls : List (List (Val V))}
    (he : (s.reg i).each args muts f = .ok r' calls) :
    (∀ h t, (s.reg i).has h (compsOf args) = .ok true → callOf (s.reg i) args h = some t → ∀ c ∈ muts, r'.get h c = .ok (f t c)) ∧
    (∀ h c, c ∉ muts → r'.get h c = (s.reg i).get h c) ∧
    (∀ h, (s.reg i).has h (compsOf args) ≠ .ok true → Same (s.reg i) r' h) ∧
    (∀ h cs, r'.has h cs = (s.reg i).has h cs) ∧ (∀ h, r'.alive h = (s.reg i).alive h) ∧ r'.size = (s.reg i).size ∧
    ∃ W', Reachable ty (s.setReg i r') W' := by
  have R := (hr.inv i).rep
  have hn : NoNull (s.reg i).archs := Classical.byContradiction fun hn => by
    simp [Reg.each, R.view_null hn args] at he
  obtain ⟨r1, ts, hs, h1, h2, h3, h4, R', h6, _, h7⟩ := R.each hn args muts hmut f
  rw [he] at h1
  cases h1
  have hal : ∀ h, r'.alive h = (s.reg i).alive h := fun h => by unfold Reg.alive; rw [h6]
  have hcall : ∀ h d, W i h = some d → Matches args d → ∃ t, tupleOf h d args = some t ∧
      called args muts f h d = written muts (f t) d := by
    intro h d _ hm
    obtain ⟨t, ht⟩ := hm.tuple (h := h)
    exact ⟨t, ht, by simp [called, ht]⟩
  refine ⟨?_, ?_, ?_, ?_, hal, ?_, ?_⟩
  · intro h t hm hc c hcm
    obtain ⟨d, hd, hmt⟩ := (R.matches_iff h args).1 hm
    rw [R.callOf hd] at hc
    obtain ⟨t', e1, e2⟩ := hcall h d hd hmt
    rw [hc] at e1; cases e1
    have hW : (fun h => if h ∈ hs then (W i h).map (called args muts f h) else W i h) h = some (written muts (f t) d) := by
      simp only [if_pos ((h3 h).2 ⟨d, hd, hmt⟩), hd, Option.map_some, e2]
    exact R'.get_some hW (by simp [written, hcm])
  · intro h c hcm
    rw [R.get_eq, R'.get_eq]
    by_cases hh : h ∈ hs
    · obtain ⟨d, hd, hmt⟩ := (h3 h).1 hh
      obtain ⟨t, _, e2⟩ := hcall h d hd hmt
      simp only [if_pos hh, hd, Option.map_some, e2, written, if_neg hcm]
    · simp only [if_neg hh, hal]
  · intro h hn
    refine R.same R' ?_ (hal h)
    have : h ∉ hs := fun hh => hn ((R.matches_iff h args).2 ((h3 h).1 hh))
    simp [this]
  · intro h cs
    rw [R.has_eq, R'.has_eq]
    by_cases hh : h ∈ hs
    · obtain ⟨d, hd, hmt⟩ := (h3 h).1 hh
      obtain ⟨t, _, e2⟩ := hcall h d hd hmt
      simp only [if_pos hh, hd, Option.map_some, e2]
      congr 2
      funext c
      simp only [written]
      split
      · rename_i hc
        obtain ⟨v, hv⟩ := hmt c (hmut c hc)
        simp [hv]
      · rfl
    · simp only [if_neg hh, hal]
  · refine R.size_dom R' (fun h => ?_)
    split
    · cases W i h <;> simp
    · rfl
  · exact Reach.assigns (fun _ _ _ _ _ _ => trivial) h7 hr rfl

/-- The function may compute from all its arguments:
`each([](entity, A&, const B& b) { a = b + 1 })` over the entities with components 2 and 0. -/
example : (match (fitSys.reg 0).each [none, some 2, some 0] [2] (fun t _ => match t with | [_, _, .comp v] => v + 1 | _ => 0) with
    | .ok r' _ => [r'.get ⟨0, 0⟩ 2, r'.get ⟨2, 1⟩ 2, r'.get ⟨0, 0⟩ 0, r'.get ⟨1, 0⟩ 0]
    | _ => []) = [.ok 11, .ok 11, .ok 10, .ok 20] := by decide +kernel

/-! ## C60: par_each and each agree -/

/-- **C60**: for every number of workers and every interleaving of the tasks, `par_each` has the same
calls as `each`, up to their order, and leaves a registry that gives the same answers; it is undefined
behaviour exactly if `each` is. -/
theorem C60_par_each_agrees (hr : Reachable ty s W) (i : Nat) {workers : Nat} (hw : 0 < workers)
    (args : List BlockId) (muts : List Nat) (hmut : ∀ c ∈ muts, some c ∈ args) (f : List (Val V) → Nat → V) :
    (∃ out, Reg.ParEach workers (s.reg i) args muts f out) ∧
    (((s.reg i).each args muts f = .ub ∧ ∀ out, Reg.ParEach workers (s.reg i) args muts f out → out = .ub) ∨
    ∃ r1 calls1, (s.reg i).each args muts f = .ok r1 calls1 ∧
      ∀ out, Reg.ParEach workers (s.reg i) args muts f out →
        ∃ r2 calls2, out = .ok r2 calls2 ∧ calls2.Perm calls1 ∧ (∀ h, Same r1 r2 h) ∧ r2.size = r1.size) := by
  have R := (hr.inv i).rep
  by_cases hn : NoNull (s.reg i).archs
  rotate_left
  · have hv := R.view_null hn args
    refine ⟨⟨_, .null hv⟩, .inl ⟨by simp [Reg.each, hv], fun out ho => ?_⟩⟩
    cases ho with
    | null => rfl
    | bad => rfl
    | run h => rw [hv] at h; cases h
  obtain ⟨cs, c1, c2, c3⟩ := R.view hn args
  obtain ⟨r1, ts, hs, h1, h2, h3, h4, R1, h6, _, _⟩ := R.each hn args muts hmut f
  obtain ⟨p, log, p1, p2⟩ := C25_par_each_executions_exist workers cs hw
  refine ⟨⟨_, .run c1 p1 p2⟩, .inr ⟨r1, ts, h1, ?_⟩⟩
  intro out ho
  cases ho with
  | null h => rw [c1] at h; cases h
  | bad h hb => rw [c1] at h; cases h; exact absurd p1 (hb p)
  | @run cs' p' log' h hp he =>
    rw [c1] at h; cases h
    obtain ⟨p2, q1, q2⟩ := C25_par_each workers cs hw
    rw [hp] at q1; cases q1
    obtain ⟨r2, ts2, hs2, e1, e2, e3, e4, R2, e6, _, _⟩ := R.eachPerm hn args muts hmut f c1 (q2 log' he)
    have hp : hs2.Perm hs := (List.perm_ext_iff_of_nodup e2 h2).2 fun h => by rw [e3, h3]
    have hW : (fun h => if h ∈ hs2 then (W i h).map (called args muts f h) else W i h) =
        fun h => if h ∈ hs then (W i h).map (called args muts f h) else W i h := by
      funext h
      simp only [hp.mem_iff]
    refine ⟨r2, ts2, e1, ?_, fun h => ?_, ?_⟩
    · have := hp.map (fun h => (W i h).bind fun d => tupleOf h d args)
      rw [e4, h4] at this
      have := this.filterMap id
      simpa [List.filterMap_map] using this
    · exact R1.same R2 (congrFun hW h) (by unfold Reg.alive; rw [h6, e6])
    · rw [hW] at R2
      exact R1.size_eq R2

/-- The hypotheses hold for the sample history, in which the view has three chunks, one of them empty. -/
example : ∃ W, Reach smallTy (NoFailedFit smallTy) fitSys W ∧ ((fitSys.reg 0).viewChunks [some 0]).map (List.map List.length) = some [1, 0, 2] := by
  obtain ⟨W, h⟩ := fit_reach
  exact ⟨W, h, by decide +kernel⟩

/-! ## C20 -/

/-- **C20 is violated** by every `create` that throws because its components do not fit: afterwards every
iteration over any view is undefined behaviour, and an id has been taken that is alive but not usable. -/
theorem C20_failed_create_violated (hr : Reachable ty s W) {i : Nat} {args : List (Nat × V)} (ha : s.Allowed (.on i (.create args)))
    {r' : Reg V} {e : Exn} (hc : (s.reg i).create ty args = .throw r' e) :
    (∀ vargs muts f, r'.each vargs muts f = .ub) ∧
    ∃ h, (s.reg i).pool.create = some (r'.pool, h) ∧ r'.alive h = true ∧ (∀ c, r'.get h c = .throw .outOfRange) ∧
      r'.destroy h = .throw r' .outOfRange := by
  obtain ⟨hnd, hp, hb⟩ := ha
  have R := (hr.inv i).rep
  rw [hp] at R
  obtain ⟨p, h0, hcr, h3, hw, h4, h5, h6⟩ := R.create hb hnd
  rcases h6 with ⟨r1, q1, _⟩ | ⟨r1, q1, q2, q3, _, _, q4⟩
  · rw [hc] at q1; cases q1
  · rw [hc] at q1; cases q1
    have hal : r'.alive h0 = true := by unfold Reg.alive; rw [q2]; exact h3.alive
    refine ⟨fun vargs muts f => by simp [Reg.each, q3.view_null q4 vargs], h0, by rw [q2]; exact hcr, hal, fun c => ?_, ?_⟩
    · rw [q3.get_none hw, hal]; rfl
    · rw [q3.destroy_none hw, hal]; rfl

/-- **C20 is violated** by every `set` that throws because the new component list does not fit. -/
theorem C20_failed_set_violated (hr : Reachable ty s W) {i : Nat} {h : Handle} {c : Nat} {v : V} {r' : Reg V}
    (hc : (s.reg i).set ty h c v = .throw r' .insufficientChunkSize) : ∀ vargs muts f, r'.each vargs muts f = .ub := by
  have R := (hr.inv i).rep
  cases hw : W i h with
  | none =>
    rw [R.set_none hw] at hc
    simp only [Res.throw.injEq] at hc
    split at hc <;> simp at hc
  | some d =>
    rcases R.set hw c v with ⟨q1, _⟩ | ⟨r1, q1, _⟩ | ⟨r1, q1, _, _, q3, _, q4⟩
    · rw [hc] at q1; cases q1
    · rw [hc] at q1; cases q1
    · rw [hc] at q1; cases q1
      exact fun vargs muts f => by simp [Reg.each, q3.view_null q4.1 vargs]

def oneEntity : List (SysOp Nat) := [.on 0 (.create [(0, 10)])]

theorem oneEntity_isSome : (exec hugeTy oneEntity).isSome = true := by decide +kernel

/-- The hypotheses of both can be met. -/
example : ∃ (s : Sys Nat) (W : Spec.World Nat), Reachable hugeTy s W ∧ s.Allowed (.on 0 (.create [(0, 1), (7, 1)])) ∧
    (∃ r' e, (s.reg 0).create hugeTy [(0, 1), (7, 1)] = .throw r' e) ∧
    ∃ r', (s.reg 0).set hugeTy ⟨0, 0⟩ 7 1 = .throw r' .insufficientChunkSize := by
  refine ⟨_, _, exec_get oneEntity oneEntity_isSome, by decide +kernel, ?_, ?_⟩
  · have : (match (((exec hugeTy oneEntity).get oneEntity_isSome).1.reg 0).create hugeTy [(0, 1), (7, 1)] with
      | .throw _ _ => true | _ => false) = true := by decide +kernel
    split at this
    · exact ⟨_, _, by assumption⟩
    · cases this
  · have : (match (((exec hugeTy oneEntity).get oneEntity_isSome).1.reg 0).set hugeTy ⟨0, 0⟩ 7 1 with
      | .throw _ .insufficientChunkSize => true | _ => false) = true := by decide +kernel
    split at this
    · exact ⟨_, by assumption⟩
    · cases this

/-- **C20** (what does hold): if `create` or `set` throws, every entity is unchanged, the number of
entities is the same, and the history goes on: all other properties of reachable registries hold. -/
theorem C20_failed_same_answers_partial (hr : Reachable ty s W) {i : Nat} :
    (∀ args r' e, s.Allowed (.on i (.create args)) → (s.reg i).create ty args = .throw r' e →
      e = .insufficientChunkSize ∧ (∀ h, SameEntity (s.reg i) r' h) ∧ r'.size = (s.reg i).size ∧ Reachable ty (s.setReg i r') W) ∧
    (∀ h c v r', (s.reg i).set ty h c v = .throw r' .insufficientChunkSize →
      (∀ h', Same (s.reg i) r' h') ∧ r'.size = (s.reg i).size ∧ Reachable ty (s.setReg i r') W) := by
  have R := (hr.inv i).rep
  constructor
  · rintro args r' e ha hc
    have hs : s.step ty (.on i (.create args)) = some (s.setReg i r', .throw e) := by
      have : s.step ty (.on i (.create args)) = match withHandle ((s.reg i).create ty args) with
        | .ub => none
        | .throw r e => some (s.setReg i r, .throw e)
        | .ok r h' => some ((s.setReg i r).note i (.create args) h', .ok h') := rfl
      rw [this, hc]; rfl
    have hreach := Spec.Reach.step hr ha trivial hs
    rw [step_throw] at hreach
    obtain ⟨hnd, hp, hb⟩ := ha
    rw [hp] at R
    obtain ⟨p, h0, hcr, h3, hw, h4, h5, h6⟩ := R.create hb hnd
    rcases h6 with ⟨r1, q1, _⟩ | ⟨r1, q1, q2, q3, _, _, q4⟩
    · rw [hc] at q1; cases q1
    · rw [hc] at q1; cases q1
      exact ⟨rfl, fun h => R.sameEntity q3 rfl, R.size_eq q3, hreach⟩
  · intro h c v r' hc
    have hs : s.step ty (.on i (.set h c v)) = some (s.setReg i r', .throw .insufficientChunkSize) := by
      have : s.step ty (.on i (.set h c v)) = match noHandle ((s.reg i).set ty h c v) with
        | .ub => none
        | .throw r e => some (s.setReg i r, .throw e)
        | .ok r h' => some ((s.setReg i r).note i (.set h c v) h', .ok h') := rfl
      rw [this, hc]; rfl
    have hreach := Spec.Reach.step hr (op := .on i (.set h c v)) trivial trivial hs
    rw [step_throw] at hreach
    cases hw : W i h with
    | none =>
      rw [R.set_none hw] at hc
      simp only [Res.throw.injEq] at hc
      split at hc <;> simp at hc
    | some d =>
      rcases R.set hw c v with ⟨q1, _⟩ | ⟨r1, q1, _⟩ | ⟨r1, q1, _, q2, q3, _, q4⟩
      · rw [hc] at q1; cases q1
      · rw [hc] at q1; cases q1
      · rw [hc] at q1; cases q1
        exact ⟨fun h' => R.same q3 rfl (by unfold Reg.alive; rw [q2]), R.size_eq q3, hreach⟩

end CoEcs.Props
