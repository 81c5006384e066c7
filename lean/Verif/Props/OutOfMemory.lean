import Verif.Proofs.OutOfMemory
import Verif.Props.View
import Verif.Props.RegistryStorage

/-!
# Running out of memory (C104)

`MemReach ty P Q` ranges over histories in which any number of calls end because an allocation throws `std::bad_alloc`;
`Q` says which allocations, `Harmless` leaves out that of the generation of a new entity and that of the free id in a move.  The allocation for the location
of a new entity ends the program.
-/

namespace CoEcs.Props
open CoEcs Spec

variable {V : Type} {ty : Types} {s : Sys V} {W : Spec.World V}

/-! ## A concrete history -/

/-- Run calls, some of which run out of memory. -/
def execMem (ty : Types) (s : Sys V) (W : Spec.World V) : List (SysOp V ⊕ MemCall V) → Option (Sys V × Spec.World V)
  | [] => some (s, W)
  | .inl op :: ops =>
    if s.Allowed op then
      match s.step ty op with
      | none => none
      | some (s', out) => if out = .throw .insufficientChunkSize then none else execMem ty s' (W.step op out) ops
    else none
  | .inr c :: ops =>
    if s.Allowed c.op ∧ c.Harmless then
      match c.run ty s with
      | none => none
      | some s' => execMem ty s' (c.after W) ops
    else none

theorem execMem_reach {s' : Sys V} {W' : Spec.World V} (ops : List (SysOp V ⊕ MemCall V))
    (h : MemReach ty (NoFailedFit ty) MemCall.Harmless s W) (he : execMem ty s W ops = some (s', W')) :
    MemReach ty (NoFailedFit ty) MemCall.Harmless s' W' := by
  induction ops generalizing s W with
  | nil => simp [execMem] at he; obtain ⟨rfl, rfl⟩ := he; exact h
  | cons op ops ih =>
    cases op with
    | inl op =>
      unfold execMem at he
      split at he
      · rename_i ha
        cases hs : s.step ty op with
        | none => rw [hs] at he; cases he
        | some x =>
          obtain ⟨s1, out⟩ := x
          rw [hs] at he
          simp only at he
          split at he
          · cases he
          · rename_i hne
            refine ih (.step h ha (fun s2 h2 => ?_) hs) he
            rw [hs] at h2
            simp only [Option.some.injEq, Prod.mk.injEq] at h2
            exact hne h2.2
      · cases he
    | inr c =>
      unfold execMem at he
      split at he
      · rename_i ha
        cases hs : c.run ty s with
        | none => rw [hs] at he; cases he
        | some r =>
          rw [hs] at he
          exact ih (.fail h ha.1 ha.2 hs) he
      · cases he

/-- Two entities; no memory for the archetype of a third, for the component set when a component is added to the second, for
the search set when one is removed, for the archetype when the second is copied to another registry, and for the set when
it is moved there; the first is destroyed and its id lost; a new entity, and a copy of it in the other registry. -/
def memOps : List (SysOp Nat ⊕ MemCall Nat) :=
  [.inl (.on 0 (.create [(0, 10)])), .inl (.on 0 (.create [(1, 20)])), .inr (.on 0 (.create [(2, 5)] .arch)),
   .inr (.on 0 (.set ⟨1, 0⟩ 0 7 .key)), .inr (.on 0 (.remove ⟨1, 0⟩ 1 (.search 0))), .inr (.copy 0 ⟨1, 0⟩ 1 none .key),
   .inr (.move 0 ⟨1, 0⟩ 1 none .arch), .inr (.on 0 (.destroy ⟨0, 0⟩)), .inl (.on 0 (.create [(0, 30)])),
   .inl (.copy 0 ⟨3, 0⟩ 1 none)]

theorem memOps_isSome : (execMem smallTy Sys.init (fun _ _ => none) memOps).isSome = true := by decide +kernel

def memSys : Sys Nat := ((execMem smallTy Sys.init (fun _ _ => none) memOps).get memOps_isSome).1

theorem mem_reach : ∃ W, MemReach smallTy (NoFailedFit smallTy) MemCall.Harmless memSys W :=
  ⟨_, execMem_reach memOps .init (Option.some_get memOps_isSome).symm⟩

/-! ## What is kept -/

/-- **C104**: along every history in which memory runs out any number of times, except for the generation of a new
entity and the free id in a move, each registry answers exactly as the abstract contents, on which calls that ran out of memory have no
effect but for the destruction of an entity, which is complete. -/
theorem C104_registry_usable_partial {P : Sys V → SysOp V → Prop} (hr : MemReach ty P MemCall.Harmless s W) (i : Nat) (h : Handle) :
    (W i h = none → (∀ c, (s.reg i).get h c = .throw (if (s.reg i).alive h then .outOfRange else .entityNotFound)) ∧
      ∀ cs, (s.reg i).has h cs = .throw (if (s.reg i).alive h then .outOfRange else .entityNotFound)) ∧
    (∀ d, W i h = some d → (s.reg i).alive h = true ∧
      (∀ c v, d c = some v → (s.reg i).get h c = .ok v) ∧
      (∀ c, d c = none → (s.reg i).get h c = .throw .componentNotFound) ∧
      (∀ cs, (s.reg i).has h cs = .ok (cs.all fun c => (d c).isSome))) := by
  have R := (hr.inv (fun _ h => h) i).rep
  exact ⟨fun hw => ⟨R.get_none hw, R.has_none hw⟩,
    fun d hw => ⟨R.alive hw, fun c v hc => R.get_some hw hc, fun c hc => R.get_absent hw hc, R.has_some hw⟩⟩

/-- After the failures: the entity with component 1 is there, the destroyed one is not, the new one got a new id; in the
other registry two ids are lost. -/
example : (memSys.reg 0).get ⟨1, 0⟩ 1 = .ok 20 ∧ (memSys.reg 0).alive ⟨0, 0⟩ = false ∧ (memSys.reg 0).get ⟨3, 0⟩ 0 = .ok 30 ∧
    (memSys.reg 1).get ⟨2, 0⟩ 0 = .ok 30 := by
  decide +kernel

/-- The same after a failure to get a second chunk: the archetype of `bigTy` holds two entities per chunk. -/
def chunkOps : List (SysOp Nat ⊕ MemCall Nat) :=
  [.inl (.on 0 (.create [(0, 10)])), .inl (.on 0 (.create [(0, 20)])), .inr (.on 0 (.create [(0, 5)] .chunk)), .inr (.on 0 (.clone ⟨0, 0⟩ none .chunk)), .inl (.on 0 (.create [(0, 30)]))]

example : (match execMem bigTy Sys.init (fun _ _ => none) chunkOps with
    | some (s, _) => decide ((s.reg 0).get ⟨0, 0⟩ 0 = .ok 10) && decide ((s.reg 0).get ⟨4, 0⟩ 0 = .ok 30)
    | none => false) = true := by decide +kernel

/-- **C104, where a chunk is asked for**: exactly when `ensure_free_chunk` adds one. -/
theorem C104_needs_chunk {a a' : Arch V} (h : a.ensureFree = some a') :
    (a.needsChunk = true → a'.chunks.length = a.chunks.length + 1) ∧ (a.needsChunk = false → a' = a) := by
  unfold Arch.ensureFree at h
  unfold Arch.needsChunk
  cases hl : a.chunks.getLast? with
  | none => rw [hl] at h; cases h
  | some c =>
    rw [hl] at h
    simp only at h ⊢
    by_cases hc : c.size = a.cap
    · rw [if_pos hc, Option.some.injEq] at h
      subst h
      exact ⟨fun _ => by simp, fun hf => by rw [beq_eq_false_iff_ne] at hf; exact absurd hc hf⟩
    · rw [if_neg hc, Option.some.injEq] at h
      exact ⟨fun ht => absurd (beq_iff_eq.1 ht) hc, fun _ => h.symm⟩

/-- **C104** (size): the size is the number of entities. -/
theorem C104_size_partial {P : Sys V → SysOp V → Prop} (hr : MemReach ty P MemCall.Harmless s W) (i : Nat) :
    ∃ l : List Handle, l.Nodup ∧ (∀ h, h ∈ l ↔ (s.reg i).has h [] = .ok true) ∧ l.length = (s.reg i).size := by
  have R := (hr.inv (fun _ h => h) i).rep
  obtain ⟨l, h1, h2, h3⟩ := R.size
  refine ⟨l, h1, fun h => ?_, h3⟩
  rw [h2]
  constructor
  · rintro ⟨d, hd⟩; rw [R.has_some hd]; rfl
  · intro hh
    cases hw : W i h with
    | none => rw [R.has_none hw] at hh; cases hh
    | some d => exact ⟨d, rfl⟩

example : (memSys.reg 0).size = 2 ∧ (memSys.reg 0).has ⟨1, 0⟩ [] = .ok true ∧ (memSys.reg 0).has ⟨3, 0⟩ [] = .ok true ∧
    (memSys.reg 1).size = 1 := by decide +kernel

/-- **C104** (undefined behaviour): calls after such a history are undefined only for the reason of C19. -/
theorem C104_next_call_partial {P : Sys V → SysOp V → Prop} (hr : MemReach ty P MemCall.Harmless s W) {op : SysOp V} (ha : s.Allowed op)
    (hu : s.step ty op = none) : ∃ (i j : Nat) (a : Arch V), (s.reg i).archs.arches[j]? = some a ∧ TrailingEmpty a := by
  have := step_spec (hr.inv (fun _ h => h)) ha
  rw [hu] at this
  obtain ⟨j, i, a, h1, h2⟩ := this
  refine ⟨j, i, a, h1, ?_⟩
  apply Classical.byContradiction
  intro h
  exact h2 (lastOk_of h)

example : memSys.Allowed (.on 0 (.create [(5, 1)])) ∧ (memSys.step smallTy (.on 0 (.create [(5, 1)]))).isSome = true := by
  decide +kernel

/-- **C104** (iteration): if moreover no allocation of an archetype failed, iteration visits exactly the entities that have
the components. -/
theorem C104_iteration_partial (hr : MemReach ty (NoFailedFit ty) (fun c => c.Harmless ∧ c.point ≠ .arch) s W) (i : Nat) (args : List BlockId)
    (muts : List Nat) (hmut : ∀ c ∈ muts, some c ∈ args) (f : List (Val V) → Nat → V) :
    ∃ (r' : Reg V) (calls : List (List (Val V))) (hs : List Handle), (s.reg i).each args muts f = .ok r' calls ∧ hs.Nodup ∧
      (∀ h, h ∈ hs ↔ (s.reg i).has h (compsOf args) = .ok true) ∧ hs.map (callOf (s.reg i) args) = calls.map some := by
  have R := (hr.inv (fun _ h => h.1) i).rep
  obtain ⟨r', ts, hs, h1, h2, h3, h4, h5, h6, h7⟩ := R.each (hr.noNull (fun _ _ h => h) (fun _ h => h) i) args muts hmut f
  refine ⟨r', ts, hs, h1, h2, fun h => by rw [h3, R.matches_iff], ?_⟩
  rw [← h4]
  apply List.map_congr_left
  intro h hh
  obtain ⟨d, hd, _⟩ := (h3 h).1 hh
  rw [R.callOf hd, hd]; rfl

/-! ## What is not -/

/-- **C104 is violated** (archetype): if there is no memory for a new archetype, the null pointer stays in the map and every
iteration is undefined behaviour from then on. -/
theorem C104_archetype_violated {P : Sys V → SysOp V → Prop} (hr : MemReach ty P MemCall.Harmless s W) {c : MemCall V}
    (ha : s.Allowed c.op) (hn : c.point = .arch) {s' : Sys V} (he : c.run ty s = some s')
    (args : List BlockId) (muts : List Nat) (f : List (Val V) → Nat → V) : (s'.reg c.target).each args muts f = .ub := by
  have hc : c.Harmless := by
    refine ⟨by rw [hn]; simp, ?_⟩
    cases c with
    | on i c => trivial
    | copy i h j ph pt => trivial
    | move i h j ph pt =>
      have : pt = .arch := hn
      simp [this]
  obtain ⟨h1, _, h3⟩ := MemCall.spec (hr.inv fun _ h => h) ha hc he
  have := (h1 c.target).rep.view_null (h3 hn) args
  simp [Reg.each, this]

/-- A new archetype is needed; there is no memory for it. -/
example : sampleSys.Allowed (.on 0 (.create [(5, 1)])) ∧
    ((MemCall.on 0 (.create [(5, 1)] .arch) : MemCall Nat).run smallTy sampleSys).isSome = true ∧
    memSys.Allowed (.copy 0 ⟨1, 0⟩ 2 none) ∧ ((MemCall.copy 0 ⟨1, 0⟩ 2 none .arch : MemCall Nat).run smallTy memSys).isSome = true := by
  decide +kernel

/-- **C104 is violated** (generation): if there is no memory for the generation of a new entity, the next successful creation
returns an entity that is not alive; one more creation brings it to life. -/
theorem C104_generation_violated (hr : Reachable ty s W) {i : Nat} (hp : s.pend i = 0) (hf : (s.reg i).pool.free = [])
    (hb : (s.reg i).pool.nextId + 3 < U32) (args : List (Nat × V)) :
    ∃ r1, (s.reg i).createOom ty args .gens = some r1 ∧
      ∀ args2 r2 h2, r1.create ty args2 = .ok r2 h2 → r2.alive h2 = false ∧
        ∀ args3 r3 h3, r2.create ty args3 = .ok r3 h3 → r3.alive h3 = false ∧ r3.alive h2 = true := by
  have R := (hr.inv i).rep
  rw [hp] at R
  have hn := R.pool.nextId
  simp only [Nat.zero_sub, Nat.add_zero] at hn
  have fresh : ∀ {r r' : Reg V} {args h}, r.pool.free = [] → r.create ty args = .ok r' h →
      h = ⟨r.pool.nextId, 0⟩ ∧ r'.pool = { r.pool.bump with gens := r.pool.gens ++ [0] } := by
    intro r r' args h hfr hc
    have e : r.pool.create = some ({ r.pool.bump with gens := r.pool.gens ++ [0] }, ⟨r.pool.nextId, 0⟩) := by
      unfold Pool.create; rw [hfr]; rfl
    obtain ⟨p, h1, h2⟩ := create_pool_eq hc
    rw [e] at h1
    cases h1
    exact ⟨rfl, h2⟩
  have e1 : (s.reg i).createOom ty args .gens = some { s.reg i with pool := (s.reg i).pool.bump } := by
    simp [Reg.createOom, Pool.createOom, hf]
  refine ⟨_, e1, fun args2 r2 h2 hc2 => ?_⟩
  obtain ⟨a1, a2⟩ := fresh (r := { s.reg i with pool := (s.reg i).pool.bump }) hf hc2
  have m1 : ((s.reg i).pool.nextId + 1) % U32 = (s.reg i).pool.nextId + 1 := Nat.mod_eq_of_lt (by omega)
  have m2 : ((s.reg i).pool.nextId + 1 + 1) % U32 = (s.reg i).pool.nextId + 1 + 1 := Nat.mod_eq_of_lt (by omega)
  simp only [Pool.bump, m1, m2] at a1 a2
  refine ⟨?_, fun args3 r3 h3 hc3 => ?_⟩
  · simp [Reg.alive, Pool.alive, a1, a2, hn]
  · obtain ⟨b1, b2⟩ := fresh (by rw [a2]; exact hf) hc3
    rw [a2] at b1 b2
    constructor
    · simp [Reg.alive, Pool.alive, b1, b2, hn, Pool.bump]
    · simp [Reg.alive, Pool.alive, a1, b2, hn, Pool.bump]

/-- A registry without free ids: the second creation after the failure returns the dead entity 4. -/
example : sampleSys.pend 0 = 0 ∧ (sampleSys.reg 0).pool.free = [] ∧
    (match (sampleSys.reg 0).createOom smallTy [(0, 1)] .gens with
      | some r1 =>
        match r1.create smallTy [(0, 2)] with
        | .ok r2 h => decide (h = ⟨4, 0⟩) && !r2.alive h
        | _ => false
      | none => false) = true := by decide +kernel

/-- **C104 is violated** (location): every creation that succeeds asks for memory for the location of the new entity, in a
function that must not throw; if there is none, the program ends. -/
theorem C104_location_violated {P : Sys V → SysOp V → Prop} (hr : MemReach ty P MemCall.Harmless s W) {i : Nat} {args : List (Nat × V)}
    (ha : s.Allowed (.on i (.create args))) {r : Reg V} {h : Handle} (hc : (s.reg i).create ty args = .ok r h) (q : SparseThrow) :
    (s.reg i).createEnds ty args q = true := by
  obtain ⟨_, hp, hb⟩ := ha
  have R := (hr.inv (fun _ h => h) i).rep
  rw [hp] at R
  exact R.createEnds hb hc q

example : memSys.Allowed (.on 0 (.create [(0, 1)])) ∧ (match (memSys.reg 0).create smallTy [(0, 1)] with
    | .ok _ _ => true
    | _ => false) = true ∧ (memSys.reg 0).createEnds smallTy [(0, 1)] .construct = true := by decide +kernel

/-- **C104 is violated** (location of a copy): the same for every copy and move, to a reserved entity or a new one, and for
clones. -/
theorem C104_location_copy_violated {P : Sys V → SysOp V → Prop} (hr : MemReach ty P MemCall.Harmless s W) {i j : Nat} (hp : s.pend j = 0)
    (h : Handle) (q : SparseThrow) :
    (∀ ph ∈ s.res j, (∀ r x, (s.reg i).copyInto h (s.reg j) ph = .ok r x → (s.reg i).copyEnds h (s.reg j) ph q = true) ∧
      (∀ r x, (s.reg i).moveInto h (s.reg j) ph = .ok r x → (s.reg i).moveEnds h (s.reg j) ph q = true)) ∧
    ((s.reg j).pool.nextId + 1 < U32 → ∃ p ph, (s.reg j).pool.create = some (p, ph) ∧
      (∀ r x, (s.reg i).copyTo h (s.reg j) = .ok r x → (s.reg i).copyEnds h { s.reg j with pool := p } ph q = true) ∧
      (∀ r x, (s.reg i).moveTo h (s.reg j) = .ok r x → (s.reg i).moveEnds h { s.reg j with pool := p } ph q = true)) := by
  have I := hr.inv (fun _ h => h) j
  rw [hp] at I
  constructor
  · intro ph hph
    obtain ⟨h1, h2⟩ := I.res ph hph
    have h3 := h1.held I.rep.pool
    exact ⟨fun r x hc => I.rep.copyEnds h3 h2 hc q, fun r x hc => I.rep.moveEnds h3 h2 hc q⟩
  · intro hb
    obtain ⟨p, ph, h1, h2, h3, h4, _⟩ := I.rep.create_pool hb
    refine ⟨p, ph, h1, fun r x hc => ?_, fun r x hc => ?_⟩
    · unfold Reg.copyTo at hc
      rw [h1] at hc
      exact h2.copyEnds h3 h4 hc q
    · unfold Reg.moveTo at hc
      rw [h1] at hc
      exact h2.moveEnds h3 h4 hc q

example : memSys.pend 1 = 0 ∧ (match (memSys.reg 0).moveTo ⟨1, 0⟩ (memSys.reg 1) with
    | .ok _ _ => true
    | _ => false) = true := by decide +kernel

def ghostOps : List (SysOp Nat) := [.on 0 (.create [(0, 10)])]

theorem ghostOps_isSome : (exec smallTy ghostOps).isSome = true := by decide +kernel

def ghostSys : Sys Nat := ((exec smallTy ghostOps).get ghostOps_isSome).1

theorem ghost_isSome : ((MemCall.move 0 ⟨0, 0⟩ 1 none .free : MemCall Nat).run smallTy ghostSys).isSome = true := by decide +kernel

/-- **C104 is violated** (move): there is no memory for the free id when an entity has been moved to another registry; it is
gone from the first, the second has no entities, and iteration over the second shows the component with the handle the
entity had in the first. -/
theorem C104_move_violated : ∃ (s : Sys Nat) (W : Spec.World Nat) (s' : Sys Nat) (r' : Reg Nat), Reachable smallTy s W ∧
    (s.reg 0).get ⟨0, 0⟩ 0 = .ok 10 ∧ s.Allowed (.move 0 ⟨0, 0⟩ 1 none) ∧
    (MemCall.move 0 ⟨0, 0⟩ 1 none .free : MemCall Nat).run smallTy s = some s' ∧
    (s'.reg 0).alive ⟨0, 0⟩ = false ∧ (s'.reg 0).size = 0 ∧ (s'.reg 1).size = 0 ∧
    (s'.reg 1).each [none, some 0] [] (fun _ _ => 0) = .ok r' [[.ent ⟨0, 0⟩, .comp 10]] := by
  obtain ⟨r', x, h⟩ := okOf_eq (x := ((((MemCall.move 0 ⟨0, 0⟩ 1 none .free : MemCall Nat).run smallTy ghostSys).get ghost_isSome).reg 1).each
    [none, some 0] [] (fun _ _ => 0)) (by decide +kernel)
  have hx : (match ((((MemCall.move 0 ⟨0, 0⟩ 1 none .free : MemCall Nat).run smallTy ghostSys).get ghost_isSome).reg 1).each
    [none, some 0] [] (fun _ _ => 0) with
    | .ok _ t => decide (t = [[.ent ⟨0, 0⟩, .comp 10]])
    | _ => false) = true := by decide +kernel
  rw [h] at hx
  have hx' := of_decide_eq_true hx
  rw [hx'] at h
  exact ⟨ghostSys, _, _, r', exec_get ghostOps ghostOps_isSome, by decide +kernel, by decide +kernel, (Option.some_get ghost_isSome).symm,
    by decide +kernel, by decide +kernel, by decide +kernel, h⟩

/-- **C104 is violated** (reservations): if there is no memory for the generations of reserved entities after some of them,
repeating the call makes a handle alive that was never returned. -/
theorem C104_sync_violated (hr : Reachable ty s W) {i n : Nat} (hn : 0 < n) {q : Pool} (he : (s.reg i).pool.flushOom n = some q) :
    (s.reg i).pool.alive ⟨(s.reg i).pool.nextId, 0⟩ = false ∧ q.flush.alive ⟨(s.reg i).pool.nextId, 0⟩ = true ∧
      q.flush.nextId = (s.reg i).pool.nextId := by
  have R := (hr.inv i).rep
  have h1 := R.pool.nextId
  have h2 := R.pool.cursor
  unfold Pool.flushOom at he
  split at he
  · rename_i hlt
    cases he
    refine ⟨?_, ?_, rfl⟩
    · rw [Bool.eq_false_iff]
      intro ha
      rw [alive_iff] at ha
      have := (List.getElem?_eq_some_iff.1 ha).1
      simp only at this
      omega
    · rw [alive_iff]
      simp only [Pool.flush]
      rw [List.append_assoc, List.getElem?_append_right (by omega), List.replicate_append_replicate, List.getElem?_replicate,
        if_pos (by omega)]
  · cases he

/-- Two reservations; there is memory for one generation. -/
example : ((Sys.init.step smallTy (.on 0 (.reserve : RegOp Nat))).bind fun x => x.1.step smallTy (.on 0 .reserve)).map
    (fun x => (x.1.reg 0).pool.flushOom 1) = some (some ⟨2, -2, [0], []⟩) := by decide +kernel

end CoEcs.Props
