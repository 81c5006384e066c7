import Verif.Proofs.CommandMore
import Verif.Props.RegistryStorage

/-!
# Properties of command buffers (C28–C31, C54, C62–C64)
-/

namespace CoEcs.Props
open CoEcs Spec

variable {V : Type} {ty : Types} {husk : V → V} {c c' : CSys V} {W : Spec.World V}

/-- Splitting a flush that ended. -/
theorem flush_ok {i : Nat} {o : Option Handle} (hs : c.step ty husk (.flush i) = some (c', .ok o)) :
    ∃ bs r, flush ty husk c.bufs (c.sys.reg i) = .ok (bs, r) () ∧ c' = c.flushed i bs r := by
  simp only [CSys.step] at hs
  split at hs
  · cases hs
  · cases hs
  · rename_i bs r u h
    cases hs
    exact ⟨bs, r, h, rfl⟩

theorem flush_throw {i : Nat} {e : Exn} (hs : c.step ty husk (.flush i) = some (c', .throw e)) :
    ∃ bs r, flush ty husk c.bufs (c.sys.reg i) = .throw (bs, r) e ∧ c' = c.flushed i bs r := by
  simp only [CSys.step] at hs
  split at hs
  · cases hs
  · rename_i bs r e h
    cases hs
    exact ⟨bs, r, h, rfl⟩
  · cases hs

theorem flush_none {i : Nat} (hs : c.step ty husk (.flush i) = none) : flush ty husk c.bufs (c.sys.reg i) = .ub := by
  simp only [CSys.step] at hs
  split at hs
  · assumption
  · cases hs
  · cases hs

theorem flushed_reg {i j : Nat} {bs : List (Option (Buf V))} {r : Reg V} :
    (c.flushed i bs r).sys.reg j = if j = i then r else c.sys.reg j := rfl

/-! ## C28 -/

/-- **C28** (histories): along every history of direct calls, recordings by any number of threads, flushes and
calls that throw, every registry answers as its abstract contents, in which a flush has applied the
recorded commands buffer by buffer. -/
theorem C28_histories_refine_partial (hr : CReach ty husk c W) (i : Nat) : Answers (c.sys.reg i) (W i) :=
  (hr.inv.sys i).rep.answers

/-- **C28** (partial; missing: it may be undefined, see below): a flush that returns has applied the recorded
commands of all buffers in the order recorded, buffer by buffer; every command found the entity it needs;
no command is left; other registries are unchanged. -/
theorem C28_flush_applies_partial (hr : CReach ty husk c W) {i : Nat} (ha : c.Allowed (.flush i)) {o : Option Handle}
    (hs : c.step ty husk (.flush i) = some (c', .ok o)) :
    Answers (c'.sys.reg i) ((c.todo.flatten.map Prod.snd).foldl ACmd.apply (W i)) ∧
    ACmd.AllReady (W i) (c.todo.flatten.map Prod.snd) ∧
    c'.todo.flatten = [] ∧ (∀ b, some b ∈ c'.bufs → b.queue = []) ∧ ∀ j, j ≠ i → c'.sys.reg j = c.sys.reg j := by
  obtain ⟨bs, r, hf, rfl⟩ := flush_ok hs
  have hsp := hr.inv.flushSpec husk ha
  rw [hf] at hsp
  obtain ⟨m0, m1, m2, m3, m4⟩ := hsp
  refine ⟨?_, m4, ?_, ?_, ?_⟩
  · rw [flushed_reg, if_pos rfl]
    have : (c.todo.flatten.map Prod.snd).foldl ACmd.apply (W i) = applyAll (W i) c.todo.flatten := by
      rw [List.foldl_map]; rfl
    rw [this]
    exact m3.rep.answers
  · have := gone_rest_length c.todo (CSys.left bs)
    rw [m1] at this
    exact List.eq_nil_of_length_eq_zero (by show (CSys.rest c.todo (CSys.left bs)).flatten.length = 0; omega)
  · intro b hb
    have : ∀ (l : List (Option (Buf V))), some b ∈ l → b.queue.length ∈ CSys.left l := by
      intro l
      induction l with
      | nil => intro h; cases h
      | cons x l ih =>
        intro h
        rcases List.mem_cons.1 h with rfl | h
        · simp [CSys.left]
        · have := ih h
          cases x <;> simp only [CSys.left] <;> exact List.mem_cons_of_mem _ this
    exact List.eq_nil_of_length_eq_zero (m0 _ (this _ hb))
  · intro j hj
    rw [flushed_reg, if_neg hj]

/-- **C28** (the effect of a command is that of the direct call): `ACmd.apply` changes the contents as the
direct call that returns does according to C58; for `create`, as a creation that returned the reserved
entity. -/
theorem C28_apply_is_direct (W : Spec.World V) (i : Nat) :
    (∀ (a : ACmd V) (op : SysOp V), a.direct i = some op → (W.step op (.ok a.placeholder)) i = a.apply (W i)) ∧
    (∀ ph args, (W.step (.on i (.create args)) (.ok (some ph))) i = (ACmd.create ph (World.listed args)).apply (W i)) := by
  constructor
  · intro a op ha
    cases a with
    | create => cases ha
    | _ =>
      cases ha
      funext h'
      simp [Spec.World.step, Spec.World.upd, ACmd.apply, ACmd.put, ACmd.placeholder]
  · intro ph args
    funext h'
    simp [Spec.World.step, Spec.World.upd, ACmd.apply, ACmd.put]

/-- **C28** (cause of undefined behaviour): a flush is undefined only if a buffer belongs to a thread that has
ended (C62), or if at some command an archetype of the destination or of the staging registry has an empty
last chunk behind other chunks (C19). -/
theorem C28_flush_defined_partial (hr : CReach ty husk c W) {i : Nat} (ha : c.Allowed (.flush i))
    (hb : none ∉ c.bufs)
    (ht : ∀ x ∈ flushStates ty husk c.bufs (c.sys.reg i).sync, ¬ HasTrailingEmpty x.1 ∧ ¬ HasTrailingEmpty x.2) :
    c.step ty husk (.flush i) ≠ none := by
  intro hn
  have I := hr.inv
  have hq := placeholders_queued ha
  have := flushBufs_ub husk c.bufs c.todo (c.sys.reg i).sync (W i) (c.sys.res i) (I.sys i).sync.1 I.bufs
    (fun ph hph => I.mem (i, ph) (by rw [hq]; exact List.mem_map_of_mem hph))
    (by
      have := I.nodup
      rw [hq] at this
      exact List.Pairwise.of_map _ (fun a b h e => h (by rw [e])) this) (flush_none hn)
  rcases this with h | ⟨x, h1, h2⟩
  · exact hb h
  · rcases h2 with h2 | h2
    · exact (ht x h1).1 h2
    · exact (ht x h1).2 h2

/-- One thread; an entity in registry 0. -/
def liveOps : List (COp Nat) := [.start, .direct (.on 0 (.create [(0, 1)]))]

/-- Record a creation. -/
def recCreate : COp Nat := .record 0 0 (.create [(0, 5)])

/-- Record an assignment to a component that the live entity has. -/
def recSet : COp Nat := .record 0 0 (.set ⟨0, 0⟩ 0 7)

/-- Creations and assignments whose staging entities fill five chunks. -/
def stagedOps : List (COp Nat) :=
  liveOps ++ [recCreate, recSet, recCreate, recSet, recCreate, recCreate, recSet, recCreate, recCreate, recCreate]

theorem stagedOps_isSome : (cexec bigTy id stagedOps).isSome = true := by decide +kernel

/-- **C28 is violated**: seven creations and three assignments to a component of a live entity, recorded by
one thread, make the flush undefined: removing the created entities from the staging registry, while the
entities of the assignments stay there, leaves an empty last chunk behind other chunks. -/
theorem C28_flush_undefined_violated :
    ∃ (ty : Types) (c : CSys Nat) (W : Spec.World Nat), CReach ty id c W ∧ c.Allowed (.flush 0) ∧ none ∉ c.bufs ∧
      c.todo.flatten.length = 10 ∧ (∀ x ∈ c.todo.flatten, (∃ ph d, x.2 = .create ph d) ∨ ∃ v, x.2 = .set ⟨0, 0⟩ 0 v) ∧
      (c.sys.reg 0).has ⟨0, 0⟩ [0] = .ok true ∧ c.step ty id (.flush 0) = none := by
  refine ⟨bigTy, _, _, cexec_get stagedOps stagedOps_isSome, allowedB_allowed (by decide +kernel), ?_, by decide +kernel, ?_, by decide +kernel, ?_⟩
  · have : (((cexec bigTy id stagedOps).get stagedOps_isSome).1.bufs.all Option.isSome) = true := by decide +kernel
    intro h
    simpa using List.all_eq_true.1 this _ h
  · have : (((cexec bigTy id stagedOps).get stagedOps_isSome).1.todo.flatten.all fun x => match x.2 with
        | .create _ _ => true
        | .set h cp _ => decide (h = ⟨0, 0⟩) && decide (cp = 0)
        | _ => false) = true := by decide +kernel
    intro x hx
    have := List.all_eq_true.1 this x hx
    cases hx2 : x.2 with
    | create ph d => exact .inl ⟨ph, d, rfl⟩
    | set h cp v => simp [hx2] at this; obtain ⟨rfl, rfl⟩ := this; exact .inr ⟨v, rfl⟩
    | clone => simp [hx2] at this
    | remove => simp [hx2] at this
    | destroy => simp [hx2] at this
  · have : (((cexec bigTy id stagedOps).get stagedOps_isSome).1.step bigTy id (.flush 0)).isNone = true := by decide +kernel
    simpa using this

/-- Two threads.  The first records a creation, adds a component to the new entity, clones it and destroys the
entity that was there; the second creates one and removes a component again. -/
def sampleCOps : List (COp Nat) :=
  [.start, .start, .direct (.on 0 (.create [(0, 1)])), .record 0 0 (.create [(0, 2)]), .record 0 0 (.set ⟨1, 0⟩ 1 3),
   .record 0 0 (.clone ⟨1, 0⟩), .record 0 0 (.destroy ⟨0, 0⟩), .record 1 0 (.create [(0, 4), (2, 6)]), .record 1 0 (.remove ⟨3, 0⟩ 0)]

theorem sampleCOps_isSome : (cexec smallTy id sampleCOps).isSome = true := by decide +kernel

def sampleC : CSys Nat := ((cexec smallTy id sampleCOps).get sampleCOps_isSome).1

theorem sampleC_flush : (sampleC.step smallTy id (.flush 0)).isSome = true := by decide +kernel

/-- The flush of the sample returns, and the registry holds what the commands say. -/
example : allowedB sampleC (.flush 0) = true ∧ ((sampleC.step smallTy id (.flush 0)).get sampleC_flush).2 = .ok none ∧
    let r := ((sampleC.step smallTy id (.flush 0)).get sampleC_flush).1.sys.reg 0
    r.get ⟨1, 0⟩ 1 = .ok 3 ∧ r.get ⟨2, 0⟩ 1 = .ok 3 ∧ r.get ⟨2, 0⟩ 0 = .ok 2 ∧ r.alive ⟨0, 0⟩ = false ∧ r.has ⟨3, 0⟩ [0] = .ok false ∧
    r.get ⟨3, 0⟩ 2 = .ok 6 ∧ r.size = 3 := by
  decide +kernel

/-- The hypotheses of `C28_flush_defined_partial` hold for the sample. -/
example : none ∉ sampleC.bufs ∧ (flushStates smallTy id sampleC.bufs (sampleC.sys.reg 0).sync).length = 6 ∧
    ∀ x ∈ flushStates smallTy id sampleC.bufs (sampleC.sys.reg 0).sync, ¬ HasTrailingEmpty x.1 ∧ ¬ HasTrailingEmpty x.2 := by
  have few : ∀ r : Reg Nat, (r.archs.arches.all fun a => decide (a.chunks.length ≤ 1)) = true → ¬ HasTrailingEmpty r := by
    rintro r h ⟨j, a, h1, h2, _⟩
    have := List.all_eq_true.1 h a (List.mem_of_getElem? h1)
    simp at this
    omega
  refine ⟨?_, by decide +kernel, fun x hx => ?_⟩
  · have : (sampleC.bufs.all Option.isSome) = true := by decide +kernel
    intro h
    simpa using List.all_eq_true.1 this _ h
  · have : ((flushStates smallTy id sampleC.bufs (sampleC.sys.reg 0).sync).all fun x =>
        (x.1.archs.arches.all fun a => decide (a.chunks.length ≤ 1)) && (x.2.archs.arches.all fun a => decide (a.chunks.length ≤ 1))) = true := by
      decide +kernel
    have := List.all_eq_true.1 this x hx
    rw [Bool.and_eq_true] at this
    exact ⟨few _ this.1, few _ this.2⟩

theorem flushBufs_idle (ty : Types) (husk : V → V) (d : Reg V) : ∀ bs : List (Option (Buf V)), none ∉ bs →
    (∀ b, some b ∈ bs → b.queue = []) → flushBufs ty husk bs d = .ok (bs, d) ()
  | [], _, _ => rfl
  | none :: _, hn, _ => absurd List.mem_cons_self hn
  | some b :: bs, hn, hq => by
    obtain ⟨s, q⟩ := b
    have : q = [] := hq ⟨s, q⟩ List.mem_cons_self
    subst this
    have ih := flushBufs_idle ty husk d bs (fun h => hn (List.mem_cons_of_mem _ h)) fun b hb => hq b (List.mem_cons_of_mem _ hb)
    simp only [flushBufs, Buf.play, playQueue, ih]

/-- **C28** (a second flush): flushing with no command queued returns and only makes reserved entities alive. -/
theorem C28_flush_idle (i : Nat) (hb : none ∉ c.bufs) (hq : ∀ b, some b ∈ c.bufs → b.queue = []) :
    ∃ c', c.step ty husk (.flush i) = some (c', .ok none) ∧ c'.bufs = c.bufs ∧ c'.sys.reg i = (c.sys.reg i).sync ∧
      ∀ j, j ≠ i → c'.sys.reg j = c.sys.reg j := by
  have h := flushBufs_idle ty husk (c.sys.reg i).sync c.bufs hb hq
  refine ⟨c.flushed i c.bufs (c.sys.reg i).sync, ?_, rfl, by rw [flushed_reg, if_pos rfl], fun j hj => by rw [flushed_reg, if_neg hj]⟩
  simp only [CSys.step, flush, h]

/-! ## C29 -/

theorem pool_reserve_gens {p q : Pool} {h : Handle} (hr : p.reserve = some (q, h)) : q.gens = p.gens := by
  unfold Pool.reserve Pool.reserveSub at hr
  dsimp only at hr
  split at hr
  · split at hr
    · cases hr
    · cases hr; rfl
  · cases hr; rfl

theorem reserve_frame {r r' : Reg V} {h : Handle} (hr : r.reserve = .ok r' h) :
    r'.archs = r.archs ∧ r'.locs = r.locs ∧ ∀ h', r'.alive h' = r.alive h' := by
  unfold Reg.reserve at hr
  split at hr
  · cases hr
  · rename_i p x hp
    cases hr
    refine ⟨rfl, rfl, fun h' => ?_⟩
    simp only [Reg.alive, Pool.alive, pool_reserve_gens hp]

theorem same_of_frame {r r' : Reg V} (ha : r'.archs = r.archs) (hl : r'.locs = r.locs) (hv : ∀ h', r'.alive h' = r.alive h') (h : Handle) :
    Same r r' h := by
  have hloc : r'.location h = r.location h := by unfold Reg.location; rw [hv, hl]
  have harch : ∀ l, r'.archOf l = r.archOf l := fun l => by unfold Reg.archOf; rw [ha]
  refine ⟨fun cp => ?_, fun cs => ?_, hv h⟩
  · unfold Reg.get Reg.rowOf; simp only [hloc, harch]
  · unfold Reg.has; simp only [hloc, harch]

/-- **C29**: recording any command in any state, whether the call returns or throws, changes no answer of any
registry, nor the stored archetypes that views iterate over, nor the number of entities. -/
theorem C29_recording_is_invisible {b i : Nat} {rc : Rec V} {out : Out} (hs : c.step ty husk (.record b i rc) = some (c', out)) (j : Nat) :
    (∀ h, Same (c.sys.reg j) (c'.sys.reg j) h) ∧ (c'.sys.reg j).archs = (c.sys.reg j).archs ∧ (c'.sys.reg j).size = (c.sys.reg j).size := by
  suffices h : (c'.sys.reg j).archs = (c.sys.reg j).archs ∧ (c'.sys.reg j).locs = (c.sys.reg j).locs ∧
      ∀ h', (c'.sys.reg j).alive h' = (c.sys.reg j).alive h' from
    ⟨same_of_frame h.1 h.2.1 h.2.2, h.1, by unfold Reg.size; rw [h.2.1]⟩
  have same : c'.sys.reg = c.sys.reg → (c'.sys.reg j).archs = (c.sys.reg j).archs ∧ (c'.sys.reg j).locs = (c.sys.reg j).locs ∧
      ∀ h', (c'.sys.reg j).alive h' = (c.sys.reg j).alive h' := fun h => by rw [h]; exact ⟨rfl, rfl, fun _ => rfl⟩
  have res : ∀ r h, (c.sys.reg i).reserve = .ok r h → c'.sys.reg = (c.sys.setReg i r).reg →
      (c'.sys.reg j).archs = (c.sys.reg j).archs ∧ (c'.sys.reg j).locs = (c.sys.reg j).locs ∧
      ∀ h', (c'.sys.reg j).alive h' = (c.sys.reg j).alive h' := by
    intro r h hr he
    rw [he]
    simp only [Sys.setReg]
    by_cases hj : j = i
    · subst hj; simp only [if_true]; exact reserve_frame hr
    · simp only [hj, if_false]; exact ⟨trivial, trivial, fun _ => trivial⟩
  simp only [CSys.step] at hs
  split at hs
  · rename_i buf hb
    cases rc with
    | create args =>
      simp only [CSys.record, Buf.create] at hs
      cases hr : (c.sys.reg i).reserve with
      | ub => rw [hr] at hs; cases hs
      | throw r e => simp only [Reg.reserve] at hr; split at hr <;> cases hr
      | ok r ph =>
        simp only [hr] at hs
        cases hc : buf.staging.create ty args with
        | ub => simp only [hc] at hs; cases hs
        | throw s e => simp only [hc] at hs; cases hs; exact res r ph hr rfl
        | ok s st => simp only [hc] at hs; cases hs; exact res r ph hr rfl
    | clone h =>
      simp only [CSys.record, Buf.clone] at hs
      cases hr : (c.sys.reg i).reserve with
      | ub => rw [hr] at hs; cases hs
      | throw r e => simp only [Reg.reserve] at hr; split at hr <;> cases hr
      | ok r ph => simp only [hr] at hs; cases hs; exact res r ph hr rfl
    | set h cp v =>
      simp only [CSys.record, Buf.set] at hs
      cases hc : buf.staging.create ty [(cp, v)] with
      | ub => simp only [hc] at hs; cases hs
      | throw s e => simp only [hc] at hs; cases hs; exact same rfl
      | ok s st => simp only [hc] at hs; cases hs; exact same rfl
    | remove h cp => cases hs; exact same rfl
    | destroy h => cases hs; exact same rfl
  · cases hs

example : ((sampleC.step smallTy id (.record 0 0 (.set ⟨0, 0⟩ 0 9))).map fun x => (x.2, (x.1.sys.reg 0).get ⟨0, 0⟩ 0)) =
    some (.ok none, .ok 1) := by decide +kernel

/-! ## C30 -/

/-- **C30** (partial; missing: commands for different registries in the buffers, where it is false): if every
queued command was recorded for registry `i`, a flush to `i` that returns executes exactly those, and
touches no other registry. -/
theorem C30_one_registry_partial (hr : CReach ty husk c W) {i : Nat} (ha : ∀ x ∈ c.todo.flatten, x.1 = i) {o : Option Handle}
    (hs : c.step ty husk (.flush i) = some (c', .ok o)) :
    Answers (c'.sys.reg i) (((c.todo.flatten.filter fun x => x.1 = i).map Prod.snd).foldl ACmd.apply (W i)) ∧
    (∀ j, j ≠ i → c'.sys.reg j = c.sys.reg j) ∧ c'.todo.flatten = c.todo.flatten.filter fun x => x.1 ≠ i := by
  obtain ⟨h1, _, h3, _, h5⟩ := C28_flush_applies_partial hr ha hs
  have e1 : (c.todo.flatten.filter fun x => x.1 = i) = c.todo.flatten := by
    rw [List.filter_eq_self]; intro x hx; simpa using ha x hx
  have e2 : (c.todo.flatten.filter fun x => x.1 ≠ i) = [] := by
    rw [List.filter_eq_nil_iff]; intro x hx; simpa using ha x hx
  rw [e1, e2]
  exact ⟨h1, h5, h3⟩

/-- An entity in each of two registries; the destruction of the one in registry 0 is recorded. -/
def twoRegs : List (COp Nat) :=
  [.start, .direct (.on 0 (.create [(0, 1)])), .direct (.on 1 (.create [(0, 2)])), .record 0 0 (.destroy ⟨0, 0⟩)]

theorem twoRegs_isSome : (cexec smallTy id twoRegs).isSome = true := by decide +kernel

theorem twoRegs_flush : (((cexec smallTy id twoRegs).get twoRegs_isSome).1.step smallTy id (.flush 1)).isSome = true := by decide +kernel

/-- **C30 is violated**: the destruction of an entity of registry 0 is recorded, then registry 1 is flushed:
the entity of registry 1 with the same handle is destroyed, that of registry 0 is still there and the
command is gone. -/
theorem C30_wrong_registry_violated :
    ∃ (ty : Types) (c c' : CSys Nat) (W : Spec.World Nat) (h : Handle), CReach ty id c W ∧
      (∃ a, c.todo.flatten = [(0, a)]) ∧ (c.sys.reg 0).has h [] = .ok true ∧ (c.sys.reg 1).has h [] = .ok true ∧
      c.step ty id (.flush 1) = some (c', .ok none) ∧
      (c'.sys.reg 0).has h [] = .ok true ∧ (c'.sys.reg 1).has h [] = .throw .entityNotFound ∧ c'.todo.flatten = [] := by
  refine ⟨smallTy, _, ((((cexec smallTy id twoRegs).get twoRegs_isSome).1.step smallTy id (.flush 1)).get twoRegs_flush).1, _, ⟨0, 0⟩,
    cexec_get twoRegs twoRegs_isSome, ⟨.destroy ⟨0, 0⟩, rfl⟩, by decide +kernel, by decide +kernel, ?_, by decide +kernel, by decide +kernel, rfl⟩
  have : ((((cexec smallTy id twoRegs).get twoRegs_isSome).1.step smallTy id (.flush 1)).get twoRegs_flush).2 = .ok none := by decide +kernel
  rw [← this]
  exact (Option.some_get twoRegs_flush).symm

/-! ## C31 -/

/-- **C31** (partial; missing: the staging entities of `set`, where it is false): a flush that returns removes
from the staging registry of every buffer exactly as many entities as it had creations queued. -/
theorem C31_creations_released_partial (hr : CReach ty husk c W) {i : Nat} (ha : c.Allowed (.flush i)) {o : Option Handle}
    (hs : c.step ty husk (.flush i) = some (c', .ok o)) {n : Nat} {b : Buf V} (hb : c.bufs[n]? = some (some b)) :
    ∃ b', c'.bufs[n]? = some (some b') ∧ b'.queue = [] ∧ b'.staging.size + creations b.queue = b.staging.size := by
  obtain ⟨bs, r, hf, rfl⟩ := flush_ok hs
  have I := hr.inv
  have hq := placeholders_queued ha
  have := flushBufs_size husk c.bufs c.todo (c.sys.reg i).sync (W i) (c.sys.res i) (I.sys i).sync.1 I.bufs
    (fun ph hph => I.mem (i, ph) (by rw [hq]; exact List.mem_map_of_mem hph))
    (by
      have := I.nodup
      rw [hq] at this
      exact List.Pairwise.of_map _ (fun a b h e => h (by rw [e])) this) bs r () hf
  exact this.2 n b hb

example : sampleC.bufs.map (fun b => b.map fun b => (b.staging.size, creations b.queue)) = [some (2, 1), some (1, 1)] := by
  decide +kernel

theorem pool_create_next {p q : Pool} {h : Handle} (hc : p.create = some (q, h)) : q.nextId ≤ p.nextId + 1 := by
  unfold Pool.create at hc
  split at hc
  · split at hc
    · cases hc
    · cases hc; simp
  · cases hc
    exact Nat.mod_le _ _

/-- One thread with an empty queue and `n` entities in its staging registry; registry 0 has an entity with
component 0. -/
structure Grown (n : Nat) (c : CSys Nat) (W : Spec.World Nat) (husk : Nat → Nat) : Prop where
  reach : CReach smallTy husk c W
  buf : ∃ b, c.bufs = [some b] ∧ b.queue = [] ∧ b.staging.size = n ∧ b.staging.pool.nextId ≤ n
  todo : c.todo = [[]]
  entity : ∃ d v, W 0 ⟨0, 0⟩ = some d ∧ d 0 = some v

theorem liveOps_isSome (husk : Nat → Nat) : cexec smallTy husk liveOps = cexec smallTy id liveOps := rfl

theorem liveOps_some : (cexec smallTy id liveOps).isSome = true := by decide +kernel

theorem Grown.zero (husk : Nat → Nat) : ∃ c W, Grown 0 c W husk := by
  refine ⟨((cexec smallTy id liveOps).get liveOps_some).1, ((cexec smallTy id liveOps).get liveOps_some).2,
    cexecFrom_reach liveOps .init (by rw [Prod.eta, Option.some_get]; rfl), ⟨Buf.empty, rfl, rfl, rfl, Nat.le_refl _⟩, rfl, ?_⟩
  have h1 : ((((cexec smallTy id liveOps).get liveOps_some).2 0 ⟨0, 0⟩).any fun d => decide (d 0 = some 1)) = true := by decide +kernel
  cases h : ((cexec smallTy id liveOps).get liveOps_some).2 0 ⟨0, 0⟩ with
  | none => rw [h] at h1; cases h1
  | some d => rw [h] at h1; exact ⟨d, 1, rfl, by simpa using h1⟩

theorem Grown.succ {husk : Nat → Nat} {n : Nat} {c : CSys Nat} {W : Spec.World Nat} (g : Grown n c W husk) (hn : n + 2 < U32) :
    ∃ c1 c' W', c.step smallTy husk recSet = some (c1, .ok none) ∧ c1.step smallTy husk (.flush 0) = some (c', .ok none) ∧
      Grown (n + 1) c' W' husk := by
  obtain ⟨hr, ⟨b, hb, hq, hsz, hnx⟩, ht, d, v, hw, hd⟩ := g
  have I := hr.inv
  have hbr := I.bufs
  rw [hb, ht] at hbr
  obtain ⟨⟨S, Is, _, _⟩, _⟩ := hbr
  have hlt : b.staging.pool.nextId + 1 < U32 := by omega
  obtain ⟨p, st, hc, _, hws, _, _, h6⟩ := Is.rep.create (ty := smallTy) hlt (args := [(0, 7)]) (by simp)
  rcases h6 with ⟨s, q1, q2, q3, _⟩ | ⟨s, q1, _, _, _, q5, _⟩
  · have hrec : c.step smallTy husk recSet =
        some (({ c with bufs := [some ⟨s, [.set st ⟨0, 0⟩ 0]⟩] } : CSys Nat).note 0 0 (.set ⟨0, 0⟩ 0 7), .ok none) := by
      simp only [recSet, CSys.step, hb, List.getElem?_cons_zero, CSys.record, Buf.set, q1, List.set_cons_zero, Buf.push, hq, List.nil_append]
    have hall : c.Allowed recSet := ⟨b, by simp [hb], hlt⟩
    have r1 := CReach.step hr hall hrec
    have I1 := r1.inv
    -- the flush
    have Id := (I.sys 0).sync.1
    obtain ⟨v0, l, d', k1, k2, k3, k4, _⟩ | ⟨k1, _⟩ := Id.rep.setImpl hw 0 7
    · have kset : (c.sys.reg 0).sync.set smallTy ⟨0, 0⟩ 0 7 = .ok d' () := by
        unfold Reg.set; simp only [k2, k4]
      have kget := q3.get_some (c := 0) (v := 7) put_self rfl
      obtain ⟨w0, _⟩ | ⟨v1, s', w0, w1, w2, w3, _⟩ := q3.assign put_self 0 (husk 7)
      · cases w0
      · have hfl : flush smallTy husk [some ⟨s, [.set st ⟨0, 0⟩ 0]⟩] (c.sys.reg 0) = .ok ([some ⟨s', []⟩], d') () := by
          simp only [flush, flushBufs, Buf.play, playQueue, Cmd.exec, kget, kset, w1]
        have hstep : (({ c with bufs := [some ⟨s, [.set st ⟨0, 0⟩ 0]⟩] } : CSys Nat).note 0 0 (.set ⟨0, 0⟩ 0 7)).step smallTy husk (.flush 0) =
            some ((({ c with bufs := [some ⟨s, [.set st ⟨0, 0⟩ 0]⟩] } : CSys Nat).note 0 0 (.set ⟨0, 0⟩ 0 7)).flushed 0 [some ⟨s', []⟩] d', .ok none) := by
          simp only [CSys.step, CSys.note, hfl]
        have htd : (({ c with bufs := [some ⟨s, [.set st ⟨0, 0⟩ 0]⟩] } : CSys Nat).note 0 0 (.set ⟨0, 0⟩ 0 7)).todo =
            [[(0, .set ⟨0, 0⟩ 0 7)]] := by simp [CSys.note, ht]
        have ha : (({ c with bufs := [some ⟨s, [.set st ⟨0, 0⟩ 0]⟩] } : CSys Nat).note 0 0 (.set ⟨0, 0⟩ 0 7)).Allowed (.flush 0) := by
          intro x hx
          rw [htd] at hx
          simp at hx
          rw [hx]
        refine ⟨_, _, _, hrec, hstep, CReach.step r1 ha hstep, ⟨⟨s', []⟩, rfl, rfl, ?_, ?_⟩, ?_, ?_⟩
        · have e1 := Is.rep.size_new q3 hws
          have e2 : s'.size = s.size := q3.size_dom w3 fun x => by
            by_cases hx : x = st
            · subst hx; simp [put_self]
            · simp [put_ne hx]
          show s'.size = n + 1
          omega
        · have := pool_create_next hc
          show s'.pool.nextId ≤ n + 1
          rw [w2, q2]
          omega
        · simp [CSys.flushed, CSys.rest, CSys.left, htd]
        · refine ⟨Spec.World.withComp d 0 (some 7), 7, ?_, rfl⟩
          simp only [Spec.World.cstep, CSys.flushed, htd, CSys.left, CSys.gone]
          simp [ACmd.apply, ACmd.put, Spec.World.cstep, recSet, hw]
    · rw [hd] at k1; cases k1
  · exact absurd q5 (by decide)

/-- **C31 is violated**: by repeating the recording of an assignment to a component of a live entity and a
flush, a thread reaches states right after a flush, with no command queued, in which its staging registry
has any number of entities (as far as there are ids). -/
theorem C31_staging_grows_violated (husk : Nat → Nat) (n : Nat) (hn : n + 1 < U32) :
    ∃ (c : CSys Nat) (W : Spec.World Nat) (b : Buf Nat), CReach smallTy husk c W ∧ c.todo.flatten = [] ∧
      c.bufs = [some b] ∧ b.queue = [] ∧ b.staging.size = n := by
  have : ∀ n, n + 1 < U32 → ∃ c W, Grown n c W husk := by
    intro n
    induction n with
    | zero => exact fun _ => Grown.zero husk
    | succ n ih =>
      intro hn
      obtain ⟨c, W, g⟩ := ih (by omega)
      obtain ⟨_, c', W', _, _, g'⟩ := g.succ hn
      exact ⟨c', W', g'⟩
  obtain ⟨c, W, hr, ⟨b, h1, h2, h3, _⟩, ht, _⟩ := this n hn
  exact ⟨c, W, b, hr, by simp [ht], h1, h2, h3⟩

/-! ## C54 -/

/-- **C54** (partial; missing: direct creations or destructions while commands are queued, where it is false):
when systems only use commands, the entities created or cloned in one run are different from each other
and from the entities that were there, and after the flush at its end (if it returns) those for which no
destruction was recorded are entities. -/
theorem C54_commands_only_partial (hr : CReach ty husk c W) {i : Nat} (ha : c.Allowed (.flush i)) {o : Option Handle}
    (hs : c.step ty husk (.flush i) = some (c', .ok o)) :
    (CSys.placeholders c.todo.flatten).Nodup ∧
    (∀ h ∈ CSys.placeholders c.todo.flatten, (c.sys.reg i).has h [] ≠ .ok true) ∧
    ∀ h ∈ CSys.placeholders c.todo.flatten, (∀ x ∈ c.todo.flatten, x.2 ≠ .destroy h) →
      (c'.sys.reg i).alive h = true ∧ (c'.sys.reg i).has h [] = .ok true := by
  have I := hr.inv
  have hq := placeholders_queued ha
  obtain ⟨h1, h2, _⟩ := C28_flush_applies_partial hr ha hs
  have he : (c.todo.flatten.map Prod.snd).foldl ACmd.apply (W i) = applyAll (W i) c.todo.flatten := by
    rw [List.foldl_map]; rfl
  rw [he] at h1
  refine ⟨?_, fun h hh hc => ?_, fun h hh hd => ?_⟩
  · have := I.nodup
    rw [hq] at this
    exact List.Pairwise.of_map _ (fun a b h e => h (by rw [e])) this
  · have hm := I.mem (i, h) (by rw [hq]; exact List.mem_map_of_mem hh)
    have hw := ((I.sys i).res h hm).2
    rw [(I.sys i).rep.has_none hw] at hc
    cases hc
  · have := applyAll_creates hh hd h2
    cases hx : applyAll (W i) c.todo.flatten h with
    | none => exact absurd hx this
    | some d => exact ⟨((h1 h).2 d hx).1, by simpa using ((h1 h).2 d hx).2.2.2 []⟩

example : CSys.placeholders sampleC.todo.flatten = [⟨1, 0⟩, ⟨2, 0⟩, ⟨3, 0⟩] := by decide +kernel

/-- An entity was created and destroyed; a system records a creation. -/
def mixOps : List (COp Nat) :=
  [.start, .direct (.on 0 (.create [(0, 1)])), .direct (.on 0 (.destroy ⟨0, 0⟩)), .record 0 0 (.create [(0, 5)])]

theorem mixOps_isSome : (cexec smallTy id mixOps).isSome = true := by decide +kernel

/-- A later system creates an entity directly, then the run ends with the flush. -/
def mixRun : Option (Out × CSys Nat × Out) :=
  (((cexec smallTy id mixOps).get mixOps_isSome).1.step smallTy id (.direct (.on 0 (.create [(1, 6)])))).bind fun y =>
    (y.1.step smallTy id (.flush 0)).map fun z => (y.2, z)

theorem mixRun_isSome : mixRun.isSome = true := by decide +kernel

/-- **C54 is violated**: a system creates an entity by a command and a later one directly: both get the same
handle, and after the flush the entity created directly has been replaced by the other. -/
theorem C54_same_handle_violated :
    ∃ (c c1 c2 : CSys Nat) (W : Spec.World Nat) (h : Handle), CReach smallTy id c W ∧
      (∃ d, c.todo.flatten = [(0, .create h d)]) ∧
      c.step smallTy id (.direct (.on 0 (.create [(1, 6)]))) = some (c1, .ok (some h)) ∧ (c1.sys.reg 0).get h 1 = .ok 6 ∧
      c1.step smallTy id (.flush 0) = some (c2, .ok none) ∧
      (c2.sys.reg 0).get h 1 = .throw .componentNotFound ∧ (c2.sys.reg 0).get h 0 = .ok 5 ∧ (c2.sys.reg 0).size = 1 := by
  have h1 : (((cexec smallTy id mixOps).get mixOps_isSome).1.step smallTy id (.direct (.on 0 (.create [(1, 6)])))).isSome = true := by
    decide +kernel
  generalize hx : ((cexec smallTy id mixOps).get mixOps_isSome).1.step smallTy id (.direct (.on 0 (.create [(1, 6)]))) = x at h1
  obtain ⟨⟨c1, o1⟩, rfl⟩ := Option.isSome_iff_exists.1 h1
  have hm : mixRun = (c1.step smallTy id (.flush 0)).map fun z => (o1, z) := by unfold mixRun; rw [hx]; rfl
  have hm2 := mixRun_isSome
  rw [hm] at hm2
  cases hz : c1.step smallTy id (.flush 0) with
  | none => rw [hz] at hm2; cases hm2
  | some z =>
    obtain ⟨c2, o2⟩ := z
    rw [hz] at hm
    have t1 : (mixRun.all fun x => decide (x.1 = .ok (some ⟨0, 1⟩)) && decide (x.2.2 = .ok none) &&
        decide ((x.2.1.sys.reg 0).get ⟨0, 1⟩ 1 = .throw .componentNotFound) && decide ((x.2.1.sys.reg 0).get ⟨0, 1⟩ 0 = .ok 5) &&
        decide ((x.2.1.sys.reg 0).size = 1)) = true := by decide +kernel
    rw [hm] at t1
    simp only [Option.map_some, Option.all_some, Bool.and_eq_true, decide_eq_true_eq] at t1
    obtain ⟨⟨⟨⟨rfl, rfl⟩, t3⟩, t4⟩, t5⟩ := t1
    have t2 : ((((cexec smallTy id mixOps).get mixOps_isSome).1.step smallTy id (.direct (.on 0 (.create [(1, 6)])))).all fun x =>
        decide ((x.1.sys.reg 0).get ⟨0, 1⟩ 1 = .ok 6)) = true := by decide +kernel
    rw [hx] at t2
    simp only [Option.all_some, decide_eq_true_eq] at t2
    exact ⟨_, c1, c2, _, ⟨0, 1⟩, cexec_get mixOps mixOps_isSome, ⟨_, rfl⟩, hx, t2, hz, t3, t4, t5⟩

/-! ## C62 -/

theorem flushBufs_dangling (husk : V → V) : ∀ (bs : List (Option (Buf V))) (d : Reg V), none ∈ bs →
    ∀ x u, flushBufs ty husk bs d ≠ .ok x u
  | [], _, h, _, _ => by cases h
  | none :: _, _, _, _, _ => by simp [flushBufs]
  | some b :: bs, d, h, x, u => by
    have h' : none ∈ bs := by simpa using h
    simp only [flushBufs]
    split
    · simp
    · simp
    · rename_i b' d' _ _
      have := flushBufs_dangling husk bs d' h'
      split
      · simp
      · simp
      · rename_i hx; exact absurd hx (this _ _)

theorem flushBufs_dangling_idle (husk : V → V) : ∀ (bs : List (Option (Buf V))) (d : Reg V), none ∈ bs →
    (∀ b, some b ∈ bs → b.queue = []) → flushBufs ty husk bs d = .ub
  | [], _, h, _ => by cases h
  | none :: _, _, _, _ => rfl
  | some b :: bs, d, h, hq => by
    obtain ⟨s, q⟩ := b
    have : q = [] := hq ⟨s, q⟩ List.mem_cons_self
    subst this
    have ih := flushBufs_dangling_idle husk bs d (by simpa using h) fun b hb => hq b (List.mem_cons_of_mem _ hb)
    simp only [flushBufs, Buf.play, playQueue, ih]

/-- **C62 is violated**: once a thread that has made a command buffer has ended, no flush of any registry
returns, and it is undefined behaviour if no command is queued: the address of the buffer stays in the
list of buffers. -/
theorem C62_ended_thread_violated {b : Nat} (hb : b < c.bufs.length) {c1 : CSys V} {o : Out}
    (he : c.step ty husk (.exit b) = some (c1, o)) (i : Nat) :
    (∀ c' o', c1.step ty husk (.flush i) ≠ some (c', .ok o')) ∧
    ((∀ b, some b ∈ c1.bufs → b.queue = []) → c1.step ty husk (.flush i) = none) := by
  cases he
  have hm : none ∈ c.bufs.set b none := List.mem_of_getElem? (i := b) (by simp [hb])
  constructor
  · intro c' o' hs
    obtain ⟨bs, r, hf, _⟩ := flush_ok hs
    exact flushBufs_dangling husk _ _ hm _ _ hf
  · intro hq
    have := flushBufs_dangling_idle (ty := ty) husk _ (c.sys.reg i).sync hm hq
    simp only [CSys.step, flush, this]

/-- Two threads; the second records, all is flushed, the second ends. -/
def endOps : List (COp Nat) :=
  [.start, .start, .direct (.on 0 (.create [(0, 1)])), .record 1 0 (.set ⟨0, 0⟩ 0 2), .flush 0, .exit 1]

theorem endOps_isSome : (cexec smallTy id endOps).isSome = true := by decide +kernel

example : (((cexec smallTy id endOps).get endOps_isSome).1.step smallTy id (.flush 0)).isNone = true ∧
    (((cexec smallTy id endOps).get endOps_isSome).1.sys.reg 0).get ⟨0, 0⟩ 0 = .ok 2 := by decide +kernel

theorem flushBufs_keeps (husk : V → V) : ∀ (bs : List (Option (Buf V))) (d : Reg V), none ∉ bs →
    (∀ bs' d' u, flushBufs ty husk bs d = .ok (bs', d') u → none ∉ bs') ∧
    (∀ bs' d' e, flushBufs ty husk bs d = .throw (bs', d') e → none ∉ bs')
  | [], _, _ => ⟨fun bs' d' u h => (by cases h; simp), fun bs' d' u h => (by cases h)⟩
  | none :: _, _, h => absurd List.mem_cons_self h
  | some b :: bs, d, h => by
    have h' : none ∉ bs := fun hm => h (List.mem_cons_of_mem _ hm)
    simp only [flushBufs]
    cases b.play ty husk d with
    | ub => exact ⟨fun _ _ _ h => (by cases h), fun _ _ _ h => (by cases h)⟩
    | throw x e =>
      refine ⟨fun _ _ _ h => (by cases h), fun _ _ _ h => ?_⟩
      cases h
      simpa using h'
    | ok x u =>
      obtain ⟨b1, d1⟩ := x
      have ih := flushBufs_keeps husk bs d1 h'
      dsimp only
      cases hf : flushBufs ty husk bs d1 with
      | ub => exact ⟨fun _ _ _ h => (by cases h), fun _ _ _ h => (by cases h)⟩
      | throw y e =>
        obtain ⟨bs1, d2⟩ := y
        refine ⟨fun _ _ _ h => (by cases h), fun _ _ _ h => ?_⟩
        cases h
        simpa using ih.2 _ _ _ hf
      | ok y u =>
        obtain ⟨bs1, d2⟩ := y
        refine ⟨fun _ _ _ h => ?_, fun _ _ _ h => (by cases h)⟩
        cases h
        simpa using ih.1 _ _ _ hf

/-- **C62** (partial; missing: threads that end after they have made a buffer, where it is false): as long as
no such thread ends, all the buffers that a flush visits are there. -/
theorem C62_living_threads_partial {op : COp V} (hx : ∀ b, op ≠ .exit b) {o : Out} (hs : c.step ty husk op = some (c', o))
    (hn : none ∉ c.bufs) : none ∉ c'.bufs := by
  have hset : ∀ b (buf : Buf V), none ∉ c.bufs.set b (some buf) := by
    intro b buf hm
    rcases List.mem_or_eq_of_mem_set hm with h | h
    · exact hn h
    · cases h
  cases op with
  | exit b => exact absurd rfl (hx b)
  | direct op =>
    simp only [CSys.step, Option.map_eq_some_iff] at hs
    obtain ⟨x, _, h⟩ := hs
    cases h
    exact hn
  | start => cases hs; simpa using hn
  | flush i =>
    cases o with
    | ok h =>
      obtain ⟨bs, r, hf, rfl⟩ := flush_ok hs
      exact (flushBufs_keeps husk _ _ hn).1 _ _ _ hf
    | throw e =>
      obtain ⟨bs, r, hf, rfl⟩ := flush_throw hs
      exact (flushBufs_keeps husk _ _ hn).2 _ _ _ hf
  | record b i rc =>
    simp only [CSys.step] at hs
    split at hs
    · cases rc <;> simp only [CSys.record] at hs
      · split at hs
        · cases hs
        · cases hs; exact hset _ _
        · cases hs; exact hset _ _
      · split at hs
        · cases hs
        · cases hs
        · cases hs; exact hset _ _
      · split at hs
        · cases hs
        · cases hs; exact hset _ _
        · cases hs; exact hset _ _
      · cases hs; exact hset _ _
      · cases hs; exact hset _ _
    · cases hs

example : none ∉ sampleC.bufs := by
  have : (sampleC.bufs.all Option.isSome) = true := by decide +kernel
  intro h
  simpa using List.all_eq_true.1 this _ h

/-! ## C63 -/

/-- **C63**: if a flush throws, the commands before the failing one have been applied, the failing one has
changed nothing and is dropped, and all the commands after it are still queued, in their order; other
registries are unchanged. -/
theorem C63_failed_flush (hr : CReach ty husk c W) {i : Nat} (ha : c.Allowed (.flush i)) {e : Exn}
    (hs : c.step ty husk (.flush i) = some (c', .throw e)) :
    ∃ (done : List (Nat × ACmd V)) (bad : Nat × ACmd V),
      c.todo.flatten = done ++ bad :: c'.todo.flatten ∧
      Answers (c'.sys.reg i) ((done.map Prod.snd).foldl ACmd.apply (W i)) ∧ ACmd.AllReady (W i) (done.map Prod.snd) ∧
      bad.2.Fails ty ((done.map Prod.snd).foldl ACmd.apply (W i)) e ∧
      c'.Allowed (.flush i) ∧ ∀ j, j ≠ i → c'.sys.reg j = c.sys.reg j := by
  obtain ⟨bs, r, hf, rfl⟩ := flush_throw hs
  have hsp := hr.inv.flushSpec husk ha
  rw [hf] at hsp
  obtain ⟨g, a, m1, m2, m3, m4, m5, m6⟩ := hsp
  have he : (g.map Prod.snd).foldl ACmd.apply (W i) = applyAll (W i) g := by
    rw [List.foldl_map]; rfl
  rw [List.append_assoc] at m2
  refine ⟨g, a, m2, ?_, m6, ?_, ?_, ?_⟩
  · rw [he, flushed_reg, if_pos rfl]; exact m4.rep.answers
  · rw [he]; exact m5
  · intro x hx
    exact ha x (by rw [m2]; exact List.mem_append_right _ (List.mem_append_right _ hx))
  · intro j hj
    rw [flushed_reg, if_neg hj]

/-- A command that fails between two others. -/
def failOps : List (COp Nat) :=
  [.start, .direct (.on 0 (.create [(0, 1)])), .record 0 0 (.set ⟨0, 0⟩ 0 2), .record 0 0 (.remove ⟨9, 0⟩ 0), .record 0 0 (.set ⟨0, 0⟩ 0 3)]

theorem failOps_isSome : (cexec smallTy id failOps).isSome = true := by decide +kernel

/-- The first flush throws, the second executes the last command. -/
example : ((((cexec smallTy id failOps).get failOps_isSome).1.step smallTy id (.flush 0)).map fun x =>
      (x.2, (x.1.sys.reg 0).get ⟨0, 0⟩ 0, x.1.todo.flatten.length)) = some (.throw .entityNotFound, .ok 2, 1) ∧
    ((((cexec smallTy id failOps).get failOps_isSome).1.step smallTy id (.flush 0)).bind fun x =>
      (x.1.step smallTy id (.flush 0)).map fun y => (y.2, (y.1.sys.reg 0).get ⟨0, 0⟩ 0, y.1.todo.flatten.length)) = some (.ok none, .ok 3, 0) := by
  decide +kernel

/-! ## C64 -/

/-- The second thread records a creation, then the first adds a component to the new entity. -/
def orderOps : List (COp Nat) := [.start, .start, .record 1 0 (.create [(0, 1)]), .record 0 0 (.set ⟨0, 0⟩ 1 2)]

theorem orderOps_isSome : (cexec smallTy id orderOps).isSome = true := by decide +kernel

theorem orderOps_flush : (((cexec smallTy id orderOps).get orderOps_isSome).1.step smallTy id (.flush 0)).isSome = true := by decide +kernel

/-- **C64 is violated**: the second thread records the creation of an entity, and afterwards the first thread
records an assignment to it.  Executed in the order recorded both succeed; the flush executes the first
buffer first, throws `std::out_of_range` and the assignment is lost. -/
theorem C64_record_order_violated :
    ∃ (c c' : CSys Nat) (W : Spec.World Nat) (h : Handle) (d : Nat → Option Nat), CReach smallTy id c W ∧ c.Allowed (.flush 0) ∧
      c.todo = [[(0, .set h 1 2)], [(0, .create h d)]] ∧ ACmd.AllReady (W 0) [.create h d, .set h 1 2] ∧
      c.step smallTy id (.flush 0) = some (c', .throw .outOfRange) ∧ c'.todo = [[], [(0, .create h d)]] := by
  refine ⟨_, ((((cexec smallTy id orderOps).get orderOps_isSome).1.step smallTy id (.flush 0)).get orderOps_flush).1, _, ⟨0, 0⟩, _,
    cexec_get orderOps orderOps_isSome, allowedB_allowed (by decide +kernel), rfl, ?_, ?_, rfl⟩
  · refine ⟨fun h hh => (by cases hh), fun h hh => ?_, trivial⟩
    cases hh
    simp [ACmd.apply, ACmd.put]
  · have : ((((cexec smallTy id orderOps).get orderOps_isSome).1.step smallTy id (.flush 0)).get orderOps_flush).2 = .throw .outOfRange := by
      decide +kernel
    rw [← this]
    exact (Option.some_get orderOps_flush).symm

/-- **C64** (partial; missing: several threads, where it is false): the commands of one thread are executed in
the order in which it recorded them: a recorded command goes to the end of its own queue. -/
theorem C64_one_thread_order_partial {b i : Nat} {rc : Rec V} {o : Option Handle}
    (hs : c.step ty husk (.record b i rc) = some (c', .ok o)) :
    ∃ a, c'.todo = c.todo.modify b (· ++ [(i, a)]) := by
  simp only [CSys.step] at hs
  split at hs
  · cases rc <;> simp only [CSys.record] at hs
    · split at hs <;> cases hs; exact ⟨_, rfl⟩
    · split at hs <;> cases hs; exact ⟨_, rfl⟩
    · split at hs <;> cases hs; exact ⟨_, rfl⟩
    · cases hs; exact ⟨_, rfl⟩
    · cases hs; exact ⟨_, rfl⟩
  · cases hs

end CoEcs.Props
