import Verif.Proofs.AllocMove
import Verif.Props.Alloc

/-!
# Moving allocators (C105)
-/

namespace CoEcs.Props
open CoEcs.Alloc

/-- Buffers given to a new allocator share no byte with those in use, requests are for acceptable alignments and made while
a byte remains, and allocators are moved from and assigned to only while they have no live allocations. -/
def Calm (w : StackWorld) : WorldOp → Prop
  | .create ptr size => size < U64 ∧ ∀ o ∈ w.objs,
      ptr + size ≤ o.alloc.start ∨ o.alloc.start + o.alloc.size ≤ ptr ∨ size = 0 ∨ o.alloc.size = 0
  | .use i (.alloc _ a) => GoodAlign a ∧ ∀ o ∈ w.objs[i]?, 0 < o.alloc.remaining
  | .use _ _ => True
  | .moveNew i => ∀ o ∈ w.objs[i]?, o.live = []
  | .moveAssign d s => d = s ∨ ((∀ o ∈ w.objs[d]?, o.live = []) ∧ ∀ o ∈ w.objs[s]?, o.live = [])

def CalmRun (w : StackWorld) : List WorldOp → Prop
  | [] => True
  | op :: ops => Calm w op ∧ ∀ w' ∈ w.step op, CalmRun w' ops

instance (a : Nat) : Decidable (GoodAlign a) := by unfold GoodAlign; infer_instance

instance (w : StackWorld) (op : WorldOp) : Decidable (Calm w op) := by
  unfold Calm
  split <;> infer_instance

instance CalmRun.dec (w : StackWorld) : (ops : List WorldOp) → Decidable (CalmRun w ops)
  | [] => .isTrue trivial
  | op :: ops =>
    have : DecidablePred fun w' => CalmRun w' ops := fun w' => CalmRun.dec w' ops
    inferInstanceAs (Decidable (Calm w op ∧ ∀ w' ∈ w.step op, CalmRun w' ops))

theorem world_step {w w' : StackWorld} {op : WorldOp} (I : WorldInv w) (hc : Calm w op) (h : w.step op = some w') : WorldInv w' := by
  cases op with
  | create ptr size =>
    simp only [StackWorld.step, Option.some.injEq] at h
    subst h
    exact I.create hc.1 fun o ho x hx => by have := hc.2 o ho; simp only at hx; omega
  | use i op =>
    simp only [StackWorld.step] at h
    split at h
    · cases h
    · rename_i o ho
      split at h
      · cases h
      · rename_i y hy
        cases h
        refine I.use ho (fun b a hop => ?_) hy
        subst hop
        exact ⟨(goodAlign_pos hc.1).1, (goodAlign_pos hc.1).2, hc.2 o ho⟩
  | moveNew i =>
    simp only [StackWorld.step] at h
    split at h
    · cases h
    · rename_i o ho
      cases h
      exact I.moveNew ho (hc o ho)
  | moveAssign d s =>
    simp only [StackWorld.step] at h
    split at h
    · rename_i a b ha hb
      split at h
      · cases h; exact I
      · rename_i hne
        cases h
        rcases hc with hc | hc
        · exact absurd hc hne
        · exact I.moveAssign ha hb hne (hc.1 a ha) (hc.2 b hb)
    · cases h

theorem world_run {ops : List WorldOp} : ∀ {w w' : StackWorld}, WorldInv w → CalmRun w ops → w.run ops = some w' → WorldInv w' := by
  induction ops with
  | nil => intro w w' I _ h; cases h; exact I
  | cons op ops ih =>
    intro w w' I hc h
    simp only [StackWorld.run] at h
    split at h
    · cases h
    · rename_i w1 h1
      exact ih (world_step I hc.1 h1) (hc.2 w1 h1) h

/-- **C105** (stack): any number of stack allocators, created, used, move constructed and move assigned in any order, but
moved only while the objects involved have no live allocations: the allocations of each lie well in the buffer it holds,
and no byte belongs to two allocations. -/
theorem C105_stack_partial (mem : Mem) (ops : List WorldOp) (w : StackWorld) (hc : CalmRun ⟨[], mem⟩ ops)
    (hr : (⟨[], mem⟩ : StackWorld).run ops = some w) :
    (∀ (i : Nat) (o : StackObj), w.objs[i]? = some o → WellPlaced o.alloc.start o.alloc.size o.live) ∧
    ∀ (i j : Nat) (a b : StackObj), w.objs[i]? = some a → w.objs[j]? = some b → i ≠ j → ∀ l ∈ a.live, ∀ l' ∈ b.live,
      ∀ x, ¬ (l.ptr - 1 ≤ x ∧ x < l.ptr + l.bytes ∧ l'.ptr - 1 ≤ x ∧ x < l'.ptr + l'.bytes) := by
  have I := world_run (WorldInv.init mem) hc hr
  have hW : ∀ (i : Nat) (o : StackObj), w.objs[i]? = some o → WellPlaced o.alloc.start o.alloc.size o.live :=
    fun i o h => wellPlaced_of_inv (I.each i o h)
  refine ⟨hW, fun i j a b ha hb hij l hl l' hl' x hx => ?_⟩
  have h1 := (hW i a ha).1 l hl
  have h2 := (hW j b hb).1 l' hl'
  exact I.apart i j a b ha hb hij x (by omega)

/-- An allocator is used, emptied and moved to a new one, a second one is assigned from that. -/
def moveOps : List WorldOp :=
  [.create 1023 64, .use 0 (.alloc 8 8), .use 0 .dealloc, .moveNew 0, .use 1 (.alloc 8 8), .use 1 .reset, .create 2000 10, .moveAssign 2 1,
   .use 2 (.alloc 4 4)]

example : ((⟨[], fun _ => 0⟩ : StackWorld).run moveOps).map (·.objs) =
    some [⟨⟨0, 0, 0⟩, []⟩, ⟨⟨0, 0, 0⟩, []⟩, ⟨⟨1023, 5, 64⟩, [⟨1024, 4, 4⟩]⟩] := by decide +kernel

example : CalmRun ⟨[], fun _ => 0⟩ moveOps := by decide +kernel

/-- **C105 is violated** (stack, live allocations): for every history of one allocator that leaves something live, one
request to the allocator it is moved to gets all the live memory again. -/
theorem C105_live_violated (start size : Nat) (mem : Mem) (ops : List StackOp) (y : StackSys)
    (hs : size < U64) (hg : GoodOps ops) (hf : NeverFull ⟨Stack.mk' start size, mem, []⟩ ops)
    (hr : (⟨Stack.mk' start size, mem, []⟩ : StackSys).run ops = some y) (hl : y.live ≠ []) :
    ∃ (b : Nat) (s : Stack) (m : Mem) (p : Nat), y.alloc.moved.allocate y.mem b 1 = (s, m, some p) ∧
      ∀ l ∈ y.live, p ≤ l.ptr ∧ l.ptr + l.bytes ≤ p + b := by
  obtain ⟨inv, _, _⟩ := stack_run (stackInv_init start size mem hs) hg hf hr
  have hb := inv.bound
  have hsm := inv.small
  have hin : ∀ l ∈ y.live, y.alloc.start + 1 ≤ l.ptr ∧ l.ptr + l.bytes ≤ y.alloc.start + y.alloc.offset := fun l h => by
    have := inv.chain.mem_bounds l h
    exact ⟨this.1, this.2.1⟩
  obtain ⟨l0, hl0⟩ : ∃ l0, l0 ∈ y.live := by
    cases h : y.live with
    | nil => exact absurd h hl
    | cons l ls => exact ⟨l, by simp⟩
  have h0 := hin l0 hl0
  have hsp : sub64 (sub64 y.alloc.size 0) 1 = y.alloc.size - 1 := by
    rw [sub64_eq (Nat.zero_le _) hsm, Nat.sub_zero, sub64_eq (by omega) hsm]
  have ha : alignUp (y.alloc.start + 0 + 1) 1 = y.alloc.start + 1 := by simp [alignUp]
  refine ⟨y.alloc.offset - 1, ?_⟩
  simp only [Stack.allocate, Stack.moved, hsp, stdAlign, ha]
  rw [if_pos (by omega)]
  refine ⟨_, _, _, rfl, fun l h => ?_⟩
  have := hin l h
  omega

/-- Two live allocations when the allocator is moved. -/
example : ((⟨Stack.mk' 1023 64, fun _ => 0, []⟩ : StackSys).run [.alloc 8 8, .alloc 4 4]).map
    (fun y => (y.live, (y.alloc.moved.allocate y.mem 8 8).2.2)) = some ([⟨1036, 4, 4⟩, ⟨1024, 8, 8⟩], some 1024) := by decide +kernel

/-- **C105 is violated** (stack, what is left): an allocator without a buffer still grants requests. -/
theorem C105_moved_from_violated (s : Stack) (mem : Mem) (b a : Nat) (ha : GoodAlign a) (ho : s.offset < U64)
    (hb : s.offset + b + 128 ≤ U64) :
    ∃ (s' : Stack) (m : Mem) (p : Nat), s.movedFrom.allocate mem b a = (s', m, some p) := by
  obtain ⟨hp, hle⟩ := goodAlign_pos ha
  have hlt := alignUp_lt (0 + s.offset + 1) a hp
  have hsp : sub64 (sub64 0 s.offset) 1 = U64 - s.offset - 1 := by
    unfold sub64
    rw [Nat.mod_eq_of_lt ho]
    unfold U64 at *
    omega
  simp only [Stack.allocate, Stack.movedFrom, hsp, stdAlign]
  rw [if_pos (by omega)]
  exact ⟨_, _, _, rfl⟩

example : ((Stack.mk' 1024 64).movedFrom.allocate (fun _ => 0) 8 8).2.2 = some 8 := by decide +kernel

/-- **C105 is violated** (stack, move assignment): the target keeps its own offset.  If that lies within the new buffer the
bytes before it are lost though nothing is allocated; if it lies behind it, requests are granted outside the buffer. -/
theorem C105_assign_violated (d s : Stack) (mem : Mem) (hs : s.size < U64) (hd : d.offset < U64) :
    (d.offset ≤ s.size → (d.moveAssigned s).remaining = s.size - d.offset) ∧
    ∀ (b a : Nat), GoodAlign a → s.size ≤ d.offset → d.offset + b + 128 ≤ U64 →
      ∃ (s' : Stack) (m : Mem) (p : Nat), (d.moveAssigned s).allocate mem b a = (s', m, some p) ∧ s.start + s.size < p := by
  refine ⟨fun h => ?_, fun b a ha h hb => ?_⟩
  · exact sub64_eq h hs
  · obtain ⟨hp, hle⟩ := goodAlign_pos ha
    have hlt := alignUp_lt (s.start + d.offset + 1) a hp
    have hge := alignUp_ge (s.start + d.offset + 1) a hp
    have hsp : U64 - d.offset - 1 ≤ sub64 (sub64 s.size d.offset) 1 := by
      unfold sub64
      rw [Nat.mod_eq_of_lt hd]
      unfold U64 at *
      omega
    have hc : alignUp (s.start + d.offset + 1) a - (s.start + d.offset + 1) + b ≤ sub64 (sub64 s.size d.offset) 1 := by omega
    have hst : stdAlign a b (s.start + d.offset + 1) (sub64 (sub64 s.size d.offset) 1) = some (alignUp (s.start + d.offset + 1) a) :=
      if_pos hc
    simp only [Stack.allocate, Stack.moveAssigned, hst]
    exact ⟨_, _, alignUp (s.start + d.offset + 1) a, rfl, by omega⟩

/-- A used allocator is assigned a fresh one with 16 bytes. -/
example : ((⟨4096, 40, 64⟩ : Stack).moveAssigned (Stack.mk' 1024 16)).allocate (fun _ => 0) 8 8 |>.2.2 = some 1072 := by decide +kernel

/-- **C105** (linear): the object a linear allocator is moved to carries on where that was: whatever was done before and is
done after the move, the allocations are well placed in the buffer. -/
theorem C105_linear_partial (ptr size : Nat) (before after : List LinearOp) (hs : size < U64)
    (hg : ∀ b a, LinearOp.alloc b a ∈ before ++ after → 0 < a) :
    let y := (⟨Linear.mk' ptr size, []⟩ : LinearSys).run before
    WellPlacedLinear ptr size ((⟨y.alloc.moved, y.live⟩ : LinearSys).run after).live := by
  have h := C46_linear_well_placed ptr size (before ++ after) hs hg
  rw [LinearSys.run, List.foldl_append] at h
  exact h

/-- **C105 is violated** (linear): the object moved from still hands out memory, and the same as the one moved to. -/
theorem C105_linear_violated (l : Linear) (b a p : Nat) (h : (l.moved.allocate b a).2 = some p) :
    (l.movedFrom.allocate b a).2 = some p := h

example : ((Linear.mk' 1001 32).moved.allocate 8 8).2 = some 1008 := by decide +kernel

end CoEcs.Props
