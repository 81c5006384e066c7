import Verif.Proofs.Alloc

/-!
# C44, C45, C46: the stack and linear allocators
-/

namespace CoEcs.Props
open CoEcs.Alloc

/-- Alignments the stack allocator accepts (stack_allocator.hpp:52-53, powers of two up to 128). -/
def GoodAlign (a : Nat) : Prop := ∃ k, k ≤ 7 ∧ a = 2 ^ k

/-- All allocations requested use acceptable alignments. -/
def GoodOps (ops : List StackOp) : Prop := ∀ b a, StackOp.alloc b a ∈ ops → GoodAlign a

/-- Every live allocation is aligned, lies inside the buffer with the byte before it (its header) and
overlaps no other live allocation nor its header. -/
def WellPlaced (start size : Nat) (live : List Live) : Prop :=
  (∀ l ∈ live, l.align ∣ l.ptr ∧ start ≤ l.ptr - 1 ∧ 0 < l.ptr ∧ l.ptr + l.bytes ≤ start + size) ∧
  ∀ (i j : Nat) (a b : Live), live[i]? = some a → live[j]? = some b → i ≠ j →
    ∀ x, ¬ (a.ptr - 1 ≤ x ∧ x < a.ptr + a.bytes ∧ b.ptr - 1 ≤ x ∧ x < b.ptr + b.bytes)

/-- Every allocation of the history is requested while at least one byte remains. -/
def NeverFull (y : StackSys) : List StackOp → Prop
  | [] => True
  | op :: ops => ((∃ b a, op = .alloc b a) → 0 < y.alloc.remaining) ∧
      ∀ y', y.step op = some y' → NeverFull y' ops

theorem goodAlign_pos {a : Nat} (h : GoodAlign a) : 0 < a ∧ a ≤ 128 := by
  obtain ⟨k, hk, rfl⟩ := h
  exact ⟨Nat.two_pow_pos k, Nat.le_trans (Nat.pow_le_pow_right (by decide) hk) (by decide)⟩

theorem wellPlaced_of_inv {y : StackSys} (inv : StackInv y) :
    WellPlaced y.alloc.start y.alloc.size y.live := by
  have hb := inv.bound
  refine ⟨fun l hl => ?_, ?_⟩
  · obtain ⟨h1, h2, h3⟩ := inv.chain.mem_bounds l hl
    exact ⟨h3, by omega, by omega, by omega⟩
  · intro i j a b ha hb' hij x hx
    have hp := inv.chain.pairwise
    rw [List.pairwise_iff_getElem] at hp
    obtain ⟨hi, rfl⟩ := List.getElem?_eq_some_iff.1 ha
    obtain ⟨hj, rfl⟩ := List.getElem?_eq_some_iff.1 hb'
    rcases Nat.lt_or_gt_of_ne hij with h | h
    · have := hp i j hi hj h; omega
    · have := hp j i hj hi h; omega

/-- The invariant along a history. -/
theorem stack_run {ops : List StackOp} : ∀ {y y' : StackSys}, StackInv y → GoodOps ops →
    NeverFull y ops → y.run ops = some y' →
    StackInv y' ∧ y'.alloc.start = y.alloc.start ∧ y'.alloc.size = y.alloc.size := by
  induction ops with
  | nil => intro y y' inv _ _ h; cases h; exact ⟨inv, rfl, rfl⟩
  | cons op ops ih =>
    intro y y' inv hg hf h
    simp only [StackSys.run, Option.bind_eq_some_iff] at h
    obtain ⟨z, hz, hr⟩ := h
    have hstep : StackInv z ∧ z.alloc.start = y.alloc.start ∧ z.alloc.size = y.alloc.size := by
      cases op with
      | alloc b a =>
        obtain ⟨hp, hle⟩ := goodAlign_pos (hg b a (List.mem_cons_self ..))
        have hrem := hf.1 ⟨b, a, rfl⟩
        have hfree : y.alloc.offset < y.alloc.size := by
          have := inv.bound
          unfold Stack.remaining at hrem
          rw [sub64_eq inv.bound inv.small] at hrem
          omega
        rcases allocate_ok inv (b := b) hp hle hfree with h | ⟨p, m, h, hi, _⟩
        · rw [h] at hz; cases hz; exact ⟨inv, rfl, rfl⟩
        · rw [h] at hz; cases hz; exact ⟨hi, rfl, rfl⟩
      | dealloc =>
        cases hl : y.live with
        | nil => simp [StackSys.step, hl] at hz
        | cons l ls =>
          obtain ⟨prev, _, hd⟩ := dealloc_ok inv hl
          by_cases hlt : l.ptr < y.alloc.start + y.alloc.size
          · obtain ⟨h, hi⟩ := hd hlt
            rw [h] at hz; cases hz; exact ⟨hi, rfl, rfl⟩
          · simp [StackSys.step, hl, Stack.deallocate, hlt] at hz
      | write k i v =>
        obtain ⟨hi, ha, _⟩ := write_ok inv hz
        exact ⟨hi, by rw [ha], by rw [ha]⟩
      | reset =>
        simp only [StackSys.step, Option.some.injEq] at hz
        subst hz
        exact ⟨⟨rfl, Nat.zero_le _, inv.small⟩, rfl, rfl⟩
    obtain ⟨hi, hs, hsz⟩ := hstep
    obtain ⟨h1, h2, h3⟩ := ih hi (fun b a h => hg b a (List.mem_cons_of_mem _ h)) (hf.2 z hz) hr
    exact ⟨h1, h2.trans hs, h3.trans hsz⟩

/-- **C44, as stated, is false.**  Once the buffer is exactly full, the next allocation of any size is
placed behind the buffer: 8 bytes are taken from a 9-byte buffer, then 100 more bytes are handed out. -/
theorem C44_violated : ¬ ∀ (start size : Nat) (mem : Mem) (ops : List StackOp) (y : StackSys),
    size < U64 → GoodOps ops → (⟨Stack.mk' start size, mem, []⟩ : StackSys).run ops = some y →
    WellPlaced start size y.live := by
  intro h
  have hr : ((⟨Stack.mk' 1023 9, fun _ => 0, []⟩ : StackSys).run [.alloc 8 8, .alloc 100 8]).map (·.live) =
      some [⟨1040, 100, 8⟩, ⟨1024, 8, 8⟩] := by decide +kernel
  obtain ⟨y, hy, hl⟩ := Option.map_eq_some_iff.1 hr
  have h1 := h 1023 9 (fun _ => 0) [.alloc 8 8, .alloc 100 8] y (by decide)
    (by
      intro b a hm
      simp only [List.mem_cons, StackOp.alloc.injEq, List.not_mem_nil, or_false] at hm
      exact ⟨3, by omega, by omega⟩) hy
  rw [hl] at h1
  have h2 := (h1.1 ⟨1040, 100, 8⟩ (by simp)).2.2.2
  simp at h2

/-- An empty buffer satisfies every first request. -/
theorem C44_violated_empty_buffer (start bytes : Nat) (mem : Mem) (hb : bytes + 1 < U64) :
    ∃ s m p, (Stack.mk' start 0).allocate mem bytes 1 = (s, m, some p) ∧ start + 0 < p := by
  have hs : sub64 (sub64 0 0) 1 = U64 - 1 := by decide
  refine ⟨⟨start, 0 + (1 % 256 + bytes), 0⟩, mem.set start 1, start + 1, ?_, by omega⟩
  have h1 : alignUp (start + 0 + 1) 1 = start + 1 := by unfold alignUp; omega
  simp only [Stack.allocate, Stack.mk', hs, stdAlign, h1]
  rw [if_pos (by omega)]
  simp only [Nat.add_zero, Nat.add_sub_cancel, Nat.add_sub_cancel_left, Nat.reduceMod]

/-- **C44 (partial).**  Missing compared with the statement: histories that allocate from an exactly full
buffer (`NeverFull` excludes them).  For every buffer, every sequence of allocations, writes into live
allocations, last-in first-out deallocations and resets, the live allocations are aligned, inside the
buffer, and overlap neither each other nor their headers. -/
theorem C44_well_placed_partial (start size : Nat) (mem : Mem) (ops : List StackOp) (y : StackSys)
    (hs : size < U64) (hg : GoodOps ops) (hf : NeverFull ⟨Stack.mk' start size, mem, []⟩ ops)
    (hr : (⟨Stack.mk' start size, mem, []⟩ : StackSys).run ops = some y) :
    WellPlaced start size y.live := by
  obtain ⟨inv, h1, h2⟩ := stack_run (stackInv_init start size mem hs) hg hf hr
  have := wellPlaced_of_inv inv
  rw [h1, h2] at this
  exact this

/-- **C44 is violated** in every history that fills the buffer exactly: the next request, of any size that does not wrap
around, is granted behind the buffer.  So the condition of `C44_well_placed_partial` cannot be weakened. -/
theorem C44_full_violated (start size : Nat) (mem : Mem) (ops : List StackOp) (y : StackSys)
    (hs : size < U64) (hg : GoodOps ops) (hf : NeverFull ⟨Stack.mk' start size, mem, []⟩ ops)
    (hr : (⟨Stack.mk' start size, mem, []⟩ : StackSys).run ops = some y) (hfull : y.alloc.remaining = 0)
    (b a : Nat) (ha : GoodAlign a) (hb : b + 128 ≤ U64) :
    ∃ y' p, y.step (.alloc b a) = some y' ∧ y'.live = ⟨p, b, a⟩ :: y.live ∧ start + size < p := by
  obtain ⟨inv, h1, h2⟩ := stack_run (stackInv_init start size mem hs) hg hf hr
  obtain ⟨hp, hle⟩ := goodAlign_pos ha
  have h1' : y.alloc.start = start := h1
  have h2' : y.alloc.size = size := h2
  have hbd := inv.bound
  have hoff : y.alloc.offset = y.alloc.size := by
    unfold Stack.remaining at hfull
    rw [sub64_eq inv.bound inv.small] at hfull
    omega
  have hsp : sub64 (sub64 y.alloc.size y.alloc.offset) 1 = U64 - 1 := by
    rw [hoff, sub64_eq (Nat.le_refl _) inv.small, Nat.sub_self]; decide
  have hge := alignUp_ge (y.alloc.start + y.alloc.offset + 1) a hp
  have hlt := alignUp_lt (y.alloc.start + y.alloc.offset + 1) a hp
  simp only [StackSys.step, Stack.allocate, hsp, stdAlign]
  rw [if_pos (by omega)]
  exact ⟨_, _, rfl, rfl, by omega⟩

/-- A buffer of 9 bytes that is filled by one allocation. -/
example : ∃ y, (⟨Stack.mk' 1023 9, fun _ => 0, []⟩ : StackSys).run [.alloc 8 8] = some y ∧ y.alloc.remaining = 0 :=
  ⟨⟨⟨1023, 9, 9⟩, Mem.set (fun _ => 0) 1023 1, [⟨1024, 8, 8⟩]⟩,
    by simp [StackSys.run, StackSys.step, Stack.allocate, Stack.mk', sub64, U64, stdAlign, alignUp], by decide⟩

/-- The same histories never trip an assertion of `deallocate` on the newest allocation if it has at least
one byte. -/
theorem C44_dealloc_accepted_partial (start size : Nat) (mem : Mem) (ops : List StackOp) (y : StackSys)
    (hs : size < U64) (hg : GoodOps ops) (hf : NeverFull ⟨Stack.mk' start size, mem, []⟩ ops)
    (hr : (⟨Stack.mk' start size, mem, []⟩ : StackSys).run ops = some y) (l : Live) (ls : List Live)
    (hl : y.live = l :: ls) (hb : 0 < l.bytes) : ∃ y', y.step .dealloc = some y' ∧ y'.live = ls := by
  obtain ⟨inv, h1, h2⟩ := stack_run (stackInv_init start size mem hs) hg hf hr
  obtain ⟨prev, _, hd⟩ := dealloc_ok inv hl
  have hm := (inv.chain.mem_bounds l (by rw [hl]; exact List.mem_cons_self ..)).2.1
  have := inv.bound
  exact ⟨_, (hd (by omega)).1, rfl⟩

/-- A zero-byte allocation that ends exactly at the end of the buffer cannot be deallocated: the assertion
at stack_allocator.hpp:81 rejects its address. -/
theorem C45_violated_empty_allocation : ∃ y,
    (⟨Stack.mk' 1023 1, fun _ => 0, []⟩ : StackSys).step (.alloc 0 8) = some y ∧
    y.live = [⟨1024, 0, 8⟩] ∧ y.step .dealloc = none :=
  ⟨⟨⟨1023, 1, 1⟩, Mem.set (fun _ => 0) 1023 1, [⟨1024, 0, 8⟩]⟩, by simp [StackSys.step, Stack.allocate, Stack.deallocate, Stack.mk', Stack.moved, sub64, U64, stdAlign, alignUp, Mem.set],
    rfl, by simp [StackSys.step, Stack.allocate, Stack.deallocate, Stack.mk', Stack.moved, sub64, U64, stdAlign, alignUp, Mem.set]⟩

/-- **C45, as stated, is false**: the move constructor forgets how much of the buffer is in use
(stack_allocator.hpp:34-36), so the first allocation from the moved-to object overlaps a live one. -/
theorem C45_violated_move : ∃ (s : Stack) (m : Mem) (p q : Nat),
    (Stack.mk' 1023 64).allocate (fun _ => 0) 8 8 = (s, m, some p) ∧
    (s.moved.allocate m 8 8).2.2 = some q ∧ q = p :=
  ⟨⟨1023, 9, 64⟩, Mem.set (fun _ => 0) 1023 1, 1024, 1024,
    by simp [StackSys.step, Stack.allocate, Stack.deallocate, Stack.mk', Stack.moved, sub64, U64, stdAlign, alignUp, Mem.set],
    by simp [StackSys.step, Stack.allocate, Stack.deallocate, Stack.mk', Stack.moved, sub64, U64, stdAlign, alignUp, Mem.set], rfl⟩

/-- **C45 (partial).**  Missing: moving the allocator, and allocating from an exactly full buffer.
After a successful allocation and any further history that leaves the same allocations live, deallocating
that allocation puts the allocator back into the state before it. -/
theorem C45_dealloc_restores_partial (start size : Nat) (mem : Mem) (ops ops' : List StackOp)
    (y y1 y2 y3 : StackSys) (b a : Nat) (l : Live)
    (hs : size < U64) (hg : GoodOps (ops ++ .alloc b a :: ops'))
    (hf : NeverFull ⟨Stack.mk' start size, mem, []⟩ (ops ++ .alloc b a :: ops'))
    (hr : (⟨Stack.mk' start size, mem, []⟩ : StackSys).run ops = some y)
    (h1 : y.step (.alloc b a) = some y1) (hsucc : y1.live = l :: y.live)
    (h2 : y1.run ops' = some y2) (hsame : y2.live = y1.live)
    (h3 : y2.step .dealloc = some y3) :
    y3.alloc = y.alloc ∧ y3.live = y.live := by
  have run_append : ∀ (os os' : List StackOp) (z z' : StackSys), z.run os = some z' →
      z.run (os ++ os') = z'.run os' := by
    intro os
    induction os with
    | nil => intro os' z z' h; cases h; rfl
    | cons o os ih =>
      intro os' z z' h
      simp only [StackSys.run, Option.bind_eq_some_iff] at h
      obtain ⟨w, hw, hwr⟩ := h
      simp only [List.cons_append, StackSys.run, hw, Option.bind_some]
      exact ih os' w z' hwr
  have never_split : ∀ (os os' : List StackOp) (z : StackSys), NeverFull z (os ++ os') → NeverFull z os := by
    intro os
    induction os with
    | nil => intros; trivial
    | cons o os ih => intro os' z h; exact ⟨h.1, fun z' hz => ih os' z' (h.2 z' hz)⟩
  obtain ⟨inv, e1, e2⟩ := stack_run (stackInv_init start size mem hs)
    (fun b a h => hg b a (List.mem_append_left _ h)) (never_split _ _ _ hf) hr
  have hrun2 : (⟨Stack.mk' start size, mem, []⟩ : StackSys).run (ops ++ .alloc b a :: ops') = some y2 := by
    rw [run_append ops _ _ _ hr]
    simp only [StackSys.run, h1, Option.bind_some, h2]
  obtain ⟨inv2, e3, e4⟩ := stack_run (stackInv_init start size mem hs) hg hf hrun2
  rw [hsucc] at hsame
  obtain ⟨prev, hch, hd⟩ := dealloc_ok inv2 hsame
  by_cases hlt : l.ptr < y2.alloc.start + y2.alloc.size
  · obtain ⟨hst, hinv⟩ := hd hlt
    rw [hst] at h3
    cases h3
    refine ⟨?_, rfl⟩
    have hc := inv.chain
    rw [show y2.alloc.start = y.alloc.start by rw [e1, e3]] at hch
    have htop := hch.top_unique hc
    have hsz : y2.alloc.size = y.alloc.size := by rw [e2, e4]
    have hst : y2.alloc.start = y.alloc.start := by rw [e1, e3]
    simp only [hsz, hst, htop, Nat.add_sub_cancel_left]
  · simp [StackSys.step, hsame, Stack.deallocate, hlt] at h3

/-- Live allocations of a linear allocator: aligned, inside the buffer and pairwise disjoint. -/
def WellPlacedLinear (ptr size : Nat) (live : List Live) : Prop :=
  (∀ l ∈ live, l.align ∣ l.ptr ∧ ptr ≤ l.ptr ∧ l.ptr + l.bytes ≤ ptr + size) ∧
  ∀ (i j : Nat) (a b : Live), live[i]? = some a → live[j]? = some b → i ≠ j →
    ∀ x, ¬ (a.ptr ≤ x ∧ x < a.ptr + a.bytes ∧ b.ptr ≤ x ∧ x < b.ptr + b.bytes)

private theorem linear_run (ops : List LinearOp) : ∀ (y : LinearSys), LinearInv y →
    (∀ b a, LinearOp.alloc b a ∈ ops → 0 < a) →
    LinearInv (y.run ops) ∧ (y.run ops).alloc.ptr = y.alloc.ptr ∧ (y.run ops).alloc.size = y.alloc.size := by
  induction ops with
  | nil => intro y inv _; exact ⟨inv, rfl, rfl⟩
  | cons op ops ih =>
    intro y inv hg
    obtain ⟨h1, h2, h3⟩ := linearInv_step inv op (fun b a h => hg b a (h ▸ List.mem_cons_self ..))
    obtain ⟨h4, h5, h6⟩ := ih (y.step op) h1 (fun b a h => hg b a (List.mem_cons_of_mem _ h))
    exact ⟨h4, h5.trans h2, h6.trans h3⟩

/-- **C46.**  For every buffer and every sequence of allocations (any sizes and positive alignments) and
resets, the allocations made since the last reset are aligned, in the buffer and pairwise disjoint. -/
theorem C46_linear_well_placed (ptr size : Nat) (ops : List LinearOp) (hs : size < U64)
    (hg : ∀ b a, LinearOp.alloc b a ∈ ops → 0 < a) :
    WellPlacedLinear ptr size ((⟨Linear.mk' ptr size, []⟩ : LinearSys).run ops).live := by
  obtain ⟨inv, h1, h2⟩ := linear_run ops ⟨Linear.mk' ptr size, []⟩
    ⟨Nat.le_refl _, Nat.le_add_right _ _, hs, (fun l hl => by cases hl), List.Pairwise.nil⟩ hg
  generalize (⟨Linear.mk' ptr size, []⟩ : LinearSys).run ops = y at *
  have h1' : y.alloc.ptr = ptr := h1
  have h2' : y.alloc.size = size := h2
  have hh := inv.high
  refine ⟨fun l hl => ?_, ?_⟩
  · obtain ⟨h3, h4, h5⟩ := inv.mem l hl
    exact ⟨h5, by omega, by omega⟩
  · intro i j a b ha hb hij x hx
    have hp := inv.pairwise
    rw [List.pairwise_iff_getElem] at hp
    obtain ⟨hi, rfl⟩ := List.getElem?_eq_some_iff.1 ha
    obtain ⟨hj, rfl⟩ := List.getElem?_eq_some_iff.1 hb
    rcases Nat.lt_or_gt_of_ne hij with h | h
    · have := hp i j hi hj h; omega
    · have := hp j i hj hi h; omega

/-- **C46, failure.**  A failed allocation changes nothing, and it fails only if the request does not fit
behind the aligned head. -/
theorem C46_linear_failure (ptr size : Nat) (ops : List LinearOp) (b a : Nat) (hs : size < U64)
    (hg : ∀ b a, LinearOp.alloc b a ∈ ops → 0 < a) (ha : 0 < a) :
    let y := (⟨Linear.mk' ptr size, []⟩ : LinearSys).run ops
    ((y.alloc.allocate b a).2 = none → (y.alloc.allocate b a).1 = y.alloc) ∧
    ((y.alloc.allocate b a).2 = none ↔ ∀ p, y.alloc.head ≤ p → a ∣ p → ptr + size < p + b) := by
  obtain ⟨inv, h1, h2⟩ := linear_run ops ⟨Linear.mk' ptr size, []⟩
    ⟨Nat.le_refl _, Nat.le_add_right _ _, hs, (fun l hl => by cases hl), List.Pairwise.nil⟩ hg
  generalize (⟨Linear.mk' ptr size, []⟩ : LinearSys).run ops = y at *
  have h1' : y.alloc.ptr = ptr := h1
  have h2' : y.alloc.size = size := h2
  have hl := inv.low
  have hh := inv.high
  have hsp : sub64 y.alloc.size (y.alloc.head - y.alloc.ptr) = y.alloc.size - (y.alloc.head - y.alloc.ptr) :=
    sub64_eq (by omega) inv.small
  have hge := alignUp_ge y.alloc.head a ha
  have hlt := alignUp_lt y.alloc.head a ha
  have hdvd := alignUp_dvd y.alloc.head a
  simp only [Linear.allocate, hsp, stdAlign]
  by_cases hc : alignUp y.alloc.head a - y.alloc.head + b ≤ y.alloc.size - (y.alloc.head - y.alloc.ptr)
  · rw [if_pos hc]
    refine ⟨fun h => by simp at h, ?_⟩
    simp only [reduceCtorEq, false_iff]
    intro h
    have := h _ hge hdvd
    omega
  · rw [if_neg hc]
    refine ⟨fun _ => rfl, ?_⟩
    simp only [true_iff]
    intro p hp hd
    have hle : alignUp y.alloc.head a ≤ p := by
      obtain ⟨k, rfl⟩ := hd
      obtain ⟨j, hj⟩ := hdvd
      rw [hj] at hlt ⊢
      apply Nat.mul_le_mul_left
      apply Decidable.byContradiction
      intro hkj
      have : a * (k + 1) ≤ a * j := Nat.mul_le_mul_left _ (by omega)
      rw [Nat.mul_add] at this
      omega
    omega

/-! ### Examples: the hypotheses are met by concrete histories -/

example : GoodOps [.alloc 10 8, .alloc 3 16, .write 0 2 255, .dealloc, .alloc 1 1] := by
  intro b a hm
  simp only [List.mem_cons, StackOp.alloc.injEq, List.not_mem_nil, or_false, reduceCtorEq, false_or] at hm
  rcases hm with ⟨_, rfl⟩ | ⟨_, rfl⟩ | ⟨_, rfl⟩
  · exact ⟨3, by omega, rfl⟩
  · exact ⟨4, by omega, rfl⟩
  · exact ⟨0, by omega, rfl⟩

example : NeverFull ⟨Stack.mk' 1000 64, fun _ => 0, []⟩ [.alloc 10 8, .alloc 3 16, .dealloc] := by
  refine ⟨fun _ => by decide, fun y' h => ?_⟩
  have : y'.alloc = ⟨1000, 18, 64⟩ := by
    simp [StackSys.step, Stack.allocate, Stack.mk', sub64, U64, stdAlign, alignUp] at h
    rw [← h]
  refine ⟨fun _ => by rw [this]; decide, fun y'' _ => ⟨fun h => ?_, fun _ _ => trivial⟩⟩
  obtain ⟨b, a, h⟩ := h
  cases h

example : ((⟨Stack.mk' 1000 64, fun _ => 0, []⟩ : StackSys).run
    [.alloc 10 8, .alloc 3 16, .write 0 2 255, .dealloc, .alloc 1 1]).map (·.live) =
    some [⟨1019, 1, 1⟩, ⟨1008, 10, 8⟩] := by decide +kernel

example : ((⟨Linear.mk' 1001 32, []⟩ : LinearSys).run [.alloc 3 4, .alloc 100 1, .alloc 8 8]).live =
    [⟨1008, 8, 8⟩, ⟨1004, 3, 4⟩] := by
  simp [LinearSys.run, LinearSys.step, Linear.allocate, Linear.mk', sub64, U64, stdAlign, alignUp]

end CoEcs.Props
