import Verif.Model.Alloc

namespace CoEcs.Alloc

theorem alignUp_ge (p a : Nat) (ha : 0 < a) : p ≤ alignUp p a := by
  unfold alignUp
  have h1 := Nat.div_add_mod (p + a - 1) a
  have h2 := Nat.mod_lt (p + a - 1) ha
  rw [Nat.mul_comm] at h1
  omega

theorem alignUp_lt (p a : Nat) (ha : 0 < a) : alignUp p a < p + a := by
  unfold alignUp
  have := Nat.div_mul_le_self (p + a - 1) a
  omega

theorem alignUp_dvd (p a : Nat) : a ∣ alignUp p a := Nat.dvd_mul_left _ _

theorem sub64_eq {a b : Nat} (h : b ≤ a) (ha : a < U64) : sub64 a b = a - b := by
  unfold sub64
  rw [Nat.mod_eq_of_lt (by omega : b < U64), show a + U64 - b = (a - b) + U64 by omega, Nat.add_mod_right,
    Nat.mod_eq_of_lt (by omega)]

/-- What holds of a live list with the allocator's top at `top`: allocations lie one behind the other,
each with its header byte. -/
def Chain (start : Nat) (mem : Mem) : List Live → Nat → Prop
  | [], top => top = start
  | l :: ls, top => top = l.ptr + l.bytes ∧ l.align ∣ l.ptr ∧
      ∃ prev, Chain start mem ls prev ∧ prev + 1 ≤ l.ptr ∧ mem (l.ptr - 1) = l.ptr - prev

structure StackInv (y : StackSys) : Prop where
  chain : Chain y.alloc.start y.mem y.live (y.alloc.start + y.alloc.offset)
  bound : y.alloc.offset ≤ y.alloc.size
  small : y.alloc.size < U64

theorem Chain.top_ge {start : Nat} {mem : Mem} : ∀ {ls : List Live} {top : Nat}, Chain start mem ls top → start ≤ top := by
  intro ls
  induction ls with
  | nil => intro top h; rw [h]; exact Nat.le_refl _
  | cons l ls ih =>
    rintro top ⟨h1, _, prev, h2, h3, _⟩
    have := ih h2; omega

/-- Every live allocation lies between the start and the top. -/
theorem Chain.mem_bounds {start : Nat} {mem : Mem} : ∀ {ls : List Live} {top : Nat}, Chain start mem ls top →
    ∀ l ∈ ls, start + 1 ≤ l.ptr ∧ l.ptr + l.bytes ≤ top ∧ l.align ∣ l.ptr := by
  intro ls
  induction ls with
  | nil => intro top _ l hl; cases hl
  | cons a ls ih =>
    rintro top ⟨h1, h4, prev, h2, h3, _⟩ l hl
    rcases List.mem_cons.1 hl with rfl | hl
    · have := h2.top_ge; exact ⟨by omega, by omega, h4⟩
    · obtain ⟨h5, h6, h7⟩ := ih h2 l hl
      exact ⟨h5, by omega, h7⟩

/-- Writing at an address that is no header leaves the chain. -/
theorem Chain.write {start : Nat} {mem : Mem} {a v : Nat} : ∀ {ls : List Live} {top : Nat}, Chain start mem ls top →
    (∀ l ∈ ls, l.ptr - 1 ≠ a) → Chain start (mem.set a v) ls top := by
  intro ls
  induction ls with
  | nil => intro top h _; exact h
  | cons l ls ih =>
    rintro top ⟨h1, h2, prev, h3, h4, h5⟩ hne
    refine ⟨h1, h2, prev, ih h3 (fun x hx => hne x (List.mem_cons_of_mem _ hx)), h4, ?_⟩
    unfold Mem.set
    rw [if_neg (hne l (List.mem_cons_self ..)), h5]

/-- The byte ranges including headers, from top to bottom, do not overlap. -/
theorem Chain.pairwise {start : Nat} {mem : Mem} : ∀ {ls : List Live} {top : Nat}, Chain start mem ls top →
    ls.Pairwise (fun new old => old.ptr + old.bytes + 1 ≤ new.ptr) := by
  intro ls
  induction ls with
  | nil => intro top _; exact List.Pairwise.nil
  | cons l ls ih =>
    rintro top ⟨h1, h2, prev, h3, h4, h5⟩
    refine List.Pairwise.cons (fun x hx => ?_) (ih h3)
    have := (h3.mem_bounds x hx).2.1
    omega

/-- The top is determined by the live allocations. -/
theorem Chain.top_unique {start : Nat} {mem mem' : Mem} {ls : List Live} {top top' : Nat}
    (h : Chain start mem ls top) (h' : Chain start mem' ls top') : top = top' := by
  cases ls with
  | nil => rw [h, h']
  | cons l ls => rw [h.1, h'.1]

theorem stackInv_init (start size : Nat) (mem : Mem) (h : size < U64) :
    StackInv ⟨Stack.mk' start size, mem, []⟩ :=
  ⟨rfl, Nat.zero_le _, h⟩

/-- A successful allocation from a state with at least one free byte. -/
theorem allocate_ok {y : StackSys} (inv : StackInv y) {b a : Nat} (ha : 0 < a) (ha' : a ≤ 128)
    (hfree : y.alloc.offset < y.alloc.size) :
    (y.step (.alloc b a) = some y) ∨
    ∃ p m, y.step (.alloc b a) = some ⟨{ y.alloc with offset := p + b - y.alloc.start }, m, ⟨p, b, a⟩ :: y.live⟩ ∧
      StackInv ⟨{ y.alloc with offset := p + b - y.alloc.start }, m, ⟨p, b, a⟩ :: y.live⟩ ∧
      y.alloc.start + y.alloc.offset + 1 ≤ p := by
  have hU : (1 : Nat) < U64 := by decide
  have hs := inv.small
  have hspace : sub64 (sub64 y.alloc.size y.alloc.offset) 1 = y.alloc.size - y.alloc.offset - 1 := by
    rw [sub64_eq (by omega) hs, sub64_eq (by omega) (by omega)]
  simp only [StackSys.step, Stack.allocate, hspace, stdAlign]
  by_cases hc : alignUp (y.alloc.start + y.alloc.offset + 1) a - (y.alloc.start + y.alloc.offset + 1) + b ≤
      y.alloc.size - y.alloc.offset - 1
  · right
    rw [if_pos hc]
    have hge := alignUp_ge (y.alloc.start + y.alloc.offset + 1) a ha
    have hlt := alignUp_lt (y.alloc.start + y.alloc.offset + 1) a ha
    have hdvd := alignUp_dvd (y.alloc.start + y.alloc.offset + 1) a
    generalize alignUp (y.alloc.start + y.alloc.offset + 1) a = p at *
    have hpad : (p - (y.alloc.start + y.alloc.offset)) % 256 = p - (y.alloc.start + y.alloc.offset) :=
      Nat.mod_eq_of_lt (by omega)
    refine ⟨p, y.mem.set (p - 1) (p - (y.alloc.start + y.alloc.offset)), ?_, ⟨?_, ?_, hs⟩, hge⟩
    · have ho : y.alloc.offset + (p - (y.alloc.start + y.alloc.offset) + b) = p + b - y.alloc.start := by omega
      simp only [hpad, ho]
    · refine ⟨by simp only; omega, hdvd, y.alloc.start + y.alloc.offset, ?_, hge, ?_⟩
      · refine inv.chain.write (fun l hl => ?_)
        have := (inv.chain.mem_bounds l hl)
        omega
      · simp [Mem.set]
    · simp only; omega
  · left
    rw [if_neg hc]

theorem dealloc_ok {y : StackSys} (inv : StackInv y) {l : Live} {ls : List Live} (hl : y.live = l :: ls) :
    (∃ prev, Chain y.alloc.start y.mem ls prev ∧
      (l.ptr < y.alloc.start + y.alloc.size → y.step .dealloc =
        some ⟨{ y.alloc with offset := prev - y.alloc.start }, y.mem, ls⟩ ∧
        StackInv ⟨{ y.alloc with offset := prev - y.alloc.start }, y.mem, ls⟩)) := by
  have hc := inv.chain
  rw [hl] at hc
  obtain ⟨h1, h2, prev, h3, h4, h5⟩ := hc
  refine ⟨prev, h3, fun hlt => ?_⟩
  have hge := h3.top_ge
  have hb := inv.bound
  refine ⟨?_, ?_, ?_, inv.small⟩
  · simp only [StackSys.step, hl, Stack.deallocate]
    rw [if_pos ⟨hlt, by omega⟩, h5]
    simp only [Option.some.injEq, StackSys.mk.injEq, Stack.mk.injEq, true_and, and_true]
    omega
  · have : y.alloc.start + (prev - y.alloc.start) = prev := by omega
    simp only [this]; exact h3
  · simp only; omega

theorem write_ok {y y' : StackSys} (inv : StackInv y) {k i v : Nat} (h : y.step (.write k i v) = some y') :
    StackInv y' ∧ y'.alloc = y.alloc ∧ y'.live = y.live := by
  simp only [StackSys.step] at h
  split at h
  · cases h
  · rename_i l hl
    split at h
    · rename_i hi
      cases h
      refine ⟨⟨inv.chain.write ?_, inv.bound, inv.small⟩, rfl, rfl⟩
      intro x hx
      have hp := inv.chain.pairwise
      have hbx := inv.chain.mem_bounds x hx
      obtain ⟨kx, hkx, rfl⟩ := List.mem_iff_getElem.1 hx
      obtain ⟨hk, rfl⟩ := List.getElem?_eq_some_iff.1 hl
      rw [List.pairwise_iff_getElem] at hp
      rcases Nat.lt_trichotomy kx k with h | h | h
      · have := hp kx k hkx hk h; omega
      · subst h; omega
      · have := hp k kx hk hkx h; omega
    · cases h

/-! ### Linear allocator -/

structure LinearInv (y : LinearSys) : Prop where
  low : y.alloc.ptr ≤ y.alloc.head
  high : y.alloc.head ≤ y.alloc.ptr + y.alloc.size
  small : y.alloc.size < U64
  mem : ∀ l ∈ y.live, y.alloc.ptr ≤ l.ptr ∧ l.ptr + l.bytes ≤ y.alloc.head ∧ l.align ∣ l.ptr
  pairwise : y.live.Pairwise (fun new old => old.ptr + old.bytes ≤ new.ptr)

theorem linearInv_step {y : LinearSys} (inv : LinearInv y) (op : LinearOp)
    (hop : ∀ b a, op = .alloc b a → 0 < a) :
    LinearInv (y.step op) ∧ (y.step op).alloc.ptr = y.alloc.ptr ∧ (y.step op).alloc.size = y.alloc.size := by
  cases op with
  | reset =>
    refine ⟨⟨Nat.le_refl _, Nat.le_add_right _ _, inv.small, ?_, List.Pairwise.nil⟩, rfl, rfl⟩
    intro l hl; cases hl
  | alloc b a =>
    have ha := hop b a rfl
    have h1 := inv.low
    have h2 := inv.high
    have h3 := inv.small
    have hspace : sub64 y.alloc.size (y.alloc.head - y.alloc.ptr) = y.alloc.size - (y.alloc.head - y.alloc.ptr) :=
      sub64_eq (by omega) h3
    simp only [LinearSys.step, Linear.allocate, hspace, stdAlign]
    by_cases hc : alignUp y.alloc.head a - y.alloc.head + b ≤ y.alloc.size - (y.alloc.head - y.alloc.ptr)
    · rw [if_pos hc]
      have hge := alignUp_ge y.alloc.head a ha
      have hdvd := alignUp_dvd y.alloc.head a
      generalize alignUp y.alloc.head a = p at *
      refine ⟨⟨?_, ?_, h3, ?_, ?_⟩, rfl, rfl⟩
      · simp only; omega
      · simp only; omega
      · intro l hl
        rcases List.mem_cons.1 hl with rfl | hl
        · exact ⟨by simp only; omega, Nat.le_refl _, hdvd⟩
        · obtain ⟨h5, h6, h7⟩ := inv.mem l hl
          exact ⟨h5, by simp only; omega, h7⟩
      · refine List.Pairwise.cons (fun l hl => ?_) inv.pairwise
        have := (inv.mem l hl).2.1
        simp only; omega
    · rw [if_neg hc]
      exact ⟨⟨h1, h2, h3, inv.mem, inv.pairwise⟩, rfl, rfl⟩

end CoEcs.Alloc
