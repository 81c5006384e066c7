import Verif.Model.AllocMove
import Verif.Proofs.Alloc
import Verif.Proofs.TempAlloc

/-!
# Moving allocators: the invariant
-/

namespace CoEcs.Alloc

/-- One action of a client keeps the invariant and changes memory in the buffer only. -/
theorem stack_step {y y' : StackSys} (inv : StackInv y) {op : StackOp}
    (hop : ∀ b a, op = .alloc b a → 0 < a ∧ a ≤ 128 ∧ 0 < y.alloc.remaining) (h : y.step op = some y') :
    StackInv y' ∧ y'.alloc.start = y.alloc.start ∧ y'.alloc.size = y.alloc.size ∧
      ∀ x, ¬ (y.alloc.start ≤ x ∧ x < y.alloc.start + y.alloc.size) → y'.mem x = y.mem x := by
  have hb := inv.bound
  cases op with
  | alloc b a =>
    obtain ⟨hp, hle, hrem⟩ := hop b a rfl
    have hfree : y.alloc.offset < y.alloc.size := by
      unfold Stack.remaining at hrem
      rw [sub64_eq inv.bound inv.small] at hrem
      omega
    have hs := inv.small
    have hU : (1 : Nat) < U64 := by decide
    have hspace : sub64 (sub64 y.alloc.size y.alloc.offset) 1 = y.alloc.size - y.alloc.offset - 1 := by
      rw [sub64_eq (by omega) hs, sub64_eq (by omega) (by omega)]
    have hmem : ∀ x, ¬ (y.alloc.start ≤ x ∧ x < y.alloc.start + y.alloc.size) → y'.mem x = y.mem x := by
      intro x hx
      simp only [StackSys.step, Stack.allocate, hspace, stdAlign] at h
      split at h
      · cases h; rfl
      · rename_i s m p hm
        split at hm
        · cases hm
        · rename_i q hq
          split at hq
          · rename_i hc
            have hge := alignUp_ge (y.alloc.start + y.alloc.offset + 1) a hp
            cases hq
            cases hm
            cases h
            simp only [Mem.set]
            rw [if_neg]
            omega
          · cases hq
    rcases allocate_ok inv (b := b) hp hle hfree with h' | ⟨p, m, h', hi, _⟩
    · rw [h'] at h; cases h; exact ⟨inv, rfl, rfl, fun _ _ => rfl⟩
    · rw [h'] at h; cases h; exact ⟨hi, rfl, rfl, hmem⟩
  | dealloc =>
    cases hl : y.live with
    | nil => simp [StackSys.step, hl] at h
    | cons l ls =>
      obtain ⟨prev, _, hd⟩ := dealloc_ok inv hl
      by_cases hlt : l.ptr < y.alloc.start + y.alloc.size
      · obtain ⟨h', hi⟩ := hd hlt
        rw [h'] at h; cases h; exact ⟨hi, rfl, rfl, fun _ _ => rfl⟩
      · simp [StackSys.step, hl, Stack.deallocate, hlt] at h
  | write k i v =>
    obtain ⟨hi, ha, _⟩ := write_ok inv h
    refine ⟨hi, by rw [ha], by rw [ha], fun x hx => ?_⟩
    simp only [StackSys.step] at h
    split at h
    · cases h
    · rename_i l hl
      split at h
      · rename_i hlt
        cases h
        have := inv.chain.mem_bounds l (List.mem_of_getElem? hl)
        simp only [Mem.set]
        rw [if_neg]
        omega
      · cases h
  | reset =>
    simp only [StackSys.step, Option.some.injEq] at h
    subst h
    exact ⟨⟨rfl, Nat.zero_le _, inv.small⟩, rfl, rfl, fun _ _ => rfl⟩

/-- Without live allocations the buffer is empty. -/
theorem StackInv.empty {y : StackSys} (inv : StackInv y) (h : y.live = []) : y.alloc.offset = 0 := by
  have := inv.chain
  rw [h] at this
  simp only [Chain] at this
  omega

/-- The oldest allocation is where the first request goes. -/
theorem Chain.oldest {start : Nat} {mem : Mem} : ∀ {ls : List Live} {top : Nat}, Chain start mem ls top → ∀ {l : Live}, ls.getLast? = some l →
    start + 1 ≤ l.ptr ∧ l.ptr + l.bytes ≤ top ∧ l.align ∣ l.ptr := by
  intro ls top h l hl
  exact h.mem_bounds l (List.mem_of_getLast? hl)

/-- Two buffers have no byte in common. -/
def Apart (a b : Stack) : Prop := ∀ x, ¬ (a.start ≤ x ∧ x < a.start + a.size ∧ b.start ≤ x ∧ x < b.start + b.size)

theorem Apart.symm {a b : Stack} (h : Apart a b) : Apart b a := fun x hx => h x ⟨hx.2.2.1, hx.2.2.2, hx.1, hx.2.1⟩

theorem Apart.null {a b : Stack} (h : a.size = 0) : Apart a b := fun x hx => by omega

structure WorldInv (w : StackWorld) : Prop where
  each : ∀ (i : Nat) (o : StackObj), w.objs[i]? = some o → StackInv ⟨o.alloc, w.mem, o.live⟩
  apart : ∀ (i j : Nat) (a b : StackObj), w.objs[i]? = some a → w.objs[j]? = some b → i ≠ j → Apart a.alloc b.alloc

theorem StackInv.congr {s : Stack} {mem mem' : Mem} {live : List Live} (inv : StackInv ⟨s, mem, live⟩)
    (hm : ∀ x, s.start ≤ x → x < s.start + s.size → mem' x = mem x) : StackInv ⟨s, mem', live⟩ := by
  refine ⟨Chain.congr inv.chain fun l hl => ?_, inv.bound, inv.small⟩
  have h1 := inv.chain.mem_bounds l hl
  have h2 := inv.bound
  simp only at h1 h2
  exact hm _ (by omega) (by omega)

theorem WorldInv.init (mem : Mem) : WorldInv ⟨[], mem⟩ :=
  ⟨fun i o h => by simp at h, fun i j a b h => by simp at h⟩

theorem StackInv.fresh {start size : Nat} {mem : Mem} (h : size < U64) : StackInv ⟨⟨start, 0, size⟩, mem, []⟩ :=
  ⟨rfl, Nat.zero_le _, h⟩

theorem WorldInv.create {w : StackWorld} (I : WorldInv w) {ptr size : Nat} (hs : size < U64)
    (ha : ∀ o ∈ w.objs, Apart ⟨ptr, 0, size⟩ o.alloc) : WorldInv { w with objs := w.objs ++ [⟨Stack.mk' ptr size, []⟩] } := by
  have key : ∀ {i : Nat} {o : StackObj}, (w.objs ++ [⟨Stack.mk' ptr size, []⟩])[i]? = some o →
      (w.objs[i]? = some o ∧ i < w.objs.length) ∨ (i = w.objs.length ∧ o = ⟨Stack.mk' ptr size, []⟩) := by
    intro i o h
    rw [List.getElem?_append] at h
    split at h
    · rename_i hi; exact .inl ⟨h, hi⟩
    · rename_i hi
      have hl := (List.getElem?_eq_some_iff.1 h).1
      simp only [List.length_cons, List.length_nil] at hl
      have : i = w.objs.length := by omega
      subst this
      simp only [Nat.sub_self, List.getElem?_cons_zero, Option.some.injEq] at h
      exact .inr ⟨rfl, h.symm⟩
  refine ⟨fun i o h => ?_, fun i j a b hi hj hij => ?_⟩
  · rcases key h with ⟨h, _⟩ | ⟨_, rfl⟩
    · exact I.each i o h
    · exact StackInv.fresh hs
  · rcases key hi with ⟨hi, _⟩ | ⟨hi, rfl⟩ <;> rcases key hj with ⟨hj, _⟩ | ⟨hj, rfl⟩
    · exact I.apart i j a b hi hj hij
    · exact (ha a (List.mem_of_getElem? hi)).symm
    · exact ha b (List.mem_of_getElem? hj)
    · omega

theorem WorldInv.use {w : StackWorld} (I : WorldInv w) {i : Nat} {o : StackObj} (ho : w.objs[i]? = some o) {op : StackOp} {y : StackSys}
    (hop : ∀ b a, op = .alloc b a → 0 < a ∧ a ≤ 128 ∧ 0 < o.alloc.remaining) (h : (⟨o.alloc, w.mem, o.live⟩ : StackSys).step op = some y) :
    WorldInv ⟨w.objs.set i ⟨y.alloc, y.live⟩, y.mem⟩ := by
  obtain ⟨h1, h2, h3, h4⟩ := stack_step (I.each i o ho) hop h
  have hil := (List.getElem?_eq_some_iff.1 ho).1
  refine ⟨fun j a hj => ?_, fun j k a b hj hk hjk => ?_⟩
  · simp only [List.getElem?_set] at hj
    split at hj
    · rename_i hij
      simp only [hil, if_true, Option.some.injEq] at hj
      subst hj; exact h1
    · rename_i hij
      have ha := I.apart i j o a ho hj hij
      exact (I.each j a hj).congr fun x hx1 hx2 => h4 x fun hx => ha x ⟨hx.1, hx.2, hx1, hx2⟩
  · have key : ∀ {j : Nat} {a : StackObj}, (w.objs.set i ⟨y.alloc, y.live⟩)[j]? = some a →
        ∃ a', w.objs[j]? = some a' ∧ a'.alloc.start = a.alloc.start ∧ a'.alloc.size = a.alloc.size := by
      intro j a hj
      simp only [List.getElem?_set] at hj
      split at hj
      · rename_i hij
        subst hij
        simp only [hil, if_true, Option.some.injEq] at hj
        subst hj; exact ⟨o, ho, h2.symm, h3.symm⟩
      · exact ⟨a, hj, rfl, rfl⟩
    obtain ⟨a', e1, e2, e3⟩ := key hj
    obtain ⟨b', f1, f2, f3⟩ := key hk
    have := I.apart j k a' b' e1 f1 hjk
    intro x hx
    exact this x (by omega)

theorem WorldInv.moveNew {w : StackWorld} (I : WorldInv w) {i : Nat} {o : StackObj} (ho : w.objs[i]? = some o) (hl : o.live = []) :
    WorldInv { w with objs := w.objs.set i ⟨o.alloc.movedFrom, []⟩ ++ [⟨o.alloc.moved, o.live⟩] } := by
  have I0 := I.each i o ho
  have hz := I0.empty hl
  have hil := (List.getElem?_eq_some_iff.1 ho).1
  have hU : 0 < U64 := by decide
  simp only at hz
  have key : ∀ {j : Nat} {a : StackObj}, (w.objs.set i ⟨o.alloc.movedFrom, []⟩ ++ [⟨o.alloc.moved, o.live⟩])[j]? = some a →
      (w.objs[j]? = some a ∧ j ≠ i ∧ j < w.objs.length) ∨ a = ⟨⟨0, 0, 0⟩, []⟩ ∨
        (j = w.objs.length ∧ a = ⟨⟨o.alloc.start, 0, o.alloc.size⟩, []⟩) := by
    intro j a h
    rw [List.getElem?_append] at h
    split at h
    · rename_i hj
      simp only [List.length_set] at hj
      simp only [List.getElem?_set] at h
      split at h
      · simp only [hil, if_true, Option.some.injEq] at h
        rw [← h, Stack.movedFrom, hz]; exact .inr (.inl rfl)
      · rename_i hij; exact .inl ⟨h, fun e => hij e.symm, hj⟩
    · rename_i hj
      have hl' := (List.getElem?_eq_some_iff.1 h).1
      simp only [List.length_cons, List.length_nil, List.length_set] at hl' hj
      have : j = w.objs.length := by omega
      subst this
      simp only [List.length_set, Nat.sub_self, List.getElem?_cons_zero, Option.some.injEq] at h
      exact .inr (.inr ⟨rfl, by rw [← h, hl]; rfl⟩)
  refine ⟨fun j a h => ?_, fun j k a b hj hk hjk => ?_⟩
  · rcases key h with ⟨h, _⟩ | rfl | ⟨_, rfl⟩
    · exact I.each j a h
    · exact StackInv.fresh hU
    · exact StackInv.fresh I0.small
  · rcases key hj with ⟨hj, hji, _⟩ | rfl | ⟨hj, rfl⟩
    · rcases key hk with ⟨hk, _⟩ | rfl | ⟨hk, rfl⟩
      · exact I.apart j k a b hj hk hjk
      · exact (Apart.null rfl).symm
      · intro x hx
        exact I.apart j i a o hj ho hji x hx
    · exact Apart.null rfl
    · rcases key hk with ⟨hk, hki, _⟩ | rfl | ⟨hk, rfl⟩
      · intro x hx
        exact I.apart i k o b ho hk (fun e => hki e.symm) x hx
      · exact (Apart.null rfl).symm
      · omega

theorem WorldInv.moveAssign {w : StackWorld} (I : WorldInv w) {d s : Nat} {a b : StackObj} (ha : w.objs[d]? = some a) (hb : w.objs[s]? = some b)
    (hne : d ≠ s) (hla : a.live = []) (hlb : b.live = []) :
    WorldInv { w with objs := (w.objs.set s ⟨b.alloc.movedFrom, []⟩).set d ⟨a.alloc.moveAssigned b.alloc, b.live⟩ } := by
  have Ia := I.each d a ha
  have Ib := I.each s b hb
  have hza := Ia.empty hla
  have hzb := Ib.empty hlb
  have hdl := (List.getElem?_eq_some_iff.1 ha).1
  have hsl := (List.getElem?_eq_some_iff.1 hb).1
  have hU : 0 < U64 := by decide
  simp only at hza hzb
  have key : ∀ {j : Nat} {x : StackObj}, ((w.objs.set s ⟨b.alloc.movedFrom, []⟩).set d ⟨a.alloc.moveAssigned b.alloc, b.live⟩)[j]? = some x →
      (w.objs[j]? = some x ∧ j ≠ d ∧ j ≠ s) ∨ x = ⟨⟨0, 0, 0⟩, []⟩ ∨ (j = d ∧ x = ⟨⟨b.alloc.start, 0, b.alloc.size⟩, []⟩) := by
    intro j x h
    simp only [List.getElem?_set, List.length_set, hdl, hsl, if_true] at h
    split at h
    · rename_i hj
      simp only [Option.some.injEq] at h
      refine .inr (.inr ⟨hj.symm, ?_⟩)
      rw [← h, hlb, Stack.moveAssigned, hza]
    · rename_i hj
      split at h
      · simp only [Option.some.injEq] at h
        rw [← h, Stack.movedFrom, hzb]; exact .inr (.inl rfl)
      · rename_i hj'
        exact .inl ⟨h, fun e => hj e.symm, fun e => hj' e.symm⟩
  refine ⟨fun j x h => ?_, fun j k x y hj hk hjk => ?_⟩
  · rcases key h with ⟨h, _⟩ | rfl | ⟨_, rfl⟩
    · exact I.each j x h
    · exact StackInv.fresh hU
    · exact StackInv.fresh Ib.small
  · rcases key hj with ⟨hj, hjd, hjs⟩ | rfl | ⟨hj, rfl⟩
    · rcases key hk with ⟨hk, _⟩ | rfl | ⟨hk, rfl⟩
      · exact I.apart j k x y hj hk hjk
      · exact (Apart.null rfl).symm
      · intro z hz
        exact I.apart j s x b hj hb hjs z hz
    · exact Apart.null rfl
    · rcases key hk with ⟨hk, hkd, hks⟩ | rfl | ⟨hk, rfl⟩
      · intro z hz
        exact I.apart s k b y hb hk (fun e => hks e.symm) z hz
      · exact (Apart.null rfl).symm
      · omega

end CoEcs.Alloc
