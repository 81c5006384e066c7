import Verif.Proofs.WsQueue
import Verif.Spec.Deque

/-!
# C40, C41: the work-stealing queue
-/

namespace CoEcs.Props
open Spec

variable {V : Type}

/-! ## C40 -/

/-- What is stored between `_top` and `_bottom` in the current array, front first. -/
def wsContents (s : WsState V) : List (Option V) :=
  (irange s.top s.bottom).map fun i => (s.heap s.arr).load i

/-- **C40.**  For every power-of-two capacity, any number of thieves and every interleaving of atomic steps, including
growth: whenever the owner is between operations, the values pushed are exactly (with multiplicity) the
values returned by all finished pops and steals so far, together with those still in the queue.  In
particular no value is lost, returned twice or invented. -/
theorem C40_nothing_lost_or_duplicated [Inhabited V] (c : Nat) (hc : ∃ k, c = 2 ^ k) (s : WsState V)
    (h : WsReach V c s) (ho : s.owner = .idle) : (s.pushed.map some).Perm (s.returned ++ wsContents s) := by
  obtain ⟨items, stop, hi⟩ := h.inv hc
  have h1 := hi.acc
  have h2 := hi.stop_eq
  rw [ho] at h1 h2
  have h3 : stop = s.bottom := h2
  have h4 : wsContents s = (irange s.top stop).map (fun i => some (items i)) := by
    unfold wsContents
    rw [← h3]
    exact List.map_congr_left fun x hx => hi.cells x (mem_irange.1 hx).1 (mem_irange.1 hx).2
  rw [h4]
  have h5 : s.returned ++ OwnerPc.holds items OwnerPc.idle = s.returned := List.append_nil _
  rw [h5] at h1
  exact h1

/-- **C40, in every state** (also in the middle of operations of the owner): at any time nothing was returned twice or
invented, and at most one value is neither returned nor in the queue. -/
theorem C40_at_all_times [Inhabited V] (c : Nat) (hc : ∃ k, c = 2 ^ k) (s : WsState V) (h : WsReach V c s) :
    ∃ held queued : List (Option V), (s.pushed.map some).Perm (s.returned ++ held ++ queued) ∧ held.length ≤ 1 := by
  obtain ⟨items, stop, hi⟩ := h.inv hc
  refine ⟨_, _, hi.acc, ?_⟩
  cases s.owner <;> simp only [OwnerPc.holds, List.length_nil, Nat.zero_le]
  · split <;> simp
  · split <;> simp
  · rename_i r
    cases r <;> simp

/-- Accesses stay inside the arrays, and no thief holds an array that was never allocated. -/
theorem C40_memory_safe [Inhabited V] (c : Nat) (hc : ∃ k, c = 2 ^ k) (s : WsState V) (h : WsReach V c s) :
    (∀ a i, a < s.next → (s.heap a).slot i < (s.heap a).cap) ∧ s.arr < s.next ∧
    ∀ j t a, s.thief j = .st3 t a → a < s.next := by
  obtain ⟨items, stop, hi⟩ := h.inv hc
  refine ⟨fun a i ha => WsArr.slot_lt (hi.pow a ha) i, hi.arr, ?_⟩
  intro j t a hj
  have := hi.thief j
  rw [hj] at this
  exact this.2.1

/-- A thief that wins has the oldest value of the queue. -/
theorem C40_steal_takes_the_oldest [Inhabited V] (c : Nat) (hc : ∃ k, c = 2 ^ k) (s : WsState V) (h : WsReach V c s)
    (j : Nat) (t : Int) (v : Option V) (hj : s.thief j = .st4 t v) (hw : s.top = t) (ho : s.owner = .idle) :
    (wsContents s).head? = some v := by
  obtain ⟨items, stop, hi⟩ := h.inv hc
  have h1 := hi.thief j
  rw [hj] at h1
  obtain ⟨h2, h3⟩ := h1.2 hw.symm
  have h4 := hi.stop_eq
  rw [ho] at h4
  have h5 : stop = s.bottom := h4
  unfold wsContents
  rw [irange_cons (by omega), List.map_cons, List.head?_cons, hi.cells s.top (Int.le_refl _) (by omega), h3, hw]

/-! ## C41 -/

/-- One operation on the modelled queue. -/
def wsApply (q : WsQueue V) : DequeOp V → Run (DequeOut V × WsQueue V)
  | .push v => (q.push v).bind fun q' => .ok (.done, q')
  | .pop => .ok (.item q.pop.1.join, q.pop.2)
  | .steal => .ok (.item q.steal.1.join, q.steal.2)
  | .size => .ok (.size q.size, q)

def wsRun : WsQueue V → List (DequeOp V) → Run (List (DequeOut V))
  | _, [] => .ok []
  | q, o :: os => (wsApply q o).bind fun r => (wsRun r.2 os).bind fun rs => .ok (r.1 :: rs)

/-- The queue holds `l`. -/
structure WsRel (q : WsQueue V) (l : List V) : Prop where
  top0 : 0 ≤ q.top
  len : q.bottom = q.top + l.length
  pow : PowTwo q.arr.cap
  fits : (l.length : Int) ≤ q.arr.cap
  cells : ∀ (i : Nat) (v : V), l[i]? = some v → q.arr.load (q.top + i) = some v

theorem WsRel.push {q : WsQueue V} {l : List V} (h : WsRel q l) (v : V) :
    ∃ q', q.push v = .ok q' ∧ WsRel q' (l ++ [v]) := by
  obtain ⟨h0, h1, h2, h3, h4⟩ := h
  have key : ∀ a : WsArr V, PowTwo a.cap → (l.length : Int) + 1 ≤ a.cap →
      (∀ (i : Nat) (x : V), l[i]? = some x → a.load (q.top + i) = some x) →
      WsRel ⟨q.top, q.bottom + 1, a.store q.bottom (some v)⟩ (l ++ [v]) := by
    intro a ha hl hcell
    refine ⟨h0, ?_, ha, ?_, ?_⟩
    · show q.bottom + 1 = q.top + ((l ++ [v]).length : Int)
      simp; omega
    · show ((l ++ [v]).length : Int) ≤ (a.cap : Int)
      simp; omega
    · intro i x hx
      show (a.store q.bottom (some v)).load (q.top + i) = some x
      by_cases hi : i < l.length
      · rw [List.getElem?_append_left hi] at hx
        rw [WsArr.load_store_ne]
        · exact hcell i x hx
        · exact WsArr.slot_ne ha (by omega) (by omega) (by omega)
      · have hlt := (List.getElem?_eq_some_iff.1 hx).1
        have hil : i = l.length := by simp at hlt; omega
        subst hil
        simp at hx
        subst hx
        rw [← h1, WsArr.load_store_self]
  unfold WsQueue.push
  by_cases hg : (q.arr.cap : Int) - 1 < q.bottom - q.top
  · have hp := h2.double
    have hc := WsArr.grow_cap q.arr q.bottom q.top
    have hp' : PowTwo (q.arr.grow q.bottom q.top).cap := by rw [hc]; exact hp
    have hpos := h2.pos
    simp only [if_pos hg, if_pos (WsArr.slot_lt hp' q.bottom)]
    refine ⟨_, rfl, key _ hp' (by rw [hc]; omega) ?_⟩
    intro i x hx
    have hlt := (List.getElem?_eq_some_iff.1 hx).1
    rw [WsArr.grow_load h2 h0 (by omega) _ (by omega) (by omega)]
    exact h4 i x hx
  · simp only [if_neg hg, if_pos (WsArr.slot_lt h2 q.bottom)]
    exact ⟨_, rfl, key _ h2 (by omega) h4⟩

theorem WsRel.pop {q : WsQueue V} {l : List V} (h : WsRel q l) :
    (q.pop.1 = none ↔ l = []) ∧ q.pop.1 = l.getLast?.map some ∧ WsRel q.pop.2 l.dropLast := by
  obtain ⟨h0, h1, h2, h3, h4⟩ := h
  unfold WsQueue.pop
  rcases List.eq_nil_or_concat l with rfl | ⟨l', v, rfl⟩
  · have hb : ¬ q.top ≤ q.bottom - 1 := by simp at h1; omega
    simp only [if_neg hb]
    refine ⟨by simp, rfl, h0, ?_, h2, h3, h4⟩
    simp at h1 ⊢; omega
  · rw [List.concat_eq_append] at *
    have hlen : ((l' ++ [v]).length : Int) = l'.length + 1 := by simp
    have hb : q.top ≤ q.bottom - 1 := by omega
    have hv : q.arr.load (q.bottom - 1) = some v := by
      have := h4 l'.length v (by simp)
      have e : q.top + (l'.length : Int) = q.bottom - 1 := by omega
      rw [e] at this; exact this
    simp only [if_pos hb]
    by_cases he : q.top = q.bottom - 1
    · have hl' : l' = [] := by
        apply List.length_eq_zero_iff.1; omega
      subst hl'
      simp only [if_pos he, hv]
      refine ⟨by simp, rfl, ?_, ?_, h2, ?_, ?_⟩
      · show 0 ≤ q.top + 1
        omega
      · show q.bottom - 1 + 1 = q.top + 1 + _
        simp; omega
      · show ((List.dropLast ([] ++ [v])).length : Int) ≤ (q.arr.cap : Int)
        simp
      · intro i x hx; simp at hx
    · simp only [if_neg he, hv]
      refine ⟨by simp, by simp, h0, ?_, h2, ?_, ?_⟩
      · show q.bottom - 1 = q.top + _
        simp; omega
      · show _ ≤ (q.arr.cap : Int)
        simp; omega
      · intro i x hx
        simp only [List.dropLast_concat] at hx
        refine h4 i x ?_
        rw [List.getElem?_append_left (List.getElem?_eq_some_iff.1 hx).1]
        exact hx

theorem WsRel.steal {q : WsQueue V} {l : List V} (h : WsRel q l) :
    (q.steal.1 = none ↔ l = []) ∧ q.steal.1 = l.head?.map some ∧ WsRel q.steal.2 l.tail := by
  obtain ⟨h0, h1, h2, h3, h4⟩ := h
  unfold WsQueue.steal
  cases l with
  | nil =>
    have hb : ¬ q.top < q.bottom := by simp at h1; omega
    simp only [if_neg hb]
    exact ⟨by simp, rfl, h0, h1, h2, h3, h4⟩
  | cons v l =>
    have hlen : ((v :: l).length : Int) = l.length + 1 := by simp
    have hb : q.top < q.bottom := by omega
    have hv : q.arr.load q.top = some v := by
      have := h4 0 v rfl
      simpa using this
    simp only [if_pos hb, hv]
    refine ⟨by simp, rfl, ?_, ?_, h2, ?_, ?_⟩
    · show 0 ≤ q.top + 1
      omega
    · show q.bottom = q.top + 1 + (l.length : Int)
      omega
    · show (l.length : Int) ≤ (q.arr.cap : Int)
      omega
    · intro i x hx
      have := h4 (i + 1) x (by simpa using hx)
      show q.arr.load (q.top + 1 + i) = some x
      have e : q.top + 1 + (i : Int) = q.top + ((i + 1 : Nat) : Int) := by omega
      rw [e]; exact this

theorem WsRel.size {q : WsQueue V} {l : List V} (h : WsRel q l) : q.size = l.length ∧ (q.empty = true ↔ l = []) := by
  have h1 := h.len
  constructor
  · unfold WsQueue.size
    rw [if_pos (by omega)]
    omega
  · unfold WsQueue.empty
    rw [decide_eq_true_iff, ← List.length_eq_zero_iff]
    omega

/-- **C41.**  For every power-of-two initial capacity from 2 on and every sequence of operations by one thread,
with any number of growths, the queue answers exactly like a double-ended list: pop the newest, steal the
oldest, nothing exactly when empty.  No undefined behaviour. -/
theorem C41_sequential_deque (k : Nat) (ops : List (DequeOp V)) : ∃ q : WsQueue V, WsQueue.new (2 ^ (k + 1)) = some q ∧
    wsRun q ops = .ok (dequeRun [] ops) := by
  have hrun : ∀ (ops : List (DequeOp V)) (q : WsQueue V) (l : List V), WsRel q l → wsRun q ops = .ok (dequeRun l ops) := by
    intro ops
    induction ops with
    | nil => intro q l _; rfl
    | cons o os ih =>
      intro q l h
      cases o with
      | push v =>
        obtain ⟨q', h1, h2⟩ := h.push v
        simp only [wsRun, wsApply, h1, Run.bind, ih q' _ h2, dequeRun, dequeStep]
      | pop =>
        obtain ⟨_, h1, h2⟩ := h.pop
        simp only [wsRun, wsApply, h1, Run.bind, ih _ _ h2, dequeRun, dequeStep]
        cases l.getLast? <;> rfl
      | steal =>
        obtain ⟨_, h1, h2⟩ := h.steal
        simp only [wsRun, wsApply, h1, Run.bind, ih _ _ h2, dequeRun, dequeStep]
        cases l.head? <;> rfl
      | size =>
        simp only [wsRun, wsApply, Run.bind, ih q l h, dequeRun, dequeStep, h.size.1]
  have heven : 2 ^ (k + 1) % 2 = 0 := by rw [Nat.pow_succ, Nat.mul_mod_left]
  refine ⟨⟨0, 0, .new (2 ^ (k + 1))⟩, by simp [WsQueue.new, heven], hrun ops _ [] ?_⟩
  exact ⟨Int.le_refl 0, rfl, ⟨k + 1, rfl⟩, Int.natCast_nonneg _, fun i v h => by simp at h⟩

/-- The answers, operation by operation, for a queue that holds `l`. -/
theorem C41_operations (q : WsQueue V) (l : List V) (h : WsRel q l) :
    (∀ v, ∃ q', q.push v = .ok q' ∧ WsRel q' (l ++ [v])) ∧
    (q.pop.1 = l.getLast?.map some ∧ WsRel q.pop.2 l.dropLast) ∧
    (q.steal.1 = l.head?.map some ∧ WsRel q.steal.2 l.tail) ∧
    q.size = l.length ∧ (q.empty = true ↔ l = []) :=
  ⟨h.push, h.pop.2, h.steal.2, h.size⟩

/-- **C41, as stated, is false** for capacities that the constructor's check admits: it accepts every even number.
With capacity 6 the third push overwrites the first value, and the oldest value is not what is stolen;
with capacity 0 the first push writes outside of the array. -/
theorem C41_violated : (∃ q : WsQueue Nat, WsQueue.new 6 = some q ∧
      wsRun q [.push 10, .push 11, .push 12, .steal] ≠
        .ok (dequeRun [] [.push 10, .push 11, .push 12, .steal])) ∧
    (∃ q : WsQueue Nat, WsQueue.new 0 = some q ∧ wsRun q [.push 10] = .ub) := by
  refine ⟨⟨_, rfl, ?_⟩, ⟨_, rfl, rfl⟩⟩
  intro h
  have h2 : (Run.ok [.done, .done, .done, .item (some 12)] : Run (List (DequeOut Nat))) =
      .ok [.done, .done, .done, .item (some 10)] := h
  simp at h2

/-- A capacity that is no power of two leaves a bit of the mask unset. -/
private theorem free_bit {n : Nat} (hn : 0 < n) (h : ∀ k, n + 1 ≠ 2 ^ k) : ∃ k, 2 ^ k < n ∧ 2 ^ k &&& n = 0 := by
  apply Classical.byContradiction
  intro hno
  have hall : ∀ k, k < n.log2 → n.testBit k = true := by
    intro k hk
    cases hb : n.testBit k with
    | true => rfl
    | false =>
      exfalso
      apply hno
      refine ⟨k, ?_, ?_⟩
      · have h1 := Nat.log2_self_le (n := n) (by omega)
        have h2 : 2 ^ k < 2 ^ n.log2 := Nat.pow_lt_pow_right (by omega) hk
        omega
      · apply Nat.eq_of_testBit_eq
        intro i
        rw [Nat.testBit_and, Nat.testBit_two_pow, Nat.zero_testBit]
        by_cases hi : k = i
        · subst hi; simp [hb]
        · simp [hi]
  refine h (n.log2 + 1) ?_
  have heq : n = 2 ^ (n.log2 + 1) - 1 := by
    apply Nat.eq_of_testBit_eq
    intro i
    rw [Nat.testBit_two_pow_sub_one]
    rcases Nat.lt_trichotomy i n.log2 with hi | hi | hi
    · rw [hall i hi]; simp; omega
    · subst hi
      rw [Nat.testBit_log2 (by omega)]; simp
    · have h3 := Nat.lt_log2_self (n := n)
      have h2 : n < 2 ^ i := Nat.lt_of_lt_of_le h3 (Nat.pow_le_pow_right (by omega) (by omega))
      rw [Nat.testBit_lt_two_pow h2]; simp; omega
  have := Nat.two_pow_pos (n.log2 + 1)
  omega

private theorem ws_pushes (v : V) (rest : List (DequeOp V)) : ∀ (n b : Nat) (q : WsQueue V), q.top = 0 → q.bottom = b → b + n < q.arr.cap →
    ∃ q' : WsQueue V, q'.top = 0 ∧ q'.bottom = ((b + n : Nat) : Int) ∧ q'.arr.cap = q.arr.cap ∧
      wsRun q (List.replicate n (.push v) ++ rest) = (wsRun q' rest).bind fun rs => .ok (List.replicate n .done ++ rs) := by
  intro n
  induction n with
  | zero =>
    intro b q h1 h2 _
    refine ⟨q, h1, h2, rfl, ?_⟩
    simp only [List.replicate_zero, List.nil_append]
    cases wsRun q rest <;> rfl
  | succ n ih =>
    intro b q h1 h2 h3
    have hp : q.push v = .ok ⟨q.top, q.bottom + 1, q.arr.store q.bottom (some v)⟩ := by
      have hng : ¬ (q.arr.cap : Int) - 1 < q.bottom - q.top := by omega
      have hsl : q.arr.slot q.bottom < q.arr.cap := by
        unfold WsArr.slot
        have := Nat.and_le_right (n := q.bottom.toNat) (m := q.arr.cap - 1)
        omega
      simp only [WsQueue.push, if_neg hng, if_pos hsl]
    obtain ⟨q', g1, g2, g3, g4⟩ := ih (b + 1) ⟨q.top, q.bottom + 1, q.arr.store q.bottom (some v)⟩ h1 (by simp [h2])
      (by show b + 1 + n < q.arr.cap; omega)
    refine ⟨q', g1, by rw [g2]; congr 1; omega, g3, ?_⟩
    rw [List.replicate_succ, List.cons_append]
    simp only [wsRun, wsApply, hp, Run.bind, g4]
    cases wsRun q' rest <;> simp [List.replicate_succ]

private theorem deque_pushes (v : V) (rest : List (DequeOp V)) : ∀ (n : Nat) (l : List V),
    dequeRun l (List.replicate n (.push v) ++ rest) = List.replicate n .done ++ dequeRun (l ++ List.replicate n v) rest := by
  intro n
  induction n with
  | zero => intro l; simp
  | succ n ih =>
    intro l
    rw [List.replicate_succ, List.cons_append]
    simp only [dequeRun, dequeStep, ih, List.replicate_succ]
    simp

/-- **C41 is violated** for every even capacity that is no power of two, though the constructor accepts it: some bit of the mask
is missing, and the value stored with that index overwrites the oldest one. -/
theorem C41_capacity_violated (c : Nat) (hc : c % 2 = 0) (h : ∀ k, c ≠ 2 ^ k) :
    ∃ (q : WsQueue Nat) (ops : List (DequeOp Nat)), WsQueue.new c = some q ∧ wsRun q ops ≠ .ok (dequeRun [] ops) := by
  by_cases h0 : c = 0
  · subst h0
    exact ⟨_, [.push 10], rfl, by intro h; cases h⟩
  · obtain ⟨k, hk1, hk2⟩ := free_bit (n := c - 1) (by omega) (fun k => by rw [show c - 1 + 1 = c by omega]; exact h k)
    have hpos := Nat.two_pow_pos k
    refine ⟨⟨0, 0, .new c⟩, List.replicate (2 ^ k) (.push 0) ++ [.push 1, .steal], by simp [WsQueue.new, hc], ?_⟩
    obtain ⟨q', g1, g2, g3, g4⟩ := ws_pushes (V := Nat) 0 [.push 1, .steal] (2 ^ k) 0 ⟨0, 0, .new c⟩ rfl rfl
      (by show 0 + 2 ^ k < c; omega)
    rw [g4, deque_pushes]
    have hcap : q'.arr.cap = c := g3
    have hb : q'.bottom.toNat = 2 ^ k := by rw [g2, Int.toNat_natCast, Nat.zero_add]
    have hs : q'.arr.slot q'.bottom = 0 := by
      unfold WsArr.slot
      rw [hb, hcap, hk2]
    have hs0 : q'.arr.slot 0 = 0 := by simp [WsArr.slot]
    have hpush : q'.push 1 = .ok ⟨0, q'.bottom + 1, q'.arr.store q'.bottom (some 1)⟩ := by
      have hng : ¬ (q'.arr.cap : Int) - 1 < q'.bottom - q'.top := by omega
      simp only [WsQueue.push, if_neg hng, if_pos (show q'.arr.slot q'.bottom < q'.arr.cap by omega)]
      rw [g1]
    have hsteal : (⟨0, q'.bottom + 1, q'.arr.store q'.bottom (some 1)⟩ : WsQueue Nat).steal.1 = some (some 1) := by
      unfold WsQueue.steal
      rw [if_pos (by show (0 : Int) < q'.bottom + 1; omega)]
      simp only [WsArr.load, WsArr.store]
      have : (⟨q'.arr.cap, fun j => if j = q'.arr.slot q'.bottom then some 1 else q'.arr.data j⟩ : WsArr Nat).slot 0 = 0 := by
        simp [WsArr.slot]
      rw [this, hs, if_pos rfl]
    intro he
    simp only [wsRun, wsApply, hpush, hsteal, Run.bind, Run.ok.injEq, List.append_cancel_left_eq] at he
    obtain ⟨n, hn⟩ : ∃ n, 2 ^ k = n + 1 := ⟨2 ^ k - 1, by omega⟩
    rw [hn] at he
    simp [dequeRun, dequeStep, List.replicate_succ] at he

/-! ### Examples -/

/-- 12 is an even capacity that is no power of two. -/
example : 12 % 2 = 0 ∧ ∀ k, 12 ≠ 2 ^ k := by
  refine ⟨rfl, fun k => ?_⟩
  rcases Nat.lt_or_ge k 4 with h | h
  · have h4 : k = 0 ∨ k = 1 ∨ k = 2 ∨ k = 3 := by omega
    rcases h4 with rfl | rfl | rfl | rfl <;> decide
  · have := Nat.pow_le_pow_right (n := 2) (by omega) h
    omega

example : wsRun (V := Nat) ⟨0, 0, .new 2⟩ [.push 1, .push 2, .push 3, .steal, .pop, .size, .pop, .pop] =
    .ok [.done, .done, .done, .item (some 1), .item (some 3), .size 1, .item (some 2), .item none] := by rfl

/-- A reachable state in which the owner and a thief race for the only item. -/
example : ∃ s : WsState Nat, WsReach Nat 2 s ∧ s.owner = .pop5 0 0 (some 7) ∧ s.thief 3 = .st4 0 (some 7) ∧ s.top = 0 := by
  have h0 := WsReach.init (V := Nat) (c := 2)
  have h1 := h0.step (.push1 7 rfl)
  have h2 := h1.step (.push2 rfl)
  have h3 := h2.step (.pushFits rfl (by decide))
  have h4 := h3.step (.pushStore rfl)
  have h5 := h4.step (.pushDone rfl)
  have h6 := h5.step (.steal1 3 rfl)
  have h7 := h6.step (.stealSome 3 rfl (by decide))
  have h8 := h7.step (.steal3 3 rfl)
  have h9 := h8.step (.steal4 3 rfl)
  have h10 := h9.step (.pop1 rfl)
  have h11 := h10.step (.pop2 rfl)
  have h12 := h11.step (.pop3 rfl)
  have h13 := h12.step (.pop4 rfl)
  have h14 := h13.step (.popLoad rfl (by decide))
  exact ⟨_, h14, rfl, rfl, rfl⟩

end CoEcs.Props
