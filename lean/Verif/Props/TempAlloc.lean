import Verif.Proofs.TempAlloc

/-!
# C88: temporary vectors
-/

namespace CoEcs.Props
open CoEcs.Alloc

/-- An 8-byte element. -/
def word (n : Nat) : List Nat := [n, 0, 0, 0, 0, 0, 0, 0]

/-- A fresh thread: 16 MB at an address that is a multiple of 16 (temp_allocator.hpp:7-14). -/
def freshThread (mem : Mem) : TempSys := ⟨Stack.mk' 4096 (16 * 1024 * 1024), mem, []⟩

/-- Three elements are appended to a vector of 8-byte elements without `reserve`. -/
def growOps : List VecOp := [.create 8 8, .emplace 0 (word 1), .emplace 0 (word 2), .emplace 0 (word 3)]

/-- The vector then holds 3, 2, 3 instead of 1, 2, 3: when it grows from one to two elements the old storage is given back
after the new one was taken, so that the allocator takes the new storage for free; the storage for four elements is put over it,
and the third element is written over the first before that is copied. -/
theorem C88_violated_growth : ((freshThread fun _ => 0).run growOps).map (·.elems) = some [[word 3, word 2, word 3]] ∧
    SVec.run [] growOps = some [⟨8, [word 1, word 2, word 3]⟩] := by
  refine ⟨?_, rfl⟩
  decide +kernel

/-- **C88, as stated, is false.** -/
theorem C88_violated : ¬ ∀ (start size : Nat) (mem : Mem) (ops : List VecOp), size < U64 → (∀ op ∈ ops, GoodType op) →
    Keeps ⟨Stack.mk' start size, mem, []⟩ [] ops := by
  intro h
  have h1 := h 4096 (16 * 1024 * 1024) (fun _ => 0) growOps (by decide) (by
    intro op hop sz al he
    subst he
    simp [growOps] at hop
    exact ⟨by omega, 3, by omega, by omega⟩)
  have keeps_run : ∀ (ops : List VecOp) (y : TempSys) (s : List SVec), Keeps y s ops → ∀ y' s', y.run ops = some y' →
      SVec.run s ops = some s' → Faithful y' s' := by
    intro ops
    induction ops with
    | nil => intro y s hk y' s' h1 h2; cases h1; cases h2; exact hk
    | cons op ops ih =>
      intro y s hk y' s' h1 h2
      simp only [SVec.run] at h2
      split at h2
      · rename_i s1 hs1
        have := hk.2 s1 hs1
        simp only [TempSys.run] at h1
        cases hst : y.step op with
        | done z => rw [hst] at this h1; exact ih z s1 this y' s' h1 h2
        | threw z => rw [hst] at h1; cases h1
        | bad => rw [hst] at h1; cases h1
      · cases h2
  obtain ⟨y, hy, he⟩ := Option.map_eq_some_iff.1 C88_violated_growth.1
  have := (keeps_run _ _ _ h1 y _ hy C88_violated_growth.2).1
  rw [he] at this
  revert this
  decide

/-- **C88 (partial).**  Missing compared with the statement: vectors that take storage a second time, or while a newer vector
has storage, and allocating from an exactly full buffer (C44).  In every other history of vectors whose scopes are nested, every
vector holds what was put into it, no assertion is violated, and all storage is given back when no vector is left. -/
theorem C88_temp_vectors_partial (start size : Nat) (mem : Mem) (ops : List VecOp) (hs : size < U64)
    (hc : Careful ⟨Stack.mk' start size, mem, []⟩ ops) : Keeps ⟨Stack.mk' start size, mem, []⟩ [] ops :=
  (TInv.init start size mem hs).keeps hc

/-- Calls of `parallel_for`, nested in any way, made by a thread that uses its temporary storage with care: the batches stay what
they are until the call that made them returns, and when the calls have returned, vectors and allocator are as before. -/
theorem C88_parallel_for (start size : Nat) (mem : Mem) (before calls : List VecOp) (y : TempSys) (s : List SVec) (hs : size < U64)
    (hc : Careful ⟨Stack.mk' start size, mem, []⟩ before) (hr : (⟨Stack.mk' start size, mem, []⟩ : TempSys).run before = some y)
    (hsp : SVec.run [] before = some s) (hcalls : Calls calls) (ht : NoThrow y calls) (hl : SomeLeft y calls) :
    Keeps y s calls ∧ ∃ y', y.run calls = some y' ∧ y'.vecs = y.vecs ∧ y'.alloc = y.alloc ∧ y'.elems = y.elems := by
  have inv := (TInv.init start size mem hs).run hc hr hsp
  obtain ⟨h1, y', h2, h3, h4, h5⟩ := calls_ok hcalls inv ht hl
  exact ⟨inv.keeps h1, y', h2, h4, h5, h3.faithful.1.trans inv.faithful.1.symm⟩

/-- In every state a careful thread reaches: when the newest vector has storage and moves to larger storage, all of the new storage
lies above the top of the stack, that is in memory the allocator takes for free. -/
theorem C88_growth_unprotected (start size : Nat) (mem : Mem) (before : List VecOp) (y y' : TempSys) (s : List SVec)
    (v : TVec) (vs : List TVec) (x : List Nat) (hs : size < U64)
    (hc : Careful ⟨Stack.mk' start size, mem, []⟩ before) (hr : (⟨Stack.mk' start size, mem, []⟩ : TempSys).run before = some y)
    (hsp : SVec.run [] before = some s) (hv : y.vecs = v :: vs) (hfull : v.size = v.cap) (hcap : v.cap ≠ 0)
    (hrem : 0 < y.alloc.remaining) (h : y.step (.emplace 0 x) = .done y') :
    ∃ v', y'.vecs = v' :: vs ∧ v'.size = v.size + 1 ∧ y'.alloc.start + y'.alloc.offset < v'.ptr := by
  have inv := (TInv.init start size mem hs).run hc hr hsp
  simp only [TempSys.step, hv, List.getElem?_cons_zero, TempSys.emplace] at h
  rw [if_neg (by omega)] at h
  split at h
  · cases h
  · obtain ⟨v', h1, h2, h3, h4⟩ := inv.regrow hv hcap (by omega) hrem h
    exact ⟨v', h1, h4, by omega⟩

/-- Storage taken for an older vector while a newer one has storage is lost when the newer one is destroyed: here the older vector
holds 1, and a vector created later writes 2 over it. -/
theorem C88_needs_order : ((freshThread fun _ => 0).run
    [.create 8 8, .create 8 8, .reserve 0 1, .emplace 1 (word 1), .destroy, .create 8 8, .reserve 0 4,
      .emplace 0 (word 2), .emplace 0 (word 2), .emplace 0 (word 2)]).map (·.elems) =
    some [[word 2, word 2, word 2], [word 2]] := by
  decide +kernel

/-- Storage given back by another thread than the one that took it violates the assertion of `deallocate`, although all
`temp_allocator`s compare equal (temp_allocator.hpp:60-63) and containers exchange their storage because of this. -/
theorem C88_violated_threads (s t : Stack) (m : Mem) (p : Nat) (hp : s.start ≤ p ∧ p < s.start + s.size)
    (hd : s.start + s.size ≤ t.start ∨ t.start + t.size ≤ s.start) : tempDeallocate t m p = none := by
  unfold tempDeallocate Stack.deallocate
  rw [if_neg (by omega)]

/-- The size in bytes is computed modulo `2^64`: a request for `2^61 + 1` elements of 8 bytes gets 8 bytes. -/
theorem C88_violated_overflow (s : Stack) (m : Mem) (al : Nat) :
    tempAllocate s m (2 ^ 61 + 1) 8 al = s.allocate m 8 al := by
  unfold tempAllocate
  rw [show (2 ^ 61 + 1) * 8 % U64 = 8 by decide]

/-! ### Examples -/

/-- Two nested calls of `parallel_for` with two and three batches, then another. -/
def nestedCalls : List VecOp :=
  parallelForOps 16 8 [word 1 ++ word 2, word 2 ++ word 3]
    (parallelForOps 8 8 [word 4, word 5, word 6] [] ++ []) ++ (parallelForOps 8 8 [word 7] [] ++ [])

example : Calls nestedCalls := by
  refine .call (by decide) ⟨3, by decide, rfl⟩ ?_ (.call (by decide) ⟨3, by decide, rfl⟩ ?_ .nil .nil)
    (.call (by decide) ⟨3, by decide, rfl⟩ ?_ .nil .nil) <;> (intro b hb; simp at hb; rcases hb with rfl | rfl | rfl <;> rfl)

/-- Execution of the checks of `NoThrow` and `SomeLeft`. -/
def checkRun (y : TempSys) : List VecOp → Bool
  | [] => true
  | op :: ops => decide (0 < y.alloc.remaining) && match y.step op with
      | .done y' => checkRun y' ops
      | _ => false

private theorem check_ok : ∀ {ops : List VecOp} {y : TempSys}, checkRun y ops = true → NoThrow y ops ∧ SomeLeft y ops := by
  intro ops
  induction ops with
  | nil => intro y _; exact ⟨trivial, trivial⟩
  | cons op ops ih =>
    intro y h
    simp only [checkRun, Bool.and_eq_true, decide_eq_true_eq] at h
    obtain ⟨h1, h2⟩ := h
    simp only [NoThrow, SomeLeft]
    cases hst : y.step op with
    | done z => rw [hst] at h2; exact ⟨(ih h2).1, fun _ _ => h1, (ih h2).2⟩
    | threw z => rw [hst] at h2; cases h2
    | bad => rw [hst] at h2; cases h2

example : NoThrow (freshThread fun _ => 0) nestedCalls ∧ SomeLeft (freshThread fun _ => 0) nestedCalls :=
  check_ok (by decide +kernel)

/-- Inside both calls the batches of both are there. -/
example : ((freshThread fun _ => 0).run (nestedCalls.take 9)).map (·.elems) =
    some [[word 4, word 5, word 6], [word 1 ++ word 2, word 2 ++ word 3]] := by decide +kernel

private theorem careful_cons {y : TempSys} {op : VecOp} {ops : List VecOp} (hg : GoodType op)
    (ht : ∀ k, Takes y k op → (∀ (j : Nat) (v : TVec), j ≤ k → y.vecs[j]? = some v → v.cap = 0) ∧ 0 < y.alloc.remaining)
    (h : ∀ z, y.step op = .done z ∨ y.step op = .threw z → Careful z ops) : Careful y (op :: ops) := by
  refine ⟨hg, ht, ?_⟩
  cases hst : y.step op with
  | done z => exact h z (.inl hst)
  | threw z => exact h z (.inr hst)
  | bad => trivial

/-- A careful history that is no sequence of calls: the older vector takes its storage after the newer one was created. -/
example (y : TempSys) (hv : y.vecs = []) (hr : 0 < y.alloc.remaining) :
    Careful y [.create 8 8, .create 8 8, .emplace 1 (word 1), .destroy] := by
  have hg : GoodType (.create 8 8) := fun _ _ h => by cases h; exact ⟨by decide, 3, by decide, rfl⟩
  have hg' : ∀ op, (∀ sz al, op ≠ .create sz al) → GoodType op := fun op h _ _ h' => absurd h' (h _ _)
  refine careful_cons hg (fun k h => h.elim) fun z hz => careful_cons hg (fun k h => h.elim) fun u hu => ?_
  have hz' : z.vecs = [⟨8, 8, 0, 0, 0⟩] ∧ z.alloc = y.alloc := by
    rcases hz with hz | hz
    · cases hz; rw [hv]; exact ⟨rfl, rfl⟩
    · cases hz
  have hu' : u.vecs = [⟨8, 8, 0, 0, 0⟩, ⟨8, 8, 0, 0, 0⟩] ∧ u.alloc = y.alloc := by
    rcases hu with hu | hu
    · cases hu; rw [hz'.1]; exact ⟨rfl, hz'.2⟩
    · cases hu
  refine careful_cons (hg' _ (fun _ _ h => by cases h)) ?_ fun w _ =>
    careful_cons (hg' _ (fun _ _ h => by cases h)) (fun k h => h.elim) fun _ _ => trivial
  rintro k ⟨rfl, -⟩
  refine ⟨fun j v hj hv => ?_, by rw [hu'.2]; exact hr⟩
  rw [hu'.1] at hv
  match j, hj with
  | 0, _ => cases hv; rfl
  | 1, _ => cases hv; rfl

/-- The hypotheses of `C88_growth_unprotected` after one element was appended. -/
example : ((freshThread fun _ => 0).run [.create 8 8, .emplace 0 (word 1)]).map (·.vecs) = some [⟨8, 8, 1, 1, 4104⟩] := by
  decide +kernel

end CoEcs.Props
