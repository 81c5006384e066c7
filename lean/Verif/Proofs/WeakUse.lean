import Verif.Proofs.WeakTurns
import Verif.Spec.WeakUse

/-! # Calls on a pool of handles in plain memory: helper lemmas -/

namespace CoEcs.Weak

section
variable {L : Type} [DecidableEq L] {α β : Type}

theorem Prog.seq_bind (p : Prog L α) (f : α → Prog L β) (s : Store L) :
    (p.bind f).seq s = (f (p.seq s).1).seq (p.seq s).2 := by
  induction p generalizing s with
  | ret a => rfl
  | op o k ih => exact ih _ _

theorem Prog.seq_bind' (p : Prog L α) (f : α → Prog L β) (s : Store L) :
    (p >>= f).seq s = (f (p.seq s).1).seq (p.seq s).2 := p.seq_bind f s

theorem Prog.Avoids.bind {l : L} {p : Prog L α} {f : α → Prog L β} (hp : p.Avoids l) (hf : ∀ a, (f a).Avoids l) : (p.bind f).Avoids l := by
  induction p with
  | ret a => exact hf a
  | op o k ih => exact ⟨hp.1, fun v => ih v (hp.2 v)⟩

end

@[simp] theorem seq_pure {α : Type} (a : α) (s : Store Loc) : (pure a : P α).seq s = (a, s) := rfl
@[simp] theorem seq_read (l : Loc) (s : Store Loc) : (read l).seq s = (s.cell l, s) := rfl
@[simp] theorem seq_write (l : Loc) (v : Int) (s : Store Loc) : (write l v).seq s = (0, s.setCell l v) := rfl
@[simp] theorem seq_load (o : Order) (l : Loc) (s : Store Loc) : (load o l).seq s = (s.atom l, s) := rfl
@[simp] theorem seq_store (o : Order) (l : Loc) (v : Int) (s : Store Loc) : (store o l v).seq s = (0, s.setAtom l v) := rfl
theorem seq_rmw (o : Order) (l : Loc) (f : Int → Int) (s : Store Loc) :
    (rmw o l fun x => some (f x)).seq s = (s.atom l, s.setAtom l (f (s.atom l))) := rfl

/-- The pool is in memory. -/
structure PRep (p : Pool) (s : Store Loc) : Prop where
  next : s.atom nextId = (p.nextId : Int)
  cursor : s.atom cursor = p.cursor
  gens : s.cell gens = (p.gens.length : Int)
  gen : ∀ i g : Nat, p.gens[i]? = some g → s.cell (gen i) = (g : Int)
  frees : s.cell frees = (p.free.length : Int)
  free : ∀ k i : Nat, p.free[k]? = some i → s.cell (freeId k) = (i : Int)

/-- The notes are the same. -/
def NotesEq (s s' : Store Loc) : Prop := ∀ t k, s'.cell (noteId t k) = s.cell (noteId t k) ∧ s'.cell (noteGen t k) = s.cell (noteGen t k)

theorem NotesEq.refl (s : Store Loc) : NotesEq s s := fun _ _ => ⟨rfl, rfl⟩

theorem NotesEq.trans {s s' s'' : Store Loc} (h : NotesEq s s') (h' : NotesEq s' s'') : NotesEq s s'' :=
  fun t k => ⟨(h' t k).1.trans (h t k).1, (h' t k).2.trans (h t k).2⟩

section
variable {p : Pool} {s : Store Loc}

theorem PRep.addGen (h : PRep p s) : ∃ s', addGen.seq s = ((), s') ∧ PRep { p with gens := p.gens ++ [0] } s' ∧ NotesEq s s' := by
  refine ⟨(s.setCell (Weak.gen p.gens.length) 0).setCell Weak.gens (p.gens.length + 1), ?_, ⟨h.next, h.cursor, ?_, ?_, ?_, ?_⟩, ?_⟩
  · simp [Weak.addGen, Prog.seq_bind', h.gens]
  · simp [Store.setCell]
  · intro i g hg
    by_cases hi : i = p.gens.length
    · subst hi; simp at hg; subst hg; simp [Store.setCell, Weak.gen, Weak.gens]
    · simp [Store.setCell, Weak.gen, Weak.gens, hi]
      have := (List.getElem?_eq_some_iff.1 hg).1
      rw [List.getElem?_append_left (by simp at this; omega)] at hg
      exact h.gen i g hg
  · simp [Store.setCell, Weak.frees, Weak.gens, Weak.gen]; exact h.frees
  · intro k i hk
    simp [Store.setCell, Weak.freeId, Weak.gens, Weak.gen]; exact h.free k i hk
  · intro t k; simp [Store.setCell, noteId, noteGen, Weak.gens, Weak.gen]

theorem PRep.addGens : ∀ (n : Nat) {p : Pool} {s : Store Loc}, PRep p s →
    ∃ s', (addGens n).seq s = ((), s') ∧ PRep { p with gens := p.gens ++ List.replicate n 0 } s' ∧ NotesEq s s'
  | 0, p, s, h => ⟨s, rfl, by simpa using h, .refl _⟩
  | n + 1, p, s, h => by
    obtain ⟨s1, e1, h1, k1⟩ := h.addGen
    obtain ⟨s2, e2, h2, k2⟩ := PRep.addGens n h1
    refine ⟨s2, ?_, ?_, k1.trans k2⟩
    · simp only [Weak.addGens, Prog.seq_bind', e1, e2]
    · simpa [List.replicate_succ] using h2

theorem PRep.dropFree (h : PRep p s) (h0 : 0 < p.free.length) :
    PRep { p with free := p.free.dropLast } (s.setCell Weak.frees (p.free.length - 1)) := by
  refine ⟨h.next, h.cursor, ?_, ?_, ?_, ?_⟩
  · simp [Store.setCell, Weak.gens, Weak.frees]; exact h.gens
  · intro i g hg
    simp [Store.setCell, Weak.gen, Weak.frees]; exact h.gen i g hg
  · simp [Store.setCell]; omega
  · intro k i hk
    simp [Store.setCell, Weak.freeId, Weak.frees]
    rw [List.getElem?_dropLast] at hk
    split at hk
    · exact h.free k i hk
    · cases hk

theorem PRep.dropFrees : ∀ (n : Nat) {p : Pool} {s : Store Loc}, PRep p s → n ≤ p.free.length →
    ∃ s', (dropFrees n).seq s = ((), s') ∧ PRep { p with free := p.free.take (p.free.length - n) } s' ∧ NotesEq s s'
  | 0, p, s, h, _ => ⟨s, rfl, by simpa using h, .refl _⟩
  | n + 1, p, s, h, hn => by
    have h1 := h.dropFree (by omega)
    obtain ⟨s2, e2, h2, k2⟩ := PRep.dropFrees n h1 (by simp; omega)
    refine ⟨s2, ?_, ?_, NotesEq.trans ?_ k2⟩
    · simp only [Weak.dropFrees, Prog.seq_bind', seq_read, seq_write, h.frees]
      exact e2
    · simp only [List.length_dropLast] at h2
      have : p.free.dropLast.take (p.free.length - 1 - n) = p.free.take (p.free.length - (n + 1)) := by
        rw [List.dropLast_eq_take, List.take_take]
        congr 1
        omega
      rw [this] at h2
      exact h2
    · intro t k; simp [Store.setCell, noteId, noteGen, Weak.frees]

theorem PRep.flush (h : PRep p s) : ∃ s', flush.seq s = ((), s') ∧ PRep p.flush s' ∧ NotesEq s s' := by
  obtain ⟨s1, e1, h1, k1⟩ := PRep.addGens (-p.cursor).toNat h
  obtain ⟨s2, e2, h2, k2⟩ := PRep.dropFrees ((p.free.length : Int) - max p.cursor 0).toNat h1 (by simp only; omega)
  refine ⟨s2.setAtom Weak.cursor (max p.cursor 0), ?_, ?_, k1.trans k2⟩
  · have hf : s1.cell Weak.frees = (p.free.length : Int) := h1.frees
    simp [Weak.flush, Prog.seq_bind', h.cursor, e1, hf, e2]
  · have : p.free.take (p.free.length - ((p.free.length : Int) - max p.cursor 0).toNat) = p.free.take p.cursor.toNat := by
      by_cases hc : p.cursor.toNat ≤ p.free.length
      · congr 1; omega
      · rw [List.take_of_length_le (by omega), List.take_of_length_le (by omega)]
    have h3 : PRep { p with gens := p.gens ++ List.replicate (-p.cursor).toNat 0, free := p.free.take p.cursor.toNat } s2 := by
      rw [← this]; exact h2
    refine ⟨?_, ?_, h3.gens, h3.gen, h3.frees, h3.free⟩
    · simp [Store.setAtom, nextId, Weak.cursor]; exact h3.next
    · simp [Store.setAtom, Pool.flush]

theorem PRep.bump (h : PRep p s) : (rmw .rlx nextId fun x => some ((x + 1) % 4294967296)).seq s =
      ((p.nextId : Int), s.setAtom nextId (((p.nextId + 1) % U32 : Nat) : Int)) ∧
    PRep p.bump (s.setAtom nextId (((p.nextId + 1) % U32 : Nat) : Int)) := by
  constructor
  · rw [seq_rmw .rlx nextId (fun x => (x + 1) % 4294967296), h.next]
    simp [U32]
  · exact ⟨by simp [Store.setAtom, Pool.bump], by simp [Store.setAtom, nextId, Weak.cursor]; exact h.cursor, h.gens, h.gen, h.frees, h.free⟩

theorem PRep.create (h : PRep p s) {p' : Pool} {x : Handle} (hc : p.create = some (p', x)) :
    ∃ s', create.seq s = (((x.id : Int), (x.gen : Int)), s') ∧ PRep p' s' ∧ NotesEq s s' := by
  unfold Pool.create at hc
  cases hl : p.free.getLast? with
  | some id =>
    rw [hl] at hc
    simp only at hc
    cases hg : p.gens[id]? with
    | none => rw [hg] at hc; cases hc
    | some g =>
      rw [hg] at hc
      simp only [Option.some.injEq, Prod.mk.injEq] at hc
      obtain ⟨rfl, rfl⟩ := hc
      have h0 : 0 < p.free.length := by
        cases hf : p.free with
        | nil => rw [hf] at hl; cases hl
        | cons a l => simp
      rw [List.getLast?_eq_getElem?] at hl
      have h1 := h.dropFree h0
      have hid := h.free _ _ hl
      have hgen : (s.setCell Weak.frees (p.free.length - 1)).cell (Weak.gen id) = (g : Int) := h1.gen id g hg
      refine ⟨(s.setCell Weak.frees (p.free.length - 1)).setAtom Weak.cursor (p.free.length - 1), ?_, ?_, ?_⟩
      · have e0 : ((p.free.length : Int) - 1).toNat = p.free.length - 1 := by omega
        simp only [Weak.create, Prog.seq_bind', seq_read, h.frees]
        rw [if_pos (by omega)]
        simp only [Prog.seq_bind', seq_read, seq_write, seq_store, seq_pure, e0, hid]
        simp only [Store.setAtom, Int.toNat_natCast, hgen]
      · refine ⟨?_, ?_, h1.gens, h1.gen, h1.frees, h1.free⟩
        · simp [Store.setAtom, Store.setCell, nextId, Weak.cursor]; exact h.next
        · simp [Store.setAtom]; omega
      · intro t k; simp [Store.setCell, Store.setAtom, noteId, noteGen, Weak.frees]
  | none =>
    rw [hl] at hc
    simp only [Option.some.injEq, Prod.mk.injEq] at hc
    obtain ⟨rfl, rfl⟩ := hc
    have h0 : p.free.length = 0 := by simp [List.getLast?_eq_none_iff.1 hl]
    obtain ⟨e1, h1⟩ := h.bump
    obtain ⟨s2, e2, h2, k2⟩ := h1.addGen
    refine ⟨s2, ?_, h2, fun t k => k2 t k⟩
    simp only [Weak.create, Prog.seq_bind', seq_read, h.frees]
    rw [if_neg (by omega)]
    simp only [Prog.seq_bind', e1, e2, seq_pure]
    rfl

theorem PRep.alive (h : PRep p s) (x : Handle) : (alive (x.id, x.gen)).seq s = (p.alive x, s) := by
  unfold Pool.alive
  simp only [Weak.alive, Prog.seq_bind', seq_read, h.gens]
  by_cases hx : x.id < p.gens.length
  · rw [if_pos (by omega), List.getElem?_eq_getElem hx]
    have hg := h.gen x.id _ (List.getElem?_eq_getElem hx)
    simp [Prog.seq_bind', hg]
    rw [Bool.eq_iff_iff]
    simp
    omega
  · rw [if_neg (by omega), List.getElem?_eq_none (by omega)]
    rfl

theorem PRep.recycle (h : PRep p s) (x : Handle) : ∃ s', (recycle (x.id, x.gen)).seq s = ((), s') ∧ PRep (p.recycle x) s' ∧ NotesEq s s' := by
  simp only [Weak.recycle, Prog.seq_bind', h.alive]
  unfold Pool.recycle
  cases ha : p.alive x with
  | false => exact ⟨s, rfl, h, .refl _⟩
  | true =>
    have hg : p.gens[x.id]? = some x.gen := by
      unfold Pool.alive at ha
      cases hg : p.gens[x.id]? with
      | none => rw [hg] at ha; cases ha
      | some g => rw [hg] at ha; simp at ha; rw [ha]
    have hgen := h.gen _ _ hg
    have hlt := (List.getElem?_eq_some_iff.1 hg).1
    refine ⟨(((s.setCell (Weak.gen x.id) (((x.gen + 1) % U32 : Nat) : Int)).setCell (Weak.freeId p.free.length) x.id).setCell
      Weak.frees (p.free.length + 1)).setAtom Weak.cursor (p.cursor + 1), ?_, ?_, ?_⟩
    · have hf : ∀ v, (s.setCell (Weak.gen x.id) v).cell Weak.frees = (p.free.length : Int) := by
        intro v; simp [Store.setCell, Weak.frees, Weak.gen]; exact h.frees
      simp only [if_true, Prog.seq_bind', seq_read, seq_write, Int.toNat_natCast, hgen, hf]
      rw [seq_rmw .rlx Weak.cursor (fun x => x + 1)]
      simp only [seq_pure]
      simp [Store.setCell, h.cursor, U32]
    · refine ⟨?_, by simp [Store.setAtom], ?_, ?_, ?_, ?_⟩
      · simp [Store.setAtom, Store.setCell, nextId, Weak.cursor]; exact h.next
      · simp [Store.setAtom, Store.setCell, Weak.gens, Weak.frees, Weak.freeId, Weak.gen]; exact h.gens
      · intro i g hi
        simp only [Store.setAtom, Store.setCell, Weak.gen, Weak.frees, Weak.freeId]
        simp only [reduceCtorEq, if_false, Loc.pool.injEq, HLoc.gen.injEq, if_true] at hi ⊢
        rw [List.getElem?_set] at hi
        by_cases e : x.id = i
        · subst e
          simp [hlt] at hi
          simp [← hi]
        · rw [if_neg e] at hi
          rw [if_neg (fun h => e h.symm)]
          exact h.gen i g hi
      · simp [Store.setAtom, Store.setCell]
      · intro k i hk
        simp only [Store.setAtom, Store.setCell, Weak.gen, Weak.frees, Weak.freeId]
        simp only [reduceCtorEq, if_false, Loc.pool.injEq, HLoc.free.injEq, if_true] at hk ⊢
        by_cases e : k = p.free.length
        · subst e
          simp at hk
          simp [hk]
        · rw [if_neg e]
          have := (List.getElem?_eq_some_iff.1 hk).1
          rw [List.getElem?_append_left (by simp at this; omega)] at hk
          exact h.free k i hk
    · intro t k; simp [Store.setCell, Store.setAtom, noteId, noteGen, Weak.frees, Weak.gen, Weak.freeId]

theorem PRep.reserve (h : PRep p s) {p' : Pool} {x : Handle} (hc : p.reserve = some (p', x)) :
    ∃ s', reserve.seq s = (((x.id : Int), (x.gen : Int)), s') ∧ PRep p' s' ∧ NotesEq s s' := by
  unfold Pool.reserve at hc
  have e0 : (rmw .rlx Weak.cursor fun x => some (x - 1)).seq s = (p.cursor, s.setAtom Weak.cursor (p.cursor - 1)) := by
    rw [seq_rmw .rlx Weak.cursor (fun x => x - 1), h.cursor]
  have h0 : PRep { p with cursor := p.cursor - 1 } (s.setAtom Weak.cursor (p.cursor - 1)) :=
    ⟨by simp [Store.setAtom, nextId, Weak.cursor]; exact h.next, by simp [Store.setAtom], h.gens, h.gen, h.frees, h.free⟩
  simp only [Weak.reserve, Prog.seq_bind', e0]
  by_cases hn : p.cursor > 0
  · rw [if_pos hn]
    have hc := (if_pos (c := p.cursor > 0) hn).symm.trans hc
    simp only [Pool.reserveFromFree] at hc
    cases hf : p.free[(p.cursor - 1).toNat]? with
    | none => rw [hf] at hc; cases hc
    | some id =>
      rw [hf] at hc
      simp only at hc
      cases hg : p.gens[id]? with
      | none => rw [hg] at hc; cases hc
      | some g =>
        rw [hg] at hc
        simp only [Option.some.injEq, Prod.mk.injEq] at hc
        obtain ⟨rfl, rfl⟩ := hc
        refine ⟨s.setAtom Weak.cursor (p.cursor - 1), ?_, h0, fun t k => ⟨rfl, rfl⟩⟩
        have hid := h0.free _ _ hf
        have hgen := h0.gen _ _ hg
        simp only [Prog.seq_bind', seq_read, seq_pure, hid, Int.toNat_natCast, hgen]
  · rw [if_neg hn]
    have hc := (if_neg (c := p.cursor > 0) hn).symm.trans hc
    simp only [Pool.reserveFresh, Option.some.injEq, Prod.mk.injEq] at hc
    obtain ⟨rfl, rfl⟩ := hc
    obtain ⟨e1, h1⟩ := h0.bump
    refine ⟨_, ?_, h1, fun t k => ⟨rfl, rfl⟩⟩
    simp only [Prog.seq_bind', e1, seq_pure]
    rfl

theorem PRep.call (h : PRep p s) {c : PCall} {p' : Pool} {a : Int × Int} (hc : p.call c = some (p', a)) :
    ∃ s', c.prog.seq s = (a, s') ∧ PRep p' s' ∧ NotesEq s s' := by
  cases c with
  | create =>
    simp only [Pool.call, Option.map_eq_some_iff] at hc
    obtain ⟨r, hr, e⟩ := hc
    cases e
    exact h.create hr
  | recycle x =>
    simp only [Pool.call, Option.some.injEq, Prod.mk.injEq] at hc
    obtain ⟨rfl, rfl⟩ := hc
    obtain ⟨s', e, h1, h2⟩ := h.recycle x
    exact ⟨s', by simp only [PCall.prog, Prog.seq_bind', e, seq_pure], h1, h2⟩
  | reserve =>
    simp only [Pool.call, Option.map_eq_some_iff] at hc
    obtain ⟨r, hr, e⟩ := hc
    cases e
    exact h.reserve hr
  | flush =>
    simp only [Pool.call, Option.some.injEq, Prod.mk.injEq] at hc
    obtain ⟨rfl, rfl⟩ := hc
    obtain ⟨s', e, h1, h2⟩ := h.flush
    exact ⟨s', by simp only [PCall.prog, Prog.seq_bind', e, seq_pure], h1, h2⟩
  | alive x =>
    simp only [Pool.call, Option.some.injEq, Prod.mk.injEq] at hc
    obtain ⟨rfl, rfl⟩ := hc
    refine ⟨s, ?_, h, .refl _⟩
    simp only [PCall.prog, Prog.seq_bind', h.alive]
    cases p.alive x <;> rfl

/-- The notes of thread `t` from number `k` on. -/
def NotedFrom (s : Store Loc) (t k : Nat) (as : List (Int × Int)) : Prop :=
  ∀ i a, as[i]? = some a → s.cell (noteId t (k + i)) = a.1 ∧ s.cell (noteGen t (k + i)) = a.2

theorem PRep.calls : ∀ (cs : List PCall) {p p' : Pool} {s : Store Loc} {as : List (Int × Int)} (t k : Nat), PRep p s → p.calls cs = some (p', as) →
    PRep p' ((using_ t k cs).seq s).2 ∧ NotedFrom ((using_ t k cs).seq s).2 t k as ∧
    ∀ t' k', t' ≠ t ∨ k' < k → ((using_ t k cs).seq s).2.cell (noteId t' k') = s.cell (noteId t' k') ∧
      ((using_ t k cs).seq s).2.cell (noteGen t' k') = s.cell (noteGen t' k')
  | [], p, p', s, as, t, k, h, hc => by
    simp only [Pool.calls, Option.some.injEq, Prod.mk.injEq] at hc
    obtain ⟨rfl, rfl⟩ := hc
    exact ⟨h, fun i a hi => by simp at hi, fun _ _ _ => ⟨rfl, rfl⟩⟩
  | c :: cs, p, p', s, as, t, k, h, hc => by
    simp only [Pool.calls, Option.bind_eq_some_iff, Option.map_eq_some_iff] at hc
    obtain ⟨⟨p1, a⟩, hc1, ⟨p2, as'⟩, hc2, e⟩ := hc
    cases e
    obtain ⟨s1, e1, h1, n1⟩ := h.call hc1
    have h2 : PRep p1 ((s1.setCell (noteId t k) a.1).setCell (noteGen t k) a.2) := by
      refine ⟨h1.next, h1.cursor, ?_, ?_, ?_, ?_⟩
      · simp [Store.setCell, noteId, noteGen, Weak.gens]; exact h1.gens
      · intro i g hi; simp [Store.setCell, noteId, noteGen, Weak.gen]; exact h1.gen i g hi
      · simp [Store.setCell, noteId, noteGen, Weak.frees]; exact h1.frees
      · intro i g hi; simp [Store.setCell, noteId, noteGen, Weak.freeId]; exact h1.free i g hi
    obtain ⟨h3, h4, h5⟩ := PRep.calls cs t (k + 1) h2 hc2
    have e2 : (using_ t k (c :: cs)).seq s = (using_ t (k + 1) cs).seq ((s1.setCell (noteId t k) a.1).setCell (noteGen t k) a.2) := by
      simp only [using_, Prog.seq_bind', e1, seq_write]
    rw [e2]
    refine ⟨h3, ?_, ?_⟩
    · intro i b hi
      cases i with
      | zero =>
        simp only [List.getElem?_cons_zero, Option.some.injEq] at hi
        subst hi
        have := h5 t k (.inr (by omega))
        simp only [Nat.add_zero]
        rw [this.1, this.2]
        simp [Store.setCell, noteId, noteGen]
      | succ i =>
        have := h4 i b (by simpa using hi)
        rw [show k + 1 + i = k + (i + 1) by omega] at this
        exact this
    · intro t' k' hk
      have := h5 t' k' (by omega)
      rw [this.1, this.2, ← (n1 t' k').1, ← (n1 t' k').2]
      have hne : ¬ (t' = t ∧ k' = k) := by omega
      simp [Store.setCell, noteId, noteGen, hne]

end

/-! ## Pool programs do not touch the turn -/

theorem avoids_op {o : Op Loc} (h : o.loc ≠ some turn) : (Prog.call o).Avoids turn := ⟨h, fun _ => trivial⟩

theorem addGen_avoids : addGen.Avoids turn := by
  simp [addGen, bind, Prog.bind, read, write, Prog.call, pure, Prog.Avoids, Op.loc, turn, gens, gen]

theorem addGens_avoids : ∀ n, (addGens n).Avoids turn
  | 0 => trivial
  | n + 1 => addGen_avoids.bind fun _ => addGens_avoids n

theorem dropFrees_avoids : ∀ n, (dropFrees n).Avoids turn
  | 0 => trivial
  | n + 1 => (avoids_op (by simp [Op.loc, frees, turn])).bind fun _ =>
    (avoids_op (by simp [Op.loc, frees, turn])).bind fun _ => dropFrees_avoids n

theorem flush_avoids : flush.Avoids turn :=
  (avoids_op (by simp [Op.loc, cursor, turn])).bind fun _ => (addGens_avoids _).bind fun _ =>
    (avoids_op (by simp [Op.loc, frees, turn])).bind fun _ => (dropFrees_avoids _).bind fun _ =>
    (avoids_op (by simp [Op.loc, cursor, turn])).bind fun _ => trivial

theorem alive_avoids (h : Int × Int) : (alive h).Avoids turn :=
  (avoids_op (by simp [Op.loc, gens, turn])).bind fun n => by
    by_cases hn : h.1 < n
    · rw [if_pos hn]; exact (avoids_op (by simp [Op.loc, gen, turn])).bind fun _ => trivial
    · rw [if_neg hn]; trivial

theorem create_avoids : create.Avoids turn :=
  (avoids_op (by simp [Op.loc, frees, turn])).bind fun n => by
    by_cases hn : n > 0
    · rw [if_pos hn]
      simp [bind, Prog.bind, read, write, store, Prog.call, pure, Prog.Avoids, Op.loc, turn, gens, gen, freeId, frees, cursor]
    · rw [if_neg hn]
      exact (avoids_op (by simp [Op.loc, nextId, turn])).bind fun _ => addGen_avoids.bind fun _ => trivial

theorem reserve_avoids : reserve.Avoids turn :=
  (avoids_op (by simp [Op.loc, cursor, turn])).bind fun n => by
    by_cases hn : n > 0
    · rw [if_pos hn]
      simp [bind, Prog.bind, read, Prog.call, pure, Prog.Avoids, Op.loc, turn, gens, gen, freeId, frees]
    · rw [if_neg hn]
      exact (avoids_op (by simp [Op.loc, nextId, turn])).bind fun _ => trivial

theorem recycle_avoids (h : Int × Int) : (recycle h).Avoids turn :=
  (alive_avoids h).bind fun b => by
    cases b
    · trivial
    · simp [bind, Prog.bind, read, write, rmw, Prog.call, pure, Prog.Avoids, Op.loc, turn, gens, gen, freeId, frees, cursor]

theorem PCall.avoids : ∀ c : PCall, c.prog.Avoids turn
  | .create => create_avoids
  | .recycle _ => (recycle_avoids _).bind fun _ => trivial
  | .reserve => reserve_avoids
  | .flush => flush_avoids.bind fun _ => trivial
  | .alive _ => (alive_avoids _).bind fun b => by cases b <;> trivial

theorem using_avoids (t : Nat) : ∀ (k : Nat) (cs : List PCall), (using_ t k cs).Avoids turn
  | _, [] => trivial
  | k, c :: cs => c.avoids.bind fun _ => (avoids_op (by simp [Op.loc, noteId, turn])).bind fun _ =>
    (avoids_op (by simp [Op.loc, noteGen, turn])).bind fun _ => using_avoids t (k + 1) cs

/-! ## All threads -/

theorem handing_seq (t : Nat) (q : P Unit) (s : Store Loc) :
    ((handing .rel turn t q).seq s).2 = (q.seq s).2.setAtom turn ((t + 1 : Nat) : Int) := by
  simp only [handing, Prog.seq_bind]; rfl

theorem PRep.turned {p : Pool} {s : Store Loc} (h : PRep p s) (v : Int) : PRep p (s.setAtom turn v) :=
  ⟨by simp [Store.setAtom, nextId, turn]; exact h.next, by simp [Store.setAtom, Weak.cursor, turn]; exact h.cursor,
    h.gens, h.gen, h.frees, h.free⟩

/-- The threads from number `j` on. -/
theorem PRep.callsAll : ∀ (css : List (List PCall)) {p p' : Pool} {s : Store Loc} {ass : List (List (Int × Int))} (j : Nat), PRep p s →
    p.callsAll css = some (p', ass) →
    PRep p' (seqAll (css.mapIdx fun i cs => handing .rel turn (i + j) (using_ (i + j) 0 cs)) s) ∧
    (∀ (i : Nat) as, ass[i]? = some as →
      NotedFrom (seqAll (css.mapIdx fun i cs => handing .rel turn (i + j) (using_ (i + j) 0 cs)) s) (i + j) 0 as) ∧
    ∀ t k, t < j → (seqAll (css.mapIdx fun i cs => handing .rel turn (i + j) (using_ (i + j) 0 cs)) s).cell (noteId t k) = s.cell (noteId t k) ∧
      (seqAll (css.mapIdx fun i cs => handing .rel turn (i + j) (using_ (i + j) 0 cs)) s).cell (noteGen t k) = s.cell (noteGen t k)
  | [], p, p', s, ass, j, h, hc => by
    simp only [Pool.callsAll, Option.some.injEq, Prod.mk.injEq] at hc
    obtain ⟨rfl, rfl⟩ := hc
    exact ⟨h, fun i a hi => by simp at hi, fun _ _ _ => ⟨rfl, rfl⟩⟩
  | cs :: css, p, p', s, ass, j, h, hc => by
    simp only [Pool.callsAll, Option.bind_eq_some_iff, Option.map_eq_some_iff] at hc
    obtain ⟨⟨p1, as⟩, hc1, ⟨p2, ass'⟩, hc2, e⟩ := hc
    cases e
    obtain ⟨h1, h2, h3⟩ := PRep.calls cs j 0 h hc1
    have h1' := h1.turned (((j + 1 : Nat)) : Int)
    obtain ⟨h4, h5, h6⟩ := PRep.callsAll css (j + 1) h1' hc2
    have e : seqAll ((cs :: css).mapIdx fun i cs => handing .rel turn (i + j) (using_ (i + j) 0 cs)) s =
        seqAll (css.mapIdx fun i cs => handing .rel turn (i + (j + 1)) (using_ (i + (j + 1)) 0 cs))
          (((using_ j 0 cs).seq s).2.setAtom turn ((j + 1 : Nat) : Int)) := by
      simp only [List.mapIdx_cons, seqAll, Nat.zero_add, handing_seq]
      congr 2
      funext i cs'
      rw [show i + 1 + j = i + (j + 1) by omega]
    rw [e]
    refine ⟨h4, ?_, ?_⟩
    · intro i as' hi
      cases i with
      | zero =>
        simp only [List.getElem?_cons_zero, Option.some.injEq] at hi
        subst hi
        intro k a hk
        have := h6 j (0 + k) (by omega)
        simp only [Nat.zero_add] at this ⊢
        rw [this.1, this.2]
        have := h2 k a hk
        simp only [Nat.zero_add] at this
        exact this
      | succ i =>
        have := h5 i as' (by simpa using hi)
        rw [show i + 1 + j = i + (j + 1) by omega]
        exact this
    · intro t k ht
      have h7 := h6 t k (by omega)
      rw [h7.1, h7.2]
      exact h3 t k (.inl (by omega))

theorem PRep.start (c : Int) (F G : List Nat) : PRep ⟨G.length, F.length, G, F⟩ ⟨pooled c F G, pooled c F G⟩ := by
  refine ⟨rfl, rfl, rfl, ?_, rfl, ?_⟩
  · intro i g h
    show ((G.getD i 0 : Nat) : Int) = g
    rw [List.getD_eq_getElem?_getD, h]; rfl
  · intro i g h
    show ((F.getD i 0 : Nat) : Int) = g
    rw [List.getD_eq_getElem?_getD, h]; rfl

end CoEcs.Weak
