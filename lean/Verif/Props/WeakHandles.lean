import Verif.Proofs.WeakHandles
import Verif.Props.WeakPool

/-!
# C83: handles reserved in parallel

A command buffer hands out handles with `reserve` while systems run on the threads of the pool; after the stage `sync` flushes the
handles.  The pool's `wait` lies between.
-/

namespace CoEcs.Props
open CoEcs.Weak

/-- A registry with the generations `G` and the free ids `F`; the main thread with its program, and two workers. -/
def handlesWith (F G : List Nat) (body : Int → P Unit) (main : P Unit) : St Loc (Prog Loc Unit) :=
  .init (pooled 2 F G) fun t => if t = 0 then main else if t ≤ 2 then workOnce body t [0] else pure ()

/-- The task reserves a handle and notes its id, plus one. -/
def reserveBody : Int → P Unit := fun _ => do
  let h ← reserve
  let _ ← write (.user 0) (h.1 + 1)
  pure ()

/-- Submit the task, wait for it, flush, create an entity; note whether it is alive (2) or not (1). -/
def reserveWaitFlush : P Unit := do
  submit 0 100 50 1 0
  if ← wait reserveBody 0 [] 50 3 then do
    flush
    let h ← create
    if ← alive h then do
      let _ ← write (.user 1) 2
      pure ()
    else do
      let _ ← write (.user 1) 1
      pure ()
  else pure ()

def schedLost : List (Nat × Nat) :=
  [(0, 4), (0, 4), (0, 4), (0, 0), (0, 0), (0, 0), (0, 4), (0, 4), (0, 4), (0, 4), (0, 4), (0, 4), (0, 0), (1, 0), (1, 0), (1, 4), (1, 4),
   (1, 0), (1, 4), (1, 0), (1, 4), (1, 1), (1, 0), (1, 4), (1, 4), (1, 1), (1, 0), (1, 4), (1, 0), (1, 0), (1, 4), (1, 1), (1, 2), (1, 4),
   (0, 2), (0, 0), (0, 4), (0, 4), (0, 4), (0, 1), (0, 4), (0, 4), (0, 4), (0, 4), (0, 4)]

/-- **C83** violated without a race: the pool is empty; the task reserves id 0; the flush still reads the cursor from before and
makes no room for it; the entity the main thread creates next gets id 1, and is not alive. -/
theorem C83_lost_violated (strong : Bool) : ∃ sched s, (handlesWith [] [] reserveBody reserveWaitFlush).run (Prog.auto Loc) strong sched = .ok s ∧
    (∀ t, t ≤ 1 → (Prog.auto Loc).op (s.th t) = none) ∧ s.mem.cell (.user 0) = 0 + 1 ∧ s.mem.cell (.user 1) = 1 ∧
    lastOf s.mem nextId = some 2 ∧ s.mem.cell gens = 1 := by
  have h : (match (handlesWith [] [] reserveBody reserveWaitFlush).run (Prog.auto Loc) strong schedLost with
      | .ok s => ((Prog.auto Loc).op (s.th 0)).isNone && ((Prog.auto Loc).op (s.th 1)).isNone && (decide (s.mem.cell (.user 0) = 0 + 1) &&
          decide (s.mem.cell (.user 1) = 1) && decide (lastOf s.mem nextId = some 2) && decide (s.mem.cell gens = 1))
      | _ => false) = true := by cases strong <;> decide +kernel
  split at h
  · rename_i s hs
    simp only [Bool.and_eq_true, decide_eq_true_eq, Option.isNone_iff_eq_none] at h
    refine ⟨_, s, hs, fun t ht => ?_, h.2.1.1.1, h.2.1.1.2, h.2.1.2, h.2.2⟩
    match t, ht with
    | 0, _ => exact h.1.1
    | 1, _ => exact h.1.2
  · cases h

def schedFlushRace : List (Nat × Nat) :=
  [(0, 4), (0, 4), (0, 4), (0, 0), (0, 0), (0, 0), (0, 4), (0, 4), (0, 4), (0, 4), (0, 4), (0, 4), (0, 0), (1, 0), (1, 0), (1, 4), (1, 4),
   (1, 0), (1, 4), (1, 0), (1, 4), (1, 1), (1, 0), (1, 4), (1, 4), (1, 1), (1, 0), (1, 4), (1, 0), (1, 4), (1, 4), (1, 4), (1, 4), (1, 4),
   (1, 1), (1, 2), (1, 4), (0, 2), (0, 1), (0, 4), (0, 4), (0, 4)]

/-- Submit the task, wait for it, flush. -/
def reserveWaitOnlyFlush : P Unit := do
  submit 0 100 50 1 0
  if ← wait reserveBody 0 [] 50 3 then flush else pure ()

/-- **C83** violated by a data race: with a free id the task reads the list of free ids and the flush, which does see the cursor, takes
the id off the list; nothing orders the two. -/
theorem C83_race_violated (strong : Bool) :
    ∃ sched, (handlesWith [0] [1] reserveBody reserveWaitOnlyFlush).run (Prog.auto Loc) strong sched = .race := by
  refine ⟨schedFlushRace, isRace_iff.1 ?_⟩
  cases strong <;> decide +kernel

/-- **C83**, where the threads that have reserved signal it with a release operation and the flush comes after an acquire operation
that has seen all signals.  Any number of threads reserve any numbers of handles at the same time, from any pool.  Before ids wrap:
there is no data race; nothing outside of the vectors is accessed; a handle is a free id with its current generation or a new id with generation 0;
no two handles have the same id; and after the flush all handles are alive, none of their ids is free, no id is lost, and the counters agree
with the vectors.  Missing: the library has no such signal (`C83_lost_violated`, `C83_race_violated`). -/
theorem C83_partial {F G : List Nat} (hok : PoolOk F G) (hG : G.length < 4294967296) {N f : Nat} {n : Nat → Nat} {strong : Bool} {s : St Loc (Prog Loc Unit)}
    (h : Reach (Prog.auto Loc) strong (reserveStart N f n F G) s) (hw : G.length + (s.mem.msgs nextId).length ≤ 4294967296) :
    (∀ t ch, s.step (Prog.auto Loc) strong t ch ≠ .race) ∧
    (∀ t o, (Prog.auto Loc).op (s.th t) = some o →
      (∀ k, o = .read (freeId k) → (k : Int) < s.mem.cell frees) ∧ (∀ i, o = .read (gen i) → (i : Int) < s.mem.cell gens) ∧
      (∀ v, o = .write frees v → 0 ≤ v) ∧ ∀ i v, o = .write (gen i) v → (i : Int) = s.mem.cell gens) ∧
    (∀ t k, 1 ≤ t → t ≤ N → Noted s.mem t k →
      (∃ i x y : Nat, F[i]? = some x ∧ G[x]? = some y ∧ noted s.mem t k = ((x : Int), (y : Int))) ∨
      ∃ j, j + 1 < (s.mem.msgs nextId).length ∧ noted s.mem t k = (((G.length + j : Nat) : Int), 0)) ∧
    (∀ t k t' k', 1 ≤ t → t ≤ N → 1 ≤ t' → t' ≤ N → Noted s.mem t k → Noted s.mem t' k' →
      (noted s.mem t k).1 = (noted s.mem t' k').1 → t = t' ∧ k = k') ∧
    (s.mem.cell synced = 1 →
      (∀ t k, 1 ≤ t → t ≤ N → k < n t → Noted s.mem t k ∧ AliveIn s.mem (noted s.mem t k) ∧ ¬ FreeIn s.mem (noted s.mem t k).1) ∧
      (∀ i : Nat, (i : Int) < s.mem.cell gens → i < G.length ∧ i ∉ F ∨ FreeIn s.mem i ∨
        ∃ t k, 1 ≤ t ∧ t ≤ N ∧ k < n t ∧ (noted s.mem t k).1 = i) ∧
      lastOf s.mem nextId = some (s.mem.cell gens) ∧ lastOf s.mem cursor = some (s.mem.cell frees)) := by
  obtain ⟨s', rfl, hi⟩ := reserve_inv hok hG h
  obtain ⟨cl, C, hcl, hl1, hres⟩ := hi.base
  have hX : ∀ {t k c}, cl t k = some c → ∀ j, c = .fresh j → j < (s'.mem.msgs nextId).length - 1 := by
    intro t k c hc j e; subst e; exact hcl.fresh _ _ _ hc
  have hw' : G.length + ((s'.mem.msgs nextId).length - 1) ≤ 4294967296 := by
    have : G.length + (s'.mem.msgs nextId).length ≤ 4294967296 := hw
    omega
  refine ⟨fun t ch e => (hi.step hok strong t ch).1 (hcode_step.1 e), fun t o ho => hi.within hok (by rw [← hcode_op]; exact ho), ?_, ?_, ?_⟩
  · intro t k h1 h2 hn
    obtain ⟨k0, r, q, hr⟩ := hres t h1 h2
    obtain ⟨_, c, hc, his⟩ := hr.noted hn
    rcases his.cases (hX hc) hw' with ⟨i, x, y, _, e1, e2, e3⟩ | ⟨j, _, e1, e2⟩
    · exact .inl ⟨i, x, y, e1, e2, e3⟩
    · refine .inr ⟨j, ?_, e2⟩
      show j + 1 < (s'.mem.msgs nextId).length
      omega
  · intro t k t' k' h1 h2 h1' h2' hn hn' he
    obtain ⟨k0, r, q, hr⟩ := hres t h1 h2
    obtain ⟨k0', r', q', hr'⟩ := hres t' h1' h2'
    obtain ⟨_, c, hc, his⟩ := hr.noted hn
    obtain ⟨_, c', hc', his'⟩ := hr'.noted hn'
    have := his.ne hok his' (hX hc) (hX hc') hw' he
    subst this
    rcases hcl.inj _ _ _ _ _ hc hc' with rfl | h
    · exact his.elim
    · exact h
  · intro hs
    have hs' : s'.mem.cell synced = 1 := hs
    clear hcl hX hres cl C
    rcases hi with ⟨cl, h⟩ | ⟨cl, C, h⟩
    · rw [h.syn.2] at hs'; cases hs'
    obtain ⟨f', q, _, hat, hq⟩ := h.main
    cases hq hs'
    obtain ⟨h1, h2, h3⟩ := hat
    have hnl := h.nxt.1
    have hX : ∀ {t k c}, cl t k = some c → ∀ j, c = .fresh j → j < C - F.length := by
      intro t k c hc j e; subst e; exact h.claims.fresh _ _ _ hc
    have hw2 : G.length + (C - F.length) ≤ 4294967296 := by omega
    have hclaim : ∀ t k c, cl t k = some c → 1 ≤ t ∧ t ≤ N ∧ k < n t ∧ c.Is F G (noted s'.mem t k) := by
      intro t k c hc
      obtain ⟨t1, t2⟩ := h.claims.range t k c hc
      obtain ⟨_, hr⟩ := h.work t t1 t2
      have hk : k < n t := by
        rcases Nat.lt_trichotomy k (n t) with hk | hk | hk
        · exact hk
        · rw [hk, hr.at'.1] at hc; cases hc
        · rw [hr.after k hk] at hc; cases hc
      obtain ⟨_, c', hc', his⟩ := hr.before k hk
      rw [hc] at hc'
      cases hc'
      exact ⟨t1, t2, hk, his⟩
    refine ⟨?_, ?_, ?_, h3⟩
    · intro t k t1 t2 hk
      obtain ⟨hn, c, hc, his⟩ := (h.work t t1 t2).2.before k hk
      refine ⟨hn, ?_, ?_⟩
      · show AliveIn s'.mem (noted s'.mem t k)
        rcases his.cases (hX hc) hw2 with ⟨i, x, y, _, e1, e2, e3⟩ | ⟨j, _, e1, e2⟩
        · have hx := (List.getElem?_eq_some_iff.1 e2).1
          rw [e3]
          refine ⟨by simp only; omega, by simp only; omega, ?_⟩
          simp only [Int.toNat_natCast]
          rw [h.genC, List.getD_eq_getElem?_getD, e2]; rfl
        · rw [e2]
          refine ⟨by simp only; omega, by simp only; omega, ?_⟩
          simp only [Int.toNat_natCast]
          rw [h.genC, List.getD_eq_getElem?_getD, List.getElem?_eq_none (by omega)]; rfl
      · rintro ⟨a, ha, hb⟩
        have ha' : (a : Int) < s'.mem.cell frees := ha
        have hb' : s'.mem.cell (freeId a) = (noted s'.mem t k).1 := hb
        have haf : a < F.length := by omega
        rw [h.freeC, List.getD_eq_getElem?_getD, List.getElem?_eq_getElem haf] at hb'
        simp only [Option.getD_some] at hb'
        rcases his.cases (hX hc) hw2 with ⟨i, x, y, rfl, e1, e2, e3⟩ | ⟨j, _, e1, e2⟩
        · rw [e3] at hb'
          have hx : F[a] = x := by simp only at hb'; omega
          have : a = i := (List.getElem?_inj haf hok.nodup).1 (by rw [List.getElem?_eq_getElem haf, hx, e1])
          subst this
          have := (h.claims.free _ _ _ hc).2
          omega
        · rw [e2] at hb'
          have := hok.bound F[a] (List.getElem_mem haf)
          simp only at hb'; omega
    · intro i hi
      have hi' : (i : Int) < s'.mem.cell gens := hi
      by_cases hiG : i < G.length
      · by_cases hiF : i ∈ F
        · obtain ⟨a, ha, hai⟩ := List.mem_iff_getElem.1 hiF
          by_cases hC : F.length ≤ C + a
          · obtain ⟨t, k, hc⟩ := h.claims.allFree a ha hC
            obtain ⟨t1, t2, hk, x, y, e1, e2, e3⟩ := hclaim t k _ hc
            refine .inr (.inr ⟨t, k, t1, t2, hk, ?_⟩)
            show (noted s'.mem t k).1 = i
            rw [List.getElem?_eq_getElem ha, hai] at e1
            cases e1
            rw [e3]
          · refine .inr (.inl ⟨a, ?_, ?_⟩)
            · show (a : Int) < s'.mem.cell frees
              omega
            · show s'.mem.cell (freeId a) = i
              rw [h.freeC, List.getD_eq_getElem?_getD, List.getElem?_eq_getElem ha, hai]; rfl
        · exact .inl ⟨hiG, hiF⟩
      · obtain ⟨t, k, hc⟩ := h.claims.allFresh (i - G.length) (by omega)
        obtain ⟨t1, t2, hk, his⟩ := hclaim t k _ hc
        refine .inr (.inr ⟨t, k, t1, t2, hk, ?_⟩)
        show (noted s'.mem t k).1 = i
        rcases his.cases (hX hc) hw2 with ⟨_, _, _, e, _⟩ | ⟨j, e1, _, e2⟩
        · cases e
        · cases e1; rw [e2]; simp only; omega
    · show lastOf s'.mem nextId = some (s'.mem.cell gens)
      have : G.length + (s'.mem.msgs nextId).length ≤ 4294967296 := hw
      rw [h.nxt.2, h1]
      congr 1
      omega

/-- One free id and two threads: both reserve, thread 0 sees both signals and flushes. -/
def schedReserve : List (Nat × Nat) :=
  [(1, 0), (2, 1), (1, 0), (1, 0), (1, 0), (2, 0), (1, 0), (1, 0), (2, 0), (2, 0), (1, 0), (2, 0), (1, 1), (0, 2), (0, 2), (0, 0), (0, 0),
   (0, 0), (0, 0), (0, 0), (0, 0), (0, 0), (0, 0)]

example (strong : Bool) : PoolOk [0] [3] ∧ ∃ s, Reach (Prog.auto Loc) strong (reserveStart 2 1 (fun _ => 1) [0] [3]) s ∧
    [3].length + (s.mem.msgs nextId).length ≤ 4294967296 ∧ s.mem.cell synced = 1 ∧ noted s.mem 1 0 = (0, 3) ∧ noted s.mem 2 0 = (1, 0) := by
  refine ⟨⟨by simp, by simp⟩, ?_⟩
  have h : (match (reserveStart 2 1 (fun _ => 1) [0] [3]).run (Prog.auto Loc) strong schedReserve with
      | .ok s => decide ((s.mem.msgs nextId).length = 2) && decide (s.mem.cell synced = 1) && decide (noted s.mem 1 0 = (0, 3)) &&
          decide (noted s.mem 2 0 = (1, 0))
      | _ => false) = true := by cases strong <;> decide +kernel
  split at h
  · rename_i s hs
    simp only [Bool.and_eq_true, decide_eq_true_eq] at h
    exact ⟨s, Reach.run .init hs, by rw [h.1.1.1]; decide, h.1.1.2, h.1.2, h.2⟩
  · cases h

end CoEcs.Props
