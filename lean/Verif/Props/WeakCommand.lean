import Verif.Proofs.WeakCommand
import Verif.Props.WeakRounds
import Verif.Props.Handles

/-!
# C95: commands recorded by all workers at once, in C++ memory
-/

namespace CoEcs.Props
open CoEcs.Weak CoEcs.Spec

private theorem emptyAt_iff {s : Weak.Store CLoc} {b i : Nat} : EmptyAt s b i ↔ BufHas s b i [] := by
  constructor
  · exact fun h => ⟨h.1, by simpa using h.2, fun _ _ h => by simp at h⟩
  · exact fun h => ⟨h.first, by simpa using h.last⟩

/-- **C95**, where the main thread starts the workers with a release store they acquire and they report with a release operation it acquires.
Any number of workers make any calls on writers at the same time, each one on the writer of its own buffer; they reserve entities from the
pool of one registry.  The main thread flushes.  There is no data race; and when the flush is over, there is an order of the calls, a call at
a time, such that every worker has recorded the commands it records in that order, they have been executed buffer by buffer, the pool is
the one after these calls and a flush, and the buffers are empty.  Missing: the wait of the library orders nothing (`C81_race_violated`), and
a buffer may be used by two threads (`C95_one_writer_violated`). -/
theorem C95_commands_partial {N : Nat} {calls : Nat → List RCall} {p : Pool} (hc : p.cursor ≤ p.free.length) (hi : ∀ id ∈ p.free, id < p.gens.length)
    {init : CLoc → Int} (hg : init .go = 0) (hd : init .dn = 0) (hp : PRep p (Store.pull .pool ⟨init, init⟩)) {i0 : Nat → Nat}
    (hb : ∀ b, b < N → EmptyAt ⟨init, init⟩ b (i0 b)) {k : Nat} (hk : init .ran = k) {f : Nat} {strong : Bool} {s : St CLoc (Prog CLoc Unit)}
    (h : Reach (Prog.auto CLoc) strong (.init init (roundThreads .acq .rel .go .dn N f (recordRounds N calls))) s) :
    (∀ t c, s.step (Prog.auto CLoc) strong t c ≠ .race) ∧
    (s.mem.vals.atom .go = 3 → ∃ a, RecRun N ⟨p, fun _ => [], calls, fun _ => []⟩ a ∧ Ran s.mem.vals k (a.all N) ∧
      PRep a.pool.flush (s.mem.vals.pull .pool) ∧ ∀ b, b < N → EmptyAt s.mem.vals b (i0 b + (a.cmds b).length)) := by
  obtain ⟨h1, h2⟩ := C95_rounds (by decide) (A := Counter) (by rintro l (rfl | rfl) <;> decide) (recordRounds_sharing N calls) hg hd h
  refine ⟨h1, fun hN => ?_⟩
  obtain ⟨σ, hσ, hv⟩ := h2 hN
  obtain _ | ⟨hm, hm2⟩ := hσ
  obtain _ | ⟨hm3, hm4⟩ := hm2
  cases hm4
  rename_i s1
  have hb0 : ∀ t, t < N → BufHas ⟨init, init⟩ t (i0 t) [] := fun t ht => emptyAt_iff.1 (hb t ht)
  obtain ⟨a, r1, r2, r3⟩ := Sim.run hm (Sim.start hp ⟨hc, hi⟩ hb0)
  have hfr := hm.frame fun t _ => recorder_keeps t (calls t) []
  have hran : Ran s1 k [] := by
    refine ⟨?_, fun i m hm => by simp at hm⟩
    rw [(hfr .ran ⟨(by rintro (e | e) <;> cases e), fun t _ h => h⟩).2]
    exact hk
  obtain ⟨g1, g2, g3⟩ := flushCmds_spec r2 r3 hran
  have e : σ = ((flushCmds N).seq s1).2 := by
    have := hm3.frame fun t _ => trivial
    cases hm3 with
    | done _ => rfl
    | step t ht hw _ => cases hw
  rw [← e] at g1 g2 g3
  refine ⟨a, r1, ⟨by rw [(hv .ran nofun nofun).2]; exact g2.1, fun i m hm q => by rw [(hv (.ranPart q (k + i)) nofun nofun).2]; exact g2.2 i m hm q⟩,
    g1.on (fun l => (hv (.pool l) nofun nofun).1) (fun l => (hv (.pool l) nofun nofun).2), fun b hbN => ?_⟩
  have := emptyAt_iff.2 (g3 b hbN)
  exact ⟨by rw [(hv (.first b) nofun nofun).2]; exact this.1, by rw [(hv (.last b) nofun nofun).2]; exact this.2⟩

private theorem step_cases {a a1 : Recs} {t : Nat} (h : a.step t = some a1) : ∃ c cs, a.todo t = c :: cs ∧
    ((c.reserves = true ∧ ∃ p x, a.pool.reserve = some (p, x) ∧ a1 = a.did t p [pairOf x] cs (c.cmd (a.made t) (pairOf x))) ∨
     (c.reserves = false ∧ a1 = a.did t a.pool [] cs (c.cmd (a.made t) (0, 0)))) := by
  unfold Recs.step at h
  cases ht : a.todo t with
  | nil => rw [ht] at h; cases h
  | cons c cs =>
    rw [ht] at h
    simp only at h
    refine ⟨c, cs, rfl, ?_⟩
    cases hr : c.reserves with
    | false => rw [hr] at h; simp at h; exact .inr ⟨rfl, h.symm⟩
    | true =>
      rw [hr] at h
      simp only [if_true] at h
      cases hp : a.pool.reserve with
      | none => rw [hp] at h; cases h
      | some r =>
        rw [hp] at h
        obtain ⟨p, x⟩ := r
        simp only [Option.some.injEq] at h
        exact .inl ⟨rfl, p, x, rfl, h.symm⟩

/-- **C95**: whatever the order of the calls, every call records one command, in the order in which its worker makes the calls: command number `i` of a
worker is the one of its call number `i`, and what it does depends only on the entities the worker has got from its earlier calls. -/
theorem C95_own_order {N : Nat} {a a' : Recs} (h : RecRun N a a') : ∀ {t : Nat}, t < N →
    ∃ ms hs, a'.cmds t = a.cmds t ++ ms ∧ a'.made t = a.made t ++ hs ∧ ms.length = (a.todo t).length ∧
      ∀ i c m, (a.todo t)[i]? = some c → ms[i]? = some m →
        m = c.cmd (a.made t ++ hs.take ((a.todo t).take i |>.countP RCall.reserves)) (m.newId, m.newGen) ∧
        (c.reserves = true → hs[((a.todo t).take i).countP RCall.reserves]? = some (m.newId, m.newGen)) ∧
        (c.reserves = false → (m.newId, m.newGen) = (0, 0)) := by
  induction h with
  | done hd => exact fun {t} ht => ⟨[], [], by simp, by simp, by simp [hd t ht], fun i c m h => by simp [hd t ht] at h⟩
  | @step a a1 a' u hu hs _ ih =>
    intro t ht
    obtain ⟨ms, hs', h1, h2, h3, h4⟩ := ih ht
    obtain ⟨c, cs, htd, hc⟩ := step_cases hs
    by_cases e : t = u
    · subst e
      rcases hc with ⟨hr, p, x, hp, rfl⟩ | ⟨hr, rfl⟩
      · simp only [Recs.did, if_true] at h1 h2 h3 h4
        refine ⟨c.cmd (a.made t) (pairOf x) :: ms, pairOf x :: hs', by simp [h1], by simp [h2], by simp [htd, h3], fun i c' m hc' hm => ?_⟩
        rw [htd] at hc' ⊢
        cases i with
        | zero =>
          simp at hc' hm
          subst hc' hm
          simp [RCall.cmd, pairOf, hr]
        | succ i =>
          simp only [List.getElem?_cons_succ] at hc' hm
          have := h4 i c' m hc' hm
          simpa [List.take_succ_cons, hr] using this
      · simp only [Recs.did, if_true, List.append_nil] at h1 h2 h3 h4
        refine ⟨c.cmd (a.made t) (0, 0) :: ms, hs', by simp [h1], by simp [h2], by simp [htd, h3], fun i c' m hc' hm => ?_⟩
        rw [htd] at hc' ⊢
        cases i with
        | zero =>
          simp at hc' hm
          subst hc' hm
          simp [RCall.cmd, hr]
        | succ i =>
          simp only [List.getElem?_cons_succ] at hc' hm
          have := h4 i c' m hc' hm
          simpa [List.take_succ_cons, hr] using this
    · have hsame : a1.cmds t = a.cmds t ∧ a1.made t = a.made t ∧ a1.todo t = a.todo t := by
        rcases hc with ⟨hr, p, x, hp, rfl⟩ | ⟨hr, rfl⟩ <;> simp [Recs.did, e]
      rw [hsame.1] at h1
      rw [hsame.2.1] at h2 h4
      rw [hsame.2.2] at h3 h4
      exact ⟨ms, hs', h1, h2, h3, h4⟩

private theorem reservations_cons {calls : Nat → List RCall} {t : Nat} {c : RCall} {cs : List RCall} (h : calls t = c :: cs) : ∀ {N : Nat}, t < N →
    reservations N calls = reservations N (fun i => if i = t then cs else calls i) + c.reserves.toNat
  | 0, ht => by omega
  | N + 1, ht => by
    have hcongr : ∀ M, M ≤ t → reservations M (fun i => if i = t then cs else calls i) = reservations M calls := by
      intro M
      induction M with
      | zero => intro _; rfl
      | succ M ih => intro hM; simp only [reservations, if_neg (show M ≠ t by omega), ih (by omega)]
    by_cases e : t = N
    · subst e
      simp only [reservations, if_true, h, hcongr t (Nat.le_refl _)]
      cases hr : c.reserves <;> simp [hr]
      omega
    · simp only [reservations, if_neg (show N ≠ t by omega), reservations_cons h (show t < N by omega)]
      omega

private theorem reserve_steps {p q : Pool} {x : Handle} {p0 : Pool} {rets : List Handle} (h : p.reserve = some (q, x)) (hn : p.nextId + 1 < U32)
    (hs : ConcPool.Steps ⟨p0, [], []⟩ ⟨p, [], rets⟩) : ConcPool.Steps ⟨p0, [], []⟩ ⟨q, [], x :: rets⟩ ∧ q.nextId ≤ p.nextId + 1 := by
  unfold Pool.reserve at h
  simp only at h
  split at h
  · rename_i hc
    split at h
    · cases h
    · rename_i x' hx
      cases h
      exact ⟨hs.tail hn (.fromFree ⟨p, [], rets⟩ 0 x (by simp) hc hx), by simp [Pool.reserveSub]⟩
  · rename_i hc
    cases h
    have h1 := hs.tail hn (.subFresh ⟨p, [], rets⟩ 0 (by simp) hc)
    have h2 := h1.tail (by simpa [Pool.reserveSub] using hn) (.addFresh _ 0 (by simp))
    refine ⟨by simpa [Pool.reserveFresh] using h2, ?_⟩
    simp only [Pool.reserveFresh, Pool.bump, Pool.reserveSub]
    exact Nat.mod_le _ _

/-- **C95**: for a registry in any state in which nothing is reserved, and as long as ids do not wrap: whatever the order of the calls, no two of the
entities the workers have got have the same id, none has the id of an entity that was there before; and after the flush all
of them are alive, and so are the entities that were there before. -/
theorem C95_entities {N : Nat} {calls : Nat → List RCall} {p : Pool} {evs : List PoolEvent} (hist : SyncedHistory p evs) (hp : pending evs = 0)
    (hw : p.nextId + reservations N calls < U32) {a : Recs} (h : RecRun N ⟨p, fun _ => [], calls, fun _ => []⟩ a) :
    (∀ (t k t' k' : Nat) (x y : Int × Int), (a.made t)[k]? = some x → (a.made t')[k']? = some y → x.1 = y.1 → t = t' ∧ k = k') ∧
    (∀ t, ∀ x ∈ a.made t, ∃ e, x = pairOf e ∧ a.pool.flush.alive e = true ∧ ∀ e', IssuedLive evs e' → e'.id ≠ e.id) ∧
    (∀ e, IssuedLive evs e → a.pool.flush.alive e = true) := by
  have key : ∀ {a a' : Recs}, RecRun N a a' → ∀ rets, ConcPool.Steps ⟨p, [], []⟩ ⟨a.pool, [], rets⟩ → a.pool.nextId + reservations N a.todo < U32 →
      (∀ t, ∀ x ∈ a.made t, ∃ e ∈ rets, x = pairOf e) →
      (∀ (t k t' k' : Nat) (x y : Int × Int), (a.made t)[k]? = some x → (a.made t')[k']? = some y → x.1 = y.1 → t = t' ∧ k = k') →
      ∃ rets', ConcPool.Steps ⟨p, [], []⟩ ⟨a'.pool, [], rets'⟩ ∧ (∀ t, ∀ x ∈ a'.made t, ∃ e ∈ rets', x = pairOf e) ∧
        (∀ (t k t' k' : Nat) (x y : Int × Int), (a'.made t)[k]? = some x → (a'.made t')[k']? = some y → x.1 = y.1 → t = t' ∧ k = k') := by
    intro a a' hr
    induction hr with
    | done _ => exact fun rets h1 _ h3 h4 => ⟨rets, h1, h3, h4⟩
    | @step a a1 a' u hu hs _ ih =>
      intro rets h1 h2 h3 h4
      obtain ⟨c, cs, htd, hc⟩ := step_cases hs
      have hres := reservations_cons htd hu
      rcases hc with ⟨hr, q, x, hq, rfl⟩ | ⟨hr, rfl⟩
      · rw [hr] at hres
        simp only [Bool.toNat_true] at hres
        obtain ⟨k1, k2⟩ := reserve_steps hq (by omega) h1
        have hnd := (C04_concurrent_reserve hist hp k1).1
        simp only [List.map_cons, List.nodup_cons, List.mem_map, not_exists, not_and] at hnd
        have hnew : ∀ t y, y ∈ a.made t → y.1 ≠ (pairOf x).1 := by
          intro t y hy he
          obtain ⟨e, he1, rfl⟩ := h3 t y hy
          refine hnd.1 e he1 ?_
          simp only [pairOf] at he
          omega
        refine ih (x :: rets) k1 (by simp only [Recs.did]; omega) ?_ ?_
        · intro t y hy
          simp only [Recs.did] at hy
          by_cases e : t = u
          · subst e
            rw [if_pos rfl, List.mem_append, List.mem_singleton] at hy
            rcases hy with hy | rfl
            · obtain ⟨e, he, e'⟩ := h3 t y hy
              exact ⟨e, List.mem_cons_of_mem _ he, e'⟩
            · exact ⟨x, List.mem_cons_self .., rfl⟩
          · rw [if_neg e] at hy
            obtain ⟨e, he, e'⟩ := h3 t y hy
            exact ⟨e, List.mem_cons_of_mem _ he, e'⟩
        · have hget : ∀ t k y, ((a.did u q [pairOf x] cs (c.cmd (a.made u) (pairOf x))).made t)[k]? = some y →
              (a.made t)[k]? = some y ∨ (t = u ∧ k = (a.made u).length ∧ y = pairOf x) := by
            intro t k y hy
            simp only [Recs.did] at hy
            by_cases e : t = u
            · subst e
              rw [if_pos rfl, List.getElem?_append] at hy
              split at hy
              · exact .inl hy
              · rename_i hk
                have := (List.getElem?_eq_some_iff.1 hy).1
                simp at this
                have hk' : k = (a.made t).length := by omega
                subst hk'
                simp at hy
                exact .inr ⟨rfl, rfl, hy.symm⟩
            · rw [if_neg e] at hy
              exact .inl hy
          intro t k t' k' y y' hy hy' he
          rcases hget t k y hy with hy | ⟨rfl, rfl, rfl⟩ <;> rcases hget t' k' y' hy' with hy' | ⟨e1, e2, rfl⟩
          · exact h4 t k t' k' y y' hy hy' he
          · exact absurd he (hnew t y (List.mem_of_getElem? hy))
          · exact absurd he.symm (hnew t' y' (List.mem_of_getElem? hy'))
          · exact ⟨e1.symm, e2.symm⟩
      · rw [hr] at hres
        simp only [Bool.toNat_false] at hres
        have hmade : (a.did u a.pool [] cs (c.cmd (a.made u) (0, 0))).made = a.made := by
          funext i
          simp only [Recs.did, List.append_nil]
          by_cases e : i = u <;> simp [e]
        exact ih rets h1 (by simp only [Recs.did]; omega) (by rw [hmade]; exact h3) (by rw [hmade]; exact h4)
  obtain ⟨rets, h1, h2, h3⟩ := key h [] (.refl _) hw (fun t x hx => by simp at hx) (fun t k t' k' x y hx => by simp at hx)
  obtain ⟨c1, c2, c3⟩ := C04_concurrent_reserve hist hp h1
  refine ⟨h3, fun t x hx => ?_, (c3 rfl).2⟩
  obtain ⟨e, he, rfl⟩ := h2 t x hx
  exact ⟨e, rfl, (c3 rfl).1 e he, c2 e he⟩

/-! ### Examples -/

/-- `create` with a component, and `set` on the first entity that the caller has got. -/
def aCreate (v : Int) : RCall := ⟨true, fun _ => (v, 0, 0)⟩
def aSet (v : Int) : RCall := ⟨false, fun made => match made with | e :: _ => (v, e.1, e.2) | [] => (v, 0, 0)⟩

/-- Two workers: the first one creates an entity and sets a component of it, the second one creates an entity. -/
def recCalls : Nat → List RCall
  | 0 => [aCreate 7, aSet 8]
  | 1 => [aCreate 9]
  | _ => []

/-- The pool in memory, empty buffers. -/
def recInit (F G : List Nat) : CLoc → Int
  | .pool l => pooled 0 F G l
  | _ => 0

def recStart (ordL ordS : Order) (Rs : List (Round CLoc)) : St CLoc (Prog CLoc Unit) :=
  .init (recInit [0] [1, 0]) (roundThreads ordL ordS .go .dn 2 2 Rs)

/-- The hypotheses can be met. -/
example : PRep ⟨2, 1, [1, 0], [0]⟩ (Store.pull .pool ⟨recInit [0] [1, 0], recInit [0] [1, 0]⟩) := PRep.start 0 [0] [1, 0]
example : ∀ b, b < 2 → EmptyAt ⟨recInit [0] [1, 0], recInit [0] [1, 0]⟩ b 0 := fun _ _ => ⟨rfl, rfl⟩
example : SyncedHistory ⟨2, 1, [1, 0], [0]⟩ [.created ⟨0, 0⟩, .created ⟨1, 0⟩, .recycled ⟨0, 0⟩] :=
  .step (op := .recycle ⟨0, 0⟩) (.step (op := .create) (.step (op := .create) .init rfl (by decide) rfl) rfl (by decide) rfl)
    ⟨rfl, .inl (issuedLive_of [] [.created ⟨1, 0⟩] (.created ⟨0, 0⟩) rfl (.inl rfl) (by decide))⟩ (by decide) rfl

/-- The workers take turns at reserving; the second one finds no free id. -/
def recRun : List (Nat × Nat) :=
  [(0, 0), (0, 0), (1, 1), (2, 1), (1, 0), (2, 1), (2, 0), (1, 0), (2, 0), (2, 0)] ++ List.replicate 18 (1, 0) ++ [(1, 1)] ++ List.replicate 5 (2, 0) ++ [(2, 1), (0, 2), (0, 2)] ++ List.replicate 54 (0, 0) ++ [(0, 2), (1, 2), (1, 2), (2, 2), (2, 3), (0, 4), (0, 0)]

/-- Three commands have been executed: the first worker has got the free id 0 with generation 1, the second one the new id 2. -/
example (strong : Bool) : ∃ s, Reach (Prog.auto CLoc) strong (recStart .acq .rel (recordRounds 2 recCalls)) s ∧ s.mem.vals.atom .go = 3 ∧
    Ran s.mem.vals 0 [⟨7, 0, 0, 0, 1⟩, ⟨8, 0, 1, 0, 0⟩, ⟨9, 0, 0, 2, 0⟩] ∧ s.mem.vals.cell (.pool gens) = 3 ∧ s.mem.vals.cell (.pool frees) = 0 := by
  have h : (match (recStart .acq .rel (recordRounds 2 recCalls)).run (Prog.auto CLoc) strong recRun with
      | .ok s => decide (s.mem.vals.atom .go = 3) && (decide (s.mem.vals.cell .ran = 3) && (decide (s.mem.vals.cell (.pool gens) = 3) &&
          (decide (s.mem.vals.cell (.pool frees) = 0) &&
          decide ((List.range 3).map (fun k => [Part.what, .id, .gen, .newId, .newGen].map fun q => s.mem.vals.cell (.ranPart q k)) =
            [[7, 0, 0, 0, 1], [8, 0, 1, 0, 0], [9, 0, 0, 2, 0]]))))
      | _ => false) = true := by cases strong <;> decide +kernel
  split at h
  · rename_i s hs
    simp only [Bool.and_eq_true, decide_eq_true_eq] at h
    obtain ⟨h1, h2, h3, h4, h5⟩ := h
    simp only [List.range, List.range.loop, List.map, List.cons.injEq, and_true] at h5
    refine ⟨s, Reach.run .init hs, h1, ⟨h2, fun i m hm q => ?_⟩, h3, h4⟩
    match i with
    | 0 => simp at hm; subst hm; cases q <;> simp [MCmd.get, h5]
    | 1 => simp at hm; subst hm; cases q <;> simp [MCmd.get, h5]
    | 2 => simp at hm; subst hm; cases q <;> simp [MCmd.get, h5]
    | i + 3 => simp at hm
  · cases h

/-- The hypotheses are needed: the same calls race if the threads do not acquire, or do not release, -/
theorem C95_needs_both (strong : Bool) :
    (∃ sched, (recStart .rlx .rel (recordRounds 2 recCalls)).run (Prog.auto CLoc) strong sched = .race) ∧
    ∃ sched, (recStart .acq .rlx (recordRounds 2 recCalls)).run (Prog.auto CLoc) strong sched = .race := by
  constructor <;> (refine ⟨recRun.take 40, isRace_iff.1 ?_⟩; cases strong <;> decide +kernel)

/-- **C95 is violated** where two workers use the writer of one buffer, as they do when a system hands its `command_writer` to the function of
`par_each` (view.hpp:132-149): a writer keeps a reference to the buffer of the thread that constructed it (command.hpp:239, 269), `push`
(lines 49-52) is not synchronised, and there is a data race. -/
theorem C95_one_writer_violated (strong : Bool) : ∃ sched,
    (recStart .acq .rel [⟨.ret (), fun t => recorder 0 [] (recCalls t)⟩, ⟨flushCmds 2, fun _ => .ret ()⟩]).run (Prog.auto CLoc) strong sched = .race := by
  refine ⟨[(0, 0), (0, 0), (1, 1)] ++ List.replicate 11 (1, 0) ++ [(2, 1), (2, 1), (2, 0), (2, 0), (2, 0)], isRace_iff.1 ?_⟩
  cases strong <;> decide +kernel

end CoEcs.Props
