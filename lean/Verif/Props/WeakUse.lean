import Verif.Proofs.WeakUse
import Verif.Props.WeakPool

/-!
# C86: objects used by one thread at a time
-/

namespace CoEcs.Props
open CoEcs.Weak

/-- **C86**, for every kind of memory and all programs: threads that take turns, and pass the turn on with a release store that the next
one reads with an acquire load, never race, whatever memory orders the programs themselves ask for; and when all have had their turn
every object has the value it gets when the programs run one after the other in plain memory. -/
theorem C86_turns {L : Type} [DecidableEq L] {turn : L} {ps : List (Prog L Unit)} (hp : ∀ p ∈ ps, p.Avoids turn) {init : L → Int}
    (h0 : init turn = 0) {f : Nat} {strong : Bool} {s : St L (Prog L Unit)}
    (h : Reach (Prog.auto L) strong (.init init (turnThreads .acq .rel turn f ps)) s) :
    (∀ t c, s.step (Prog.auto L) strong t c ≠ .race) ∧
    (s.mem.vals.atom turn = (ps.length : Int) →
      s.mem.vals = seqAll (ps.mapIdx fun t p => handing .rel turn t p) ⟨init, init⟩) := by
  obtain ⟨k, hk⟩ := turns_reach hp h0 h
  refine ⟨fun t c => (hk.step hp strong t c).1, fun hN => ?_⟩
  have hkv : s.mem.vals.atom turn = (k : Int) := by
    have hl : (s.mem.msgs turn).getLast? = (s.mem.msgs turn)[k]? := by
      rw [List.getLast?_eq_getElem?, hk.len]; simp
    cases hx : (s.mem.msgs turn)[k]? with
    | none =>
      have := List.getElem?_eq_none_iff.1 hx
      have := hk.len
      omega
    | some x =>
      simp only [Mem.vals, hl, hx]
      exact hk.val k x hx
  have hkl : k = ps.length := by omega
  subst hkl
  rcases hk.now with ⟨_, hv, _⟩ | ⟨hlt, _⟩
  · rw [hv]
    congr 1
    rw [List.mapIdx_eq_zipIdx_map, List.take_length]
  · omega

/-- **C86**, for a pool of handles: any number of threads take turns and make any calls.  There is no data race, and when all had their turn
the answers they got and the pool are those of the same calls made by one thread, so that everything proved about the pool without
threads holds. -/
theorem C86_handles {F G : List Nat} {css : List (List PCall)} {p' : Pool} {ass : List (List (Int × Int))}
    (hc : (⟨G.length, F.length, G, F⟩ : Pool).callsAll css = some (p', ass)) {f : Nat} {strong : Bool} {s : St Loc (Prog Loc Unit)}
    (h : Reach (Prog.auto Loc) strong (useStart .acq .rel f css F G) s) :
    (∀ t c, s.step (Prog.auto Loc) strong t c ≠ .race) ∧
    (lastOf s.mem turn = some (css.length : Int) →
      (∀ (t k : Nat) as a, ass[t]? = some as → as[k]? = some a → noted s.mem t k = a) ∧
      lastOf s.mem nextId = some (p'.nextId : Int) ∧ lastOf s.mem cursor = some p'.cursor ∧
      s.mem.cell gens = (p'.gens.length : Int) ∧ (∀ i g : Nat, p'.gens[i]? = some g → s.mem.cell (gen i) = (g : Int)) ∧
      s.mem.cell frees = (p'.free.length : Int) ∧ ∀ k i : Nat, p'.free[k]? = some i → s.mem.cell (freeId k) = (i : Int)) := by
  have hp : ∀ p ∈ css.mapIdx fun t cs => using_ t 0 cs, p.Avoids turn := by
    intro p hp
    obtain ⟨i, hi, rfl⟩ := List.mem_mapIdx.1 hp
    exact using_avoids _ _ _
  have h1 := C86_turns hp (init := pooled 2 F G) rfl h
  refine ⟨h1.1, fun hN => ?_⟩
  obtain ⟨k, hk⟩ := turns_reach hp (init := pooled 2 F G) rfl h
  have hlast : ∀ l v, s.mem.vals.atom l = v → lastOf s.mem l = some v := by
    intro l v e
    simp only [Mem.vals] at e
    cases hx : (s.mem.msgs l).getLast? with
    | none => exact absurd (List.getLast?_eq_none_iff.1 hx) (hk.full l)
    | some x =>
      rw [hx] at e
      simp only [lastOf, hx, Option.map_some]
      rw [← e]
  have hv := h1.2 (by
    simp only [List.length_mapIdx]
    simp only [lastOf] at hN
    cases hx : (s.mem.msgs turn).getLast? with
    | none => rw [hx] at hN; cases hN
    | some x =>
      rw [hx] at hN
      simp only [Mem.vals, hx]
      simpa using hN)
  obtain ⟨r, hn, -⟩ := PRep.callsAll css 0 (PRep.start 2 F G) hc
  have e : (css.mapIdx fun t cs => using_ t 0 cs).mapIdx (fun t p => handing .rel turn t p) =
      css.mapIdx fun i cs => handing .rel turn (i + 0) (using_ (i + 0) 0 cs) := by
    simp [List.mapIdx_mapIdx, Function.comp_def]
  rw [e] at hv
  rw [← hv] at r hn
  refine ⟨fun t k as a ht ha => ?_, hlast _ _ r.next, hlast _ _ r.cursor, r.gens, r.gen, r.frees, r.free⟩
  have := hn t as ht k a ha
  simp only [Nat.zero_add, Nat.add_zero] at this
  exact Prod.ext this.1 this.2

/-- Two threads: the first creates, recycles and reserves; the second flushes, creates, and asks for both handles. -/
def turnCalls : List (List PCall) :=
  [[.create, .recycle ⟨0, 7⟩, .reserve], [.flush, .create, .alive ⟨0, 8⟩, .alive ⟨0, 7⟩]]

/-- With a free id. -/
example : (⟨2, 1, [7, 3], [1]⟩ : Pool).callsAll turnCalls =
    some (⟨3, 0, [8, 3, 0], []⟩, [[(1, 3), (0, 0), (0, 8)], [(0, 0), (2, 0), (1, 0), (0, 0)]]) := by decide

/-- All steps of thread 0, then steps of thread 1. -/
def turnSched (n : Nat) : List (Nat × Nat) :=
  List.replicate 17 (0, 0) ++ [(0, 1), (0, 0), (0, 0), (0, 2)] ++ List.replicate 7 (0, 0) ++ [(1, 1), (1, 3)] ++ List.replicate n (1, 0)

example (strong : Bool) : ∃ s, Reach (Prog.auto Loc) strong (useStart .acq .rel 2 turnCalls [1] [7, 3]) s ∧ lastOf s.mem turn = some 2 ∧
    noted s.mem 0 2 = (0, 8) ∧ noted s.mem 1 1 = (2, 0) ∧ noted s.mem 1 2 = (1, 0) := by
  have h : (match (useStart .acq .rel 2 turnCalls [1] [7, 3]).run (Prog.auto Loc) strong (turnSched 22) with
      | .ok s => decide (lastOf s.mem turn = some 2) && (decide (noted s.mem 0 2 = (0, 8)) && decide (noted s.mem 1 1 = (2, 0)) &&
          decide (noted s.mem 1 2 = (1, 0)))
      | _ => false) = true := by cases strong <;> decide +kernel
  split at h
  · rename_i s hs
    simp only [Bool.and_eq_true, decide_eq_true_eq] at h
    exact ⟨s, Reach.run .init hs, h.1, h.2.1.1, h.2.1.2, h.2.2⟩
  · cases h

/-- The hypotheses are needed: with a relaxed load, or with a relaxed store, the same threads race. -/
theorem C86_needs_both (strong : Bool) :
    (∃ sched, (useStart .rlx .rel 2 turnCalls [1] [7, 3]).run (Prog.auto Loc) strong sched = .race) ∧
    ∃ sched, (useStart .acq .rlx 2 turnCalls [1] [7, 3]).run (Prog.auto Loc) strong sched = .race := by
  constructor <;> (refine ⟨turnSched 1, isRace_iff.1 ?_⟩; cases strong <;> decide +kernel)

end CoEcs.Props
