import Verif.Proofs.WeakDeque
import Verif.Props.WeakUse

/-!
# C90: queues used by one thread at a time
-/

namespace CoEcs.Props
open CoEcs.Weak

/-- **C90**: any number of threads take turns and make any calls on the queues of any workers.  There is no data race, also when arrays grow; and
when all had their turn, the answers they got are those of double-ended queues, and the queues hold what is left. -/
theorem C90_queues (e : Nat) {css : List (List QCall)} {f : Nat} {strong : Bool} {s : St Loc (Prog Loc Unit)}
    (h : Reach (Prog.auto Loc) strong (queueStart (2 ^ e) .acq .rel f css) s) :
    (∀ t c, s.step (Prog.auto Loc) strong t c ≠ .race) ∧
    (lastOf s.mem turn = some (css.length : Int) →
      (∀ (t k : Nat) as a, (QCall.refsAll (fun _ => []) css).2[t]? = some as → as[k]? = some a → noted s.mem t k = a) ∧
      ∀ w, ∃ (a : Int) (e' T : Nat), DequeAt s.mem.vals w a e' T ((QCall.refsAll (fun _ => []) css).1 w)) := by
  have hp : ∀ p ∈ queueProgs css, p.Avoids turn := by
    intro p hp
    obtain ⟨i, hi, rfl⟩ := List.mem_mapIdx.1 hp
    exact queueing_avoids _ _ _ _
  have h1 := C86_turns hp (init := initial ((2 ^ e : Nat) : Int)) rfl h
  refine ⟨h1.1, fun hN => ?_⟩
  have hv := h1.2 (by
    simp only [queueProgs, List.length_mapIdx]
    simp only [lastOf] at hN
    cases hx : (s.mem.msgs turn).getLast? with
    | none => rw [hx] at hN; cases hN
    | some x =>
      rw [hx] at hN
      simp only [Mem.vals, hx]
      simpa using hN)
  obtain ⟨⟨n', r⟩, hn, -⟩ := QRep.callsAll css 0 (QRep.start e)
  have he : (queueProgs css).mapIdx (fun t p => handing .rel turn t p) = queueProgsFrom 0 0 css := by
    rw [queueProgsFrom_eq]
    simp [queueProgs, List.mapIdx_mapIdx, Function.comp_def]
  rw [he] at hv
  rw [← hv] at r hn
  refine ⟨fun t k as a ht ha => ?_, fun w => ?_⟩
  · have := hn t as ht k a ha
    simp only [Nat.zero_add] at this
    exact Prod.ext this.1 this.2
  · obtain ⟨e', T, h2⟩ := r.one w
    exact ⟨_, e', T, h2⟩

/-- **C90** (answers): the numbers noted tell every answer from every other, an empty queue from an item 0 included. -/
theorem C90_answers_distinct {a b : Option Int} : optPair a = optPair b ↔ a = b := by
  cases a <;> cases b <;> simp [optPair]

example : optPair (some 0) ≠ optPair none := by decide

/-- Two threads: the first pushes three items to a queue of capacity two, which grows; the second steals one and pops the others. -/
def growCalls : List (List QCall) := [[.push 0 5, .push 0 6, .push 0 7], [.steal 0, .pop 0, .pop 0, .pop 0]]

example : (QCall.refsAll (fun _ => []) growCalls).2 = [[(0, 0), (0, 0), (0, 0)], [(1, 5), (1, 7), (1, 6), (0, 0)]] := by decide

/-- All steps of thread 0, then all of thread 1. -/
def growSched : List (Nat × Nat) :=
  [(0, 0), (0, 0), (0, 0), (0, 0), (0, 0), (0, 0), (0, 0), (0, 0), (0, 0), (0, 0), (0, 0), (0, 0), (0, 1), (0, 0), (0, 0), (0, 0), (0, 0),
   (0, 0), (0, 0), (0, 0), (0, 0), (0, 0), (0, 0), (0, 2), (0, 0), (0, 0), (0, 0), (0, 0), (0, 0), (0, 0), (0, 0), (0, 0), (0, 0), (0, 1),
   (0, 0), (0, 0), (0, 0), (0, 0), (0, 0), (0, 1), (0, 0), (0, 0), (0, 0), (0, 0), (0, 0), (0, 0), (0, 0), (0, 0), (0, 0), (0, 0), (0, 0),
   (0, 0), (1, 1), (1, 0), (1, 0), (1, 3), (1, 1), (1, 0), (1, 0), (1, 1), (1, 0), (1, 0), (1, 0), (1, 3), (1, 1), (1, 0), (1, 0), (1, 1),
   (1, 0), (1, 0), (1, 1), (1, 0), (1, 0), (1, 4), (1, 1), (1, 0), (1, 0), (1, 1), (1, 0), (1, 0), (1, 1), (1, 1), (1, 0), (1, 0), (1, 0),
   (1, 6), (1, 1), (1, 0), (1, 0), (1, 2), (1, 0), (1, 0), (1, 0), (1, 0)]

example (strong : Bool) : ∃ s, Reach (Prog.auto Loc) strong (queueStart (2 ^ 1) .acq .rel 1 growCalls) s ∧ lastOf s.mem turn = some 2 ∧
    noted s.mem 1 0 = (1, 5) ∧ noted s.mem 1 1 = (1, 7) ∧ noted s.mem 1 3 = (0, 0) := by
  have h : (match (queueStart (2 ^ 1) .acq .rel 1 growCalls).run (Prog.auto Loc) strong growSched with
      | .ok s => decide (lastOf s.mem turn = some 2) && (decide (noted s.mem 1 0 = (1, 5)) && decide (noted s.mem 1 1 = (1, 7)) &&
          decide (noted s.mem 1 3 = (0, 0)))
      | _ => false) = true := by cases strong <;> decide +kernel
  split at h
  · rename_i s hs
    simp only [Bool.and_eq_true, decide_eq_true_eq] at h
    exact ⟨s, Reach.run .init hs, h.1, h.2.1.1, h.2.1.2, h.2.2⟩
  · cases h

end CoEcs.Props
