import Verif.Props.ViewRange

/-!
# C112: what a kept range shows in any later state
-/

namespace CoEcs.Props
open CoEcs Spec

variable {V : Type} {ty : Types} {s : Sys V} {W : Spec.World V}

/-- The pointer in bucket `q` of the map of archetypes is to archetype `a` with number `ai`. -/
def InBucket (r : Reg V) (q ai : Nat) (a : Arch V) : Prop :=
  ∃ e, r.archs.map.slot? q = some (some e) ∧ e.val = some ai ∧ r.archs.arches[ai]? = some a

theorem InBucket.archIn {r : Reg V} {q ai : Nat} {a : Arch V} {e : HEntry Bitset (Option Nat)} (he : e.val = some ai)
    (ha : r.archs.arches[ai]? = some a) : r.archIn e = some (ai, a) := by
  unfold Reg.archIn
  simp only [he, ha]

theorem archIn_some {r : Reg V} {e : HEntry Bitset (Option Nat)} {ai : Nat} {a : Arch V} (h : r.archIn e = some (ai, a)) :
    e.val = some ai ∧ r.archs.arches[ai]? = some a := by
  unfold Reg.archIn at h
  split at h
  · cases h
  · rename_i x hx
    split at h
    · cases h
    · rename_i b hb
      cases h
      exact ⟨hx, hb⟩

/-- The search over `k + j` buckets is the search over the first `k` and then over the others. -/
theorem chunksBehind_split {r : Reg V} {args : List BlockId} (j : Nat) : ∀ {k p : Nat} {cs : List (List Loc)},
    r.chunksBehind args (k + j) p = some cs →
    ∃ xs ys, r.chunksBehind args k p = some xs ∧ r.chunksBehind args j (p + k) = some ys ∧ cs = xs ++ ys
  | 0, p, cs, h => ⟨[], cs, rfl, by simpa using h, rfl⟩
  | k + 1, p, cs, h => by
    rw [show k + 1 + j = (k + j) + 1 by omega] at h
    unfold Reg.chunksBehind at h
    split at h
    · cases h
    · rename_i hs
      obtain ⟨xs, ys, h1, h2, h3⟩ := chunksBehind_split j h
      exact ⟨xs, ys, by unfold Reg.chunksBehind; simp only [hs]; exact h1, by rw [show p + (k + 1) = p + 1 + k by omega]; exact h2, h3⟩
    · rename_i e hs
      split at h
      · cases h
      · rename_i ai a ha
        split at h
        · cases h
        · rename_i rest hr
          obtain ⟨xs, ys, h1, h2, h3⟩ := chunksBehind_split j hr
          cases h
          refine ⟨if args.all (Reg.matchArg a) then Reg.chunkLocs ai a ++ xs else xs, ys, ?_, ?_, ?_⟩
          · unfold Reg.chunksBehind; simp only [hs, ha, h1]
          · rw [show p + (k + 1) = p + 1 + k by omega]; exact h2
          · rw [h3]
            split <;> simp

/-- The entries found are of archetypes that match in these buckets. -/
theorem chunksBehind_from {r : Reg V} {args : List BlockId} : ∀ {k p : Nat} {cs : List (List Loc)}, r.chunksBehind args k p = some cs →
    ∀ ch ∈ cs, ∃ q ai a, p ≤ q ∧ q < p + k ∧ InBucket r q ai a ∧ args.all (Reg.matchArg a) = true ∧ ch ∈ Reg.chunkLocs ai a
  | 0, p, cs, h => by cases h; simp
  | k + 1, p, cs, h => by
    unfold Reg.chunksBehind at h
    split at h
    · cases h
    · intro ch hc
      obtain ⟨q, ai, a, h1, h2, h3⟩ := chunksBehind_from h ch hc
      exact ⟨q, ai, a, by omega, by omega, h3⟩
    · rename_i e hs
      split at h
      · cases h
      · rename_i ai a ha
        split at h
        · cases h
        · rename_i rest hr
          cases h
          intro ch hc
          have hrest : ch ∈ rest → ∃ q ai a, p ≤ q ∧ q < p + (k + 1) ∧ InBucket r q ai a ∧ args.all (Reg.matchArg a) = true ∧ ch ∈ Reg.chunkLocs ai a := by
            intro hc
            obtain ⟨q, ai, a, h1, h2, h3⟩ := chunksBehind_from hr ch hc
            exact ⟨q, ai, a, by omega, by omega, h3⟩
          split at hc
          · rename_i hm
            rcases List.mem_append.1 hc with hc | hc
            · exact ⟨p, ai, a, by omega, by omega, ⟨e, hs, archIn_some ha⟩, hm, hc⟩
            · exact hrest hc
          · exact hrest hc

/-- **C112**, exactly: what a loop over a range does that keeps bucket `p` of the map, in any reachable state in which the map has not
been replaced and the view is defined.  The view shows the entries `missed` of matching archetypes in buckets before `p`, then the
entries `rest` of those from there on; the loop shows `rest` only, provided the archetype now in bucket `p` matches.  It is undefined if the
bucket is empty, ends the program if the archetype does not match, and shows nothing if `p` is the end. -/
theorem C112_exact (hr : Reachable ty s W) (i : Nat) {args : List BlockId} {p : Nat} (hp : p ≤ (s.reg i).archs.map.n)
    {all : List (List Loc)} (hv : (s.reg i).viewChunks args = some all) (muts : List Nat) (f : List (Val V) → Nat → V) :
    ∃ missed rest, all = missed ++ rest ∧
      (∀ ch ∈ missed, ∃ q ai a, q < p ∧ InBucket (s.reg i) q ai a ∧ args.all (Reg.matchArg a) = true ∧ ch ∈ Reg.chunkLocs ai a) ∧
      (∀ ch ∈ rest, ∃ q ai a, p ≤ q ∧ InBucket (s.reg i) q ai a ∧ args.all (Reg.matchArg a) = true ∧ ch ∈ Reg.chunkLocs ai a) ∧
      ((p = (s.reg i).archs.map.n ∧ (⟨args, some ⟨(s.reg i).archs.map.n, p⟩⟩ : ViewRange).each (s.reg i) muts f = .done (s.reg i) []) ∨
       ((s.reg i).archs.map.slot? p = some none ∧
         (⟨args, some ⟨(s.reg i).archs.map.n, p⟩⟩ : ViewRange).each (s.reg i) muts f = .ub) ∨
       ∃ ai a, InBucket (s.reg i) p ai a ∧ (⟨args, some ⟨(s.reg i).archs.map.n, p⟩⟩ : ViewRange).each (s.reg i) muts f =
         if args.all (Reg.matchArg a) then shown (Reg.eachLocs args muts f (s.reg i) rest.flatten) else .terminated) := by
  have R := (hr.inv i).rep
  generalize s.reg i = r at *
  rw [viewChunks_behind R.map_n, show r.archs.map.n = p + (r.archs.map.n - p) by omega] at hv
  obtain ⟨missed, rest, h1, h2, h3⟩ := chunksBehind_split _ hv
  rw [Nat.zero_add] at h2
  refine ⟨missed, rest, h3, ?_, ?_, ?_⟩
  · intro ch hc
    obtain ⟨q, ai, a, e1, e2, e3⟩ := chunksBehind_from h1 ch hc
    exact ⟨q, ai, a, by omega, e3⟩
  · intro ch hc
    obtain ⟨q, ai, a, e1, e2, e3⟩ := chunksBehind_from h2 ch hc
    exact ⟨q, ai, a, e1, e3⟩
  by_cases hpn : p = r.archs.map.n
  · left
    refine ⟨hpn, ?_⟩
    have hf : r.fetchFails args p = false := by
      unfold Reg.fetchFails HTable.slot?
      rw [if_neg (by omega)]
    unfold ViewRange.each ViewRange.iterate ViewRange.begin_
    simp only [if_true, hf, show r.archs.map.n - p = 0 by omega, Reg.chunksAt]
    rfl
  · right
    obtain ⟨k, hk⟩ : ∃ k, r.archs.map.n - p = k + 1 := ⟨r.archs.map.n - p - 1, by omega⟩
    rw [hk] at h2
    unfold Reg.chunksBehind at h2
    split at h2
    · cases h2
    · rename_i hs
      left
      refine ⟨hs, ?_⟩
      have hf : r.fetchFails args p = false := by
        unfold Reg.fetchFails
        simp only [hs]
      unfold ViewRange.each ViewRange.iterate ViewRange.begin_
      simp only [if_true, hf, hk, Reg.chunksAt, hs]
      rfl
    · rename_i e hs
      split at h2
      · cases h2
      · rename_i ai a ha
        right
        refine ⟨ai, a, ⟨e, hs, archIn_some ha⟩, ?_⟩
        have hok : a.Ok := by
          obtain ⟨m, hm⟩ := R.archs
          exact hm.ok _ _ (archIn_some ha).2
        have hmb : (args.all fun b => decide (b ∈ a.blocks)) = args.all (Reg.matchArg a) := by
          congr 1
          funext b
          cases b with
          | none => simp [Arch.none_mem_blocks, Reg.matchArg]
          | some c =>
            rw [Bool.eq_iff_iff, decide_eq_true_eq]
            exact (hok.toShape.contains c).symm
        have hne : a.chunks.isEmpty = false := by
          cases hc : a.chunks with
          | nil => exact absurd hc hok.ne
          | cons _ _ => rfl
        have hf : r.fetchFails args p = !args.all (Reg.matchArg a) := by
          unfold Reg.fetchFails
          simp only [hs, ha, hne, hmb, Bool.not_false, Bool.true_and]
        unfold ViewRange.each ViewRange.iterate ViewRange.begin_
        simp only [if_true, hf, hk, Reg.chunksAt, hs, ha]
        split at h2
        · cases h2
        · rename_i rest' hr'
          simp only [hr']
          cases hm : args.all (Reg.matchArg a) with
          | false => rfl
          | true =>
            rw [hm] at h2
            simp only [if_true] at h2
            cases h2
            simp only [Bool.not_true, if_true]
            cases Reg.eachLocs args muts f r (Reg.chunkLocs ai a ++ rest').flatten <;> rfl

/-- **C112**, the chunks of a range that keeps bucket `p`: those of the archetype now in the bucket come first, whether or not it matches,
then those of archetypes that match in later buckets.  (A loop over the chunks themselves does not fetch blocks, so that it does not end
the program as `each` does in `C112_exact`.) -/
theorem C112_chunks_violated (hr : Reachable ty s W) (i : Nat) {args : List BlockId} {p ai : Nat} {a : Arch V} (hb : InBucket (s.reg i) p ai a)
    {all : List (List Loc)} (hv : (s.reg i).viewChunks args = some all) :
    ∃ rest, (⟨args, some ⟨(s.reg i).archs.map.n, p⟩⟩ : ViewRange).iterate (s.reg i) =
        some (⟨args, some ⟨(s.reg i).archs.map.n, p⟩⟩, Reg.chunkLocs ai a ++ rest) ∧
      ∀ ch ∈ rest, ∃ q aj b, p < q ∧ InBucket (s.reg i) q aj b ∧ args.all (Reg.matchArg b) = true ∧ ch ∈ Reg.chunkLocs aj b := by
  have R := (hr.inv i).rep
  generalize s.reg i = r at *
  obtain ⟨e, hs, he, ha⟩ := hb
  have hp : p < r.archs.map.n := by
    apply Classical.byContradiction
    intro h
    unfold HTable.slot? at hs
    rw [if_neg h] at hs
    cases hs
  obtain ⟨k, hk⟩ : ∃ k, r.archs.map.n - p = k + 1 := ⟨r.archs.map.n - p - 1, by omega⟩
  rw [viewChunks_behind R.map_n, show r.archs.map.n = (p + 1) + k by omega] at hv
  obtain ⟨_, rest, _, h2, _⟩ := chunksBehind_split _ hv
  rw [Nat.zero_add] at h2
  refine ⟨rest, ?_, ?_⟩
  · have hi : r.archIn e = some (ai, a) := InBucket.archIn (q := p) he ha
    unfold ViewRange.iterate ViewRange.begin_
    simp only [if_true, hk, Reg.chunksAt, hs, hi, h2]
  · intro ch hc
    obtain ⟨q, aj, b, e1, _, e3⟩ := chunksBehind_from h2 ch hc
    exact ⟨q, aj, b, by omega, e3⟩

/-- **C112**, a sufficient condition without regard to what happened in between: the archetype in the kept bucket matches, and no entity
is in an archetype that matches in an earlier one. -/
theorem C112_whole_partial (hr : Reachable ty s W) (i : Nat) {args : List BlockId} {p ai : Nat} {a : Arch V}
    (hb : InBucket (s.reg i) p ai a) (hm : args.all (Reg.matchArg a) = true)
    (he : ∀ q aj b, q < p → InBucket (s.reg i) q aj b → args.all (Reg.matchArg b) = true → ∀ c ∈ b.chunks, c.size = 0)
    {all : List (List Loc)} (hv : (s.reg i).viewChunks args = some all) (muts : List Nat) (f : List (Val V) → Nat → V) :
    (⟨args, some ⟨(s.reg i).archs.map.n, p⟩⟩ : ViewRange).each (s.reg i) muts f = shown ((s.reg i).each args muts f) := by
  obtain ⟨e, hs, h1, h2⟩ := hb
  have hp : p < (s.reg i).archs.map.n := by
    unfold HTable.slot? at hs
    split at hs
    · assumption
    · cases hs
  obtain ⟨missed, rest, h3, h4, _, h5⟩ := C112_exact hr i (Nat.le_of_lt hp) hv muts f
  have hmissed : missed.flatten = [] := by
    rw [List.flatten_eq_nil_iff]
    intro ch hc
    obtain ⟨q, aj, b, e1, e2, e3, e4⟩ := h4 ch hc
    unfold Reg.chunkLocs at e4
    obtain ⟨ci, hci, rfl⟩ := List.mem_mapIdx.1 e4
    rw [he q aj b e1 e2 e3 _ (List.getElem_mem hci)]
    rfl
  rcases h5 with ⟨h5, _⟩ | ⟨h5, _⟩ | ⟨aj, b, ⟨e', h6, h7, h8⟩, h5⟩
  · omega
  · rw [hs] at h5; cases h5
  · rw [hs] at h6
    cases h6
    rw [h1] at h7
    cases h7
    rw [h2] at h8
    cases h8
    rw [h5, if_pos hm]
    unfold Reg.each
    rw [hv]
    simp only [h3, List.flatten_append, hmissed, List.nil_append]

/-- The condition of `C112_whole_partial`, as a test. -/
def wholeAt (r : Reg V) (args : List BlockId) (p : Nat) : Bool :=
  (match r.archs.map.slot? p with
    | some (some e) => (match r.archIn e with | some (_, a) => args.all (Reg.matchArg a) | none => false)
    | _ => false) &&
  (List.range p).all fun q =>
    match r.archs.map.slot? q with
    | some (some e) =>
      (match r.archIn e with | some (_, b) => !args.all (Reg.matchArg b) || b.chunks.all fun c => c.size == 0 | none => true)
    | _ => true

theorem wholeAt_sound {r : Reg V} {args : List BlockId} {p : Nat} (h : wholeAt r args p = true) :
    (∃ ai a, InBucket r p ai a ∧ args.all (Reg.matchArg a) = true) ∧
    ∀ q aj b, q < p → InBucket r q aj b → args.all (Reg.matchArg b) = true → ∀ c ∈ b.chunks, c.size = 0 := by
  unfold wholeAt at h
  rw [Bool.and_eq_true] at h
  obtain ⟨h1, h2⟩ := h
  constructor
  · split at h1
    · rename_i e hs
      split at h1
      · rename_i ai a ha
        exact ⟨ai, a, ⟨e, hs, archIn_some ha⟩, h1⟩
      · cases h1
    · cases h1
  · rintro q aj b hq ⟨e, hs, hv, hb⟩ hm c hc
    have := List.all_eq_true.1 h2 q (List.mem_range.2 hq)
    have ha : r.archIn e = some (aj, b) := by
      unfold Reg.archIn
      simp only [hv, hb]
    simp only [hs, ha, hm, Bool.not_true, Bool.false_or, List.all_eq_true, beq_iff_eq] at this
    exact this c hc

/-- Entities with component 0, then one without it; the first of them is moved away, so that the archetype it leaves is empty. -/
def leftEmpty : List (SysOp Nat) :=
  [.on 0 (.create [(0, 10)]), .on 0 (.create [(1, 12)]), .on 0 (.set ⟨0, 0⟩ 1 7), .on 0 (.create [(0, 1), (2, 3)])]

theorem leftEmpty_isSome : (exec smallTy leftEmpty).isSome = true := by decide +kernel

/-- There is a bucket as in `C112_whole_partial` in this state, behind another one that matches. -/
example : ∃ p, (∃ q aj b, q < p ∧ InBucket (((exec smallTy leftEmpty).get leftEmpty_isSome).1.reg 0) q aj b ∧ Reg.matchArg b (some 0) = true) ∧
    (⟨[none, some 0], some ⟨(((exec smallTy leftEmpty).get leftEmpty_isSome).1.reg 0).archs.map.n, p⟩⟩ : ViewRange).each
        (((exec smallTy leftEmpty).get leftEmpty_isSome).1.reg 0) [] (fun _ _ => 0) =
      shown ((((exec smallTy leftEmpty).get leftEmpty_isSome).1.reg 0).each [none, some 0] [] fun _ _ => 0) := by
  have h : ((List.range 16).any fun p => wholeAt (((exec smallTy leftEmpty).get leftEmpty_isSome).1.reg 0) [none, some 0] p &&
      (List.range p).any fun q => wholeAt (((exec smallTy leftEmpty).get leftEmpty_isSome).1.reg 0) [none, some 0] q) = true := by decide +kernel
  have hv : ((((exec smallTy leftEmpty).get leftEmpty_isSome).1.reg 0).viewChunks [none, some 0]).isSome = true := by decide +kernel
  obtain ⟨all, hv⟩ := Option.isSome_iff_exists.1 hv
  obtain ⟨p, _, hp⟩ := List.any_eq_true.1 h
  rw [Bool.and_eq_true] at hp
  obtain ⟨q, hq, hq'⟩ := List.any_eq_true.1 hp.2
  obtain ⟨⟨ai, a, h1, h2⟩, h3⟩ := wholeAt_sound hp.1
  obtain ⟨⟨aj, b, h4, h5⟩, _⟩ := wholeAt_sound hq'
  exact ⟨p, ⟨q, aj, b, List.mem_range.1 hq, h4, by simpa [Reg.matchArg] using h5⟩, C112_whole_partial (exec_get leftEmpty leftEmpty_isSome) 0 h1 h2 h3 hv _ _⟩

/-- Does the archetype in bucket `p` not match, although it has entities? -/
def displacedAt (r : Reg V) (args : List BlockId) (p : Nat) : Bool :=
  match r.archs.map.slot? p with
  | some (some e) =>
    match r.archIn e with
    | some (ai, a) => !args.all (Reg.matchArg a) && !(Reg.chunkLocs ai a).flatten.isEmpty
    | none => false
  | _ => false

theorem displacedAt_sound {r : Reg V} {args : List BlockId} {p : Nat} (h : displacedAt r args p = true) :
    ∃ ai a, InBucket r p ai a ∧ args.all (Reg.matchArg a) = false ∧ (Reg.chunkLocs ai a).flatten ≠ [] := by
  unfold displacedAt at h
  split at h
  · rename_i e hs
    split at h
    · rename_i ai a ha
      refine ⟨ai, a, ⟨e, hs, archIn_some ha⟩, ?_⟩
      simpa using h
    · cases h
  · cases h

/-- A bucket as in `C112_chunks_violated` whose archetype does not match: the range shows entities of which the view shows none. -/
example : ∃ p ai a, InBucket (((exec smallTy leftEmpty).get leftEmpty_isSome).1.reg 0) p ai a ∧
    [none, some 2].all (Reg.matchArg a) = false ∧ (Reg.chunkLocs ai a).flatten ≠ [] ∧
    ∃ rest, (⟨[none, some 2], some ⟨(((exec smallTy leftEmpty).get leftEmpty_isSome).1.reg 0).archs.map.n, p⟩⟩ : ViewRange).iterate
        (((exec smallTy leftEmpty).get leftEmpty_isSome).1.reg 0) =
      some (⟨[none, some 2], some ⟨(((exec smallTy leftEmpty).get leftEmpty_isSome).1.reg 0).archs.map.n, p⟩⟩, Reg.chunkLocs ai a ++ rest) := by
  have h : ((List.range 16).any fun p => displacedAt (((exec smallTy leftEmpty).get leftEmpty_isSome).1.reg 0) [none, some 2] p) = true := by
    decide +kernel
  have hv : ((((exec smallTy leftEmpty).get leftEmpty_isSome).1.reg 0).viewChunks [none, some 2]).isSome = true := by decide +kernel
  obtain ⟨all, hv⟩ := Option.isSome_iff_exists.1 hv
  obtain ⟨p, _, hp⟩ := List.any_eq_true.1 h
  obtain ⟨ai, a, h1, h2, h3⟩ := displacedAt_sound hp
  obtain ⟨rest, h4, _⟩ := C112_chunks_violated (exec_get leftEmpty leftEmpty_isSome) 0 h1 hv
  exact ⟨p, ai, a, h1, h2, h3, rest, h4⟩

end CoEcs.Props
