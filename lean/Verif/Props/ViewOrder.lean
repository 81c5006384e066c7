import Verif.Spec.ViewOrder
import Verif.Props.View

/-!
# All views of a registry go through its entities in one order (C119)

`order` is a list of the entities of the registry.  It does not depend on the arguments of the view, on the
function it calls, or on what the function writes.
-/

namespace CoEcs.Props
open CoEcs Spec

variable {V : Type} {ty : Types} {s : Sys V} {W : Spec.World V}

/-! ## The locations a view goes through -/

/-- The archetype of the location matches. -/
def onMatch (r : Reg V) (args : List BlockId) (l : Loc) : Bool :=
  match r.archOf l with
  | some (_, a) => args.all (Reg.matchArg a)
  | none => false

theorem chunkLocs_filter {r : Reg V} {ai : Nat} {a : Arch V} (ha : r.archs.arches[ai]? = some a) (args : List BlockId) :
    (Reg.chunkLocs ai a).flatten.filter (onMatch r args) =
      if args.all (Reg.matchArg a) then (Reg.chunkLocs ai a).flatten else [] := by
  have key : ∀ l ∈ (Reg.chunkLocs ai a).flatten, onMatch r args l = args.all (Reg.matchArg a) := by
    intro l hl
    have := (mem_chunkLocs.1 hl).1
    simp [onMatch, Reg.archOf, this, ha]
  split
  · rename_i h
    exact List.filter_eq_self.2 fun l hl => by rw [key l hl]; exact h
  · rename_i h
    exact List.filter_eq_nil_iff.2 fun l hl => by rw [key l hl]; exact h

theorem viewChunksOf_filter {r : Reg V} (args : List BlockId) : ∀ {ps : List (Option Nat)} {cs cs0 : List (List Loc)},
    r.viewChunksOf args ps = some cs → r.viewChunksOf [] ps = some cs0 → cs.flatten = cs0.flatten.filter (onMatch r args)
  | [], cs, cs0, h, h0 => by simp [Reg.viewChunksOf] at h h0; subst h h0; rfl
  | none :: _, cs, cs0, h, h0 => by simp [Reg.viewChunksOf] at h
  | some ai :: ps, cs, cs0, h, h0 => by
    unfold Reg.viewChunksOf at h h0
    cases ha : r.archs.arches[ai]? with
    | none => simp [ha] at h
    | some a =>
      cases h1 : r.viewChunksOf args ps with
      | none => simp [ha, h1] at h
      | some rest =>
        cases h2 : r.viewChunksOf [] ps with
        | none => simp [ha, h2] at h0
        | some rest0 =>
          have ih := viewChunksOf_filter args h1 h2
          simp only [ha, h1, Option.some.injEq] at h
          simp only [ha, h2, Option.some.injEq, List.all_nil, if_true] at h0
          subst h h0
          rw [List.flatten_append, List.filter_append, chunkLocs_filter ha, ← ih]
          split <;> simp

theorem viewChunks_filter {r : Reg V} {args : List BlockId} {cs cs0 : List (List Loc)} (h : r.viewChunks args = some cs)
    (h0 : r.viewChunks [] = some cs0) : cs.flatten = cs0.flatten.filter (onMatch r args) := by
  unfold Reg.viewChunks at h h0
  split at h
  · cases h
  · rename_i ps hp
    rw [hp] at h0
    exact viewChunksOf_filter args h h0

theorem shown_iff {r : Reg V} {k : Nat} {W : Handle → Option (Comps V)} (R : Rep ty r k W) {h : Handle} {d : Comps V} (hw : W h = some d)
    (args : List BlockId) : shown r args h = true ↔ Matches args d := by
  have := R.matches_iff h args
  simp only [hw, Option.some.injEq, exists_eq_left'] at this
  rw [← this]
  unfold shown
  split <;> simp_all

/-! ## Writing keeps the locations -/

/-- The archetypes match the same views and have as many entries. -/
def AlikeArch (a a' : Arch V) : Prop := a'.comps = a.comps ∧ a'.chunks.map Chunk.size = a.chunks.map Chunk.size

def Alike (r r' : Reg V) : Prop :=
  r'.archs.map = r.archs.map ∧ r'.archs.arches.length = r.archs.arches.length ∧
    ∀ (ai : Nat) (a a' : Arch V), r.archs.arches[ai]? = some a → r'.archs.arches[ai]? = some a' → AlikeArch a a'

theorem chunkLocs_alike {a a' : Arch V} (h : AlikeArch a a') (ai : Nat) : Reg.chunkLocs ai a' = Reg.chunkLocs ai a := by
  have e : ∀ b : Arch V, Reg.chunkLocs ai b = (b.chunks.map Chunk.size).mapIdx fun ci n => (List.range n).map fun i => ⟨some ai, ci, i⟩ := by
    intro b
    apply List.ext_getElem?
    intro j
    simp only [Reg.chunkLocs, List.getElem?_mapIdx, List.getElem?_map, Option.map_map]
    rfl
  rw [e, e, h.2]

theorem matchArg_alike {a a' : Arch V} (h : AlikeArch a a') (b : BlockId) : Reg.matchArg a' b = Reg.matchArg a b := by
  cases b <;> simp [Reg.matchArg, Arch.contains, h.1]

theorem viewChunksOf_alike {r r' : Reg V} (h : Alike r r') (args : List BlockId) : ∀ ps, r'.viewChunksOf args ps = r.viewChunksOf args ps
  | [] => rfl
  | none :: _ => rfl
  | some ai :: ps => by
    have ih := viewChunksOf_alike h args ps
    unfold Reg.viewChunksOf
    rw [ih]
    obtain ⟨_, hl, ha⟩ := h
    cases h1 : r.archs.arches[ai]? with
    | none =>
      have : r'.archs.arches[ai]? = none := by rw [List.getElem?_eq_none_iff] at h1 ⊢; omega
      rw [this]
    | some a =>
      have : ai < r'.archs.arches.length := by rw [hl]; exact (List.getElem?_eq_some_iff.1 h1).1
      have h2 := List.getElem?_eq_getElem this
      have al := ha ai a _ h1 h2
      rw [h2]
      simp only
      have : (Reg.matchArg r'.archs.arches[ai] : BlockId → Bool) = Reg.matchArg a := funext (matchArg_alike al)
      rw [this, chunkLocs_alike al]

theorem viewChunks_alike {r r' : Reg V} (h : Alike r r') (args : List BlockId) : r'.viewChunks args = r.viewChunks args := by
  unfold Reg.viewChunks
  have : r'.viewPtrs = r.viewPtrs := by simp [Reg.viewPtrs, h.1]
  rw [this]
  split
  · rfl
  · exact viewChunksOf_alike h args _

theorem writeCell_alike {a a' : Arch V} {ci idx : Nat} {b : BlockId} {v : Val V} (h : a.writeCell ci idx b false v = some a') : AlikeArch a a' := by
  unfold Arch.writeCell at h
  split at h
  · rename_i r c _ hc
    rw [if_neg (by simp)] at h
    split at h
    · cases h
      refine ⟨rfl, ?_⟩
      simp only [List.map_set, Chunk.setRow]
      apply List.ext_getElem?
      intro j
      rw [List.getElem?_set]
      split
      · subst_vars
        split
        · simp [hc]
        · rename_i hh
          simp at hh
          simp [List.getElem?_eq_none_iff.2 hh]
      · rfl
    · cases h
  · cases h

theorem assign_alike {r r' : Reg V} {h : Handle} {c : Nat} {v : V} (ha : r.assign h c v = .ok r' ()) : Alike r r' := by
  unfold Reg.assign at ha
  split at ha <;> try cases ha
  split at ha <;> try cases ha
  split at ha <;> try cases ha
  split at ha <;> try cases ha
  split at ha <;> try cases ha
  rename_i hw
  unfold Reg.writeAt at hw
  split at hw <;> try cases hw
  rename_i ai a ho
  split at hw <;> try cases hw
  split at hw <;> try cases hw
  rename_i a' hc
  have hai : r.archs.arches[ai]? = some a := by
    unfold Reg.archOf at ho
    grind
  refine ⟨rfl, by simp [Reg.setArch], fun aj b b' h1 h2 => ?_⟩
  simp only [Reg.setArch, List.getElem?_set] at h2
  split at h2
  · subst_vars
    rw [hai] at h1; cases h1
    split at h2
    · cases h2; exact writeCell_alike hc
    · cases h2
  · rw [h1] at h2; cases h2; exact ⟨rfl, rfl⟩

theorem assigns_chunks {r r' : Reg V} (h : Assigns r r') (args : List BlockId) : r'.viewChunks args = r.viewChunks args := by
  induction h with
  | refl => rfl
  | step h c v e _ ih => rw [ih, viewChunks_alike (assign_alike e)]

/-! ## C119 -/

/-- The entities at a list of locations, in terms of the slots. -/
theorem inOrder {r : Reg V} {k : Nat} {W : Handle → Option (Comps V)} (R : Rep ty r k W) (hn : NoNull r.archs) {cs0 : List (List Loc)}
    (h0 : r.viewChunks [] = some cs0) {order : List Handle} {loc : Handle → Loc} (hl : order.map loc = cs0.flatten) (hnd : order.Nodup)
    (ho : ∀ h ∈ order, r.location h = .ok (loc h) ∧ ∃ d, W h = some d) : InOrder r order := by
  have flt : ∀ args, ∃ cs, r.viewChunks args = some cs ∧ cs.flatten = (order.filter (shown r args)).map loc := by
    intro args
    obtain ⟨cs, c1, c2, c3⟩ := R.view hn args
    refine ⟨cs, c1, ?_⟩
    rw [viewChunks_filter c1 h0, ← hl, List.filter_map]
    congr 1
    apply List.filter_congr
    intro h hh
    obtain ⟨q1, d, q2⟩ := ho h hh
    rw [Bool.eq_iff_iff, shown_iff R q2]
    obtain ⟨ai, a, c, row, t⟩ := R.at_slot (R.slot_loc.2 ⟨q2, q1⟩)
    have hm := matchArg_all t.ok t.decode t.rowOk args
    simp only [Function.comp_apply, onMatch, t.archOf]
    exact hm
  constructor
  · intro args muts f hmut
    obtain ⟨cs, c1, c2⟩ := flt args
    obtain ⟨r', ts, w1, w2, _⟩ := eachLocs_spec args muts hmut f loc (order.filter (shown r args)) R (hnd.filter _) (by
      intro h hh
      rw [List.mem_filter] at hh
      obtain ⟨q1, d, q2⟩ := ho h hh.1
      exact ⟨q1, d, q2, (shown_iff R q2 args).1 hh.2⟩)
    refine ⟨r', ts, by simp [Reg.each, c1, c2, w1], ?_⟩
    rw [← w2]
    apply List.map_congr_left
    intro h hh
    rw [List.mem_filter] at hh
    obtain ⟨q1, d, q2⟩ := ho h hh.1
    rw [R.callOf q2, q2]; rfl
  · intro args
    obtain ⟨cs, c1, c2⟩ := flt args
    obtain ⟨ps, p1, _⟩ := R.viewPtrs
    have hf : r.firstOf args ps = some cs.flatten.head? := by
      simp only [Reg.viewChunks, p1] at c1
      exact firstOf_spec c1
    unfold Reg.single
    simp only [p1, hf, c2, List.head?_map, List.head?_filter]
    cases hh : order.find? (shown r args) with
    | none => rfl
    | some h =>
      obtain ⟨q1, d, q2⟩ := ho h (List.mem_of_find?_eq_some hh)
      have hm := (shown_iff R q2 args).1 (List.find?_some hh)
      obtain ⟨ai, a, c, row, t⟩ := R.at_slot (R.slot_loc.2 ⟨q2, q1⟩)
      obtain ⟨x, hx⟩ := hm.tuple (h := h)
      simp [t.tupleAt hx, R.callOf q2, hx]

/-- **C119** (histories in which every component list fitted): there is one order of the entities of a
registry in which all views go through those they show, whatever their arguments and their functions; and it
is still the order after a view has written. -/
theorem C119_partial (hr : Reach ty (NoFailedFit ty) s W) (i : Nat) :
    ∃ order : List Handle, IsOrder (s.reg i) order ∧
      ∀ args muts f r' calls, (∀ c ∈ muts, some c ∈ args) → (s.reg i).each args muts f = .ok r' calls → InOrder r' order := by
  have R := (hr.inv i).rep
  have hn := Reach.noNull hr (fun _ _ h => h) i
  obtain ⟨cs0, c1, c2, c3⟩ := R.view hn []
  obtain ⟨hs, loc, h1, h2, h3, h4⟩ := R.handles (args := []) c2 (fun l hl => (c3 l).1 hl)
  refine ⟨hs, ⟨h2, fun h => ?_, inOrder R hn c1 h1 h2 (fun h hh => ⟨(h4 h hh).1, (h4 h hh).2.imp fun _ x => x.1⟩)⟩, ?_⟩
  · have := R.matches_iff h []
    rw [show compsOf ([] : List BlockId) = [] from rfl] at this
    rw [this]
    refine ⟨fun hh => (h4 h hh).2, ?_⟩
    rintro ⟨d, hd, hm⟩
    obtain ⟨l, ai, a, c, row, t⟩ := R.at_ hd
    exact (h3 h).2 ⟨l, (c3 l).2 ⟨h, d, t.slot, hm⟩, t.loc, d, hd⟩
  · intro args muts f r' calls hmut he
    obtain ⟨cs, d1, d2, d3⟩ := R.view hn args
    obtain ⟨g, loc', g1, g2, g3, g4⟩ := R.handles (args := args) d2 (fun l hl => (d3 l).1 hl)
    obtain ⟨r1, ts, w1, w2, w3, w4, w5, w6, w7⟩ := eachLocs_spec args muts hmut f loc' g R g2 g4
    have : r1 = r' := by
      simp only [Reg.each, d1, ← g1, w1, Res.ok.injEq] at he
      exact he.1
    subst this
    refine inOrder w3 (w6 hn) ((assigns_chunks w7 []).trans c1) h1 h2 fun h hh => ?_
    obtain ⟨q1, d, q2, _⟩ := h4 h hh
    refine ⟨by rw [← q1]; simp only [Reg.location, Reg.alive, w4, w5]; rfl, ?_⟩
    simp only [q2, Option.map_some]
    split <;> exact ⟨_, rfl⟩

theorem eachLocs_read {args : List BlockId} {f : List (Val V) → Nat → V} {r r' : Reg V} : ∀ {ls : List Loc} {ts : List (List (Val V))},
    Reg.eachLocs args [] f r ls = .ok r' ts → r' = r
  | [], ts, h => by simp [Reg.eachLocs] at h; exact h.1.symm
  | l :: ls, ts, h => by
    simp only [Reg.eachLocs, Reg.writeAll] at h
    split at h <;> try cases h
    split at h <;> try cases h
    rename_i he
    exact eachLocs_read he

theorem each_read {args : List BlockId} {f : List (Val V) → Nat → V} {r r' : Reg V} {ts : List (List (Val V))}
    (h : r.each args [] f = .ok r' ts) : r' = r := by
  unfold Reg.each at h
  split at h
  · cases h
  · exact eachLocs_read h

/-- **C119** for two views: a view that asks for more components shows some of the entities of the other, in
the same order, and the two can be gone through side by side.  If they ask for the same components, whatever
the order of the arguments and whether they ask for the entity, they show the same. -/
theorem C119_two_partial (hr : Reach ty (NoFailedFit ty) s W) (i : Nat) {args args' : List BlockId}
    (h : ∀ c, some c ∈ args → some c ∈ args') (f f' : List (Val V) → Nat → V) :
    ∃ (hs hs' : List Handle) (calls calls' : List (List (Val V))), (s.reg i).each args [] f = .ok (s.reg i) calls ∧
      (s.reg i).each args' [] f' = .ok (s.reg i) calls' ∧ hs.map (callOf (s.reg i) args) = calls.map some ∧
      hs'.map (callOf (s.reg i) args') = calls'.map some ∧ hs'.Sublist hs ∧ hs.Nodup ∧
      (∀ h, h ∈ hs ↔ (s.reg i).has h (compsOf args) = .ok true) ∧ ((∀ c, some c ∈ args' → some c ∈ args) → hs' = hs) := by
  obtain ⟨order, ⟨o1, o2, ⟨o3, _⟩⟩, _⟩ := C119_partial hr i
  have R := (hr.inv i).rep
  obtain ⟨r1, calls, e1, e2⟩ := o3 args [] f (by simp)
  obtain ⟨r2, calls', e3, e4⟩ := o3 args' [] f' (by simp)
  have q1 := each_read e1; subst q1
  have q2 := each_read e3; subst q2
  have mono : ∀ {a b : List BlockId}, (∀ c, some c ∈ a → some c ∈ b) → ∀ g, shown (s.reg i) b g = true → shown (s.reg i) a g = true := by
    intro a b hab g hg
    cases hw : W i g with
    | none =>
      have := R.matches_iff g b
      simp only [hw, reduceCtorEq, false_and, exists_false, iff_false] at this
      unfold shown at hg
      split at hg
      · rename_i heq; rw [heq] at this; subst hg; exact absurd rfl this
      · cases hg
    | some d =>
      rw [shown_iff R hw] at hg ⊢
      exact fun c hc => hg c (hab c hc)
  refine ⟨_, _, calls, calls', e1, e3, e2, e4, ?_, o1.filter _, ?_, ?_⟩
  · have : order.filter (shown (s.reg i) args') = (order.filter (shown (s.reg i) args)).filter (shown (s.reg i) args') := by
      rw [List.filter_filter]
      apply List.filter_congr
      intro g _
      have := mono h g
      cases hb : shown (s.reg i) args' g <;> simp_all
    rw [this]
    exact List.filter_sublist
  · intro g
    rw [List.mem_filter, o2, R.matches_iff g args, show ([] : List Nat) = compsOf [] from rfl, R.matches_iff g []]
    constructor
    · rintro ⟨⟨d, hd, _⟩, hs⟩
      exact ⟨d, hd, (shown_iff R hd args).1 hs⟩
    · rintro ⟨d, hd, hm⟩
      exact ⟨⟨d, hd, fun c hc => by cases hc⟩, (shown_iff R hd args).2 hm⟩
  · intro h'
    apply List.filter_congr
    intro g _
    rw [Bool.eq_iff_iff]
    exact ⟨mono h g, mono h' g⟩

/-- Two views of the registry of the sample history. -/
example : (match fitSys.reg 0 |>.each [some 0, some 2, none] [] (fun _ c => c), fitSys.reg 0 |>.each [none] [] (fun _ c => c) with
    | .ok _ calls, .ok _ calls' => (calls, calls')
    | _, _ => ([], [])) =
    ([[.comp 10, .comp 12, .ent ⟨0, 0⟩], [.comp 10, .comp 12, .ent ⟨2, 1⟩]], [[.ent ⟨1, 0⟩], [.ent ⟨0, 0⟩], [.ent ⟨2, 1⟩]]) := by decide +kernel

/-- The hypotheses can be met. -/
example : ∃ (s : Sys Nat) (W : Spec.World Nat), Reach smallTy (NoFailedFit smallTy) s W ∧ (∀ c, some c ∈ [none] → some c ∈ [some 0, some 2, none]) ∧
    ∃ h, (s.reg 0).has h [0, 2] = .ok true :=
  ⟨_, _, fit_reach.choose_spec, by simp, ⟨0, 0⟩, by decide +kernel⟩

/-- **C119 is violated**: after a creation that threw, no order is that of the views. -/
theorem C119_violated : ∃ (ty : Types) (s : Sys Nat) (W : Spec.World Nat), Reachable ty s W ∧ ∀ order, ¬ InOrder (s.reg 0) order := by
  obtain ⟨ty, s, W, h, h1, _, h3⟩ := C23_each_after_failure_violated
  refine ⟨ty, s, W, h1, fun order ho => ?_⟩
  obtain ⟨r', calls, e, _⟩ := ho.1 [some 0] [] (fun _ c => c) (by simp)
  rw [h3] at e
  cases e

end CoEcs.Props
