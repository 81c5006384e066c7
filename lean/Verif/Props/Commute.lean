import Verif.Spec.Commute
import Verif.Props.Capacity

/-!
# C116: calls on different entities commute
-/

namespace CoEcs.Props
open CoEcs Spec

variable {V : Type} {ty : Types} {s : Sys V} {W : Spec.World V}

theorem withComp_eq (d : Nat → Option V) (c : Nat) (v : Option V) :
    Spec.World.withComp d c v = fun x => if x = c then v else d x := by
  funext x
  unfold Spec.World.withComp
  split <;> rfl

/-- One call: unless it throws insufficient_chunk_size, outcome and effect are determined by the entity it is for. -/
theorem step_own (hr : Reachable ty s W) {i : Nat} {h : Handle} {o : EntOp V} {d : Nat → Option V} (hw : W i h = some d)
    (ha : s.Allowed (o.on i h)) {s' : Sys V} {out : Out} (hs : s.step ty (o.on i h) = some (s', out))
    (ht : out ≠ .throw .insufficientChunkSize) :
    out = o.answer d ∧ Reachable ty s' (W.upd i h (o.after d)) ∧ s'.pend = s.pend := by
  have R := (hr.inv i).rep
  have hreach := Reach.step hr ha trivial hs
  have hself : ∀ x, x = some d → W.upd i h x = W := by
    intro x hx
    subst hx
    funext j h'
    unfold World.upd
    split
    · rename_i e
      rw [e.1, e.2, hw]
    · rfl
  cases o with
  | destroy =>
    simp only [EntOp.on, Sys.step, RegOp.run] at hs
    have hp : s.pend i = 0 := ha
    rw [hp] at R
    rcases R.destroy hw with ⟨e, _⟩ | ⟨r', e, _⟩
    · rw [e] at hs; cases hs
    · rw [e] at hs
      cases hs
      exact ⟨rfl, hreach, rfl⟩
  | set c v =>
    simp only [EntOp.on, Sys.step, RegOp.run] at hs
    rcases R.set hw c v with ⟨e, _⟩ | ⟨r', e, _⟩ | ⟨r', e, _⟩
    · rw [e] at hs; cases hs
    · rw [e] at hs
      cases hs
      refine ⟨rfl, ?_, rfl⟩
      simpa [EntOp.on, World.step, hw, withComp_eq, EntOp.after] using hreach
    · rw [e] at hs
      cases hs
      exact absurd rfl ht
  | remove c =>
    simp only [EntOp.on, Sys.step, RegOp.run] at hs
    rcases R.remove hw c with ⟨_, e⟩ | ⟨_, ⟨e, _⟩ | ⟨r', e, _⟩ | ⟨r', e, _⟩⟩
    · rw [e] at hs
      cases hs
      refine ⟨rfl, ?_, rfl⟩
      simpa [EntOp.on, World.step, hw, withComp_eq, EntOp.after] using hreach
    · rw [e] at hs; cases hs
    · rw [e] at hs
      cases hs
      refine ⟨rfl, ?_, rfl⟩
      simpa [EntOp.on, World.step, hw, withComp_eq, EntOp.after] using hreach
    · rw [e] at hs
      cases hs
      exact absurd rfl ht
  | assign c v =>
    simp only [EntOp.on, Sys.step, RegOp.run] at hs
    rcases R.assign hw c v with ⟨hc, e⟩ | ⟨v0, r', hc, e, _⟩
    · rw [e] at hs
      cases hs
      refine ⟨by simp [EntOp.answer, hc], ?_, rfl⟩
      rw [hself _ (by simp [EntOp.after, hc])]
      simpa [EntOp.on, World.step] using hreach
    · rw [e] at hs
      cases hs
      refine ⟨by simp [EntOp.answer, hc], ?_, rfl⟩
      simpa [EntOp.on, World.step, hw, withComp_eq, EntOp.after, hc] using hreach
  | getOrInsert c v =>
    simp only [EntOp.on, Sys.step, RegOp.run] at hs
    rcases R.getOrInsert hw c v with ⟨v0, hc, e⟩ | ⟨hc, ⟨e, _⟩ | ⟨r', e, _⟩ | ⟨r', e, _⟩⟩
    · rw [e] at hs
      cases hs
      refine ⟨rfl, ?_, rfl⟩
      simpa [EntOp.on, World.step, hw, EntOp.after, hc] using hreach
    · rw [e] at hs; cases hs
    · rw [e] at hs
      cases hs
      refine ⟨rfl, ?_, rfl⟩
      simpa [EntOp.on, World.step, hw, withComp_eq, EntOp.after, hc] using hreach
    · rw [e] at hs
      cases hs
      exact absurd rfl ht

theorem allowed_pend {s s' : Sys V} (h : s'.pend = s.pend) {o : EntOp V} {i : Nat} {g : Handle} (ha : s.Allowed (o.on i g)) :
    s'.Allowed (o.on i g) := by
  cases o <;> simp only [EntOp.on, Sys.Allowed] at ha ⊢
  rw [h]; exact ha

/-- **C116**, what calls on different entities do: unless one throws insufficient_chunk_size (or is undefined), each ends as it would for
its entity alone, and the contents afterwards are given entity by entity. -/
theorem C116_each_partial : ∀ {xs : Calls V} {s : Sys V} {W : Spec.World V}, Reachable ty s W → (xs.map Prod.fst).Nodup →
    (∀ x ∈ xs, W x.1.1 x.1.2 ≠ none ∧ s.Allowed (x.2.on x.1.1 x.1.2)) → ∀ {s' : Sys V} {outs : List Out},
    s.runAll ty xs = some (s', outs) → Out.throw .insufficientChunkSize ∉ outs →
    outs.map some = xs.map (fun x => (W x.1.1 x.1.2).map x.2.answer) ∧ Reachable ty s' (W.afterAll xs)
  | [], s, W, hr, _, _, s', outs, h, _ => by
    cases h
    exact ⟨rfl, hr⟩
  | x :: xs, s, W, hr, hn, hx, s', outs, h, ht => by
    obtain ⟨⟨i, g⟩, o⟩ := x
    rw [List.map_cons, List.nodup_cons] at hn
    unfold Sys.runAll at h
    split at h
    · cases h
    · rename_i s1 out hs
      split at h
      · cases h
      · rename_i s2 os hrest
        cases h
        rw [List.mem_cons, not_or] at ht
        obtain ⟨hw, ha⟩ := hx _ List.mem_cons_self
        obtain ⟨d, hd⟩ := Option.ne_none_iff_exists'.1 hw
        obtain ⟨h1, h2, h3⟩ := step_own hr hd ha hs (Ne.symm ht.1)
        have hne : ∀ y ∈ xs, ¬ (y.1.1 = i ∧ y.1.2 = g) := by
          rintro y hy ⟨e1, e2⟩
          apply hn.1
          rw [List.mem_map]
          exact ⟨y, hy, by rw [← e1, ← e2]⟩
        have hsame : ∀ y ∈ xs, (W.upd i g (o.after d)) y.1.1 y.1.2 = W y.1.1 y.1.2 := by
          intro y hy
          unfold World.upd
          rw [if_neg (hne y hy)]
        obtain ⟨h4, h5⟩ := C116_each_partial h2 hn.2 (fun y hy => by
          obtain ⟨e1, e2⟩ := hx y (List.mem_cons_of_mem _ hy)
          exact ⟨by rw [hsame y hy]; exact e1, allowed_pend h3 e2⟩) hrest ht.2
        refine ⟨?_, ?_⟩
        · rw [List.map_cons, List.map_cons, h4, h1]
          congr 1
          · simp only [hd]; rfl
          · exact List.map_congr_left fun y hy => by rw [hsame y hy]
        · have : W.afterAll (((i, g), o) :: xs) = (W.upd i g (o.after d)).afterAll xs := by
            funext j g'
            unfold World.afterAll
            by_cases e : j = i ∧ g' = g
            · obtain ⟨rfl, rfl⟩ := e
              have hf : (xs.find? fun x => x.1 == (j, g')) = none := by
                rw [List.find?_eq_none]
                intro y hy
                simp only [beq_iff_eq]
                intro e
                exact hne y hy ⟨by rw [e], by rw [e]⟩
              simp [hf, World.upd, hd]
            · have hb : (((i, g), o).1 == (j, g')) = false := by
                rw [beq_eq_false_iff_ne]
                intro e'
                simp only [Prod.mk.injEq] at e'
                exact e ⟨e'.1.symm, e'.2.symm⟩
              rw [List.find?_cons_of_neg (by simpa using hb)]
              simp only [World.upd, if_neg e]
          rw [this]
          exact h5

theorem find_perm {α β : Type} [BEq α] [LawfulBEq α] {xs ys : List (α × β)} (hp : xs.Perm ys) (hn : (xs.map Prod.fst).Nodup) (k : α) :
    (xs.find? fun x => x.1 == k) = ys.find? fun x => x.1 == k := by
  have hn' : (ys.map Prod.fst).Nodup := (hp.map _).nodup_iff.1 hn
  have key : ∀ {zs : List (α × β)}, (zs.map Prod.fst).Nodup → ∀ x, (zs.find? fun x => x.1 == k) = some x ↔ x ∈ zs ∧ x.1 = k := by
    intro zs hz x
    induction zs with
    | nil => simp
    | cons z zs ih =>
      rw [List.map_cons, List.nodup_cons] at hz
      rw [List.find?_cons]
      split
      · rename_i h
        rw [beq_iff_eq] at h
        constructor
        · rintro h'
          cases h'
          exact ⟨List.mem_cons_self, h⟩
        · rintro ⟨hm, hk⟩
          rcases List.mem_cons.1 hm with rfl | hm
          · rfl
          · exact absurd (List.mem_map.2 ⟨x, hm, hk.trans h.symm⟩) hz.1
      · rename_i h
        rw [beq_eq_false_iff_ne] at h
        rw [ih hz.2, List.mem_cons]
        constructor
        · rintro ⟨a, b⟩
          exact ⟨.inr a, b⟩
        · rintro ⟨rfl | a, b⟩
          · exact absurd b h
          · exact ⟨a, b⟩
  apply Option.ext
  intro x
  rw [key hn, key hn', hp.mem_iff]

theorem zip_answers {α : Type} {xs : List α} {outs : List Out} {f : α → Option Out} (h : outs.map some = xs.map f) :
    ∀ x o, (x, o) ∈ xs.zip outs ↔ x ∈ xs ∧ f x = some o := by
  induction xs generalizing outs with
  | nil => intro x o; simp
  | cons y ys ih =>
    cases outs with
    | nil => simp at h
    | cons p ps =>
      simp only [List.map_cons, List.cons.injEq] at h
      intro x o
      rw [List.zip_cons_cons, List.mem_cons, ih h.2, List.mem_cons, Prod.mk.injEq]
      constructor
      · rintro (⟨rfl, rfl⟩ | ⟨a, b⟩)
        · exact ⟨.inl rfl, h.1.symm⟩
        · exact ⟨.inr a, b⟩
      · rintro ⟨rfl | a, b⟩
        · rw [← h.1] at b
          cases b
          exact .inl ⟨rfl, rfl⟩
        · exact .inr ⟨a, b⟩

/-- **C116**, without exceptions of chunk size: calls on different entities made in two orders end the same way each, and leave every
entity of every registry with the same components and values.  Missing: calls that throw insufficient_chunk_size or are undefined, see
the violations. -/
theorem C116_partial (hr : Reachable ty s W) {xs ys : Calls V} (hp : xs.Perm ys) (hn : (xs.map Prod.fst).Nodup)
    (hx : ∀ x ∈ xs, W x.1.1 x.1.2 ≠ none ∧ s.Allowed (x.2.on x.1.1 x.1.2)) {s1 s2 : Sys V} {o1 o2 : List Out}
    (h1 : s.runAll ty xs = some (s1, o1)) (h2 : s.runAll ty ys = some (s2, o2))
    (t1 : Out.throw .insufficientChunkSize ∉ o1) (t2 : Out.throw .insufficientChunkSize ∉ o2) :
    (∀ x o, (x, o) ∈ xs.zip o1 ↔ (x, o) ∈ ys.zip o2) ∧ (∀ i h, SameEntity (s1.reg i) (s2.reg i) h) ∧
    ∃ W', Reachable ty s1 W' ∧ Reachable ty s2 W' := by
  obtain ⟨a1, r1⟩ := C116_each_partial hr hn hx h1 t1
  obtain ⟨a2, r2⟩ := C116_each_partial hr ((hp.map _).nodup_iff.1 hn) (fun y hy => hx y (hp.mem_iff.2 hy)) h2 t2
  have e : W.afterAll ys = W.afterAll xs := by
    funext i h
    unfold World.afterAll
    rw [find_perm hp hn]
  rw [e] at r2
  refine ⟨fun x o => ?_, fun i h => (r1.inv i).rep.sameEntity (r2.inv i).rep rfl, _, r1, r2⟩
  rw [zip_answers a1, zip_answers a2, hp.mem_iff]

/-- Component type 0 has size 16 and alignment 8, the others size 16352 and alignment 16. -/
def pairTy : Types := ⟨fun c => if c = 0 then ⟨0, 16, 8, true⟩ else ⟨c, 16352, 16, true⟩, fun c => by
  show (if c = 0 then (⟨0, 16, 8, true⟩ : CompMeta) else ⟨c, 16352, 16, true⟩).id = c
  split
  · rename_i h; exact h.symm
  · rfl⟩

/-- One entity with component 0 and one with component 1. -/
def twoOps : List (SysOp Nat) := [.on 0 (.create [(0, 1)]), .on 0 (.create [(1, 2)])]

theorem twoOps_isSome : (exec pairTy twoOps).isSome = true := by decide +kernel

def twoSys : Sys Nat := ((exec pairTy twoOps).get twoOps_isSome).1
def twoWorld : Spec.World Nat := ((exec pairTy twoOps).get twoOps_isSome).2

theorem two_reachable : Reachable pairTy twoSys twoWorld := exec_get twoOps twoOps_isSome

theorem runAll_of {ty : Types} {s : Sys V} {xs : Calls V} {os : List Out}
    (h : ((s.runAll ty xs).map fun p => decide (p.2 = os)) = some true) : ∃ s', s.runAll ty xs = some (s', os) := by
  cases hx : s.runAll ty xs with
  | none => rw [hx] at h; cases h
  | some p =>
    obtain ⟨s', os'⟩ := p
    rw [hx] at h
    simp only [Option.map_some, Option.some.injEq, decide_eq_true_eq] at h
    exact ⟨s', by rw [h]⟩

theorem world_of {x : Option (Nat → Option V)} (h : x.isSome = true) : x ≠ none := by
  intro e
  rw [e] at h
  cases h

example : ∃ s1 s2, twoSys.runAll pairTy [((0, ⟨0, 0⟩), .assign 0 5), ((0, ⟨1, 0⟩), .assign 0 6)] = some (s1, [.ok none, .throw .componentNotFound]) ∧
    twoSys.runAll pairTy [((0, ⟨1, 0⟩), .assign 0 6), ((0, ⟨0, 0⟩), .assign 0 5)] = some (s2, [.throw .componentNotFound, .ok none]) ∧
    SameEntity (s1.reg 0) (s2.reg 0) ⟨0, 0⟩ := by
  obtain ⟨s1, h1⟩ := runAll_of (s := twoSys) (ty := pairTy) (xs := [((0, ⟨0, 0⟩), .assign 0 5), ((0, ⟨1, 0⟩), .assign 0 6)])
    (os := [.ok none, .throw .componentNotFound]) (by decide +kernel)
  obtain ⟨s2, h2⟩ := runAll_of (s := twoSys) (ty := pairTy) (xs := [((0, ⟨1, 0⟩), .assign 0 6), ((0, ⟨0, 0⟩), .assign 0 5)])
    (os := [.throw .componentNotFound, .ok none]) (by decide +kernel)
  refine ⟨s1, s2, h1, h2, (C116_partial two_reachable (List.Perm.swap _ _ _) (by decide) ?_ h1 h2 (by decide) (by decide)).2.1 0 _⟩
  intro x hx
  simp only [List.mem_cons, List.not_mem_nil, or_false] at hx
  rcases hx with rfl | rfl <;> exact ⟨world_of (by decide +kernel), trivial⟩

/-- **C116 is violated**: of two entities, the first gets a component of the type that only the second has, then the second gets one
of the type that only the first had; both calls succeed.  In the other order the call for the second throws. -/
theorem C116_violated : ∃ (ty : Types) (s : Sys Nat) (W : Spec.World Nat) (x y : (Nat × Handle) × EntOp Nat) (s1 s2 : Sys Nat),
    Reachable ty s W ∧ x.1 ≠ y.1 ∧ (∀ z ∈ [x, y], W z.1.1 z.1.2 ≠ none ∧ s.Allowed (z.2.on z.1.1 z.1.2)) ∧
    s.runAll ty [x, y] = some (s1, [.ok none, .ok none]) ∧
    s.runAll ty [y, x] = some (s2, [.throw .insufficientChunkSize, .ok none]) := by
  obtain ⟨s1, h1⟩ := runAll_of (s := twoSys) (ty := pairTy) (xs := [((0, ⟨0, 0⟩), .set 1 5), ((0, ⟨1, 0⟩), .set 0 6)])
    (os := [.ok none, .ok none]) (by decide +kernel)
  obtain ⟨s2, h2⟩ := runAll_of (s := twoSys) (ty := pairTy) (xs := [((0, ⟨1, 0⟩), .set 0 6), ((0, ⟨0, 0⟩), .set 1 5)])
    (os := [.throw .insufficientChunkSize, .ok none]) (by decide +kernel)
  refine ⟨pairTy, twoSys, twoWorld, _, _, s1, s2, two_reachable, by decide, ?_, h1, h2⟩
  intro x hx
  simp only [List.mem_cons, List.not_mem_nil, or_false] at hx
  rcases hx with rfl | rfl <;> exact ⟨world_of (by decide +kernel), trivial⟩

/-- **C116 is violated** for the handles given out afterwards: two entities are destroyed in the one or the other order, and the next
entity created gets different handles. -/
theorem C116_next_handle_violated : ∃ (ty : Types) (s : Sys Nat) (W : Spec.World Nat) (x y : (Nat × Handle) × EntOp Nat)
    (s1 s2 : Sys Nat) (r1 r2 : Reg Nat) (h1 h2 : Handle),
    Reachable ty s W ∧ x.1 ≠ y.1 ∧ (∀ z ∈ [x, y], W z.1.1 z.1.2 ≠ none ∧ s.Allowed (z.2.on z.1.1 z.1.2)) ∧
    s.runAll ty [x, y] = some (s1, [.ok none, .ok none]) ∧ s.runAll ty [y, x] = some (s2, [.ok none, .ok none]) ∧
    (s1.reg 0).create ty [] = .ok r1 h1 ∧ (s2.reg 0).create ty [] = .ok r2 h2 ∧ h1 ≠ h2 := by
  have key : (match twoSys.runAll pairTy [((0, ⟨0, 0⟩), .destroy), ((0, ⟨1, 0⟩), .destroy)],
      twoSys.runAll pairTy [((0, ⟨1, 0⟩), .destroy), ((0, ⟨0, 0⟩), .destroy)] with
    | some (s1, o1), some (s2, o2) =>
      (match (s1.reg 0).create pairTy [], (s2.reg 0).create pairTy [] with
      | .ok _ h1, .ok _ h2 => decide (h1 ≠ h2 ∧ o1 = [.ok none, .ok none] ∧ o2 = [.ok none, .ok none])
      | _, _ => false)
    | _, _ => false) = true := by decide +kernel
  split at key
  · rename_i s1 o1 s2 o2 e1 e2
    split at key
    · rename_i r1 h1 r2 h2 c1 c2
      rw [decide_eq_true_eq] at key
      obtain ⟨k1, rfl, rfl⟩ := key
      refine ⟨pairTy, twoSys, twoWorld, _, _, s1, s2, r1, r2, h1, h2, two_reachable, by decide, ?_, e1, e2, c1, c2, k1⟩
      intro x hx
      simp only [List.mem_cons, List.not_mem_nil, or_false] at hx
      rcases hx with rfl | rfl <;> exact ⟨world_of (by decide +kernel), by decide +kernel⟩
    · cases key
  · cases key

end CoEcs.Props
