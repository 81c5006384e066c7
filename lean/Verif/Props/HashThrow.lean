import Verif.Proofs.HashThrow

/-!
# Insertions and erasures that throw (C103)

C103 as stated asks that a call on a map that throws leaves the map as it was.  It holds when the construction of the new
element throws, or the first operation after it; it fails when a later move throws, during an insertion, during the growth
that precedes one, and during an erasure.  The theorems say what is left in each case.
-/

namespace CoEcs.Props
open CoEcs Spec

/-- A map made by the calls `ops` from an empty one with `n` buckets. -/
def MadeBy {K V : Type} [DecidableEq K] (h : K → Nat) (n : Nat) (ops : List (HashOp K V)) (t : HTable K V) : Prop :=
  PowTwo n ∧ HashOps.Ok ops ∧ ∃ t0 F, HTable.mk' n = .ok t0 ∧ ∀ fuel, F ≤ fuel → ∃ as, t0.run h fuel ops = .ok (t, as)

/-- The content a finite map has after the same calls. -/
def contentOf {K V : Type} [DecidableEq K] (ops : List (HashOp K V)) : KeyMap K V := ((KeyMap.empty : KeyMap K V).run ops).1

/-- From now on the table answers as the finite map `m`, and an iteration shows the content of `m`. -/
def Behaves {K V : Type} [DecidableEq K] (h : K → Nat) (t : HTable K V) (m : KeyMap K V) : Prop :=
  (∀ ops, HashOps.Ok ops → ∃ F t', ∀ fuel, F ≤ fuel → t.run h fuel ops = .ok (t', (m.run ops).2)) ∧
  ∃ es, t.entries = .ok es ∧ (es.map HEntry.key).Nodup ∧ es.length = m.count ∧
    ∀ k v, m.get k = some v ↔ ∃ e ∈ es, e.key = k ∧ e.val = v

theorem MadeBy.rel {K V : Type} [DecidableEq K] {h : K → Nat} {n : Nat} {ops : List (HashOp K V)} {t : HTable K V}
    (b : MadeBy h n ops t) : HTable.HRel h t (contentOf ops) := by
  obtain ⟨hn, ok, t0, F, h0, h1⟩ := b
  obtain ⟨t', ⟨G, hG⟩, r⟩ := HTable.HRel.run ops (HTable.HRel.fresh h hn) ok
  obtain ⟨as, h2⟩ := h1 (max F G) (by omega)
  have h3 := hG (max F G) (by omega)
  simp only [HTable.mk', hn.even, if_true] at h0
  cases h0
  simp only [h2, Run.ok.injEq, Prod.mk.injEq] at h3
  rw [h3.1]; exact r

theorem behaves_of {K V : Type} [DecidableEq K] {h : K → Nat} {t : HTable K V} {m : KeyMap K V} (r : HTable.HRel h t m) :
    Behaves h t m := by
  refine ⟨fun ops ok => ?_, ?_⟩
  · obtain ⟨t', ⟨F, hF⟩, _⟩ := r.run ops ok
    exact ⟨F, t', hF⟩
  · obtain ⟨es, h1, h2, h3, h4⟩ := r.entries
    exact ⟨es, h1, h2, by rw [h3]; exact r.cnt.symm, h4⟩

/-- **C103** (partial; missing: operations after the first that touches the table): if the construction of the new element
throws, or the first swap or placement after it, the map is as it was. -/
theorem C103_constructor_partial {K V : Type} [DecidableEq K] (h : K → Nat) (n : Nat) (ops : List (HashOp K V)) (t : HTable K V)
    (b : MadeBy h n ops t) (asg : Bool) (k : K) (v : V) (fail : Nat) (hf : fail ≤ 1) :
    ∃ out, EvTry (fun f => t.emplaceTry h asg f k v (some fail)) out ∧
      ((∃ t', out = .threw t' ∧ Behaves h t' (contentOf ops)) ∨
       (fail = 1 ∧ ((contentOf ops).get k).isSome = true ∧ ∃ x, out = .ok x)) := by
  obtain ⟨out, h1, h2⟩ := b.rel.emplaceTry asg k v (some fail)
  refine ⟨out, h1, ?_⟩
  have hf' : fail = 0 ∨ fail = 1 := by omega
  cases out with
  | threw t' =>
    left
    refine ⟨t', rfl, ?_⟩
    rcases h2.2 with h3 | ⟨_, h4, h5, _⟩
    · exact behaves_of h3
    · rcases hf' with rfl | rfl
      · exact absurd rfl h4
      · exact absurd rfl h5
  | ok x =>
    right
    rcases hf' with rfl | rfl
    · exact absurd rfl h2.1
    · refine ⟨rfl, ?_, x, rfl⟩
      cases hg : (contentOf ops).get k with
      | some v0 => rfl
      | none =>
        exfalso
        obtain ⟨t1, ⟨F1, hF1⟩, r1, hs1, _⟩ := b.rel.grown
        obtain ⟨out', h3, h4⟩ := r1.emplaceRawTry_new asg v hg hs1 (some 1)
        obtain ⟨F, hF⟩ := h1
        have e1 := hF (max F (max F1 t1.n)) (by omega)
        have e2 := hF1 (max F (max F1 t1.n)) (by omega)
        have e3 := h3 (max F (max F1 t1.n)) (by omega)
        simp only [HTable.emplaceTry] at e1 e2
        rw [e2] at e1
        simp only [Tried.ofRun, Tried.bind] at e1
        rw [e1] at e3
        subst e3
        exact h4.2.1 rfl
  | ub => exact h2.elim
  | stuck => exact h2.elim

/-- **C103** (what is left of an insertion that throws, in every case; partial: the second alternative is not the map as it
was): the call returns what it would return without exceptions, or it throws and the map is as it was, or it throws and the
new element is in the map while another one, which had nothing to do with the call, is gone. -/
theorem C103_insert_partial {K V : Type} [DecidableEq K] (h : K → Nat) (n : Nat) (ops : List (HashOp K V)) (t : HTable K V)
    (b : MadeBy h n ops t) (asg : Bool) (k : K) (v : V) (fail : Option Nat) :
    ∃ out, EvTry (fun f => t.emplaceTry h asg f k v fail) out ∧
      ((∃ x, out = .ok x ∧ ∃ F, ∀ f, F ≤ f → t.emplace h asg f k v = .ok x) ∨
       (∃ t', out = .threw t' ∧ Behaves h t' (contentOf ops)) ∨
       (∃ t' k1, out = .threw t' ∧ (contentOf ops).get k = none ∧ k1 ≠ k ∧ ((contentOf ops).get k1).isSome = true ∧
         Behaves h t' (((contentOf ops).put k v).del k1))) := by
  obtain ⟨out, h1, h2⟩ := b.rel.emplaceTry asg k v fail
  refine ⟨out, h1, ?_⟩
  cases out with
  | threw t' =>
    rcases h2.2 with h3 | ⟨h3, _, _, m', ⟨k1, h4, h5, rfl⟩, h6⟩
    · exact .inr (.inl ⟨t', rfl, behaves_of h3⟩)
    · exact .inr (.inr ⟨t', k1, rfl, h3, h4, h5, behaves_of h6⟩)
  | ok x => exact .inl ⟨x, rfl, h2.2⟩
  | ub => exact h2.elim
  | stuck => exact h2.elim

/-- Without exceptions the call is the one of C08. -/
theorem C103_no_throw {K V : Type} [DecidableEq K] (h : K → Nat) (n : Nat) (ops : List (HashOp K V)) (t : HTable K V)
    (b : MadeBy h n ops t) (asg : Bool) (k : K) (v : V) :
    ∃ x F, ∀ f, F ≤ f → t.emplaceTry h asg f k v none = .ok x ∧ t.emplace h asg f k v = .ok x := by
  obtain ⟨out, ⟨F, hF⟩, h2⟩ := b.rel.emplaceTry asg k v none
  cases out with
  | threw t' => exact absurd rfl h2.1
  | ok x =>
    obtain ⟨G, hG⟩ := h2.2
    exact ⟨x, max F G, fun f hf => ⟨hF f (by omega), hG f (by omega)⟩⟩
  | ub => exact h2.elim
  | stuck => exact h2.elim

/-- Keys 0 and 1 in their home buckets. -/
def twoKeys : List (HashOp Nat Nat) := [.emplace 0 100, .emplace 1 101]

def twoKeysTable : HTable Nat Nat :=
  ⟨16, [some ⟨0, 0, 0, 100⟩, some ⟨1, 0, 1, 101⟩] ++ List.replicate 14 none, 2⟩

theorem twoKeys_ok : HashOps.Ok twoKeys := by intro n hn; simp [twoKeys] at hn

theorem twoKeys_made : MadeBy (fun k => k) 16 twoKeys twoKeysTable := by
  refine ⟨⟨4, by omega, rfl⟩, twoKeys_ok, _, 16, rfl, fun fuel hf => ?_⟩
  obtain ⟨f, rfl⟩ : ∃ f, fuel = f + 16 := ⟨fuel - 16, by omega⟩
  exact ⟨_, rfl⟩

example : ∃ out, EvTry (fun f => twoKeysTable.emplaceTry (fun k => k) false f 16 116 (some 0)) out ∧
      ((∃ t', out = .threw t' ∧ Behaves (fun k => k) t' (contentOf twoKeys)) ∨
       (0 = 1 ∧ ((contentOf twoKeys).get 16).isSome = true ∧ ∃ x, out = .ok x)) :=
  C103_constructor_partial _ _ _ _ twoKeys_made false 16 116 0 (by omega)

set_option maxRecDepth 4000 in
/-- **C103 fails** for an insertion whose last move throws: key 16 has been swapped into the bucket of key 1, and placing
key 1 elsewhere throws.  The call has thrown, yet key 16 is in the map, and key 1 is not. -/
theorem C103_insert_violated : ∃ t', EvTry (fun f => twoKeysTable.emplaceTry (fun k => k) false f 16 116 (some 2)) (.threw t') ∧
    ((contentOf twoKeys).get 1 = some 101 ∧ (contentOf twoKeys).get 16 = none) ∧
    ∃ F, ∀ f, F ≤ f → t'.at_ (fun k => k) f 1 = .ok none ∧ t'.at_ (fun k => k) f 16 = .ok (some 116) := by
  refine ⟨⟨16, [some ⟨0, 0, 0, 100⟩, some ⟨16, 1, 16, 116⟩] ++ List.replicate 14 none, 2⟩, ⟨16, fun f hf => ?_⟩,
    ⟨rfl, rfl⟩, 16, fun f hf => ?_⟩
  · obtain ⟨f, rfl⟩ : ∃ g, f = g + 16 := ⟨f - 16, by omega⟩
    rfl
  · obtain ⟨f, rfl⟩ : ∃ g, f = g + 16 := ⟨f - 16, by omega⟩
    exact ⟨rfl, rfl⟩

/-- **C103** (partial; missing: keys that are not readable after a move, and the values): when an operation of the growth
throws and a move leaves the key as it is, every key is still in the map, and its value is as it was or what a move leaves
of it.  So the map is as it was if a move leaves the pair as it is, as for types that are copied. -/
theorem C103_grow_partial {K V : Type} [DecidableEq K] (h : K → Nat) (n : Nat) (ops : List (HashOp K V)) (t : HTable K V)
    (b : MadeBy h n ops t) (moved : K × V → K × V) (hk : ∀ kv, (moved kv).1 = kv.1) (asg : Bool) (k : K) (v : V)
    (fail : Nat × Nat) :
    ∃ F, ∀ f, F ≤ f →
      (∃ x, t.emplaceGrowTry h moved asg f k v fail = .ok x ∧ ∃ G, ∀ g, G ≤ g → t.emplace h asg g k v = .ok x) ∨
      ∃ t' m', t.emplaceGrowTry h moved asg f k v fail = .threw t' ∧ Behaves h t' m' ∧ m'.count = (contentOf ops).count ∧
        ∀ k, m'.get k = (contentOf ops).get k ∨ m'.get k = ((contentOf ops).get k).map fun v => (moved (k, v)).2 := by
  obtain ⟨F, hF⟩ := b.rel.emplaceGrowTry moved hk asg k v fail
  refine ⟨F, fun f hf => ?_⟩
  rcases hF f hf with h1 | ⟨t', m', h1, h2, h3⟩
  · exact .inl h1
  · exact .inr ⟨t', m', h1, behaves_of h3, h2.1, h2.2⟩

/-- The map is as it was when a move leaves the pair as it is. -/
theorem C103_grow_copies_partial {K V : Type} [DecidableEq K] (h : K → Nat) (n : Nat) (ops : List (HashOp K V)) (t : HTable K V)
    (b : MadeBy h n ops t) (asg : Bool) (k : K) (v : V) (fail : Nat × Nat) :
    ∃ F, ∀ f, F ≤ f →
      (∃ x, t.emplaceGrowTry h id asg f k v fail = .ok x ∧ ∃ G, ∀ g, G ≤ g → t.emplace h asg g k v = .ok x) ∨
      ∃ t', t.emplaceGrowTry h id asg f k v fail = .threw t' ∧ Behaves h t' (contentOf ops) := by
  obtain ⟨F, hF⟩ := b.rel.emplaceGrowTry id (fun _ => rfl) asg k v fail
  refine ⟨F, fun f hf => ?_⟩
  rcases hF f hf with h1 | ⟨t', m', h1, h2, h3⟩
  · exact .inl h1
  · refine .inr ⟨t', h1, behaves_of (h3.congr (fun k => ?_) h2.1.symm)⟩
    rcases h2.2 k with h4 | h4
    · exact h4.symm
    · rw [h4]; cases (contentOf ops).get k <;> rfl

/-- Two buckets, both occupied. -/
def fullTable : HTable Nat Nat := ⟨2, [some ⟨0, 0, 0, 100⟩, some ⟨1, 0, 1, 101⟩], 2⟩

theorem fullTable_made : MadeBy (fun k => k) 2 twoKeys fullTable := by
  refine ⟨⟨1, by omega, rfl⟩, twoKeys_ok, _, 16, rfl, fun fuel hf => ?_⟩
  obtain ⟨f, rfl⟩ : ∃ f, fuel = f + 16 := ⟨fuel - 16, by omega⟩
  exact ⟨_, rfl⟩

set_option maxRecDepth 4000 in
/-- **C103 fails** for the growth: moving the second element throws, the value of the first has gone (a move leaves 0). -/
theorem C103_grow_violated : ∃ t',
    EvTry (fun f => fullTable.emplaceGrowTry (fun k => k) (fun kv => (kv.1, 0)) false f 2 102 (1, 0)) (.threw t') ∧
    (contentOf twoKeys).get 0 = some 100 ∧
    ∃ F, ∀ f, F ≤ f → t'.at_ (fun k => k) f 0 = .ok (some 0) ∧ t'.at_ (fun k => k) f 1 = .ok (some 101) := by
  refine ⟨⟨2, [some ⟨0, 0, 0, 0⟩, some ⟨1, 0, 1, 101⟩], 2⟩, ⟨16, fun f hf => ?_⟩, rfl, 16, fun f hf => ?_⟩
  · obtain ⟨f, rfl⟩ : ∃ g, f = g + 16 := ⟨f - 16, by omega⟩
    rfl
  · obtain ⟨f, rfl⟩ : ∃ g, f = g + 16 := ⟨f - 16, by omega⟩
    exact ⟨rfl, rfl⟩

/-- **C103** (what is left of an erasure that throws, in every case; partial: the last alternative is not the map as it
was): the call returns what it would return without exceptions; or the move out of the bucket throws and nothing has
changed; or a later move throws, and then there is always an element other than the erased one that an iteration still
shows and that no lookup finds. -/
theorem C103_erase_partial {K V : Type} [DecidableEq K] (h : K → Nat) (n : Nat) (ops : List (HashOp K V)) (t : HTable K V)
    (b : MadeBy h n ops t) (hsz : t.size < t.n) (k : K) (fail : Option Nat) :
    ∃ F, ∀ f, F ≤ f →
      (∃ t', t.eraseTry h f k fail = .ok t' ∧ ∃ G, ∀ g, G ≤ g → t.erase h g k = .ok t') ∨
      (fail = some 0 ∧ ((contentOf ops).get k).isSome = true ∧ t.eraseTry h f k fail = .threw t) ∨
      (fail ≠ none ∧ fail ≠ some 0 ∧ ∃ t', t.eraseTry h f k fail = .threw t' ∧ t'.size + 1 = t.size ∧
        ∃ k1 v1 es, k1 ≠ k ∧ (contentOf ops).get k1 = some v1 ∧
          t'.entries = .ok es ∧ (∃ e ∈ es, e.key = k1 ∧ e.val = v1) ∧
          ∃ G, ∀ g, G ≤ g → t'.find h g k1 = .ok none) :=
  b.rel.eraseTry hsz k fail

/-- Keys 0, 16 and 1, of which 16 and 1 are one bucket away from home. -/
def threeKeys : List (HashOp Nat Nat) := [.emplace 0 100, .emplace 1 101, .emplace 16 116]

def threeKeysTable : HTable Nat Nat :=
  ⟨16, [some ⟨0, 0, 0, 100⟩, some ⟨16, 1, 16, 116⟩, some ⟨1, 1, 1, 101⟩] ++ List.replicate 13 none, 3⟩

theorem threeKeys_made : MadeBy (fun k => k) 16 threeKeys threeKeysTable := by
  refine ⟨⟨4, by omega, rfl⟩, by intro n hn; simp [threeKeys] at hn, _, 16, rfl, fun fuel hf => ?_⟩
  obtain ⟨f, rfl⟩ : ∃ f, fuel = f + 16 := ⟨fuel - 16, by omega⟩
  exact ⟨_, rfl⟩

example : threeKeysTable.size < threeKeysTable.n := by decide

/-- **C103 fails** for an erasure: moving key 16 into the bucket of the erased key 0 throws.  Key 0 is gone all the same,
and key 16, which is still shown by an iteration, is not found either. -/
theorem C103_erase_violated : ∃ t', EvTry (fun f => threeKeysTable.eraseTry (fun k => k) f 0 (some 1)) (.threw t') ∧
    (contentOf threeKeys).get 16 = some 116 ∧ (∃ es, t'.entries = .ok es ∧ (es.map HEntry.key) = [16, 1]) ∧
    ∃ F, ∀ f, F ≤ f → t'.at_ (fun k => k) f 0 = .ok none ∧ t'.at_ (fun k => k) f 16 = .ok none ∧
      t'.at_ (fun k => k) f 1 = .ok (some 101) := by
  refine ⟨⟨16, [none, some ⟨16, 0, 16, 116⟩, some ⟨1, 1, 1, 101⟩] ++ List.replicate 13 none, 2⟩, ⟨16, fun f hf => ?_⟩,
    rfl, ⟨_, rfl, rfl⟩, 16, fun f hf => ?_⟩
  · obtain ⟨f, rfl⟩ : ∃ g, f = g + 16 := ⟨f - 16, by omega⟩
    rfl
  · obtain ⟨f, rfl⟩ : ∃ g, f = g + 16 := ⟨f - 16, by omega⟩
    exact ⟨rfl, rfl, rfl⟩

/-- **C103** for the sparse map: `emplace` that throws, while the sparse vector grows or while the element is constructed,
leaves the map as it was: all later calls answer as those of the finite map before the call. -/
theorem C103_sparse {V : Type} (w : Nat) (ops : List (SparseOp V)) (ok : SparseOps.Ok w FinMap.empty ops) (key : Nat)
    (p : SparseThrow) :
    ∃ t as, (SparseTable.empty : SparseTable V).run w ops = some (t, as) ∧
      (if (((FinMap.empty : FinMap V).run ops).1.get key).isSome then t.emplaceThrows key p = .ok none
       else ∃ t', t.emplaceThrows key p = .ok (some t') ∧
        ∀ ops', SparseOps.Ok w ((FinMap.empty : FinMap V).run ops).1 ops' →
          ∃ t'', t'.run w ops' = some (t'', (((FinMap.empty : FinMap V).run ops).1.run ops').2)) := by
  obtain ⟨t, h1, r⟩ := (SparseTable.Rel.empty w).run ops ok
  refine ⟨t, _, h1, ?_⟩
  split
  · rename_i hs
    simp only [SparseTable.emplaceThrows, r.contains, hs]
  · rename_i hs
    have hs' : (((FinMap.empty : FinMap V).run ops).1.get key).isSome = false := by simpa using hs
    cases p with
    | grow =>
      refine ⟨t, by simp only [SparseTable.emplaceThrows, r.contains, hs'], fun ops' ok' => ?_⟩
      obtain ⟨t'', h2, _⟩ := r.run ops' ok'
      exact ⟨t'', h2⟩
    | construct =>
      refine ⟨t.reserveSparse ((key + 1) % U64), by simp only [SparseTable.emplaceThrows, r.contains, hs'], fun ops' ok' => ?_⟩
      obtain ⟨t'', h2, _⟩ := (r.reserveSparse ((key + 1) % U64)).run ops' ok'
      exact ⟨t'', h2⟩

/-- Key 200 is not there: the sparse vector has grown to 201, the dense one is unchanged, and the key is not found. -/
example : SparseOps.Ok 8 FinMap.empty ([.emplace 7 70] : List (SparseOp Nat)) ∧
    ∃ t t' : SparseTable Nat, SparseTable.empty.run 8 [.emplace 7 70] = some (t, [.entry 7 70 true]) ∧
      t.emplaceThrows 200 .construct = .ok (some t') ∧ t'.cap = 201 ∧ t'.dense = [(7, 70)] := by
  refine ⟨by simp [SparseOps.Ok, SparseOp.keyOk, U64, FinMap.step, FinMap.put, FinMap.empty], ?_⟩
  exact ⟨_, _, rfl, rfl, rfl, rfl⟩

end CoEcs.Props
