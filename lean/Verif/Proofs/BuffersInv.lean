import Verif.Proofs.Buffers

/-!
# Buffers are allocated and given up at the end of the chunks only
-/

namespace CoEcs
open Spec (RegOp SysOp Sys Out noHandle withHandle)
variable {V : Type}

/-! ### Numbers of chunks -/

/-- One chunk may have been appended. -/
def Arch.More (a a' : Arch V) : Prop := a'.chunks.length = a.chunks.length ∨ a'.chunks.length = a.chunks.length + 1

/-- One chunk may have been removed. -/
def Arch.Less (a a' : Arch V) : Prop := a'.chunks.length = a.chunks.length ∨ a'.chunks.length + 1 = a.chunks.length

namespace Arch

theorem ensureFree_more {a b : Arch V} (h : a.ensureFree = some b) : a.More b := by
  unfold ensureFree at h
  split at h
  · cases h
  · split at h <;> cases h
    · right; simp
    · left; rfl

theorem More.of_eq {a b c : Arch V} (h : a.More b) (e : c.chunks.length = b.chunks.length) : a.More c := by
  unfold More at *; omega

theorem emplace_more (a : Arch V) (h : Handle) (args : List (Nat × V)) : (a.emplace h args).All a.More := by
  unfold emplace
  split
  · trivial
  · rename_i b hb
    have hb := ensureFree_more hb
    simp only
    split
    · trivial
    · split
      · exact hb.of_eq (by simp)
      · exact hb.of_eq (by simp)
      · trivial

theorem copyFrom_more (a : Arch V) (src : Row V) (bs : List (BlockId × Bool)) : (a.copyFrom src bs).All a.More := by
  unfold copyFrom
  split
  · trivial
  · rename_i b hb
    have hb := ensureFree_more hb
    simp only
    split
    · trivial
    · split
      · split
        · trivial
        · exact hb.of_eq (by simp)
        · exact hb.of_eq (by simp)
      · trivial

theorem writeCell_length {a a' : Arch V} {ci idx : Nat} {b : BlockId} {cn : Bool} {v : Val V} (h : a.writeCell ci idx b cn v = some a') :
    a'.chunks.length = a.chunks.length := by
  unfold writeCell at h
  split at h
  · split at h
    · cases h; simp
    · split at h
      · cases h; simp
      · cases h
  · cases h

theorem chunkSwapErase_length {a b : Arch V} {ci idx oi : Nat} {m : Option Handle} (h : a.chunkSwapErase ci idx oi = some (b, m)) :
    b.chunks.length = a.chunks.length := by
  unfold chunkSwapErase at h
  split at h
  · cases h
  · split at h
    · split at h
      · split at h
        · cases h
        · cases h; simp
      · split at h
        · cases h
        · split at h
          · cases h
          · split at h
            · split at h
              · cases h
              · simp only at h
                split at h
                · cases h
                · split at h
                  · cases h
                  · cases h; simp
            · cases h
    · cases h

theorem swapErase_less {a b : Arch V} {ci idx : Nat} {m : Option Handle} (h : a.swapErase ci idx = some (b, m)) : a.Less b := by
  unfold swapErase at h
  split at h
  · cases h
  · rename_i a1 m1 h0
    have h1 := chunkSwapErase_length h0
    unfold Less
    split at h
    · cases h
    · split at h
      · rename_i hl; cases h; simp only [List.length_dropLast]; omega
      · cases h; left; exact h1

theorem move_lengths {a o a' o' : Arch V} {ci idx : Nat} {l : Nat × Nat} {m : Option Handle} (h : a.move ci idx o = some (a', o', l, m)) :
    a.Less a' ∧ o.More o' := by
  unfold move at h
  split at h
  · cases h
  · rename_i o1 hf
    have hf := ensureFree_more hf
    simp only at h
    split at h
    · split at h
      · split at h
        · cases h
        · split at h
          · cases h
          · rename_i a1 m1 hs
            cases h
            have := swapErase_less hs
            exact ⟨by simpa [Less] using this, hf.of_eq (by simp)⟩
      · cases h
    · cases h

end Arch

/-! ### New archetypes -/

/-- At most one archetype with one chunk has been appended. -/
def Archs.OneMore (s s' : Archs V) : Prop :=
  s'.arches = s.arches ∨ ∃ a : Arch V, s'.arches = s.arches ++ [a] ∧ a.chunks.length = 1

namespace Archs

theorem ensureKey_oneMore (s : Archs V) (key : Bitset) (comps : MetaSet) : (s.ensureKey key comps).All s.OneMore := by
  unfold ensureKey
  split
  · split
    · split
      · exact .inl rfl
      · split
        · exact .inl rfl
        · rename_i a ha
          refine .inr ⟨a, rfl, ?_⟩
          unfold Arch.mk? at ha
          rw [Option.map_eq_some_iff] at ha
          obtain ⟨cap, _, rfl⟩ := ha
          rfl
    · trivial
  · trivial

theorem ensure_oneMore (s : Archs V) (cs : List CompMeta) : (s.ensure cs).All s.OneMore :=
  (ensureKey_oneMore _ _ _ : Res.All (Archs.OneMore { s with search := _ }) _)

theorem ensureSet_oneMore (s : Archs V) (comps : MetaSet) : (s.ensureSet comps).All s.OneMore := ensureKey_oneMore _ _ _

theorem ensureAdded_oneMore (s : Archs V) (i : Nat) (m : CompMeta) : (s.ensureAdded i m).All s.OneMore := by
  unfold ensureAdded
  split
  · trivial
  · exact (ensureKey_oneMore _ _ _ : Res.All (Archs.OneMore { s with search := _ }) _)

theorem ensureRemoved_oneMore (s : Archs V) (i : Nat) (m : CompMeta) : (s.ensureRemoved i m).All s.OneMore := by
  unfold ensureRemoved
  split
  · trivial
  · exact (ensureKey_oneMore _ _ _ : Res.All (Archs.OneMore { s with search := _ }) _)

end Archs

namespace BReg

/-- Every chunk has a buffer of its own. -/
structure Fits (b : BReg V) : Prop where
  len : ∀ (i : Nat) (a : Arch V), b.reg.archs.arches[i]? = some a → (b.bufs i).length = a.chunks.length
  out : ∀ i, b.reg.archs.arches.length ≤ i → b.bufs i = []
  lt : ∀ (i ci n : Nat), (b.bufs i)[ci]? = some n → n < b.next
  inj : ∀ (i ci j cj n : Nat), (b.bufs i)[ci]? = some n → (b.bufs j)[cj]? = some n → i = j ∧ ci = cj

/-- The buffers of an archetype after a call: only the end of the list may have changed; `T` are the
archetypes where it has. -/
structure Ev (b b' : BReg V) (T : Nat → Prop) : Prop where
  fits : b'.Fits
  next : b.next ≤ b'.next
  same : ∀ i, ¬ T i → b'.bufs i = b.bufs i
  cmp : ∀ i, b.bufs i <+: b'.bufs i ∨ b'.bufs i <+: b.bufs i

theorem Fits.empty : (BReg.empty : BReg V).Fits :=
  ⟨fun i a h => by simp [BReg.empty, Reg.empty, Archs.empty] at h, fun _ _ => rfl, fun i ci n h => by simp [BReg.empty] at h,
    fun i ci j cj n h => by simp [BReg.empty] at h⟩

theorem Fits.ev {b : BReg V} (h : b.Fits) : Ev b b (fun _ => False) :=
  ⟨h, Nat.le_refl _, fun _ _ => rfl, fun _ => .inl (List.prefix_refl _)⟩

/-- A change of pool and locations. -/
theorem Fits.congr {b b' : BReg V} (h : b.Fits) (ha : b'.reg.archs = b.reg.archs) (hb : b'.bufs = b.bufs) (hn : b'.next = b.next) :
    Ev b b' (fun _ => False) := by
  refine ⟨⟨?_, ?_, ?_, ?_⟩, by omega, fun i _ => by rw [hb], fun i => by rw [hb]; exact .inl (List.prefix_refl _)⟩
  · rw [ha, hb]; exact h.len
  · rw [ha, hb]; exact h.out
  · rw [hb, hn]; exact h.lt
  · rw [hb]; exact h.inj

theorem Ev.trans {b c d : BReg V} {T U : Nat → Prop} (h : Ev b c T) (h' : Ev c d U) (hd : ∀ i, T i → U i → b.bufs i = []) :
    Ev b d (fun i => T i ∨ U i) := by
  refine ⟨h'.fits, Nat.le_trans h.next h'.next, fun i hi => ?_, fun i => ?_⟩
  · rw [h'.same i (fun e => hi (.inr e)), h.same i (fun e => hi (.inl e))]
  · by_cases ht : T i
    · by_cases hu : U i
      · rw [hd i ht hu]; exact .inl List.nil_prefix
      · rw [h'.same i hu]; exact h.cmp i
    · rw [← h.same i ht]; exact h'.cmp i

theorem Ev.trans_same {b c d : BReg V} {T : Nat → Prop} (h : Ev b c T) (h' : Ev c d (fun _ => False)) : Ev b d T :=
  ⟨h'.fits, Nat.le_trans h.next h'.next, fun i hi => by rw [h'.same i (fun e => e), h.same i hi],
    fun i => by rw [h'.same i (fun e => e)]; exact h.cmp i⟩

theorem Ev.same_trans {b c d : BReg V} {T : Nat → Prop} (h : Ev b c (fun _ => False)) (h' : Ev c d T) : Ev b d T :=
  ⟨h'.fits, Nat.le_trans h.next h'.next, fun i hi => by rw [h'.same i hi, h.same i (fun e => e)],
    fun i => by rw [← h.same i (fun e => e)]; exact h'.cmp i⟩

theorem Fits.withArchs {b : BReg V} (h : b.Fits) {s : Archs V} (hs : b.reg.archs.OneMore s) :
    Ev b (b.withArchs s) (fun i => i = b.reg.archs.arches.length) := by
  rcases hs with hs | ⟨a, hs, ha⟩
  · have e : b.withArchs s = { b with reg := { b.reg with archs := s } } := by
      unfold BReg.withArchs; rw [if_pos (by rw [hs])]
    rw [e]
    refine ⟨⟨?_, ?_, h.lt, h.inj⟩, Nat.le_refl _, fun i _ => rfl, fun i => .inl (List.prefix_refl _)⟩
    · simp only [hs]; exact h.len
    · simp only [hs]; exact h.out
  · have e : b.withArchs s = { reg := { b.reg with archs := s }
                               bufs := fun i => if i = b.reg.archs.arches.length then [b.next] else b.bufs i
                               next := b.next + 1 } := by
      unfold BReg.withArchs; rw [if_neg (by rw [hs]; simp)]
    rw [e]
    have hnil := h.out _ (Nat.le_refl b.reg.archs.arches.length)
    refine ⟨⟨?_, ?_, ?_, ?_⟩, Nat.le_succ _, fun i hi => by simp only; rw [if_neg hi], fun i => ?_⟩
    · intro i x hx
      simp only [hs] at hx ⊢
      by_cases hi : i = b.reg.archs.arches.length
      · subst hi
        simp at hx
        rw [if_pos rfl, ← hx, ha]; rfl
      · rw [if_neg hi]
        have hlt : i < b.reg.archs.arches.length := by
          have := (List.getElem?_eq_some_iff.1 hx).1
          simp at this; omega
        rw [List.getElem?_append_left hlt] at hx
        exact h.len i x hx
    · intro i hi
      simp only [hs, List.length_append, List.length_singleton] at hi ⊢
      rw [if_neg (by omega)]
      exact h.out i (by omega)
    · intro i ci n hn
      simp only at hn ⊢
      split at hn
      · simp only [List.getElem?_singleton] at hn
        split at hn
        · cases hn; omega
        · cases hn
      · have := h.lt _ _ _ hn; omega
    · intro i ci j cj n h1 h2
      simp only at h1 h2
      have one : ∀ k, [b.next][k]? = some n → k = 0 ∧ n = b.next := by
        intro k hk
        rw [List.getElem?_singleton] at hk
        split at hk
        · cases hk; exact ⟨by assumption, rfl⟩
        · cases hk
      split at h1 <;> split at h2
      · have := one _ h1; have := one _ h2; omega
      · have := one _ h1; have := h.lt _ _ _ h2; omega
      · have := one _ h2; have := h.lt _ _ _ h1; omega
      · exact h.inj _ _ _ _ _ h1 h2
    · simp only
      split
      · rename_i hi; rw [hi, hnil]; exact .inl List.nil_prefix
      · exact .inl (List.prefix_refl _)

theorem Fits.setArch {b : BReg V} (h : b.Fits) {i : Nat} {a a' : Arch V} (ha : b.reg.archs.arches[i]? = some a)
    (hl : a.More a' ∨ a.Less a') : Ev b (b.setArch i a') (fun j => j = i ∧ a'.chunks.length ≠ a.chunks.length) := by
  have hlen := h.len i a ha
  have hil := (List.getElem?_eq_some_iff.1 ha).1
  have arch : ∀ j x, (b.reg.archs.arches.set i a')[j]? = some x → if j = i then x = a' else b.reg.archs.arches[j]? = some x := by
    intro j x hx
    rw [List.getElem?_set] at hx
    by_cases hj : i = j
    · subst hj; simp [hil] at hx; simp [hx]
    · rw [if_neg hj] at hx; rw [if_neg (fun e => hj e.symm)]; exact hx
  unfold BReg.setArch
  split
  · rename_i hlt
    have hl1 : a'.chunks.length = (b.bufs i).length + 1 := by
      unfold Arch.More Arch.Less at hl; omega
    have split_app : ∀ (k n : Nat), (b.bufs i ++ [b.next])[k]? = some n → (b.bufs i)[k]? = some n ∨ (k = (b.bufs i).length ∧ n = b.next) := by
      intro k n hk
      by_cases hk1 : k < (b.bufs i).length
      · rw [List.getElem?_append_left hk1] at hk; exact .inl hk
      · rw [List.getElem?_append_right (by omega), List.getElem?_singleton] at hk
        split at hk
        · cases hk; exact .inr ⟨by omega, rfl⟩
        · cases hk
    refine ⟨⟨?_, ?_, ?_, ?_⟩, Nat.le_succ _, ?_, ?_⟩
    · intro j x hx
      have := arch j x hx
      simp only
      split at this
      · rename_i hj; rw [if_pos hj, this, hl1]; simp
      · rename_i hj; rw [if_neg hj]; exact h.len j x this
    · intro j hj
      simp only [Reg.setArch, List.length_set] at hj ⊢
      rw [if_neg (by omega)]
      exact h.out j hj
    · intro j ci n hn
      simp only at hn ⊢
      split at hn
      · rcases split_app _ _ hn with hn | hn
        · have := h.lt _ _ _ hn; omega
        · omega
      · have := h.lt _ _ _ hn; omega
    · intro j ci k ck n h1 h2
      simp only at h1 h2
      split at h1 <;> split at h2
      · rename_i e1 e2
        rcases split_app _ _ h1 with h1 | h1 <;> rcases split_app _ _ h2 with h2 | h2
        · have := h.inj _ _ _ _ _ h1 h2; omega
        · have := h.lt _ _ _ h1; omega
        · have := h.lt _ _ _ h2; omega
        · omega
      · rename_i e1 e2
        rcases split_app _ _ h1 with h1 | h1
        · have := h.inj _ _ _ _ _ h1 h2; omega
        · have := h.lt _ _ _ h2; omega
      · rename_i e1 e2
        rcases split_app _ _ h2 with h2 | h2
        · have := h.inj _ _ _ _ _ h1 h2; omega
        · have := h.lt _ _ _ h1; omega
      · exact h.inj _ _ _ _ _ h1 h2
    · intro j hj
      simp only
      rw [if_neg (fun e => hj ⟨e, by omega⟩)]
    · intro j
      simp only
      split
      · rename_i e; subst e; exact .inl (List.prefix_append _ _)
      · exact .inl (List.prefix_refl _)
  · rename_i hnlt
    split
    · rename_i hlt
      have hl1 : a'.chunks.length + 1 = (b.bufs i).length := by
        unfold Arch.More Arch.Less at hl; omega
      have drop : ∀ (k n : Nat), ((b.bufs i).dropLast)[k]? = some n → (b.bufs i)[k]? = some n := by
        intro k n hk
        rw [List.getElem?_dropLast] at hk
        split at hk
        · exact hk
        · cases hk
      refine ⟨⟨?_, ?_, ?_, ?_⟩, Nat.le_refl _, ?_, ?_⟩
      · intro j x hx
        have := arch j x hx
        simp only
        split at this
        · rename_i hj; rw [if_pos hj, this]; simp; omega
        · rename_i hj; rw [if_neg hj]; exact h.len j x this
      · intro j hj
        simp only [Reg.setArch, List.length_set] at hj ⊢
        rw [if_neg (by omega)]
        exact h.out j hj
      · intro j ci n hn
        simp only at hn ⊢
        split at hn
        · exact h.lt _ _ _ (drop _ _ hn)
        · exact h.lt _ _ _ hn
      · intro j ci k ck n h1 h2
        simp only at h1 h2
        split at h1 <;> split at h2
        · rename_i e1 e2
          have := h.inj _ _ _ _ _ (drop _ _ h1) (drop _ _ h2); omega
        · rename_i e1 e2
          have := h.inj _ _ _ _ _ (drop _ _ h1) h2; omega
        · rename_i e1 e2
          have := h.inj _ _ _ _ _ h1 (drop _ _ h2); omega
        · exact h.inj _ _ _ _ _ h1 h2
      · intro j hj
        simp only
        rw [if_neg (fun e => hj ⟨e, by omega⟩)]
      · intro j
        simp only
        split
        · rename_i e; subst e; exact .inr (List.dropLast_prefix _)
        · exact .inl (List.prefix_refl _)
    · refine ⟨⟨?_, ?_, h.lt, h.inj⟩, Nat.le_refl _, fun _ _ => rfl, fun _ => .inl (List.prefix_refl _)⟩
      · intro j x hx
        have := arch j x hx
        split at this
        · rename_i hj; simp only [hj, this]; omega
        · exact h.len j x this
      · intro j hj
        simp only [Reg.setArch, List.length_set] at hj
        exact h.out j hj

/-- Access to an archetype without a change of the number of its chunks. -/
theorem Fits.access {b : BReg V} (h : b.Fits) {i : Nat} {a a' : Arch V} (ha : b.reg.archs.arches[i]? = some a)
    (hl : a'.chunks.length = a.chunks.length) : Ev b (b.setArch i a') (fun _ => False) := by
  have := h.setArch ha (a' := a') (.inl (.inl hl))
  exact ⟨this.fits, this.next, fun j _ => this.same j (fun e => e.2 hl), this.cmp⟩

theorem setLoc_ev {b b' : BReg V} {id : Nat} {l : Loc} (hb : b.Fits) (h : b.setLoc id l = some b') : Ev b b' (fun _ => False) := by
  unfold setLoc at h
  split at h
  · cases h
  · rename_i r hr
    cases h
    exact hb.congr (Reg.setLoc_archs hr) rfl rfl

theorem removeLoc_ev {b b' : BReg V} {id : Nat} (hb : b.Fits) (h : b.removeLoc id = some b') : Ev b b' (fun _ => False) := by
  unfold removeLoc at h
  split at h
  · cases h
  · rename_i r hr
    cases h
    exact hb.congr (Reg.removeLoc_archs hr) rfl rfl

theorem setMoved_ev {b b' : BReg V} {m : Option Handle} {l : Loc} (hb : b.Fits) (h : b.setMoved m l = some b') :
    Ev b b' (fun _ => False) := by
  unfold setMoved at h
  split at h
  · cases h
  · rename_i r hr
    cases h
    exact hb.congr (Reg.setMoved_archs hr) rfl rfl

theorem withPool_ev {b : BReg V} (hb : b.Fits) (p : Pool) : Ev b (b.withPool p) (fun _ => False) := hb.congr rfl rfl rfl

/-- Some archetypes changed. -/
def Evolves (b b' : BReg V) : Prop := ∃ T, Ev b b' T

theorem Fits.refl {b : BReg V} (h : b.Fits) : Evolves b b := ⟨_, h.ev⟩

theorem create_ev (ty : Types) {b : BReg V} (hb : b.Fits) (args : List (Nat × V)) : (b.create ty args).All (Evolves b) := by
  unfold create
  split
  · trivial
  · rename_i p h hp
    have e0 := withPool_ev hb p
    simp only
    have he := Archs.ensure_oneMore (b.withPool p).reg.archs (args.map fun x => ty.info x.1)
    split
    · trivial
    · rename_i s e heq
      rw [heq] at he
      exact ⟨_, e0.same_trans (e0.fits.withArchs he)⟩
    · rename_i s ai heq
      rw [heq] at he
      have e1 := e0.same_trans (e0.fits.withArchs he)
      split
      · trivial
      · rename_i a ha
        have hm := Arch.emplace_more a h args
        have out : b.bufs b.reg.archs.arches.length = [] := hb.out _ (Nat.le_refl _)
        have step : ∀ a', a.More a' → ∃ T, Ev b (((b.withPool p).withArchs s).setArch ai a') T := fun a' hm' =>
          ⟨_, e1.trans (e1.fits.setArch (a := a) (by rw [withArchs_reg]; exact ha) (.inl hm')) fun i ht _ => by rw [ht]; exact out⟩
        split
        · trivial
        · rename_i a' e heq2
          rw [heq2] at hm
          exact step a' hm
        · rename_i a' ci idx heq2
          rw [heq2] at hm
          split
          · trivial
          · rename_i b' hb'
            obtain ⟨T, e2⟩ := step a' hm
            exact ⟨T, e2.trans_same (setLoc_ev e2.fits hb')⟩

theorem destroy_ev {b : BReg V} (hb : b.Fits) (h : Handle) : (b.destroy h).All (Evolves b) := by
  unfold destroy
  split
  · trivial
  · exact hb.refl
  · split
    · trivial
    · rename_i ai a ha
      split
      · trivial
      · rename_i a' m hs
        have e1 := hb.setArch (Reg.archOf_arch ha) (.inr (Arch.swapErase_less hs))
        split
        · trivial
        · rename_i b1 h1
          have e2 := e1.trans_same (removeLoc_ev e1.fits h1)
          split
          · trivial
          · rename_i b2 h2
            have e3 := e2.trans_same (setMoved_ev e2.fits h2)
            exact ⟨_, e3.trans_same (withPool_ev e3.fits _)⟩

theorem relocate_ev {b b' : BReg V} (hb : b.Fits) {h : Handle} {l l' : Loc} {ai ni : Nat} (hr : b.relocate h l ai ni = some (b', l')) :
    Ev b b' (fun i => i = ai ∨ i = ni) := by
  unfold relocate at hr
  split at hr
  · rename_i a n ha hn
    split at hr
    · cases hr
    · rename_i hne
      split at hr
      · cases hr
      · rename_i a' n' ci idx m hm
        obtain ⟨q1, q2⟩ := Arch.move_lengths hm
        have e1 := hb.setArch ha (.inr q1)
        have e2 := e1.trans (e1.fits.setArch (i := ni) (a := n)
          (by rw [setArch_reg]; simp only [Reg.setArch, List.getElem?_set]; rw [if_neg hne]; exact hn) (.inl q2))
          (fun i ht hu => absurd (ht.1.symm.trans hu.1) hne)
        split at hr
        · cases hr
        · rename_i b1 h1
          have e3 := e2.trans_same (setMoved_ev e2.fits h1)
          split at hr
          · cases hr
          · rename_i b2 h2
            cases hr
            have e4 := e3.trans_same (setLoc_ev e3.fits h2)
            exact ⟨e4.fits, e4.next, fun i hi => e4.same i (fun ht => hi (ht.elim (fun x => .inl x.1) fun x => .inr x.1)), e4.cmp⟩
  · cases hr

/-- `ensure_archetype` followed by a relocation of an entity of an archetype that was there. -/
theorem withArchs_relocate_ev {b b' : BReg V} (hb : b.Fits) {s : Archs V} (hs : b.reg.archs.OneMore s) {h : Handle} {l l' : Loc} {ai ni : Nat}
    (hr : (b.withArchs s).relocate h l ai ni = some (b', l')) : Evolves b b' := by
  have e1 := hb.withArchs hs
  exact ⟨_, e1.trans (relocate_ev e1.fits hr) fun i ht _ => by rw [ht]; exact hb.out _ (Nat.le_refl _)⟩

theorem setImpl_ev (ty : Types) {b : BReg V} (hb : b.Fits) (h : Handle) (c : Nat) : (b.setImpl ty h c).All (Evolves b) := by
  unfold setImpl
  split
  · trivial
  · exact hb.refl
  · split
    · trivial
    · rename_i ai a ha
      split
      · exact hb.refl
      · have he := Archs.ensureAdded_oneMore b.reg.archs ai (ty.info c)
        split
        · trivial
        · rename_i heq; rw [heq] at he
          exact ⟨_, hb.withArchs he⟩
        · rename_i s ni heq
          rw [heq] at he
          split
          · trivial
          · rename_i b' l' hr
            exact withArchs_relocate_ev hb he hr

theorem writeAt_ev {b b' : BReg V} (hb : b.Fits) {l : Loc} {c : Nat} {cn : Bool} {v : V} (h : b.writeAt l c cn v = some b') :
    Ev b b' (fun _ => False) := by
  unfold writeAt at h
  split at h
  · cases h
  · rename_i ai a ha
    split at h
    · split at h
      · cases h
      · rename_i a' hw
        cases h
        exact hb.access (Reg.archOf_arch ha) (Arch.writeCell_length hw)
    · cases h

theorem set_ev (ty : Types) {b : BReg V} (hb : b.Fits) (h : Handle) (c : Nat) (v : V) : (b.set ty h c v).All (Evolves b) := by
  unfold set
  have hs := setImpl_ev ty hb h c
  split
  · trivial
  · rename_i heq; rw [heq] at hs; exact hs
  · rename_i b1 ins l heq
    rw [heq] at hs
    obtain ⟨T, e1⟩ := hs
    split
    · trivial
    · rename_i hw
      exact ⟨T, e1.trans_same (writeAt_ev e1.fits hw)⟩

theorem getOrInsert_ev (ty : Types) {b : BReg V} (hb : b.Fits) (h : Handle) (c : Nat) (v : V) :
    (b.getOrInsert ty h c v).All (Evolves b) := by
  unfold getOrInsert
  have hs := setImpl_ev ty hb h c
  split
  · trivial
  · rename_i heq; rw [heq] at hs; exact hs
  · rename_i b1 ins l heq
    rw [heq] at hs
    obtain ⟨T, e1⟩ := hs
    split
    · trivial
    · rename_i b2 hw
      have e2 : Ev b1 b2 (fun _ => False) := by
        cases ins with
        | true => simp only [if_true] at hw; exact writeAt_ev e1.fits hw
        | false => simp only [Bool.false_eq_true, if_false] at hw; cases hw; exact e1.fits.ev
      split
      · trivial
      · exact ⟨T, e1.trans_same e2⟩

theorem remove_ev (ty : Types) {b : BReg V} (hb : b.Fits) (h : Handle) (c : Nat) : (b.remove ty h c).All (Evolves b) := by
  unfold remove
  split
  · trivial
  · exact hb.refl
  · split
    · trivial
    · rename_i ai a ha
      split
      · have he := Archs.ensureRemoved_oneMore b.reg.archs ai (ty.info c)
        split
        · trivial
        · rename_i heq; rw [heq] at he
          exact ⟨_, hb.withArchs he⟩
        · rename_i s ni heq
          rw [heq] at he
          split
          · trivial
          · rename_i b' l' hr
            exact withArchs_relocate_ev hb he hr
      · exact hb.refl

theorem assign_ev {b : BReg V} (hb : b.Fits) (h : Handle) (c : Nat) (v : V) : (b.assign h c v).All (Evolves b) := by
  unfold assign
  split
  · trivial
  · exact hb.refl
  · split
    · trivial
    · split
      · trivial
      · split
        · split
          · trivial
          · rename_i hw; exact ⟨_, writeAt_ev hb hw⟩
        · exact hb.refl

theorem receive_ev {b : BReg V} (hb : b.Fits) (a : Arch V) (row : Row V) (ph : Handle) : (b.receive a row ph).All (Evolves b) := by
  unfold receive
  have he := Archs.ensureSet_oneMore b.reg.archs a.comps
  split
  · trivial
  · rename_i heq; rw [heq] at he
    exact ⟨_, hb.withArchs he⟩
  · rename_i s di heq
    rw [heq] at he
    have e1 := hb.withArchs he
    split
    · trivial
    · rename_i da hda
      have hm := Arch.copyFrom_more da row a.copyBlocks
      have step : ∀ a', da.More a' → ∃ T, Ev b ((b.withArchs s).setArch di a') T := fun a' hm' =>
        ⟨_, e1.trans (e1.fits.setArch (a := da) (by rw [withArchs_reg]; exact hda) (.inl hm')) fun i ht _ => by
          rw [ht]; exact hb.out _ (Nat.le_refl _)⟩
      split
      · trivial
      · rename_i heq2; rw [heq2] at hm
        exact step _ hm
      · rename_i da' ci idx heq2
        rw [heq2] at hm
        split
        · trivial
        · rename_i da'' hw
          obtain ⟨T, e2⟩ := step da'' (Arch.More.of_eq hm (Arch.writeCell_length hw))
          split
          · trivial
          · rename_i b' hb'
            exact ⟨T, e2.trans_same (setLoc_ev e2.fits hb')⟩

theorem copyInto_ev (r : Reg V) (h : Handle) {b : BReg V} (hb : b.Fits) (ph : Handle) : (copyInto r h b ph).All (Evolves b) := by
  unfold copyInto
  split
  · trivial
  · exact hb.refl
  · exact receive_ev hb _ _ _

theorem copyTo_ev (r : Reg V) (h : Handle) {b : BReg V} (hb : b.Fits) : (copyTo r h b).All (Evolves b) := by
  unfold copyTo
  split
  · trivial
  · rename_i p ph _
    have e0 := withPool_ev hb p
    have := copyInto_ev r h e0.fits ph
    cases hc : copyInto r h (b.withPool p) ph with
    | ub => trivial
    | ok b' _ => rw [hc] at this; obtain ⟨T, e⟩ := this; exact ⟨T, e0.same_trans e⟩
    | throw b' _ => rw [hc] at this; obtain ⟨T, e⟩ := this; exact ⟨T, e0.same_trans e⟩

theorem clone_ev {b : BReg V} (hb : b.Fits) (h : Handle) : (b.clone h).All (Evolves b) := by
  unfold clone
  split
  · trivial
  · rename_i p ph _
    have e0 := withPool_ev hb p
    have := copyInto_ev (b.withPool p).reg h e0.fits ph
    cases hc : copyInto (b.withPool p).reg h (b.withPool p) ph with
    | ub => trivial
    | ok b' _ => rw [hc] at this; obtain ⟨T, e⟩ := this; exact ⟨T, e0.same_trans e⟩
    | throw b' _ => rw [hc] at this; obtain ⟨T, e⟩ := this; exact ⟨T, e0.same_trans e⟩

theorem moveInto_ev {b d : BReg V} (hb : b.Fits) (hd : d.Fits) (h : Handle) (ph : Handle) :
    (b.moveInto h d ph).All fun x => Evolves b x.1 ∧ Evolves d x.2 := by
  unfold moveInto
  split
  · trivial
  · exact ⟨hb.refl, hd.refl⟩
  · split
    · trivial
    · rename_i ai a ha
      have he := Archs.ensureSet_oneMore d.reg.archs a.comps
      split
      · trivial
      · rename_i heq; rw [heq] at he
        exact ⟨hb.refl, _, hd.withArchs he⟩
      · rename_i s di heq
        rw [heq] at he
        have f1 := hd.withArchs he
        split
        · trivial
        · rename_i da hda
          split
          · trivial
          · rename_i a' da' ci idx m hm
            obtain ⟨q1, q2⟩ := Arch.move_lengths hm
            have e1 := hb.setArch (Reg.archOf_arch ha) (.inr q1)
            split
            · trivial
            · rename_i b1 h1
              have e2 := e1.trans_same (removeLoc_ev e1.fits h1)
              split
              · trivial
              · rename_i b2 h2
                have e3 := e2.trans_same (setMoved_ev e2.fits h2)
                split
                · trivial
                · rename_i da'' hw
                  have f2 := f1.trans (f1.fits.setArch (a := da) (a' := da'') (by rw [withArchs_reg]; exact hda)
                    (.inl (q2.of_eq (Arch.writeCell_length hw)))) fun i ht _ => by rw [ht]; exact hd.out _ (Nat.le_refl _)
                  split
                  · trivial
                  · rename_i d' hd'
                    exact ⟨⟨_, e3.trans_same (withPool_ev e3.fits _)⟩, _, f2.trans_same (setLoc_ev f2.fits hd')⟩

theorem moveTo_ev {b d : BReg V} (hb : b.Fits) (hd : d.Fits) (h : Handle) :
    (b.moveTo h d).All fun x => Evolves b x.1 ∧ Evolves d x.2 := by
  unfold moveTo
  split
  · trivial
  · rename_i p ph _
    have e0 := withPool_ev hd p
    have := moveInto_ev hb e0.fits h ph
    cases hc : b.moveInto h (d.withPool p) ph with
    | ub => trivial
    | ok b' _ => rw [hc] at this; obtain ⟨h1, T, e⟩ := this; exact ⟨h1, T, e0.same_trans e⟩
    | throw b' _ => rw [hc] at this; obtain ⟨h1, T, e⟩ := this; exact ⟨h1, T, e0.same_trans e⟩

theorem noHandle_all {σ α : Type} {Q : σ → Prop} {x : Res σ α} (h : x.All Q) : (noHandle x).All Q := by cases x <;> exact h

theorem withHandle_all {σ : Type} {Q : σ → Prop} {x : Res σ Handle} (h : x.All Q) : (withHandle x).All Q := by cases x <;> exact h

theorem run_ev (ty : Types) {b : BReg V} (hb : b.Fits) (op : RegOp V) : (b.run ty op).All (Evolves b) := by
  cases op with
  | create args => exact withHandle_all (create_ev ty hb args)
  | destroy h => exact noHandle_all (destroy_ev hb h)
  | set h c v => exact noHandle_all (set_ev ty hb h c v)
  | remove h c => exact noHandle_all (remove_ev ty hb h c)
  | assign h c v => exact noHandle_all (assign_ev hb h c v)
  | getOrInsert h c v => exact noHandle_all (getOrInsert_ev ty hb h c v)
  | clone h ph =>
    cases ph with
    | none => exact withHandle_all (clone_ev hb h)
    | some ph => exact withHandle_all (copyInto_ev b.reg h hb ph)
  | reserve =>
    refine withHandle_all ?_
    unfold reserve
    split
    · trivial
    · exact ⟨_, withPool_ev hb _⟩
  | sync => exact ⟨_, withPool_ev hb _⟩

end BReg

/-- Every chunk of every registry has a buffer, and a step changes the buffers at the ends only. -/
theorem BSys.step_ev {ty : Types} {s s' : BSys V} {op : SysOp V} {out : Out} (hf : ∀ i, (s.reg i).Fits)
    (h : s.step ty op = some (s', out)) (hm : ∀ i x j ph, op = .move i x j ph → i ≠ j) : ∀ i, BReg.Evolves (s.reg i) (s'.reg i) := by
  have one : ∀ (j : Nat) (b : BReg V) (s1 : Sys V), s1.reg = (s.setReg j b).sys.reg → BReg.Evolves (s.reg j) b → ∀ i,
      BReg.Evolves (s.reg i) (({ s.setReg j b with sys := s1 } : BSys V).reg i) := by
    intro j b s1 hs1 he i
    unfold BSys.reg at he ⊢
    simp only [hs1, BSys.setReg, Sys.setReg]
    by_cases hi : i = j
    · subst hi; simpa using he
    · have := (hf i).refl; unfold BSys.reg at this; simpa [hi] using this
  cases op with
  | on j op =>
    unfold BSys.step at h
    simp only at h
    have he := BReg.run_ev ty (hf j) op
    split at h
    · cases h
    · rename_i heq; rw [heq] at he; cases h
      exact one j _ _ rfl he
    · rename_i heq; rw [heq] at he; cases h
      refine one j _ _ ?_ he
      unfold Sys.note
      cases op <;> try rfl
      · rename_i x ph; cases ph <;> rfl
      · rename_i hh; cases hh <;> rfl
  | copy i x j ph =>
    unfold BSys.step at h
    simp only at h
    have fin : ∀ x : Res (BReg V) Handle, x.All (BReg.Evolves (s.reg j)) → (match x with
        | .ub => none
        | .throw d e => some (s.setReg j d, .throw e)
        | .ok d h' => some ({ s.setReg j d with sys := (s.setReg j d).sys.use j ph }, .ok (some h'))) = some (s', out) →
        ∀ i, BReg.Evolves (s.reg i) (s'.reg i) := by
      intro x he h
      cases x with
      | ub => cases h
      | throw d e => cases h; exact one j _ _ rfl he
      | ok d h' =>
        cases h
        refine one j _ _ ?_ he
        cases ph <;> rfl
    cases ph with
    | none => exact fin _ (BReg.copyTo_ev _ _ (hf j)) h
    | some p => exact fin _ (BReg.copyInto_ev _ _ (hf j) _) h
  | move i x j ph =>
    have hij := hm i x j ph rfl
    unfold BSys.step at h
    simp only at h
    have two : ∀ (b d : BReg V) (s1 : Sys V), s1.reg = ((s.setReg i b).setReg j d).sys.reg →
        BReg.Evolves (s.reg i) b ∧ BReg.Evolves (s.reg j) d → ∀ k,
        BReg.Evolves (s.reg k) (({ (s.setReg i b).setReg j d with sys := s1 } : BSys V).reg k) := by
      intro b d s1 hs1 he k
      unfold BSys.reg at he ⊢
      simp only [hs1, BSys.setReg, Sys.setReg]
      by_cases hk : k = j
      · subst hk; simpa using he.2
      · by_cases hi : k = i
        · subst hi; simpa [hk] using he.1
        · have := (hf k).refl; unfold BSys.reg at this; simpa [hi, hk] using this
    have fin : ∀ x : Res (BReg V × BReg V) Handle, (x.All fun y => BReg.Evolves (s.reg i) y.1 ∧ BReg.Evolves (s.reg j) y.2) → (match x with
        | .ub => none
        | .throw (r, d) e => some ((s.setReg i r).setReg j d, .throw e)
        | .ok (r, d) h' =>
          some ({ (s.setReg i r).setReg j d with sys := ((s.setReg i r).setReg j d).sys.use j ph }, .ok (some h'))) = some (s', out) →
        ∀ i, BReg.Evolves (s.reg i) (s'.reg i) := by
      intro x he h
      cases x with
      | ub => cases h
      | throw d e => cases h; exact two _ _ _ rfl he
      | ok d h' =>
        cases h
        refine two _ _ _ ?_ he
        cases ph <;> rfl
    cases ph with
    | none => exact fin _ (BReg.moveTo_ev (hf i) (hf j) _) h
    | some p => exact fin _ (BReg.moveInto_ev (hf i) (hf j) _ _) h

end CoEcs
