import Verif.Spec.Growth

/-!
# How much room the chunks of an archetype waste
-/

namespace CoEcs
open Spec
variable {V : Type}

/-- Free entries in chunks that are not the last. -/
def Arch.slack (a : Arch V) : Nat := (a.chunks.dropLast.map fun c => a.cap - c.size).sum

/-- The archetype has at most `k` more free entries in chunks that are not the last. -/
structure Arch.Leads (a a' : Arch V) (k : Nat) : Prop where
  cap : a'.cap = a.cap
  slack : a'.slack ≤ a.slack + k

namespace Arch

theorem Leads.refl (a : Arch V) : a.Leads a 0 := ⟨rfl, Nat.le_refl _⟩

theorem Leads.trans {a b c : Arch V} {k l : Nat} (h : a.Leads b k) (h' : b.Leads c l) : a.Leads c (k + l) :=
  ⟨h'.cap.trans h.cap, by have := h.slack; have := h'.slack; omega⟩

theorem Leads.mono {a b : Arch V} {k l : Nat} (h : a.Leads b k) (hl : k ≤ l) : a.Leads b l :=
  ⟨h.cap, by have := h.slack; omega⟩

theorem dropLast_set_last {α : Type} (l : List α) (x : α) : (l.set (l.length - 1) x).dropLast = l.dropLast := by
  rw [List.dropLast_eq_take, List.dropLast_eq_take, List.length_set, List.take_set_of_le (Nat.le_refl _)]

theorem dropLast_set_lt {α : Type} (l : List α) {i : Nat} (h : i < l.length - 1) (x : α) :
    (l.set i x).dropLast = l.dropLast.set i x := by
  rw [List.dropLast_eq_take, List.dropLast_eq_take, List.length_set, List.take_set]

theorem sum_map_set {α : Type} (l : List α) (f : α → Nat) {i : Nat} {x : α} (h : l[i]? = some x) (y : α) :
    ((l.set i y).map f).sum + f x = (l.map f).sum + f y := by
  induction l generalizing i with
  | nil => simp at h
  | cons a l ih =>
    cases i with
    | zero => simp at h; subst h; simp; omega
    | succ i =>
      simp at h
      have := ih h
      simp only [List.set_cons_succ, List.map_cons, List.sum_cons]
      omega

/-- Replacing a chunk. -/
theorem leads_set (a : Arch V) {ci : Nat} {c : Chunk V} (hc : a.chunks[ci]? = some c) (c' : Chunk V) (t : Tally) {k : Nat}
    (h : c.size ≤ c'.size + k ∨ ci = a.chunks.length - 1) : a.Leads { a with chunks := a.chunks.set ci c', tally := t } k := by
  refine ⟨rfl, ?_⟩
  unfold slack
  simp only
  have hlt := (List.getElem?_eq_some_iff.1 hc).1
  by_cases hci : ci = a.chunks.length - 1
  · subst hci
    rw [dropLast_set_last]
    omega
  · have hk := h.resolve_right hci
    rw [dropLast_set_lt _ (by omega)]
    have hd : a.chunks.dropLast[ci]? = some c := by
      rw [List.getElem?_dropLast, if_pos (by omega)]
      exact hc
    have := sum_map_set a.chunks.dropLast (fun c => a.cap - c.size) hd c'
    omega

theorem ensureFree_leads {a b : Arch V} (h : a.ensureFree = some b) : a.Leads b 0 := by
  unfold ensureFree at h
  split at h
  · cases h
  · rename_i c hc
    split at h
    · rename_i hs
      cases h
      refine ⟨rfl, ?_⟩
      unfold slack
      simp only [List.dropLast_concat]
      have hne : a.chunks ≠ [] := by rintro e; simp [e] at hc
      have hl : a.chunks = a.chunks.dropLast ++ [c] := by
        rw [List.getLast?_eq_some_getLast hne] at hc
        cases hc
        exact (List.dropLast_concat_getLast hne).symm
      conv => lhs; rw [hl]
      simp [hs]
    · cases h; exact .refl _

theorem emplace_leads (a : Arch V) (h : Handle) (args : List (Nat × V)) : (a.emplace h args).All fun a' => a.Leads a' 0 := by
  unfold emplace
  split
  · trivial
  · rename_i b hb
    have hb := ensureFree_leads hb
    simp only
    split
    · trivial
    · rename_i c hc
      split
      · exact (hb.trans (leads_set b hc _ _ (k := 0) (.inr rfl)) : Arch.Leads _ _ 0)
      · exact (hb.trans (leads_set b hc _ _ (k := 0) (.inr rfl)) : Arch.Leads _ _ 0)
      · trivial

theorem popBack_size {blocks : List BlockId} {cap : Nat} {c c' : Chunk V} {t t' : Tally} (h : c.popBack blocks cap t = some (c', t')) :
    c.size ≤ c'.size + 1 := by
  unfold Chunk.popBack at h
  split at h
  · rw [Option.map_eq_some_iff] at h
    obtain ⟨r, -, h⟩ := h
    cases h
    simp only [Chunk.setRow]
    omega
  · cases h

theorem chunkSwapErase_leads {a b : Arch V} {ci idx oi : Nat} {m : Option Handle} (ho : oi = a.chunks.length - 1)
    (h : a.chunkSwapErase ci idx oi = some (b, m)) : a.Leads b 1 := by
  unfold chunkSwapErase at h
  split at h
  · cases h
  · rename_i c hc
    split at h
    · split at h
      · split at h
        · cases h
        · rename_i c' t hp
          cases h
          exact leads_set a hc _ _ (.inl (popBack_size hp))
      · split at h
        · cases h
        · split at h
          · cases h
          · split at h
            · split at h
              · cases h
              · rename_i s d _
                simp only at h
                split at h
                · cases h
                · rename_i o1 h1
                  split at h
                  · cases h
                  · cases h
                    have e1 : a.Leads { a with chunks := a.chunks.set ci (c.setRow idx d), tally := a.tally } 0 :=
                      leads_set a hc _ _ (.inl (by simp [Chunk.setRow]))
                    have e2 := leads_set ({ a with chunks := a.chunks.set ci (c.setRow idx d), tally := a.tally } : Arch V) h1
                      (by assumption) (by assumption) (k := 0) (.inr (by simp [ho]))
                    exact (e1.trans e2).mono (by omega)
            · cases h
    · cases h

theorem swapErase_leads {a b : Arch V} {ci idx : Nat} {m : Option Handle} (h : a.swapErase ci idx = some (b, m)) : a.Leads b 1 := by
  unfold swapErase at h
  split at h
  · cases h
  · rename_i a1 m1 h0
    have h1 := chunkSwapErase_leads rfl h0
    split at h
    · cases h
    · split at h
      · cases h
        refine ⟨h1.cap, Nat.le_trans ?_ h1.slack⟩
        unfold slack
        simp only
        rw [List.dropLast_eq_take (l := a1.chunks.dropLast)]
        conv => rhs; rw [← List.take_append_drop (a1.chunks.dropLast.length - 1) a1.chunks.dropLast]
        rw [List.map_append, List.sum_append]
        omega
      · cases h; exact h1

theorem move_leads {a o a' o' : Arch V} {ci idx : Nat} {l : Nat × Nat} {m : Option Handle} (h : a.move ci idx o = some (a', o', l, m)) :
    a.Leads a' 1 ∧ o.Leads o' 0 := by
  unfold move at h
  split at h
  · cases h
  · rename_i o1 hf
    have hf := ensureFree_leads hf
    simp only at h
    split at h
    · rename_i oc c hoc hc
      split at h
      · split at h
        · cases h
        · split at h
          · cases h
          · rename_i s d t _ _ _ _ hs
            cases h
            have e1 : a.Leads { a with chunks := a.chunks.set ci (c.setRow idx s), tally := a.tally } 0 :=
              leads_set a hc _ _ (.inl (by simp [Chunk.setRow]))
            exact ⟨(e1.trans (swapErase_leads hs)).mono (by omega), hf.trans (leads_set o1 hoc _ _ (k := 0) (.inr rfl))⟩
      · cases h
    · cases h

theorem copyFrom_leads (a : Arch V) (src : Row V) (bs : List (BlockId × Bool)) : (a.copyFrom src bs).All fun a' => a.Leads a' 0 := by
  unfold copyFrom
  split
  · trivial
  · rename_i b hb
    have hb := ensureFree_leads hb
    simp only
    split
    · trivial
    · rename_i c hc
      split
      · split
        · trivial
        · exact (hb.trans (leads_set b hc _ _ (k := 0) (.inr rfl)) : Arch.Leads _ _ 0)
        · exact (hb.trans (leads_set b hc _ _ (k := 0) (.inr rfl)) : Arch.Leads _ _ 0)
      · trivial

theorem writeCell_leads {a a' : Arch V} {ci idx : Nat} {b : BlockId} {cn : Bool} {v : Val V} (h : a.writeCell ci idx b cn v = some a') :
    a.Leads a' 0 := by
  unfold writeCell at h
  split at h
  · rename_i r c _ hc
    split at h
    · cases h; exact leads_set a hc _ _ (.inl (by simp [Chunk.setRow]))
    · split at h
      · cases h; exact leads_set a hc _ a.tally (.inl (by simp [Chunk.setRow]))
      · cases h
  · cases h

/-- What the slack says about the number of chunks. -/
theorem slack_bound (a : Arch V) : (a.chunks.length - 1) * a.cap ≤ a.entries + a.slack := by
  have key : ∀ l : List (Chunk V), l.length * a.cap ≤ (l.map Chunk.size).sum + (l.map fun c => a.cap - c.size).sum := by
    intro l
    induction l with
    | nil => simp
    | cons c l ih => simp only [List.length_cons, List.map_cons, List.sum_cons, Nat.add_mul]; omega
  have h := key a.chunks.dropLast
  rw [List.length_dropLast] at h
  have h2 : (a.chunks.dropLast.map Chunk.size).sum ≤ a.entries := by
    unfold entries
    conv => rhs; rw [← List.take_append_drop (a.chunks.length - 1) a.chunks]
    rw [List.map_append, List.sum_append, List.dropLast_eq_take]
    omega
  unfold slack
  omega

end Arch

/-- The same for all archetypes of a registry; new ones begin with one chunk. -/
def Archs.Leads (s s' : Archs V) (k : Nat) : Prop :=
  ∀ (i : Nat) (a' : Arch V), s'.arches[i]? = some a' → a'.slack ≤ k ∨ ∃ a, s.arches[i]? = some a ∧ a.Leads a' k

namespace Archs

theorem Leads.refl (s : Archs V) : s.Leads s 0 := fun _ a h => .inr ⟨a, h, .refl _⟩

theorem Leads.of_eq {s s' : Archs V} (h : s'.arches = s.arches) : s.Leads s' 0 := fun _ a ha => .inr ⟨a, h ▸ ha, .refl _⟩

theorem Leads.trans {s t u : Archs V} {k l : Nat} (h : s.Leads t k) (h' : t.Leads u l) : s.Leads u (k + l) := by
  intro i a ha
  rcases h' i a ha with h1 | ⟨b, hb, h1⟩
  · exact .inl (by omega)
  · rcases h i b hb with h2 | ⟨c, hc, h2⟩
    · have := h1.slack; exact .inl (by omega)
    · exact .inr ⟨c, hc, h2.trans h1⟩

theorem Leads.mono {s t : Archs V} {k l : Nat} (h : s.Leads t k) (hl : k ≤ l) : s.Leads t l := by
  intro i a ha
  rcases h i a ha with h1 | ⟨b, hb, h1⟩
  · exact .inl (by omega)
  · exact .inr ⟨b, hb, h1.mono hl⟩

theorem leads_set (s : Archs V) {i : Nat} {a a' : Arch V} (ha : s.arches[i]? = some a) {k : Nat} (h : a.Leads a' k) :
    s.Leads { s with arches := s.arches.set i a' } k := by
  intro j b hb
  simp only [List.getElem?_set] at hb
  split at hb
  · rename_i e
    subst e
    split at hb
    · cases hb; exact .inr ⟨a, ha, h⟩
    · cases hb
  · exact .inr ⟨b, hb, (Arch.Leads.refl b).mono (by omega)⟩

theorem ensureKey_leads (s : Archs V) (key : Bitset) (comps : MetaSet) : (s.ensureKey key comps).All fun s' => s.Leads s' 0 := by
  unfold ensureKey
  split
  · split
    · split
      · exact .of_eq rfl
      · split
        · exact .of_eq rfl
        · rename_i a ha
          intro i b hb
          simp only [List.getElem?_append] at hb
          split at hb
          · exact .inr ⟨b, hb, .refl _⟩
          · rw [List.getElem?_singleton] at hb
            split at hb
            · cases hb
              simp only [Arch.mk?, Option.map_eq_some_iff] at ha
              obtain ⟨cap, -, rfl⟩ := ha
              exact .inl (by simp [Arch.slack])
            · cases hb
    · trivial
  · trivial

theorem Leads.ofSearch {s s' : Archs V} {b : Bitset} {k : Nat} (h : Archs.Leads { s with search := b } s' k) : s.Leads s' k := h

theorem ensure_leads (s : Archs V) (cs : List CompMeta) : (s.ensure cs).All fun s' => s.Leads s' 0 :=
  (ensureKey_leads _ _ _ : Res.All (fun s' => Archs.Leads { s with search := _ } s' 0) _)

theorem ensureSet_leads (s : Archs V) (comps : MetaSet) : (s.ensureSet comps).All fun s' => s.Leads s' 0 := ensureKey_leads _ _ _

theorem ensureAdded_leads (s : Archs V) (i : Nat) (m : CompMeta) : (s.ensureAdded i m).All fun s' => s.Leads s' 0 := by
  unfold ensureAdded
  split
  · trivial
  · exact (ensureKey_leads _ _ _ : Res.All (fun s' => Archs.Leads { s with search := _ } s' 0) _)

theorem ensureRemoved_leads (s : Archs V) (i : Nat) (m : CompMeta) : (s.ensureRemoved i m).All fun s' => s.Leads s' 0 := by
  unfold ensureRemoved
  split
  · trivial
  · exact (ensureKey_leads _ _ _ : Res.All (fun s' => Archs.Leads { s with search := _ } s' 0) _)

end Archs

namespace Reg

theorem setLoc_archs {r r' : Reg V} {id : Nat} {l : Loc} (h : r.setLoc id l = some r') : r'.archs = r.archs := by
  unfold setLoc at h
  split at h <;> cases h
  rfl

theorem removeLoc_archs {r r' : Reg V} {id : Nat} (h : r.removeLoc id = some r') : r'.archs = r.archs := by
  unfold removeLoc at h
  split at h <;> cases h
  rfl

theorem setMoved_archs {r r' : Reg V} {m : Option Handle} {l : Loc} (h : r.setMoved m l = some r') : r'.archs = r.archs := by
  unfold setMoved at h
  split at h
  · cases h; rfl
  · exact setLoc_archs h

theorem archOf_arch {r : Reg V} {l : Loc} {ai : Nat} {a : Arch V} (h : r.archOf l = some (ai, a)) : r.archs.arches[ai]? = some a := by
  unfold archOf at h
  split at h
  · cases h
  · split at h
    · cases h
    · rename_i ha
      cases h; exact ha

theorem create_leads (ty : Types) (r : Reg V) (args : List (Nat × V)) : (r.create ty args).All fun r' => r.archs.Leads r'.archs 0 := by
  unfold create
  split
  · trivial
  · rename_i p h hp
    simp only
    have he := Archs.ensure_leads r.archs (args.map fun x => ty.info x.1)
    split
    · trivial
    · rename_i s e heq
      rw [heq] at he; exact he
    · rename_i s ai heq
      rw [heq] at he
      replace he : r.archs.Leads s 0 := he
      split
      · trivial
      · rename_i a ha
        have hm := Arch.emplace_leads a h args
        split
        · trivial
        · rename_i a' e heq2
          rw [heq2] at hm
          exact he.trans (Archs.leads_set s ha hm)
        · rename_i a' ci idx heq2
          rw [heq2] at hm
          split
          · trivial
          · rename_i r' hr'
            show r.archs.Leads r'.archs 0
            rw [setLoc_archs hr']
            exact he.trans (Archs.leads_set s ha hm)

theorem destroy_leads (r : Reg V) (h : Handle) : (r.destroy h).All fun r' => r.archs.Leads r'.archs 1 := by
  unfold destroy
  split
  · trivial
  · exact (Archs.Leads.refl _).mono (by omega)
  · split
    · trivial
    · rename_i ai a ha
      split
      · trivial
      · rename_i a' m hs
        split
        · trivial
        · rename_i r1 h1
          split
          · trivial
          · rename_i r2 h2
            show r.archs.Leads r2.archs 1
            rw [setMoved_archs h2, removeLoc_archs h1]
            exact Archs.leads_set _ (archOf_arch ha) (Arch.swapErase_leads hs)

theorem relocate_leads {r r' : Reg V} {h : Handle} {l l' : Loc} {ai ni : Nat} (hr : r.relocate h l ai ni = some (r', l')) :
    r.archs.Leads r'.archs 1 := by
  unfold relocate at hr
  split at hr
  · rename_i a n ha hn
    split at hr
    · cases hr
    · rename_i hne
      split at hr
      · cases hr
      · rename_i a' n' ci idx m hm
        split at hr
        · cases hr
        · rename_i r1 h1
          split at hr
          · cases hr
          · rename_i r2 h2
            cases hr
            rw [setLoc_archs h2, setMoved_archs h1]
            obtain ⟨q1, q2⟩ := Arch.move_leads hm
            have e1 := Archs.leads_set r.archs ha q1
            have e2 := Archs.leads_set (r.setArch ai a').archs (i := ni) (a := n)
              (by simp only [setArch, List.getElem?_set]; rw [if_neg hne]; exact hn) q2
            exact e1.trans e2
  · cases hr

theorem setImpl_leads (ty : Types) (r : Reg V) (h : Handle) (c : Nat) : (r.setImpl ty h c).All fun r' => r.archs.Leads r'.archs 1 := by
  unfold setImpl
  split
  · trivial
  · exact (Archs.Leads.refl _).mono (by omega)
  · split
    · trivial
    · rename_i ai a ha
      split
      · exact (Archs.Leads.refl _).mono (by omega)
      · have he := Archs.ensureAdded_leads r.archs ai (ty.info c)
        split
        · trivial
        · rename_i heq; rw [heq] at he
          exact Archs.Leads.mono he (by omega)
        · rename_i s ni heq
          rw [heq] at he
          replace he : r.archs.Leads s 0 := he
          split
          · trivial
          · rename_i r' l' hr
            exact (he.trans (relocate_leads hr)).mono (by omega)

theorem writeAt_leads {r r' : Reg V} {l : Loc} {c : Nat} {cn : Bool} {v : V} (h : r.writeAt l c cn v = some r') :
    r.archs.Leads r'.archs 0 := by
  unfold writeAt at h
  split at h
  · cases h
  · rename_i ai a ha
    split at h
    · split at h
      · cases h
      · rename_i a' hw
        cases h
        exact Archs.leads_set _ (archOf_arch ha) (Arch.writeCell_leads hw)
    · cases h

theorem set_leads (ty : Types) (r : Reg V) (h : Handle) (c : Nat) (v : V) : (r.set ty h c v).All fun r' => r.archs.Leads r'.archs 1 := by
  unfold set
  have hs := setImpl_leads ty r h c
  split
  · trivial
  · rename_i heq; rw [heq] at hs; exact hs
  · rename_i r1 ins l heq
    rw [heq] at hs
    replace hs : r.archs.Leads r1.archs 1 := hs
    split
    · trivial
    · rename_i hw
      exact (hs.trans (writeAt_leads hw)).mono (by omega)

theorem getOrInsert_leads (ty : Types) (r : Reg V) (h : Handle) (c : Nat) (v : V) :
    (r.getOrInsert ty h c v).All fun r' => r.archs.Leads r'.archs 1 := by
  unfold getOrInsert
  have hs := setImpl_leads ty r h c
  split
  · trivial
  · rename_i heq; rw [heq] at hs; exact hs
  · rename_i r1 ins l heq
    rw [heq] at hs
    replace hs : r.archs.Leads r1.archs 1 := hs
    split
    · trivial
    · rename_i r2 hw
      have : r1.archs.Leads r2.archs 0 := by
        split at hw
        · exact writeAt_leads hw
        · cases hw; exact .refl _
      split
      · trivial
      · exact (hs.trans this).mono (by omega)

theorem remove_leads (ty : Types) (r : Reg V) (h : Handle) (c : Nat) : (r.remove ty h c).All fun r' => r.archs.Leads r'.archs 1 := by
  unfold remove
  split
  · trivial
  · exact (Archs.Leads.refl _).mono (by omega)
  · split
    · trivial
    · rename_i ai a ha
      split
      · have he := Archs.ensureRemoved_leads r.archs ai (ty.info c)
        split
        · trivial
        · rename_i heq; rw [heq] at he
          exact Archs.Leads.mono he (by omega)
        · rename_i s ni heq
          rw [heq] at he
          replace he : r.archs.Leads s 0 := he
          split
          · trivial
          · rename_i r' l' hr
            exact (he.trans (relocate_leads hr)).mono (by omega)
      · exact (Archs.Leads.refl _).mono (by omega)

theorem assign_leads (r : Reg V) (h : Handle) (c : Nat) (v : V) : (r.assign h c v).All fun r' => r.archs.Leads r'.archs 0 := by
  unfold assign
  split
  · trivial
  · exact .refl _
  · split
    · trivial
    · split
      · trivial
      · split
        · split
          · trivial
          · rename_i hw; exact writeAt_leads hw
        · exact .refl _

theorem receive_leads (d : Reg V) (a : Arch V) (row : Row V) (ph : Handle) : (d.receive a row ph).All fun d' => d.archs.Leads d'.archs 0 := by
  unfold receive
  have he := Archs.ensureSet_leads d.archs a.comps
  split
  · trivial
  · rename_i heq; rw [heq] at he; exact he
  · rename_i s di heq
    rw [heq] at he
    replace he : d.archs.Leads s 0 := he
    split
    · trivial
    · rename_i da hda
      have hm := Arch.copyFrom_leads da row a.copyBlocks
      split
      · trivial
      · rename_i da' e heq2
        rw [heq2] at hm
        exact he.trans (Archs.leads_set s hda hm)
      · rename_i da' ci idx heq2
        rw [heq2] at hm
        replace hm : da.Leads da' 0 := hm
        split
        · trivial
        · rename_i da'' hw
          split
          · trivial
          · rename_i d' hd
            show d.archs.Leads d'.archs 0
            rw [setLoc_archs hd]
            exact he.trans (Archs.leads_set s hda (hm.trans (Arch.writeCell_leads hw)))

theorem cloneInto_leads (r : Reg V) (h ph : Handle) : (r.cloneInto h ph).All fun d' => r.archs.Leads d'.archs 0 := by
  unfold cloneInto
  split
  · trivial
  · exact .refl _
  · exact receive_leads _ _ _ _

theorem clone_leads (r : Reg V) (h : Handle) : (r.clone h).All fun d' => r.archs.Leads d'.archs 0 := by
  unfold clone
  split
  · trivial
  · exact cloneInto_leads _ _ _

theorem copyInto_leads (r : Reg V) (h : Handle) (d : Reg V) (ph : Handle) : (r.copyInto h d ph).All fun d' => d.archs.Leads d'.archs 0 := by
  unfold copyInto
  split
  · trivial
  · exact .refl _
  · exact receive_leads _ _ _ _

theorem copyTo_leads (r : Reg V) (h : Handle) (d : Reg V) : (r.copyTo h d).All fun d' => d.archs.Leads d'.archs 0 := by
  unfold copyTo
  split
  · trivial
  · exact copyInto_leads _ _ _ _

theorem moveInto_leads (r : Reg V) (h : Handle) (d : Reg V) (ph : Handle) :
    (r.moveInto h d ph).All fun x => r.archs.Leads x.1.archs 1 ∧ d.archs.Leads x.2.archs 0 := by
  unfold moveInto
  split
  · trivial
  · exact ⟨(Archs.Leads.refl _).mono (by omega), .refl _⟩
  · split
    · trivial
    · rename_i ai a ha
      have he := Archs.ensureSet_leads d.archs a.comps
      split
      · trivial
      · rename_i heq; rw [heq] at he
        exact ⟨(Archs.Leads.refl _).mono (by omega), he⟩
      · rename_i s di heq
        rw [heq] at he
        replace he : d.archs.Leads s 0 := he
        split
        · trivial
        · rename_i da hda
          split
          · trivial
          · rename_i a' da' ci idx m hm
            obtain ⟨q1, q2⟩ := Arch.move_leads hm
            split
            · trivial
            · rename_i r1 h1
              split
              · trivial
              · rename_i r2 h2
                split
                · trivial
                · rename_i da'' hw
                  split
                  · trivial
                  · rename_i d' hd
                    show r.archs.Leads r2.archs 1 ∧ d.archs.Leads d'.archs 0
                    rw [setLoc_archs hd, setMoved_archs h2, removeLoc_archs h1]
                    exact ⟨Archs.leads_set _ (archOf_arch ha) q1, he.trans (Archs.leads_set s hda (q2.trans (Arch.writeCell_leads hw)))⟩

theorem moveTo_leads (r : Reg V) (h : Handle) (d : Reg V) :
    (r.moveTo h d).All fun x => r.archs.Leads x.1.archs 1 ∧ d.archs.Leads x.2.archs 0 := by
  unfold moveTo
  split
  · trivial
  · exact moveInto_leads _ _ _ _

end Reg

/-- Every operation on one registry. -/
theorem regOp_leads (ty : Types) (r : Reg V) (op : RegOp V) :
    (op.run ty r).All fun r' => r.archs.Leads r'.archs (if op.takesOut then 1 else 0) := by
  have hn : ∀ {α : Type} (x : Res (Reg V) α) (Q : Reg V → Prop), x.All Q → (noHandle x).All Q := by
    intro α x Q h; cases x <;> exact h
  have hw : ∀ (x : Res (Reg V) Handle) (Q : Reg V → Prop), x.All Q → (withHandle x).All Q := by
    intro x Q h; cases x <;> exact h
  cases op with
  | create args => exact hw _ _ (Reg.create_leads ty r args)
  | destroy h => exact hn _ _ (Reg.destroy_leads r h)
  | set h c v => exact hn _ _ (Reg.set_leads ty r h c v)
  | remove h c => exact hn _ _ (Reg.remove_leads ty r h c)
  | assign h c v => exact hn _ _ (Reg.assign_leads r h c v)
  | getOrInsert h c v => exact hn _ _ (Reg.getOrInsert_leads ty r h c v)
  | clone h ph =>
    cases ph with
    | none => exact hw _ _ (Reg.clone_leads r h)
    | some ph => exact hw _ _ (Reg.cloneInto_leads r h ph)
  | reserve =>
    refine hw _ _ ?_
    unfold Reg.reserve
    cases r.pool.reserve with
    | none => trivial
    | some x => exact (Archs.Leads.of_eq rfl : Archs.Leads _ _ 0)
  | sync => exact Archs.Leads.of_eq rfl

theorem note_reg (s : Sys V) (i : Nat) (op : RegOp V) (o : Option Handle) : (s.note i op o).reg = s.reg := by
  cases op <;> try rfl
  · rename_i ph
    cases ph <;> rfl
  · cases o <;> rfl

theorem use_reg (s : Sys V) (i : Nat) (o : Option Handle) : (s.use i o).reg = s.reg := by
  cases o <;> rfl

/-- Every operation. -/
theorem step_leads {ty : Types} {s s' : Sys V} {op : SysOp V} {out : Out} (h : s.step ty op = some (s', out)) (i : Nat) :
    (s.reg i).archs.Leads (s'.reg i).archs (if SysOp.takesOut i op then 1 else 0) := by
  have rf : ∀ k, (s.reg i).archs.Leads (s.reg i).archs k := fun k => (Archs.Leads.refl _).mono (by omega)
  cases op with
  | on j op =>
    have hl := regOp_leads ty (s.reg j) op
    unfold Sys.step at h
    simp only at h
    split at h
    · cases h
    · rename_i r e heq
      rw [heq] at hl
      cases h
      simp only [Sys.setReg]
      split
      · rename_i e; subst e; simpa [SysOp.takesOut, Res.All] using hl
      · exact rf _
    · rename_i r o heq
      rw [heq] at hl
      cases h
      rw [note_reg]
      simp only [Sys.setReg]
      split
      · rename_i e; subst e; simpa [SysOp.takesOut, Res.All] using hl
      · exact rf _
  | copy j hd l ph =>
    have key : ∀ x : Res (Reg V) Handle, x.All (fun d => (s.reg l).archs.Leads d.archs 0) →
        (match x with
        | .ub => none
        | .throw d e => some (s.setReg l d, Out.throw e)
        | .ok d h' => some ((s.setReg l d).use l ph, Out.ok (some h'))) = some (s', out) → (s.reg i).archs.Leads (s'.reg i).archs 0 := by
      intro x hl h
      cases x with
      | ub => cases h
      | throw d e =>
        cases h
        simp only [Sys.setReg]
        split
        · rename_i e; subst e; exact hl
        · exact rf _
      | ok d o =>
        cases h
        rw [use_reg]
        simp only [Sys.setReg]
        split
        · rename_i e; subst e; exact hl
        · exact rf _
    cases ph with
    | none => exact key _ (Reg.copyTo_leads _ _ _) h
    | some p => exact key _ (Reg.copyInto_leads _ _ _ _) h
  | move j hd l ph =>
    have key : ∀ x : Res (Reg V × Reg V) Handle,
        x.All (fun x => (s.reg j).archs.Leads x.1.archs 1 ∧ (s.reg l).archs.Leads x.2.archs 0) →
        (match x with
        | .ub => none
        | .throw (r, d) e => some ((s.setReg j r).setReg l d, Out.throw e)
        | .ok (r, d) h' => some (((s.setReg j r).setReg l d).use l ph, Out.ok (some h'))) = some (s', out) →
        (s.reg i).archs.Leads (s'.reg i).archs (if SysOp.takesOut i (SysOp.move j hd l ph : SysOp V) then 1 else 0) := by
      intro x hl h
      have hreg : ∀ r d : Reg V, (s.reg j).archs.Leads r.archs 1 → (s.reg l).archs.Leads d.archs 0 →
          (s.reg i).archs.Leads (((s.setReg j r).setReg l d).reg i).archs (if SysOp.takesOut i (SysOp.move j hd l ph : SysOp V) then 1 else 0) := by
        intro r d h1 h2
        simp only [Sys.setReg]
        split
        · rename_i e; subst e; exact Archs.Leads.mono h2 (by omega)
        · split
          · rename_i e; subst e; simpa [SysOp.takesOut] using h1
          · exact rf _
      cases x with
      | ub => cases h
      | throw x e => cases h; exact hreg _ _ hl.1 hl.2
      | ok x o => cases h; rw [use_reg]; exact hreg _ _ hl.1 hl.2
    cases ph with
    | none => exact key _ (Reg.moveTo_leads _ _ _) h
    | some p => exact key _ (Reg.moveInto_leads _ _ _ _) h

/-- Histories waste at most one entry per entity taken out. -/
theorem Spec.RunOf.slack {ty : Types} {ops : List (SysOp V)} {s : Sys V} (h : RunOf ty ops s) (i j : Nat) {a : Arch V}
    (ha : (s.reg i).archs.arches[j]? = some a) : a.slack ≤ ops.countP fun op => op.takesOut i := by
  induction h generalizing a with
  | nil => simp [Sys.init, Reg.empty, Archs.empty] at ha
  | @cons ops s s' op out _ hs ih =>
    rw [List.countP_cons]
    rcases step_leads hs i j a ha with h1 | ⟨b, hb, h1⟩
    · omega
    · have := ih hb
      have := h1.slack
      omega

end CoEcs
