import Verif.Proofs.Reentrant

/-!
# A flush ends although destructors record commands
-/

namespace CoEcs
open Spec (ACmd CSys NoCreation Recorded)
variable {V : Type}

/-- The number of entities among the handles of a list. -/
def present (L : List Handle) (C : ACmd.Content V) : Nat := L.countP fun h => (C h).isSome

theorem present_le (L : List Handle) (C : ACmd.Content V) : present L C ≤ L.length := List.countP_le_length

theorem present_destroy {L : List Handle} {C : ACmd.Content V} {h : Handle} (hm : h ∈ L) (hc : C h ≠ none) :
    present L (ACmd.put C h none) < present L C := by
  have hle : ∀ L' : List Handle, present L' (ACmd.put C h none) ≤ present L' C := by
    intro L'
    refine List.countP_mono_left fun x _ hx => ?_
    simp only [ACmd.put] at hx
    split at hx
    · cases hx
    · exact hx
  obtain ⟨L1, L2, rfl⟩ := List.append_of_mem hm
  have h1 := hle L1
  have h2 := hle L2
  unfold present at h1 h2 ⊢
  simp only [List.countP_append, List.countP_cons]
  have e1 : (ACmd.put C h none h).isSome = false := by simp [ACmd.put]
  have e2 : (C h).isSome = true := by cases h' : C h with
    | none => exact absurd h' hc
    | some => rfl
  rw [e1, e2]
  simp only [if_true]
  simp only [Bool.false_eq_true, if_false]
  omega

theorem present_same {L : List Handle} {C : ACmd.Content V} {h : Handle} {f : Comps V → Comps V} :
    present L (ACmd.put C h ((C h).map f)) = present L C := by
  unfold present
  apply List.countP_congr
  intro x _
  simp only [ACmd.put]
  split
  · rename_i hx; subst hx; simp
  · rfl

theorem length_modify_flatten {X : Type} (qs : List (List X)) (j : Nat) : (qs.modify j (· ++ ([] : List X))).flatten = qs.flatten := by
  have : (fun x : List X => x ++ ([] : List X)) = fun x => x := by funext x; simp
  rw [this, modify_id]

theorem apply_absent {C : ACmd.Content V} {a : ACmd V} {h : Handle} (hp : a.placeholder ≠ some h) (h0 : C h = none) : a.apply C h = none := by
  cases a <;> simp only [ACmd.apply, ACmd.put, ACmd.placeholder, ne_eq, Option.some.injEq] at hp ⊢
  · rw [if_neg (Ne.symm hp)]; exact h0
  · rw [if_neg (Ne.symm hp)]; exact h0
  · split
    · rename_i hx; subst hx; rw [h0]; rfl
    · exact h0
  · split
    · rename_i hx; subst hx; rw [h0]; rfl
    · exact h0
  · split
    · rfl
    · exact h0

theorem flushFrom_ends {ty : Types} (husk : V → V) {hook : Hook V} (hh : NoCreation hook) {j i : Nat} (L : List Handle) : ∀ (m1 m2 m3 : Nat)
    (p : Nat) (bs : List (Option (Buf V))) (qs : List (List (Nat × ACmd V))) (d : Reg V) (C : ACmd.Content V) (P : List Handle),
    present L C + (L.length + 1) * (CSys.placeholders qs.flatten).length = m1 → qs.flatten.length = m2 → bs.length - p = m3 →
    RInv ty d 0 P C → BufsRel ty bs qs → (∀ ph ∈ CSys.placeholders qs.flatten, ph ∈ P) → (CSys.placeholders qs.flatten).Nodup →
    (∀ h, C h ≠ none → h ∈ L) → (∀ ph ∈ CSys.placeholders qs.flatten, ph ∈ L) →
    ∃ n r, flushFrom ty husk hook (some j) n p bs d = some r := by
  intro m1
  induction m1 using Nat.strongRecOn with
  | ind m1 ih1 =>
  intro m2
  induction m2 using Nat.strongRecOn with
  | ind m2 ih2 =>
  intro m3
  induction m3 using Nat.strongRecOn with
  | ind m3 ih3 =>
  intro p bs qs d C P hm1 hm2 hm3 Id hb hp hn hL hpL
  cases hbp : bs[p]? with
  | none => exact ⟨1, _, by simp only [flushFrom, hbp]; rfl⟩
  | some ob =>
    cases ob with
    | none => exact ⟨1, _, by simp only [flushFrom, hbp]; rfl⟩
    | some b =>
      obtain ⟨q, hq, hbq⟩ := hb.get hbp
      obtain ⟨s, cmds⟩ := b
      cases cmds with
      | nil =>
        have hlt := (List.getElem?_eq_some_iff.1 hbp).1
        obtain ⟨n, r, hr⟩ := ih3 (bs.length - (p + 1)) (by omega) (p + 1) bs qs d C P hm1 hm2 rfl Id hb hp hn hL hpL
        exact ⟨n + 1, r, by simp only [flushFrom, hbp]; exact hr⟩
      | cons c cs =>
        cases q with
        | nil => have := hbq.length; simp at this
        | cons a q =>
          have hperm := (flatten_set hq).filterMap fun x => x.2.placeholder
          have hcons : CSys.placeholders qs.flatten |>.Perm (a.2.placeholder.toList ++ CSys.placeholders (qs.set p q).flatten) := by
            rw [← placeholders_cons]; exact hperm
          have hstep := execWith_spec husk hh (j := j) (i := i) Id hb hq hbq (fun ph hph => hp ph (hcons.mem_iff.2 (by simp [hph])))
          obtain ⟨n1, n2, n3⟩ := List.nodup_append.1 (hcons.nodup hn)
          cases he : c.execWith ty husk hook (some j) p bs d s cs with
          | ub => exact ⟨1, _, by simp only [flushFrom, hbp, he]; rfl⟩
          | throw x e => exact ⟨1, _, by simp only [flushFrom, hbp, he]; rfl⟩
          | ok x u =>
            obtain ⟨bs1, d1⟩ := x
            rw [he] at hstep
            obtain ⟨k1, l, k2, k3, k4, k5⟩ := hstep
            have hpl : CSys.placeholders ((qs.set p q).modify j (· ++ l.map (i, ·))).flatten = CSys.placeholders (qs.set p q).flatten :=
              placeholders_modify (placeholders_tag i k3) _ _
            have hlen := hcons.length_eq
            rw [List.length_append] at hlen
            have hp' : ∀ ph ∈ CSys.placeholders ((qs.set p q).modify j (· ++ l.map (i, ·))).flatten,
                ph ∈ P.filter fun h => a.2.placeholder ≠ some h := by
              intro ph hph
              rw [hpl] at hph
              rw [List.mem_filter]
              refine ⟨hp ph (hcons.mem_iff.2 (by simp [hph])), ?_⟩
              simp only [decide_eq_true_eq]
              intro hc
              exact n3 ph (by simp [hc]) ph hph rfl
            have hn' : (CSys.placeholders ((qs.set p q).modify j (· ++ l.map (i, ·))).flatten).Nodup := by rw [hpl]; exact n2
            have hpL' : ∀ ph ∈ CSys.placeholders ((qs.set p q).modify j (· ++ l.map (i, ·))).flatten, ph ∈ L := by
              intro ph hph
              rw [hpl] at hph
              exact hpL ph (hcons.mem_iff.2 (by simp [hph]))
            have hL' : ∀ h, a.2.apply C h ≠ none → h ∈ L := by
              intro h hc
              by_cases hph : a.2.placeholder = some h
              · exact hpL h (hcons.mem_iff.2 (by simp [hph]))
              · refine hL h fun h0 => hc ?_
                exact apply_absent hph h0
            have fin : ∀ n r, flushFrom ty husk hook (some j) n p bs1 d1 = some r → ∃ n r, flushFrom ty husk hook (some j) n p bs d = some r := by
              intro n r hr
              exact ⟨n + 1, r, by simp only [flushFrom, hbp, he]; exact hr⟩
            have less : present L (a.2.apply C) + (L.length + 1) * (CSys.placeholders (qs.set p q).flatten).length < m1 →
                ∃ n r, flushFrom ty husk hook (some j) n p bs d = some r := by
              intro hlt
              obtain ⟨n, r, hr⟩ := ih1 _ hlt _ _ p bs1 _ d1 _ _ (by rw [hpl]) rfl rfl k5 k4 hp' hn' hL' hpL'
              exact fin n r hr
            have same : present L (a.2.apply C) = present L C → a.2.placeholder = none → l = [] →
                ∃ n r, flushFrom ty husk hook (some j) n p bs d = some r := by
              intro h1 h2 h3
              subst h3
              rw [h2] at hlen
              simp only [Option.toList_none, List.length_nil, Nat.zero_add] at hlen
              have hfl : ((qs.set p q).modify j (· ++ ([] : List (ACmd V)).map (i, ·))).flatten = (qs.set p q).flatten := by
                simpa using length_modify_flatten (qs.set p q) j
              have hm := (flatten_set hq).length_eq
              simp only [List.length_cons] at hm
              obtain ⟨n, r, hr⟩ := ih2 (qs.set p q).flatten.length (by omega) _ p bs1 _ d1 _ _ (by rw [hpl, h1, ← hlen]; exact hm1)
                (by rw [hfl]) rfl k5 k4 hp' hn' hL' hpL'
              exact fin n r hr
            have more : ∀ ph, a.2.placeholder = some ph → ∃ n r, flushFrom ty husk hook (some j) n p bs d = some r := by
              intro ph hph
              apply less
              rw [hph] at hlen
              simp only [Option.toList_some, List.length_singleton] at hlen
              have := present_le L (a.2.apply C)
              rw [hlen, Nat.mul_add] at hm1
              omega
            cases ha : a.2 with
            | create ph dd => exact more ph (by rw [ha]; rfl)
            | clone h ph => exact more ph (by rw [ha]; rfl)
            | set h x v => exact same (by rw [ha]; exact present_same) (by rw [ha]; rfl) (by rw [ha] at k2; exact k2)
            | remove h x => exact same (by rw [ha]; exact present_same) (by rw [ha]; rfl) (by rw [ha] at k2; exact k2)
            | destroy h =>
              have hc : C h ≠ none := k1 h (by rw [ha]; rfl)
              apply less
              have := present_destroy (hL h hc) hc
              rw [ha] at hlen ⊢
              simp only [ACmd.placeholder, Option.toList_none, List.length_nil, Nat.zero_add] at hlen
              rw [← hlen]
              simp only [ACmd.apply]
              omega

/-- The entities of a registry are among finitely many handles. -/
theorem Rep.finite {ty : Types} {r : Reg V} {k : Nat} {W : Handle → Option (Comps V)} (R : Rep ty r k W) :
    ∃ L : List Handle, ∀ h, W h ≠ none → h ∈ L := by
  refine ⟨r.pool.gens.mapIdx fun n g => ⟨n, g⟩, fun h hw => ?_⟩
  obtain ⟨d, hd⟩ := Option.ne_none_iff_exists'.1 hw
  have ha := R.alive hd
  unfold Reg.alive Pool.alive at ha
  split at ha
  · rename_i g hg
    rw [List.mem_iff_getElem?]
    refine ⟨h.id, ?_⟩
    rw [List.getElem?_mapIdx, hg]
    obtain ⟨n, g'⟩ := h
    simp at ha ⊢
    exact ha
  · cases ha

end CoEcs
