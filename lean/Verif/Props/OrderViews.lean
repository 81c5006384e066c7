import Verif.Props.OrderKept
import Verif.Props.ParallelFor
import Verif.Proofs.WeakEach

/-!
# There is one order of the entities, and views leave it (C119, C120)
-/

namespace CoEcs.Props
open CoEcs Spec

variable {V : Type} {ty : Types} {s : Sys V} {W : Spec.World V}

theorem writeAll_map {l : Loc} {g : Nat → V} : ∀ {cs : List Nat} {r r' : Reg V}, Reg.writeAll l g r cs = some r' → r'.archs.map = r.archs.map
  | [], r, r', h => by cases h; rfl
  | c :: cs, r, r', h => by
    unfold Reg.writeAll at h
    split at h
    · cases h
    · rename_i r1 h1
      rw [writeAll_map h]
      unfold Reg.writeAt at h1
      split at h1
      · cases h1
      · split at h1
        · split at h1
          · cases h1
          · cases h1; rfl
        · cases h1

theorem eachLocs_map {args : List BlockId} {muts : List Nat} {f : List (Val V) → Nat → V} : ∀ {ls : List Loc} {r r' : Reg V}
    {ts : List (List (Val V))}, Reg.eachLocs args muts f r ls = .ok r' ts → r'.archs.map = r.archs.map
  | [], r, r', ts, h => by cases h; rfl
  | l :: ls, r, r', ts, h => by
    unfold Reg.eachLocs at h
    split at h
    · cases h
    · cases h
    · split at h
      · cases h
      · rename_i r1 h1
        split at h
        · rename_i h2
          cases h
          exact (eachLocs_map h2).trans (writeAll_map h1)
        · cases h
        · cases h

/-- **C119**, there is one order: two orders of the entities of a registry are the same. -/
theorem C119_unique [Nonempty V] {r : Reg V} {order order' : List Handle} (h : IsOrder r order) (h' : IsOrder r order') : order = order' := by
  obtain ⟨r1, calls, e1, e2⟩ := h.views.1 [none] [] (fun _ _ => Classical.choice ‹Nonempty V›) (by simp)
  obtain ⟨r2, calls', e3, e4⟩ := h'.views.1 [none] [] (fun _ _ => Classical.choice ‹Nonempty V›) (by simp)
  rw [e1] at e3
  cases e3
  have all : ∀ {o : List Handle}, IsOrder r o → o.filter (shown r [none]) = o := by
    intro o ho
    refine List.filter_eq_self.2 fun h hh => ?_
    have := (ho.mem h).1 hh
    simp [shown, compsOf, this]
  rw [all h] at e2
  rw [all h', ← e2] at e4
  refine (List.map_inj_right fun x y hxy => ?_).1 e4.symm
  have c : ∀ h, callOf r [none] h = some [.ent h] := fun _ => rfl
  rw [c, c] at hxy
  simpa using hxy

/-- **C120** (after histories in which every component list fitted): a view leaves the order of all entities as it is, also `par_each`,
in whatever order its tasks visit the entities and whatever the function writes. -/
theorem C120_views_partial [Nonempty V] (hr : Reach ty (NoFailedFit ty) s W) (i : Nat) {args : List BlockId} {muts : List Nat}
    (hmut : ∀ c ∈ muts, some c ∈ args) {f : List (Val V) → Nat → V} {r' : Reg V} {calls : List (List (Val V))}
    (he : (s.reg i).each args muts f = .ok r' calls ∨ ∃ workers, 0 < workers ∧ Reg.ParEach workers (s.reg i) args muts f (.ok r' calls))
    {order : List Handle} (ho : IsOrder (s.reg i) order) : IsOrder r' order := by
  have R := (hr.inv i).rep
  have hn := Reach.noNull hr (fun _ _ h => h) i
  obtain ⟨cs, ls, hc, hp, hl⟩ : ∃ cs ls, (s.reg i).viewChunks args = some cs ∧ ls.Perm cs.flatten ∧
      Reg.eachLocs args muts f (s.reg i) ls = .ok r' calls := by
    rcases he with he | ⟨workers, hw, he⟩
    · unfold Reg.each at he
      split at he
      · cases he
      · rename_i cs hc
        exact ⟨cs, _, hc, .refl _, he⟩
    · generalize ho : Res.ok r' calls = out at he
      cases he with
      | null _ => cases ho
      | bad _ _ => cases ho
      | @run cs p log hc hp hx =>
        obtain ⟨p', h1, h2⟩ := C25_par_each workers cs hw
        rw [hp] at h1
        cases h1
        exact ⟨cs, log, hc, h2 log hx, rfl⟩
  obtain ⟨r1, ts, hs, w1, w2, w3, _, R1, _, hn1, _⟩ := R.eachPerm hn args muts hmut f hc hp
  rw [hl] at w1
  cases w1
  obtain ⟨order', ho'⟩ := exists_order R1 hn1
  have := order_kept R R1 hn hn1 (eachLocs_map hl) ho ho' (fun _ => true) (fun h _ => ?_) (fun h _ _ _ => by rw [(Weak.eachLocs_locs hl).1])
  · rw [List.filter_eq_self.2 (fun _ _ => rfl), List.filter_eq_self.2 (fun _ _ => rfl)] at this
    rw [← this]
    exact ho'
  · by_cases hh : h ∈ hs
    · cases hW : W i h <;> simp [hh, hW]
    · simp [hh]

theorem writeAt_map {r r' : Reg V} {l : Loc} {c : Nat} {b : Bool} {v : V} (h : r.writeAt l c b v = some r') : r'.archs.map = r.archs.map := by
  unfold Reg.writeAt at h
  split at h
  · cases h
  · split at h
    · split at h
      · cases h
      · cases h; rfl
    · cases h

/-- **C120** (after histories in which every component list fitted): `set` of a component the entity has leaves the order of all entities as it is. -/
theorem C120_set_held_partial [Nonempty V] (hr : Reach ty (NoFailedFit ty) s W) (i : Nat) {h : Handle} {c : Nat} {v : V} {r' : Reg V}
    (hh : (s.reg i).has h [c] = .ok true) (hd : (s.reg i).set ty h c v = .ok r' ()) {order : List Handle} (ho : IsOrder (s.reg i) order) :
    IsOrder r' order := by
  have R := (hr.inv i).rep
  have hn := Reach.noNull hr (fun _ _ h => h) i
  cases hw : W i h with
  | none => rw [R.has_none hw] at hh; cases hh
  | some d =>
    rw [R.has_some hw] at hh
    have hc : (d c).isSome = true := by simpa using hh
    have hm : r'.archs.map = (s.reg i).archs.map := by
      rcases R.setImpl hw c v with ⟨v0, l, r1, h1, h2, h3, h4, h5⟩ | ⟨h1, _⟩
      · unfold Reg.set at hd
        simp only [h2, h4] at hd
        cases hd
        exact writeAt_map h4
      · rw [h1] at hc; cases hc
    have hl : r'.locs = (s.reg i).locs := by
      rcases set_moves R hd with ⟨q, _⟩ | ⟨_, d', q1, q2⟩
      · exact q
      · rw [hw] at q1; cases q1
        rw [q2] at hc; cases hc
    rcases R.set hw c v with ⟨q, _⟩ | ⟨r1, q1, _, R1, _, q4⟩ | ⟨r1, q1, _⟩
    · rw [hd] at q; cases q
    · rw [hd] at q1; cases q1
      obtain ⟨order', ho'⟩ := exists_order R1 (q4 hn)
      have := order_kept R R1 hn (q4 hn) hm ho ho' (fun _ => true) (fun g _ => ?_) (fun g _ _ _ => by rw [hl])
      · rw [List.filter_eq_self.2 (fun _ _ => rfl), List.filter_eq_self.2 (fun _ _ => rfl)] at this
        rw [← this]
        exact ho'
      · by_cases hg : g = h
        · subst hg; simp [World.put, hw]
        · simp [World.put, hg]
    · rw [hd] at q1; cases q1

/-- Three entities are written to, one after the other and by four workers: the order is the one of before. -/
theorem views_keep {s : Sys Nat} {W : Spec.World Nat} (hr : Reach ty (NoFailedFit ty) s W) (hs : List Handle) (h : showsExactly (s.reg 0) hs = true) :
    ∃ r' calls, (s.reg 0).each [none, some 0] [0] (fun _ c => c + 7) = .ok r' calls ∧ IsOrder (s.reg 0) hs ∧ IsOrder r' hs ∧
      ∃ out, Reg.ParEach 4 (s.reg 0) [none, some 0] [0] (fun _ c => c + 7) out ∧ ∀ r'' calls', out = .ok r'' calls' → IsOrder r'' hs := by
  obtain ⟨order, ho, _⟩ := C119_partial hr 0
  have := order_shown ho h
  subst this
  obtain ⟨r', calls, he, _⟩ := ho.views.1 [none, some 0] [0] (fun _ c => c + 7) (by simp)
  obtain ⟨out, hout⟩ : ∃ out, Reg.ParEach 4 (s.reg 0) [none, some 0] [0] (fun _ c => c + 7) out := by
    cases hc : (s.reg 0).viewChunks [none, some 0] with
    | none => exact ⟨_, .null hc⟩
    | some cs =>
      obtain ⟨p, log, h1, h2⟩ := C25_par_each_executions_exist 4 cs (by decide)
      exact ⟨_, .run hc h1 h2⟩
  exact ⟨r', calls, he, ho, C120_views_partial hr 0 (by simp) (.inl he) ho, out, hout,
    fun r'' calls' e => C120_views_partial hr 0 (by simp) (.inr ⟨4, by decide, e ▸ hout⟩) ho⟩

example : ∃ (s : Sys Nat) (W : Spec.World Nat), Reach smallTy (NoFailedFit smallTy) s W ∧
    ∃ r' calls, (s.reg 0).each [none, some 0] [0] (fun _ c => c + 7) = .ok r' calls ∧ IsOrder (s.reg 0) [⟨0, 0⟩, ⟨1, 0⟩, ⟨2, 0⟩] ∧
      IsOrder r' [⟨0, 0⟩, ⟨1, 0⟩, ⟨2, 0⟩] := by
  have hr := execFit_reach threeSame .init (Option.some_get threeSame_isSome).symm
  obtain ⟨r', calls, h1, h2, h3, _⟩ := views_keep hr [⟨0, 0⟩, ⟨1, 0⟩, ⟨2, 0⟩] (by decide +kernel)
  exact ⟨_, _, hr, r', calls, h1, h2, h3⟩

theorem set_keeps {s : Sys Nat} {W : Spec.World Nat} (hr : Reach ty (NoFailedFit ty) s W) (hs : List Handle) {h : Handle} {c v : Nat}
    (h1 : showsExactly (s.reg 0) hs = true) (h2 : (s.reg 0).has h [c] = .ok true)
    (h3 : (match (s.reg 0).set ty h c v with | .ok _ _ => true | _ => false) = true) :
    ∃ r', (s.reg 0).set ty h c v = .ok r' () ∧ IsOrder (s.reg 0) hs ∧ IsOrder r' hs := by
  obtain ⟨order, ho, _⟩ := C119_partial hr 0
  have := order_shown ho h1
  subst this
  split at h3
  · rename_i r' _ he
    exact ⟨r', he, ho, C120_set_held_partial hr 0 h2 he ho⟩
  · cases h3

/-- The second of three entities is given another value. -/
example : ∃ (s : Sys Nat) (W : Spec.World Nat), Reach smallTy (NoFailedFit smallTy) s W ∧
    ∃ r', (s.reg 0).set smallTy ⟨1, 0⟩ 0 9 = .ok r' () ∧ IsOrder (s.reg 0) [⟨0, 0⟩, ⟨1, 0⟩, ⟨2, 0⟩] ∧ IsOrder r' [⟨0, 0⟩, ⟨1, 0⟩, ⟨2, 0⟩] := by
  have hr := execFit_reach threeSame .init (Option.some_get threeSame_isSome).symm
  exact ⟨_, _, hr, set_keeps hr [⟨0, 0⟩, ⟨1, 0⟩, ⟨2, 0⟩] (by decide +kernel) (by decide +kernel) (by decide +kernel)⟩

end CoEcs.Props
