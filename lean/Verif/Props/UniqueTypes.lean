import Verif.Model.UniqueTypes
import Verif.Proofs.Rep

/-!
# C113: the check that component types differ
-/

namespace CoEcs.Props
open CoEcs UniqueTypes

variable {α : Type} [DecidableEq α]

/-- **C113**, the decision: creation compiles exactly if the component types are pairwise different, however many there are. -/
theorem C113_types (ts : List α) : accepted ts = true ↔ ts.Nodup := by
  induction hn : ts.length using Nat.strongRecOn generalizing ts with
  | _ n ih =>
    match ts with
    | [] => simp [accepted]
    | [_] => simp [accepted]
    | [a, b] => simp [accepted]
    | a :: b :: c :: rest =>
      have h1 := ih _ (by simp at hn; simp; omega) (a :: c :: rest) rfl
      have h2 := ih _ (by simp at hn; simp; omega) (b :: c :: rest) rfl
      unfold accepted
      simp only [Bool.and_eq_true, decide_eq_true_eq, h1, h2]
      simp only [accepted, decide_eq_true_eq]
      constructor
      · rintro ⟨⟨⟨_, hab⟩, ha⟩, hb⟩
        rw [List.nodup_cons] at ha ⊢
        refine ⟨?_, hb⟩
        rw [List.mem_cons]
        rintro (h | h)
        · exact hab h
        · exact ha.1 h
      · intro h
        rw [List.nodup_cons] at h
        obtain ⟨hm, hb⟩ := h
        rw [List.mem_cons] at hm
        have hab : a ≠ b := fun h => hm (.inl h)
        refine ⟨⟨⟨?_, hab⟩, ?_⟩, hb⟩
        · rw [List.nodup_cons] at hb
          have hbc : b ≠ c := fun h => hb.1 (h ▸ List.mem_cons_self)
          have hac : a ≠ c := fun h => hm (.inr (h ▸ List.mem_cons_self))
          simp [bases, hab, hbc, hac]
        · rw [List.nodup_cons]
          exact ⟨fun h => hm (.inr h), (List.nodup_cons.1 hb).2⟩

example : accepted ["position", "velocity", "mass", "name"] = true := (C113_types _).2 (by decide)
example : ¬ accepted ["position", "velocity", "mass", "velocity"] = true := fun h => absurd ((C113_types _).1 h) (by decide)

/-- How often the class of the last two types occurs. -/
theorem copies (y z : α) : ∀ (ts : List α), ts ≠ [] → 2 ^ (ts.length - 1) ≤ (subobjects (ts ++ [y, z])).countP (fun t => decide (t = [y, z]))
  | [], h => absurd rfl h
  | [a], _ => by
    simp only [List.cons_append, List.nil_append]
    unfold subobjects
    simp [subobjects, List.countP_cons]
    omega
  | a :: b :: rest, _ => by
    have h1 := copies y z (a :: rest) (by simp)
    have h2 := copies y z (b :: rest) (by simp)
    have e : ∃ c l, rest ++ [y, z] = c :: l := by cases rest <;> simp
    obtain ⟨c, l, e⟩ := e
    simp only [List.cons_append, e, List.length_cons, Nat.add_sub_cancel] at h1 h2 ⊢
    rw [subobjects, List.countP_cons, List.countP_cons, List.countP_append, Nat.pow_succ]
    omega
termination_by ts => ts.length

/-- Objects of one class need as many bytes as there are of them. -/
theorem placed_copies {ts : List α} {size : Nat} {addr : Nat → Nat} (h : Placed ts size addr) (t : List α) :
    (subobjects ts).countP (fun u => decide (u = t)) ≤ size := by
  have hl : (((subobjects ts).zipIdx.filter fun p => decide (p.1 = t)).map fun p => addr p.2).length =
      (subobjects ts).countP (fun u => decide (u = t)) := by
    rw [List.length_map, ← List.countP_eq_length_filter]
    conv => rhs; rw [← List.zipIdx_map_fst 0 (subobjects ts), List.countP_map]
    rfl
  rw [← hl]
  apply nodup_lt_length
  · rw [List.nodup_iff_pairwise_ne, List.pairwise_map, List.pairwise_filter]
    have : ((subobjects ts).zipIdx.map Prod.snd).Nodup := by
      rw [List.zipIdx_map_snd]
      exact List.nodup_range'
    rw [List.nodup_iff_pairwise_ne, List.pairwise_map] at this
    refine List.Pairwise.imp_of_mem (fun {x y} hx hy hne h1 h2 => ?_) this
    have gx := List.mem_zipIdx_iff_getElem?.1 hx
    have gy := List.mem_zipIdx_iff_getElem?.1 hy
    rw [of_decide_eq_true h1] at gx
    rw [of_decide_eq_true h2] at gy
    exact h.apart _ _ t gx gy hne
  · intro x hx
    obtain ⟨p, hp, rfl⟩ := List.mem_map.1 hx
    have gx := List.mem_zipIdx_iff_getElem?.1 (List.mem_filter.1 hp).1
    exact h.inside _ (List.getElem?_eq_some_iff.1 gx).1

/-- **C113** violated, for all lists of types: the object made for the check doubles in size with every further type.  With `n` types, three or
more, no placement gets along with fewer than `2 ^ (n - 3)` bytes, and they are on the stack of every call of `create`. -/
theorem C113_storage_violated (ts : List α) (h3 : 3 ≤ ts.length) {size : Nat} {addr : Nat → Nat} (h : Placed ts size addr) :
    2 ^ (ts.length - 3) ≤ size := by
  have e : ∃ l y z, ts = l ++ [y, z] ∧ l ≠ [] := by
    refine ⟨ts.take (ts.length - 2), ts[ts.length - 2], ts[ts.length - 1], ?_, ?_⟩
    · apply List.ext_getElem
      · simp; omega
      · intro i h1 h2
        rw [List.getElem_append]
        split
        · simp
        · rename_i hi
          simp only [List.length_take] at hi
          have : i = ts.length - 2 ∨ i = ts.length - 1 := by omega
          rcases this with rfl | rfl
          · have : ts.length - 2 - (ts.take (ts.length - 2)).length = 0 := by simp
            simp [this]
          · have : ts.length - 1 - (ts.length - 2) = 1 := by omega
            simp [this]
    · intro hh
      have := congrArg List.length hh
      simp at this
      omega
  obtain ⟨l, y, z, rfl, hl⟩ := e
  have h1 := copies y z l hl
  have h2 := placed_copies h [y, z]
  have : (l ++ [y, z]).length - 3 = l.length - 1 := by simp
  rw [this]
  omega

/-- There is always some placement: one byte each. -/
example (ts : List α) : Placed ts (subobjects ts).length id := ⟨fun _ h => h, fun _ _ _ _ _ h => h⟩

/-- With 26 types that is at least the usual size of a whole stack, 8 MiB. -/
example {size : Nat} {addr : Nat → Nat} (h : Placed (List.range 26) size addr) : 8 * 1024 * 1024 ≤ size := by
  have := C113_storage_violated (List.range 26) (by simp) h
  simpa using this

/-- **C113** (partial; missing: more than three types): the object for up to three pairwise different types can do with a single byte. -/
theorem C113_storage_partial (ts : List α) (hn : ts.Nodup) (h3 : ts.length ≤ 3) : Placed ts 1 (fun _ => 0) := by
  have key : (subobjects ts).Nodup := by
    match ts with
    | [] => simp [subobjects]
    | [_] => simp [subobjects]
    | [_, _] => simp [subobjects]
    | [a, b, c] =>
      have hab : a ≠ b := fun h => by subst h; simp at hn
      have hbc : b ≠ c := fun h => by subst h; simp at hn
      have hac : a ≠ c := fun h => by subst h; simp at hn
      simp [subobjects, hab, hbc, hac]
    | _ :: _ :: _ :: _ :: _ => simp at h3
  refine ⟨fun _ _ => Nat.one_pos, fun i j t hi hj hij _ => hij ?_⟩
  obtain ⟨h1, h2⟩ := List.getElem?_eq_some_iff.1 hi
  obtain ⟨h3, h4⟩ := List.getElem?_eq_some_iff.1 hj
  exact (List.getElem_inj key).1 (h2.trans h4.symm)

example : ["position", "velocity", "mass"].Nodup := by decide

end CoEcs.Props
