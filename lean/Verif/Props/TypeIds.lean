import Verif.Model.Component
import Verif.Proofs.HashTableRefine

/-!
# Component ids (C12)
-/

namespace CoEcs.Props
open CoEcs Spec HTable

variable {N : Type} [DecidableEq N]

theorem idxOf_append_mem {l1 l2 : List N} {a : N} (h : a ∈ l1) : (l1 ++ l2).idxOf a = l1.idxOf a := by
  rw [List.idxOf_append, if_pos h]

theorem idxOf_append_notMem {l1 l2 : List N} {a : N} (h : a ∉ l1) :
    (l1 ++ l2).idxOf a = l2.idxOf a + l1.length := by
  rw [List.idxOf_append, if_neg h]

/-- Names seen so far, in order of first appearance. -/
def seenNames (seen : List N) : List N → List N
  | [] => seen
  | n :: ns => seenNames (if n ∈ seen then seen else seen ++ [n]) ns

theorem seenNames_prefix (ns : List N) : ∀ seen, ∃ l, seenNames seen ns = seen ++ l := by
  induction ns with
  | nil => intro seen; exact ⟨[], by simp [seenNames]⟩
  | cons n ns ih =>
    intro seen
    simp only [seenNames]
    split
    · exact ih seen
    · obtain ⟨l, hl⟩ := ih (seen ++ [n])
      exact ⟨n :: l, by rw [hl]; simp⟩

theorem seenNames_nodup (ns : List N) : ∀ seen, seen.Nodup → (seenNames seen ns).Nodup := by
  induction ns with
  | nil => intro seen h; exact h
  | cons n ns ih =>
    intro seen h
    simp only [seenNames]
    split
    · exact ih seen h
    · rename_i hn
      refine ih _ ?_
      rw [List.nodup_append]
      exact ⟨h, by simp, fun a ha b hb => by simp at hb; subst hb; exact fun hc => hn (hc ▸ ha)⟩

theorem seenNames_mem (ns : List N) : ∀ seen x, x ∈ seenNames seen ns ↔ x ∈ seen ∨ x ∈ ns := by
  induction ns with
  | nil => intro seen x; simp [seenNames]
  | cons n ns ih =>
    intro seen x
    simp only [seenNames]
    rw [ih]
    split <;> grind

/-- The registry holds the names of `seen`, each with its position. -/
structure RegInv (h : N → Nat) (r : TypeRegistry N) (seen : List N) : Prop where
  nodup : seen.Nodup
  next : r.next = seen.length % IdMod
  map : ∃ m, HRel h r.map m ∧ ∀ n, m.get n = if n ∈ seen then some (seen.idxOf n) else none

theorem regInv_run (h : N → Nat) (ns : List N) : ∀ (r : TypeRegistry N) (seen : List N), RegInv h r seen →
    (seenNames seen ns).length ≤ IdMod →
    ∃ r', Ev (fun f => r.ids h f ns) (r', ns.map fun n => (seenNames seen ns).idxOf n) := by
  induction ns with
  | nil => intro r seen _ _; exact ⟨r, Ev.const _⟩
  | cons n ns ih =>
    intro r seen inv hlen
    obtain ⟨m, hr, hm⟩ := inv.map
    obtain ⟨t', i, e, h1, r1, hi, he, hk, hv⟩ := hr.emplace false n r.next
    by_cases hn : n ∈ seen
    · simp only [seenNames, if_pos hn] at hlen
      have hg : m.get n = some (seen.idxOf n) := by rw [hm, if_pos hn]
      rw [hg] at h1 r1 hv
      simp only [Bool.false_eq_true, if_false, Option.some_or, Option.some.injEq] at hv
      simp only [Option.isNone_some, Bool.or_false, Bool.false_eq_true, if_false] at h1 r1
      obtain ⟨r', h2⟩ := ih ⟨t', r.next⟩ seen ⟨inv.nodup, inv.next, m, r1, hm⟩ hlen
      have hid : Ev (fun f => r.id h f n) (⟨t', r.next⟩, seen.idxOf n) :=
        h1.bind (Ev.of fun f => by simp only [r1.deref hi he, Run.bind, hv, Bool.false_eq_true, if_false])
      refine ⟨r', hid.bind (h2.bind (Ev.of fun f => ?_))⟩
      simp only [seenNames, if_pos hn, List.map_cons]
      obtain ⟨l, hl⟩ := seenNames_prefix ns seen
      rw [hl, idxOf_append_mem hn]
    · simp only [seenNames, if_neg hn] at hlen
      have hg : m.get n = none := by rw [hm, if_neg hn]
      rw [hg] at h1 r1 hv
      simp only [Bool.false_eq_true, if_false, Option.none_or, Option.some.injEq] at hv
      simp only [Option.isNone_none, Bool.or_true, if_true] at h1 r1
      obtain ⟨l, hl⟩ := seenNames_prefix ns (seen ++ [n])
      have hlt : seen.length < IdMod := by rw [hl] at hlen; simp at hlen; omega
      have hnd : (seen ++ [n]).Nodup := by
        rw [List.nodup_append]
        exact ⟨inv.nodup, by simp, fun a ha b hb => by simp at hb; subst hb; exact fun hc => hn (hc ▸ ha)⟩
      have hidx : (seen ++ [n]).idxOf n = seen.length := by
        rw [idxOf_append_notMem hn]; simp
      obtain ⟨r', h2⟩ := ih ⟨t', (r.next + 1) % IdMod⟩ (seen ++ [n]) ⟨hnd, by simp [inv.next], m.put n r.next, r1, by
        intro n'
        simp only [KeyMap.put]
        by_cases hnn : n' = n
        · subst hnn
          rw [if_pos rfl, if_pos (by simp), hidx, inv.next, Nat.mod_eq_of_lt hlt]
        · rw [if_neg hnn, hm]
          by_cases hs : n' ∈ seen
          · rw [if_pos hs, if_pos (by simp [hs]), idxOf_append_mem hs]
          · rw [if_neg hs, if_neg (by simp [hs, hnn])]⟩ hlen
      have hid : Ev (fun f => r.id h f n) (⟨t', (r.next + 1) % IdMod⟩, seen.length) :=
        h1.bind (Ev.of fun f => by
          simp only [r1.deref hi he, Run.bind, hv, if_true]
          rw [inv.next, Nat.mod_eq_of_lt hlt])
      refine ⟨r', hid.bind (h2.bind (Ev.of fun f => ?_))⟩
      simp only [seenNames, if_neg hn, List.map_cons]
      rw [hl, idxOf_append_mem (by simp), hidx]

/-- **C12**: for every hash function and every sequence of lookups over at most `2^32` distinct names,
two lookups return the same id exactly when the names are equal, and after every number `p` of
lookups the ids handed out so far are consecutive from zero (each smaller number is also an id). -/
theorem C12_type_ids (h : N → Nat) (ns : List N)
    (few : ∀ l : List N, l.Nodup → (∀ x ∈ l, x ∈ ns) → l.length ≤ 2 ^ 32) :
    ∃ r ids F, (∀ fuel, F ≤ fuel → TypeRegistry.init.ids h fuel ns = .ok (r, ids)) ∧
      ids.length = ns.length ∧
      (∀ (i j : Nat) (x y : N) (a b : Nat), ns[i]? = some x → ns[j]? = some y → ids[i]? = some a → ids[j]? = some b →
        (a = b ↔ x = y)) ∧
      (∀ p, ∀ k ∈ ids.take p, ∀ j, j < k → j ∈ ids.take p) := by
  have hsn := seenNames_nodup ns [] List.nodup_nil
  have hmem := seenNames_mem ns []
  obtain ⟨r, F, hF⟩ := regInv_run h ns TypeRegistry.init [] ⟨List.nodup_nil, rfl, KeyMap.empty, HRel.empty h,
    fun n => by simp [KeyMap.empty]⟩ (few _ hsn (fun x hx => by simpa using (hmem x).1 hx))
  refine ⟨r, _, F, hF, by simp, ?_, ?_⟩
  · intro i j x y a b hi hj ha hb
    rw [List.getElem?_map, hi] at ha
    rw [List.getElem?_map, hj] at hb
    simp only [Option.map_some, Option.some.injEq] at ha hb
    subst ha hb
    constructor
    · intro hab
      have hx : x ∈ seenNames [] ns := (hmem x).2 (.inr (List.mem_of_getElem? hi))
      have hy : y ∈ seenNames [] ns := (hmem y).2 (.inr (List.mem_of_getElem? hj))
      have h1 := List.getElem_idxOf (List.idxOf_lt_length_iff.2 hx)
      have h2 := List.getElem_idxOf (List.idxOf_lt_length_iff.2 hy)
      rw [← h1, ← h2]
      congr 1
    · rintro rfl; rfl
  · intro p k hk j hj
    -- the ids of the first p names are the positions in the list of names seen by then
    have hsplit : ∀ n ∈ ns.take p, (seenNames [] ns).idxOf n = (seenNames [] (ns.take p)).idxOf n := by
      intro n hn
      have happ : ∀ (l1 l2 seen : List N), seenNames seen (l1 ++ l2) = seenNames (seenNames seen l1) l2 := by
        intro l1
        induction l1 with
        | nil => intro l2 seen; rfl
        | cons a l1 ih => intro l2 seen; simp only [List.cons_append, seenNames]; exact ih l2 _
      have : seenNames [] ns = seenNames (seenNames [] (ns.take p)) (ns.drop p) := by
        rw [← happ, List.take_append_drop]
      rw [this]
      obtain ⟨l, hl⟩ := seenNames_prefix (ns.drop p) (seenNames [] (ns.take p))
      rw [hl, idxOf_append_mem]
      rw [seenNames_mem]; exact .inr hn
    rw [← List.map_take] at hk ⊢
    rw [List.mem_map] at hk
    obtain ⟨n, hn, rfl⟩ := hk
    rw [hsplit n hn] at hj
    have hlt : j < (seenNames [] (ns.take p)).length := Nat.lt_of_lt_of_le hj List.idxOf_le_length
    have hm : (seenNames [] (ns.take p))[j] ∈ ns.take p := by
      have := List.getElem_mem hlt
      rw [seenNames_mem] at this
      simpa using this
    refine List.mem_map.2 ⟨_, hm, ?_⟩
    rw [hsplit _ hm, List.Nodup.idxOf_getElem (seenNames_nodup _ [] List.nodup_nil)]

/-- Five lookups over three names with a hash function under which all names collide. -/
example : ∃ r ids F, (∀ fuel, F ≤ fuel →
      TypeRegistry.init.ids (fun _ => 7) fuel ["pos", "vel", "pos", "hp", "vel"] = .ok (r, ids)) ∧
      ids.length = 5 := by
  obtain ⟨r, ids, F, h1, h2, _⟩ := C12_type_ids (fun _ => 7) ["pos", "vel", "pos", "hp", "vel"] (by
    intro l hl hs
    have := List.Nodup.length_le_of_subset hl (fun x hx => hs x hx)
    exact Nat.le_trans this (by decide))
  exact ⟨r, ids, F, h1, h2⟩

/-- And the ids are 0, 1, 0, 2, 1. -/
example : (TypeRegistry.init.ids (fun _ => 7) 10 ["pos", "vel", "pos", "hp", "vel"]).bind (fun r => .ok r.2)
    = Run.ok [0, 1, 0, 2, 1] := by decide

end CoEcs.Props
