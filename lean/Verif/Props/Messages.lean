import Verif.Model.Messages

/-!
# C114: the messages of exceptions
-/

namespace CoEcs.Props
open CoEcs Messages

/-! ### Reading decimal numbers -/

def isDig (c : Char) : Bool := decide (48 ≤ c.toNat) && decide (c.toNat ≤ 57)

/-- The number a list of digits stands for. -/
def valueOf (cs : List Char) : Nat := cs.foldl (fun a c => a * 10 + (c.toNat - 48)) 0

theorem digit_toNat : ∀ {d : Nat}, d < 10 → (digit d).toNat = 48 + d
  | 0, _ | 1, _ | 2, _ | 3, _ | 4, _ | 5, _ | 6, _ | 7, _ | 8, _ | 9, _ => rfl
  | n + 10, h => by omega

theorem decimal_digits (n : Nat) : ∀ c ∈ decimal n, isDig c = true := by
  induction n using Nat.strongRecOn with
  | _ n ih =>
    intro c hc
    have hd : ∀ d, d < 10 → isDig (digit d) = true := fun d h => by
      unfold isDig; rw [digit_toNat h]; simp; omega
    rw [decimal] at hc
    split at hc
    · rw [List.mem_singleton] at hc
      subst hc; exact hd _ (by omega)
    · rw [List.mem_append, List.mem_singleton] at hc
      rcases hc with hc | rfl
      · exact ih (n / 10) (by omega) c hc
      · exact hd _ (by omega)

theorem valueOf_decimal (n : Nat) : valueOf (decimal n) = n := by
  induction n using Nat.strongRecOn with
  | _ n ih =>
    rw [decimal]
    split
    · rename_i h
      simp [valueOf, digit_toNat h]
    · have := ih (n / 10) (by omega)
      unfold valueOf at this ⊢
      rw [List.foldl_append, this]
      simp only [List.foldl_cons, List.foldl_nil, digit_toNat (Nat.mod_lt n (by omega : 0 < 10))]
      omega

theorem decimal_inj {m n : Nat} (h : decimal m = decimal n) : m = n := by
  rw [← valueOf_decimal m, h, valueOf_decimal]

/-- Digits end where something else begins. -/
theorem digits_split {c : Char} (hc : isDig c = false) : ∀ {a b x y : List Char}, (∀ z ∈ a, isDig z = true) → (∀ z ∈ b, isDig z = true) →
    a ++ c :: x = b ++ c :: y → a = b ∧ x = y
  | [], [], x, y, _, _, h => by simpa using h
  | [], d :: b, x, y, _, hb, h => by
    simp only [List.nil_append, List.cons_append, List.cons.injEq] at h
    have := hb d List.mem_cons_self
    rw [← h.1, hc] at this; cases this
  | d :: a, [], x, y, ha, _, h => by
    simp only [List.nil_append, List.cons_append, List.cons.injEq] at h
    have := ha d List.mem_cons_self
    rw [h.1, hc] at this; cases this
  | d :: a, e :: b, x, y, ha, hb, h => by
    simp only [List.cons_append, List.cons.injEq] at h
    obtain ⟨h1, h2⟩ := digits_split hc (fun z hz => ha z (List.mem_cons_of_mem _ hz)) (fun z hz => hb z (List.mem_cons_of_mem _ hz)) h.2
    exact ⟨by rw [h.1, h1], h2⟩

theorem decimal_split {c : Char} (hc : isDig c = false) {m n : Nat} {x y : List Char} (h : decimal m ++ c :: x = decimal n ++ c :: y) :
    m = n ∧ x = y := by
  obtain ⟨h1, h2⟩ := digits_split hc (decimal_digits m) (decimal_digits n) h
  exact ⟨decimal_inj h1, h2⟩

/-! ### The messages -/

/-- **C114**, entities: the message of `entity_not_found` tells the handle. -/
theorem C114_entity {h g : Handle} (e : entityNotFound h = entityNotFound g) : h = g := by
  unfold entityNotFound at e
  simp only [List.append_assoc, List.append_cancel_left_eq] at e
  have e' : decimal h.id ++ ',' :: ([' '] ++ (decimal h.gen ++ ')' :: " does not exist".toList)) =
      decimal g.id ++ ',' :: ([' '] ++ (decimal g.gen ++ ')' :: " does not exist".toList)) := e
  obtain ⟨h1, h2⟩ := decimal_split (by decide) e'
  rw [List.append_cancel_left_eq] at h2
  obtain ⟨h3, _⟩ := decimal_split (by decide) h2
  cases h; cases g
  simp_all

example : entityNotFound ⟨12, 3⟩ = "entity (12, 3) does not exist".toList := by
  have h12 : decimal 12 = ['1', '2'] := by
    rw [decimal, decimal]
    decide
  have h3 : decimal 3 = ['3'] := by rw [decimal]; decide
  unfold entityNotFound
  simp only [h12, h3]
  decide +kernel

/-- **C114**, components: the message of `component_not_found` tells the name of the type. -/
theorem C114_component {n m : List Char} (e : componentNotFound n = componentNotFound m) : n = m := by
  unfold componentNotFound at e
  simpa [List.append_assoc] using e

/-- What stands between the first and the last quotation mark. -/
def quoted (l : List Char) : List Char := ((((l.dropWhile (· ≠ '"')).drop 1).reverse.dropWhile (· ≠ '"')).drop 1).reverse

/-- **C114** for components: the name is what the message quotes, whatever characters it has. -/
theorem C114_quoted (name : List Char) : quoted (componentNotFound name) = name := by
  have h1 : "component \"".toList = ['c', 'o', 'm', 'p', 'o', 'n', 'e', 'n', 't', ' ', '"'] := by decide +kernel
  have h2 : "\" not found".toList = ['"', ' ', 'n', 'o', 't', ' ', 'f', 'o', 'u', 'n', 'd'] := by decide +kernel
  unfold quoted componentNotFound
  rw [h1, h2]
  simp

/-- **C114**, sizes: the message of `insufficient_chunk_size` tells both sizes. -/
theorem C114_sizes {a b c d : Nat} (e : insufficientChunkSize a b = insufficientChunkSize c d) : a = c ∧ b = d := by
  unfold insufficientChunkSize at e
  simp only [List.append_assoc, List.append_cancel_left_eq] at e
  have e' : decimal a ++ ' ' :: ("bytes exceeds chunk block size of ".toList ++ (decimal b ++ ' ' :: "bytes".toList)) =
      decimal c ++ ' ' :: ("bytes exceeds chunk block size of ".toList ++ (decimal d ++ ' ' :: "bytes".toList)) := e
  obtain ⟨h1, h2⟩ := decimal_split (by decide) e'
  rw [List.append_cancel_left_eq] at h2
  exact ⟨h1, (decimal_split (by decide) h2).1⟩

/-- **C114**, kinds: the message tells which of the three went wrong. -/
theorem C114_kinds (h : Handle) (n : List Char) (a b : Nat) : entityNotFound h ≠ componentNotFound n ∧
    entityNotFound h ≠ insufficientChunkSize a b ∧ componentNotFound n ≠ insufficientChunkSize a b := by
  have h1 : (entityNotFound h).head? = some 'e' := by
    unfold entityNotFound
    rw [show "entity (".toList = 'e' :: "ntity (".toList by decide +kernel]
    rfl
  have h2 : (componentNotFound n).head? = some 'c' := by
    unfold componentNotFound
    rw [show "component \"".toList = 'c' :: "omponent \"".toList by decide +kernel]
    rfl
  have h3 : (insufficientChunkSize a b).head? = some 'T' := by
    unfold insufficientChunkSize
    rw [show "Total size of components ".toList = 'T' :: "otal size of components ".toList by decide +kernel]
    rfl
  refine ⟨fun e => ?_, fun e => ?_, fun e => ?_⟩
  · rw [e, h2] at h1; exact absurd h1 (by decide)
  · rw [e, h3] at h1; exact absurd h1 (by decide)
  · rw [e, h3] at h2; exact absurd h2 (by decide)

/-- The sizes of the components together. -/
def totalSize (comps : List CompMeta) : Nat := (comps.map CompMeta.size).sum

theorem addElement_ge : ∀ (comps : List CompMeta) (fin : Nat), fin + totalSize comps ≤ comps.foldl Layout.addElement fin
  | [], fin => by simp [totalSize]
  | m :: ms, fin => by
    have := addElement_ge ms (Layout.addElement fin m)
    simp only [List.foldl_cons, totalSize, List.map_cons, List.sum_cons] at this ⊢
    unfold Layout.addElement at this ⊢
    omega

theorem alignedSize_ge (comps : List CompMeta) : 8 + totalSize comps ≤ Layout.alignedSize comps := by
  have := addElement_ge comps (Layout.addElement Layout.allocAlignment (Layout.entityMeta 0))
  have h12 : Layout.addElement Layout.allocAlignment (Layout.entityMeta 0) = 12 := by decide
  unfold Layout.alignedSize
  rw [h12] at this ⊢
  unfold Layout.allocAlignment
  omega

/-- **C114** (partial; missing: that the first size is the total size of the components, which it is not): creation of an archetype fails exactly
if there is a message, and the message gives a size above that of a chunk, and that of a chunk. -/
theorem C114_chunk_partial (comps : List CompMeta) : (Layout.maxSize comps = none ↔ (chunkSizeMessage comps).isSome = true) ∧
    ∀ {m}, chunkSizeMessage comps = some m → ∃ a, m = insufficientChunkSize a 16384 ∧ 16384 < a := by
  unfold Layout.maxSize chunkSizeMessage
  split
  · rename_i h
    refine ⟨by simp, fun hm => ?_⟩
    cases hm
    exact ⟨_, rfl, h⟩
  · exact ⟨by simp, fun hm => by cases hm⟩

/-- **C114** violated, for all lists of components: the size the message calls the total size of the components is never that; it is
at least eight bytes more. -/
theorem C114_total_violated (comps : List CompMeta) {a b : Nat} (h : chunkSizeMessage comps = some (insufficientChunkSize a b)) :
    totalSize comps + 8 ≤ a := by
  unfold chunkSizeMessage at h
  split at h
  · rw [← (C114_sizes (Option.some.inj h)).1]
    have := alignedSize_ge comps
    omega
  · cases h

/-- **C114** violated, what it says is not so: one component of 16380 bytes is said to exceed 16384 bytes. -/
theorem C114_exceeds_violated : ∃ comps : List CompMeta, totalSize comps < 16384 ∧ ∃ a, 16384 < a ∧
    chunkSizeMessage comps = some (insufficientChunkSize a 16384) := by
  have h : Layout.alignedSize [⟨0, 16380, 4, true⟩] = 16388 := by decide +kernel
  refine ⟨[⟨0, 16380, 4, true⟩], by decide +kernel, 16388, by decide +kernel, ?_⟩
  unfold chunkSizeMessage
  rw [h]
  exact if_pos (by decide +kernel)

end CoEcs.Props
