import Verif.Model.TypeName

/-!
# C47: the extracted type name is the compiler's spelling of the type
-/

namespace CoEcs.Props

open CoEcs

theorem findFirstOf_eq (c : Char) (p s : List Char) (h : c ∉ p) : findFirstOf c (p ++ c :: s) = p.length := by
  have h1 : (p ++ c :: s).findIdx? (· == c) = some p.length := by
    rw [List.findIdx?_append, List.findIdx?_eq_none_iff.2 (by
      intro x hx
      simp only [beq_eq_false_iff_ne, ne_eq]
      rintro rfl
      exact h hx)]
    simp [List.findIdx?_cons]
  simp [findFirstOf, h1]

theorem findLastOf_eq (c : Char) (p s : List Char) (h : c ∉ s) : findLastOf c (p ++ c :: s) = p.length := by
  have h1 : (p ++ c :: s).reverse.findIdx? (· == c) = some s.length := by
    rw [List.reverse_append, List.reverse_cons, List.append_assoc, List.findIdx?_append, List.findIdx?_eq_none_iff.2 (by
      intro x hx
      simp only [beq_eq_false_iff_ne, ne_eq]
      rintro rfl
      exact h (List.mem_reverse.1 hx))]
    simp [List.findIdx?_cons]
  unfold findLastOf
  rw [h1]
  simp

/-- **C47**, for every shape of the compiler's string `before pre ' ' spelling suf after` in which `pre` does not occur
before and `suf` does not occur after: exactly the spelling is extracted — also when the spelling itself contains `=`, `;`,
`]` or blanks, as `f() [with U = int; V = char]::local` does.  A spelling is not empty and begins with no blank. -/
theorem C47_type_name (pre suf : Char) (before spelling after : List Char) (hb : pre ∉ before) (ha : suf ∉ after)
    (hs : ∃ c rest, spelling = c :: rest ∧ c ≠ ' ') (hpre : pre ≠ ' ')
    (hlen : (before ++ pre :: ' ' :: (spelling ++ suf :: after)).length < 2 ^ 64) :
    typeName pre suf (before ++ pre :: ' ' :: (spelling ++ suf :: after)) = some spelling := by
  obtain ⟨c, rest, rfl, hc⟩ := hs
  have h1 := findFirstOf_eq pre before (' ' :: ((c :: rest) ++ suf :: after)) hb
  have h2 : findLastOf suf (before ++ pre :: ' ' :: ((c :: rest) ++ suf :: after)) = before.length + 2 + (c :: rest).length := by
    have := findLastOf_eq suf (before ++ pre :: ' ' :: (c :: rest)) after ha
    simp only [List.append_assoc, List.cons_append, List.length_append, List.length_cons] at this ⊢
    omega
  have h3 : findFirstNotOf ' ' (before.length + 1) (before ++ pre :: ' ' :: ((c :: rest) ++ suf :: after)) =
      before.length + 2 := by
    have : (before ++ pre :: ' ' :: ((c :: rest) ++ suf :: after)).drop (before.length + 1) =
        ' ' :: ((c :: rest) ++ suf :: after) := by
      rw [List.drop_append, List.drop_eq_nil_iff.2 (by omega)]
      simp
    unfold findFirstNotOf
    rw [this]
    have h4 : (' ' :: ((c :: rest) ++ suf :: after)).findIdx? (· != ' ') = some 1 := by
      simp [List.findIdx?_cons, hc]
    rw [h4]
  have hl : before.length + 2 + (c :: rest).length < 2 ^ 64 := by
    simp only [List.length_append, List.length_cons] at hlen ⊢
    omega
  unfold typeName
  simp only [h1, h2]
  rw [Nat.mod_eq_of_lt (by omega), h3]
  have hm : (before.length + 2 + (c :: rest).length + 2 ^ 64 - (before.length + 2)) % 2 ^ 64 = (c :: rest).length := by
    omega
  rw [hm]
  unfold substr
  rw [if_neg (by simp only [List.length_append, List.length_cons]; omega)]
  congr 1
  have : (before ++ pre :: ' ' :: ((c :: rest) ++ suf :: after)).drop (before.length + 2) = (c :: rest) ++ suf :: after := by
    rw [List.drop_append, List.drop_eq_nil_iff.2 (by omega)]
    have : before.length + 2 - before.length = 2 := by omega
    rw [this]; rfl
  rw [this, List.take_left']
  rfl

theorem C47_clang (t : List Char) (ht : ∃ c rest, t = c :: rest ∧ c ≠ ' ') (hl : t.length < 2 ^ 63) :
    typeName clangPrefix clangSuffix (clangPretty t) = some t := by
  have h1 : clangPrefix ∉ "static auto co_ecs::type_name() [T ".toList := by decide +kernel
  have h2 : clangSuffix ∉ ([] : List Char) := by simp
  have h3 : clangPrefix ≠ ' ' := by decide +kernel
  have h : "static auto co_ecs::type_name() [T ".toList.length = 35 := by decide +kernel
  have := C47_type_name clangPrefix clangSuffix "static auto co_ecs::type_name() [T ".toList t [] h1 h2 ht h3 (by
    simp only [List.length_append, h, List.length_cons, List.length_nil]; omega)
  exact this

theorem C47_gcc (t : List Char) (ht : ∃ c rest, t = c :: rest ∧ c ≠ ' ') (hl : t.length < 2 ^ 63) :
    typeName gccPrefix gccSuffix (gccPretty t) = some t := by
  have := C47_type_name gccPrefix gccSuffix "constexpr std::string_view co_ecs::type_name() [with T ".toList t
    " std::string_view = std::basic_string_view<char>]".toList (by decide +kernel) (by decide +kernel) ht
    (by decide +kernel) (by
      have h : "constexpr std::string_view co_ecs::type_name() [with T ".toList.length = 55 := by decide +kernel
      have h' : " std::string_view = std::basic_string_view<char>]".toList.length = 49 := by decide +kernel
      simp only [List.length_append, h, h', List.length_cons]; omega)
  exact this

/-- Different spellings give different names. -/
theorem C47_injective (t u : List Char) (ht : ∃ c rest, t = c :: rest ∧ c ≠ ' ') (hu : ∃ c rest, u = c :: rest ∧ c ≠ ' ')
    (hl : t.length < 2 ^ 63) (hl' : u.length < 2 ^ 63) (hne : t ≠ u) :
    typeName clangPrefix clangSuffix (clangPretty t) ≠ typeName clangPrefix clangSuffix (clangPretty u) ∧
    typeName gccPrefix gccSuffix (gccPretty t) ≠ typeName gccPrefix gccSuffix (gccPretty u) := by
  rw [C47_clang t ht hl, C47_clang u hu hl', C47_gcc t ht hl, C47_gcc u hu hl']
  simp [hne]

/-- A spelling with all the special characters in it. -/
example : typeName gccPrefix gccSuffix (gccPretty "f() [with U = int; V = char]::local [2]".toList) =
      some "f() [with U = int; V = char]::local [2]".toList ∧
    ∃ c rest, "f() [with U = int; V = char]::local [2]".toList = c :: rest ∧ c ≠ ' ' :=
  ⟨C47_gcc _ ⟨'f', _, rfl, by decide +kernel⟩ (by decide +kernel), 'f', _, rfl, by decide +kernel⟩

end CoEcs.Props
