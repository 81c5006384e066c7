import Verif.Proofs.WeakUse
import Verif.Spec.WeakDeque

/-! # Work-stealing queues in plain memory: helper lemmas -/

namespace CoEcs.Weak

theorem seq_fence (o : Order) (s : Store Loc) : (fence o).seq s = (0, s) := rfl

theorem seq_cas (o : Order) (l : Loc) (a b : Int) (s : Store Loc) (h : s.atom l = a) :
    (rmw o l fun x => if x = a then some b else none).seq s = (a, s.setAtom l b) := by
  simp [rmw, Prog.call, Prog.seq, Op.seq, h]

/-- All queues are in memory; addresses from `-n - 1` on downwards are unused. -/
structure QRep (n : Nat) (q : Nat → List Int) (s : Store Loc) : Prop where
  one : ∀ w, ∃ e T, DequeAt s w (s.atom (.array w)) e T (q w)
  inj : ∀ w w', s.atom (.array w) = s.atom (.array w') → w = w'
  used : ∀ w, -(n : Int) ≤ s.atom (.array w)

theorem mask_index (i e : Nat) : ((i : Int).toNat &&& (((2 ^ e : Nat) : Int) - 1).toNat) = i % 2 ^ e := by
  have : (((2 ^ e : Nat) : Int) - 1).toNat = 2 ^ e - 1 := by omega
  rw [this, Int.toNat_natCast, Nat.and_two_pow_sub_one_eq_mod]

theorem seq_arrPush {s : Store Loc} {a : Int} {e : Nat} (h : s.cell (.mask a) = ((2 ^ e : Nat) : Int) - 1) (i : Nat) (o : Int) :
    (arrPush a i o).seq s = ((), s.setAtom (.cell a (i % 2 ^ e)) o) := by
  simp only [arrPush, Prog.seq_bind', seq_read, seq_store, seq_pure, h, mask_index]

theorem seq_arrPop {s : Store Loc} {a : Int} {e : Nat} (h : s.cell (.mask a) = ((2 ^ e : Nat) : Int) - 1) (i : Nat) :
    (arrPop a i).seq s = (s.atom (.cell a (i % 2 ^ e)), s) := by
  simp only [arrPop, Prog.seq_bind', seq_read, seq_load, h, mask_index]

/-- Two stores agree except on the cells of an array. -/
def SameBut (b : Int) (s s' : Store Loc) : Prop := s'.cell = s.cell ∧ ∀ l, (∀ k, l ≠ .cell b k) → s'.atom l = s.atom l

theorem mod_apart {T i j m : Nat} (hij : i < j) (hj : j < m + i) (h : (T + i) % m = (T + j) % m) : False := by
  have h1 := Nat.sub_mod_eq_zero_of_mod_eq h.symm
  have h2 := Nat.le_of_dvd (by omega) (Nat.dvd_of_mod_eq_zero h1)
  omega

theorem seq_copyLoop {a b : Int} {e e' : Nat} (hab : a ≠ b) : ∀ (n T : Nat) {s : Store Loc}, s.cell (.mask a) = ((2 ^ e : Nat) : Int) - 1 →
    s.cell (.mask b) = ((2 ^ e' : Nat) : Int) - 1 → n ≤ 2 ^ e' →
    ∃ s', (copyLoop a b n T).seq s = ((), s') ∧ SameBut b s s' ∧
      (∀ i, i < n → s'.atom (.cell b ((T + i) % 2 ^ e')) = s.atom (.cell a ((T + i) % 2 ^ e))) ∧
      ∀ k, (∀ i, i < n → k ≠ (T + i) % 2 ^ e') → s'.atom (.cell b k) = s.atom (.cell b k)
  | 0, T, s, _, _, _ => ⟨s, rfl, ⟨rfl, fun _ _ => rfl⟩, fun i hi => by omega, fun _ _ => rfl⟩
  | n + 1, T, s, ha, hb, hn => by
    have h1 := seq_arrPop ha T
    have h2 := seq_arrPush hb T (s.atom (.cell a (T % 2 ^ e)))
    obtain ⟨s', hs, hsame, hnew, hold⟩ := seq_copyLoop (e := e) (e' := e') hab n (T + 1)
      (s := s.setAtom (.cell b (T % 2 ^ e')) (s.atom (.cell a (T % 2 ^ e)))) ha hb (by omega)
    refine ⟨s', ?_, ⟨hsame.1, fun l hl => ?_⟩, fun i hi => ?_, fun k hk => ?_⟩
    · simp only [copyLoop, Prog.seq_bind', h1, h2]
      exact hs
    · rw [hsame.2 l hl]
      simp [Store.setAtom, hl]
    · have hother : ∀ j, (s.setAtom (.cell b (T % 2 ^ e')) (s.atom (.cell a (T % 2 ^ e)))).atom (.cell a j) = s.atom (.cell a j) := by
        intro j; simp [Store.setAtom, hab]
      cases i with
      | zero =>
        simp only [Nat.add_zero]
        rw [hold (T % 2 ^ e') fun j hj heq => mod_apart (i := 0) (j := j + 1) (T := T) (m := 2 ^ e') (by omega) (by omega) (by
          rw [show T + (j + 1) = T + 1 + j by omega]; exact heq)]
        simp [Store.setAtom]
      | succ i =>
        have := hnew i (by omega)
        rw [hother] at this
        rw [show T + (i + 1) = T + 1 + i by omega]
        exact this
    · rw [hold k fun i hi => by rw [show T + 1 + i = T + (i + 1) by omega]; exact hk (i + 1) (by omega)]
      have : k ≠ T % 2 ^ e' := hk 0 (by omega)
      simp [Store.setAtom, this]


/-- Other queues are not affected by changes to one. -/
theorem DequeAt.frame {s s' : Store Loc} {w : Nat} {a : Int} {e T : Nat} {q : List Int} (h : DequeAt s w a e T q)
    (h1 : s'.atom (.array w) = s.atom (.array w)) (h2 : s'.cell (.cap a) = s.cell (.cap a)) (h3 : s'.cell (.mask a) = s.cell (.mask a))
    (h4 : s'.atom (.top w) = s.atom (.top w)) (h5 : s'.atom (.bottom w) = s.atom (.bottom w))
    (h6 : ∀ k, s'.atom (.cell a k) = s.atom (.cell a k)) : DequeAt s' w a e T q :=
  ⟨h1.trans h.arr, h2.trans h.cap, h3.trans h.mask, h4.trans h.top, h5.trans h.bot, h.fits, fun i v hi => (h6 _).trans (h.item i v hi)⟩

/-- `push` on one queue. -/
theorem DequeAt.push {s : Store Loc} {w : Nat} {a : Int} {e T : Nat} {q : List Int} (h : DequeAt s w a e T q) {fresh : Int} (hf : a ≠ fresh) (o : Int) :
    ∃ s' a' e', (Weak.push w fresh o).seq s = ((), s') ∧ DequeAt s' w a' e' T (q ++ [o]) ∧ (a' = a ∨ a' = fresh) ∧
      (∀ b, b ≠ a → b ≠ fresh → s'.cell (.cap b) = s.cell (.cap b) ∧ s'.cell (.mask b) = s.cell (.mask b) ∧ ∀ k, s'.atom (.cell b k) = s.atom (.cell b k)) ∧
      (∀ w', w' ≠ w → s'.atom (.array w') = s.atom (.array w') ∧ s'.atom (.top w') = s.atom (.top w') ∧ s'.atom (.bottom w') = s.atom (.bottom w')) ∧
      NotesEq s s' := by
  by_cases hlen : q.length < 2 ^ e
  · refine ⟨(s.setAtom (.cell a ((T + q.length) % 2 ^ e)) o).setAtom (.bottom w) ((T + q.length : Nat) + 1), a, e, ?_, ⟨?_, ?_, ?_, ?_, ?_, ?_, ?_⟩, .inl rfl, ?_, ?_, ?_⟩
    · have hc : ¬ (((2 ^ e : Nat) : Int) - 1 < ((T + q.length : Nat) : Int) - (T : Int)) := by omega
      simp only [Weak.push, Prog.seq_bind', seq_load, seq_read, h.arr, h.cap, h.top, h.bot, hc, if_false, seq_pure, seq_arrPush h.mask, seq_fence, seq_store]
    · exact h.arr
    · exact h.cap
    · exact h.mask
    · simp [Store.setAtom]; exact h.top
    · simp [Store.setAtom]; omega
    · simp; omega
    · intro i v hi
      by_cases hq : i = q.length
      · subst hq
        simp at hi
        simp [Store.setAtom, hi]
      · have hlt : i < q.length := by
          have := (List.getElem?_eq_some_iff.1 hi).1
          simp at this; omega
        rw [List.getElem?_append_left hlt] at hi
        have hne : (T + i) % 2 ^ e ≠ (T + q.length) % 2 ^ e := fun heq => mod_apart (i := i) (j := q.length) hlt (by omega) heq
        simp [Store.setAtom, hne]
        exact h.item i v hi
    · intro b hb _; simp [Store.setAtom, hb]
    · intro w' hw'; simp [Store.setAtom, hw']
    · intro t k; simp [Store.setAtom]
  · have hq : q.length = 2 ^ e := by have := h.fits; omega
    obtain ⟨s2, hs2, hsame, hnew, _⟩ := seq_copyLoop (a := a) (b := fresh) (e := e) (e' := e + 1) hf q.length T
      (s := ((s.setCell (.cap fresh) (2 * ((2 ^ e : Nat) : Int))).setCell (.mask fresh) (2 * ((2 ^ e : Nat) : Int) - 1)).setCell (.data fresh) fresh)
      (by simp [Store.setCell, hf]; exact h.mask) (by simp [Store.setCell]; omega) (by omega)
    have hmask : (s2.setAtom (.array w) fresh).cell (.mask fresh) = ((2 ^ (e + 1) : Nat) : Int) - 1 := by
      show s2.cell _ = _
      rw [hsame.1]; simp [Store.setCell]; omega
    have hother : ∀ l, (∀ k, l ≠ .cell fresh k) → s2.atom l = s.atom l := fun l hl => hsame.2 l hl
    refine ⟨((s2.setAtom (.array w) fresh).setAtom (.cell fresh ((T + q.length) % 2 ^ (e + 1))) o).setAtom (.bottom w) ((T + q.length : Nat) + 1),
      fresh, e + 1, ?_, ⟨?_, ?_, ?_, ?_, ?_, ?_, ?_⟩, .inr rfl, ?_, ?_, ?_⟩
    · have hc : (((2 ^ e : Nat) : Int) - 1 < ((T + q.length : Nat) : Int) - (T : Int)) := by omega
      have hn : (((T + q.length : Nat) : Int) - (T : Int)).toNat = q.length := by omega
      simp only [Weak.push, Prog.seq_bind', seq_load, seq_read, h.arr, h.cap, h.top, h.bot, hc, if_true, grow, arrNew, seq_write, seq_pure, hn, hs2,
        seq_store, seq_arrPush hmask, seq_fence]
    · simp [Store.setAtom]
    · show s2.cell _ = _
      rw [hsame.1]; simp [Store.setCell]; omega
    · exact hmask
    · simp [Store.setAtom]; rw [hother _ (by simp)]; exact h.top
    · simp [Store.setAtom]; omega
    · rw [List.length_append]; have : 0 < 2 ^ e := Nat.two_pow_pos e; simp only [List.length_singleton, hq, Nat.pow_succ]; omega
    · intro i v hi
      by_cases hq : i = q.length
      · subst hq
        simp at hi
        simp [Store.setAtom, hi]
      · have hlt : i < q.length := by
          have := (List.getElem?_eq_some_iff.1 hi).1
          simp at this; omega
        rw [List.getElem?_append_left hlt] at hi
        have hne : (T + i) % 2 ^ (e + 1) ≠ (T + q.length) % 2 ^ (e + 1) :=
          fun heq => mod_apart (i := i) (j := q.length) hlt (by omega) heq
        simp [Store.setAtom, hne]
        rw [hnew i hlt]
        exact h.item i v hi
    · intro b hb hb'
      refine ⟨?_, ?_, fun k => ?_⟩
      · show s2.cell _ = _
        rw [hsame.1]; simp [Store.setCell, hb']
      · show s2.cell _ = _
        rw [hsame.1]; simp [Store.setCell, hb']
      · simp [Store.setAtom, hb']; exact hother _ (by simp [hb'])
    · intro w' hw'
      simp [Store.setAtom, hw']
      exact ⟨hother _ (by simp), hother _ (by simp), hother _ (by simp)⟩
    · intro t k
      show s2.cell _ = _ ∧ s2.cell _ = _
      rw [hsame.1]; simp [Store.setCell, noteId, noteGen]

/-- `pop` on one queue. -/
theorem DequeAt.pop {s : Store Loc} {w : Nat} {a : Int} {e T : Nat} {q : List Int} (h : DequeAt s w a e T q) :
    ∃ s' T', (Weak.pop w).seq s = (q.getLast?, s') ∧ DequeAt s' w a e T' q.dropLast ∧ s'.cell = s.cell ∧
      ∀ l, l ≠ .top w → l ≠ .bottom w → s'.atom l = s.atom l := by
  rcases List.eq_nil_or_concat q with rfl | ⟨q, x, rfl⟩
  · have hb : s.atom (.bottom w) = (T : Int) := h.bot
    refine ⟨(s.setAtom (.bottom w) ((T : Int) - 1)).setAtom (.bottom w) ((T : Int) - 1 + 1), T, ?_, ?_, rfl, ?_⟩
    · have hc : ¬ ((T : Int) ≤ (T : Int) - 1) := by omega
      have ht : (s.setAtom (.bottom w) ((T : Int) - 1)).atom (.top w) = T := by simp [Store.setAtom]; exact h.top
      simp only [Weak.pop, Prog.seq_bind', seq_load, seq_store, seq_fence, hb, ht, hc, if_false, seq_pure, List.getLast?_nil]
    · refine ⟨?_, h.cap, h.mask, ?_, ?_, h.fits, fun i v hi => by simp at hi⟩
      · simp [Store.setAtom]; exact h.arr
      · simp [Store.setAtom]; exact h.top
      · simp [Store.setAtom]
    · intro l _ hl; simp [Store.setAtom, hl]
  · rw [List.concat_eq_append] at h ⊢
    have hb : s.atom (.bottom w) = ((T + q.length + 1 : Nat) : Int) := by rw [h.bot]; simp; omega
    have hitem : s.atom (.cell a ((T + q.length) % 2 ^ e)) = x := h.item q.length x (by simp)
    have hb1 : (((T + q.length + 1 : Nat) : Int) - 1) = ((T + q.length : Nat) : Int) := by omega
    have ht : (s.setAtom (.bottom w) ((T + q.length : Nat) : Int)).atom (.top w) = T := by simp [Store.setAtom]; exact h.top
    have hm : (s.setAtom (.bottom w) ((T + q.length : Nat) : Int)).cell (.mask a) = ((2 ^ e : Nat) : Int) - 1 := h.mask
    have hi' : (s.setAtom (.bottom w) ((T + q.length : Nat) : Int)).atom (.cell a ((T + q.length) % 2 ^ e)) = x := by simp [Store.setAtom]; exact hitem
    have hle : (T : Int) ≤ ((T + q.length : Nat) : Int) := by omega
    cases q with
    | nil =>
      refine ⟨(((s.setAtom (.bottom w) ((T : Nat) : Int))).setAtom (.top w) (T + 1)).setAtom (.bottom w) ((T : Int) + 1), T + 1, ?_, ?_, rfl, ?_⟩
      · simp only [List.length_nil, Nat.add_zero, Int.le_refl] at hb hb1 ht hm hi' hle
        simp only [Weak.pop, Prog.seq_bind', seq_load, seq_store, seq_fence, hb, hb1, h.arr, ht, Int.le_refl, if_true, seq_arrPop hm, hi',
          seq_cas _ _ _ _ _ ht, seq_pure, List.nil_append, List.getLast?_singleton]
      · refine ⟨?_, h.cap, h.mask, ?_, ?_, Nat.zero_le _, fun i v hi => by simp at hi⟩
        · simp [Store.setAtom]; exact h.arr
        · simp [Store.setAtom]
        · simp [Store.setAtom]
      · intro l hl hl'; simp [Store.setAtom, hl, hl']
    | cons y q =>
      refine ⟨s.setAtom (.bottom w) ((T + (y :: q).length : Nat) : Int), T, ?_, ?_, rfl, ?_⟩
      · have hne : ¬ ((T : Int) = ((T + (y :: q).length : Nat) : Int)) := by simp; omega
        simp only [Weak.pop, Prog.seq_bind', seq_load, seq_store, seq_fence, hb, hb1, h.arr, ht, hle, if_true, seq_arrPop hm, hi',
          hne, if_false, seq_pure, List.getLast?_concat]
      · rw [List.dropLast_concat]
        refine ⟨?_, h.cap, h.mask, ht, ?_, ?_, fun i v hi => ?_⟩
        · simp [Store.setAtom]; exact h.arr
        · simp [Store.setAtom]
        · have := h.fits; simp at this ⊢; omega
        · simp only [Store.setAtom]
          rw [if_neg nofun]
          exact h.item i v (by rw [List.getElem?_append_left (List.getElem?_eq_some_iff.1 hi).1]; exact hi)
      · intro l hl hl'; simp [Store.setAtom, hl']

/-- `steal` from one queue. -/
theorem DequeAt.steal {s : Store Loc} {w : Nat} {a : Int} {e T : Nat} {q : List Int} (h : DequeAt s w a e T q) :
    ∃ s' T', (Weak.steal w).seq s = (q.head?, s') ∧ DequeAt s' w a e T' (q.drop 1) ∧ s'.cell = s.cell ∧
      ∀ l, l ≠ .top w → l ≠ .bottom w → s'.atom l = s.atom l := by
  cases q with
  | nil =>
    refine ⟨s, T, ?_, h, rfl, fun _ _ _ => rfl⟩
    have hc : ¬ ((T : Int) < ((T + ([] : List Int).length : Nat) : Int)) := by simp
    simp only [Weak.steal, Prog.seq_bind', seq_load, seq_fence, h.top, h.bot, hc, if_false, seq_pure, List.head?_nil]
  | cons x q =>
    refine ⟨s.setAtom (.top w) (T + 1), T + 1, ?_, ?_, rfl, ?_⟩
    · have hc : (T : Int) < ((T + (x :: q).length : Nat) : Int) := by simp; omega
      have hi : s.atom (.cell a (T % 2 ^ e)) = x := h.item 0 x rfl
      simp only [Weak.steal, Prog.seq_bind', seq_load, seq_fence, h.top, h.bot, h.arr, hc, if_true, seq_arrPop h.mask, hi,
        seq_cas _ _ _ _ _ h.top, seq_pure, List.head?_cons]
    · refine ⟨?_, h.cap, h.mask, ?_, ?_, ?_, fun i v hi => ?_⟩
      · simp [Store.setAtom]; exact h.arr
      · simp [Store.setAtom]
      · simp [Store.setAtom]; rw [h.bot]; simp; omega
      · have := h.fits; simp at this ⊢; omega
      · simp only [Store.setAtom]
        rw [if_neg nofun, show T + 1 + i = T + (i + 1) by omega]
        exact h.item (i + 1) v (by simpa using hi)
    · intro l hl _; simp [Store.setAtom, hl]

section
variable {n : Nat} {q : Nat → List Int} {s : Store Loc}

/-- A call that changes only `_top` and `_bottom` of one queue. -/
theorem QRep.ends (h : QRep n q s) {w e T : Nat} {q' : List Int} {s' : Store Loc} (h1 : DequeAt s' w (s.atom (.array w)) e T q') (h2 : s'.cell = s.cell)
    (h3 : ∀ l, l ≠ .top w → l ≠ .bottom w → s'.atom l = s.atom l) : QRep (n + 1) (fun x => if x = w then q' else q x) s' := by
  have harr : ∀ w', s'.atom (.array w') = s.atom (.array w') := fun w' => h3 _ nofun nofun
  refine ⟨fun w' => ?_, fun w' w'' hw => h.inj _ _ (by rw [← harr, ← harr]; exact hw), fun w' => ?_⟩
  · by_cases hw : w' = w
    · subst hw
      exact ⟨e, T, by rw [harr]; simpa using h1⟩
    · obtain ⟨e', T', h4⟩ := h.one w'
      refine ⟨e', T', ?_⟩
      rw [harr]
      simp only [hw, if_false]
      exact h4.frame (harr _) (by rw [h2]) (by rw [h2]) (h3 _ (by simp [hw]) nofun) (h3 _ nofun (by simp [hw])) fun k => h3 _ nofun nofun
  · rw [harr]; have := h.used w'; omega

theorem QRep.call (h : QRep n q s) (c : QCall) :
    ∃ s', (c.prog (-(n : Int) - 1)).seq s = ((c.ref q).2, s') ∧ QRep (n + 1) (c.ref q).1 s' ∧ NotesEq s s' := by
  cases c with
  | push w o =>
    obtain ⟨e, T, h1⟩ := h.one w
    have hf : s.atom (.array w) ≠ -(n : Int) - 1 := by have := h.used w; omega
    obtain ⟨s', a', e', hs, h2, ha, hb, hw, hnotes⟩ := h1.push hf o
    have harr : s'.atom (.array w) = a' := h2.arr
    refine ⟨s', by simp only [QCall.prog, Prog.seq_bind', hs]; rfl, ⟨fun w' => ?_, fun w1 w2 he => ?_, fun w' => ?_⟩, hnotes⟩
    · by_cases hw' : w' = w
      · subst hw'
        exact ⟨e', T, by rw [harr]; simpa [QCall.ref] using h2⟩
      · obtain ⟨e1, T1, h3⟩ := h.one w'
        obtain ⟨k1, k2, k3⟩ := hw w' hw'
        obtain ⟨b1, b2, b3⟩ := hb (s.atom (.array w')) (fun he => hw' (h.inj _ _ he)) (by have := h.used w'; omega)
        refine ⟨e1, T1, ?_⟩
        rw [k1]
        simp only [QCall.ref, hw', if_false]
        exact h3.frame k1 b1 b2 k2 k3 b3
    · by_cases h1' : w1 = w <;> by_cases h2' : w2 = w
      · rw [h1', h2']
      · subst h1'
        rw [harr, (hw w2 h2').1] at he
        rcases ha with ha | ha
        · exact h.inj _ _ (ha.symm.trans he)
        · have := h.used w2; omega
      · subst h2'
        rw [harr, (hw w1 h1').1] at he
        rcases ha with ha | ha
        · exact h.inj _ _ (he.trans ha)
        · have := h.used w1; omega
      · rw [(hw w1 h1').1, (hw w2 h2').1] at he
        exact h.inj _ _ he
    · by_cases hw' : w' = w
      · subst hw'
        rw [harr]
        have := h.used w'
        rcases ha with ha | ha <;> omega
      · rw [(hw w' hw').1]
        have := h.used w'; omega
  | pop w =>
    obtain ⟨e, T, h1⟩ := h.one w
    obtain ⟨s', T', hs, h2, h3, h4⟩ := h1.pop
    exact ⟨s', by simp only [QCall.prog, Prog.seq_bind', hs]; rfl, h.ends h2 h3 h4, fun t k => by rw [h3]; exact ⟨rfl, rfl⟩⟩
  | steal w =>
    obtain ⟨e, T, h1⟩ := h.one w
    obtain ⟨s', T', hs, h2, h3, h4⟩ := h1.steal
    exact ⟨s', by simp only [QCall.prog, Prog.seq_bind', hs]; rfl, h.ends h2 h3 h4, fun t k => by rw [h3]; exact ⟨rfl, rfl⟩⟩

theorem QRep.frame {s' : Store Loc} (h : QRep n q s) (h1 : ∀ l, l ≠ turn → s'.atom l = s.atom l) (h2 : ∀ a, s'.cell (.cap a) = s.cell (.cap a))
    (h3 : ∀ a, s'.cell (.mask a) = s.cell (.mask a)) : QRep n q s' := by
  have ht : ∀ l, l ≠ .user 0 → s'.atom l = s.atom l := h1
  have ha : ∀ w, s'.atom (.array w) = s.atom (.array w) := fun w => ht _ nofun
  refine ⟨fun w => ?_, fun w w' he => ?_, fun w => ?_⟩
  · obtain ⟨e, T, h4⟩ := h.one w
    refine ⟨e, T, ?_⟩
    rw [ha]
    exact h4.frame (ha _) (h2 _) (h3 _) (ht _ nofun) (ht _ nofun) fun k => ht _ nofun
  · rw [ha, ha] at he; exact h.inj _ _ he
  · rw [ha]; exact h.used w

end

theorem QRep.calls : ∀ (cs : List QCall) {n : Nat} {q : Nat → List Int} {s : Store Loc} (t k : Nat), QRep n q s →
    QRep (n + cs.length) (QCall.refs q cs).1 ((queueing t n k cs).seq s).2 ∧ NotedFrom ((queueing t n k cs).seq s).2 t k (QCall.refs q cs).2 ∧
    ∀ t' k', t' ≠ t ∨ k' < k → ((queueing t n k cs).seq s).2.cell (noteId t' k') = s.cell (noteId t' k') ∧
      ((queueing t n k cs).seq s).2.cell (noteGen t' k') = s.cell (noteGen t' k')
  | [], n, q, s, t, k, h => ⟨h, fun i a hi => by simp [QCall.refs] at hi, fun _ _ _ => ⟨rfl, rfl⟩⟩
  | c :: cs, n, q, s, t, k, h => by
    obtain ⟨s1, e1, h1, n1⟩ := h.call c
    have h2 : QRep (n + 1) (c.ref q).1 ((s1.setCell (noteId t k) (c.ref q).2.1).setCell (noteGen t k) (c.ref q).2.2) :=
      h1.frame (fun _ _ => rfl) (fun _ => by simp [Store.setCell, noteId, noteGen]) fun _ => by simp [Store.setCell, noteId, noteGen]
    obtain ⟨h3, h4, h5⟩ := QRep.calls cs t (k + 1) h2
    have e2 : (queueing t n k (c :: cs)).seq s =
        (queueing t (n + 1) (k + 1) cs).seq ((s1.setCell (noteId t k) (c.ref q).2.1).setCell (noteGen t k) (c.ref q).2.2) := by
      simp only [queueing, Prog.seq_bind', e1, seq_write]
    rw [e2]
    refine ⟨?_, ?_, ?_⟩
    · rw [show n + (c :: cs).length = n + 1 + cs.length by simp; omega]; exact h3
    · intro i b hi
      cases i with
      | zero =>
        simp only [QCall.refs, List.getElem?_cons_zero, Option.some.injEq] at hi
        subst hi
        have := h5 t k (.inr (by omega))
        simp only [Nat.add_zero]
        rw [this.1, this.2]
        simp [Store.setCell, noteId, noteGen]
      | succ i =>
        have := h4 i b (by simpa [QCall.refs] using hi)
        rw [show k + 1 + i = k + (i + 1) by omega] at this
        exact this
    · intro t' k' hk
      have := h5 t' k' (by omega)
      rw [this.1, this.2, ← (n1 t' k').1, ← (n1 t' k').2]
      have hne : ¬ (t' = t ∧ k' = k) := by omega
      simp [Store.setCell, noteId, noteGen, hne]

/-- The programs of the threads from number `j` on, when `n` addresses have been used up. -/
def queueProgsFrom (j : Nat) : Nat → List (List QCall) → List (P Unit)
  | _, [] => []
  | n, cs :: css => handing .rel turn j (queueing j n 0 cs) :: queueProgsFrom (j + 1) (n + cs.length) css

theorem queueProgsFrom_eq : ∀ (css : List (List QCall)) (j n : Nat),
    queueProgsFrom j n css = css.mapIdx fun t cs => handing .rel turn (j + t) (queueing (j + t) (n + (css.take t).flatten.length) 0 cs)
  | [], _, _ => rfl
  | cs :: css, j, n => by
    rw [queueProgsFrom, queueProgsFrom_eq css, List.mapIdx_cons]
    simp only [List.take_zero, List.flatten_nil, List.length_nil, Nat.add_zero, List.cons.injEq, true_and]
    apply List.ext_getElem?
    intro i
    simp only [List.getElem?_mapIdx, List.take_succ_cons, List.flatten_cons, List.length_append]
    rw [show j + 1 + i = j + (i + 1) by omega, Nat.add_assoc]

theorem QRep.callsAll : ∀ (css : List (List QCall)) {n : Nat} {q : Nat → List Int} {s : Store Loc} (j : Nat), QRep n q s →
    (∃ n', QRep n' (QCall.refsAll q css).1 (seqAll (queueProgsFrom j n css) s)) ∧
    (∀ (i : Nat) as, (QCall.refsAll q css).2[i]? = some as → NotedFrom (seqAll (queueProgsFrom j n css) s) (j + i) 0 as) ∧
    ∀ t k, t < j → (seqAll (queueProgsFrom j n css) s).cell (noteId t k) = s.cell (noteId t k) ∧
      (seqAll (queueProgsFrom j n css) s).cell (noteGen t k) = s.cell (noteGen t k)
  | [], n, q, s, j, h => ⟨⟨n, h⟩, fun i a hi => by simp [QCall.refsAll] at hi, fun _ _ _ => ⟨rfl, rfl⟩⟩
  | cs :: css, n, q, s, j, h => by
    obtain ⟨h1, h2, h3⟩ := QRep.calls cs j 0 h
    have h1' : QRep (n + cs.length) (QCall.refs q cs).1 (((queueing j n 0 cs).seq s).2.setAtom turn ((j + 1 : Nat) : Int)) :=
      h1.frame (fun l hl => by simp [Store.setAtom, hl]) (fun _ => rfl) fun _ => rfl
    obtain ⟨h4, h5, h6⟩ := QRep.callsAll css (j + 1) h1'
    have e : seqAll (queueProgsFrom j n (cs :: css)) s =
        seqAll (queueProgsFrom (j + 1) (n + cs.length) css) (((queueing j n 0 cs).seq s).2.setAtom turn ((j + 1 : Nat) : Int)) := by
      simp only [queueProgsFrom, seqAll, handing_seq]
    rw [e]
    refine ⟨h4, ?_, ?_⟩
    · intro i as' hi
      cases i with
      | zero =>
        simp only [QCall.refsAll, List.getElem?_cons_zero, Option.some.injEq] at hi
        subst hi
        intro k a hk
        have := h6 j (0 + k) (by omega)
        simp only [Nat.zero_add, Nat.add_zero] at this ⊢
        rw [this.1, this.2]
        have := h2 k a hk
        simp only [Nat.zero_add] at this
        exact this
      | succ i =>
        have := h5 i as' (by simpa [QCall.refsAll] using hi)
        rw [show j + (i + 1) = j + 1 + i by omega]
        exact this
    · intro t k ht
      have h7 := h6 t k (by omega)
      rw [h7.1, h7.2]
      exact h3 t k (.inl (by omega))

theorem QRep.start (e : Nat) : QRep 0 (fun _ => []) ⟨initial ((2 ^ e : Nat) : Int), initial ((2 ^ e : Nat) : Int)⟩ := by
  refine ⟨fun w => ⟨e, 0, rfl, rfl, rfl, rfl, rfl, Nat.zero_le _, fun i v hi => by simp at hi⟩, fun w w' h => ?_, fun w => ?_⟩
  · have : (w : Int) + 1 = (w' : Int) + 1 := h
    omega
  · show -((0 : Nat) : Int) ≤ (w : Int) + 1
    omega

/-! ## Queue programs do not touch the turn -/

theorem arrPush_avoids (a i o : Int) : (arrPush a i o).Avoids turn := by
  simp [arrPush, bind, Prog.bind, read, store, Prog.call, pure, Prog.Avoids, Op.loc, turn]

theorem arrPop_avoids (a i : Int) : (arrPop a i).Avoids turn := by
  simp [arrPop, bind, Prog.bind, read, load, Prog.call, Prog.Avoids, Op.loc, turn]

theorem copyLoop_avoids (a b : Int) : ∀ (n : Nat) (i : Int), (copyLoop a b n i).Avoids turn
  | 0, _ => trivial
  | n + 1, i => (arrPop_avoids a i).bind fun o => (arrPush_avoids b i o).bind fun _ => copyLoop_avoids a b n (i + 1)

theorem fence_avoids (o : Order) : (fence o).Avoids turn := ⟨nofun, fun _ => trivial⟩

theorem grow_avoids (a fresh b t : Int) : (grow a fresh b t).Avoids turn :=
  (avoids_op (by simp [Op.loc, turn])).bind fun _ => Prog.Avoids.bind
    (by simp [arrNew, bind, Prog.bind, write, Prog.call, pure, Prog.Avoids, Op.loc, turn])
    fun _ => (copyLoop_avoids _ _ _ _).bind fun _ => trivial

theorem push_avoids (w : Nat) (fresh o : Int) : (push w fresh o).Avoids turn := by
  refine (avoids_op (by simp [Op.loc, turn])).bind fun b => (avoids_op (by simp [Op.loc, turn])).bind fun t =>
    (avoids_op (by simp [Op.loc, turn])).bind fun a => (avoids_op (by simp [Op.loc, turn])).bind fun c => ?_
  have hend : ∀ a' : Int, (do
      arrPush a' b o
      let _ ← fence .rel
      let _ ← store .rlx (.bottom w) (b + 1)
      pure () : P Unit).Avoids turn := fun a' =>
    (arrPush_avoids _ _ _).bind fun _ => (fence_avoids _).bind fun _ => (avoids_op (by simp [Op.loc, turn])).bind fun _ => trivial
  by_cases hc : c - 1 < b - t
  · simp only [hc, if_true]
    exact (grow_avoids _ _ _ _).bind fun _ => Prog.Avoids.bind (p := store .rlx (.array w) _) (avoids_op (by simp [Op.loc, turn])) fun _ => hend _
  · simp only [hc, if_false]
    exact hend a

theorem steal_avoids (w : Nat) : (steal w).Avoids turn :=
  (avoids_op (by simp [Op.loc, turn])).bind fun t => (fence_avoids _).bind fun _ =>
    (avoids_op (by simp [Op.loc, turn])).bind fun b => by
    split
    · refine (avoids_op (by simp [Op.loc, turn])).bind fun a => (arrPop_avoids _ _).bind fun x =>
        (avoids_op (by simp [Op.loc, turn])).bind fun old => ?_
      split <;> trivial
    · trivial

theorem pop_avoids (w : Nat) : (pop w).Avoids turn :=
  (avoids_op (by simp [Op.loc, turn])).bind fun b => (avoids_op (by simp [Op.loc, turn])).bind fun a =>
    (avoids_op (by simp [Op.loc, turn])).bind fun _ => (fence_avoids _).bind fun _ =>
    (avoids_op (by simp [Op.loc, turn])).bind fun t => by
    split
    · refine (arrPop_avoids _ _).bind fun x => ?_
      split
      · refine (avoids_op (by simp [Op.loc, turn])).bind fun old => (avoids_op (by simp [Op.loc, turn])).bind fun _ => ?_
        split <;> trivial
      · trivial
    · exact (avoids_op (by simp [Op.loc, turn])).bind fun _ => trivial

theorem QCall.avoids (fresh : Int) : ∀ c : QCall, (c.prog fresh).Avoids turn
  | .push _ _ => (push_avoids _ _ _).bind fun _ => trivial
  | .pop _ => (pop_avoids _).bind fun _ => trivial
  | .steal _ => (steal_avoids _).bind fun _ => trivial

theorem queueing_avoids (t : Nat) : ∀ (n k : Nat) (cs : List QCall), (queueing t n k cs).Avoids turn
  | _, _, [] => trivial
  | n, k, c :: cs => (c.avoids _).bind fun _ => (avoids_op (by simp [Op.loc, noteId, turn])).bind fun _ =>
    (avoids_op (by simp [Op.loc, noteGen, turn])).bind fun _ => queueing_avoids t (n + 1) (k + 1) cs

end CoEcs.Weak
