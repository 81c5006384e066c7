import Verif.Spec.TempAlloc
import Verif.Proofs.Alloc

namespace CoEcs.Alloc

theorem Mem.blit_nil (m : Mem) (a : Nat) : m.blit a [] = m := by
  funext x; simp [Mem.blit]

theorem Mem.blit_out {m : Mem} {a x : Nat} {bs : List Nat} (h : x < a ∨ a + bs.length ≤ x) : m.blit a bs x = m x := by
  unfold Mem.blit
  split
  · rw [List.getElem?_eq_none (by omega)]
  · rfl

theorem Mem.blit_in {m : Mem} {a i b : Nat} {bs : List Nat} (h : bs[i]? = some b) : m.blit a bs (a + i) = b := by
  unfold Mem.blit
  rw [if_pos (by omega), show a + i - a = i by omega, h]

theorem Mem.bytes_congr {m m' : Mem} {a n : Nat} (h : ∀ x, a ≤ x → x < a + n → m' x = m x) :
    m'.bytes a n = m.bytes a n := by
  unfold Mem.bytes
  refine List.map_congr_left fun i hi => h _ (by omega) ?_
  have := List.mem_range.1 hi
  omega

theorem Mem.bytes_blit (m : Mem) (a : Nat) (bs : List Nat) : (m.blit a bs).bytes a bs.length = bs := by
  refine List.ext_getElem? fun i => ?_
  unfold Mem.bytes
  rw [List.getElem?_map]
  by_cases hi : i < bs.length
  · rw [List.getElem?_range hi, Option.map_some, Mem.blit_in (List.getElem?_eq_getElem hi), List.getElem?_eq_getElem hi]
  · rw [List.getElem?_eq_none (by simpa using hi), List.getElem?_eq_none (by omega)]; rfl

theorem TVec.elems_congr {m m' : Mem} {v : TVec} (h : ∀ x, v.ptr ≤ x → x < v.ptr + v.size * v.sz → m' x = m x) :
    v.elems m' = v.elems m := by
  unfold TVec.elems
  refine List.map_congr_left fun i hi => Mem.bytes_congr fun x hx hx' => h x (by omega) ?_
  have hi := List.mem_range.1 hi
  have : (i + 1) * v.sz ≤ v.size * v.sz := Nat.mul_le_mul_right _ hi
  rw [Nat.succ_mul] at this
  omega

/-- The storage of a vector. -/
def TVec.live (v : TVec) : Option Live := if v.cap = 0 then none else some ⟨v.ptr, v.cap * v.sz, v.al⟩

/-- The live allocations of the vectors, newest first. -/
def lives (vs : List TVec) : List Live := vs.filterMap TVec.live

theorem lives_cons (v : TVec) (vs : List TVec) : lives (v :: vs) = (v.live.toList ++ lives vs) := by
  unfold lives
  rw [List.filterMap_cons]
  cases v.live <;> rfl

/-- Giving storage to a vector when no newer vector has any. -/
theorem lives_set {v' : TVec} {l : Live} (hl : v'.live = some l) : ∀ {vs : List TVec} {k : Nat} {v : TVec}, vs[k]? = some v →
    (∀ (j : Nat) (w : TVec), j ≤ k → vs[j]? = some w → w.cap = 0) → lives (vs.set k v') = l :: lives vs := by
  intro vs
  induction vs with
  | nil => intro k v h; cases h
  | cons w vs ih =>
    intro k v h hz
    have hw : w.live = none := by unfold TVec.live; rw [if_pos (hz 0 w (Nat.zero_le _) rfl)]
    cases k with
    | zero => rw [List.set_cons_zero, lives_cons, lives_cons, hl, hw]; rfl
    | succ k =>
      rw [List.set_cons_succ, lives_cons, lives_cons, hw]
      exact ih h (fun j u hj hu => hz (j + 1) u (Nat.succ_le_succ hj) hu)

/-- Changing a vector but not its storage. -/
theorem lives_set_same {v v' : TVec} (hl : v'.live = v.live) : ∀ {vs : List TVec} {k : Nat}, vs[k]? = some v →
    lives (vs.set k v') = lives vs := by
  intro vs
  induction vs with
  | nil => intro k h; cases h
  | cons w vs ih =>
    intro k h
    cases k with
    | zero => cases h; rw [List.set_cons_zero, lives_cons, lives_cons, hl]
    | succ k => rw [List.set_cons_succ, lives_cons, lives_cons, ih h]

theorem Chain.congr {start : Nat} {m m' : Mem} : ∀ {ls : List Live} {top : Nat}, Chain start m ls top →
    (∀ l ∈ ls, m' (l.ptr - 1) = m (l.ptr - 1)) → Chain start m' ls top := by
  intro ls
  induction ls with
  | nil => intro top h _; exact h
  | cons l ls ih =>
    rintro top ⟨h1, h2, prev, h3, h4, h5⟩ he
    refine ⟨h1, h2, prev, ih h3 (fun x hx => he x (List.mem_cons_of_mem _ hx)), h4, ?_⟩
    rw [he l (List.mem_cons_self ..), h5]

/-- Allocator, memory and vectors fit together, and the vectors hold the elements of `s`. -/
structure TInv (y : TempSys) (s : List SVec) : Prop where
  stack : StackInv ⟨y.alloc, y.mem, lives y.vecs⟩
  len : y.vecs.length = s.length
  vec : ∀ (k : Nat) (v : TVec), y.vecs[k]? = some v → v.size ≤ v.cap ∧ 0 < v.sz ∧ (∃ k, k ≤ 7 ∧ v.al = 2 ^ k)
  holds : ∀ (k : Nat) (v : TVec) (u : SVec), y.vecs[k]? = some v → s[k]? = some u → v.sz = u.sz ∧ v.elems y.mem = u.elems

theorem TInv.init (start size : Nat) (mem : Mem) (h : size < U64) : TInv ⟨Stack.mk' start size, mem, []⟩ [] :=
  ⟨stackInv_init start size mem h, rfl, fun _ _ h => by simp at h, fun _ _ _ h => by simp at h⟩

theorem TInv.faithful {y : TempSys} {s : List SVec} (inv : TInv y s) : Faithful y s := by
  refine ⟨?_, fun h => ?_⟩
  · refine List.ext_getElem? fun k => ?_
    unfold TempSys.elems
    rw [List.getElem?_map, List.getElem?_map]
    cases hv : y.vecs[k]? with
    | none => rw [List.getElem?_eq_none (by rw [← inv.len]; exact List.getElem?_eq_none_iff.1 hv)]; rfl
    | some v =>
      have hk : k < s.length := by rw [← inv.len]; exact (List.getElem?_eq_some_iff.1 hv).1
      rw [List.getElem?_eq_getElem hk, Option.map_some, Option.map_some,
        (inv.holds k v _ hv (List.getElem?_eq_getElem hk)).2]
  · have hn : y.vecs = [] := List.eq_nil_of_length_eq_zero (by rw [inv.len, h]; rfl)
    have hc := inv.stack.chain
    simp only [hn] at hc
    have : y.alloc.start + y.alloc.offset = y.alloc.start := hc
    omega

/-- A vector with storage has it among the live allocations. -/
theorem live_mem {vs : List TVec} {k : Nat} {v : TVec} (h : vs[k]? = some v) (hc : v.cap ≠ 0) :
    (⟨v.ptr, v.cap * v.sz, v.al⟩ : Live) ∈ lives vs :=
  List.mem_filterMap.2 ⟨v, List.mem_of_getElem? h, by unfold TVec.live; rw [if_neg hc]⟩

/-- Two vectors with storage lie apart, headers included. -/
theorem lives_apart {vs : List TVec} {start top : Nat} {m : Mem} (hc : Chain start m (lives vs) top)
    {j k : Nat} {v w : TVec} (hjk : j ≠ k) (hj : vs[j]? = some v) (hk : vs[k]? = some w) (hv : v.cap ≠ 0) (hw : w.cap ≠ 0) :
    v.ptr + v.cap * v.sz + 1 ≤ w.ptr ∨ w.ptr + w.cap * w.sz + 1 ≤ v.ptr := by
  have hp := hc.pairwise
  unfold lives at hp
  rw [List.pairwise_filterMap, List.pairwise_iff_getElem] at hp
  obtain ⟨hj', rfl⟩ := List.getElem?_eq_some_iff.1 hj
  obtain ⟨hk', rfl⟩ := List.getElem?_eq_some_iff.1 hk
  have lv : ∀ u : TVec, u.cap ≠ 0 → u.live = some ⟨u.ptr, u.cap * u.sz, u.al⟩ := fun u hu => by
    unfold TVec.live; rw [if_neg hu]
  rcases Nat.lt_or_gt_of_ne hjk with h | h
  · exact .inr (hp j k hj' hk' h _ (lv _ hv) _ (lv _ hw))
  · exact .inl (hp k j hk' hj' h _ (lv _ hw) _ (lv _ hv))

/-- Memory that agrees outside the storage of the vector at position `k`. -/
theorem TInv.store {y : TempSys} {s : List SVec} (inv : TInv y s) {k : Nat} {v : TVec} {u : SVec} {m' : Mem} {n : Nat} {es : List (List Nat)}
    (hv : y.vecs[k]? = some v) (hu : s[k]? = some u) (hc : v.cap ≠ 0) (hn : n ≤ v.cap)
    (hm : ∀ x, x < v.ptr ∨ v.ptr + v.cap * v.sz ≤ x → m' x = y.mem x)
    (he : TVec.elems m' { v with size := n } = es) :
    TInv ⟨y.alloc, m', y.vecs.set k { v with size := n }⟩ (s.set k ⟨u.sz, es⟩) := by
  have hlv : lives (y.vecs.set k { v with size := n }) = lives y.vecs := lives_set_same (v := v) (v' := { v with size := n }) rfl hv
  have hchain := inv.stack.chain
  refine ⟨⟨?_, inv.stack.bound, inv.stack.small⟩, by simp [inv.len], ?_, ?_⟩
  · simp only [hlv]
    refine Chain.congr hchain fun l hl => hm _ ?_
    obtain ⟨w, hw, hwl⟩ := List.mem_filterMap.1 hl
    obtain ⟨j, hj⟩ := List.getElem?_of_mem hw
    have hwc : w.cap ≠ 0 := by
      intro h; unfold TVec.live at hwl; rw [if_pos h] at hwl; cases hwl
    unfold TVec.live at hwl
    rw [if_neg hwc] at hwl
    cases hwl
    have hb := (hchain.mem_bounds _ (live_mem hj hwc)).1
    have hb' := (hchain.mem_bounds _ (live_mem hv hc)).1
    by_cases hjk : j = k
    · subst hjk; rw [hj] at hv; cases hv; simp only at hb ⊢; omega
    · have := lives_apart hchain hjk hj hv hwc hc
      simp only at hb hb' ⊢; omega
  · intro j w hw
    by_cases hjk : k = j
    · subst hjk
      rw [List.getElem?_set_self (List.getElem?_eq_some_iff.1 hv).1] at hw
      cases hw
      exact ⟨hn, (inv.vec k v hv).2⟩
    · rw [List.getElem?_set_ne hjk] at hw
      exact inv.vec j w hw
  · intro j w t hw ht
    by_cases hjk : k = j
    · subst hjk
      rw [List.getElem?_set_self (List.getElem?_eq_some_iff.1 hv).1] at hw
      rw [List.getElem?_set_self (List.getElem?_eq_some_iff.1 hu).1] at ht
      cases hw; cases ht
      exact ⟨(inv.holds k v u hv hu).1, he⟩
    · rw [List.getElem?_set_ne hjk] at hw ht
      obtain ⟨h1, h2⟩ := inv.holds j w t hw ht
      refine ⟨h1, (TVec.elems_congr fun x hx hx' => hm x ?_).trans h2⟩
      by_cases hwc : w.cap = 0
      · have := (inv.vec j w hw).1
        have h0 : w.size = 0 := by omega
        rw [h0] at hx'; omega
      · have := lives_apart hchain (fun h => hjk h.symm) hw hv hwc hc
        have hsz : w.size * w.sz ≤ w.cap * w.sz := Nat.mul_le_mul_right _ (inv.vec j w hw).1
        omega

theorem TVec.elems_succ (m : Mem) (v : TVec) (n : Nat) : TVec.elems m { v with size := n + 1 } =
    TVec.elems m { v with size := n } ++ [m.bytes (v.ptr + n * v.sz) v.sz] := by
  unfold TVec.elems
  simp only [List.range_succ, List.map_append, List.map_cons, List.map_nil]

/-- Taking storage for a vector without any when no newer vector has any. -/
theorem TInv.take {y : TempSys} {s : List SVec} (inv : TInv y s) {k : Nat} {v : TVec} {u : SVec} {n size : Nat} {x : List Nat}
    {es : List (List Nat)}
    (hv : y.vecs[k]? = some v) (hu : s[k]? = some u)
    (hz : ∀ (j : Nat) (w : TVec), j ≤ k → y.vecs[j]? = some w → w.cap = 0) (hrem : 0 < y.alloc.remaining)
    (hn : n ≤ v.maxSize) (hn0 : 0 < n) (hsz : size ≤ n) (hx : x.length ≤ n * v.sz)
    (he : ∀ m p, TVec.elems (Mem.blit m p x) { v with size := size, cap := n, ptr := p } = es) :
    y.regrow k v n x size = .threw y ∨ ∃ y', y.regrow k v n x size = .done y' ∧ TInv y' (s.set k ⟨u.sz, es⟩) ∧
      ∃ p, y'.vecs = y.vecs.set k { v with size := size, cap := n, ptr := p } := by
  obtain ⟨hv1, hv2, hv3⟩ := inv.vec k v hv
  have hcap : v.cap = 0 := hz k v (Nat.le_refl _) hv
  have hsize : v.size = 0 := by omega
  have hwrap : n * v.sz % U64 = n * v.sz := by
    refine Nat.mod_eq_of_lt ?_
    have h1 : n * v.sz ≤ v.maxSize * v.sz := Nat.mul_le_mul_right _ hn
    have h2 : v.maxSize * v.sz ≤ 2 ^ 63 - 1 := Nat.div_mul_le_self _ _
    have h3 : (2 : Nat) ^ 63 - 1 < U64 := by decide
    omega
  have hal : 0 < v.al ∧ v.al ≤ 128 := by
    obtain ⟨j, hj, he⟩ := hv3
    rw [he]
    exact ⟨Nat.two_pow_pos j, Nat.le_trans (Nat.pow_le_pow_right (by decide) hj) (by decide)⟩
  have hfree : y.alloc.offset < y.alloc.size := by
    have hb : y.alloc.offset ≤ y.alloc.size := inv.stack.bound
    have hs : y.alloc.size < U64 := inv.stack.small
    unfold Stack.remaining at hrem
    rw [sub64_eq hb hs] at hrem
    omega
  have hchain := inv.stack.chain
  unfold TempSys.regrow tempAllocate
  rw [hwrap]
  rcases hcase : y.alloc.allocate y.mem (n * v.sz) v.al with ⟨s1, m1, r⟩
  have hstep := allocate_ok inv.stack (b := n * v.sz) (a := v.al) hal.1 hal.2 hfree
  simp only [StackSys.step, hcase] at hstep
  cases r with
  | none => exact .inl rfl
  | some p =>
    right
    simp only [Option.some.injEq, StackSys.mk.injEq] at hstep
    rcases hstep with ⟨_, _, h⟩ | ⟨p', m', ⟨rfl, rfl, h⟩, hi, hp⟩
    · exact absurd (congrArg List.length h) (by simp)
    · have hoff : ∀ a, p' = a → y.alloc.start + y.alloc.offset + 1 ≤ a := fun a h => h ▸ hp
      have hpp : p' = p := by
        have := (List.cons.inj h).1
        simp only [Live.mk.injEq] at this
        exact this.1.symm
      subst hpp
      -- the memory differs from the old one only above the old top
      have hm : ∀ a, a < y.alloc.start + y.alloc.offset → m1 a = y.mem a := by
        intro a ha
        simp only [Stack.allocate] at hcase
        split at hcase
        · simp at hcase
        · simp only [Prod.mk.injEq, Option.some.injEq] at hcase
          obtain ⟨_, h2, h3⟩ := hcase
          have := hoff _ h3.symm
          rw [← h2]
          unfold Mem.set
          rw [if_neg]
          omega
      simp only [hsize, Nat.zero_mul, Nat.add_zero, Mem.bytes, List.range_zero, List.map_nil, Mem.blit_nil]
      rw [if_pos hcap]
      have hlv : lives (y.vecs.set k { v with size := size, cap := n, ptr := p' }) =
          ⟨p', n * v.sz, v.al⟩ :: lives y.vecs :=
        lives_set (by unfold TVec.live; rw [if_neg (by simp only; omega)]) hv hz
      refine ⟨_, rfl, ⟨⟨?_, hi.bound, hi.small⟩, by simp [inv.len], ?_, ?_⟩, p', rfl⟩
      · simp only [hlv]
        refine Chain.congr hi.chain fun l hl => Mem.blit_out ?_
        simp only [List.mem_cons] at hl
        rcases hl with rfl | hl
        · simp only; left; omega
        · have := hchain.mem_bounds l hl
          simp only at this; left; omega
      · intro j w hw
        by_cases hjk : k = j
        · subst hjk
          rw [List.getElem?_set_self (List.getElem?_eq_some_iff.1 hv).1] at hw
          cases hw
          exact ⟨hsz, hv2, hv3⟩
        · rw [List.getElem?_set_ne hjk] at hw
          exact inv.vec j w hw
      · intro j w t hw ht
        by_cases hjk : k = j
        · subst hjk
          rw [List.getElem?_set_self (List.getElem?_eq_some_iff.1 hv).1] at hw
          rw [List.getElem?_set_self (List.getElem?_eq_some_iff.1 hu).1] at ht
          cases hw; cases ht
          exact ⟨(inv.holds k v u hv hu).1, he m1 p'⟩
        · rw [List.getElem?_set_ne hjk] at hw ht
          obtain ⟨h1, h2⟩ := inv.holds j w t hw ht
          refine ⟨h1, (TVec.elems_congr fun a ha ha' => ?_).trans h2⟩
          by_cases hwc : w.cap = 0
          · have := (inv.vec j w hw).1
            have h0 : w.size = 0 := by omega
            rw [h0] at ha'; omega
          · have hb := (hchain.mem_bounds _ (live_mem hw hwc)).2.1
            have hle : w.size * w.sz ≤ w.cap * w.sz := Nat.mul_le_mul_right _ (inv.vec j w hw).1
            simp only at hb
            exact (Mem.blit_out (by left; omega)).trans (hm a (by omega))

theorem TVec.elems_length (m : Mem) (v : TVec) : (v.elems m).length = v.size := by simp [TVec.elems]

/-- Putting an element into a slot of its own. -/
theorem TVec.elems_write {m : Mem} {v : TVec} {i : Nat} {x : List Nat} (hi : i < v.size) (hx : x.length = v.sz) :
    v.elems (m.blit (v.ptr + i * v.sz) x) = (v.elems m).set i x := by
  refine List.ext_getElem? fun j => ?_
  rw [List.getElem?_set]
  by_cases hj : j < v.size
  · have hg : ∀ m : Mem, (v.elems m)[j]? = some (m.bytes (v.ptr + j * v.sz) v.sz) := fun m => by
      unfold TVec.elems; rw [List.getElem?_map, List.getElem?_range hj]; rfl
    rw [hg, hg, TVec.elems_length]
    by_cases hij : i = j
    · subst hij
      rw [if_pos rfl, if_pos hi]
      have := Mem.bytes_blit m (v.ptr + i * v.sz) x
      rw [hx] at this
      rw [this]
    · rw [if_neg hij]
      refine congrArg some (Mem.bytes_congr fun a h1 h2 => Mem.blit_out ?_)
      rcases Nat.lt_or_gt_of_ne hij with h | h
      · have : (i + 1) * v.sz ≤ j * v.sz := Nat.mul_le_mul_right _ h
        rw [Nat.succ_mul] at this
        omega
      · have : (j + 1) * v.sz ≤ i * v.sz := Nat.mul_le_mul_right _ h
        rw [Nat.succ_mul] at this
        omega
  · have hn : ∀ l : List (List Nat), l.length = v.size → l[j]? = none := fun l hl => List.getElem?_eq_none (by omega)
    rw [hn _ (TVec.elems_length ..), hn _ (TVec.elems_length ..)]
    rw [if_neg (by omega)]

/-- One careful step keeps the invariant. -/
theorem TInv.step {y : TempSys} {s s' : List SVec} (inv : TInv y s) {op : VecOp} (hg : GoodType op)
    (hc : ∀ k, Takes y k op → (∀ (j : Nat) (v : TVec), j ≤ k → y.vecs[j]? = some v → v.cap = 0) ∧ 0 < y.alloc.remaining)
    (hs : SVec.step s op = some s') :
    y.step op = .threw y ∨ ∃ y', y.step op = .done y' ∧ TInv y' s' := by
  cases op with
  | create sz al =>
    obtain ⟨h1, h2⟩ := hg sz al rfl
    cases hs
    refine .inr ⟨_, rfl, ⟨?_, by simp [inv.len], ?_, ?_⟩⟩
    · have : lives (⟨sz, al, 0, 0, 0⟩ :: y.vecs) = lives y.vecs := by rw [lives_cons]; rfl
      simp only [this]; exact inv.stack
    · intro k v hv
      cases k with
      | zero => cases hv; exact ⟨Nat.le_refl _, h1, h2⟩
      | succ k => exact inv.vec k v hv
    · intro k v u hv hu
      cases k with
      | zero => cases hv; cases hu; exact ⟨rfl, rfl⟩
      | succ k => exact inv.holds k v u hv hu
  | reserve k n =>
    simp only [SVec.step] at hs
    split at hs
    · rename_i hk
      cases hs
      have hk' : k < y.vecs.length := by rw [inv.len]; exact hk
      have hv := List.getElem?_eq_getElem hk'
      have hu := List.getElem?_eq_getElem hk
      generalize y.vecs[k] = v at hv
      generalize s[k] = u at hu
      simp only [TempSys.step, hv, TempSys.reserve]
      by_cases hmax : v.maxSize < n
      · rw [if_pos hmax]; exact .inl rfl
      · rw [if_neg hmax]
        by_cases hcap : v.cap < n
        · rw [if_pos hcap]
          obtain ⟨hz, hrem⟩ := hc k ⟨rfl, v, hv, hcap⟩
          have h0 := hz k v (Nat.le_refl _) hv
          have h1 := (inv.vec k v hv).1
          have hsize : v.size = 0 := by omega
          obtain ⟨h2, h3⟩ := inv.holds k v u hv hu
          have hue : u.elems = [] := by rw [← h3]; unfold TVec.elems; rw [hsize]; rfl
          rcases inv.take (n := n) (size := v.size) (x := []) (es := []) hv hu hz hrem (by omega) (by omega) (by omega)
            (by simp) (fun m p => by unfold TVec.elems; simp [hsize]) with h | ⟨y', h, hi, _⟩
          · exact .inl h
          · have hset : s.set k ⟨u.sz, []⟩ = s := by
              rw [← hue]
              refine List.ext_getElem? fun j => ?_
              rw [List.getElem?_set]
              by_cases hjk : k = j
              · subst hjk; rw [if_pos rfl, if_pos hk, hu]
              · rw [if_neg hjk]
            rw [hset] at hi
            exact .inr ⟨y', h, hi⟩
        · rw [if_neg hcap]; exact .inr ⟨y, rfl, inv⟩
    · cases hs
  | emplace k x =>
    simp only [SVec.step] at hs
    split at hs
    · rename_i u hu
      split at hs
      · rename_i hx
        cases hs
        have hk : k < s.length := (List.getElem?_eq_some_iff.1 hu).1
        have hk' : k < y.vecs.length := by rw [inv.len]; exact hk
        have hv := List.getElem?_eq_getElem hk'
        generalize y.vecs[k] = v at hv
        obtain ⟨h2, h3⟩ := inv.holds k v u hv hu
        have h1 := (inv.vec k v hv)
        simp only [TempSys.step, hv, TempSys.emplace]
        by_cases hcap : v.size < v.cap
        · rw [if_pos hcap]
          refine .inr ⟨_, rfl, inv.store hv hu (by omega) hcap (fun a ha => Mem.blit_out ?_) ?_⟩
          · have : (v.size + 1) * v.sz ≤ v.cap * v.sz := Nat.mul_le_mul_right _ hcap
            rw [Nat.succ_mul] at this
            omega
          · rw [TVec.elems_succ]
            have hb := Mem.bytes_blit y.mem (v.ptr + v.size * v.sz) x
            rw [hx, ← h2] at hb
            rw [hb]
            refine congrArg (· ++ [x]) (Eq.trans ?_ h3)
            exact TVec.elems_congr (v := { v with size := v.size }) fun a _ ha => Mem.blit_out (.inl ha)
        · rw [if_neg hcap]
          by_cases hmax : v.maxSize ≤ v.size
          · rw [if_pos hmax]; exact .inl rfl
          · rw [if_neg hmax]
            obtain ⟨hz, hrem⟩ := hc k ⟨rfl, v, hv, by omega⟩
            have h0 := hz k v (Nat.le_refl _) hv
            have hsize : v.size = 0 := by omega
            have hue : u.elems = [] := by rw [← h3]; unfold TVec.elems; rw [hsize]; rfl
            have hn : min (v.size + max v.size 1) v.maxSize = 1 := by omega
            rw [hn, hsize]
            rcases inv.take (n := 1) (size := 0 + 1) (x := x) (es := [x]) hv hu hz hrem (by omega) (by omega) (by omega)
              (by omega) (fun m p => by
                unfold TVec.elems
                have hb := Mem.bytes_blit m p x
                rw [hx, ← h2] at hb
                simp [hb]) with h | ⟨y', h, hi, _⟩
            · exact .inl h
            · rw [hue]; exact .inr ⟨y', h, hi⟩
      · cases hs
    · cases hs
  | write k i x =>
    simp only [SVec.step] at hs
    split at hs
    · rename_i u hu
      split at hs
      · rename_i hx
        cases hs
        have hk : k < s.length := (List.getElem?_eq_some_iff.1 hu).1
        have hk' : k < y.vecs.length := by rw [inv.len]; exact hk
        have hv := List.getElem?_eq_getElem hk'
        generalize y.vecs[k] = v at hv
        obtain ⟨h2, h3⟩ := inv.holds k v u hv hu
        have h1 := (inv.vec k v hv)
        have hi : i < v.size := by rw [← TVec.elems_length y.mem, h3]; exact hx.1
        simp only [TempSys.step, hv]
        rw [if_pos hi]
        have hset : y.vecs.set k { v with size := v.size } = y.vecs := by
          refine List.ext_getElem? fun j => ?_
          rw [List.getElem?_set]
          by_cases hjk : k = j
          · subst hjk; rw [if_pos rfl, if_pos hk', hv]
          · rw [if_neg hjk]
        have := inv.store (m' := y.mem.blit (v.ptr + i * v.sz) x) (n := v.size) (es := u.elems.set i x) hv hu (by omega) h1.1
          (fun a ha => Mem.blit_out (by
            have : (i + 1) * v.sz ≤ v.cap * v.sz := Nat.mul_le_mul_right _ (by omega)
            rw [Nat.succ_mul] at this
            omega))
          (by rw [← h3]; exact TVec.elems_write hi (by rw [hx.2, h2]))
        rw [hset] at this
        exact .inr ⟨_, rfl, this⟩
      · cases hs
    · cases hs
  | destroy =>
    simp only [SVec.step] at hs
    cases s with
    | nil => cases hs
    | cons u s =>
      cases hs
      have hlen := inv.len
      cases hvs : y.vecs with
      | nil => rw [hvs] at hlen; cases hlen
      | cons v vs =>
        have hv : y.vecs[0]? = some v := by rw [hvs]; rfl
        have hvec : ∀ (k : Nat) (w : TVec), vs[k]? = some w → y.vecs[k + 1]? = some w := fun k w h => by rw [hvs]; exact h
        simp only [TempSys.step, hvs, TempSys.destroy]
        have hst := inv.stack
        rw [hvs, lives_cons] at hst
        by_cases hcap : v.cap = 0
        · rw [if_pos hcap]
          have hl : v.live = none := by unfold TVec.live; rw [if_pos hcap]
          rw [hl] at hst
          refine .inr ⟨_, rfl, ⟨hst, ?_, fun k w h => inv.vec (k + 1) w (hvec k w h), fun k w t h ht =>
            inv.holds (k + 1) w t (hvec k w h) ht⟩⟩
          rw [hvs] at hlen; exact Nat.succ.inj hlen
        · rw [if_neg hcap]
          have hl : v.live = some ⟨v.ptr, v.cap * v.sz, v.al⟩ := by unfold TVec.live; rw [if_neg hcap]
          rw [hl] at hst
          obtain ⟨prev, _, hd⟩ := dealloc_ok hst (l := ⟨v.ptr, v.cap * v.sz, v.al⟩) (ls := lives vs) rfl
          have hb := (hst.chain.mem_bounds ⟨v.ptr, v.cap * v.sz, v.al⟩ (List.mem_cons_self ..)).2.1
          have hbd : y.alloc.offset ≤ y.alloc.size := hst.bound
          have hpos : 0 < v.cap * v.sz := Nat.mul_pos (by omega) (inv.vec 0 v hv).2.1
          simp only at hb
          obtain ⟨h1, h2⟩ := hd (by simp only; omega)
          simp only [StackSys.step, Option.toList, List.cons_append, List.nil_append] at h1
          unfold tempDeallocate
          cases hde : y.alloc.deallocate y.mem v.ptr with
          | none => rw [hde] at h1; cases h1
          | some s1 =>
            rw [hde] at h1
            simp only [Option.some.injEq, StackSys.mk.injEq, and_true] at h1
            subst h1
            refine .inr ⟨_, rfl, ⟨h2, ?_, fun k w h => inv.vec (k + 1) w (hvec k w h), fun k w t h ht =>
              inv.holds (k + 1) w t (hvec k w h) ht⟩⟩
            rw [hvs] at hlen; exact Nat.succ.inj hlen

theorem TInv.keeps {ops : List VecOp} : ∀ {y : TempSys} {s : List SVec}, TInv y s → Careful y ops → Keeps y s ops := by
  induction ops with
  | nil => intro y s inv _; exact inv.faithful
  | cons op ops ih =>
    intro y s inv hc
    obtain ⟨hg, ht, hr⟩ := hc
    refine ⟨inv.faithful, fun s' hs => ?_⟩
    rcases inv.step hg ht hs with h | ⟨y', h, hi⟩
    · rw [h] at hr ⊢; exact ih inv hr
    · rw [h] at hr ⊢; exact ih hi hr

/-! ### Nested calls -/

theorem run_append {a b : List VecOp} : ∀ {y y' : TempSys}, y.run a = some y' → y.run (a ++ b) = y'.run b := by
  induction a with
  | nil => intro y y' h; cases h; rfl
  | cons op a ih =>
    intro y y' h
    simp only [TempSys.run, List.cons_append] at h ⊢
    split at h
    · exact ih h
    · cases h

theorem Careful.append {a b : List VecOp} : ∀ {y y' : TempSys}, Careful y a → y.run a = some y' → Careful y' b → Careful y (a ++ b) := by
  induction a with
  | nil => intro y y' _ h hb; cases h; exact hb
  | cons op a ih =>
    intro y y' ha h hb
    obtain ⟨h1, h2, h3⟩ := ha
    refine ⟨h1, h2, ?_⟩
    simp only [TempSys.run] at h
    cases hst : y.step op with
    | done z => rw [hst] at h h3; exact ih h3 h hb
    | threw z => rw [hst] at h; cases h
    | bad => trivial

theorem NoThrow.split {a b : List VecOp} : ∀ {y : TempSys}, NoThrow y (a ++ b) →
    NoThrow y a ∧ ∀ y', y.run a = some y' → NoThrow y' b := by
  induction a with
  | nil => intro y h; exact ⟨trivial, fun y' hy => by cases hy; exact h⟩
  | cons op a ih =>
    intro y h
    simp only [List.cons_append, NoThrow, TempSys.run] at h ⊢
    cases hst : y.step op with
    | done z => rw [hst] at h; exact ih h
    | threw z => rw [hst] at h; cases h
    | bad => exact ⟨trivial, fun _ h => nomatch h⟩

theorem SomeLeft.split {a b : List VecOp} : ∀ {y : TempSys}, SomeLeft y (a ++ b) →
    SomeLeft y a ∧ ∀ y', y.run a = some y' → SomeLeft y' b := by
  induction a with
  | nil => intro y h; exact ⟨trivial, fun y' hy => by cases hy; exact h⟩
  | cons op a ih =>
    intro y h
    simp only [List.cons_append, SomeLeft, TempSys.run] at h ⊢
    cases hst : y.step op with
    | done z => rw [hst] at h; exact ⟨⟨h.1, (ih h.2).1⟩, (ih h.2).2⟩
    | threw z => rw [hst] at h; exact ⟨⟨h.1, (ih h.2).1⟩, fun _ h => nomatch h⟩
    | bad => rw [hst] at h; exact ⟨⟨h.1, trivial⟩, fun _ h => nomatch h⟩

theorem allocate_same {s s' : Stack} {m m' : Mem} {b a : Nat} {r : Option Nat} (h : s.allocate m b a = (s', m', r)) :
    s'.start = s.start ∧ s'.size = s.size := by
  simp only [Stack.allocate] at h
  split at h <;> (simp only [Prod.mk.injEq] at h; rw [← h.1]; exact ⟨rfl, rfl⟩)

theorem deallocate_same {s s' : Stack} {m : Mem} {p : Nat} (h : s.deallocate m p = some s') :
    s'.start = s.start ∧ s'.size = s.size := by
  unfold Stack.deallocate at h
  split at h
  · cases h; exact ⟨rfl, rfl⟩
  · cases h

theorem regrow_same {y y' : TempSys} {k n size : Nat} {v : TVec} {x : List Nat} (h : y.regrow k v n x size = .done y') :
    y'.alloc.start = y.alloc.start ∧ y'.alloc.size = y.alloc.size := by
  unfold TempSys.regrow at h
  split at h
  · cases h
  · rename_i s m p ha
    have h1 := allocate_same ha
    simp only at h
    split at h
    · cases h; exact h1
    · split at h
      · cases h
      · rename_i hd
        cases h
        have h2 := deallocate_same hd
        exact ⟨h2.1.trans h1.1, h2.2.trans h1.2⟩

/-- The buffer stays the same. -/
theorem step_same {y y' : TempSys} {op : VecOp} (h : y.step op = .done y') :
    y'.alloc.start = y.alloc.start ∧ y'.alloc.size = y.alloc.size := by
  cases op with
  | create => cases h; exact ⟨rfl, rfl⟩
  | reserve k n =>
    simp only [TempSys.step] at h
    split at h
    · unfold TempSys.reserve at h
      split at h
      · cases h
      · split at h
        · exact regrow_same h
        · cases h; exact ⟨rfl, rfl⟩
    · cases h
  | emplace k x =>
    simp only [TempSys.step] at h
    split at h
    · unfold TempSys.emplace at h
      split at h
      · cases h; exact ⟨rfl, rfl⟩
      · split at h
        · cases h
        · exact regrow_same h
    · cases h
  | write k i x =>
    simp only [TempSys.step] at h
    split at h
    · split at h
      · cases h; exact ⟨rfl, rfl⟩
      · cases h
    · cases h
  | destroy =>
    simp only [TempSys.step] at h
    split at h
    · cases h
    · unfold TempSys.destroy at h
      split at h
      · cases h; exact ⟨rfl, rfl⟩
      · split at h
        · cases h
        · rename_i hd; cases h; exact deallocate_same hd

theorem run_same {ops : List VecOp} : ∀ {y y' : TempSys}, y.run ops = some y' →
    y'.alloc.start = y.alloc.start ∧ y'.alloc.size = y.alloc.size := by
  induction ops with
  | nil => intro y y' h; cases h; exact ⟨rfl, rfl⟩
  | cons op ops ih =>
    intro y y' h
    simp only [TempSys.run] at h
    split at h
    · rename_i z hz
      have h1 := step_same hz
      have h2 := ih h
      exact ⟨h2.1.trans h1.1, h2.2.trans h1.2⟩
    · cases h

theorem destroy_vecs {y y' : TempSys} (h : y.step .destroy = .done y') : y'.vecs = y.vecs.tail := by
  simp only [TempSys.step] at h
  split at h
  · cases h
  · rename_i v vs hvs
    rw [hvs]
    unfold TempSys.destroy at h
    split at h
    · cases h; rfl
    · split at h
      · cases h
      · cases h; rfl

/-- The position of the top is determined by the vectors. -/
theorem TInv.alloc_eq {y y' : TempSys} {s s' : List SVec} (h : TInv y s) (h' : TInv y' s')
    (hs : y'.alloc.start = y.alloc.start ∧ y'.alloc.size = y.alloc.size) (hv : y'.vecs = y.vecs) : y'.alloc = y.alloc := by
  have h1 := h.stack.chain
  have h2 := h'.stack.chain
  simp only at h1 h2
  rw [hv, hs.1] at h2
  have := h1.top_unique h2
  rcases hy : y.alloc with ⟨a, b, c⟩
  rcases hy' : y'.alloc with ⟨a', b', c'⟩
  rw [hy, hy'] at hs
  rw [hy, hy'] at this
  simp only at this hs
  obtain ⟨rfl, rfl⟩ := hs
  simp only [Stack.mk.injEq, true_and, and_true]
  omega

/-- Batches put into storage that was reserved for them. -/
theorem emplaces_ok {bs : List (List Nat)} : ∀ {y : TempSys} {s : List SVec} {sz : Nat} {es : List (List Nat)} {v : TVec} {vs : List TVec},
    TInv y (⟨sz, es⟩ :: s) → y.vecs = v :: vs → v.size + bs.length ≤ v.cap → (∀ b ∈ bs, b.length = sz) →
    Careful y (bs.map (VecOp.emplace 0)) ∧ ∃ y' v', y.run (bs.map (VecOp.emplace 0)) = some y' ∧
      TInv y' (⟨sz, es ++ bs⟩ :: s) ∧ y'.vecs = v' :: vs := by
  induction bs with
  | nil =>
    intro y s sz es v vs inv hv _ _
    exact ⟨trivial, y, v, rfl, by simpa using inv, hv⟩
  | cons b bs ih =>
    intro y s sz es v vs inv hv hlen hsz
    simp only [List.length_cons] at hlen
    have hstep : y.step (.emplace 0 b) = .done ⟨y.alloc, y.mem.blit (v.ptr + v.size * v.sz) b, { v with size := v.size + 1 } :: vs⟩ := by
      simp only [TempSys.step, hv, List.getElem?_cons_zero, TempSys.emplace]
      rw [if_pos (by omega)]; rfl
    have ht : ∀ k, ¬ Takes y k (.emplace 0 b) := by
      rintro k ⟨rfl, w, hw, hw'⟩
      rw [hv] at hw; cases hw; omega
    have hspec : SVec.step (⟨sz, es⟩ :: s) (.emplace 0 b) = some (⟨sz, es ++ [b]⟩ :: s) := by
      simp only [SVec.step, List.getElem?_cons_zero]
      rw [if_pos (hsz b (List.mem_cons_self ..))]; rfl
    rcases inv.step (op := .emplace 0 b) (fun _ _ h => nomatch h) (fun k hk => absurd hk (ht k)) hspec with h | ⟨y1, h, hi⟩
    · rw [hstep] at h; cases h
    · have hy1 : y1 = ⟨y.alloc, y.mem.blit (v.ptr + v.size * v.sz) b, { v with size := v.size + 1 } :: vs⟩ := by
        rw [hstep] at h; exact (TempOut.done.inj h).symm
      obtain ⟨h1, y', v', h2, h3, h4⟩ := ih (v := { v with size := v.size + 1 }) (vs := vs) hi (by rw [hy1])
        (by simp only; omega) (fun c hc => hsz c (List.mem_cons_of_mem _ hc))
      refine ⟨⟨(fun _ _ h => by cases h), fun k hk => absurd hk (ht k), ?_⟩, y', v', ?_, ?_, h4⟩
      · rw [h]; exact h1
      · simp only [List.map_cons, TempSys.run, h]; exact h2
      · rwa [List.append_assoc] at h3

/-- Nested calls are careful, and leave allocator and vectors as they were. -/
theorem calls_ok {ops : List VecOp} (hc : Calls ops) : ∀ {y : TempSys} {s : List SVec}, TInv y s → NoThrow y ops → SomeLeft y ops →
    Careful y ops ∧ ∃ y', y.run ops = some y' ∧ TInv y' s ∧ y'.vecs = y.vecs ∧ y'.alloc = y.alloc := by
  induction hc with
  | nil => intro y s inv _ _; exact ⟨trivial, y, rfl, inv, rfl, rfl⟩
  | @call sz al batches inner rest hsz hal hbs hinner hrest ihi ihr =>
    intro y s inv hnt hsl
    -- create
    let y1 : TempSys := ⟨y.alloc, y.mem, ⟨sz, al, 0, 0, 0⟩ :: y.vecs⟩
    have hg1 : GoodType (.create sz al) := fun _ _ h => by cases h; exact ⟨hsz, hal⟩
    have ht1 : ∀ k, ¬ Takes y k (.create sz al) := fun k h => h
    have i1 : TInv y1 (⟨sz, []⟩ :: s) := by
      rcases inv.step hg1 (fun k hk => absurd hk (ht1 k)) (rfl : SVec.step s (.create sz al) = some (⟨sz, []⟩ :: s)) with h | ⟨y', h, hi⟩
      · cases h
      · cases h; exact hi
    simp only [parallelForOps, List.cons_append, List.append_assoc] at hnt hsl ⊢
    have hnt1 : NoThrow y1 (.reserve 0 batches.length :: (batches.map (VecOp.emplace 0) ++ (inner ++ ([.destroy] ++ rest)))) := hnt
    have hsl1 := hsl.2
    simp only [TempSys.step] at hsl1
    -- reserve
    have ht2 : ∀ k, Takes y1 k (.reserve 0 batches.length) →
        (∀ (j : Nat) (v : TVec), j ≤ k → y1.vecs[j]? = some v → v.cap = 0) ∧ 0 < y1.alloc.remaining := by
      intro k hk
      refine ⟨fun j v hj hv => ?_, hsl1.1 k hk⟩
      obtain ⟨rfl, _⟩ := hk
      have : j = 0 := by omega
      subst this
      cases hv; rfl
    have hv2 : ∃ y2 v2, y1.step (.reserve 0 batches.length) = .done y2 ∧ TInv y2 (⟨sz, []⟩ :: s) ∧ y2.vecs = v2 :: y.vecs ∧
        v2.size = 0 ∧ batches.length ≤ v2.cap := by
      have hnt2 := hnt1
      simp only [NoThrow] at hnt2
      rcases i1.step (op := .reserve 0 batches.length) (fun _ _ h => nomatch h) ht2
        (by simp only [SVec.step]; rw [if_pos (by simp)]) with h | ⟨y2, h, hi⟩
      · rw [h] at hnt2; exact hnt2.elim
      · have h' := h
        simp only [TempSys.step, y1, List.getElem?_cons_zero, TempSys.reserve] at h
        split at h
        · cases h
        · split at h
          · have hz := (ht2 0 ⟨rfl, _, rfl, by assumption⟩)
            rcases i1.take (k := 0) (v := ⟨sz, al, 0, 0, 0⟩) (u := ⟨sz, []⟩) (n := batches.length) (size := 0) (x := []) (es := [])
              rfl rfl hz.1 hz.2 (by omega) (by omega) (by omega) (by simp) (fun m p => rfl) with hr | ⟨z, hr, hiz, p, hp⟩
            · simp only [y1] at hr; rw [hr] at h; cases h
            · simp only [y1] at hr; rw [hr] at h; cases h
              exact ⟨y2, _, h', hi, hp, rfl, Nat.le_refl _⟩
          · cases h
            exact ⟨y1, _, h', hi, rfl, rfl, by simp only; omega⟩
    obtain ⟨y2, v2, hr2, i2, hvs2, hsz2, hcap2⟩ := hv2
    have hnt2 : NoThrow y2 (batches.map (VecOp.emplace 0) ++ (inner ++ ([.destroy] ++ rest))) := by
      simp only [NoThrow] at hnt1; rw [hr2] at hnt1; exact hnt1
    have hsl2 : SomeLeft y2 (batches.map (VecOp.emplace 0) ++ (inner ++ ([.destroy] ++ rest))) := by
      have h : SomeLeft y1 (.reserve 0 batches.length :: (batches.map (VecOp.emplace 0) ++ (inner ++ ([.destroy] ++ rest)))) := hsl1
      have := h.2
      rw [hr2] at this; exact this
    -- emplace
    obtain ⟨c3, y3, v3, r3, i3, hvs3⟩ := emplaces_ok i2 hvs2 (by omega) hbs
    -- inner calls
    have hnt3 := hnt2.split.2 y3 r3
    have hsl3 := hsl2.split.2 y3 r3
    obtain ⟨c4, y4, r4, i4, hvs4, _⟩ := ihi i3 hnt3.split.1 hsl3.split.1
    have hnt4 := hnt3.split.2 y4 r4
    have hsl4 := hsl3.split.2 y4 r4
    -- destroy
    have ht5 : ∀ k, ¬ Takes y4 k .destroy := fun k h => h
    rcases i4.step (op := .destroy) (fun _ _ h => nomatch h) (fun k hk => absurd hk (ht5 k)) (s' := s) rfl with h | ⟨y5, h5, i5⟩
    · simp only [List.cons_append, NoThrow] at hnt4; rw [h] at hnt4; exact hnt4.elim
    have hvs5 : y5.vecs = y.vecs := by rw [destroy_vecs h5, hvs4, hvs3]; rfl
    have hnt5 : NoThrow y5 rest := by
      simp only [List.cons_append, NoThrow] at hnt4; rw [h5] at hnt4; exact hnt4
    have hsl5 : SomeLeft y5 rest := by
      have := hsl4.2; rw [h5] at this; exact this
    obtain ⟨c6, y6, r6, i6, hvs6, _⟩ := ihr i5 hnt5 hsl5
    have hrun : y.run (.create sz al :: .reserve 0 batches.length ::
        (batches.map (VecOp.emplace 0) ++ (inner ++ ([.destroy] ++ rest)))) = some y6 := by
      show y1.run _ = _
      simp only [TempSys.run]
      rw [hr2]
      show y2.run _ = _
      rw [run_append r3, run_append r4]
      simp only [List.cons_append, TempSys.run]
      rw [h5]
      exact r6
    have hvs : y6.vecs = y.vecs := hvs6.trans hvs5
    refine ⟨⟨hg1, fun k hk => absurd hk (ht1 k), ?_⟩, y6, hrun, i6, hvs, inv.alloc_eq i6 (run_same hrun) hvs⟩
    show Careful y1 (.reserve 0 batches.length :: (batches.map (VecOp.emplace 0) ++ (inner ++ ([.destroy] ++ rest))))
    refine ⟨(fun _ _ h => by cases h), ht2, ?_⟩
    rw [hr2]
    refine c3.append r3 (c4.append r4 ⟨(fun _ _ h => by cases h), fun k hk => absurd hk (ht5 k), ?_⟩)
    rw [h5]
    exact c6

theorem TInv.run {ops : List VecOp} : ∀ {y y' : TempSys} {s s' : List SVec}, TInv y s → Careful y ops → y.run ops = some y' →
    SVec.run s ops = some s' → TInv y' s' := by
  induction ops with
  | nil => intro y y' s s' inv _ h hs; cases h; cases hs; exact inv
  | cons op ops ih =>
    intro y y' s s' inv hc h hs
    obtain ⟨hg, ht, hr⟩ := hc
    simp only [SVec.run] at hs
    split at hs
    · rename_i s1 hs1
      simp only [TempSys.run] at h
      rcases inv.step hg ht hs1 with h1 | ⟨y1, h1, hi⟩
      · rw [h1] at h; cases h
      · rw [h1] at h hr; exact ih hi hr h hs
    · cases hs

/-- A vector that has storage and moves to larger storage: the old storage is given back last, and with it everything above. -/
theorem TInv.regrow {y y' : TempSys} {s : List SVec} (inv : TInv y s) {v : TVec} {vs : List TVec} {n size : Nat} {x : List Nat}
    (hv : y.vecs = v :: vs) (hc : v.cap ≠ 0) (hsz : size ≠ 0) (hrem : 0 < y.alloc.remaining) (h : y.regrow 0 v n x size = .done y') :
    ∃ v', y'.vecs = v' :: vs ∧ y'.alloc.start + y'.alloc.offset < v.ptr ∧ v.ptr < v'.ptr ∧ v'.size = size := by
  have hv0 : y.vecs[0]? = some v := by rw [hv]; rfl
  obtain ⟨hv1, hv2, hv3⟩ := inv.vec 0 v hv0
  have hal : 0 < v.al ∧ v.al ≤ 128 := by
    obtain ⟨j, hj, he⟩ := hv3
    rw [he]
    exact ⟨Nat.two_pow_pos j, Nat.le_trans (Nat.pow_le_pow_right (by decide) hj) (by decide)⟩
  have hbd : y.alloc.offset ≤ y.alloc.size := inv.stack.bound
  have hsmall : y.alloc.size < U64 := inv.stack.small
  have hfree : y.alloc.offset < y.alloc.size := by
    unfold Stack.remaining at hrem
    rw [sub64_eq hbd hsmall] at hrem
    omega
  have hchain := inv.stack.chain
  simp only [hv, lives_cons] at hchain
  have hl : v.live = some ⟨v.ptr, v.cap * v.sz, v.al⟩ := by unfold TVec.live; rw [if_neg hc]
  rw [hl] at hchain
  simp only [Option.toList, List.cons_append, List.nil_append] at hchain
  obtain ⟨htop, _, prev, hch, hprev, hhead⟩ := hchain
  simp only at htop hprev hhead
  have hge := hch.top_ge
  have hpos : 0 < v.cap * v.sz := Nat.mul_pos (by omega) hv2
  have hstep := allocate_ok inv.stack (b := n * v.sz % U64) (a := v.al) hal.1 hal.2 hfree
  unfold TempSys.regrow tempAllocate at h
  rcases hcase : y.alloc.allocate y.mem (n * v.sz % U64) v.al with ⟨s1, m1, r⟩
  rw [hcase] at h
  simp only [StackSys.step, hcase] at hstep
  cases r with
  | none => cases h
  | some p =>
    simp only [Option.some.injEq, StackSys.mk.injEq] at hstep
    rcases hstep with ⟨_, _, h'⟩ | ⟨p', m', ⟨rfl, rfl, h'⟩, hi, hp⟩
    · exact absurd (congrArg List.length h') (by simp)
    · have hpp : p' = p := by
        have := (List.cons.inj h').1
        simp only [Live.mk.injEq] at this
        exact this.1.symm
      subst hpp
      have hm : ∀ a, a < y.alloc.start + y.alloc.offset → m1 a = y.mem a := by
        intro a ha
        simp only [Stack.allocate] at hcase
        split at hcase
        · simp at hcase
        · simp only [Prod.mk.injEq, Option.some.injEq] at hcase
          obtain ⟨_, h2, h3⟩ := hcase
          rw [← h2]
          unfold Mem.set
          rw [if_neg]
          omega
      simp only at h
      rw [if_neg hc] at h
      have hsrc : ∀ bs : List Nat, ∀ m : Mem, (∀ a, a < y.alloc.start + y.alloc.offset → m a = y.mem a) →
          ∀ q, p' ≤ q → ∀ a, a < y.alloc.start + y.alloc.offset → m.blit q bs a = y.mem a := fun bs m hm q hq a ha => by
        rw [Mem.blit_out (.inl (by omega)), hm a ha]
      generalize hm2 : (m1.blit (p' + v.size * v.sz) x).blit p' ((m1.blit (p' + v.size * v.sz) x).bytes v.ptr (v.size * v.sz)) = m2 at h
      have hm2' : m2 (v.ptr - 1) = v.ptr - prev := by
        rw [← hm2, hsrc _ _ (hsrc x m1 hm _ (Nat.le_add_right ..)) p' (Nat.le_refl _) _ (by omega), hhead]
      unfold tempDeallocate Stack.deallocate at h
      simp only at h
      rw [if_pos ⟨by omega, by omega⟩, hm2'] at h
      simp only [hv, List.set_cons_zero] at h
      cases h
      refine ⟨_, rfl, ?_, ?_, rfl⟩
      · simp only; omega
      · simp only; omega

end CoEcs.Alloc
