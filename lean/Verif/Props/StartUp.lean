import Verif.Proofs.StartUp

/-!
# Component ids while a program starts and while libraries come and go (C99)

`kind v` is the type a variable `component_id::value<T>` belongs to.
-/

namespace CoEcs.Props
open CoEcs Spec HTable

variable {V N L T : Type} [DecidableEq V] [DecidableEq N] [DecidableEq L]

/-- Every event that uses a variable comes after the initialiser of the variable. -/
def InitFirst (ops : List (BootOp V L)) : Prop :=
  ∀ (i : Nat) (v : V), (ops[i]? = some (.read v) ∨ (∃ k, ops[i]? = some (.ask k v)) ∨
    (∃ vs, ops[i]? = some (.make vs) ∧ v ∈ vs)) → ∃ (j : Nat) (l : L), j < i ∧ ops[j]? = some (.init v l)

/-- A library that is unloaded at some time was never the first to name a type. -/
def Hosted (name : V → N) (ops : List (BootOp V L)) : Prop :=
  ∀ (i : Nat) (v : V) (l : L), ops[i]? = some (.init v l) → BootOp.unload l ∈ ops →
    ∃ (j : Nat) (w : V) (l' : L), j < i ∧ ops[j]? = some (.init w l') ∧ name w = name v

/-- **C99** (partial: the reads come after the initialisers, different types have different names, and
the first library that names a type stays loaded): in every order of events all reads of ids succeed,
two reads give the same id exactly when they are for the same type, and a component list, whenever it
is asked, contains exactly the types it was made of. -/
theorem C99_ids_partial (h : N → Nat) (name : V → N) (kind : V → T) (info : V → CompMeta) (ops : List (BootOp V L))
    (first : InitFirst ops) (names : ∀ v w, name v = name w ↔ kind v = kind w) (hosted : Hosted name ops)
    (few : ∀ l : List N, l.Nodup → (∀ n ∈ l, ∃ v, name v = n) → l.length ≤ 2 ^ 32) :
    ∃ s outs F, (∀ fuel, F ≤ fuel → Boot.start.run h fuel name info ops = .ok (s, outs)) ∧
      outs.length = ops.length ∧
      (∀ (i j : Nat) (v w : V), ops[i]? = some (.read v) → ops[j]? = some (.read w) →
        ∃ a b, outs[i]? = some (.id a) ∧ outs[j]? = some (.id b) ∧ (a = b ↔ kind v = kind w)) ∧
      (∀ (i j k : Nat) (vs : List V) (v : V), ops[i]? = some (.make vs) →
        ((ops.take i).filter fun o => o matches .make _).length = k → i < j → ops[j]? = some (.ask k v) →
        ∃ b, outs[j]? = some (.yes b) ∧ (b = true ↔ kind v ∈ vs.map kind)) := by
  have hmk : ∀ l : List (BootOp V L), (l.filter fun o => o matches .make _).length = BootOp.makes l := by
    intro l
    induction l with
    | nil => rfl
    | cons o l ih => cases o <;> simp [BootOp.makes, ih]
  have hfl := seenNames_nodup ((BootOp.inited ops).map name) [] List.nodup_nil
  have hfm := seenNames_mem ((BootOp.inited ops).map name) []
  have inTake : ∀ (i j : Nat) (v : V) (l : L), j < i → ops[j]? = some (.init v l) → v ∈ BootOp.inited (ops.take i) := by
    intro i j v l hji hj
    rw [mem_inited]
    exact ⟨l, List.mem_of_getElem? (by rw [List.getElem?_take_of_lt hji]; exact hj)⟩
  obtain ⟨s, outs, ⟨F, hF⟩, _, hlen, hout⟩ := boot_run h name info (seenNames [] ((BootOp.inited ops).map name))
    (ops.filterMap fun o => match o with | .unload l => some l | _ => none)
    (few _ hfl fun n hn => by
      have := (hfm n).1 hn
      simp only [List.not_mem_nil, false_or, List.mem_map] at this
      obtain ⟨v, _, hv⟩ := this
      exact ⟨v, hv⟩) ops [] Boot.start (boot_start h name _ _) (by simp)
    (fun l hl => List.mem_filterMap.2 ⟨_, hl, rfl⟩) (fun i v l hi hb => by
      obtain ⟨o, ho, hol⟩ := List.mem_filterMap.1 hb
      cases o <;> simp at hol
      subst hol
      obtain ⟨j, w, l', hj, hjw, hn⟩ := hosted i v _ hi ho
      exact ⟨w, by simpa using inTake i j w l' hj hjw, hn⟩)
  simp only [List.nil_append] at hout
  have num : ∀ (i : Nat) (v : V), v ∈ BootOp.inited (ops.take i) →
      bootNum name (seenNames [] ((BootOp.inited ops).map name)) (ops.take i) v =
        (seenNames [] ((BootOp.inited ops).map name)).idxOf (name v) ∧
      name v ∈ seenNames [] ((BootOp.inited ops).map name) := by
    intro i v hv
    refine ⟨if_pos hv, (hfm _).2 (.inr (List.mem_map_of_mem ?_))⟩
    rw [mem_inited] at hv ⊢
    obtain ⟨l, hl⟩ := hv
    exact ⟨l, List.mem_of_mem_take hl⟩
  have inj : ∀ (v w : V), name v ∈ seenNames [] ((BootOp.inited ops).map name) →
      name w ∈ seenNames [] ((BootOp.inited ops).map name) →
      ((seenNames [] ((BootOp.inited ops).map name)).idxOf (name v) =
        (seenNames [] ((BootOp.inited ops).map name)).idxOf (name w) ↔ kind v = kind w) := by
    intro v w hv hw
    rw [← names]
    constructor
    · intro he
      have h1 := List.getElem_idxOf (List.idxOf_lt_length_iff.2 hv)
      have h2 := List.getElem_idxOf (List.idxOf_lt_length_iff.2 hw)
      rw [← h1, ← h2]
      congr 1
    · intro he; rw [he]
  refine ⟨s, outs, F, hF, hlen, ?_, ?_⟩
  · intro i j v w hi hj
    obtain ⟨o1, h1, t1⟩ := hout i _ hi
    obtain ⟨o2, h2, t2⟩ := hout j _ hj
    simp only [bootTold] at t1 t2
    subst t1 t2
    obtain ⟨i', l, hi', hiv⟩ := first i v (.inl hi)
    obtain ⟨j', l', hj', hjv⟩ := first j w (.inl hj)
    obtain ⟨n1, m1⟩ := num i v (inTake _ _ _ _ hi' hiv)
    obtain ⟨n2, m2⟩ := num j w (inTake _ _ _ _ hj' hjv)
    exact ⟨_, _, h1, h2, by rw [n1, n2]; exact inj v w m1 m2⟩
  · intro i j k vs v hi hk hij hj
    obtain ⟨o, h1, t1⟩ := hout j _ hj
    simp only [bootTold] at t1
    rw [hmk] at hk
    obtain ⟨b, hb, hbb⟩ := t1 i vs (by rw [List.getElem?_take_of_lt hij]; exact hi) (by
      rw [List.take_take, Nat.min_eq_left (by omega)]; exact hk)
    subst hb
    refine ⟨b, h1, ?_⟩
    obtain ⟨j', l', hj', hjv⟩ := first j v (.inr (.inl ⟨k, hj⟩))
    obtain ⟨n1, m1⟩ := num j v (inTake _ _ _ _ hj' hjv)
    rw [hbb, n1, List.take_take, Nat.min_eq_left (by omega), List.mem_map, List.mem_map]
    constructor
    · rintro ⟨w, hw, he⟩
      obtain ⟨i', l, hi', hiv⟩ := first i w (.inr (.inr ⟨vs, hi, hw⟩))
      obtain ⟨n2, m2⟩ := num i w (inTake _ _ _ _ hi' hiv)
      rw [n2] at he
      exact ⟨w, hw, (inj w v m2 m1).1 he⟩
    · rintro ⟨w, hw, he⟩
      obtain ⟨i', l, hi', hiv⟩ := first i w (.inr (.inr ⟨vs, hi, hw⟩))
      obtain ⟨n2, m2⟩ := num i w (inTake _ _ _ _ hi' hiv)
      exact ⟨w, hw, by rw [n2]; exact (inj w v m2 m1).2 he⟩

/-- Variables 0, 1, 2 in the host and 10, 11 for the types of 0 and 1 in a library (its own copies);
the name of a type is its number. -/
def bootName : Fin 20 → Fin 10 := fun v => ⟨v.val % 10, by omega⟩

def bootInfo : Fin 20 → CompMeta := fun _ => ⟨0, 4, 4, true⟩

/-- Host 0 and library 1: initialisers in both, reads, a list made by the library and asked by the host after
the library was unloaded. -/
def bootOps : List (BootOp (Fin 20) Nat) :=
  [.init 2 0, .init 1 0, .init 0 0, .read 1, .init 11 1, .init 10 1, .read 11, .make [2, 11], .unload 1,
    .ask 0 1, .ask 0 0, .read 0]

theorem before_of_inited {ops : List (BootOp V L)} {i : Nat} {v : V} (h : v ∈ BootOp.inited (ops.take i)) :
    ∃ (j : Nat) (l : L), j < i ∧ ops[j]? = some (.init v l) := by
  obtain ⟨l, hl⟩ := mem_inited.1 h
  obtain ⟨j, hj, he⟩ := List.mem_iff_getElem.1 hl
  rw [List.length_take] at hj
  exact ⟨j, l, by omega, by rw [List.getElem_take] at he; rw [List.getElem?_eq_getElem (by omega), he]⟩

/-- `InitFirst` for an explicit list. -/
theorem initFirst_of {ops : List (BootOp V L)}
    (h : ((List.range ops.length).all fun i => match ops[i]? with
      | some (.read v) => decide (v ∈ BootOp.inited (ops.take i))
      | some (.ask _ v) => decide (v ∈ BootOp.inited (ops.take i))
      | some (.make vs) => vs.all fun v => decide (v ∈ BootOp.inited (ops.take i))
      | _ => true) = true) : InitFirst ops := by
  rw [List.all_eq_true] at h
  intro i v hv
  apply before_of_inited
  rcases hv with hi | ⟨k, hi⟩ | ⟨vs, hi, hm⟩
  all_goals
    have := h i (List.mem_range.2 (List.getElem?_eq_some_iff.1 hi).1)
    rw [hi] at this
    simp_all

/-- `Hosted` for an explicit list. -/
theorem hosted_of {name : V → N} {ops : List (BootOp V L)}
    (h : ((List.range ops.length).all fun i => match ops[i]? with
      | some (.init v l) => decide (BootOp.unload l ∉ ops) || (BootOp.inited (ops.take i)).any fun w => name w = name v
      | _ => true) = true) : Hosted name ops := by
  rw [List.all_eq_true] at h
  intro i v l hi hm
  have := h i (List.mem_range.2 (List.getElem?_eq_some_iff.1 hi).1)
  rw [hi] at this
  simp only [hm, not_true, decide_false, Bool.false_or, List.any_eq_true, decide_eq_true_eq] at this
  obtain ⟨w, hw, hn⟩ := this
  obtain ⟨j, l', hj, hjw⟩ := before_of_inited hw
  exact ⟨j, w, l', hj, hjw, hn⟩

theorem bootOps_first : InitFirst bootOps := initFirst_of (by decide +kernel)

theorem bootOps_hosted : Hosted bootName bootOps := hosted_of (by decide +kernel)

/-- The hypotheses of `C99_ids_partial` hold for these events. -/
example : ∃ s outs F, (∀ fuel, F ≤ fuel → Boot.start.run (fun _ => 7) fuel bootName bootInfo bootOps = .ok (s, outs)) ∧
    outs.length = 12 := by
  obtain ⟨s, outs, F, h1, h2, _⟩ := C99_ids_partial (fun _ => 7) bootName bootName bootInfo bootOps bootOps_first
    (fun _ _ => Iff.rfl) bootOps_hosted (fun l hl _ => by
      have := List.Nodup.length_le_of_subset hl (l₂ := List.finRange 10) (fun x _ => List.mem_finRange x)
      simp at this; omega)
  exact ⟨s, outs, F, h1, h2⟩

/-- And this is what they show: type 1 has id 1, the list made by the library contains type 1 and not
type 0, type 0 has id 2. -/
example : (Boot.start.run (fun _ => 7) 20 bootName bootInfo bootOps).bind (fun r => .ok r.2) =
    Run.ok [.none, .none, .none, .id 1, .none, .none, .id 1, .none, .none, .yes true, .yes false, .id 2] := by
  decide +kernel

/-- **C99** fails when an id is read before its initialiser ran, whatever the hash function and the names:
the type of `w`, read early, has the id of the type of `v`, and the list made of it contains the other
type and, once both initialisers ran, not its own. -/
theorem C99_violated_read_early (h : N → Nat) (name : V → N) (info : V → CompMeta) (v w : V) (l : L)
    (hn : name v ≠ name w) :
    ∃ s F, (∀ fuel, F ≤ fuel → Boot.start.run h fuel name info
        [.init v l, .read v, .read w, .make [w], .init w l, .read w, .ask 0 v, .ask 0 w] =
      .ok (s, [.none, .id 0, .id 0, .none, .none, .id 1, .yes true, .yes false])) := by
  have hvw : v ≠ w := fun e => hn (e ▸ rfl)
  have hb : (name v == name w) = false := by simpa using hn
  obtain ⟨s, outs, ⟨F, hF⟩, _, hlen, hout⟩ := boot_run h name info [name v, name w] ([] : List L) (by simp [IdMod])
    [.init v l, .read v, .read w, .make [w], .init w l, .read w, .ask 0 v, .ask 0 w] [] Boot.start
    (boot_start h name _ _) (by simp [BootOp.inited, seenNames, Ne.symm hn]) (by simp) (by simp)
  refine ⟨s, F, fun f hf => ?_⟩
  refine (hF f hf).trans ?_
  congr 2
  obtain ⟨o0, p0, t0⟩ := hout 0 _ rfl
  obtain ⟨o1, p1, t1⟩ := hout 1 _ rfl
  obtain ⟨o2, p2, t2⟩ := hout 2 _ rfl
  obtain ⟨o3, p3, t3⟩ := hout 3 _ rfl
  obtain ⟨o4, p4, t4⟩ := hout 4 _ rfl
  obtain ⟨o5, p5, t5⟩ := hout 5 _ rfl
  obtain ⟨o6, p6, t6⟩ := hout 6 _ rfl
  obtain ⟨o7, p7, t7⟩ := hout 7 _ rfl
  simp [bootTold, bootNum, BootOp.inited, hvw, Ne.symm hvw, List.idxOf_cons, hb] at t0 t1 t2 t3 t4 t5
  obtain ⟨b6, e6, i6⟩ := t6 3 [w] rfl rfl
  obtain ⟨b7, e7, i7⟩ := t7 3 [w] rfl rfl
  simp [bootNum, BootOp.inited, hvw, Ne.symm hvw, List.idxOf_cons, hb] at i6 i7
  have i7' : b7 = false := i7
  subst t0 t1 t2 t3 t4 t5 e6 e7 i6 i7'
  apply List.ext_getElem?
  intro i
  match i with
  | 0 | 1 | 2 | 3 | 4 | 5 | 6 | 7 => simp_all
  | i + 8 => simp [hlen]

/-- **C99** fails for two types of one name (types of anonymous namespaces in two files): they have one
id, and a list made of the one contains the other. -/
theorem C99_violated_equal_names (h : N → Nat) (name : V → N) (info : V → CompMeta) (v w : V) (l : L)
    (hvw : v ≠ w) (hn : name v = name w) :
    ∃ s F, (∀ fuel, F ≤ fuel → Boot.start.run h fuel name info
        [.init v l, .init w l, .read v, .read w, .make [v], .ask 0 w] =
      .ok (s, [.none, .none, .id 0, .id 0, .none, .yes true])) := by
  obtain ⟨s, outs, ⟨F, hF⟩, _, hlen, hout⟩ := boot_run h name info [name v] ([] : List L) (by simp [IdMod])
    [.init v l, .init w l, .read v, .read w, .make [v], .ask 0 w] [] Boot.start
    (boot_start h name _ _) (by simp [BootOp.inited, seenNames, hn]) (by simp) (by simp)
  refine ⟨s, F, fun f hf => ?_⟩
  refine (hF f hf).trans ?_
  congr 2
  obtain ⟨o0, p0, t0⟩ := hout 0 _ rfl
  obtain ⟨o1, p1, t1⟩ := hout 1 _ rfl
  obtain ⟨o2, p2, t2⟩ := hout 2 _ rfl
  obtain ⟨o3, p3, t3⟩ := hout 3 _ rfl
  obtain ⟨o4, p4, t4⟩ := hout 4 _ rfl
  obtain ⟨o5, p5, t5⟩ := hout 5 _ rfl
  simp [bootTold, bootNum, BootOp.inited, List.idxOf_cons, hn] at t0 t1 t2 t3 t4
  obtain ⟨b5, e5, i5⟩ := t5 4 [v] rfl rfl
  simp [bootNum, BootOp.inited, hn] at i5
  subst t0 t1 t2 t3 t4 e5 i5
  apply List.ext_getElem?
  intro i
  match i with
  | 0 | 1 | 2 | 3 | 4 | 5 => simp_all
  | i + 6 => simp [hlen]

/-- **C99** fails when the library that first named a type is unloaded: its next initialisation, by another
copy of the variable, compares with characters that are gone. -/
theorem C99_violated_unloaded (h : N → Nat) (name : V → N) (info : V → CompMeta) (v w : V) (l l' : L)
    (hvw : v ≠ w) (_hn : name v = name w) :
    ∃ F, ∀ fuel, F ≤ fuel → (Boot.start (N := N)).run h fuel name info [.init v l, .unload l, .init w l'] = .ub := by
  obtain ⟨r', ⟨F, hF⟩, _⟩ := regInv_id h (name v) TypeRegistry.init []
    ⟨List.nodup_nil, rfl, KeyMap.empty, HRel.empty h, fun n => by simp [KeyMap.empty]⟩ (by simp [seenNames, IdMod])
  refine ⟨F, fun f hf => ?_⟩
  have hF' := hF f hf
  simp only at hF'
  simp [Boot.run, Boot.step, Boot.init, Boot.start, Run.bind, hF', Ne.symm hvw]

/-- The witnesses exist: variables 1 and 2 have different names, 1 and 11 are two variables of one name. -/
example : bootName 1 ≠ bootName 2 ∧ (1 : Fin 20) ≠ 11 ∧ bootName 1 = bootName 11 := by decide

end CoEcs.Props
