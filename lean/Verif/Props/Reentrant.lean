import Verif.Proofs.ReentrantEnds
import Verif.Props.Registry

/-!
# Property of destructors that record commands during a flush (C94)
-/

namespace CoEcs.Props
open CoEcs Spec

variable {V : Type} {ty : Types} {husk : V → V} {c : CSys V} {W : Spec.World V}

/-- The recorded commands without the numbers of their registries. -/
def commands (q : List (List (Nat × ACmd V))) : List (ACmd V) := q.flatten.map Prod.snd

theorem plain_flatten (qs : List (List (Nat × ACmd V))) : (plain qs).flatten = commands qs := by
  simp [plain, commands, List.map_flatten]

theorem queued_nodup {i : Nat} (I : CInv ty c W) (ha : c.Allowed (.flush i)) :
    (∀ ph ∈ CSys.placeholders c.todo.flatten, ph ∈ c.sys.res i) ∧ (CSys.placeholders c.todo.flatten).Nodup := by
  have hq := placeholders_queued ha
  refine ⟨fun ph hph => I.mem (i, ph) (by rw [hq]; exact List.mem_map_of_mem hph), ?_⟩
  have := I.nodup
  rw [hq] at this
  exact List.Pairwise.of_map _ (fun a b h e => h (by rw [e])) this

theorem only_one {X : Type} {j : Nat} {s : List X} : ∀ {qs : List (List X)}, j < qs.length →
    (∀ k q, qs[k]? = some q → q = if k = j then s else []) → qs.flatten = s := by
  induction j with
  | zero =>
    intro qs hj h
    cases qs with
    | nil => simp at hj
    | cons q qs =>
      have h0 : q = s := h 0 q rfl
      have : qs.flatten = [] := by
        rw [List.flatten_eq_nil_iff]
        intro x hx
        obtain ⟨k, hk⟩ := List.mem_iff_getElem?.1 hx
        have := h (k + 1) x (by simpa using hk)
        simpa using this
      simp [h0, this]
  | succ j ih =>
    intro qs hj h
    cases qs with
    | nil => simp at hj
    | cons q qs =>
      have h0 : q = [] := by have := h 0 q rfl; simpa using this
      have := ih (qs := qs) (by simpa using hj) fun k x hx => by
        have := h (k + 1) x (by simpa using hx)
        simpa using this
      simp [h0, this]

/-- **C94** (partial; missing: destructors that create entities, threads without a buffer, and the order
across threads, see below): the thread of buffer `j` flushes and destructors record commands meanwhile.  If
the flush returns, it has executed the commands of the buffers before that of the thread, then its own with
all that the destructors recorded until then, in the order recorded, then those of the later buffers; each
found its entity, and the registry holds their effect.  What was recorded during the last part is queued;
the next flush that returns executes exactly this. -/
theorem C94_flush_partial (hr : CReach ty husk c W) {i : Nat} (ha : c.Allowed (.flush i)) {hook : Hook V} (hh : NoCreation hook)
    {j : Nat} {q : List (Nat × ACmd V)} (hj : c.todo[j]? = some q) {n : Nat} {bs : List (Option (Buf V))} {r : Reg V}
    (hf : flushWith ty husk hook (some j) n c.bufs (c.sys.reg i) = some (.ok (bs, r) ())) :
    ∃ mid s1 s2 s3,
      RecordedBy hook (W i) (commands (c.todo.take j)) s1 ∧
      mid = q.map Prod.snd ++ s1 ++ s2 ∧
      RecordedBy hook (applied (W i) (commands (c.todo.take j))) mid s2 ∧
      RecordedBy hook (applied (W i) (commands (c.todo.take j) ++ mid)) (commands (c.todo.drop (j + 1))) s3 ∧
      ACmd.AllReady (W i) (commands (c.todo.take j) ++ mid ++ commands (c.todo.drop (j + 1))) ∧
      Answers r (applied (W i) (commands (c.todo.take j) ++ mid ++ commands (c.todo.drop (j + 1)))) ∧
      (∀ (k : Nat) (b : Buf V), bs[k]? = some (some b) → b.queue.length = if k = j then s3.length else 0) ∧
      ∀ (bs2 : List (Option (Buf V))) (r2 : Reg V), flush ty husk bs r = .ok (bs2, r2) () →
        Answers r2 (applied (applied (W i) (commands (c.todo.take j) ++ mid ++ commands (c.todo.drop (j + 1)))) s3) := by
  have I := hr.inv
  obtain ⟨hp, hn⟩ := queued_nodup I ha
  have := flushFrom_spec husk hh (j := j) (i := i) n 0 c.bufs c.todo _ (W i) _ (I.sys i).sync.1 I.bufs hp hn _ hf
  obtain ⟨ex, qs', C', P', h1, h2, h3, h4, h5⟩ := this
  have hj' : (plain c.todo)[j]? = some (q.map Prod.snd) := by rw [plain_get, hj]; rfl
  obtain ⟨mid, s1, s2, s3, m0, m1, m2, m3, m4, m5, m6, m7⟩ := h1.all rfl (Nat.zero_le _) hj'
  have e1 : (((plain c.todo).take j).drop 0).flatten = commands (c.todo.take j) := by
    rw [List.drop_zero, ← plain_flatten]; simp [plain, List.map_take]
  have e2 : ((plain c.todo).drop (j + 1)).flatten = commands (c.todo.drop (j + 1)) := by
    rw [← plain_flatten]; simp [plain, List.map_drop]
  rw [e1] at m0 m2 m3 m4
  rw [e2] at m3 m4
  subst m4 m6
  have hlt : j < (plain qs').length := by
    have := m7 j
    rw [if_pos rfl] at this
    exact (List.getElem?_eq_some_iff.1 this).1
  refine ⟨mid, s1, s2, s3, m0, m1, m2, m3, m5, h3.rep.answers, fun k b hb => ?_, fun bs2 r2 hf2 => ?_⟩
  · obtain ⟨q', hq', hbq'⟩ := h2.get hb
    rw [hbq'.length]
    have := m7 k
    rw [plain_get, hq'] at this
    split
    · rename_i hk
      rw [if_pos hk] at this
      simp only [Option.map_some, Option.some.injEq] at this
      rw [← this]; simp
    · rename_i hk
      rw [if_neg hk] at this
      simp only [Nat.not_lt_zero, if_false, Option.map_some] at this
      cases hx : (plain c.todo)[k]? with
      | none => rw [hx] at this; cases this
      | some y =>
        rw [hx] at this
        simp only [Option.map_some, Option.some.injEq, List.map_eq_nil_iff] at this
        rw [this]; rfl
  · have hsp := flush_spec husk h3 h2 h4 h5
    rw [hf2] at hsp
    obtain ⟨_, _, _, g3, _⟩ := hsp
    have e : (plain qs').flatten = s3 := only_one hlt fun k x hx => by
      have := m7 k
      rw [hx] at this
      split
      · rename_i hk; rw [if_pos hk] at this; exact Option.some.inj this
      · rename_i hk
        rw [if_neg hk] at this
        simp only [Nat.not_lt_zero, if_false] at this
        cases hy : (plain c.todo)[k]? with
        | none => rw [hy] at this; cases this
        | some y => rw [hy] at this; exact Option.some.inj this
    have e' : applyAll (applied (W i) (commands (c.todo.take j) ++ mid ++ commands (c.todo.drop (j + 1)))) qs'.flatten =
        applied (applied (W i) (commands (c.todo.take j) ++ mid ++ commands (c.todo.drop (j + 1)))) s3 := by
      rw [← e, plain_flatten]
      unfold applied applyAll commands
      rw [List.foldl_map]
    rw [← e']
    exact g3.rep.answers

/-- **C94** (one thread; partial as above): with a single buffer, or when the buffer of the flushing thread is the
last one, the flush executes everything recorded before and meanwhile, and nothing is left. -/
theorem C94_last_partial (hr : CReach ty husk c W) {i : Nat} (ha : c.Allowed (.flush i)) {hook : Hook V} (hh : NoCreation hook)
    {j : Nat} (hj : j + 1 = c.todo.length) {n : Nat} {bs : List (Option (Buf V))} {r : Reg V}
    (hf : flushWith ty husk hook (some j) n c.bufs (c.sys.reg i) = some (.ok (bs, r) ())) :
    ∃ s, RecordedBy hook (W i) (commands c.todo ++ s) s ∧ ACmd.AllReady (W i) (commands c.todo ++ s) ∧
      Answers r (applied (W i) (commands c.todo ++ s)) ∧ ∀ b, some b ∈ bs → b.queue = [] := by
  obtain ⟨q, hq⟩ : ∃ q, c.todo[j]? = some q := ⟨_, List.getElem?_eq_getElem (by omega)⟩
  obtain ⟨mid, s1, s2, s3, m0, m1, m2, m3, m4, m5, m6, _⟩ := C94_flush_partial hr ha hh hq hf
  have e0 : c.todo.drop (j + 1) = [] := by rw [hj]; simp
  have e1 : commands c.todo = commands (c.todo.take j) ++ q.map Prod.snd := by
    conv => lhs; rw [← List.take_append_drop j c.todo, drop_at hq, e0]
    simp [commands]
  rw [e0] at m3 m4 m5
  have e2 : commands ([] : List (List (Nat × ACmd V))) = [] := rfl
  rw [e2] at m3 m4 m5
  cases m3
  rw [List.append_nil] at m4 m5
  have join : ∀ {C : ACmd.Content V} {a b : List (ACmd V)} {x y : List (ACmd V)}, RecordedBy hook C a x → RecordedBy hook (applied C a) b y →
      RecordedBy hook C (a ++ b) (x ++ y) := by
    intro C a b x y h
    induction h with
    | nil => intro h; exact h
    | cons h1 _ ih => intro h; rw [List.append_assoc]; exact .cons h1 (ih h)
  have e3 : commands c.todo ++ (s1 ++ s2) = commands (c.todo.take j) ++ mid := by rw [e1, m1]; simp
  refine ⟨s1 ++ s2, ?_, ?_, ?_, fun b hb => ?_⟩
  · rw [e3]; exact join m0 m2
  · rw [e3]; exact m4
  · rw [e3]; exact m5
  · obtain ⟨k, hk⟩ := List.mem_iff_getElem?.1 hb
    have := m6 k b hk
    exact List.eq_nil_of_length_eq_zero (by rw [this]; split <;> rfl)

theorem left_sum : ∀ {bs : List (Option (Buf V))} {qs : List (List (Nat × ACmd V))}, BufsRel ty bs qs → (CSys.left bs).sum = qs.flatten.length
  | [], [], _ => rfl
  | none :: _, _ :: _, h => by obtain ⟨rfl, h⟩ := h; simp [CSys.left, left_sum h]
  | some _ :: _, _ :: _, h => by simp [CSys.left, left_sum h.2, h.1.length]
  | [], _ :: _, h => h.elim
  | none :: _, [], h => h.elim
  | some _ :: _, [], h => h.elim

theorem length_modify {X : Type} (l : List X) : ∀ {qs : List (List X)} {j : Nat}, j < qs.length →
    (qs.modify j (· ++ l)).flatten.length = qs.flatten.length + l.length
  | [], _, h => by simp at h
  | q :: qs, 0, _ => by simp; omega
  | q :: qs, j + 1, h => by
    have := length_modify l (qs := qs) (j := j) (by simpa using h)
    simp only [List.modify_succ_cons, List.flatten_cons, List.length_append, this]
    omega

/-- **C94** (exceptions): if the flush ends with an exception, some commands have been executed, each with its
entity present, and the next one cannot be; this one is gone too, and all others, also those recorded
meanwhile, are still queued. -/
theorem C94_throw_partial (hr : CReach ty husk c W) {i : Nat} (ha : c.Allowed (.flush i)) {hook : Hook V} (hh : NoCreation hook)
    {j n : Nat} (hj : j < c.todo.length) {bs : List (Option (Buf V))} {r : Reg V} {e : Exn}
    (hf : flushWith ty husk hook (some j) n c.bufs (c.sys.reg i) = some (.throw (bs, r) e)) :
    ∃ (ex : List (ACmd V)) (a : ACmd V) (s : List (ACmd V)), ACmd.AllReady (W i) ex ∧ a.Fails ty (applied (W i) ex) e ∧
      Answers r (applied (W i) ex) ∧ RecordedBy hook (W i) ex s ∧
      (CSys.left bs).sum + ex.length + 1 = (commands c.todo).length + s.length := by
  have I := hr.inv
  obtain ⟨hp, hn⟩ := queued_nodup I ha
  have := flushFrom_spec husk hh (j := j) (i := i) n 0 c.bufs c.todo _ (W i) _ (I.sys i).sync.1 I.bufs hp hn _ hf
  obtain ⟨ex, qs', C', P', h1, h2, h3, _, _⟩ := this
  have : ∀ {p : Nat} {qs qs' : List (List (ACmd V))} {C C' : ACmd.Content V} {ex : List (ACmd V)} {o : Option Exn},
      HRun ty hook j p qs C ex qs' C' o → o = some e → j < qs.length → ACmd.AllReady C ex ∧ C' = applied C ex ∧
        (∃ a : ACmd V, a.Fails ty C' e) ∧ ∃ s, RecordedBy hook C ex s ∧ qs'.flatten.length + ex.length + 1 = qs.flatten.length + s.length := by
    intro p qs qs' C C' ex o h
    induction h with
    | stop => intro h; cases h
    | next _ _ ih => exact ih
    | run h0 h1 h2 _ ih =>
      rename_i p qs C a q l ex qs' C' r _
      intro h hl
      obtain ⟨i1, i2, i3, s, i4, i5⟩ := ih h (by simpa using hl)
      refine ⟨⟨h1, i1⟩, i2, i3, l ++ s, .cons h2 i4, ?_⟩
      rw [length_modify l (by simpa using hl)] at i5
      have := (flatten_set h0).length_eq
      simp only [List.length_cons, List.length_append] at this ⊢
      omega
    | fail h0 h =>
      intro h' _
      cases h'
      refine ⟨trivial, rfl, ⟨_, h⟩, [], .nil, ?_⟩
      have := (flatten_set h0).length_eq
      simp only [List.length_cons, List.length_nil] at this ⊢
      omega
  obtain ⟨k1, k2, ⟨a, k3⟩, s, k4, k5⟩ := this h1 rfl (by simpa [plain] using hj)
  subst k2
  refine ⟨ex, a, s, k1, k3, h3.rep.answers, k4, ?_⟩
  rw [left_sum h2]
  rw [plain_flatten, plain_flatten] at k5
  simp only [commands, List.length_map] at k5 ⊢
  exact k5

/-- **C94** (it ends): however many commands destructors record, without creating entities, the loops of the flush
end. -/
theorem C94_ends (hr : CReach ty husk c W) {i : Nat} (ha : c.Allowed (.flush i)) {hook : Hook V} (hh : NoCreation hook) (j : Nat) :
    ∃ n res, flushWith ty husk hook (some j) n c.bufs (c.sys.reg i) = some res := by
  have I := hr.inv
  obtain ⟨hp, hn⟩ := queued_nodup I ha
  obtain ⟨L, hL⟩ := (I.sys i).rep.finite
  exact flushFrom_ends husk hh (i := i) (L ++ CSys.placeholders c.todo.flatten) _ _ _ 0 c.bufs c.todo _ (W i) _ rfl rfl rfl (I.sys i).sync.1
    I.bufs hp hn (fun h hc => List.mem_append_left _ (hL h hc)) (fun ph hph => List.mem_append_right _ hph)

/-! ## Sample -/

/-- Component 0 with value `v` owns entity `v`: its destructor destroys it. -/
def owner : Hook Nat := fun c v => if c = 0 ∧ v < 9 then [.destroy ⟨v, 0⟩] else []

theorem owner_noCreation : NoCreation owner := by
  intro c v k hk
  simp only [owner] at hk
  split at hk
  · simp only [List.mem_singleton] at hk; subst hk; rfl
  · cases hk

/-- Entity 0 owns entity 1, which owns entity 2. -/
def ownOps : List (COp Nat) :=
  [.start, .direct (.on 0 (.create [(0, 1)])), .direct (.on 0 (.create [(0, 2), (1, 5)])), .direct (.on 0 (.create [(1, 6)])),
   .direct (.on 0 (.create [(1, 7)])), .record 0 0 (.destroy ⟨0, 0⟩), .record 0 0 (.set ⟨3, 0⟩ 1 8)]

theorem ownOps_isSome : (cexec smallTy id ownOps).isSome = true := by decide +kernel

/-- A flush that returned. -/
def returned : Option (Res (List (Option (Buf Nat)) × Reg Nat) Unit) → Option (List (Option (Buf Nat)) × Reg Nat)
  | some (.ok x _) => some x
  | _ => none

theorem returned_some {x : Option (Res (List (Option (Buf Nat)) × Reg Nat) Unit)} {y : List (Option (Buf Nat)) × Reg Nat} (h : returned x = some y) :
    x = some (.ok y ()) := by
  unfold returned at h
  split at h
  · cases h; rfl
  · cases h

def ownFlush (n : Nat) : Option (List (Option (Buf Nat)) × Reg Nat) :=
  returned (flushWith smallTy id owner (some 0) n ((cexec smallTy id ownOps).get ownOps_isSome).1.bufs
    (((cexec smallTy id ownOps).get ownOps_isSome).1.sys.reg 0))

theorem ownFlush_isSome : (ownFlush 6).isSome = true := by decide +kernel

/-- The hypotheses of the theorems hold for the sample: the destruction of entity 0 destroys all three. -/
example : ∃ (c : CSys Nat) (W : Spec.World Nat) (bs : List (Option (Buf Nat))) (r : Reg Nat), CReach smallTy id c W ∧ c.Allowed (.flush 0) ∧
    NoCreation owner ∧ 0 + 1 = c.todo.length ∧ flushWith smallTy id owner (some 0) 6 c.bufs (c.sys.reg 0) = some (.ok (bs, r) ()) ∧
    r.alive ⟨0, 0⟩ = false ∧ r.alive ⟨1, 0⟩ = false ∧ r.alive ⟨2, 0⟩ = false ∧ r.get ⟨3, 0⟩ 1 = .ok 8 := by
  refine ⟨_, _, _, _, cexec_get ownOps ownOps_isSome, allowedB_allowed (by decide +kernel), owner_noCreation, by decide +kernel,
    returned_some (Option.some_get ownFlush_isSome).symm, ?_, ?_, ?_, ?_⟩ <;> decide +kernel

/-- The owner of an entity that is destroyed already. -/
def staleOps : List (COp Nat) :=
  [.start, .direct (.on 0 (.create [(0, 1)])), .direct (.on 0 (.create [(1, 5)])), .record 0 0 (.destroy ⟨0, 0⟩),
   .record 0 0 (.destroy ⟨1, 0⟩), .record 0 0 (.create [(1, 6)])]

theorem staleOps_isSome : (cexec smallTy id staleOps).isSome = true := by decide +kernel

/-- The hypotheses of `C94_throw_partial` hold: two destructions and the creation are executed, the recorded
destruction finds no entity. -/
example : ∃ (c : CSys Nat) (W : Spec.World Nat) (bs : List (Option (Buf Nat))) (r : Reg Nat), CReach smallTy id c W ∧ c.Allowed (.flush 0) ∧
    0 < c.todo.length ∧ flushWith smallTy id owner (some 0) 9 c.bufs (c.sys.reg 0) = some (.throw (bs, r) .entityNotFound) := by
  refine ⟨((cexec smallTy id staleOps).get staleOps_isSome).1, ((cexec smallTy id staleOps).get staleOps_isSome).2, ?_⟩
  have : (match flushWith smallTy id owner (some 0) 9 ((cexec smallTy id staleOps).get staleOps_isSome).1.bufs
      (((cexec smallTy id staleOps).get staleOps_isSome).1.sys.reg 0) with
    | some (.throw _ .entityNotFound) => true
    | _ => false) = true := by decide +kernel
  split at this
  · rename_i x h
    exact ⟨x.1, x.2, cexec_get staleOps staleOps_isSome, allowedB_allowed (by decide +kernel), by decide +kernel, h⟩
  · cases this

/-! ## Where it fails -/

/-- Two threads; the second has recorded the destruction of the owner, the first flushes. -/
def lateOps : List (COp Nat) :=
  [.start, .start, .direct (.on 0 (.create [(0, 1)])), .direct (.on 0 (.create [(1, 5)])), .record 1 0 (.destroy ⟨0, 0⟩)]

theorem lateOps_isSome : (cexec smallTy id lateOps).isSome = true := by decide +kernel

def lateFlush : Option (List (Option (Buf Nat)) × Reg Nat) :=
  returned (flushWith smallTy id owner (some 0) 9 ((cexec smallTy id lateOps).get lateOps_isSome).1.bufs
    (((cexec smallTy id lateOps).get lateOps_isSome).1.sys.reg 0))

theorem lateFlush_isSome : lateFlush.isSome = true := by decide +kernel

/-- **C94 is violated** (order): a command recorded by a destructor that runs for the command of another thread is
not executed by the flush when the flushing thread made its buffer first: the entity that should go is
still there. -/
theorem C94_late_violated : ∃ (c : CSys Nat) (W : Spec.World Nat) (bs : List (Option (Buf Nat))) (r : Reg Nat), CReach smallTy id c W ∧
    c.Allowed (.flush 0) ∧ NoCreation owner ∧ flushWith smallTy id owner (some 0) 9 c.bufs (c.sys.reg 0) = some (.ok (bs, r) ()) ∧
    r.alive ⟨0, 0⟩ = false ∧ r.get ⟨1, 0⟩ 1 = .ok 5 ∧ (bs.map fun b => b.map fun b => b.queue) = [some [.destroy ⟨1, 0⟩], some []] := by
  refine ⟨_, _, _, _, cexec_get lateOps lateOps_isSome, allowedB_allowed (by decide +kernel), owner_noCreation,
    returned_some (Option.some_get lateFlush_isSome).symm, ?_, ?_, ?_⟩ <;> decide +kernel

/-- **C94 is violated** (threads without a buffer): if the thread that flushes has not recorded before, the
destructor makes its buffer while the flush holds the mutex that this takes. -/
theorem C94_no_buffer_violated : ∃ (c : CSys Nat) (W : Spec.World Nat), CReach smallTy id c W ∧ c.Allowed (.flush 0) ∧ NoCreation owner ∧
    none ∉ c.bufs ∧ flushWith smallTy id owner none 9 c.bufs (c.sys.reg 0) = some .ub := by
  refine ⟨_, _, cexec_get lateOps lateOps_isSome, allowedB_allowed (by decide +kernel), owner_noCreation, ?_, ?_⟩
  · have : (((cexec smallTy id lateOps).get lateOps_isSome).1.bufs.all Option.isSome) = true := by decide +kernel
    intro h
    simpa using List.all_eq_true.1 this _ h
  · have : (match flushWith smallTy id owner none 9 ((cexec smallTy id lateOps).get lateOps_isSome).1.bufs
        (((cexec smallTy id lateOps).get lateOps_isSome).1.sys.reg 0) with
      | some .ub => true
      | _ => false) = true := by decide +kernel
    split at this
    · assumption
    · cases this

/-- The destructor of component 0 creates an entity with component 1. -/
def maker : Hook Nat := fun c _ => if c = 0 then [.create [(1, 7)]] else []

/-- One thread, two entities, the first is to be destroyed. -/
def makeOps : List (COp Nat) :=
  [.start, .direct (.on 0 (.create [(0, 1)])), .direct (.on 0 (.create [(1, 2)])), .record 0 0 (.destroy ⟨0, 0⟩)]

theorem makeOps_isSome : (cexec smallTy id makeOps).isSome = true := by decide +kernel

def makeFlush : Option (List (Option (Buf Nat)) × Reg Nat) :=
  returned (flushWith smallTy id maker (some 0) 9 ((cexec smallTy id makeOps).get makeOps_isSome).1.bufs
    (((cexec smallTy id makeOps).get makeOps_isSome).1.sys.reg 0))

theorem makeFlush_isSome : makeFlush.isSome = true := by decide +kernel

/-- What a creation returns, and whether this is an entity then. -/
def created : Res (Reg Nat) Handle → Option (Handle × Bool)
  | .ok r h => some (h, r.alive h)
  | _ => none

/-- **C94 is violated** (creations): a destructor that runs during a flush reserves entity ⟨2, 0⟩ and records its
creation.  The command is executed, but the id is reserved after `sync` and before the destroyed id is
recycled: the entity is stored and never alive, not even after the next `sync`, and a direct creation
then returns a handle that is not alive either. -/
theorem C94_creation_violated : ∃ (c : CSys Nat) (W : Spec.World Nat) (bs : List (Option (Buf Nat))) (r : Reg Nat), CReach smallTy id c W ∧
    c.Allowed (.flush 0) ∧ (∃ r', (c.sys.reg 0).sync.reserve = .ok r' ⟨2, 0⟩) ∧
    flushWith smallTy id maker (some 0) 9 c.bufs (c.sys.reg 0) = some (.ok (bs, r) ()) ∧
    (bs.map fun b => b.map fun b => b.queue) = [some []] ∧ r.size = 2 ∧
    r.alive ⟨2, 0⟩ = false ∧ r.get ⟨2, 0⟩ 1 = .throw .entityNotFound ∧
    r.sync.alive ⟨2, 0⟩ = false ∧ r.sync.get ⟨2, 0⟩ 1 = .throw .entityNotFound ∧
    created (r.sync.create smallTy [(0, 5)]) = some (⟨3, 0⟩, false) := by
  refine ⟨_, _, _, _, cexec_get makeOps makeOps_isSome, allowedB_allowed (by decide +kernel), ?_,
    returned_some (Option.some_get makeFlush_isSome).symm, ?_, ?_, ?_, ?_, ?_, ?_, ?_⟩
  · have : (match (((cexec smallTy id makeOps).get makeOps_isSome).1.sys.reg 0).sync.reserve with
      | .ok _ h => decide (h = ⟨2, 0⟩)
      | _ => false) = true := by decide +kernel
    split at this
    · rename_i r' h hh
      simp only [decide_eq_true_eq] at this
      subst this
      exact ⟨r', hh⟩
    · cases this
  all_goals decide +kernel

end CoEcs.Props
