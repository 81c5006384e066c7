import Verif.Proofs.HandlePoolMix
import Verif.Proofs.OutOfMemory
import Verif.Props.Command

/-!
# Direct creation while creations are queued (C54), commands for several registries (C30)

`C54_commands_only_partial` proves that nothing goes wrong when systems only use commands.  Here: a direct creation after the
first recorded one always goes wrong.
-/

namespace CoEcs.Props
open CoEcs Spec

variable {V : Type} {ty : Types} {husk : V → V} {c c1 c2 : CSys V} {W : Spec.World V}

/-- A recording that returns an entity has reserved it. -/
theorem record_reserves {b i : Nat} {rc : Rec V} {ph : Handle} (hs : c.step ty husk (.record b i rc) = some (c1, .ok (some ph))) :
    ∃ p, (c.sys.reg i).pool.reserve = some (p, ph) ∧ (c1.sys.reg i).pool = p ∧ c1.sys.pend i = c.sys.pend i + 1 := by
  simp only [CSys.step] at hs
  split at hs
  · rename_i buf hb
    cases rc with
    | create args =>
      simp only [CSys.record, Buf.create, Reg.reserve] at hs
      cases hp : (c.sys.reg i).pool.reserve with
      | none => simp [hp] at hs
      | some x =>
        obtain ⟨p, h⟩ := x
        simp only [hp] at hs
        cases hst : buf.staging.create ty args with
        | ub => simp [hst] at hs
        | throw s e => simp [hst] at hs
        | ok s st =>
          simp only [hst, Option.some.injEq, Prod.mk.injEq, Out.ok.injEq] at hs
          obtain ⟨rfl, rfl⟩ := hs
          exact ⟨p, rfl, by simp [CSys.note, CSys.reserved, Sys.note, Sys.setReg], by simp [CSys.note, CSys.reserved, Sys.note, Sys.setReg]⟩
    | clone h =>
      simp only [CSys.record, Buf.clone, Reg.reserve] at hs
      cases hp : (c.sys.reg i).pool.reserve with
      | none => simp [hp] at hs
      | some x =>
        obtain ⟨p, h⟩ := x
        simp only [hp, Option.some.injEq, Prod.mk.injEq, Out.ok.injEq] at hs
        obtain ⟨rfl, rfl⟩ := hs
        exact ⟨p, rfl, by simp [CSys.note, CSys.reserved, Sys.note, Sys.setReg], by simp [CSys.note, CSys.reserved, Sys.note, Sys.setReg]⟩
    | set h cp v =>
      simp only [CSys.record] at hs
      split at hs
      · cases hs
      · simp at hs
      · simp at hs
    | remove h cp => simp [CSys.record] at hs
    | destroy h => simp [CSys.record] at hs
  · cases hs

/-- **C54 is violated** in every state without a pending reservation: when a system records a creation or a clone and a later one
creates an entity directly, that entity gets the handle of the recorded one, or a handle that is not alive. -/
theorem C54_direct_violated (hr : CReach ty husk c W) {b i : Nat} (hp : c.sys.pend i = 0) {rc : Rec V} {ph h : Handle}
    {args : List (Nat × V)} (ha : c.Allowed (.record b i rc)) (h1 : c.step ty husk (.record b i rc) = some (c1, .ok (some ph)))
    (h2 : c1.step ty husk (.direct (.on i (.create args))) = some (c2, .ok (some h))) :
    h = ph ∨ (c2.sys.reg i).alive h = false := by
  obtain ⟨p, hp1, hp2, hp3⟩ := record_reserves h1
  have hi : PoolInv (c.sys.reg i).pool 0 := hp ▸ (hr.inv.sys i).rep.pool
  have hi1 : PoolInv p 1 := by
    have := ((hr.step ha h1).inv.sys i).rep.pool
    rwa [hp2, hp3, hp] at this
  obtain ⟨s1, s2, s3⟩ := hi.slot_reserve hp1
  simp only [CSys.step, Option.map_eq_some_iff, Sys.step, RegOp.run] at h2
  obtain ⟨⟨s', o⟩, h2, h3⟩ := h2
  cases h3
  cases hc : (c1.sys.reg i).create ty args with
  | ub => simp [hc, withHandle] at h2
  | throw r e => simp [hc, withHandle] at h2
  | ok r h' =>
    simp only [hc, withHandle, Option.some.injEq, Prod.mk.injEq, Out.ok.injEq] at h2
    obtain ⟨rfl, rfl⟩ := h2
    obtain ⟨q, hq, hq'⟩ := create_pool_eq hc
    rw [hp2] at hq
    have hal : (({ c1 with sys := (c1.sys.setReg i r).note i (.create args) (some h') } : CSys V).sys.reg i).alive h' = q.alive h' := by
      simp [Sys.note, Sys.setReg, Reg.alive, hq']
    rw [hal]
    rcases hi1.create_pending hq with ⟨h4, _⟩ | ⟨_, h4⟩
    · have h5 : (c.sys.reg i).pool.slot 0 h' := by unfold Pool.slot at h4 ⊢; rwa [s2, s3] at h4
      exact .inl (slot_unique h5 s1)
    · exact .inr h4

/-- An entity, possibly destroyed again, before the two creations. -/
def beforeMix (freed : Bool) : List (COp Nat) :=
  [.start, .direct (.on 0 (.create [(0, 1)]))] ++ if freed then [.direct (.on 0 (.destroy ⟨0, 0⟩))] else []

theorem beforeMix_isSome (freed : Bool) : (cexec smallTy id (beforeMix freed)).isSome = true := by cases freed <;> decide +kernel

/-- The two creations, with the handles they return and whether the second one is alive. -/
def mixed (freed : Bool) : Option (Out × Out × Bool) :=
  let c := ((cexec smallTy id (beforeMix freed)).get (beforeMix_isSome freed)).1
  (c.step smallTy id (.record 0 0 (.create [(0, 5)]))).bind fun x =>
    (x.1.step smallTy id (.direct (.on 0 (.create [(1, 6)])))).map fun y =>
      (x.2, y.2, match y.2 with
        | .ok (some h) => (y.1.sys.reg 0).alive h
        | _ => false)

/-- Both cases of the theorem occur; its hypotheses can be met. -/
example : mixed true = some (.ok (some ⟨0, 1⟩), .ok (some ⟨0, 1⟩), true) ∧ mixed false = some (.ok (some ⟨1, 0⟩), .ok (some ⟨2, 0⟩), false) ∧
    ∀ freed, CReach smallTy id ((cexec smallTy id (beforeMix freed)).get (beforeMix_isSome freed)).1
        ((cexec smallTy id (beforeMix freed)).get (beforeMix_isSome freed)).2 ∧
      ((cexec smallTy id (beforeMix freed)).get (beforeMix_isSome freed)).1.sys.pend 0 = 0 ∧
      allowedB ((cexec smallTy id (beforeMix freed)).get (beforeMix_isSome freed)).1 (.record 0 0 (.create [(0, 5)])) = true := by
  refine ⟨by decide +kernel, by decide +kernel, fun freed => ⟨cexec_get _ (beforeMix_isSome freed), ?_⟩⟩
  cases freed <;> exact ⟨by decide +kernel, by decide +kernel⟩

/-! ## C30 -/

private theorem playQueue_empty : ∀ (cs : List Cmd) (s d : Reg V) {b : Buf V} {d' : Reg V}, playQueue ty husk cs s d = .ok (b, d') () → b.queue = []
  | [], s, d, b, d', h => by cases h; rfl
  | c :: cs, s, d, b, d', h => by
    simp only [playQueue] at h
    cases hx : c.exec ty husk s d with
    | ub => simp [hx] at h
    | throw sd e => simp [hx] at h
    | ok sd u => simp only [hx] at h; exact playQueue_empty cs _ _ h

private theorem flushBufs_empty : ∀ (bs : List (Option (Buf V))) (d : Reg V) {bs' : List (Option (Buf V))} {d' : Reg V},
    flushBufs ty husk bs d = .ok (bs', d') () → bs'.length = bs.length ∧ ∀ n ∈ CSys.left bs', n = 0
  | [], d, bs', d', h => by cases h; exact ⟨rfl, by simp [CSys.left]⟩
  | none :: _, d, bs', d', h => by cases h
  | some b :: bs, d, bs', d', h => by
    simp only [flushBufs] at h
    cases hx : b.play ty husk d with
    | ub => simp [hx] at h
    | throw sd e => simp [hx] at h
    | ok sd u =>
      simp only [hx] at h
      cases hy : flushBufs ty husk bs sd.2 with
      | ub => simp [hy] at h
      | throw sd e => simp [hy] at h
      | ok sd2 u2 =>
        simp only [hy] at h
        cases h
        obtain ⟨h1, h2⟩ := flushBufs_empty bs _ hy
        have h3 := playQueue_empty _ _ _ hx
        refine ⟨by simp [h1], fun n hn => ?_⟩
        simp only [CSys.left, List.mem_cons, h3, List.length_nil] at hn
        rcases hn with hn | hn
        · exact hn
        · exact h2 n hn

private theorem rest_zero {X : Type} : ∀ (qs : List (List X)) (ns : List Nat), qs.length = ns.length → (∀ n ∈ ns, n = 0) →
    (CSys.rest qs ns).flatten = []
  | [], [], _, _ => rfl
  | q :: qs, n :: ns, hl, h => by
    have := rest_zero qs ns (by simpa using hl) fun m hm => h m (List.mem_cons_of_mem _ hm)
    have h0 := h n List.mem_cons_self
    simp [CSys.rest, this, h0]

private theorem bufsRel_length : ∀ {bs : List (Option (Buf V))} {qs : List (List (Nat × ACmd V))}, BufsRel ty bs qs → qs.length = bs.length
  | [], [], _ => rfl
  | none :: _, _ :: _, h => by simp [bufsRel_length h.2]
  | some _ :: _, _ :: _, h => by simp [bufsRel_length h.2]
  | [], _ :: _, h => h.elim
  | none :: _, [], h => h.elim
  | some _ :: _, [], h => h.elim

private theorem left_length : ∀ (bs : List (Option (Buf V))), (CSys.left bs).length = bs.length
  | [] => rfl
  | none :: bs => by simp [CSys.left, left_length bs]
  | some b :: bs => by simp [CSys.left, left_length bs]

/-- **C30 is violated** whenever a registry is flushed while a command for another one is queued, and the flush returns: the
command is no longer queued, and its registry is unchanged. -/
theorem C30_lost_violated (hr : CReach ty husk c W) {i j : Nat} (hj : j ≠ i) {a : ACmd V} (_ : (j, a) ∈ c.todo.flatten) {o : Option Handle}
    (hs : c.step ty husk (.flush i) = some (c1, .ok o)) : c1.todo.flatten = [] ∧ c1.sys.reg j = c.sys.reg j := by
  obtain ⟨bs, r, hf, rfl⟩ := flush_ok hs
  obtain ⟨h1, h2⟩ := flushBufs_empty _ _ hf
  refine ⟨?_, by rw [flushed_reg, if_neg hj]⟩
  exact rest_zero _ _ (by rw [left_length, h1, bufsRel_length hr.inv.bufs]) h2

private theorem queued_of_own {i : Nat} : ∀ (l : List (Nat × ACmd V)), (∀ x ∈ l, x.1 ≠ i → x.2.placeholder = none) →
    (l.filterMap fun x => x.2.placeholder.map fun ph => (x.1, ph)) = (CSys.placeholders l).map fun ph => (i, ph)
  | [], _ => rfl
  | x :: l, h => by
    have ih := queued_of_own l fun y hy => h y (List.mem_cons_of_mem _ hy)
    have hx := h x List.mem_cons_self
    unfold CSys.placeholders at ih ⊢
    cases hp : x.2.placeholder with
    | none => simp [hp, ih]
    | some ph =>
      have : x.1 = i := Classical.byContradiction fun hne => by rw [hx hne] at hp; cases hp
      simp [hp, ih, this]

/-- **C30 is violated**, the whole effect: if the queued commands for other registries create nothing, a flush of registry `i` that
returns has executed them all on registry `i`, in the order recorded, buffer by buffer. -/
theorem C30_foreign_violated (hr : CReach ty husk c W) {i : Nat} (ha : ∀ x ∈ c.todo.flatten, x.1 ≠ i → x.2.placeholder = none)
    {o : Option Handle} (hs : c.step ty husk (.flush i) = some (c1, .ok o)) :
    Answers (c1.sys.reg i) ((c.todo.flatten.map Prod.snd).foldl ACmd.apply (W i)) := by
  obtain ⟨bs, r, hf, rfl⟩ := flush_ok hs
  have I := hr.inv
  have hq : c.queued = (CSys.placeholders c.todo.flatten).map fun ph => (i, ph) := queued_of_own _ ha
  have hsp := flush_spec husk (I.sys i) I.bufs
    (fun ph hph => I.mem (i, ph) (by rw [hq]; exact List.mem_map_of_mem hph))
    (by have := I.nodup; rw [hq] at this; exact List.Pairwise.of_map _ (fun a b h e => h (by rw [e])) this)
  rw [hf] at hsp
  rw [flushed_reg, if_pos rfl]
  have : (c.todo.flatten.map Prod.snd).foldl ACmd.apply (W i) = applyAll (W i) c.todo.flatten := by
    rw [List.foldl_map]; rfl
  rw [this]
  exact hsp.2.2.2.1.rep.answers

/-- A destruction for registry 0 is queued when registry 1 is flushed; both have an entity with that handle. -/
example : CReach smallTy id ((cexec smallTy id twoRegs).get twoRegs_isSome).1 ((cexec smallTy id twoRegs).get twoRegs_isSome).2 ∧
    (∃ a, ((cexec smallTy id twoRegs).get twoRegs_isSome).1.todo.flatten = [(0, a)] ∧ a.placeholder = none) ∧
    ((((cexec smallTy id twoRegs).get twoRegs_isSome).1.step smallTy id (.flush 1)).map fun x => x.2) = some (.ok none) :=
  ⟨cexec_get twoRegs twoRegs_isSome, ⟨.destroy ⟨0, 0⟩, rfl, rfl⟩, by decide +kernel⟩

end CoEcs.Props
