import Verif.Proofs.HandlePool
import Verif.Proofs.HandlePoolConc

/-!
# Properties of handles (C01 - C05, C51)

The specification vocabulary (`IssuedLive`, `pending`, `SyncedHistory`) is in
`Verif.Spec.Handles`; it mentions only calls and returned handles.
-/

namespace CoEcs.Props
open CoEcs Spec

/-! ## A concrete history used to show that the hypotheses can be met -/

/-- create, create, destroy the first, reserve twice, flush, create. -/
def sampleOps : List PoolOp :=
  [.create, .create, .recycle ⟨0, 0⟩, .reserve, .reserve, .flush, .create]

theorem synced_of_run {p q : Pool} {evs evs' : List PoolEvent} (op : PoolOp) (ev : PoolEvent)
    (h : SyncedHistory p evs) (hop : SyncedOp p evs op) (hb : p.nextId + 1 < U32)
    (hs : p.step op = some (q, ev)) (he : evs' = evs ++ [ev]) : SyncedHistory q evs' :=
  he ▸ .step h hop hb hs

theorem issuedLive_of {evs : List PoolEvent} {h : Handle} (pre post : List PoolEvent) (is : PoolEvent)
    (h1 : evs = pre ++ is :: post) (h2 : is = .created h ∨ is = .reserved h)
    (h3 : PoolEvent.recycled h ∉ post) : IssuedLive evs h := ⟨pre, is, post, h1, h2, h3⟩

theorem sample_history : SyncedHistory
    ⟨4, 0, [1, 0, 0, 0], []⟩
    [.created ⟨0, 0⟩, .created ⟨1, 0⟩, .recycled ⟨0, 0⟩, .reserved ⟨0, 1⟩, .reserved ⟨2, 0⟩, .flushed,
      .created ⟨3, 0⟩] := by
  refine synced_of_run .create (.created ⟨3, 0⟩) (p := ⟨3, 0, [1, 0, 0], []⟩)
    (evs := [.created ⟨0, 0⟩, .created ⟨1, 0⟩, .recycled ⟨0, 0⟩, .reserved ⟨0, 1⟩, .reserved ⟨2, 0⟩, .flushed])
    ?_ rfl (by decide) rfl rfl
  refine synced_of_run .flush .flushed (p := ⟨3, -1, [1, 0], [0]⟩)
    (evs := [.created ⟨0, 0⟩, .created ⟨1, 0⟩, .recycled ⟨0, 0⟩, .reserved ⟨0, 1⟩, .reserved ⟨2, 0⟩])
    ?_ trivial (by decide) rfl rfl
  refine synced_of_run .reserve (.reserved ⟨2, 0⟩) (p := ⟨2, 0, [1, 0], [0]⟩)
    (evs := [.created ⟨0, 0⟩, .created ⟨1, 0⟩, .recycled ⟨0, 0⟩, .reserved ⟨0, 1⟩])
    ?_ trivial (by decide) rfl rfl
  refine synced_of_run .reserve (.reserved ⟨0, 1⟩) (p := ⟨2, 1, [1, 0], [0]⟩)
    (evs := [.created ⟨0, 0⟩, .created ⟨1, 0⟩, .recycled ⟨0, 0⟩])
    ?_ trivial (by decide) rfl rfl
  refine synced_of_run (.recycle ⟨0, 0⟩) (.recycled ⟨0, 0⟩) (p := ⟨2, 0, [0, 0], []⟩)
    (evs := [.created ⟨0, 0⟩, .created ⟨1, 0⟩])
    ?_ ⟨rfl, .inl (issuedLive_of [] [.created ⟨1, 0⟩] _ rfl (.inl rfl) (by decide))⟩ (by decide) rfl rfl
  refine synced_of_run .create (.created ⟨1, 0⟩) (p := ⟨1, 0, [0], []⟩)
    (evs := [.created ⟨0, 0⟩]) ?_ rfl (by decide) rfl rfl
  exact synced_of_run .create (.created ⟨0, 0⟩) (p := Pool.empty) (evs := []) .init rfl (by decide) rfl rfl

/-! ## C01 -/

theorem created_bound {p : Pool} {evs : List PoolEvent} (hist : SyncedHistory p evs) {h : Handle}
    (hc : PoolEvent.created h ∈ evs) : h.id < p.gens.length := by
  induction hist with
  | init => simp at hc
  | @step p p' evs op ev hs hop hb hst ih =>
    obtain ⟨hi, hl⟩ := SyncedHistory.inv (hs.step hop hb hst)
    rw [List.mem_append, List.mem_singleton] at hc
    cases op with
    | create =>
      simp only [Pool.step, Option.map_eq_some_iff, Prod.mk.injEq] at hst
      obtain ⟨⟨q, h'⟩, hcr, rfl, rfl⟩ := hst
      rcases hc with hc | hc
      · have := ih hc
        unfold Pool.create at hcr
        split at hcr
        · split at hcr
          · simp at hcr
          · simp only [Option.some.injEq, Prod.mk.injEq] at hcr
            obtain ⟨rfl, _⟩ := hcr; exact this
        · simp only [Option.some.injEq, Prod.mk.injEq] at hcr
          obtain ⟨rfl, _⟩ := hcr; simp; omega
      · cases hc
        have hp0 : pending evs = 0 := hop
        obtain ⟨a, b, _⟩ := (hp0 ▸ (SyncedHistory.inv hs).1 : PoolInv p 0).create hb hcr
        rcases b with ⟨b, _⟩ | ⟨b1, b2, _⟩
        · exact (List.getElem?_eq_some_iff.1 b).1
        · have := a.nextId; simp at this; omega
    | recycle h' =>
      simp only [Pool.step, Option.some.injEq, Prod.mk.injEq] at hst
      obtain ⟨rfl, rfl⟩ := hst
      rcases hc with hc | hc
      · have := ih hc
        unfold Pool.recycle; split
        · simpa using this
        · exact this
      · cases hc
    | reserve =>
      simp only [Pool.step, Option.map_eq_some_iff, Prod.mk.injEq] at hst
      obtain ⟨⟨q, h'⟩, hcr, rfl, rfl⟩ := hst
      rcases hc with hc | hc
      · have := ih hc
        rw [reserve_eq] at hcr
        split at hcr
        · split at hcr
          · simp at hcr
          · simp only [Option.some.injEq, Prod.mk.injEq] at hcr
            obtain ⟨rfl, _⟩ := hcr; exact this
        · simp only [Pool.reserveFresh, Option.some.injEq, Prod.mk.injEq] at hcr
          obtain ⟨rfl, _⟩ := hcr; exact this
      · cases hc
    | flush =>
      simp only [Pool.step, Option.some.injEq, Prod.mk.injEq] at hst
      obtain ⟨rfl, rfl⟩ := hst
      rcases hc with hc | hc
      · have := ih hc
        simp [Pool.flush]; omega
      · cases hc

/-- **C01**: in every protocol-respecting history, a handle that was issued and not destroyed since
is alive: created handles at any time, reserved handles as soon as no reservation is pending. -/
theorem C01_live_handles_alive {p : Pool} {evs : List PoolEvent} {h : Handle}
    (hist : SyncedHistory p evs) (live : IssuedLive evs h)
    (pub : pending evs = 0 ∨ PoolEvent.created h ∈ evs) : p.alive h = true := by
  obtain ⟨hi, hl⟩ := SyncedHistory.inv hist
  rw [alive_iff]
  rcases hl h live with ⟨h1, _⟩ | ⟨h1, h2, _⟩
  · exact h1
  · exfalso
    rcases pub with h0 | hc
    · have := hi.nextId; rw [h0] at this; simp at this; omega
    · have := created_bound hist hc; omega

/-- No protocol-respecting call is undefined behaviour. -/
theorem C01_no_ub {p : Pool} {evs : List PoolEvent} (hist : SyncedHistory p evs) (op : PoolOp) :
    p.step op ≠ none := by
  obtain ⟨hi, _⟩ := SyncedHistory.inv hist
  cases op with
  | create =>
    simp only [Pool.step, ne_eq, Option.map_eq_none_iff]; exact create_isSome hi
  | reserve =>
    simp only [Pool.step, ne_eq, Option.map_eq_none_iff]; exact reserve_isSome hi
  | recycle h => simp [Pool.step]
  | flush => simp [Pool.step]

example : (⟨4, 0, [1, 0, 0, 0], []⟩ : Pool).alive ⟨0, 1⟩ = true :=
  C01_live_handles_alive sample_history
    (issuedLive_of [.created ⟨0, 0⟩, .created ⟨1, 0⟩, .recycled ⟨0, 0⟩]
      [.reserved ⟨2, 0⟩, .flushed, .created ⟨3, 0⟩] _ rfl (.inr rfl) (by decide)) (.inl rfl)

/-! ## C02 -/

/-- Number of calls in `evs` that recycle a handle with this id. -/
def recyclesOf (id : Nat) (evs : List PoolEvent) : Nat :=
  evs.countP fun ev => match ev with
    | .recycled h => h.id == id
    | _ => false

/-- How one call changes the stored generation of an existing id. -/
theorem step_gens {p p' : Pool} {op : PoolOp} {ev : PoolEvent} {i g : Nat}
    (hst : p.step op = some (p', ev)) (hg : p.gens[i]? = some g) :
    p'.gens[i]? = some g ∨ (∃ h, ev = .recycled h ∧ h.id = i ∧ p'.gens[i]? = some ((g + 1) % U32)) := by
  have hlt : i < p.gens.length := (List.getElem?_eq_some_iff.1 hg).1
  cases op with
  | create =>
    simp only [Pool.step, Option.map_eq_some_iff, Prod.mk.injEq] at hst
    obtain ⟨⟨q, h'⟩, hcr, rfl, rfl⟩ := hst
    left
    unfold Pool.create at hcr
    split at hcr
    · split at hcr
      · simp at hcr
      · simp only [Option.some.injEq, Prod.mk.injEq] at hcr
        obtain ⟨rfl, _⟩ := hcr; exact hg
    · simp only [Option.some.injEq, Prod.mk.injEq] at hcr
      obtain ⟨rfl, _⟩ := hcr
      simp [List.getElem?_append_left hlt, hg]
  | recycle h =>
    simp only [Pool.step, Option.some.injEq, Prod.mk.injEq] at hst
    obtain ⟨rfl, rfl⟩ := hst
    unfold Pool.recycle
    split
    · rename_i ha
      rw [alive_iff] at ha
      by_cases hid : h.id = i
      · right
        refine ⟨h, rfl, hid, ?_⟩
        rw [hid, hg] at ha
        simp only [Option.some.injEq] at ha
        simp [hid, hlt, ha]
      · left; simp [List.getElem?_set_ne hid, hg]
    · left; exact hg
  | reserve =>
    simp only [Pool.step, Option.map_eq_some_iff, Prod.mk.injEq] at hst
    obtain ⟨⟨q, h'⟩, hcr, rfl, rfl⟩ := hst
    left
    rw [reserve_eq] at hcr
    split at hcr
    · split at hcr
      · simp at hcr
      · simp only [Option.some.injEq, Prod.mk.injEq] at hcr
        obtain ⟨rfl, _⟩ := hcr; exact hg
    · simp only [Pool.reserveFresh, Option.some.injEq, Prod.mk.injEq] at hcr
      obtain ⟨rfl, _⟩ := hcr; exact hg
  | flush =>
    simp only [Pool.step, Option.some.injEq, Prod.mk.injEq] at hst
    obtain ⟨rfl, rfl⟩ := hst
    left
    simp [Pool.flush, List.getElem?_append_left hlt, hg]

theorem C02_generation_after {p : Pool} {evs : List PoolEvent} (hist : SyncedHistory p evs)
    (h : Handle) : ∀ evs1 evs2, evs = evs1 ++ .recycled h :: evs2 → IssuedLive evs1 h →
      h.gen < U32 ∧ ∃ k ≤ recyclesOf h.id evs2, p.gens[h.id]? = some ((h.gen + 1 + k) % U32) := by
  induction hist with
  | init => intro evs1 evs2 he; simp at he
  | @step p p' evs op ev hs hop hb hst ih =>
    intro evs1 evs2 he hlive
    rcases List.eq_nil_or_concat evs2 with rfl | ⟨evs2', e, h2⟩
    · have h3 := List.append_inj' he rfl
      obtain ⟨rfl, h4⟩ := h3
      simp only [List.cons.injEq, and_true] at h4
      subst h4
      have hop' : op = .recycle h := by
        cases op <;> simp [Pool.step] at hst
        obtain ⟨_, rfl⟩ := hst; rfl
      subst hop'
      obtain ⟨hp0, _⟩ : pending evs = 0 ∧ _ := hop
      have ha := C01_live_handles_alive hs hlive (.inl hp0)
      have hi := (SyncedHistory.inv hs).1
      simp only [Pool.step, Option.some.injEq, Prod.mk.injEq, and_true] at hst
      subst hst
      have ha' := (alive_iff _ _).1 ha
      have hlt := (List.getElem?_eq_some_iff.1 ha').1
      refine ⟨hi.gensBound _ (List.mem_of_getElem? ha'), 0, Nat.zero_le _, ?_⟩
      simp [Pool.recycle, ha, hlt]
    · rw [List.concat_eq_append] at h2
      subst h2
      have h2 : evs ++ [ev] = (evs1 ++ PoolEvent.recycled h :: evs2') ++ [e] := by
        rw [he]; simp
      obtain ⟨h3, h4⟩ := List.append_inj' h2 rfl
      simp only [List.cons.injEq, and_true] at h4
      subst h4
      obtain ⟨hgl, k, hk, hg⟩ := ih evs1 evs2' h3 hlive
      refine ⟨hgl, ?_⟩
      rcases step_gens hst hg with h5 | ⟨h', rfl, hid, h5⟩
      · refine ⟨k, ?_, h5⟩
        simp only [recyclesOf, List.countP_append] at *
        omega
      · refine ⟨k + 1, ?_, ?_⟩
        · have : recyclesOf h.id (evs2' ++ [PoolEvent.recycled h']) = recyclesOf h.id evs2' + 1 := by
            simp [recyclesOf, List.countP_append, hid]
          omega
        · rw [h5, Nat.mod_add_mod]; rfl

/-- **C02**, the part that holds: a destroyed handle is dead from then on, as long as its id is
recycled fewer than 2^32 times in total since.  What is missing: without that bound the
statement is false, see `C02_violated`. -/
theorem C02_destroyed_stay_dead_partial {p : Pool} {evs1 evs2 : List PoolEvent} {h : Handle}
    (hist : SyncedHistory p (evs1 ++ .recycled h :: evs2)) (live : IssuedLive evs1 h)
    (few : recyclesOf h.id evs2 + 1 < U32) : p.alive h = false := by
  obtain ⟨hgl, k, hk, hg⟩ := C02_generation_after hist h evs1 evs2 rfl live
  unfold Pool.alive
  rw [hg]
  simp only [beq_eq_false_iff_ne, ne_eq]
  intro hc
  have h1 : h.gen + 1 + k = h.gen + (1 + k) := by omega
  rw [h1] at hc
  rcases Nat.lt_or_ge (h.gen + (1 + k)) U32 with hlt | hge
  · rw [Nat.mod_eq_of_lt hlt] at hc; omega
  · rw [Nat.mod_eq_sub_mod hge, Nat.mod_eq_of_lt (by omega)] at hc; omega

example : (⟨4, 0, [1, 0, 0, 0], []⟩ : Pool).alive ⟨0, 0⟩ = false :=
  C02_destroyed_stay_dead_partial (evs1 := [.created ⟨0, 0⟩, .created ⟨1, 0⟩])
    (evs2 := [.reserved ⟨0, 1⟩, .reserved ⟨2, 0⟩, .flushed, .created ⟨3, 0⟩])
    sample_history (issuedLive_of [] [.created ⟨1, 0⟩] _ rfl (.inl rfl) (by decide)) (by decide)

theorem C02_wrap (n : Nat) : ∃ evs, SyncedHistory ⟨1, 1, [(n + 1) % U32], [0]⟩ evs ∧
    PoolEvent.recycled ⟨0, 0⟩ ∈ evs ∧ pending evs = 0 ∧ (∀ h, ¬ IssuedLive evs h) := by
  induction n with
  | zero =>
    refine ⟨[.created ⟨0, 0⟩, .recycled ⟨0, 0⟩], ?_, by decide, rfl, ?_⟩
    · refine synced_of_run (.recycle ⟨0, 0⟩) (.recycled ⟨0, 0⟩) (p := ⟨1, 0, [0], []⟩)
        (evs := [.created ⟨0, 0⟩]) ?_
        ⟨rfl, .inl (issuedLive_of [] [] _ rfl (.inl rfl) (by decide))⟩ (by decide) rfl rfl
      exact synced_of_run .create (.created ⟨0, 0⟩) (p := Pool.empty) (evs := []) .init rfl
        (by decide) rfl rfl
    · intro h
      rw [show [PoolEvent.created ⟨0, 0⟩, .recycled ⟨0, 0⟩] =
        ([] ++ [.created ⟨0, 0⟩]) ++ [.recycled ⟨0, 0⟩] from rfl, issuedLive_append_iff,
        issuedLive_append_iff]
      rintro ((h1 | h1) | ⟨(h1 | h1) | ⟨h1, _⟩, h2⟩)
      · cases h1
      · cases h1
      · cases h1; exact h2 rfl
      · cases h1
      · exact issuedLive_nil h h1
  | succ n ih =>
    obtain ⟨evs, hh, hm, hp, hn⟩ := ih
    refine ⟨(evs ++ [.created ⟨0, (n + 1) % U32⟩]) ++ [.recycled ⟨0, (n + 1) % U32⟩], ?_, ?_, ?_, ?_⟩
    · refine synced_of_run (.recycle ⟨0, (n + 1) % U32⟩) (.recycled ⟨0, (n + 1) % U32⟩)
        (p := ⟨1, 0, [(n + 1) % U32], []⟩)
        (evs := evs ++ [.created ⟨0, (n + 1) % U32⟩]) ?_
        ⟨?_, .inl (issuedLive_of evs [] _ rfl (.inl rfl) (by simp))⟩ (by simp [U32]) ?_ rfl
      · exact synced_of_run .create (.created ⟨0, (n + 1) % U32⟩)
          (p := ⟨1, 1, [(n + 1) % U32], [0]⟩) (evs := evs) hh hp (by simp [U32]) rfl rfl
      · rw [pending_append]; exact hp
      · simp [Pool.step, Pool.recycle, Pool.alive, Nat.mod_add_mod]
    · simp [hm]
    · rw [pending_append, pending_append]; exact hp
    · intro h
      rw [issuedLive_append_iff, issuedLive_append_iff]
      rintro ((h1 | h1) | ⟨(h1 | h1) | ⟨h1, _⟩, h2⟩)
      · cases h1
      · cases h1
      · cases h1; exact h2 rfl
      · cases h1
      · exact hn h h1

/-- **C02 is violated**: there is a history of creates and destroys after which a handle that has
been destroyed, and is not in use, is reported alive again, and `create` hands it out again. -/
theorem C02_violated : ∃ p evs h, SyncedHistory p evs ∧ PoolEvent.recycled h ∈ evs ∧
    ¬ IssuedLive evs h ∧ p.alive h = true ∧ ∃ p', p.create = some (p', h) := by
  obtain ⟨evs, hh, hm, _, hn⟩ := C02_wrap (U32 - 1)
  have e : (U32 - 1 + 1) % U32 = 0 := by decide
  rw [e] at hh
  exact ⟨_, evs, ⟨0, 0⟩, hh, hm, hn _, rfl, _, rfl⟩

/-! ## C03 -/

/-- **C03**: `create` and `reserve` return a handle whose id no issued, undestroyed handle has. -/
theorem C03_create_fresh {p p' : Pool} {evs : List PoolEvent} {h : Handle}
    (hist : SyncedHistory p evs) (hp : pending evs = 0) (hb : p.nextId + 1 < U32)
    (hc : p.create = some (p', h)) : ∀ h', IssuedLive evs h' → h'.id ≠ h.id := by
  obtain ⟨hi, hl⟩ := SyncedHistory.inv hist
  rw [hp] at hi hl
  obtain ⟨_, _, c⟩ := hi.create hb hc
  exact fun h' hh => (c h' (hl h' hh)).2

theorem C03_reserve_fresh {p p' : Pool} {evs : List PoolEvent} {h : Handle}
    (hist : SyncedHistory p evs) (hb : p.nextId + 1 < U32)
    (hc : p.reserve = some (p', h)) : ∀ h', IssuedLive evs h' → h'.id ≠ h.id := by
  obtain ⟨hi, hl⟩ := SyncedHistory.inv hist
  obtain ⟨_, _, c⟩ := hi.reserve hb hc
  exact fun h' hh => (c h' (hl h' hh)).2

/-- **C03**: two issued, undestroyed handles with the same id are the same handle. -/
theorem C03_live_unique {p : Pool} {evs : List PoolEvent} {h1 h2 : Handle}
    (hist : SyncedHistory p evs) (l1 : IssuedLive evs h1) (l2 : IssuedLive evs h2)
    (he : h1.id = h2.id) : h1 = h2 := by
  obtain ⟨_, hl⟩ := SyncedHistory.inv hist
  have : h1.gen = h2.gen := by
    rcases hl h1 l1 with ⟨a, _⟩ | ⟨a, _, a3⟩ <;> rcases hl h2 l2 with ⟨b, _⟩ | ⟨b, _, b3⟩
    · rw [he, b] at a; simpa using a.symm
    · have := (List.getElem?_eq_some_iff.1 a).1; omega
    · have := (List.getElem?_eq_some_iff.1 b).1; omega
    · rw [a3, b3]
  cases h1; cases h2; simp_all

example : ∃ p', (⟨4, 0, [1, 0, 0, 0], []⟩ : Pool).create = some (p', ⟨4, 0⟩) ∧
    IssuedLive [.created ⟨0, 0⟩, .created ⟨1, 0⟩, .recycled ⟨0, 0⟩, .reserved ⟨0, 1⟩,
      .reserved ⟨2, 0⟩, .flushed, .created ⟨3, 0⟩] ⟨1, 0⟩ ∧ (1 : Nat) ≠ 4 := by
  have hl : IssuedLive [.created ⟨0, 0⟩, .created ⟨1, 0⟩, .recycled ⟨0, 0⟩, .reserved ⟨0, 1⟩,
      .reserved ⟨2, 0⟩, .flushed, .created ⟨3, 0⟩] ⟨1, 0⟩ :=
    issuedLive_of [.created ⟨0, 0⟩] [.recycled ⟨0, 0⟩, .reserved ⟨0, 1⟩, .reserved ⟨2, 0⟩, .flushed,
      .created ⟨3, 0⟩] _ rfl (.inl rfl) (by decide)
  exact ⟨_, rfl, hl, C03_create_fresh sample_history rfl (by decide) rfl _ hl⟩

/-! ## C04 -/

/-- **C04**: any number of concurrent `reserve` calls, interleaved in any way at their atomic
steps, starting from any state the registry can be in: the returned handles have pairwise distinct
ids, different from the ids of all issued undestroyed handles; and once every call has returned,
flushing makes all of them alive while all earlier handles stay alive. -/
theorem C04_concurrent_reserve {p : Pool} {evs : List PoolEvent} {s : ConcPool}
    (hist : SyncedHistory p evs) (hp : pending evs = 0)
    (run : ConcPool.Steps ⟨p, [], []⟩ s) :
    (s.returned.map Handle.id).Nodup ∧
    (∀ h ∈ s.returned, ∀ h', IssuedLive evs h' → h'.id ≠ h.id) ∧
    (s.midway = [] →
      (∀ h ∈ s.returned, s.pool.flush.alive h = true) ∧
      (∀ h, IssuedLive evs h → s.pool.flush.alive h = true)) := by
  obtain ⟨hi, hl⟩ := SyncedHistory.inv hist
  rw [hp] at hi hl
  have hs := ConcInv.steps hi run
  refine ⟨hs.nodup, ?_, ?_⟩
  · intro h hm h' hh he
    rcases hs.ok h hm with ⟨h1, h2⟩ | ⟨h1, h2, _⟩
    · rcases hl h' hh with ⟨_, h4⟩ | ⟨h3, h4, _⟩
      · simp only [Nat.sub_zero, List.take_length] at h4
        rw [he] at h4
        exact h4 (List.mem_of_mem_drop h2)
      · have := hi.bound _ (List.mem_of_mem_drop h2); omega
    · rcases hl h' hh with ⟨h3, _⟩ | ⟨h3, h4, _⟩
      · have := (List.getElem?_eq_some_iff.1 h3).1; omega
      · have := hi.nextId; simp at this; omega
  · intro hq
    obtain ⟨a, b, c⟩ := hs.quiescent hi hq
    obtain ⟨d, e, f⟩ := a.flush
    have key : ∀ h, HandleOk s.pool s.returned.length h → s.pool.flush.alive h = true := by
      intro h hok
      rw [alive_iff]
      rcases e h hok with ⟨h1, _⟩ | ⟨h1, h2, _⟩
      · exact h1
      · omega
    exact ⟨fun h hm => key h (b h hm), fun h hh => key h (c h (hl h hh))⟩

/-- In every state the threads can reach, the reads a `reserve` call makes are in range, so no
interleaving is undefined behaviour. -/
theorem C04_no_ub {p : Pool} {evs : List PoolEvent} {s : ConcPool}
    (hist : SyncedHistory p evs) (hp : pending evs = 0)
    (run : ConcPool.Steps ⟨p, [], []⟩ s) (hpos : s.pool.reserveSub.2 > 0) :
    s.pool.reserveSub.1.reserveFromFree s.pool.reserveSub.2 ≠ none := by
  obtain ⟨hi, _⟩ := SyncedHistory.inv hist
  rw [hp] at hi
  have hs := ConcInv.steps hi run
  have hc := hs.cursor
  have hlt : (s.pool.cursor.toNat - 1) < p.free.length := by
    simp only [Pool.reserveSub] at hpos; omega
  have hb : p.free[s.pool.cursor.toNat - 1] < p.gens.length := hi.bound _ (List.getElem_mem hlt)
  simp only [Pool.reserveSub] at hpos ⊢
  have e : (s.pool.cursor - 1).toNat = s.pool.cursor.toNat - 1 := by omega
  simp [Pool.reserveFromFree, hs.free, hs.gens, hlt, hb, e]

/-- The pool left behind by concurrent reservations is the pool left behind by the same number of
sequential ones, so every later history is covered by the sequential theorems. -/
theorem C04_same_pool_as_sequential {p : Pool} {evs : List PoolEvent} {s : ConcPool}
    (hist : SyncedHistory p evs) (hp : pending evs = 0)
    (run : ConcPool.Steps ⟨p, [], []⟩ s) (hq : s.midway = []) (hb : p.nextId + s.returned.length + 1 < U32) :
    ∃ hs : List Handle, hs.length = s.returned.length ∧
      SyncedHistory s.pool (evs ++ hs.map PoolEvent.reserved) := by
  obtain ⟨hi, _⟩ := SyncedHistory.inv hist
  rw [hp] at hi
  have hs := ConcInv.steps hi run
  obtain ⟨a, _, _⟩ := hs.quiescent hi hq
  have seq : ∀ n, p.nextId + n + 1 < U32 → ∃ (q : Pool) (hs : List Handle), hs.length = n ∧
      SyncedHistory q (evs ++ hs.map PoolEvent.reserved) ∧ pending (evs ++ hs.map PoolEvent.reserved) = n ∧
      q.gens = p.gens ∧ q.free = p.free ∧ q.nextId ≤ p.nextId + n := by
    intro n
    induction n with
    | zero => exact fun _ => ⟨p, [], rfl, by simpa using hist, by simpa using hp, rfl, rfl, Nat.le_refl _⟩
    | succ n ih =>
      intro hn
      obtain ⟨q, hs', hlen, hh, hpe, hg, hf, hnx⟩ := ih (by omega)
      have hqi := (SyncedHistory.inv hh).1
      cases hr : q.reserve with
      | none => exact absurd hr (reserve_isSome hqi)
      | some r =>
        obtain ⟨q', h⟩ := r
        have hb' : q.nextId + 1 < U32 := by omega
        have hmod : (q.nextId + 1) % U32 = q.nextId + 1 := Nat.mod_eq_of_lt hb'
        have hst : q.step .reserve = some (q', .reserved h) := by simp [Pool.step, hr]
        have hh' := SyncedHistory.step (op := .reserve) hh trivial hb' hst
        refine ⟨q', hs' ++ [h], by simp [hlen], ?_, ?_, ?_⟩
        · simpa using hh'
        · have := pending_append (evs ++ hs'.map PoolEvent.reserved) (.reserved h)
          simp only [List.append_assoc] at this
          simp only [List.map_append, List.map_cons, List.map_nil, this]
          rw [hpe]
        · rw [reserve_eq] at hr
          split at hr
          · split at hr
            · simp at hr
            · simp only [Option.some.injEq, Prod.mk.injEq] at hr
              obtain ⟨rfl, _⟩ := hr
              exact ⟨hg, hf, by simp; omega⟩
          · simp only [Pool.reserveFresh, Option.some.injEq, Prod.mk.injEq] at hr
            obtain ⟨rfl, _⟩ := hr
            refine ⟨hg, hf, ?_⟩
            simp only [Pool.bump, hmod]; omega
  obtain ⟨q, hs', hlen, hh, hpe, hg, hf, hnx⟩ := seq s.returned.length hb
  have hqi := (SyncedHistory.inv hh).1
  rw [hpe] at hqi
  have hqe : q = s.pool := by
    have h1 := hqi.cursor
    have h2 := hqi.nextId
    have h3 := a.cursor
    have h4 := a.nextId
    rw [hs.gens, hs.free] at h4
    rw [hs.free] at h3
    rw [hf] at h1
    rw [hf, hg] at h2
    have h5 := hs.gens
    have h6 := hs.free
    have h7 : q.cursor = s.pool.cursor := by omega
    have h8 : q.nextId = s.pool.nextId := by omega
    have h9 : q.gens = s.pool.gens := by rw [hg, h5]
    have h10 : q.free = s.pool.free := by rw [hf, h6]
    cases q
    generalize s.pool = sp at h7 h8 h9 h10 ⊢
    cases sp
    simp_all
  exact ⟨hs', hlen, hqe ▸ hh⟩

/-- Two threads interleaved: thread 1 finds the free list empty, thread 2 as well, then thread 2
takes its fresh id before thread 1. -/
example : ∃ s, ConcPool.Steps ⟨⟨4, 0, [1, 0, 0, 0], []⟩, [], []⟩ s ∧ s.midway = [] ∧
    s.returned = [⟨5, 0⟩, ⟨4, 0⟩] := by
  refine ⟨_, .tail (.tail (.tail (.tail (.refl _) (by decide) (.subFresh _ 1 (by decide) (by decide)))
    (by decide) (.subFresh _ 2 (by decide) (by decide))) (by decide) (.addFresh _ 2 (by decide)))
    (by decide) (.addFresh _ 1 (by decide)), rfl, rfl⟩

/-! ## C05 -/

/-- **C05 is violated**: with a reservation pending, `create` returns the very handle that was
reserved. -/
theorem C05_violated_duplicate :
    ∃ p, Pool.empty.run [.create, .recycle ⟨0, 0⟩, .reserve, .create] =
      some (p, [.created ⟨0, 0⟩, .recycled ⟨0, 0⟩, .reserved ⟨0, 1⟩, .created ⟨0, 1⟩]) :=
  ⟨_, rfl⟩

/-- **C05 is violated**: with a reservation pending, the handle returned by `create` is not alive. -/
theorem C05_violated_not_alive :
    ∃ p, Pool.empty.run [.reserve, .create] = some (p, [.reserved ⟨0, 0⟩, .created ⟨1, 0⟩]) ∧
      p.alive ⟨1, 0⟩ = false :=
  ⟨_, rfl, rfl⟩

/-- **C05 is violated**: a destroy between reserve and flush loses the reserved handle for good and
makes every later fresh handle dead on arrival. -/
theorem C05_violated_lost :
    ∃ p, Pool.empty.run [.create, .create, .reserve, .recycle ⟨0, 0⟩, .flush, .create] =
      some (p, [.created ⟨0, 0⟩, .created ⟨1, 0⟩, .reserved ⟨2, 0⟩, .recycled ⟨0, 0⟩, .flushed,
        .created ⟨3, 0⟩]) ∧ p.alive ⟨3, 0⟩ = false :=
  ⟨_, rfl, rfl⟩

/-- **C05**, the part that holds: if creates and destroys happen only when no reservation is
pending, created and reserved handles are all distinct and alive after the flush.  Missing: mixing
without an intermediate flush, which is false by the three theorems above. -/
theorem C05_partial {p : Pool} {evs : List PoolEvent}
    (hist : SyncedHistory p evs) (hp : pending evs = 0) :
    (∀ h, IssuedLive evs h → p.alive h = true) ∧
    (∀ h1 h2, IssuedLive evs h1 → IssuedLive evs h2 → h1.id = h2.id → h1 = h2) :=
  ⟨fun _ hl => C01_live_handles_alive hist hl (.inl hp), fun _ _ l1 l2 he => C03_live_unique hist l1 l2 he⟩

example : (⟨4, 0, [1, 0, 0, 0], []⟩ : Pool).alive ⟨2, 0⟩ = true :=
  (C05_partial sample_history rfl).1 _
    (issuedLive_of [.created ⟨0, 0⟩, .created ⟨1, 0⟩, .recycled ⟨0, 0⟩, .reserved ⟨0, 1⟩]
      [.flushed, .created ⟨3, 0⟩] _ rfl (.inr rfl) (by decide))

/-! ## C51 -/

/-- **C51**: comparison is by id, then by generation. -/
theorem C51_cmp_lt (a b : Handle) :
    a.cmp b = .lt ↔ a.id < b.id ∨ (a.id = b.id ∧ a.gen < b.gen) := by
  unfold Handle.cmp
  rw [Ordering.then_eq_lt, Nat.compare_eq_lt, Nat.compare_eq_eq, Nat.compare_eq_lt]

/-- **C51**: comparing equal is being the same handle. -/
theorem C51_cmp_eq (a b : Handle) : a.cmp b = .eq ↔ a = b := by
  unfold Handle.cmp
  rw [Ordering.then_eq_eq, Nat.compare_eq_eq, Nat.compare_eq_eq]
  cases a; cases b; simp

/-- **C51**: exactly one of less, equal, greater holds, and they are consistent. -/
theorem C51_cmp_gt (a b : Handle) : a.cmp b = .gt ↔ b.cmp a = .lt := by
  rw [C51_cmp_lt]
  unfold Handle.cmp
  rw [Ordering.then_eq_gt, Nat.compare_eq_gt, Nat.compare_eq_eq, Nat.compare_eq_gt]
  constructor <;> (rintro (h | ⟨h, h'⟩) <;> omega)

/-- **C51**: less-than is transitive. -/
theorem C51_cmp_trans (a b c : Handle) (h1 : a.cmp b = .lt) (h2 : b.cmp c = .lt) :
    a.cmp c = .lt := by
  rw [C51_cmp_lt] at *
  omega

example : (⟨1, 7⟩ : Handle).cmp ⟨2, 0⟩ = .lt :=
  C51_cmp_trans ⟨1, 7⟩ ⟨1, 9⟩ ⟨2, 0⟩ (by decide) (by decide)

/-! ## C55 -/

theorem nextId_lt {p : Pool} {evs : List PoolEvent} (hist : SyncedHistory p evs) : p.nextId < U32 := by
  induction hist with
  | init => decide
  | @step p p' evs op ev hs hop hb hst ih =>
    cases op with
    | create =>
      simp only [Pool.step, Option.map_eq_some_iff, Prod.mk.injEq] at hst
      obtain ⟨⟨q, h'⟩, hcr, rfl, rfl⟩ := hst
      unfold Pool.create at hcr
      split at hcr
      · split at hcr
        · simp at hcr
        · simp only [Option.some.injEq, Prod.mk.injEq] at hcr
          obtain ⟨rfl, _⟩ := hcr; exact ih
      · simp only [Option.some.injEq, Prod.mk.injEq] at hcr
        obtain ⟨rfl, _⟩ := hcr
        exact Nat.mod_lt _ (by decide)
    | recycle h' =>
      simp only [Pool.step, Option.some.injEq, Prod.mk.injEq] at hst
      obtain ⟨rfl, rfl⟩ := hst
      unfold Pool.recycle; split <;> exact ih
    | reserve =>
      simp only [Pool.step, Option.map_eq_some_iff, Prod.mk.injEq] at hst
      obtain ⟨⟨q, h'⟩, hcr, rfl, rfl⟩ := hst
      rw [reserve_eq] at hcr
      split at hcr
      · split at hcr
        · simp at hcr
        · simp only [Option.some.injEq, Prod.mk.injEq] at hcr
          obtain ⟨rfl, _⟩ := hcr; exact ih
      · simp only [Pool.reserveFresh, Option.some.injEq, Prod.mk.injEq] at hcr
        obtain ⟨rfl, _⟩ := hcr
        exact Nat.mod_lt _ (by decide)
    | flush =>
      simp only [Pool.step, Option.some.injEq, Prod.mk.injEq] at hst
      obtain ⟨rfl, rfl⟩ := hst
      exact ih

/-- **C55.**  `valid` recognises every handle except the one distinguished value, and no call ever hands
that value out: every handle returned by `create` or `reserve` is valid. -/
theorem C55_issued_valid {p : Pool} {evs : List PoolEvent} {h : Handle} (hist : SyncedHistory p evs)
    (hc : PoolEvent.created h ∈ evs ∨ PoolEvent.reserved h ∈ evs) : h.valid = true := by
  induction hist with
  | init => simp at hc
  | @step p p' evs op ev hs hop hb hst ih =>
    by_cases hev : ev = .created h ∨ ev = .reserved h
    · have hist' := hs.step hop hb hst
      obtain ⟨hi, hl⟩ := SyncedHistory.inv hist'
      have hn := nextId_lt hist'
      have hk := hi.nextId
      have hlt : h.id < p'.nextId := by
        rcases hl h ((issuedLive_append_iff evs ev h).2 (Or.inl hev)) with ⟨h1, _⟩ | ⟨_, h1, _⟩
        · have := (List.getElem?_eq_some_iff.1 h1).1
          omega
        · exact h1
      have hne : h.id ≠ U32 - 1 := by omega
      simp only [Handle.valid, bne_iff_ne, ne_eq, Handle.invalid]
      rintro rfl
      exact hne rfl
    · refine ih ?_
      simp only [List.mem_append, List.mem_singleton] at hc
      rcases hc with (hc | rfl) | (hc | rfl)
      · exact Or.inl hc
      · exact absurd (Or.inl rfl) hev
      · exact Or.inr hc
      · exact absurd (Or.inr rfl) hev

/-- The invalid handle is the only one that is not `valid`, and it is never alive. -/
theorem C55_invalid_dead {p : Pool} {evs : List PoolEvent} (hist : SyncedHistory p evs) :
    (∀ h : Handle, h.valid = false ↔ h.id = 4294967295 ∧ h.gen = 4294967295) ∧
    p.alive ⟨4294967295, 4294967295⟩ = false := by
  constructor
  · intro h
    simp only [Handle.valid, bne_eq_false_iff_eq, Handle.invalid, U32]
    constructor
    · rintro rfl; exact ⟨rfl, rfl⟩
    · rintro ⟨h1, h2⟩
      cases h; simp_all
  · have hn := nextId_lt hist
    have hk := (SyncedHistory.inv hist).1.nextId
    have : p.gens[4294967295]? = none := by
      rw [List.getElem?_eq_none_iff]
      unfold U32 at hn
      omega
    simp only [Pool.alive, this]

example : Handle.valid ⟨3, 0⟩ = true :=
  C55_issued_valid sample_history (by decide)

end CoEcs.Props
