import Verif.Proofs.HandlePoolMix
import Verif.Props.Handles

/-!
# Creating and destroying while reservations are pending (C05)

`C05_partial` proves that nothing goes wrong when `create` and `recycle` are called only with no reservation pending.
Here: whenever they are called with a reservation pending, something goes wrong.
-/

namespace CoEcs.Props
open CoEcs Spec

/-- The handles returned by `reserve` since the last `flush`, oldest first. -/
def reservedSince : List PoolEvent → List Handle :=
  List.foldl (fun l ev => match ev with
    | .reserved h => l ++ [h]
    | .flushed => []
    | _ => l) []

private theorem reservedSince_append (evs : List PoolEvent) (ev : PoolEvent) :
    reservedSince (evs ++ [ev]) = match ev with
      | .reserved h => reservedSince evs ++ [h]
      | .flushed => []
      | _ => reservedSince evs := by
  unfold reservedSince
  rw [List.foldl_append]
  cases ev <;> rfl

private theorem reserved_slots {p : Pool} {evs : List PoolEvent} (hist : SyncedHistory p evs) :
    (reservedSince evs).length = pending evs ∧ (∀ j h, (reservedSince evs)[j]? = some h → p.slot j h) ∧
      ∀ h ∈ reservedSince evs, IssuedLive evs h := by
  induction hist with
  | init => exact ⟨rfl, by intro j h hj; simp [reservedSince] at hj, by intro h hh; simp [reservedSince] at hh⟩
  | @step p p' evs op ev hs hop hb hst ih =>
    obtain ⟨h1, h2, h3⟩ := ih
    have hi := (SyncedHistory.inv hs).1
    cases op with
    | create =>
      simp only [Pool.step, Option.map_eq_some_iff, Prod.mk.injEq] at hst
      obtain ⟨⟨q, h⟩, hc, rfl, rfl⟩ := hst
      have hp0 : pending evs = 0 := hop
      have he : reservedSince evs = [] := List.length_eq_zero_iff.1 (by omega)
      rw [reservedSince_append, pending_append]
      exact ⟨h1, by intro j h hj; simp [he] at hj, by intro h hh; simp [he] at hh⟩
    | recycle h =>
      simp only [Pool.step, Option.some.injEq, Prod.mk.injEq] at hst
      obtain ⟨rfl, rfl⟩ := hst
      have hp0 : pending evs = 0 := hop.1
      have he : reservedSince evs = [] := List.length_eq_zero_iff.1 (by omega)
      rw [reservedSince_append, pending_append]
      exact ⟨h1, by intro j h hj; simp [he] at hj, by intro h hh; simp [he] at hh⟩
    | reserve =>
      simp only [Pool.step, Option.map_eq_some_iff, Prod.mk.injEq] at hst
      obtain ⟨⟨q, h⟩, hc, rfl, rfl⟩ := hst
      obtain ⟨s1, s2, s3⟩ := hi.slot_reserve hc
      rw [reservedSince_append, pending_append]
      refine ⟨by simp [h1], fun j h' hj => ?_, fun h' hh => ?_⟩
      · have : q.slot j h' ↔ p.slot j h' := by unfold Pool.slot; rw [s2, s3]
        rw [this]
        simp only at hj
        rcases Nat.lt_or_ge j (reservedSince evs).length with hl | hl
        · rw [List.getElem?_append_left hl] at hj
          exact h2 j h' hj
        · rw [List.getElem?_append_right hl] at hj
          have hz : j - (reservedSince evs).length = 0 := by
            have := (List.getElem?_eq_some_iff.1 hj).1
            simp at this
            omega
          rw [hz] at hj
          cases hj
          rw [show j = pending evs by omega]
          exact s1
      · rw [issuedLive_append_iff]
        rcases List.mem_append.1 hh with hh | hh
        · exact .inr ⟨h3 h' hh, by simp⟩
        · simp only [List.mem_singleton] at hh
          exact .inl (.inr (by rw [hh]))
    | flush =>
      simp only [Pool.step, Option.some.injEq, Prod.mk.injEq] at hst
      obtain ⟨rfl, rfl⟩ := hst
      rw [reservedSince_append, pending_append]
      exact ⟨rfl, by intro j h hj; simp at hj, by intro h hh; simp at hh⟩

private theorem slot_get {p : Pool} {evs : List PoolEvent} (hist : SyncedHistory p evs) {j : Nat} (hj : j < pending evs) {h : Handle}
    (hs : p.slot j h) : (reservedSince evs)[j]? = some h := by
  obtain ⟨h1, h2, _⟩ := reserved_slots hist
  have hl : j < (reservedSince evs).length := by omega
  have := h2 j _ (List.getElem?_eq_getElem hl)
  rw [List.getElem?_eq_getElem hl, slot_unique this hs]

/-- **C05 is violated** by every call of `create` while a reservation is pending, whatever happened before: it returns the handle
the oldest pending reservation has returned, or one that is not alive. -/
theorem C05_create_violated {p p' : Pool} {evs : List PoolEvent} {h : Handle} (hist : SyncedHistory p evs) (hp : 0 < pending evs)
    (hc : p.create = some (p', h)) :
    (reservedSince evs).head? = some h ∧ IssuedLive evs h ∨ p'.alive h = false := by
  obtain ⟨k, hk⟩ : ∃ k, pending evs = k + 1 := ⟨pending evs - 1, by omega⟩
  rcases (hk ▸ (SyncedHistory.inv hist).1 : PoolInv p (k + 1)).create_pending hc with ⟨h1, _⟩ | ⟨_, h1⟩
  · have := slot_get hist hp h1
    exact .inl ⟨by rw [List.head?_eq_getElem?]; exact this, (reserved_slots hist).2.2 h (List.mem_of_getElem? this)⟩
  · exact .inr h1

/-- **C05 is violated** by every destruction of an entity while a reservation is pending, whatever happened before: after the next
flush, the next `create` returns the handle the youngest reservation has returned, or one that is not alive. -/
theorem C05_destroy_violated {p : Pool} {evs : List PoolEvent} {h : Handle} (hist : SyncedHistory p evs) (hp : 0 < pending evs)
    (ha : p.alive h = true) (hn : h ∉ reservedSince evs) :
    ∃ p' h', p.run [.recycle h, .flush, .create] = some (p', [.recycled h, .flushed, .created h']) ∧
      ((reservedSince evs).getLast? = some h' ∧ IssuedLive (evs ++ [.recycled h, .flushed]) h' ∨ p'.alive h' = false) := by
  obtain ⟨k, hk⟩ : ∃ k, pending evs = k + 1 := ⟨pending evs - 1, by omega⟩
  obtain ⟨p', h', h1, h2⟩ := (hk ▸ (SyncedHistory.inv hist).1 : PoolInv p (k + 1)).recycle_pending ha
    fun j hj hs => hn (List.mem_of_getElem? (slot_get hist (by omega) hs))
  refine ⟨p', h', ?_, ?_⟩
  · simp only [Pool.run, Pool.step, h1, Option.map_some]
  · rcases h2 with ⟨h2, _⟩ | ⟨_, h2⟩
    · have hg := slot_get hist (by omega) h2
      have hm := List.mem_of_getElem? hg
      refine .inl ⟨?_, ?_⟩
      · rw [List.getLast?_eq_getElem?, (reserved_slots hist).1, hk]
        exact hg
      · rw [show evs ++ [PoolEvent.recycled h, .flushed] = evs ++ [.recycled h] ++ [.flushed] by simp, issuedLive_append_iff,
          issuedLive_append_iff]
        exact .inr ⟨.inr ⟨(reserved_slots hist).2.2 h' hm, by rintro he; cases he; exact hn hm⟩, by simp⟩
    · exact .inr h2

/-- Two entities, one destroyed; two reservations pending, one of a free id and one of a fresh one. -/
example : SyncedHistory ⟨3, -1, [1, 0], [0]⟩
      [.created ⟨0, 0⟩, .created ⟨1, 0⟩, .recycled ⟨0, 0⟩, .reserved ⟨0, 1⟩, .reserved ⟨2, 0⟩] ∧
    0 < pending [.created ⟨0, 0⟩, .created ⟨1, 0⟩, .recycled ⟨0, 0⟩, .reserved ⟨0, 1⟩, .reserved ⟨2, 0⟩] ∧
    reservedSince [.created ⟨0, 0⟩, .created ⟨1, 0⟩, .recycled ⟨0, 0⟩, .reserved ⟨0, 1⟩, .reserved ⟨2, 0⟩] = [⟨0, 1⟩, ⟨2, 0⟩] ∧
    (⟨3, -1, [1, 0], [0]⟩ : Pool).alive ⟨1, 0⟩ = true := by
  refine ⟨?_, by decide, by decide, by decide⟩
  refine synced_of_run .reserve (.reserved ⟨2, 0⟩) (p := ⟨2, 0, [1, 0], [0]⟩)
    (evs := [.created ⟨0, 0⟩, .created ⟨1, 0⟩, .recycled ⟨0, 0⟩, .reserved ⟨0, 1⟩])
    ?_ trivial (by decide) rfl rfl
  refine synced_of_run .reserve (.reserved ⟨0, 1⟩) (p := ⟨2, 1, [1, 0], [0]⟩)
    (evs := [.created ⟨0, 0⟩, .created ⟨1, 0⟩, .recycled ⟨0, 0⟩])
    ?_ trivial (by decide) rfl rfl
  refine synced_of_run (.recycle ⟨0, 0⟩) (.recycled ⟨0, 0⟩) (p := ⟨2, 0, [0, 0], []⟩)
    (evs := [.created ⟨0, 0⟩, .created ⟨1, 0⟩])
    ?_ ⟨rfl, .inl (issuedLive_of [] [.created ⟨1, 0⟩] _ rfl (.inl rfl) (by decide))⟩ (by decide) rfl rfl
  refine synced_of_run .create (.created ⟨1, 0⟩) (p := ⟨1, 0, [0], []⟩)
    (evs := [.created ⟨0, 0⟩]) ?_ rfl (by decide) rfl rfl
  exact synced_of_run .create (.created ⟨0, 0⟩) (p := Pool.empty) (evs := []) .init rfl (by decide) rfl rfl

end CoEcs.Props
