import Verif.Model.HandlePoolConc
import Verif.Proofs.HandlePool

set_option linter.unusedSimpArgs false

namespace CoEcs
open Spec

/-- Invariant of concurrent reservation started from pool `p0`. -/
structure ConcInv (p0 : Pool) (s : ConcPool) : Prop where
  gens : s.pool.gens = p0.gens
  free : s.pool.free = p0.free
  /-- cursor = initial free count minus the number of calls that did their first step -/
  cursor : s.pool.cursor = (p0.free.length : Int) - (s.returned.length + s.midway.length : Nat)
  /-- fresh ids handed out -/
  fresh : s.pool.nextId + s.midway.length =
    p0.gens.length + (s.returned.length + s.midway.length - p0.free.length)
  nodup : (s.returned.map Handle.id).Nodup
  ok : ∀ h ∈ s.returned,
    (p0.gens[h.id]? = some h.gen ∧
      h.id ∈ p0.free.drop (p0.free.length - (s.returned.length + s.midway.length))) ∨
    (p0.gens.length ≤ h.id ∧ h.id < s.pool.nextId ∧ h.gen = 0)
  nextGe : p0.gens.length ≤ s.pool.nextId

theorem ConcInv.init {p0 : Pool} (hi : PoolInv p0 0) : ConcInv p0 ⟨p0, [], []⟩ := by
  have := hi.cursor
  have := hi.nextId
  constructor <;> simp_all

theorem ConcInv.step {p0 : Pool} {s t : ConcPool} (hi : PoolInv p0 0) (hs : ConcInv p0 s)
    (hb : s.pool.nextId + 1 < U32) (h : ConcPool.Step s t) : ConcInv p0 t := by
  have hg := hs.gens
  have hf := hs.free
  have hc := hs.cursor
  have hfr := hs.fresh
  have hn := hs.nodup
  have hok := hs.ok
  have hge := hs.nextGe
  have hmod : (s.pool.nextId + 1) % U32 = s.pool.nextId + 1 := Nat.mod_eq_of_lt hb
  cases h with
  | fromFree tid h hmid hpos hget =>
    simp only [Pool.reserveSub] at hpos hget
    unfold Pool.reserveFromFree at hget
    simp only [hf, hg] at hget
    have hk : s.returned.length + s.midway.length < p0.free.length := by omega
    have hidx : (s.pool.cursor - 1).toNat =
        p0.free.length - (s.returned.length + s.midway.length + 1) := by omega
    have hlt : p0.free.length - (s.returned.length + s.midway.length + 1) < p0.free.length := by
      omega
    rw [hidx, List.getElem?_eq_getElem hlt] at hget
    simp only at hget
    split at hget
    · simp at hget
    · rename_i g hgg
      simp only [Option.some.injEq] at hget
      subst hget
      have hdrop : p0.free.drop (p0.free.length - (s.returned.length + s.midway.length + 1)) =
          p0.free[p0.free.length - (s.returned.length + s.midway.length + 1)] ::
            p0.free.drop (p0.free.length - (s.returned.length + s.midway.length)) := by
        rw [List.drop_eq_getElem_cons hlt]
        congr 2
        omega
      have hnd : (p0.free[p0.free.length - (s.returned.length + s.midway.length + 1)] ::
            p0.free.drop (p0.free.length - (s.returned.length + s.midway.length))).Nodup := by
        rw [← hdrop]; exact hi.nodup.sublist (List.drop_sublist _ _)
      rw [List.nodup_cons] at hnd
      refine ⟨by simpa [Pool.reserveSub] using hg, by simpa [Pool.reserveSub] using hf, ?_, ?_, ?_, ?_, ?_⟩
      · simp only [Pool.reserveSub, List.length_cons]; omega
      · simp only [Pool.reserveSub, List.length_cons]; omega
      · simp only [List.map_cons, List.nodup_cons]
        refine ⟨?_, hn⟩
        intro hmem
        rw [List.mem_map] at hmem
        obtain ⟨h', hm', he⟩ := hmem
        rcases hok h' hm' with ⟨_, h2⟩ | ⟨h1, _, _⟩
        · rw [he] at h2; exact hnd.1 h2
        · have hm : p0.free[p0.free.length - (s.returned.length + s.midway.length + 1)] ∈ p0.free :=
            List.getElem_mem hlt
          have := hi.bound _ hm
          omega
      · intro h' hm'
        have e : ∀ x : Handle, (x :: s.returned).length + s.midway.length =
            s.returned.length + s.midway.length + 1 := by
          intro x; simp only [List.length_cons]; omega
        simp only [e, Pool.reserveSub]
        simp only [List.mem_cons] at hm'
        rcases hm' with rfl | hm'
        · left
          refine ⟨hgg, ?_⟩
          simp only
          rw [hdrop]; simp
        · rcases hok h' hm' with ⟨h1, h2⟩ | h3
          · left; refine ⟨h1, ?_⟩; rw [hdrop]; exact List.mem_cons_of_mem _ h2
          · right; exact h3
      · simpa [Pool.reserveSub] using hge
  | subFresh tid hmid hpos =>
    simp only [Pool.reserveSub] at hpos
    have hk : p0.free.length ≤ s.returned.length + s.midway.length := by omega
    refine ⟨by simpa [Pool.reserveSub] using hg, by simpa [Pool.reserveSub] using hf, ?_, ?_, hn, ?_, ?_⟩
    · simp only [Pool.reserveSub, List.length_cons]; omega
    · simp only [Pool.reserveSub, List.length_cons]; omega
    · intro h' hm'
      simp only [Pool.reserveSub, List.length_cons]
      rcases hok h' hm' with ⟨h1, h2⟩ | h3
      · left; refine ⟨h1, ?_⟩
        have e : p0.free.length - (s.returned.length + (s.midway.length + 1)) =
            p0.free.length - (s.returned.length + s.midway.length) := by omega
        rw [e]; exact h2
      · right; exact h3
    · simpa [Pool.reserveSub] using hge
  | addFresh tid hmid =>
    have hlen : (s.midway.erase tid).length + 1 = s.midway.length := by
      rw [List.length_erase_of_mem hmid]
      have := List.length_pos_of_mem hmid
      omega
    refine ⟨by simpa [Pool.reserveFresh, Pool.bump] using hg,
      by simpa [Pool.reserveFresh, Pool.bump] using hf, ?_, ?_, ?_, ?_, ?_⟩
    · simp only [Pool.reserveFresh, Pool.bump, List.length_cons]; omega
    · simp only [Pool.reserveFresh, Pool.bump, List.length_cons, hmod]; omega
    · simp only [Pool.reserveFresh, List.map_cons, List.nodup_cons]
      refine ⟨?_, hn⟩
      intro hmem
      rw [List.mem_map] at hmem
      obtain ⟨h', hm', he⟩ := hmem
      rcases hok h' hm' with ⟨_, h2⟩ | ⟨_, h2, _⟩
      · have := hi.bound _ (List.mem_of_mem_drop h2)
        omega
      · omega
    · intro h' hm'
      simp only [Pool.reserveFresh, Pool.bump, List.mem_cons, List.length_cons, hmod] at hm' ⊢
      have e : p0.free.length - (s.returned.length + 1 + (s.midway.erase tid).length) =
          p0.free.length - (s.returned.length + s.midway.length) := by omega
      rw [e]
      rcases hm' with rfl | hm'
      · right; exact ⟨hge, Nat.lt_succ_self _, rfl⟩
      · rcases hok h' hm' with h1 | ⟨h1, h2, h3⟩
        · left; exact h1
        · right; exact ⟨h1, by omega, h3⟩
    · simp only [Pool.reserveFresh, Pool.bump, hmod]; omega

theorem ConcInv.steps {p0 : Pool} {s : ConcPool} (hi : PoolInv p0 0)
    (h : ConcPool.Steps ⟨p0, [], []⟩ s) : ConcInv p0 s := by
  induction h with
  | refl => exact ConcInv.init hi
  | tail _ hb hst ih => exact ih.step hi hb hst

/-- When every call has returned, the pool has the pending-reservation invariant. -/
theorem ConcInv.quiescent {p0 : Pool} {s : ConcPool} (hi : PoolInv p0 0) (hs : ConcInv p0 s)
    (hq : s.midway = []) : PoolInv s.pool s.returned.length ∧
      (∀ h ∈ s.returned, HandleOk s.pool s.returned.length h) ∧
      (∀ h, HandleOk p0 0 h → HandleOk s.pool s.returned.length h) := by
  have hg := hs.gens
  have hf := hs.free
  have hc := hs.cursor
  have hfr := hs.fresh
  have hok := hs.ok
  simp only [hq, List.length_nil, Nat.add_zero] at hc hfr hok
  refine ⟨⟨?_, ?_, ?_, ?_, ?_⟩, ?_, ?_⟩
  · rw [hf]; exact hc
  · rw [hf, hg]; exact hfr
  · rw [hf]; exact hi.nodup
  · rw [hf, hg]; exact hi.bound
  · rw [hg]; exact hi.gensBound
  · intro h hm
    rcases hok h hm with ⟨h1, h2⟩ | h3
    · left
      rw [hg, hf]
      refine ⟨h1, ?_⟩
      intro h4
      have hd := hi.nodup
      rw [← List.take_append_drop (p0.free.length - s.returned.length) p0.free,
        List.nodup_append] at hd
      exact hd.2.2 _ h4 _ h2 rfl
    · right; rw [hg]; exact h3
  · intro h hok
    rcases hok with ⟨h1, h2⟩ | ⟨h1, h2, h3⟩
    · left
      rw [hg, hf]
      refine ⟨h1, fun h3 => h2 ?_⟩
      simp only [Nat.sub_zero, List.take_length]
      exact List.mem_of_mem_take h3
    · have := hi.nextId
      have := hs.nextGe
      omega

end CoEcs
