import Verif.Proofs.Growth
import Verif.Props.RegistryStorage

/-!
# Properties of the amount of storage (C77)
-/

namespace CoEcs.Props
open CoEcs Spec

variable {V : Type}

/-! ## C77 -/

/-- Component types so large that a chunk holds one entity. -/
def soloTy : Types := ⟨fun c => ⟨c, 8200, 4, true⟩, fun _ => rfl⟩

/-- At most two entities exist in the registry. -/
def AtMostTwo (r : Reg V) : Prop := ∃ h1 h2, ∀ h, r.has h [] = .ok true → h = h1 ∨ h = h2

/-- An entity that is stored somewhere is located there. -/
theorem at_slot {ty : Types} {r : Reg V} {k : Nat} {W : Handle → Option (Comps V)} (R : Rep ty r k W) {h : Handle} {d : Comps V} {l : Loc}
    (hl : slots r.archs.arches l = some (h, d)) : ∃ ai a c row, At r h d l ai a c row := by
  obtain ⟨l', ai, a, c, row, t⟩ := R.at_ ((R.holds h d).1 ⟨l, hl⟩)
  obtain ⟨lm, hlm, L⟩ := R.link
  have h1 := (L.stored _ _ _ hl).2
  have h2 := (L.stored _ _ _ t.slot).2
  rw [h1] at h2
  cases h2
  exact ⟨ai, a, c, row, t⟩

theorem create_inv {ty : Types} {r r' : Reg V} {args : List (Nat × V)} {h : Handle} (hc : r.create ty args = .ok r' h) :
    ∃ p s ai a a' ci idx, r.pool.create = some (p, h) ∧ r.archs.ensure (args.map fun x => ty.info x.1) = .ok s ai ∧
      s.arches[ai]? = some a ∧ a.emplace h args = .ok a' (ci, idx) ∧ r'.archs.arches = s.arches.set ai a' := by
  unfold Reg.create at hc
  split at hc
  · cases hc
  · rename_i p h' hp
    simp only at hc
    split at hc
    · cases hc
    · cases hc
    · rename_i s ai he
      split at hc
      · cases hc
      · rename_i a ha
        split at hc
        · cases hc
        · cases hc
        · rename_i a' ci idx hm
          split at hc
          · cases hc
          · rename_i r2 hl
            cases hc
            exact ⟨p, s, ai, a, a', ci, idx, hp, he, ha, hm, by rw [Reg.setLoc_archs hl]; rfl⟩

theorem destroy_inv {r r' : Reg V} {h : Handle} (hc : r.destroy h = .ok r' ()) {d : Comps V} {l : Loc} {ai : Nat} {a : Arch V} {c : Chunk V}
    {row : Row V} (t : At r h d l ai a c row) :
    ∃ a' m, a.swapErase l.chunk l.entry = some (a', m) ∧ r'.archs.arches = r.archs.arches.set ai a' := by
  unfold Reg.destroy at hc
  simp only [t.loc, t.archOf] at hc
  split at hc
  · cases hc
  · rename_i a' m hs
    split at hc
    · cases hc
    · rename_i r1 h1
      split at hc
      · cases hc
      · rename_i r2 h2
        cases hc
        exact ⟨a', m, hs, by simp only; rw [Reg.setMoved_archs h2, Reg.removeLoc_archs h1]; rfl⟩

theorem emplace_sizes {a a' : Arch V} {h : Handle} {args : List (Nat × V)} {ci idx : Nat} (he : a.emplace h args = .ok a' (ci, idx)) :
    ∃ b c, a.ensureFree = some b ∧ ci = b.chunks.length - 1 ∧ b.chunks[b.chunks.length - 1]? = some c ∧ idx = c.size ∧
      a'.chunks.map Chunk.size = (b.chunks.map Chunk.size).set (b.chunks.length - 1) (c.size + 1) := by
  unfold Arch.emplace at he
  split at he
  · cases he
  · rename_i b hb
    simp only at he
    split at he
    · cases he
    · rename_i c hc
      split at he
      · rename_i c' t u hem
        cases he
        refine ⟨b, c, hb, rfl, hc, rfl, ?_⟩
        have : c'.size = c.size + 1 := by
          unfold Chunk.emplaceBack at hem
          split at hem
          · simp only at hem
            split at hem
            · cases hem; rfl
            · cases hem
            · cases hem
          · cases hem
        rw [List.map_set, this]
      · cases he
      · cases he

/-- One entity in the last of `n + 1` chunks, the others being empty. -/
structure Ladder (n : Nat) (s : Sys Nat) (W : Spec.World Nat) : Prop where
  reach : Reach soloTy (fun s _ => AtMostTwo (s.reg 0)) s W
  pend : s.pend 0 = 0
  next : (s.reg 0).pool.nextId ≤ 2
  free : (s.reg 0).pool.nextId = 2 → (s.reg 0).pool.free ≠ []
  one : ∃ h, ∀ h', W 0 h' ≠ none ↔ h' = h
  arch : ∃ a, (s.reg 0).archs.arches = [a] ∧ a.cap = 1 ∧ a.comps.set = (MetaSet.create [soloTy.info 0]).set ∧
    a.chunks.map Chunk.size = List.replicate n 0 ++ [1]

theorem create_pool_next {p q : Pool} {h : Handle} (hc : p.create = some (q, h)) (hn : p.nextId ≤ 2) (hf : p.nextId = 2 → p.free ≠ []) :
    q.nextId ≤ 2 := by
  unfold Pool.create at hc
  split at hc
  · split at hc
    · cases hc
    · cases hc; exact hn
  · rename_i e
    cases hc
    have : p.free = [] := List.getLast?_eq_none_iff.1 e
    simp only [Pool.bump]
    have : p.nextId ≠ 2 := fun h => hf h this
    have : (p.nextId + 1) % U32 ≤ p.nextId + 1 := Nat.mod_le _ _
    omega

theorem recycle_next (p : Pool) (h : Handle) : (p.recycle h).nextId = p.nextId := by
  unfold Pool.recycle; split <;> rfl

/-- `create`, then `destroy` of the older entity: one more chunk. -/
theorem Ladder.next_step {n : Nat} {s : Sys Nat} {W : Spec.World Nat} (L : Ladder n s W) : ∃ s' W', Ladder (n + 1) s' W' := by
  obtain ⟨h, hone⟩ := L.one
  obtain ⟨a, ha, hcap, hset, hsz⟩ := L.arch
  have R := (L.reach.inv 0).rep
  rw [L.pend] at R
  have hnb : (s.reg 0).pool.nextId + 1 < U32 := by have := L.next; simp only [U32]; omega
  have hndp : (([(0, 0)] : List (Nat × Nat)).map Prod.fst).Nodup := by decide
  obtain ⟨m0, hm0⟩ := R.archs
  have ha0 : (s.reg 0).archs.arches[0]? = some a := by rw [ha]; rfl
  -- where the entity is
  cases hw : W 0 h with
  | none => exact absurd hw ((hone h).2 rfl)
  | some d =>
  obtain ⟨l, ai, a1, c, row, t⟩ := R.at_ hw
  have hai : ai = 0 ∧ a1 = a := by
    have := t.get
    rw [ha, List.getElem?_singleton] at this
    split at this
    · rename_i e; cases this; exact ⟨e, rfl⟩
    · cases this
  obtain ⟨rfl, rfl⟩ := hai
  have hlen : a1.chunks.length = n + 1 := by
    have := congrArg List.length hsz
    simpa using this
  have size_at : ∀ (j : Nat) (cc : Chunk Nat), a1.chunks[j]? = some cc → cc.size = if j = n then 1 else 0 := by
    intro j cc hcc
    have hj : j < n + 1 := by rw [← hlen]; exact (List.getElem?_eq_some_iff.1 hcc).1
    have := congrArg (fun x => x[j]?) hsz
    simp only [List.getElem?_map, hcc, Option.map_some] at this
    rw [List.getElem?_append] at this
    simp only [List.length_replicate] at this
    split at this
    · rename_i hlt
      rw [List.getElem?_replicate, if_pos hlt] at this
      rw [if_neg (by omega)]
      exact Option.some.inj this
    · have e : j = n := by omega
      subst e
      simp at this
      rw [if_pos rfl]; exact this
  have hl : l = ⟨some 0, n, 0⟩ := by
    have h1 := size_at _ _ t.chunk
    have h2 := t.lt
    have h3 := t.loc_eq
    split at h1
    · rename_i e
      rw [h3, e]
      congr 1
      omega
    · omega
  subst hl
  -- create
  obtain ⟨p, h', hp, hheld, hwn, hkeep, -, hcase⟩ := R.create hnb hndp
  have hne : h' ≠ h := by rintro rfl; rw [hw] at hwn; cases hwn
  rcases hcase with ⟨r1, e1, e2, R1, -, -⟩ | ⟨r1, e1, e2, -, -, hbig, -⟩
  rotate_left
  · exfalso
    revert hbig
    decide +kernel
  obtain ⟨p', sA, ai, b, b', ci, idx, q1, q2, q3, q4, q5⟩ := create_inv e1
  have hens : ai = 0 ∧ b = a1 ∧ sA.arches = [a1] := by
    rcases ensure_spec hm0 (([(0, 0)] : List (Nat × Nat)).map Prod.fst) with ⟨s2, m2, ai2, b2, g1, g2⟩ | ⟨s2, m2, g1, g2⟩
    · have g1' : (s.reg 0).archs.ensure ((([(0, 0)] : List (Nat × Nat))).map fun x => soloTy.info x.1) = .ok s2 ai2 := g1
      rw [q2] at g1'
      cases g1'
      have hbset : b2.comps.set = a1.comps.set := by rw [g2.set, hset]; rfl
      have hb2 : b2 = b := by have := g2.arch; rw [q3] at this; cases this; rfl
      subst hb2
      have hzero : sA.arches[0]? = some a1 := by
        rcases g2.cases with h1 | ⟨-, h1, -⟩
        · rw [h1]; exact ha0
        · rw [h1, List.getElem?_append_left (by rw [ha]; simp)]; exact ha0
      have hidx : ai = 0 := g2.rel.inj q3 hzero hbset
      subst hidx
      rw [hzero] at q3
      cases q3
      refine ⟨rfl, rfl, ?_⟩
      rcases g2.cases with h1 | ⟨h0, -, -⟩
      · rw [h1, ha]
      · rw [ha] at h0; simp at h0
    · have g1' : (s.reg 0).archs.ensure ((([(0, 0)] : List (Nat × Nat))).map fun x => soloTy.info x.1) = .throw s2 .insufficientChunkSize := g1
      rw [q2] at g1'
      cases g1'
  obtain ⟨rfl, rfl, hsA⟩ := hens
  have haok := hm0.ok 0 b ha0
  have hbl : ∀ c, some c ∈ b.blocks ↔ c ∈ ([(0, 0)] : List (Nat × Nat)).map Prod.fst := by
    intro c
    rw [Arch.blocks_of_set haok.inv (MetaSet.inv_create _) hset, create_ids]
    simp [soloTy, eq_comm]
  obtain ⟨b2, ci2, idx2, rw2, w1, w2, w3, w4, w5, w6⟩ := Arch.emplace_spec haok h' hndp hbl
  rw [q4] at w1
  cases w1
  have hr1 : r1.archs.arches = [b'] := by rw [q5, hsA]; rfl
  obtain ⟨f, c1, z1, z2, z3, z4, z5⟩ := emplace_sizes q4
  -- a new chunk was needed
  have hf : f.chunks = b.chunks ++ [Chunk.fresh] := by
    unfold Arch.ensureFree at z1
    split at z1
    · cases z1
    · rename_i last hlast
      rw [List.getLast?_eq_getElem?] at hlast
      have := size_at _ _ hlast
      rw [if_pos (by omega)] at this
      rw [if_pos (by omega)] at z1
      cases z1; rfl
  have hflen : f.chunks.length = n + 2 := by rw [hf]; simp [hlen]
  have hc1 : c1 = Chunk.fresh := by
    rw [hf] at z3
    simpa using z3.symm
  subst hc1
  have hsz' : b'.chunks.map Chunk.size = List.replicate n 0 ++ [1, 1] := by
    rw [z5, hf, List.map_append, hsz]
    have hl2 : (b.chunks ++ [(Chunk.fresh : Chunk Nat)]).length - 1 = (List.replicate n 0 ++ [1] : List Nat).length := by
      simp [hlen]
    rw [hl2, List.set_append_right _ _ (Nat.le_refl _)]
    simp [Chunk.fresh]
  have hslot : slots r1.archs.arches ⟨some 0, n, 0⟩ = some (h, d) := by
    have hs0 := t.slot
    rw [ha, slots_some (i := 0) rfl] at hs0
    rw [hr1, slots_some (i := 0) rfl]
    unfold Arch.entry at hs0 ⊢
    rw [w3.row?, if_neg (by omega), Arch.blocks_congr w3.comps]
    exact hs0
  obtain ⟨ai, a2, c2, row2, t2⟩ := at_slot R1 hslot
  have hai : ai = 0 := by have := t2.arch; simp at this; exact this.symm
  subst hai
  have ha2 : a2 = b' := by have := t2.get; rw [hr1] at this; simp at this; exact this.symm
  subst ha2
  -- destroy
  have hsize : ∀ (j : Nat) (cc : Chunk Nat), a2.chunks[j]? = some cc → cc.size ≤ 1 := by
    intro j cc hcc
    have := congrArg (fun x => x[j]?) hsz'
    simp only [List.getElem?_map, hcc, Option.map_some] at this
    have hm := List.mem_of_getElem? this.symm
    simp only [List.mem_append, List.mem_replicate, List.mem_cons, List.not_mem_nil, or_false, or_self] at hm
    omega
  have hsafe : a2.Safe n 0 := by
    intro cc hcc hlt
    have := hsize _ _ hcc
    omega
  have hw1 : World.put (W 0) h' (some (Row.argVal [(0, 0)])) h = some d := by
    simp [World.put, Ne.symm hne, hw]
  obtain ⟨r2, hd2⟩ := R1.destroy' hw1 t2 hsafe
  obtain ⟨a3, mv, v1, v2⟩ := destroy_inv hd2 t2
  obtain ⟨a3', mv', u1, u2, u3, u4, u5, u6, u7⟩ := Arch.swapErase_spec (t2.ok.but _ _) t2.chunk t2.lt (hsafe c2 t2.chunk)
  simp only at v1
  rw [v1] at u1
  cases u1
  rcases R1.destroy hw1 with ⟨hu, -⟩ | ⟨r2', hd2', hp2, R2, -, -⟩
  · rw [hd2] at hu; cases hu
  rw [hd2] at hd2'
  cases hd2'
  -- the two steps
  let s1 : Sys Nat := (s.setReg 0 r1).note 0 (.create [(0, 0)]) (some h')
  have st1 : s.step soloTy (.on 0 (.create [(0, 0)])) = some (s1, .ok (some h')) := by
    simp only [Sys.step, RegOp.run, e1, withHandle]; rfl
  let s2 : Sys Nat := (s1.setReg 0 r2).note 0 (.destroy h) none
  have st2 : s1.step soloTy (.on 0 (.destroy h)) = some (s2, .ok none) := by
    have : s1.reg 0 = r1 := by simp [s1, Sys.note, Sys.setReg]
    simp only [Sys.step, RegOp.run, this, hd2, noHandle]; rfl
  have two : AtMostTwo (s.reg 0) := ⟨h, h, fun x hx => by
    obtain ⟨dx, hx⟩ := R.entity_some hx
    exact .inl ((hone x).1 (by rw [hx]; simp))⟩
  have two1 : AtMostTwo (s1.reg 0) := ⟨h, h', fun x hx => by
    have hreg : s1.reg 0 = r1 := by simp [s1, Sys.note, Sys.setReg]
    rw [hreg] at hx
    obtain ⟨dx, hx⟩ := R1.entity_some hx
    by_cases hxh : x = h'
    · exact .inr hxh
    · simp only [World.put, if_neg hxh] at hx
      exact .inl ((hone x).1 (by rw [hx]; simp))⟩
  have reach1 := Reach.step L.reach (show s.Allowed (.on 0 (.create [(0, 0)])) from ⟨hndp, L.pend, hnb⟩) two st1
  have reach2 := Reach.step reach1 (show s1.Allowed (.on 0 (.destroy h)) from L.pend) two1 st2
  have hreg2 : s2.reg 0 = r2 := by simp [s2, Sys.note, Sys.setReg]
  refine ⟨s2, _, reach2, L.pend, ?_, ?_, ⟨h', ?_⟩, ⟨a3, ?_, ?_, ?_, ?_⟩⟩
  · rw [hreg2, hp2, recycle_next, e2]
    exact create_pool_next hp L.next L.free
  · intro _
    rw [hreg2, hp2]
    have : r1.pool.alive h = true := R1.alive hw1
    unfold Pool.recycle
    rw [if_pos this]
    simp
  · intro x
    simp only [World.step, World.upd]
    by_cases hxh : x = h
    · subst hxh; simp [Ne.symm hne]
    · by_cases hxh' : x = h'
      · subst hxh'; simp [hxh]
      · have := hone x
        simp only [hxh, hxh', and_false, if_false, iff_false] at this ⊢
        exact this
  · rw [hreg2, v2, hr1]; rfl
  · rw [u3, w3.cap, hcap]
  · rw [u2, w3.comps, hset]
  · rw [u7]
    have e : Arch.eraseSizes (a2.chunks.map Chunk.size) n 0 = List.replicate n 0 ++ [0, 1] := by
      rw [hsz']
      unfold Arch.eraseSizes
      have hg : (List.replicate n 0 ++ [1, 1]).getD n 0 = 1 := by simp [List.getD_eq_getElem?_getD]
      simp only [hg]
      have hs : (List.replicate n 0 ++ [1, 1]).set n (1 - 1) = List.replicate n 0 ++ [0, 1] := by
        rw [List.set_append_right _ _ (by simp)]; simp
      simp only [if_true, hs]
      rw [if_neg (by simp)]
    show Arch.eraseSizes (a2.chunks.map Chunk.size) n 0 = _
    rw [e, List.replicate_succ']
    simp

theorem ladder_isSome : (Sys.step soloTy (Sys.init : Sys Nat) (.on 0 (.create [(0, 0)]))).isSome = true := by decide +kernel

/-- The first step: one entity. -/
theorem ladder_zero : ∃ s W, Ladder 0 s W := by
  have hout : ((Sys.step soloTy (Sys.init : Sys Nat) (.on 0 (.create [(0, 0)]))).get ladder_isSome).2 = .ok (some ⟨0, 0⟩) := by decide +kernel
  generalize hx : (Sys.step soloTy (Sys.init : Sys Nat) (.on 0 (.create [(0, 0)]))).get ladder_isSome = x at hout
  obtain ⟨s, out⟩ := x
  simp only at hout
  subst hout
  have hst : Sys.step soloTy (Sys.init : Sys Nat) (.on 0 (.create [(0, 0)])) = some (s, .ok (some ⟨0, 0⟩)) := by
    rw [← hx]; exact (Option.some_get ladder_isSome).symm
  have hs : s = ((Sys.step soloTy (Sys.init : Sys Nat) (.on 0 (.create [(0, 0)]))).get ladder_isSome).1 := by rw [hx]
  have two : AtMostTwo ((Sys.init : Sys Nat).reg 0) := ⟨⟨0, 0⟩, ⟨0, 0⟩, fun h hh => by
    simp [Sys.init, Reg.empty, Reg.has, Reg.location, Reg.alive, Pool.alive, Pool.empty] at hh⟩
  refine ⟨s, _, .step .init ?_ two hst, ?_, ?_, ?_, ⟨⟨0, 0⟩, ?_⟩, ?_⟩
  · decide +kernel
  · rw [hs]; decide +kernel
  · rw [hs]; decide +kernel
  · rw [hs]; decide +kernel
  · intro x
    simp only [World.step, World.upd]
    by_cases h : x = ⟨0, 0⟩ <;> simp [h]
  · have key : ((((Sys.step soloTy (Sys.init : Sys Nat) (.on 0 (.create [(0, 0)]))).get ladder_isSome).1.reg 0).archs.arches.map fun a =>
        (a.cap, a.comps.set, a.chunks.map Chunk.size)) = [(1, (MetaSet.create [soloTy.info 0]).set, [1])] := by decide +kernel
    rw [← hs] at key
    cases e : (s.reg 0).archs.arches with
    | nil => rw [e] at key; simp at key
    | cons a l =>
      rw [e] at key
      simp only [List.map_cons, List.cons.injEq, Prod.mk.injEq, List.map_eq_nil_iff] at key
      obtain ⟨⟨k1, k2, k3⟩, rfl⟩ := key
      exact ⟨a, rfl, k1, k2, by simpa using k3⟩

theorem ladder (n : Nat) : ∃ s W, Ladder n s W := by
  induction n with
  | zero => exact ladder_zero
  | succ n ih =>
    obtain ⟨s, W, L⟩ := ih
    exact L.next_step

/-- **C77 is violated**: for every bound there is a history in which at most two entities exist at any time, and at its end one entity
exists, whose archetype holds more chunks than the bound.  (Each round creates an entity and destroys the older one: the chunk of the
latter becomes empty but is not the last one, and is neither freed nor used again.) -/
theorem C77_violated (bound : Nat) : ∃ (s : Sys Nat) (W : Spec.World Nat), Reach soloTy (fun s _ => AtMostTwo (s.reg 0)) s W ∧
    (∃ h, ∀ h', (s.reg 0).has h' [] = .ok true ↔ h' = h) ∧
    ∃ a, (s.reg 0).archs.arches = [a] ∧ a.entries = 1 ∧ bound < a.chunks.length := by
  obtain ⟨s, W, L⟩ := ladder bound
  obtain ⟨h, hone⟩ := L.one
  obtain ⟨a, ha, -, -, hsz⟩ := L.arch
  have R := (L.reach.inv 0).rep
  refine ⟨s, W, L.reach, ⟨h, fun h' => ?_⟩, a, ha, ?_, ?_⟩
  · rw [R.has_iff, ← hone h']
    cases W 0 h' <;> simp
  · unfold Arch.entries
    rw [hsz]; simp
  · have := congrArg List.length hsz
    simp at this
    omega

/-- **C77** (partial; missing: histories that take entities out of archetypes): the chunks of an archetype but one hold at most as
many entities as are stored in it and operations of the history may have taken an entity out of an archetype of its registry.
So without such operations, the archetype has no more chunks than needed for its entities.  No protocol is assumed, and calls may
have thrown. -/
theorem C77_bounded_partial {ty : Types} {ops : List (SysOp V)} {s : Sys V} (h : RunOf ty ops s) (i j : Nat) {a : Arch V}
    (ha : (s.reg i).archs.arches[j]? = some a) :
    (a.chunks.length - 1) * a.cap ≤ a.entries + ops.countP (SysOp.takesOut i) := by
  have h1 := a.slack_bound
  have h2 := h.slack i j ha
  exact Nat.le_trans h1 (by have : (ops.countP fun op => SysOp.takesOut i op) = ops.countP (SysOp.takesOut i) := rfl; omega)

/-- Run operations, the last one first. -/
def runOps (ty : Types) : List (SysOp V) → Option (Sys V)
  | [] => some Sys.init
  | op :: ops =>
    match runOps ty ops with
    | none => none
    | some s => (s.step ty op).map Prod.fst

theorem runOps_runOf {ty : Types} {ops : List (SysOp V)} {s : Sys V} (h : runOps ty ops = some s) : RunOf ty ops s := by
  induction ops generalizing s with
  | nil => cases h; exact .nil
  | cons op ops ih =>
    unfold runOps at h
    split at h
    · cases h
    · rename_i s1 h1
      rw [Option.map_eq_some_iff] at h
      obtain ⟨⟨s2, out⟩, h2, rfl⟩ := h
      exact .cons (ih h1) h2

/-- Five entities in three chunks of two entries, two of which are destroyed. -/
def fiveMinusTwo : List (SysOp Nat) :=
  [.on 0 (.destroy ⟨3, 0⟩), .on 0 (.destroy ⟨1, 0⟩), .on 0 (.create [(0, 4)]), .on 0 (.create [(0, 3)]), .on 0 (.create [(0, 2)]),
   .on 0 (.create [(0, 1)]), .on 0 (.create [(0, 0)])]

/-- The hypotheses of C77 are met by a run that wastes entries; the bound is 4 ≤ 3 + 2. -/
example : ∃ s a, RunOf bigTy fiveMinusTwo s ∧ (s.reg 0).archs.arches[0]? = some a ∧ a.chunks.length = 3 ∧ a.cap = 2 ∧ a.entries = 3 ∧
    fiveMinusTwo.countP (SysOp.takesOut 0) = 2 := by
  have h : (runOps bigTy fiveMinusTwo).map (fun s => (s.reg 0).archs.arches.map fun a => (a.chunks.length, a.cap, a.entries)) =
      some [(3, 2, 3)] := by decide +kernel
  rw [Option.map_eq_some_iff] at h
  obtain ⟨s, hs, h⟩ := h
  cases e : (s.reg 0).archs.arches with
  | nil => rw [e] at h; simp at h
  | cons a l =>
    rw [e] at h
    simp only [List.map_cons, List.cons.injEq, Prod.mk.injEq] at h
    exact ⟨s, a, runOps_runOf hs, by rw [e]; rfl, h.1.1, h.1.2.1, h.1.2.2, by decide⟩

/-- Reachable systems are the ends of runs. -/
theorem runOf_of_reach {ty : Types} {P : Sys V → SysOp V → Prop} {s : Sys V} {W : Spec.World V} (h : Reach ty P s W) :
    ∃ ops, RunOf ty ops s := by
  induction h with
  | init => exact ⟨[], .nil⟩
  | step _ _ _ hs ih =>
    obtain ⟨ops, ih⟩ := ih
    exact ⟨_ :: ops, .cons ih hs⟩

end CoEcs.Props
