import Verif.Model.StartUp
import Verif.Props.TypeIds
import Verif.Proofs.Archs

/-!
# Component ids while a program starts: proofs
-/

namespace CoEcs
open Spec HTable Props

variable {V N L : Type} [DecidableEq V] [DecidableEq N] [DecidableEq L]

/-- The variables whose initialisers ran. -/
def BootOp.inited : List (BootOp V L) → List V
  | [] => []
  | .init v _ :: os => v :: inited os
  | .read _ :: os => inited os
  | .make _ :: os => inited os
  | .ask _ _ :: os => inited os
  | .unload _ :: os => inited os

/-- How many lists were made. -/
def BootOp.makes : List (BootOp V L) → Nat
  | [] => 0
  | .make _ :: os => makes os + 1
  | .init _ _ :: os => makes os
  | .read _ :: os => makes os
  | .ask _ _ :: os => makes os
  | .unload _ :: os => makes os

open BootOp

omit [DecidableEq V] [DecidableEq L] in
theorem inited_append (a b : List (BootOp V L)) : inited (a ++ b) = inited a ++ inited b := by
  induction a with
  | nil => rfl
  | cons o a ih => cases o <;> simp [inited, ih]

omit [DecidableEq V] [DecidableEq L] in
theorem makes_append (a b : List (BootOp V L)) : makes (a ++ b) = makes a + makes b := by
  induction a with
  | nil => simp [makes]
  | cons o a ih => cases o <;> simp [makes, ih]; omega

omit [DecidableEq V] [DecidableEq L] in
theorem mem_inited {ops : List (BootOp V L)} {v : V} : v ∈ inited ops ↔ ∃ l, BootOp.init v l ∈ ops := by
  induction ops with
  | nil => simp [inited]
  | cons o a ih => cases o <;> simp [inited, ih, exists_or]

theorem seenNames_append (a b : List N) : ∀ s, seenNames s (a ++ b) = seenNames (seenNames s a) b := by
  induction a with
  | nil => intro s; rfl
  | cons n a ih => intro s; simp only [List.cons_append, seenNames]; exact ih _

/-- One look-up. -/
theorem regInv_id (h : N → Nat) (n : N) (r : TypeRegistry N) (seen : List N) (inv : RegInv h r seen)
    (hlen : (seenNames seen [n]).length ≤ IdMod) :
    ∃ r', Ev (fun f => r.id h f n) (r', (seenNames seen [n]).idxOf n) ∧ RegInv h r' (seenNames seen [n]) := by
  obtain ⟨m, hr, hm⟩ := inv.map
  obtain ⟨t', i, e, h1, r1, hi, he, hk, hv⟩ := hr.emplace false n r.next
  by_cases hn : n ∈ seen
  · simp only [seenNames, if_pos hn] at hlen ⊢
    have hg : m.get n = some (seen.idxOf n) := by rw [hm, if_pos hn]
    rw [hg] at h1 r1 hv
    simp only [Bool.false_eq_true, if_false, Option.some_or, Option.some.injEq] at hv
    simp only [Option.isNone_some, Bool.or_false, Bool.false_eq_true, if_false] at h1 r1
    exact ⟨⟨t', r.next⟩,
      h1.bind (Ev.of fun f => by simp only [r1.deref hi he, Run.bind, hv, Bool.false_eq_true, if_false]),
      inv.nodup, inv.next, m, r1, hm⟩
  · simp only [seenNames, if_neg hn] at hlen ⊢
    have hg : m.get n = none := by rw [hm, if_neg hn]
    rw [hg] at h1 r1 hv
    simp only [Bool.false_eq_true, if_false, Option.none_or, Option.some.injEq] at hv
    simp only [Option.isNone_none, Bool.or_true, if_true] at h1 r1
    have hlt : seen.length < IdMod := by simp at hlen; omega
    have hnd : (seen ++ [n]).Nodup := by
      rw [List.nodup_append]
      exact ⟨inv.nodup, by simp, fun a ha b hb => by simp at hb; subst hb; exact fun hc => hn (hc ▸ ha)⟩
    have hidx : (seen ++ [n]).idxOf n = seen.length := by
      rw [idxOf_append_notMem hn]; simp
    refine ⟨⟨t', (r.next + 1) % IdMod⟩, h1.bind (Ev.of fun f => ?_), hnd, by simp [inv.next], m.put n r.next, r1, ?_⟩
    · simp only [r1.deref hi he, Run.bind, hv, if_true]
      rw [inv.next, Nat.mod_eq_of_lt hlt, hidx]
    · intro n'
      simp only [KeyMap.put]
      by_cases hnn : n' = n
      · subst hnn
        rw [if_pos rfl, if_pos (by simp), hidx, inv.next, Nat.mod_eq_of_lt hlt]
      · rw [if_neg hnn, hm]
        by_cases hs : n' ∈ seen
        · rw [if_pos hs, if_pos (by simp [hs]), idxOf_append_mem hs]
        · rw [if_neg hs, if_neg (by simp [hs, hnn])]

/-- What a variable holds after the events `pre`, if `full` are all names in the order of their ids. -/
def bootNum (name : V → N) (full : List N) (pre : List (BootOp V L)) (v : V) : Nat :=
  if v ∈ inited pre then full.idxOf (name v) else 0

/-- The state after the events `pre`; `bad` are the libraries that are unloaded at some time. -/
structure BootInv (h : N → Nat) (name : V → N) (full : List N) (bad : List L) (pre : List (BootOp V L))
    (s : Boot V N L) : Prop where
  reg : RegInv h s.reg (seenNames [] ((inited pre).map name))
  vars : ∀ v, s.vars v = if v ∈ inited pre then some (full.idxOf (name v)) else none
  keys : ∀ n, (∃ l, (n, l) ∈ s.keys) ↔ n ∈ seenNames [] ((inited pre).map name)
  own : ∀ k ∈ s.keys, k.2 ∉ bad
  gone : ∀ l ∈ s.gone, l ∈ bad
  count : s.lists.length = makes pre
  lists : ∀ i vs, pre[i]? = some (.make vs) → ∃ c, s.lists[makes (pre.take i)]? = some c ∧
    ∀ a, c.contains a = true ↔ a ∈ vs.map (bootNum name full (pre.take i))

theorem BootInv.value {h : N → Nat} {name : V → N} {full : List N} {bad : List L} {pre : List (BootOp V L)}
    {s : Boot V N L} (inv : BootInv h name full bad pre s) (v : V) : s.value v = bootNum name full pre v := by
  unfold Boot.value bootNum
  rw [inv.vars]
  by_cases hv : v ∈ inited pre <;> simp [hv]

/-- What an event shows, from the events before it. -/
def bootTold (name : V → N) (full : List N) (pre : List (BootOp V L)) : BootOp V L → BootOut → Prop
  | .read v, o => o = .id (bootNum name full pre v)
  | .ask k v, o => ∀ i vs, pre[i]? = some (.make vs) → makes (pre.take i) = k →
      ∃ b, o = .yes b ∧ (b = true ↔ bootNum name full pre v ∈ vs.map (bootNum name full (pre.take i)))
  | _, o => o = .none

omit [DecidableEq L] in
theorem lists_later {name : V → N} {full : List N} {pre : List (BootOp V L)} {s : List MetaSet} (o : BootOp V L)
    (ho : ∀ vs, o ≠ .make vs)
    (hl : ∀ i vs, pre[i]? = some (.make vs) → ∃ c, s[makes (pre.take i)]? = some c ∧
      ∀ a, c.contains a = true ↔ a ∈ vs.map (bootNum name full (pre.take i))) :
    ∀ i vs, (pre ++ [o])[i]? = some (.make vs) → ∃ c, s[makes ((pre ++ [o]).take i)]? = some c ∧
      ∀ a, c.contains a = true ↔ a ∈ vs.map (bootNum name full ((pre ++ [o]).take i)) := by
  intro i vs hi
  rw [List.getElem?_append] at hi
  split at hi
  · rename_i hlt
    rw [List.take_append_of_le_length (by omega)]
    exact hl i vs hi
  · rename_i hge
    have : i - pre.length = 0 := by
      by_cases h0 : i - pre.length = 0
      · exact h0
      · rw [List.getElem?_eq_none (by simp; omega)] at hi; cases hi
    rw [this] at hi
    simp only [List.getElem?_cons_zero, Option.some.injEq] at hi
    exact absurd hi (ho vs)

theorem boot_step (h : N → Nat) (name : V → N) (info : V → CompMeta) (full : List N) (bad : List L)
    (pre : List (BootOp V L)) (o : BootOp V L) (s : Boot V N L) (inv : BootInv h name full bad pre s)
    (hfull : ∃ l, full = seenNames [] ((inited (pre ++ [o])).map name) ++ l) (hlen : full.length ≤ IdMod)
    (hbad : ∀ l, o = .unload l → l ∈ bad)
    (hhost : ∀ v l, o = .init v l → l ∈ bad → ∃ w, w ∈ inited pre ∧ name w = name v) :
    ∃ s' out, Ev (fun f => s.step h f name info o) (s', out) ∧ BootInv h name full bad (pre ++ [o]) s' ∧
      bootTold name full pre o out := by
  cases o with
  | init v l =>
    have hpre : inited (pre ++ [BootOp.init v l]) = inited pre ++ [v] := by rw [inited_append]; rfl
    have hmk : makes (pre ++ [BootOp.init v l]) = makes pre := by rw [makes_append]; rfl
    rw [hpre, List.map_append, seenNames_append] at hfull
    by_cases hv : v ∈ inited pre
    · have hvv := inv.vars v
      rw [if_pos hv] at hvv
      have hseen : name v ∈ seenNames [] ((inited pre).map name) :=
        (seenNames_mem _ _ _).2 (.inr (List.mem_map_of_mem hv))
      refine ⟨s, .none, Ev.of fun f => ?_, ⟨?_, ?_, ?_, inv.own, inv.gone, by rw [hmk]; exact inv.count,
        lists_later _ (by simp) inv.lists⟩, rfl⟩
      · simp [Boot.step, Boot.init, hvv, Run.bind]
      · rw [hpre, List.map_append, seenNames_append]
        simp only [List.map_cons, List.map_nil, seenNames, if_pos hseen]
        exact inv.reg
      · intro w
        rw [inv.vars, hpre]
        by_cases hw : w = v
        · subst hw; simp [hv]
        · simp [hw]
      · intro n
        rw [hpre, List.map_append, seenNames_append]
        simp only [List.map_cons, List.map_nil, seenNames, if_pos hseen]
        exact inv.keys n
    · have hvv := inv.vars v
      rw [if_neg hv] at hvv
      obtain ⟨rest, hrest⟩ := hfull
      obtain ⟨r', hev, hinv'⟩ := regInv_id h (name v) s.reg _ inv.reg (by
        rw [hrest, List.length_append] at hlen; simp only [List.map_cons, List.map_nil] at hlen; omega)
      have hnd : (s.keys.any fun k => s.gone.contains k.2) = false := by
        rw [List.any_eq_false]
        intro k hk hc
        exact inv.own k hk (inv.gone _ (by simpa using hc))
      have hin : name v ∈ seenNames (seenNames [] ((inited pre).map name)) [name v] :=
        (seenNames_mem _ _ _).2 (.inr (by simp))
      have hidx : (seenNames (seenNames [] ((inited pre).map name)) [name v]).idxOf (name v) = full.idxOf (name v) := by
        rw [hrest]; simp only [List.map_cons, List.map_nil]; rw [idxOf_append_mem hin]
      rw [hidx] at hev
      refine ⟨{ s with
          reg := r'
          vars := fun w => if w = v then some (full.idxOf (name v)) else s.vars w
          keys := if s.keys.any fun k => k.1 = name v then s.keys else s.keys ++ [(name v, l)] }, .none, ?_,
        ⟨?_, ?_, ?_, ?_, inv.gone, by rw [hmk]; exact inv.count, lists_later _ (by simp) inv.lists⟩, rfl⟩
      · obtain ⟨F, hF⟩ := hev
        refine ⟨F, fun f hf => ?_⟩
        have hF' := hF f hf
        simp only at hF'
        simp only [Boot.step, Boot.init, hvv, hnd, Bool.false_eq_true, if_false, hF', Run.bind]
      · rw [hpre, List.map_append, seenNames_append]; exact hinv'
      · intro w
        simp only [hpre]
        by_cases hw : w = v
        · subst hw; simp
        · simp only [hw, if_false, inv.vars, List.mem_append, List.mem_singleton, or_false]
      · intro n
        simp only [hpre, List.map_append]
        rw [seenNames_append, seenNames_mem]
        have hk : (s.keys.any fun k => decide (k.1 = name v)) = true ↔
            name v ∈ seenNames [] ((inited pre).map name) := by
          rw [← inv.keys]
          simp only [List.any_eq_true, decide_eq_true_eq]
          constructor
          · rintro ⟨⟨n, l⟩, hk, rfl⟩; exact ⟨l, hk⟩
          · rintro ⟨l, hk⟩; exact ⟨_, hk, rfl⟩
        split
        · rename_i hc
          rw [inv.keys]
          have := hk.1 hc
          simp only [List.map_cons, List.map_nil, List.mem_singleton]
          constructor
          · exact .inl
          · rintro (h1 | rfl)
            · exact h1
            · exact this
        · simp only [List.mem_append, List.mem_singleton, Prod.mk.injEq, exists_or, inv.keys, List.map_cons,
            List.map_nil]
          grind
      · intro k hk
        simp only at hk
        split at hk
        · exact inv.own k hk
        · rename_i hc
          rcases List.mem_append.1 hk with hk | hk
          · exact inv.own k hk
          · simp only [List.mem_singleton] at hk
            subst hk
            intro hb
            obtain ⟨w, hw, hwn⟩ := hhost v l rfl hb
            apply hc
            obtain ⟨l', hl'⟩ := (inv.keys (name v)).2 ((seenNames_mem _ _ _).2
              (.inr (hwn ▸ List.mem_map_of_mem hw)))
            simp only [List.any_eq_true, decide_eq_true_eq]
            exact ⟨_, hl', rfl⟩
  | read v =>
    have hpre : inited (pre ++ [BootOp.read (L := L) v]) = inited pre := by rw [inited_append]; simp [inited]
    refine ⟨s, .id (s.value v), Ev.of fun f => rfl, ⟨by rw [hpre]; exact inv.reg, by rw [hpre]; exact inv.vars,
      by rw [hpre]; exact inv.keys, inv.own, inv.gone, by rw [makes_append]; exact inv.count,
      lists_later _ (by simp) inv.lists⟩, ?_⟩
    simp only [bootTold, inv.value]
  | make vs =>
    have hpre : inited (pre ++ [BootOp.make (L := L) vs]) = inited pre := by rw [inited_append]; simp [inited]
    refine ⟨_, .none, Ev.of fun f => rfl, ⟨by rw [hpre]; exact inv.reg, by rw [hpre]; exact inv.vars,
      by rw [hpre]; exact inv.keys, inv.own, inv.gone, by rw [makes_append]; simp [inv.count, makes], ?_⟩, rfl⟩
    intro i ws hi
    rw [List.getElem?_append] at hi
    split at hi
    · rename_i hlt
      rw [List.take_append_of_le_length (by omega)]
      obtain ⟨c, hc, hcc⟩ := inv.lists i ws hi
      exact ⟨c, List.getElem?_append_left (List.getElem?_eq_some_iff.1 hc).1 ▸ hc, hcc⟩
    · rename_i hge
      have h0 : i = pre.length := by
        by_cases h0 : i - pre.length = 0
        · omega
        · rw [List.getElem?_eq_none (by simp; omega)] at hi; cases hi
      subst h0
      simp only [Nat.sub_self, List.getElem?_cons_zero, Option.some.injEq, BootOp.make.injEq] at hi
      subst hi
      rw [List.take_left, ← inv.count]
      refine ⟨_, List.getElem?_concat_length, fun a => ?_⟩
      rw [(MetaSet.inv_create _).contains, create_ids]
      have : (vs.map (s.metaOf info)).map CompMeta.id = vs.map (bootNum name full pre) := by
        rw [List.map_map]
        exact List.map_congr_left fun v _ => inv.value v
      rw [this]
  | ask k v =>
    have hpre : inited (pre ++ [BootOp.ask (L := L) k v]) = inited pre := by rw [inited_append]; simp [inited]
    refine ⟨s, (match s.lists[k]? with | some c => .yes (c.contains (s.value v)) | none => .none), Ev.of fun f => ?_,
      ⟨by rw [hpre]; exact inv.reg, by rw [hpre]; exact inv.vars,
      by rw [hpre]; exact inv.keys, inv.own, inv.gone, by rw [makes_append]; exact inv.count,
      lists_later _ (by simp) inv.lists⟩, ?_⟩
    · simp only [Boot.step]; split <;> simp_all
    · intro i vs hi hk
      obtain ⟨c, hc, hcc⟩ := inv.lists i vs hi
      rw [hk] at hc
      rw [hc]
      exact ⟨_, rfl, by rw [hcc, inv.value]⟩
  | unload l =>
    have hpre : inited (pre ++ [BootOp.unload (V := V) l]) = inited pre := by rw [inited_append]; simp [inited]
    refine ⟨_, .none, Ev.of fun f => rfl, ⟨by rw [hpre]; exact inv.reg, by rw [hpre]; exact inv.vars,
      by rw [hpre]; exact inv.keys, inv.own, ?_, by rw [makes_append]; exact inv.count,
      lists_later _ (by simp) inv.lists⟩, rfl⟩
    intro l' hl'
    rcases List.mem_append.1 hl' with h1 | h1
    · exact inv.gone _ h1
    · simp only [List.mem_singleton] at h1
      exact h1 ▸ hbad l rfl

theorem seenNames_full (name : V → N) (a b : List (BootOp V L)) :
    ∃ l, seenNames [] ((inited (a ++ b)).map name) = seenNames [] ((inited a).map name) ++ l := by
  rw [inited_append, List.map_append, seenNames_append]
  exact seenNames_prefix _ _

theorem boot_run (h : N → Nat) (name : V → N) (info : V → CompMeta) (full : List N) (bad : List L)
    (hlen : full.length ≤ IdMod) (ops : List (BootOp V L)) : ∀ (pre : List (BootOp V L)) (s : Boot V N L),
    BootInv h name full bad pre s → full = seenNames [] ((inited (pre ++ ops)).map name) →
    (∀ l, BootOp.unload l ∈ ops → l ∈ bad) →
    (∀ i v l, ops[i]? = some (.init v l) → l ∈ bad → ∃ w, w ∈ inited (pre ++ ops.take i) ∧ name w = name v) →
    ∃ s' outs, Ev (fun f => s.run h f name info ops) (s', outs) ∧ BootInv h name full bad (pre ++ ops) s' ∧
      outs.length = ops.length ∧
      ∀ i o, ops[i]? = some o → ∃ out, outs[i]? = some out ∧ bootTold name full (pre ++ ops.take i) o out := by
  induction ops with
  | nil => intro pre s inv _ _ _; exact ⟨s, [], Ev.const _, by simpa using inv, rfl, by simp⟩
  | cons o ops ih =>
    intro pre s inv hfull hbad hhost
    have hsplit : pre ++ o :: ops = pre ++ [o] ++ ops := by simp
    obtain ⟨s1, out, hev, inv1, ht⟩ := boot_step h name info full bad pre o s inv
      (by rw [hfull, hsplit]; exact seenNames_full name _ _) hlen
      (fun l hl => hbad l (by simp [hl])) (fun v l hl hb => by
        have := hhost 0 v l (by simp [hl]) hb
        simpa using this)
    obtain ⟨s2, outs, hev2, inv2, hlen2, hrest⟩ := ih (pre ++ [o]) s1 inv1 (by rw [hfull, hsplit])
      (fun l hl => hbad l (by simp [hl])) (fun i v l hi hb => by
        have := hhost (i + 1) v l (by simpa using hi) hb
        simpa using this)
    refine ⟨s2, out :: outs, hev.bind (hev2.bind (Ev.const _)), by rw [hsplit]; exact inv2, by simp [hlen2], ?_⟩
    intro i o' hi
    cases i with
    | zero =>
      simp only [List.getElem?_cons_zero, Option.some.injEq] at hi
      subst hi
      exact ⟨out, rfl, by simpa using ht⟩
    | succ i =>
      obtain ⟨out', h1, h2⟩ := hrest i o' (by simpa using hi)
      exact ⟨out', by simpa using h1, by simpa using h2⟩

theorem boot_start (h : N → Nat) (name : V → N) (full : List N) (bad : List L) :
    BootInv h name full bad [] (Boot.start : Boot V N L) :=
  ⟨⟨List.nodup_nil, rfl, KeyMap.empty, HRel.empty h, fun n => by simp [KeyMap.empty, inited, seenNames]⟩,
    fun v => by simp [Boot.start, inited], fun n => by simp [Boot.start, inited, seenNames],
    by simp [Boot.start], by simp [Boot.start], rfl, by simp⟩

end CoEcs
