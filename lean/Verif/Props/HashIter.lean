import Verif.Model.HashIter
import Verif.Props.HashMap

/-!
# C117: writing through iterators of hash maps
-/

namespace CoEcs.Props
open CoEcs Spec HTable

variable {K V : Type} [DecidableEq K]

/-- The table is what the calls `ops` make of an empty one with `n` buckets. -/
def Made (h : K → Nat) (n : Nat) (ops : List (HashOp K V)) (t : HTable K V) : Prop :=
  ∃ t0 F, HTable.mk' n = .ok t0 ∧ ∀ fuel, F ≤ fuel → ∃ as, t0.run h fuel ops = .ok (t, as)

/-- What a map should hold after the calls. -/
def contents (ops : List (HashOp K V)) : KeyMap K V := ((KeyMap.empty : KeyMap K V).run ops).1

theorem made_rel {h : K → Nat} {n : Nat} (hn : PowTwo n) {ops : List (HashOp K V)} (ok : HashOps.Ok ops) {t : HTable K V}
    (hm : Made h n ops t) : HRel h t (contents ops) := by
  obtain ⟨t0, F, h0, hF⟩ := hm
  obtain ⟨t1, ⟨G, hG⟩, r⟩ := HTable.HRel.run ops (HTable.HRel.fresh h hn) ok
  have e0 : t0 = ⟨n, List.replicate n none, 0⟩ := by
    simp only [HTable.mk', hn.even, if_true, Run.ok.injEq] at h0
    exact h0.symm
  subst e0
  obtain ⟨as, h1⟩ := hF (max F G) (Nat.le_max_left ..)
  have h2 : HTable.run h (max F G) _ ops = _ := hG (max F G) (Nat.le_max_right ..)
  rw [h1] at h2
  cases h2
  exact r

/-- The hash function that `k` has the hash `x`. -/
def rehash (h : K → Nat) (k : K) (x : Nat) : K → Nat := fun q => if q = k then x else h q

theorem slot_at {h : K → Nat} {t : HTable K V} {m : KeyMap K V} (r : HRel h t m) {p : Nat} {e : HEntry K V}
    (hp : t.slot? p = some (some e)) : p < t.n ∧ at' t.slots p = some e := by
  unfold slot? at hp
  split at hp
  · rename_i h'
    refine ⟨h', ?_⟩
    simp [at', hp]
  · cases hp

theorem slot_deref {t : HTable K V} {p : Nat} {e : HEntry K V} (hp : t.deref p = .ok e) : t.slot? p = some (some e) := by
  unfold HTable.deref at hp
  split at hp
  · rename_i e' h'; cases hp; exact h'
  · cases hp

theorem write_eq {t : HTable K V} {p : Nat} {e : HEntry K V} (hp : t.slot? p = some (some e)) (k : K) (v : V) :
    t.write p k v = .ok { t with slots := t.slots.set p (some { e with key := k, val := v }) } := by
  unfold write
  rw [hp]

/-- After the key was overwritten by a new one, the table is right for the hash function that gives the new key the hash of the old one. -/
theorem write_rel {h : K → Nat} {t : HTable K V} {m : KeyMap K V} (r : HRel h t m) {p : Nat} {e : HEntry K V}
    (hp : t.slot? p = some (some e)) {k : K} (v : V) (hk : m.get k = none) :
    HRel (rehash h k (h e.key)) { t with slots := t.slots.set p (some { e with key := k, val := v }) } ((m.del e.key).put k v) := by
  obtain ⟨hi, he⟩ := slot_at r hp
  have hil : p < t.slots.length := Nat.lt_of_lt_of_eq hi r.len.symm
  have hset := at'_set hil (some { e with key := k, val := v })
  have hno := r.absent hk
  have hgi : t.slots[p] = some e := by
    have := getElem?_at' hil
    rw [he, List.getElem?_eq_getElem hil] at this
    simpa using this
  have hme : m.get e.key = some e.val := (r.mem _ _).2 ⟨p, e, hi, he, rfl, rfl⟩
  have hek : e.key ≠ k := hno p hi e he
  refine ⟨r.pow, by simp [r.len], ⟨?_, ?_, ?_⟩, ?_, ?_, ?_⟩
  · intro i hi' e' he'
    simp only at hi' he'
    rw [hset] at he'
    split at he'
    · cases he'
      rename_i hip
      subst hip
      obtain ⟨h1, h2⟩ := r.good.pos _ hi e he
      refine ⟨?_, h2⟩
      simp only [rehash, if_true]
      exact h1
    · obtain ⟨h1, h2⟩ := r.good.pos _ hi' e' he'
      refine ⟨?_, h2⟩
      simp only [rehash, if_neg (hno _ hi' e' he')]
      exact h1
  · have : psls (at' (t.slots.set p (some { e with key := k, val := v }))) = psls (at' t.slots) := by
      funext j
      unfold psls
      rw [hset]
      split
      · rename_i hj; subst hj; rw [he]; rfl
      · rfl
    simp only
    rw [this]
    exact r.good.rh
  · intro i j hi' hj' e1 e2 h1 h2 hkk
    simp only at hi' hj' h1 h2
    rw [hset] at h1 h2
    split at h1
    · cases h1
      split at h2
      · rename_i a b; rw [a, b]
      · exact absurd hkk.symm (hno _ hj' e2 h2)
    · split at h2
      · cases h2
        exact absurd hkk (hno _ hi' e1 h1)
      · exact r.good.uniq i j hi' hj' e1 e2 h1 h2 hkk
  · intro q w
    constructor
    · intro hq
      simp only [KeyMap.put, KeyMap.del] at hq
      split at hq
      · rename_i hqk
        cases hq
        exact ⟨p, { e with key := k, val := v }, hi, by simp only; rw [hset, if_pos rfl], hqk.symm, rfl⟩
      · split at hq
        · cases hq
        · rename_i hqe
          obtain ⟨i, e', hi', he', h1, h2⟩ := (r.mem q w).1 hq
          refine ⟨i, e', hi', ?_, h1, h2⟩
          simp only
          rw [hset, if_neg]
          · exact he'
          · rintro rfl
            rw [he] at he'
            cases he'
            exact hqe h1.symm
    · rintro ⟨i, e', hi', he', h1, h2⟩
      simp only at hi' he'
      rw [hset] at he'
      simp only [KeyMap.put, KeyMap.del]
      split at he'
      · cases he'
        simp only at h1 h2
        rw [if_pos h1.symm, h2]
      · rename_i hip
        rw [if_neg (fun hq => hno _ hi' e' he' (h1.trans hq)), if_neg]
        · exact (r.mem q w).2 ⟨i, e', hi', he', h1, h2⟩
        · intro hq
          exact hip (r.good.uniq i p hi' hi e' e he' he (h1.trans hq))
  · simp only
    rw [List.countP_set hil, r.size, hgi]
    simp
    have : 0 < t.slots.countP Option.isSome := by
      rw [List.countP_pos_iff]
      exact ⟨some e, hgi ▸ List.getElem_mem hil, rfl⟩
    omega
  · have hpos : 0 < t.size := by
      rw [r.size, List.countP_pos_iff]
      exact ⟨some e, hgi ▸ List.getElem_mem hil, rfl⟩
    simp only [KeyMap.put, KeyMap.del, hme, if_neg (Ne.symm hek), hk, Option.isSome_some, if_true, Option.isSome_none]
    rw [r.cnt]
    simp
    omega

theorem find_same {h h' : K → Nat} {t : HTable K V} {q : K} (hq : h' q = h q) (f : Nat) : t.find h' f q = t.find h f q := by
  unfold find
  rw [hq]

/-- The search for another hash than the one stored does not see what was written. -/
theorem findLoop_write {t : HTable K V} {p : Nat} {e e' : HEntry K V} (hp : t.slot? p = some (some e)) {x : Nat} (q : K)
    (hx : e.hash ≠ x) (h1 : e'.hash = e.hash) (h2 : e'.psl = e.psl) :
    ∀ f i j, findLoop { t with slots := t.slots.set p (some e') } x q f i j = findLoop t x q f i j := by
  intro f
  induction f with
  | zero => intro i j; rfl
  | succ f ih =>
    intro i j
    unfold findLoop
    by_cases hip : i = p
    · subst hip
      have : ({ t with slots := t.slots.set i (some e') } : HTable K V).slot? i = some (some e') := by
        unfold slot? at hp ⊢
        split at hp
        · rename_i hlt
          simp only [if_pos hlt]
          have : i < t.slots.length := by
            rcases Nat.lt_or_ge i t.slots.length with h | h
            · exact h
            · rw [List.getElem?_eq_none h] at hp; cases hp
          rw [List.getElem?_set_self this]
        · cases hp
      rw [this, hp]
      simp only [h1, h2, hx, false_and, if_false, ih]
    · have : ({ t with slots := t.slots.set p (some e') } : HTable K V).slot? i = t.slot? i := by
        unfold slot?
        simp only
        rw [List.getElem?_set_ne (Ne.symm hip)]
      rw [this]
      simp only [ih]

theorem eraseSearch_write {t : HTable K V} {p : Nat} {e e' : HEntry K V} (hp : t.slot? p = some (some e)) {x : Nat} (q : K)
    (hx : e.hash ≠ x) (h1 : e'.hash = e.hash) (h2 : e'.psl = e.psl) :
    ∀ f i j, eraseSearch { t with slots := t.slots.set p (some e') } x q f i j = eraseSearch t x q f i j := by
  intro f
  induction f with
  | zero => intro i j; rfl
  | succ f ih =>
    intro i j
    unfold eraseSearch
    by_cases hip : i = p
    · subst hip
      have : ({ t with slots := t.slots.set i (some e') } : HTable K V).slot? i = some (some e') := by
        unfold slot? at hp ⊢
        split at hp
        · rename_i hlt
          simp only [if_pos hlt]
          have : i < t.slots.length := by
            rcases Nat.lt_or_ge i t.slots.length with h | h
            · exact h
            · rw [List.getElem?_eq_none h] at hp; cases hp
          rw [List.getElem?_set_self this]
        · cases hp
      rw [this, hp]
      simp only [h1, h2, hx, ne_eq, not_false_eq_true, true_or, if_true, ih]
    · have : ({ t with slots := t.slots.set p (some e') } : HTable K V).slot? i = t.slot? i := by
        unfold slot?
        simp only
        rw [List.getElem?_set_ne (Ne.symm hip)]
      rw [this]
      simp only [ih]

/-- Lookups in a table give what the map holds. -/
theorem rel_at {h : K → Nat} {t : HTable K V} {m : KeyMap K V} (r : HRel h t m) (q : K) :
    ∃ F, ∀ f, F ≤ f → t.at_ h f q = .ok (m.get q) := by
  cases hg : m.get q with
  | none => exact (r.find_none hg).ev.bind (Ev.const none)
  | some v =>
    obtain ⟨i, e, hi, he, hk, hv⟩ := r.present hg
    exact (r.find_some hi he hk).ev.bind (Ev.of fun f => by simp [r.deref hi he, Run.bind, hv])

/-- `reserve` does not look at the stored hashes. -/
theorem reserve_any {h h' : K → Nat} {t : HTable K V} {m : KeyMap K V} (r : HRel h' t m) {n : Nat} (hn : PowTwo n) (hs : t.size ≤ n) :
    ∃ t', (∃ F, ∀ f, F ≤ f → t.reserve h f n = .ok t') ∧ HRel h t' m := by
  have hlt : ¬ n < t.size := by omega
  obtain ⟨es, he1, he2, he3, he4⟩ := r.entries
  obtain ⟨t', h1, h2, h3⟩ := HRel.reinsert es (HRel.fresh (V := V) h hn) he2 (fun e _ => rfl) (by simp only; omega)
  obtain ⟨h4, h5⟩ := putAll_spec es KeyMap.empty he2 (fun e _ => rfl)
  refine ⟨t', (EvFrom.congr h1 (fun f => ?_)).ev, h2.congr ?_ ?_⟩
  · simp [HTable.reserve, hlt, mk', hn.even, Run.bind, he1]
  · intro k
    apply Option.ext
    intro v
    rw [h5, he4]
    simp [KeyMap.empty]
  · rw [h4, he3, ← r.cnt]; simp [KeyMap.empty]

/-- **C117** for values: after writing only the value through an iterator, all further calls are answered as by the map with that value. -/
theorem C117_value_partial (h : K → Nat) (n : Nat) (hn : PowTwo n) (ops : List (HashOp K V)) (ok : HashOps.Ok ops) (t : HTable K V)
    (hm : Made h n ops t) (p : Nat) (e : HEntry K V) (hp : t.deref p = .ok e) (v : V) (more : List (HashOp K V)) (ok' : HashOps.Ok more) :
    ∃ t' t'', t.write p e.key v = .ok t' ∧ ∃ F, ∀ fuel, F ≤ fuel →
      t'.run h fuel more = .ok (t'', (((contents ops).put e.key v).run more).2) := by
  have r := made_rel hn ok hm
  have hs := slot_deref hp
  obtain ⟨hi, he⟩ := slot_at r hs
  obtain ⟨t'', hF, _⟩ := HRel.run more (r.setVal hi he v) ok'
  exact ⟨_, t'', write_eq hs _ v, hF⟩

/-- **C117** for a new key: an iteration shows every other entry and the new one, once, and every other key is found with its value.  Whether the
new key itself is found is not said here. -/
theorem C117_others_partial (h : K → Nat) (n : Nat) (hn : PowTwo n) (ops : List (HashOp K V)) (ok : HashOps.Ok ops) (t : HTable K V)
    (hm : Made h n ops t) (p : Nat) (e : HEntry K V) (hp : t.deref p = .ok e) (k : K) (v : V) (hk : (contents ops).get k = none) :
    ∃ t' es, t.write p k v = .ok t' ∧ t'.entries = .ok es ∧ (es.map HEntry.key).Nodup ∧ es.length = t'.size ∧
      (∀ q w, (∃ e ∈ es, e.key = q ∧ e.val = w) ↔ (((contents ops).del e.key).put k v).get q = some w) ∧
      ∀ q, q ≠ k → ∃ F, ∀ fuel, F ≤ fuel → t'.at_ h fuel q = .ok (((contents ops).del e.key).get q) := by
  have r := made_rel hn ok hm
  have hs := slot_deref hp
  have r' := write_rel r hs v hk
  obtain ⟨es, h1, h2, h3, h4⟩ := r'.entries
  refine ⟨_, es, write_eq hs k v, h1, h2, h3, fun q w => (h4 q w).symm, fun q hq => ?_⟩
  obtain ⟨F, hF⟩ := rel_at r' q
  refine ⟨F, fun f hf => ?_⟩
  have h5 := hF f hf
  unfold at_ at h5 ⊢
  rw [find_same (h' := rehash h k (h e.key)) (h := h) (by simp [rehash, hq])] at h5
  rw [h5]
  simp [KeyMap.put, hq]

/-- **C117** for a new key with the hash of the old one: all further calls are answered as by the map in which the key was replaced. -/
theorem C117_key_partial (h : K → Nat) (n : Nat) (hn : PowTwo n) (ops : List (HashOp K V)) (ok : HashOps.Ok ops) (t : HTable K V)
    (hm : Made h n ops t) (p : Nat) (e : HEntry K V) (hp : t.deref p = .ok e) (k : K) (v : V) (hk : (contents ops).get k = none)
    (hh : h k = h e.key) (more : List (HashOp K V)) (ok' : HashOps.Ok more) :
    ∃ t' t'', t.write p k v = .ok t' ∧ ∃ F, ∀ fuel, F ≤ fuel →
      t'.run h fuel more = .ok (t'', ((((contents ops).del e.key).put k v).run more).2) := by
  have r' := write_rel (made_rel hn ok hm) (slot_deref hp) v hk
  have : rehash h k (h e.key) = h := by
    funext q
    unfold rehash
    split
    · rename_i hq; rw [hq, hh]
    · rfl
  rw [this] at r'
  obtain ⟨t'', hF, _⟩ := HRel.run more r' ok'
  exact ⟨_, t'', write_eq (slot_deref hp) k v, hF⟩

/-- **C117 is violated** for every map, every iterator and every new key with another hash: the key is not found and not erased,
although an iteration shows it (`C117_others_partial`). -/
theorem C117_key_violated (h : K → Nat) (n : Nat) (hn : PowTwo n) (ops : List (HashOp K V)) (ok : HashOps.Ok ops) (t : HTable K V)
    (hm : Made h n ops t) (p : Nat) (e : HEntry K V) (hp : t.deref p = .ok e) (k : K) (v : V) (hk : (contents ops).get k = none)
    (hh : h k ≠ h e.key) :
    ∃ t' es, t.write p k v = .ok t' ∧ t'.entries = .ok es ∧ (∃ e' ∈ es, e'.key = k ∧ e'.val = v) ∧
      ∃ F, ∀ fuel, F ≤ fuel → t'.at_ h fuel k = .ok none ∧ t'.contains h fuel k = .ok false ∧ t'.erase h fuel k = .ok t' := by
  have r := made_rel hn ok hm
  have hs := slot_deref hp
  obtain ⟨hi, he⟩ := slot_at r hs
  have hne : e.hash ≠ h k := by
    rw [(r.good.pos p hi e he).1]
    exact Ne.symm hh
  have r' := write_rel r hs v hk
  obtain ⟨es, h1, _, _, h4⟩ := r'.entries
  refine ⟨_, es, write_eq hs k v, h1, (h4 k v).1 (by simp [KeyMap.put]), pslSum t.slots + 2, fun f hf => ?_⟩
  have hf1 : t.find h f k = .ok none := r.find_none hk f hf
  have hf2 : ({ t with slots := t.slots.set p (some { e with key := k, val := v }) } : HTable K V).find h f k = .ok none := by
    unfold find at hf1 ⊢
    rw [findLoop_write (e' := { e with key := k, val := v }) hs k hne rfl rfl]
    exact hf1
  refine ⟨?_, ?_, ?_⟩
  · unfold at_
    rw [hf2]
    rfl
  · unfold contains
    rw [hf2]
    rfl
  · unfold erase
    have : eraseSearch t (h k) k f (mod2n (h k) t.n) 0 = .ok none := by
      rw [mod2n_eq r.pow]
      exact eraseSearch_absent r.pow r.len k (pslSum t.slots) (fun i _ e he => psl_le_pslSum he) (r.absent hk)
        (pslSum t.slots + 1) f 0 (by omega) (by omega)
    rw [eraseSearch_write (e' := { e with key := k, val := v }) hs k hne rfl rfl, this]
    rfl

/-- **C117** once the table was rebuilt: after `reserve` (which insertions call, too) with room for the entries, all calls are answered
as by the map in which the key was replaced. -/
theorem C117_reserve_partial (h : K → Nat) (n : Nat) (hn : PowTwo n) (ops : List (HashOp K V)) (ok : HashOps.Ok ops) (t : HTable K V)
    (hm : Made h n ops t) (p : Nat) (e : HEntry K V) (hp : t.deref p = .ok e) (k : K) (v : V) (hk : (contents ops).get k = none)
    (n' : Nat) (hn' : PowTwo n') (hs' : t.size ≤ n') (more : List (HashOp K V)) (ok' : HashOps.Ok more) :
    ∃ t' t'', t.write p k v = .ok t' ∧ ∃ F, ∀ fuel, F ≤ fuel →
      t'.run h fuel (.reserve n' :: more) = .ok (t'', .unit :: ((((contents ops).del e.key).put k v).run more).2) := by
  have r' := write_rel (made_rel hn ok hm) (slot_deref hp) v hk
  obtain ⟨t1, ⟨F, hF⟩, r1⟩ := reserve_any (h := h) r' hn' hs'
  obtain ⟨t'', ⟨G, hG⟩, _⟩ := HRel.run more r1 ok'
  refine ⟨_, t'', write_eq (slot_deref hp) k v, max F G, fun f hf => ?_⟩
  have h1 := hF f (by omega)
  have h2 : HTable.run h f t1 more = _ := hG f (by omega)
  simp only [HTable.run, HTable.step, h1, Run.bind, h2]

/-- The position in the sequence in which a lookup with hash `x` visits the `n` buckets. -/
def probe (n x i : Nat) : Nat := (i + n - x % n) % n

theorem probe_lt {n x i : Nat} (hi : i < n) : probe n x i < n := Nat.mod_lt _ (by omega)

theorem probe_at {n x i : Nat} (hi : i < n) : (x + probe n x i) % n = i := by
  have hx : x % n < n := Nat.mod_lt _ (by omega)
  unfold probe
  rw [Nat.add_mod_mod, ← Nat.mod_add_mod, show x % n + (i + n - x % n) = i + n by omega, Nat.add_mod_right, Nat.mod_eq_of_lt hi]

theorem probe_inj {n x j j' : Nat} (hj : j < n) (hj' : j' < n) (h : (x + j) % n = (x + j') % n) : j = j' := by
  have key : ∀ {a b : Nat}, a < b → b < n → (x + a) % n ≠ (x + b) % n := by
    intro a b hab hb he
    apply add_mod_ne (n := n) (r := (x + a) % n) (s := b - a) (Nat.mod_lt _ (by omega)) (by omega) (by omega)
    rw [Nat.mod_add_mod, show x + a + (b - a) = x + b by omega, he]
  rcases Nat.lt_trichotomy j j' with h1 | h1 | h1
  · exact absurd h (key h1 hj')
  · exact h1
  · exact absurd h.symm (key h1 hj)

theorem probe_le {n x i q : Nat} (hi : i < n) (hq : i = (x + q) % n) : probe n x i ≤ q := by
  rcases Nat.lt_or_ge q (probe n x i) with h | h
  · have := probe_lt (x := x) hi
    have := probe_inj (x := x) (Nat.lt_trans h this) this (by rw [probe_at hi, ← hq])
    omega
  · exact h

theorem findLoop_first {u : HTable K V} (hn : PowTwo u.n) (hl : u.slots.length = u.n) {x : Nat} {k : K} {q : Nat} {e : HEntry K V}
    (hq : ∀ j, j < q → ∃ e', at' u.slots ((x + j) % u.n) = some e' ∧ j ≤ e'.psl ∧ ¬ (e'.hash = x ∧ e'.key = k))
    (he : at' u.slots ((x + q) % u.n) = some e) (h1 : e.hash = x) (h2 : e.key = k) :
    ∀ d fuel j, q = j + d → d < fuel → findLoop u x k fuel ((x + j) % u.n) j = .ok (some ((x + q) % u.n)) := by
  have hn2 := hn.ge
  intro d
  induction d with
  | zero =>
    intro fuel j hj hf
    obtain ⟨fuel, rfl⟩ : ∃ f, fuel = f + 1 := ⟨fuel - 1, by omega⟩
    have hlt : (x + q) % u.n < u.n := Nat.mod_lt _ (by omega)
    have : j = q := by omega
    subst this
    simp only [findLoop, slot?, hlt, if_true, getElem?_at' (Nat.lt_of_lt_of_eq hlt hl.symm), he]
    rw [if_pos ⟨h1, h2⟩]
  | succ d ih =>
    intro fuel j hj hf
    obtain ⟨fuel, rfl⟩ : ∃ f, fuel = f + 1 := ⟨fuel - 1, by omega⟩
    have hlt : (x + j) % u.n < u.n := Nat.mod_lt _ (by omega)
    obtain ⟨e', h3, h4, h5⟩ := hq j (by omega)
    simp only [findLoop, slot?, hlt, if_true, getElem?_at' (Nat.lt_of_lt_of_eq hlt hl.symm), h3]
    rw [if_neg h5, if_neg (by omega), mod2n_eq hn, Nat.mod_add_mod]
    exact ih fuel (j + 1) (by omega) (by omega)

/-- **C117** for a key `k` that another entry has: lookups of `k` give the new value if both keys have the same hash and the overwritten entry
comes before the other one in the probe sequence, and the old value of `k` otherwise. -/
theorem C117_present_partial (h : K → Nat) (n : Nat) (hn : PowTwo n) (ops : List (HashOp K V)) (ok : HashOps.Ok ops) (t : HTable K V)
    (hm : Made h n ops t) (p i : Nat) (e e0 : HEntry K V) (hp : t.deref p = .ok e) (hi : t.deref i = .ok e0) (hpi : p ≠ i) (v : V) :
    ∃ t', t.write p e0.key v = .ok t' ∧ ∃ F, ∀ fuel, F ≤ fuel → t'.at_ h fuel e0.key =
      .ok (some (if h e0.key = h e.key ∧ probe t.n (h e.key) p < probe t.n (h e.key) i then v else e0.val)) := by
  have r := made_rel hn ok hm
  have hs := slot_deref hp
  obtain ⟨hp1, hp2⟩ := slot_at r hs
  obtain ⟨hi1, hi2⟩ := slot_at r (slot_deref hi)
  have hpl : p < t.slots.length := Nat.lt_of_lt_of_eq hp1 r.len.symm
  refine ⟨_, write_eq hs e0.key v, ?_⟩
  let e1 : HEntry K V := { e with key := e0.key, val := v }
  let u : HTable K V := { t with slots := t.slots.set p (some e1) }
  show ∃ F, ∀ fuel, F ≤ fuel → u.at_ h fuel e0.key = _
  have hset : ∀ j, at' u.slots j = if j = p then some e1 else at' t.slots j := at'_set hpl (some e1)
  have hui : u.deref i = .ok e0 := by
    unfold HTable.deref slot?
    rw [if_pos (show i < u.n from hi1), getElem?_at' (by simp only [u, List.length_set]; exact Nat.lt_of_lt_of_eq hi1 r.len.symm), hset, if_neg (Ne.symm hpi), hi2]
  have hup : u.deref p = .ok e1 := by
    unfold HTable.deref slot?
    rw [if_pos (show p < u.n from hp1), getElem?_at' (by simp only [u, List.length_set]; exact hpl), hset, if_pos rfl]
  have fin : ∀ {f j : Nat} {e' : HEntry K V}, u.find h f e0.key = .ok (some j) → u.deref j = .ok e' → u.at_ h f e0.key = .ok (some e'.val) := by
    intro f j e' h1 h2
    unfold at_
    rw [h1]
    simp only [Run.bind, h2]
  have hpos := r.good.pos p hp1 e hp2
  have hpos0 := r.good.pos i hi1 e0 hi2
  by_cases hh : h e0.key = h e.key
  · have hlen : u.slots.length = u.n := by simp [u, r.len]
    have h0 : t.n ≠ 0 := r.n_ne
    rw [hpos.1] at hpos
    rw [hpos0.1, hh] at hpos0
    by_cases hlt : probe t.n (h e.key) p < probe t.n (h e.key) i
    · rw [if_pos ⟨hh, hlt⟩]
      refine ⟨probe t.n (h e.key) p + 1, fun f hf => ?_⟩
      have hfl := findLoop_first (u := u) (x := h e0.key) (k := e0.key) (q := probe t.n (h e.key) p) (e := e1) r.pow hlen (by
        intro j hj
        obtain ⟨e', h3, h4⟩ := r.good.chain hp1 hp2 j (Nat.le_trans (Nat.le_of_lt hj) (probe_le hp1 hpos.2))
        have hjn := Nat.lt_trans hj (probe_lt (x := h e.key) hp1)
        refine ⟨e', ?_, h4, fun hk => ?_⟩
        · rw [hset, hh, if_neg]
          · exact h3
          · intro hc
            have := probe_inj hjn (probe_lt (x := h e.key) hp1) (hc.trans (probe_at hp1).symm)
            omega
        · have hc := r.good.uniq _ _ (Nat.mod_lt _ (by omega)) hi1 e' e0 h3 hi2 hk.2
          have := probe_inj hjn (probe_lt (x := h e.key) hi1) (hc.trans (probe_at hi1).symm)
          omega) (by rw [hset, hh, if_pos]; exact probe_at hp1) (by show e.hash = _; rw [(r.good.pos p hp1 e hp2).1, hh]) rfl
        _ f 0 (Nat.zero_add _).symm (by omega)
      apply fin (j := p) _ hup
      unfold find
      rw [if_neg (show u.n ≠ 0 from h0), mod2n_eq (show PowTwo u.n from r.pow)]
      rw [Nat.add_zero] at hfl
      rw [hfl, hh]
      exact congrArg (fun z => Run.ok (some z)) (probe_at hp1)
    · rw [if_neg (fun hc => hlt hc.2)]
      have hgt : probe t.n (h e.key) i < probe t.n (h e.key) p := by
        rcases Nat.lt_or_eq_of_le (Nat.le_of_not_lt hlt) with h1 | h1
        · exact h1
        · exfalso
          apply hpi
          rw [← probe_at (x := h e.key) hp1, ← probe_at (x := h e.key) hi1, h1]
      refine ⟨probe t.n (h e.key) i + 1, fun f hf => ?_⟩
      have hfl := findLoop_first (u := u) (x := h e0.key) (k := e0.key) (q := probe t.n (h e.key) i) (e := e0) r.pow hlen (by
        intro j hj
        obtain ⟨e', h3, h4⟩ := r.good.chain hi1 hi2 j (Nat.le_trans (Nat.le_of_lt hj) (probe_le hi1 hpos0.2))
        have hjn := Nat.lt_trans hj (probe_lt (x := h e.key) hi1)
        refine ⟨e', ?_, h4, fun hk => ?_⟩
        · rw [hset, if_neg]
          · exact h3
          · intro hc
            rw [hh] at hc
            have := probe_inj hjn (probe_lt (x := h e.key) hp1) (hc.trans (probe_at hp1).symm)
            omega
        · have hc := r.good.uniq _ _ (Nat.mod_lt _ (by omega)) hi1 e' e0 h3 hi2 hk.2
          rw [hh] at hc
          have := probe_inj hjn (probe_lt (x := h e.key) hi1) (hc.trans (probe_at hi1).symm)
          omega) (by
            have : (h e.key + probe t.n (h e.key) i) % u.n = i := probe_at hi1
            rw [hset, hh, this, if_neg (Ne.symm hpi)]; exact hi2) (r.good.pos i hi1 e0 hi2).1 rfl
        _ f 0 (Nat.zero_add _).symm (by omega)
      apply fin (j := i) _ hui
      unfold find
      rw [if_neg (show u.n ≠ 0 from h0), mod2n_eq (show PowTwo u.n from r.pow)]
      rw [Nat.add_zero] at hfl
      rw [hfl, hh]
      exact congrArg (fun z => Run.ok (some z)) (probe_at hi1)
  · rw [if_neg (fun hc => hh hc.1)]
    refine ⟨pslSum t.slots + 2, fun f hf => fin (j := i) ?_ hui⟩
    have hf1 : t.find h f e0.key = .ok (some i) := r.find_some hi1 hi2 rfl f hf
    unfold find at hf1 ⊢
    rw [findLoop_write (e' := e1) hs e0.key (by rw [(r.good.pos p hp1 e hp2).1]; exact Ne.symm hh) rfl rfl]
    exact hf1

/-- A map with the keys 1 and 2. -/
def pairKeys : List (HashOp Nat Nat) := [.emplace 1 10, .emplace 2 20]

theorem pairKeys_ok : HashOps.Ok pairKeys := by
  intro n hn
  simp [pairKeys] at hn

def pairKeysTable : HTable Nat Nat := ⟨16, ((List.replicate 16 none).set 1 (some ⟨1, 0, 1, 10⟩)).set 2 (some ⟨2, 0, 2, 20⟩), 2⟩

theorem pairKeys_made : Made id 16 pairKeys pairKeysTable ∧ pairKeysTable.deref 1 = .ok ⟨1, 0, 1, 10⟩ := by
  refine ⟨⟨⟨16, List.replicate 16 none, 0⟩, 1, rfl, fun fuel hf => ?_⟩, rfl⟩
  obtain ⟨fuel, rfl⟩ : ∃ f, fuel = f + 1 := ⟨fuel - 1, by omega⟩
  exact ⟨_, rfl⟩

example : ∃ t t' es : _, Made id 16 pairKeys t ∧ t.write 1 7 70 = .ok t' ∧ t'.entries = .ok es ∧ (∃ e' ∈ es, e'.key = 7 ∧ e'.val = 70) ∧
    ∃ F, ∀ fuel, F ≤ fuel → t'.at_ id fuel 7 = .ok none ∧ t'.contains id fuel 7 = .ok false ∧ t'.erase id fuel 7 = .ok t' := by
  obtain ⟨h1, h2⟩ := pairKeys_made
  obtain ⟨t', es, h3, h4, h5, h6⟩ := C117_key_violated id 16 ⟨4, by omega, rfl⟩ pairKeys pairKeys_ok _ h1 1 _ h2 7 70 rfl (by decide)
  exact ⟨_, t', es, h1, h3, h4, h5, h6⟩

example : ∃ t', pairKeysTable.write 1 2 21 = .ok t' ∧ ∃ F, ∀ fuel, F ≤ fuel → t'.at_ id fuel 2 = .ok (some 20) :=
  C117_present_partial id 16 ⟨4, by omega, rfl⟩ pairKeys pairKeys_ok _ pairKeys_made.1 1 2 _ ⟨2, 0, 2, 20⟩ pairKeys_made.2 rfl (by decide) 21

/-- With the same hash for all odd keys the new key is found. -/
example : ∃ t t' t'', Made (· % 2) 16 [.emplace 1 10] t ∧ t.write 1 7 70 = .ok t' ∧ ∃ F, ∀ fuel, F ≤ fuel →
    t'.run (· % 2) fuel [.at_ 7, .at_ 1, .size] = .ok (t'', [.value 70, .notFound, .num 1]) := by
  have h1 : Made (· % 2) 16 [.emplace 1 10] (⟨16, (List.replicate 16 none).set 1 (some ⟨1, 0, 1, 10⟩), 1⟩ : HTable Nat Nat) := by
    refine ⟨⟨16, List.replicate 16 none, 0⟩, 1, rfl, fun fuel hf => ?_⟩
    obtain ⟨fuel, rfl⟩ : ∃ f, fuel = f + 1 := ⟨fuel - 1, by omega⟩
    exact ⟨_, rfl⟩
  obtain ⟨t', t'', h2, h3⟩ := C117_key_partial (· % 2) 16 ⟨4, by omega, rfl⟩ [.emplace 1 10] (fun n hn => by simp at hn) _ h1 1
    ⟨1, 0, 1, 10⟩ rfl 7 70 rfl rfl [.at_ 7, .at_ 1, .size] (fun n hn => by simp at hn)
  exact ⟨_, t', t'', h1, h2, h3⟩

/-- After `reserve` the key with another hash is found. -/
example : ∃ t' t'', pairKeysTable.write 1 7 70 = .ok t' ∧ ∃ F, ∀ fuel, F ≤ fuel →
    t'.run id fuel [.reserve 32, .at_ 7, .at_ 1, .at_ 2] = .ok (t'', [.unit, .value 70, .notFound, .value 20]) :=
  C117_reserve_partial id 16 ⟨4, by omega, rfl⟩ pairKeys pairKeys_ok _ pairKeys_made.1 1 _ pairKeys_made.2 7 70 rfl 32 ⟨5, by omega, rfl⟩ (by decide)
    [.at_ 7, .at_ 1, .at_ 2] (fun n hn => by simp at hn)

example : ∃ t' t'', pairKeysTable.write 1 1 70 = .ok t' ∧ ∃ F, ∀ fuel, F ≤ fuel →
    t'.run id fuel [.at_ 1, .at_ 2] = .ok (t'', [.value 70, .value 20]) :=
  C117_value_partial id 16 ⟨4, by omega, rfl⟩ pairKeys pairKeys_ok _ pairKeys_made.1 1 _ pairKeys_made.2 70 [.at_ 1, .at_ 2] (fun n hn => by simp at hn)

set_option maxRecDepth 4000 in
/-- **C117 is violated**: the key written is inserted a second time, and an iteration shows it twice with different values; so does
an iteration after writing a key that is there already. -/
theorem C117_twice_violated : ∃ t' u' es us, Made id 16 pairKeys pairKeysTable ∧ pairKeysTable.write 1 7 70 = .ok t' ∧
    (∀ fuel, 1 ≤ fuel → ∃ t'', t'.step id fuel (.emplace 7 71) = .ok (t'', .entry 7 71 true) ∧ t''.entries = .ok es) ∧
    es.map (fun e => (e.key, e.val)) = [(7, 70), (2, 20), (7, 71)] ∧
    pairKeysTable.write 1 2 21 = .ok u' ∧ u'.entries = .ok us ∧ us.map (fun e => (e.key, e.val)) = [(2, 21), (2, 20)] := by
  refine ⟨_, _, [⟨1, 0, 7, 70⟩, ⟨2, 0, 2, 20⟩, ⟨7, 0, 7, 71⟩], _, pairKeys_made.1, rfl, fun fuel hf => ?_, rfl, rfl, rfl, rfl⟩
  obtain ⟨fuel, rfl⟩ : ∃ f, fuel = f + 1 := ⟨fuel - 1, by omega⟩
  refine ⟨⟨16, (((List.replicate 16 none).set 1 (some ⟨1, 0, 7, 70⟩)).set 2 (some ⟨2, 0, 2, 20⟩)).set 7 (some ⟨7, 0, 7, 71⟩), 3⟩, ?_, rfl⟩
  rfl

end CoEcs.Props
