import Verif.Model.Callback
import Verif.Proofs.ViewSpec

/-!
# Lemmas about functions of the user that throw
-/

namespace CoEcs
open Spec
variable {V : Type}

/-- The value written last to a component, if any. -/
def lastWrite (ws : List (Nat × V)) (c : Nat) : Option V := (ws.reverse.find? fun w => w.1 = c).map Prod.snd

/-- Components after assignments. -/
def overwrite (ws : List (Nat × V)) (d : Comps V) : Comps V := fun c => (lastWrite ws c).or (d c)

theorem overwrite_nil (d : Comps V) : overwrite [] d = d := by
  funext c; simp [overwrite, lastWrite]

theorem overwrite_cons (w : Nat × V) (ws : List (Nat × V)) (d : Comps V) :
    overwrite (w :: ws) d = overwrite ws (fun x => if x = w.1 then some w.2 else d x) := by
  funext c
  simp only [overwrite, lastWrite, List.reverse_cons, List.find?_append]
  cases ws.reverse.find? fun w => decide (w.1 = c) with
  | some y => simp
  | none =>
    by_cases h : w.1 = c
    · simp [h]
    · have h' : ¬ c = w.1 := fun e => h e.symm
      simp [h, h']

theorem writeList_spec {ty : Types} {k : Nat} {h : Handle} {l : Loc} : ∀ (ws : List (Nat × V)) {r : Reg V}
    {W : Handle → Option (Comps V)} {d : Comps V}, Rep ty r k W → W h = some d → r.location h = .ok l →
    (∀ w ∈ ws, ∃ v, d w.1 = some v) →
    ∃ r', Reg.writeList l r ws = some r' ∧ r'.pool = r.pool ∧ r'.locs = r.locs ∧
      Rep ty r' k (World.put W h (some (overwrite ws d))) ∧ (NoNull r.archs → NoNull r'.archs) ∧ Assigns r r'
  | [], r, W, d, R, hw, _, _ => by
    refine ⟨r, rfl, rfl, rfl, ?_, fun h => h, .refl _⟩
    rw [overwrite_nil, ← hw, World.put_self]
    exact R
  | w :: ws, r, W, d, R, hw, hl, hm => by
    obtain ⟨ai, a, ch, row, t⟩ := R.at_slot (R.slot_loc.2 ⟨hw, hl⟩)
    obtain ⟨v0, hv0⟩ := hm w (by simp)
    have hb := (t.readAt hv0).2
    obtain ⟨r1, q1, q2, q3, q4, _, q6⟩ := R.writeAt_false t hb w.2
    have hl1 : r1.location h = .ok l := by
      rw [← hl]; unfold Reg.location Reg.alive; rw [q2, q3]
    obtain ⟨r', w1, w2, w3, w4, w5, w6⟩ := writeList_spec ws (d := fun x => if x = w.1 then some w.2 else d x) q4
      (by simp [World.put]) hl1 (by
        intro w' hw'
        by_cases he : w'.1 = w.1
        · exact ⟨w.2, by simp [he]⟩
        · simp only [he, if_false]; exact hm w' (by simp [hw']))
    refine ⟨r', by simp [Reg.writeList, q1, w1], w2.trans q2, w3.trans q3, ?_, fun hn => w5 (q6 hn), .step h w.1 w.2 ?_ w6⟩
    · rw [World.put_put] at w4
      rw [overwrite_cons]
      exact w4
    · simp [Reg.assign, hl, t.archOf, t.row?, hb, q1]

/-- The components of an entity after its call. -/
def acted (args : List BlockId) (f : List (Val V) → Beh V) (h : Handle) (d : Comps V) : Comps V :=
  match tupleOf h d args with
  | none => d
  | some t => overwrite (f t).writes d

/-- The loop of `each` ends behind the first call that throws. -/
theorem tryLocs_spec {ty : Types} {k : Nat} (args : List BlockId) (f : List (Val V) → Beh V)
    (hin : ∀ t, ∀ w ∈ (f t).writes, some w.1 ∈ args) (loc : Handle → Loc) : ∀ (hs : List Handle) {r : Reg V}
    {W : Handle → Option (Comps V)}, Rep ty r k W → hs.Nodup →
    (∀ h ∈ hs, r.location h = .ok (loc h) ∧ ∃ d, W h = some d ∧ Matches args d) →
    ∃ (r' : Reg V) (ts : List (List (Val V))) (done rest : List Handle), hs = done ++ rest ∧
      ((Reg.tryLocs args f r (hs.map loc) = .returned r' ts ∧ rest = [] ∧ ∀ t ∈ ts, (f t).throws = false) ∨
        (Reg.tryLocs args f r (hs.map loc) = .threw r' ts .user ∧
          ∃ ts0 t, ts = ts0 ++ [t] ∧ (f t).throws = true ∧ ∀ t ∈ ts0, (f t).throws = false)) ∧
      done.map (fun h => (W h).bind fun d => tupleOf h d args) = ts.map some ∧
      Rep ty r' k (fun h => if h ∈ done then (W h).map (acted args f h) else W h) ∧ r'.pool = r.pool ∧ r'.locs = r.locs ∧
      Assigns r r'
  | [], r, W, R, _, _ => ⟨r, [], [], [], rfl, .inl ⟨rfl, rfl, by simp⟩, rfl, by simpa using R, rfl, rfl, .refl _⟩
  | h :: hs, r, W, R, hnd, hall => by
    rw [List.nodup_cons] at hnd
    obtain ⟨hl, d, hw, hm⟩ := hall h (by simp)
    obtain ⟨ai, a, c, row, t⟩ := R.at_slot (R.slot_loc.2 ⟨hw, hl⟩)
    obtain ⟨x, hx⟩ := hm.tuple (h := h)
    obtain ⟨r1, q1, q2, q3, q4, q5, q6⟩ := writeList_spec (f x).writes R hw hl (fun w hw => hm w.1 (hin x w hw))
    by_cases hthrow : (f x).throws = true
    · refine ⟨r1, [x], [h], hs, rfl, .inr ⟨?_, [], x, rfl, hthrow, by simp⟩, by simp [hw, hx], ?_, q2, q3, q6⟩
      · simp [Reg.tryLocs, t.tupleAt hx, q1, hthrow]
      · have : (fun h' => if h' ∈ [h] then (W h').map (acted args f h') else W h') =
            World.put W h (some (overwrite (f x).writes d)) := by
          funext h'
          by_cases he : h' = h
          · subst he; simp [World.put, hw, acted, hx]
          · simp [World.put, he]
        rw [this]; exact q4
    · have hthrow' : (f x).throws = false := by simpa using hthrow
      obtain ⟨r', ts, done, rest, w0, w1, w2, w3, w4, w5, w7⟩ := tryLocs_spec args f hin loc hs q4 hnd.2 (by
        intro h' hh'
        obtain ⟨e1, d', e2, e3⟩ := hall h' (by simp [hh'])
        have hne : h' ≠ h := by rintro rfl; exact hnd.1 hh'
        refine ⟨?_, d', by simpa [World.put, hne] using e2, e3⟩
        rw [← e1]; unfold Reg.location Reg.alive; rw [q2, q3])
      have hndone : h ∉ done := fun hh => hnd.1 (by rw [w0]; simp [hh])
      have hstep : Reg.tryLocs args f r ((h :: hs).map loc) = (Reg.tryLocs args f r1 (hs.map loc)).after x := by
        simp [Reg.tryLocs, t.tupleAt hx, q1, hthrow']
      refine ⟨r', x :: ts, h :: done, rest, by rw [w0]; rfl, ?_, ?_, ?_, w4.trans q2, w5.trans q3, q6.trans w7⟩
      · rw [hstep]
        rcases w1 with ⟨e1, e2, e3⟩ | ⟨e1, ts0, t', e2, e3, e4⟩
        · refine .inl ⟨by rw [e1]; rfl, e2, ?_⟩
          intro t' ht'
          rcases List.mem_cons.1 ht' with rfl | ht'
          · exact hthrow'
          · exact e3 t' ht'
        · refine .inr ⟨by rw [e1]; rfl, x :: ts0, t', by rw [e2]; rfl, e3, ?_⟩
          intro t' ht'
          rcases List.mem_cons.1 ht' with rfl | ht'
          · exact hthrow'
          · exact e4 t' ht'
      · simp only [List.map_cons, hw, Option.bind_some, hx]
        congr 1
        rw [← w2]
        apply List.map_congr_left
        intro h' hh'
        have hne : h' ≠ h := by rintro rfl; exact hndone hh'
        simp [World.put, hne]
      · have : (fun h' => if h' ∈ done then (World.put W h (some (overwrite (f x).writes d)) h').map (acted args f h')
            else World.put W h (some (overwrite (f x).writes d)) h') =
            fun h' => if h' ∈ h :: done then (W h').map (acted args f h') else W h' := by
          funext h'
          by_cases he : h' = h
          · subst he
            simp [World.put, hndone, hw, acted, hx]
          · simp [World.put, he]
        rw [this] at w3
        exact w3

theorem Rep.eachTry {ty : Types} {r : Reg V} {k : Nat} {W : Handle → Option (Comps V)} (R : Rep ty r k W) (hn : NoNull r.archs)
    (args : List BlockId) (f : List (Val V) → Beh V) (hin : ∀ t, ∀ w ∈ (f t).writes, some w.1 ∈ args) :
    ∃ (r' : Reg V) (ts : List (List (Val V))) (done : List Handle), done.Nodup ∧ (∀ h ∈ done, ∃ d, W h = some d ∧ Matches args d) ∧
      ((r.eachTry args f = .returned r' ts ∧ (∀ h d, W h = some d → Matches args d → h ∈ done) ∧ ∀ t ∈ ts, (f t).throws = false) ∨
        (r.eachTry args f = .threw r' ts .user ∧
          ∃ ts0 t, ts = ts0 ++ [t] ∧ (f t).throws = true ∧ ∀ t ∈ ts0, (f t).throws = false)) ∧
      done.map (fun h => (W h).bind fun d => tupleOf h d args) = ts.map some ∧
      Rep ty r' k (fun h => if h ∈ done then (W h).map (acted args f h) else W h) ∧ r'.pool = r.pool ∧ Assigns r r' := by
  obtain ⟨cs, c1, c2, c3⟩ := R.view hn args
  obtain ⟨hs, loc, h1, h2, h3, h4⟩ := R.handles (args := args) c2 (fun l hl => (c3 l).1 hl)
  obtain ⟨r', ts, done, rest, w0, w1, w2, w3, w4, _, w7⟩ := tryLocs_spec args f hin loc hs R h2 h4
  rw [h1] at w1
  have he : r.eachTry args f = Reg.tryLocs args f r cs.flatten := by simp [Reg.eachTry, c1]
  refine ⟨r', ts, done, ?_, ?_, ?_, w2, w3, w4, w7⟩
  · rw [w0] at h2; exact (List.nodup_append.1 h2).1
  · intro h hh
    exact (h4 h (by rw [w0]; simp [hh])).2
  · rw [he]
    rcases w1 with ⟨e1, e2, e3⟩ | e
    · refine .inl ⟨e1, ?_, e3⟩
      intro h d hd hm
      obtain ⟨l, ai, a, c, row, t⟩ := R.at_ hd
      have := (h3 h).2 ⟨l, (c3 l).2 ⟨h, d, t.slot, hm⟩, t.loc, d, hd⟩
      rw [w0, e2, List.append_nil] at this
      exact this
    · exact .inr e

/-- The components after a visit. -/
def visited (f : Nat → V → Option V × Bool) (cs : List Nat) (d : Comps V) : Comps V :=
  fun x => if x ∈ cs then (d x).map fun v => ((f x v).1).getD v else d x

theorem visitLoop_spec {ty : Types} {k : Nat} {h : Handle} {l : Loc} (f : Nat → V → Option V × Bool) : ∀ (cs : List Nat) {r : Reg V}
    {W : Handle → Option (Comps V)} {d : Comps V}, Rep ty r k W → W h = some d → r.location h = .ok l → cs.Nodup →
    (∀ c ∈ cs, ∃ v, d c = some v) →
    ((∃ c ∈ cs, ∃ v, d c = some v ∧ (f c v).2 = true) → ∃ calls, Reg.visitLoop l f r (cs.map some) = .terminated calls) ∧
    ((∀ c ∈ cs, ∀ v, d c = some v → (f c v).2 = false) → ∃ r' calls, Reg.visitLoop l f r (cs.map some) = .returned r' calls ∧
      calls.map Prod.fst = cs ∧ (∀ x ∈ calls, d x.1 = some x.2) ∧ r'.pool = r.pool ∧ r'.locs = r.locs ∧
      Rep ty r' k (World.put W h (some (visited f cs d))) ∧ Assigns r r')
  | [], r, W, d, R, hw, _, _, _ => by
    refine ⟨by simp, fun _ => ⟨r, [], rfl, rfl, by simp, rfl, rfl, ?_, .refl _⟩⟩
    have : visited f [] d = d := by funext x; simp [visited]
    rw [this, ← hw, World.put_self]
    exact R
  | c :: cs, r, W, d, R, hw, hl, hnd, hm => by
    rw [List.nodup_cons] at hnd
    obtain ⟨v, hv⟩ := hm c (by simp)
    obtain ⟨ai, a, ch, row, t⟩ := R.at_slot (R.slot_loc.2 ⟨hw, hl⟩)
    obtain ⟨hread, hb⟩ := t.readAt hv
    obtain ⟨r1, q1, q2, q3, q4, q5⟩ : ∃ r1, Reg.writeOpt l c r (f c v).1 = some r1 ∧
        r1.pool = r.pool ∧ r1.locs = r.locs ∧
        Rep ty r1 k (World.put W h (some fun x => if x = c then some (((f c v).1).getD v) else d x)) ∧ Assigns r r1 := by
      cases hf : (f c v).1 with
      | none =>
        refine ⟨r, rfl, rfl, rfl, ?_, .refl _⟩
        have : (fun x => if x = c then some ((none : Option V).getD v) else d x) = d := by
          funext x
          by_cases hx : x = c
          · subst hx; simp [hv]
          · simp [hx]
        rw [this, ← hw, World.put_self]
        exact R
      | some v' =>
        obtain ⟨r1, q1, q2, q3, q4, _, _⟩ := R.writeAt_false t hb v'
        refine ⟨r1, q1, q2, q3, q4, .step h c v' ?_ (.refl _)⟩
        simp [Reg.assign, hl, t.archOf, t.row?, hb, q1]
    have hstep : Reg.visitLoop l f r ((c :: cs).map some) =
        if (f c v).2 then .terminated [(c, v)] else (Reg.visitLoop l f r1 (cs.map some)).after (c, v) := by
      simp only [List.map_cons, Reg.visitLoop, hread, q1]
    have hl1 : r1.location h = .ok l := by
      rw [← hl]; unfold Reg.location Reg.alive; rw [q2, q3]
    have hne : ∀ c' ∈ cs, c' ≠ c := by rintro c' hc' rfl; exact hnd.1 hc'
    obtain ⟨i1, i2⟩ := visitLoop_spec f cs (d := fun x => if x = c then some (((f c v).1).getD v) else d x) q4
      (by simp [World.put]) hl1 hnd.2 (by
        intro c' hc'
        simp only [hne c' hc', if_false]; exact hm c' (by simp [hc']))
    rw [hstep]
    constructor
    · rintro ⟨c', hc', v', hv', ht⟩
      by_cases hx : (f c v).2 = true
      · exact ⟨_, by rw [if_pos hx]⟩
      · rw [if_neg hx]
        rcases List.mem_cons.1 hc' with rfl | hc'
        · rw [hv] at hv'; cases hv'; exact absurd ht hx
        · obtain ⟨calls, e⟩ := i1 ⟨c', hc', v', by simp only [hne c' hc', if_false]; exact hv', ht⟩
          exact ⟨_, by rw [e]; rfl⟩
    · intro hno
      rw [if_neg (by rw [hno c (by simp) v hv]; simp)]
      obtain ⟨r', calls, e1, e2, e3, e4, e5, e6, e7⟩ := i2 (by
        intro c' hc' v' hv'
        simp only [hne c' hc', if_false] at hv'
        exact hno c' (by simp [hc']) v' hv')
      refine ⟨r', (c, v) :: calls, by rw [e1]; rfl, by simp [e2], ?_, e4.trans q2, e5.trans q3, ?_, q5.trans e7⟩
      · intro x hx
        rcases List.mem_cons.1 hx with rfl | hx
        · exact hv
        · have h1 := e3 x hx
          have h2 : x.1 ∈ cs := by rw [← e2]; exact List.mem_map_of_mem hx
          simpa only [hne x.1 h2, if_false] using h1
      · rw [World.put_put] at e6
        have : visited f cs (fun x => if x = c then some (((f c v).1).getD v) else d x) = visited f (c :: cs) d := by
          funext x
          by_cases hx : x = c
          · subst hx; simp [visited, hnd.1, hv]
          · simp [visited, hx]
        rw [this] at e6
        exact e6

theorem Rep.visitTry {ty : Types} {r : Reg V} {k : Nat} {W : Handle → Option (Comps V)} (R : Rep ty r k W) {h : Handle} {d : Comps V}
    (hw : W h = some d) (f : Nat → V → Option V × Bool) :
    ((∃ c v, d c = some v ∧ (f c v).2 = true) → ∃ calls, r.visitTry h f = .terminated calls) ∧
    ((∀ c v, d c = some v → (f c v).2 = false) → ∃ r' calls, r.visitTry h f = .returned r' calls ∧
      (calls.map Prod.fst).Nodup ∧ (∀ c v, (c, v) ∈ calls ↔ d c = some v) ∧ r'.pool = r.pool ∧
      Rep ty r' k (World.put W h (some fun c => (d c).map fun v => ((f c v).1).getD v)) ∧ Assigns r r') := by
  obtain ⟨l, ai, a, c, row, t⟩ := R.at_ hw
  obtain ⟨d1, d2, d3⟩ := Row.decode_some t.decode t.rowOk
  have hdrop : a.blocks.drop 1 = (a.comps.metas.map CompMeta.id).map some := by simp [Arch.blocks]
  have hmem : ∀ x, x ∈ a.comps.metas.map CompMeta.id ↔ ∃ v, d x = some v := by
    intro x
    rw [← a.some_mem_blocks]
    constructor
    · intro hb
      obtain ⟨v, hv, _⟩ := d2 x hb
      exact ⟨v, hv⟩
    · rintro ⟨v, hv⟩
      exact (t.readAt hv).2
  have heq : r.visitTry h f = Reg.visitLoop l f r ((a.comps.metas.map CompMeta.id).map some) := by
    unfold Reg.visitTry
    simp only [t.loc, t.archOf, t.row?, hdrop]
  obtain ⟨i1, i2⟩ := visitLoop_spec f (a.comps.metas.map CompMeta.id) R hw t.loc t.ok.inv.nodup (fun x hx => (hmem x).1 hx)
  rw [heq]
  refine ⟨?_, ?_⟩
  · rintro ⟨x, v, hv, ht⟩
    exact i1 ⟨x, (hmem x).2 ⟨v, hv⟩, v, hv, ht⟩
  · intro hno
    obtain ⟨r', calls, e1, e2, e3, e4, _, e6, e7⟩ := i2 (fun x _ v hv => hno x v hv)
    refine ⟨r', calls, e1, by rw [e2]; exact t.ok.inv.nodup, ?_, e4, ?_, e7⟩
    · intro x v
      refine ⟨fun hx => e3 _ hx, fun hv => ?_⟩
      have : x ∈ calls.map Prod.fst := by rw [e2]; exact (hmem x).2 ⟨v, hv⟩
      obtain ⟨y, hy, hyx⟩ := List.mem_map.1 this
      have := e3 y hy
      rw [hyx, hv, Option.some.injEq] at this
      rw [← hyx, this]; exact hy
    · have : visited f (a.comps.metas.map CompMeta.id) d = fun c => (d c).map fun v => ((f c v).1).getD v := by
        funext x
        simp only [visited]
        split
        · rfl
        · rename_i hx
          cases hd : d x with
          | none => rfl
          | some v => exact absurd ((hmem x).2 ⟨v, hd⟩) hx
      rw [this] at e6
      exact e6

end CoEcs
