import Verif.Spec.Deferred
import Verif.Proofs.CommandMore
import Verif.Proofs.ViewSpec
import Verif.Proofs.ViewChange
import Verif.Props.Command

/-!
# Lemmas about iterations that record changes
-/

namespace CoEcs
open Spec
variable {V : Type} {ty : Types} {husk : V → V} {b i : Nat}

theorem recordAll_append : ∀ (l1 l2 : List (Rec V)) {c c' : CSys V},
    c.recordAll ty husk b i (l1 ++ l2) = .ok c' () ↔ ∃ c1, c.recordAll ty husk b i l1 = .ok c1 () ∧ c1.recordAll ty husk b i l2 = .ok c' ()
  | [], l2, c, c' => by simp [CSys.recordAll]
  | rc :: l1, l2, c, c' => by
    simp only [List.cons_append, CSys.recordAll]
    cases c.step ty husk (.record b i rc) with
    | none => simp
    | some x =>
      obtain ⟨c1, o⟩ := x
      cases o with
      | throw e => simp
      | ok h => exact recordAll_append l1 l2

theorem recordAll_archs : ∀ (l : List (Rec V)) {c c' : CSys V}, c.recordAll ty husk b i l = .ok c' () → ∀ j,
    (∀ h, Same (c.sys.reg j) (c'.sys.reg j) h) ∧ (c'.sys.reg j).archs = (c.sys.reg j).archs
  | [], c, c', h, j => by cases h; exact ⟨fun h => ⟨fun _ => rfl, fun _ => rfl, rfl⟩, rfl⟩
  | rc :: l, c, c', h, j => by
    unfold CSys.recordAll at h
    split at h
    · cases h
    · cases h
    · rename_i c1 o hs
      obtain ⟨h1, h2, _⟩ := Props.C29_recording_is_invisible hs j
      obtain ⟨g1, g2⟩ := recordAll_archs l h j
      exact ⟨fun x => ⟨fun cp => ((g1 x).1 cp).trans ((h1 x).1 cp), fun cs => ((g1 x).2 cs).trans ((h1 x).2 cs), (g1 x).3.trans (h1 x).3⟩, g2.trans h2⟩

theorem tupleAt_archs {r r' : Reg V} (h : r'.archs = r.archs) (args : List BlockId) (l : Loc) : r'.tupleAt args l = r.tupleAt args l := by
  unfold Reg.tupleAt Reg.archOf; rw [h]

/-- The iteration calls the callback as if nothing were recorded, and records what the calls record. -/
theorem eachLocsRec_iff {args : List BlockId} {cb : List (Val V) → List (Rec V)} : ∀ (ls : List Loc) {c c' : CSys V} {ts : List (List (Val V))},
    CSys.eachLocsRec ty husk b i args cb c ls = .ok c' ts ↔
      ls.map ((c.sys.reg i).tupleAt args) = ts.map Obs.ok ∧ c.recordAll ty husk b i (ts.flatMap cb) = .ok c' ()
  | [], c, c', ts => by
    simp only [CSys.eachLocsRec, List.map_nil, Res.ok.injEq]
    constructor
    · rintro ⟨rfl, rfl⟩; exact ⟨rfl, rfl⟩
    · rintro ⟨h1, h2⟩
      have : ts = [] := by simpa using h1.symm
      subst this
      cases h2; exact ⟨rfl, rfl⟩
  | l :: ls, c, c', ts => by
    unfold CSys.eachLocsRec
    cases ht : (c.sys.reg i).tupleAt args l with
    | ub => simp only [reduceCtorEq, List.map_cons, ht, false_iff]; rintro ⟨h, _⟩; cases ts <;> simp at h
    | throw e => simp only [reduceCtorEq, List.map_cons, ht, false_iff]; rintro ⟨h, _⟩; cases ts <;> simp at h
    | ok t =>
      simp only [List.map_cons, ht]
      constructor
      · intro h
        split at h
        · cases h
        · cases h
        · rename_i c1 u h1
          split at h
          · cases h
          · cases h
          · rename_i c2 ts2 h2
            cases h
            obtain ⟨g1, g2⟩ := (eachLocsRec_iff ls).1 h2
            refine ⟨?_, ?_⟩
            · rw [List.map_cons, ← g1]
              congr 1
              exact List.map_congr_left fun l _ => (tupleAt_archs ((recordAll_archs _ h1 i).2) args l).symm
            · rw [List.flatMap_cons, recordAll_append]; exact ⟨c1, h1, g2⟩
      · rintro ⟨h1, h2⟩
        cases ts with
        | nil => cases h1
        | cons t' ts =>
          simp only [List.map_cons, List.cons.injEq, Obs.ok.injEq] at h1
          obtain ⟨rfl, h1⟩ := h1
          rw [List.flatMap_cons, recordAll_append] at h2
          obtain ⟨c1, g1, g2⟩ := h2
          rw [g1]
          simp only
          have : CSys.eachLocsRec ty husk b i args cb c1 ls = .ok c' ts := by
            refine (eachLocsRec_iff ls).2 ⟨?_, g2⟩
            rw [← h1]
            exact List.map_congr_left fun l _ => tupleAt_archs ((recordAll_archs _ g1 i).2) args l
          rw [this]

theorem eachLocs_plain_iff {args : List BlockId} {f : List (Val V) → Nat → V} : ∀ {ls : List Loc} {r r' : Reg V} {ts : List (List (Val V))},
    Reg.eachLocs args [] f r ls = .ok r' ts ↔ r' = r ∧ ls.map (r.tupleAt args) = ts.map Obs.ok := by
  intro ls r r' ts
  refine ⟨eachLocs_plain, ?_⟩
  rintro ⟨rfl, h⟩
  induction ls generalizing ts with
  | nil =>
    have : ts = [] := by simpa using h.symm
    subst this; rfl
  | cons l ls ih =>
    cases ts with
    | nil => cases h
    | cons t ts =>
      simp only [List.map_cons, List.cons.injEq] at h
      unfold Reg.eachLocs
      simp only [h.1, Reg.writeAll, ih h.2]

theorem eachRec_iff {args : List BlockId} {cb : List (Val V) → List (Rec V)} {f : List (Val V) → Nat → V} {c c' : CSys V} {ts : List (List (Val V))} :
    c.eachRec ty husk b i args cb = .ok c' ts ↔
      (c.sys.reg i).each args [] f = .ok (c.sys.reg i) ts ∧ c.recordAll ty husk b i (ts.flatMap cb) = .ok c' () := by
  unfold CSys.eachRec Reg.each
  cases (c.sys.reg i).viewChunks args with
  | none => simp
  | some cs => simp only; rw [eachLocsRec_iff, eachLocs_plain_iff]; simp

/-- What an iteration visits. -/
theorem Rep.each_ok {r r' : Reg V} {k : Nat} {W : Handle → Option (Comps V)} (R : Rep ty r k W) {args : List BlockId}
    {f : List (Val V) → Nat → V} {calls : List (List (Val V))} (he : r.each args [] f = .ok r' calls) :
    ∃ hs : List Handle, hs.Nodup ∧ (∀ h, h ∈ hs ↔ r.has h (compsOf args) = .ok true) ∧ hs.map (Spec.callOf r args) = calls.map some := by
  obtain ⟨ps, p1, p2, p3, p4, p5, p6⟩ := R.viewPtrs
  by_cases hn : none ∈ ps
  · have := R.view_null (fun hn' => p4 hn' hn) args
    simp [Reg.each, this] at he
  · obtain ⟨r1, ts, hs, h1, h2, h3, h4, h5, h6, h7⟩ := R.each (p6 hn) args [] (by simp) f
    rw [he] at h1
    cases h1
    refine ⟨hs, h2, fun h => by rw [h3, R.matches_iff], ?_⟩
    rw [← h4]
    apply List.map_congr_left
    intro h hh
    obtain ⟨d, hd, _⟩ := (h3 h).1 hh
    rw [R.callOf hd, hd]; rfl

/-! ### The commands recorded -/

/-- The command a recorded decision becomes. -/
def Spec.Change.cmd (h : Handle) : Change V → ACmd V
  | .set c v => .set h c v
  | .remove c => .remove h c
  | .destroy => .destroy h

theorem BufsRel.todo_lt : ∀ {bs : List (Option (Buf V))} {qs : List (List (Nat × ACmd V))}, BufsRel ty bs qs → bs.length = qs.length
  | [], [], _ => rfl
  | none :: bs, q :: qs, h => by simp [BufsRel.todo_lt h.2]
  | some b :: bs, q :: qs, h => by simp [BufsRel.todo_lt h.2]
  | [], _ :: _, h => h.elim
  | none :: _, [], h => h.elim
  | some _ :: _, [], h => h.elim

/-- All commands recorded so far are in buffer `b`. -/
def OnlyIn (qs : List (List (Nat × ACmd V))) (b : Nat) (q : List (Nat × ACmd V)) : Prop :=
  qs[b]? = some q ∧ ∀ b', b' ≠ b → ∀ q', qs[b']? = some q' → q' = []

theorem OnlyIn.flatten {qs : List (List (Nat × ACmd V))} {b : Nat} {q : List (Nat × ACmd V)} (h : OnlyIn qs b q) : qs.flatten = q := by
  induction qs generalizing b with
  | nil => cases h.1
  | cons x qs ih =>
    cases b with
    | zero =>
      have h1 : x = q := by simpa using h.1
      have : qs.flatten = [] := by
        rw [List.flatten_eq_nil_iff]
        intro l hl
        obtain ⟨j, hj⟩ := List.mem_iff_getElem?.1 hl
        exact h.2 (j + 1) (by omega) l (by simpa using hj)
      simp [h1, this]
    | succ b =>
      have h0 : x = [] := h.2 0 (by omega) x rfl
      have := ih (b := b) ⟨by simpa using h.1, fun b' hb q' hq => h.2 (b' + 1) (by omega) q' (by simpa using hq)⟩
      simp [h0, this]

theorem OnlyIn.modify {qs : List (List (Nat × ACmd V))} {b : Nat} {q : List (Nat × ACmd V)} (h : OnlyIn qs b q) (x : Nat × ACmd V) :
    OnlyIn (qs.modify b (· ++ [x])) b (q ++ [x]) := by
  refine ⟨by simp [h.1], fun b' hb q' hq => ?_⟩
  rw [List.getElem?_modify] at hq
  simp only [if_neg (Ne.symm hb), Option.map_eq_map, Option.map_id_fun', id_eq] at hq
  exact h.2 b' hb q' hq

theorem change_step {c c' : CSys V} {h : Handle} {x : Change V} {o : Option Handle}
    (hs : c.step ty husk (.record b i (x.call h)) = some (c', .ok o)) : c'.todo = c.todo.modify b (· ++ [(i, x.cmd h)]) := by
  simp only [CSys.step] at hs
  split at hs
  · cases x with
    | set cp v =>
      simp only [Change.call, CSys.record] at hs
      split at hs
      · cases hs
      · cases hs
      · cases hs; rfl
    | remove cp => cases hs; rfl
    | destroy => cases hs; rfl
  · cases hs

theorem world_record {W : Spec.World V} {c c' : CSys V} {rc : Rec V} {o : Out} : W.cstep c c' (.record b i rc) o = W := by
  cases o <;> rfl

/-- Recording decisions is a history, and the commands are the decisions. -/
theorem recordAll_reach : ∀ (l : List (Handle × Change V)) {c c' : CSys V} {W : Spec.World V} {q : List (Nat × ACmd V)},
    CReach ty husk c W → CSys.AllowedAll ty husk b i c (l.map fun x => x.2.call x.1) →
    c.recordAll ty husk b i (l.map fun x => x.2.call x.1) = .ok c' () → OnlyIn c.todo b q →
    CReach ty husk c' W ∧ OnlyIn c'.todo b (q ++ l.map fun x => (i, x.2.cmd x.1))
  | [], c, c', W, q, hr, ha, hs, hq => by cases hs; simpa using ⟨hr, hq⟩
  | x :: l, c, c', W, q, hr, ha, hs, hq => by
    simp only [List.map_cons, CSys.AllowedAll, CSys.recordAll] at ha hs
    split at hs
    · cases hs
    · cases hs
    · rename_i c1 o h1
      have hr1 := CReach.step hr ha.1 h1
      rw [world_record] at hr1
      have hq1 : OnlyIn c1.todo b (q ++ [(i, x.2.cmd x.1)]) := by rw [change_step h1]; exact hq.modify _
      obtain ⟨g1, g2⟩ := recordAll_reach l hr1 (ha.2 c1 o h1) hs hq1
      exact ⟨g1, by simpa using g2⟩

/-- An executable version, for examples. -/
def recordRun (ty : Types) (husk : V → V) (b i : Nat) : CSys V → List (Rec V) → Option (CSys V)
  | c, [] => some c
  | c, rc :: rcs =>
    if allowedB c (.record b i rc) then
      match c.step ty husk (.record b i rc) with
      | some (c', .ok _) => recordRun ty husk b i c' rcs
      | _ => none
    else none

theorem recordRun_some : ∀ {rcs : List (Rec V)} {c c' : CSys V}, recordRun ty husk b i c rcs = some c' →
    CSys.AllowedAll ty husk b i c rcs ∧ c.recordAll ty husk b i rcs = .ok c' ()
  | [], c, c', h => by cases h; exact ⟨trivial, rfl⟩
  | rc :: rcs, c, c', h => by
    unfold recordRun at h
    split at h
    · rename_i ha
      split at h
      · rename_i c1 o hs
        obtain ⟨h1, h2⟩ := recordRun_some h
        refine ⟨⟨allowedB_allowed ha, fun c2 o2 h3 => ?_⟩, ?_⟩
        · rw [hs] at h3; cases h3; exact h1
        · unfold CSys.recordAll; rw [hs]; exact h2
      · cases h
    · cases h

/-! ### The effect of the commands -/

theorem apply_cmd (C : ACmd.Content V) (h : Handle) (x : Change V) : (x.cmd h).apply C = ACmd.put C h (x.effect (C h)) := by
  cases x <;> rfl

theorem foldl_cmd (h : Handle) : ∀ (l : List (Change V)) (C : ACmd.Content V),
    (l.map (Change.cmd h)).foldl ACmd.apply C = ACmd.put C h (l.foldl Change.effect (C h))
  | [], C => by funext h'; simp only [List.map_nil, List.foldl_nil, ACmd.put]; split <;> simp_all
  | x :: l, C => by
    rw [List.map_cons, List.foldl_cons, foldl_cmd h l, apply_cmd]
    funext h'
    simp only [ACmd.put, if_true, List.foldl_cons]
    split <;> rfl

/-- Decisions about different entities. -/
theorem foldl_cmds (dec : Handle → List (Change V)) : ∀ (hs : List Handle) (C : ACmd.Content V), hs.Nodup →
    ∀ h, ((hs.flatMap fun h => (dec h).map (Change.cmd h)).foldl ACmd.apply C) h =
      if h ∈ hs then (dec h).foldl Change.effect (C h) else C h
  | [], C, _, h => by simp
  | g :: hs, C, hn, h => by
    rw [List.nodup_cons] at hn
    rw [List.flatMap_cons, List.foldl_append, foldl_cmd, foldl_cmds dec hs _ hn.2 h]
    by_cases hg : h = g
    · subst hg
      simp [hn.1, ACmd.put]
    · simp [hg, ACmd.put]

theorem cmdsReady_append : ∀ (l1 l2 : List (ACmd V)) (C : ACmd.Content V),
    ACmd.AllReady C (l1 ++ l2) ↔ ACmd.AllReady C l1 ∧ ACmd.AllReady (l1.foldl ACmd.apply C) l2
  | [], l2, C => by simp [ACmd.AllReady]
  | a :: l1, l2, C => by
    simp only [List.cons_append, ACmd.AllReady, List.foldl_cons]
    rw [cmdsReady_append l1 l2, and_assoc]

/-- No decision about an entity follows the one to destroy it. -/
def Spec.DestroyLast (l : List (Change V)) : Prop := Change.destroy ∉ l.dropLast

theorem allReady_cmd (h : Handle) : ∀ (l : List (Change V)) (C : ACmd.Content V), C h ≠ none → DestroyLast l →
    ACmd.AllReady C (l.map (Change.cmd h))
  | [], _, _, _ => trivial
  | x :: l, C, hc, hd => by
    refine ⟨fun g hg => ?_, ?_⟩
    · have : g = h := by cases x <;> simp_all [Change.cmd, ACmd.target]
      rw [this]; exact hc
    · cases l with
      | nil => trivial
      | cons y l =>
        have hx : x ≠ .destroy := fun e => hd (by simp [List.dropLast, e])
        refine allReady_cmd h (y :: l) _ ?_ (fun e => hd (by simp [List.dropLast, e]))
        rw [apply_cmd]
        simp only [ACmd.put, if_true]
        cases x with
        | set cp v => simpa [Change.effect] using hc
        | remove cp => simpa [Change.effect] using hc
        | destroy => exact absurd rfl hx

theorem allReady_cmds (dec : Handle → List (Change V)) : ∀ (hs : List Handle) (C : ACmd.Content V), hs.Nodup → (∀ h ∈ hs, C h ≠ none) →
    (∀ h ∈ hs, DestroyLast (dec h)) → ACmd.AllReady C (hs.flatMap fun h => (dec h).map (Change.cmd h))
  | [], _, _, _, _ => trivial
  | g :: hs, C, hn, hc, hd => by
    rw [List.nodup_cons] at hn
    rw [List.flatMap_cons, cmdsReady_append]
    refine ⟨allReady_cmd g _ _ (hc g (by simp)) (hd g (by simp)), allReady_cmds dec hs _ hn.2 (fun h hh => ?_) fun h hh => hd h (by simp [hh])⟩
    rw [foldl_cmd]
    have : h ≠ g := fun e => hn.1 (e ▸ hh)
    simp only [ACmd.put, this, if_false]
    exact hc h (by simp [hh])

/-- What an iteration with decisions has recorded. -/
theorem eachRec_recorded [hV : Nonempty V] {c c1 : CSys V} {W : Spec.World V} {bs : List BlockId} {dec : List (Val V) → List (Change V)}
    {calls : List (List (Val V))} {buf : Buf V} (hr : CReach ty husk c W) (hq : c.todo.flatten = []) (hb : c.bufs[b]? = some (some buf))
    (he : c.eachRec ty husk b i (none :: bs) (recording dec) = .ok c1 calls)
    (ha : CSys.AllowedAll ty husk b i c (calls.flatMap (recording dec))) :
    ∃ hs : List Handle, hs.Nodup ∧ (∀ h, h ∈ hs ↔ (c.sys.reg i).has h (compsOf (none :: bs)) = .ok true) ∧
      hs.map (Spec.callOf (c.sys.reg i) (none :: bs)) = calls.map some ∧ CReach ty husk c1 W ∧
      c1.todo.flatten = (hs.flatMap fun h => (((Spec.callOf (c.sys.reg i) (none :: bs) h).elim [] dec).map (Change.cmd h))).map (Prod.mk i) := by
  obtain ⟨v⟩ := hV
  obtain ⟨h1, h2⟩ := (eachRec_iff (f := fun _ _ => v)).1 he
  obtain ⟨hs, n1, n2, n3⟩ := (hr.inv.sys i).rep.each_ok h1
  have recs : ∀ (hs : List Handle) (calls : List (List (Val V))), hs.map (Spec.callOf (c.sys.reg i) (none :: bs)) = calls.map some →
      calls.flatMap (recording dec) = (hs.flatMap fun h => ((Spec.callOf (c.sys.reg i) (none :: bs) h).elim [] dec).map (Prod.mk h)).map fun x => x.2.call x.1 := by
    intro hs
    induction hs with
    | nil => intro calls h; cases calls with
      | nil => rfl
      | cons t ts => cases h
    | cons h hs ih =>
      intro calls hc
      cases calls with
      | nil => cases hc
      | cons t ts =>
        simp only [List.map_cons, List.cons.injEq] at hc
        rw [List.flatMap_cons, List.flatMap_cons, List.map_append, ih ts hc.2, hc.1]
        congr 1
        have hc := hc.1
        unfold Spec.callOf at hc
        rw [List.mapM_cons] at hc
        cases hx : bs.mapM (argOf (c.sys.reg i) h) with
        | none => rw [hx] at hc; cases hc
        | some t' =>
          rw [hx] at hc
          cases hc
          simp [recording, Function.comp_def]
  rw [recs hs calls n3] at ha h2
  have hlen := BufsRel.todo_lt hr.inv.bufs
  have hlt := (List.getElem?_eq_some_iff.1 hb).1
  have hq0 : OnlyIn c.todo b [] := by
    rw [List.flatten_eq_nil_iff] at hq
    refine ⟨?_, fun b' _ q' hq' => hq q' (List.mem_of_getElem? hq')⟩
    rw [List.getElem?_eq_getElem (by omega)]
    exact congrArg some (hq _ (List.getElem_mem _))
  obtain ⟨g1, g2⟩ := recordAll_reach _ hr ha h2 hq0
  refine ⟨hs, n1, n2, n3, g1, ?_⟩
  rw [g2.flatten, List.nil_append, List.map_flatMap, List.map_flatMap]
  congr 1
  funext h
  simp [Function.comp_def]

end CoEcs
