import Verif.Proofs.Command
import Verif.Proofs.RepEnd

/-!
# More about commands: concrete histories, definedness, storage
-/

namespace CoEcs
open Spec (ACmd CSys COp Rec CReach Sys SysOp Out Answers playStates flushStates creations HasTrailingEmpty)
variable {V : Type}

/-! ## Concrete histories -/

instance (c : CSys V) (op : SysOp V) : Decidable (∀ x, CSys.placeholderOf op = some x → x ∉ c.queued) :=
  match h : CSys.placeholderOf op with
  | none => isTrue fun x hx => by cases hx
  | some y => if hy : y ∈ c.queued then isFalse fun hf => hf y rfl hy else isTrue fun x hx => by cases hx; exact hy

def recordOk (c : CSys V) (i : Nat) (buf : Buf V) : Rec V → Bool
  | .create args => decide ((args.map Prod.fst).Nodup) && decide ((c.sys.reg i).pool.nextId + 1 < U32) && decide (buf.staging.pool.nextId + 1 < U32)
  | .clone _ => decide ((c.sys.reg i).pool.nextId + 1 < U32)
  | .set _ _ _ => decide (buf.staging.pool.nextId + 1 < U32)
  | _ => true

/-- `Allowed` as a test. -/
def allowedB (c : CSys V) : COp V → Bool
  | .direct op => decide (c.sys.Allowed op) && decide (∀ x, CSys.placeholderOf op = some x → x ∉ c.queued)
  | .start => true
  | .exit _ => true
  | .record b i rc =>
    match c.bufs[b]? with
    | some (some buf) => recordOk c i buf rc
    | _ => false
  | .flush i => c.todo.flatten.all fun x => x.1 == i

theorem allowedB_allowed {c : CSys V} {op : COp V} (h : allowedB c op = true) : c.Allowed op := by
  cases op with
  | direct op => simp only [allowedB, Bool.and_eq_true, decide_eq_true_eq] at h; exact h
  | start => trivial
  | exit b => trivial
  | flush i =>
    simp only [allowedB, List.all_eq_true, beq_iff_eq] at h
    exact h
  | record b i rc =>
    simp only [allowedB] at h
    split at h
    · rename_i buf hb
      refine ⟨buf, hb, ?_⟩
      cases rc <;> simp only [recordOk, Bool.and_eq_true, decide_eq_true_eq] at h ⊢
      · exact ⟨h.1.1, h.1.2, h.2⟩
      · exact h
      · exact h
    · cases h

/-- Run allowed operations from a given state. -/
def cexecFrom (ty : Types) (husk : V → V) : CSys V → Spec.World V → List (COp V) → Option (CSys V × Spec.World V)
  | c, W, [] => some (c, W)
  | c, W, op :: ops =>
    if allowedB c op then
      match c.step ty husk op with
      | none => none
      | some (c', out) => cexecFrom ty husk c' (W.cstep c c' op out) ops
    else none

def cexec (ty : Types) (husk : V → V) (ops : List (COp V)) : Option (CSys V × Spec.World V) :=
  cexecFrom ty husk CSys.init (fun _ _ => none) ops

theorem cexecFrom_reach {ty : Types} {husk : V → V} {c c' : CSys V} {W W' : Spec.World V} (ops : List (COp V)) (h : CReach ty husk c W)
    (he : cexecFrom ty husk c W ops = some (c', W')) : CReach ty husk c' W' := by
  induction ops generalizing c W with
  | nil => simp [cexecFrom] at he; obtain ⟨rfl, rfl⟩ := he; exact h
  | cons op ops ih =>
    unfold cexecFrom at he
    split at he
    · rename_i ha
      cases hs : c.step ty husk op with
      | none => rw [hs] at he; cases he
      | some x =>
        obtain ⟨s1, out⟩ := x
        rw [hs] at he
        exact ih (.step h (allowedB_allowed ha) hs) he
    · cases he

theorem cexec_get {ty : Types} {husk : V → V} (ops : List (COp V)) (h : (cexec ty husk ops).isSome = true) :
    CReach ty husk ((cexec ty husk ops).get h).1 ((cexec ty husk ops).get h).2 :=
  cexecFrom_reach ops .init (Option.some_get h).symm

/-! ## Answers -/

theorem Rep.answers {ty : Types} {r : Reg V} {k : Nat} {C : Handle → Option (Comps V)} (R : Rep ty r k C) : Answers r C := fun _ =>
  ⟨fun hw => ⟨R.get_none hw, R.has_none hw⟩,
    fun _ hw => ⟨R.alive hw, fun _ _ hc => R.get_some hw hc, fun _ hc => R.get_absent hw hc, R.has_some hw⟩⟩

/-! ## Definedness -/

theorem BadLast.trailing {r : Reg V} (h : BadLast r) : HasTrailingEmpty r := by
  obtain ⟨i, a, h1, h2⟩ := h
  refine ⟨i, a, h1, ?_⟩
  apply Classical.byContradiction
  intro h
  refine h2 fun last h3 h4 => Classical.byContradiction fun hl => h ⟨by omega, last, h3, h4⟩

theorem playQueue_ub {ty : Types} (husk : V → V) : ∀ (cs : List Cmd) (q : List (Nat × ACmd V)) (s d : Reg V)
    (S C : Handle → Option (Comps V)) (P : List Handle), RInv ty s 0 [] S → RInv ty d 0 P C → QRel S cs q →
    (cs.filterMap Cmd.staged).Nodup → (∀ ph ∈ CSys.placeholders q, ph ∈ P) → (CSys.placeholders q).Nodup →
    playQueue ty husk cs s d = .ub → ∃ x ∈ playStates ty husk cs s d, HasTrailingEmpty x.1 ∨ HasTrailingEmpty x.2 := by
  intro cs
  induction cs with
  | nil => intro q s d S C P _ _ _ _ _ _ h; cases h
  | cons c cs ih =>
    intro q s d S C P Is Id hq hn hp hpn hu
    cases q with
    | nil => exact hq.elim
    | cons a q =>
      obtain ⟨h1, h2⟩ := hq
      rw [placeholders_cons] at hp hpn
      have hx := exec_spec husk Is Id h1 (fun ph hph => hp ph (by simp [hph]))
      have hn2 : (cs.filterMap Cmd.staged).Nodup ∧ ∀ st, c.staged = some st → st ∉ cs.filterMap Cmd.staged := by
        cases hc : c.staged with
        | none => simp only [List.filterMap_cons, hc] at hn; exact ⟨hn, fun _ h => by cases h⟩
        | some st =>
          simp only [List.filterMap_cons, hc] at hn
          exact ⟨(List.nodup_cons.1 hn).2, fun st' h => by cases h; exact (List.nodup_cons.1 hn).1⟩
      simp only [playQueue] at hu
      cases he : c.exec ty husk s d with
      | ub =>
        rw [he] at hx
        exact ⟨(s, d), by simp [playStates], hx.imp BadLast.trailing BadLast.trailing⟩
      | throw sd e => rw [he] at hu; cases hu
      | ok sd u =>
        obtain ⟨s', d'⟩ := sd
        rw [he] at hx hu
        obtain ⟨hs', hd', hrd, _, _⟩ := hx
        obtain ⟨n1, n2, n3⟩ := List.nodup_append.1 hpn
        have hq' : QRel (c.after husk S) cs q := h2.frame fun st hst =>
          Cmd.after_ne fun he => hn2.2 st he hst
        obtain ⟨x, hx1, hx2⟩ := ih q s' d' _ _ _ hs' hd' hq' hn2.1 (by
          intro ph hph
          rw [List.mem_filter]
          refine ⟨hp ph (by simp [hph]), ?_⟩
          simp only [ne_eq, decide_eq_true_eq]
          intro hc
          exact n3 ph (by simp [hc]) ph hph rfl) n2 hu
        exact ⟨x, by simp [playStates, he, hx1], hx2⟩

theorem flushBufs_ub {ty : Types} (husk : V → V) : ∀ (bs : List (Option (Buf V))) (qs : List (List (Nat × ACmd V))) (d : Reg V)
    (C : Handle → Option (Comps V)) (P : List Handle), RInv ty d 0 P C → BufsRel ty bs qs →
    (∀ ph ∈ CSys.placeholders qs.flatten, ph ∈ P) → (CSys.placeholders qs.flatten).Nodup →
    flushBufs ty husk bs d = .ub → none ∈ bs ∨ ∃ x ∈ flushStates ty husk bs d, HasTrailingEmpty x.1 ∨ HasTrailingEmpty x.2 := by
  intro bs
  induction bs with
  | nil => intro qs d C P _ _ _ _ h; cases h
  | cons b bs ih =>
    intro qs d C P Id hb hp hn hu
    cases b with
    | none => exact .inl (by simp)
    | some b =>
      cases qs with
      | nil => exact hb.elim
      | cons q qs =>
        obtain ⟨⟨S, Is, hq, hst⟩, hbs⟩ := hb
        rw [List.flatten_cons, placeholders_append] at hp hn
        obtain ⟨n1, n2, n3⟩ := List.nodup_append.1 hn
        have hpl := playQueue_spec husk b.queue q b.staging d S C P Is Id hq hst (fun ph h => hp ph (by simp [h])) n1
        simp only [flushBufs, Buf.play] at hu
        cases he : playQueue ty husk b.queue b.staging d with
        | ub =>
          obtain ⟨x, h1, h2⟩ := playQueue_ub husk b.queue q b.staging d S C P Is Id hq hst (fun ph h => hp ph (by simp [h])) n1 he
          exact .inr ⟨x, by simp [flushStates, h1], h2⟩
        | throw bd e => rw [he] at hu; cases hu
        | ok bd u =>
          obtain ⟨b', d'⟩ := bd
          rw [he] at hpl hu
          obtain ⟨k0, k1, k2, k3⟩ := hpl
          have hu' : flushBufs ty husk bs d' = .ub := by
            revert hu
            cases hf : flushBufs ty husk bs d' <;> simp [hf]
          rcases ih qs d' _ _ k2 hbs (by
            intro ph hph
            rw [List.mem_filter]
            refine ⟨hp ph (by simp [hph]), ?_⟩
            simp only [decide_eq_true_eq]
            intro hc
            exact n3 ph hc ph hph rfl) n2 hu' with h | ⟨x, h1, h2⟩
          · exact .inl (List.mem_cons_of_mem _ h)
          · exact .inr ⟨x, by simp [flushStates, Buf.play, he, h1], h2⟩

/-! ## Staging storage -/

theorem exec_size {ty : Types} (husk : V → V) {s d : Reg V} {S C : Handle → Option (Comps V)} {P : List Handle}
    (Is : RInv ty s 0 [] S) (Id : RInv ty d 0 P C) {c : Cmd} {a : ACmd V} (hr : CmdRel S c a)
    (hp : ∀ ph, a.placeholder = some ph → ph ∈ P) {s' d' : Reg V} {u : Unit} (he : c.exec ty husk s d = .ok (s', d') u) :
    s'.size + creations [c] = s.size := by
  have hx := exec_spec husk Is Id hr hp
  rw [he] at hx
  have I' := hx.1
  clear hx
  cases c with
  | create st ph =>
    cases a <;> simp only [CmdRel] at hr
    rename_i ph' dd
    obtain ⟨rfl, hst⟩ := hr
    have e : S = World.put (World.put S st none) st (some dd) := by
      funext x
      by_cases hx : x = st
      · subst hx; rw [put_self, hst]
      · rw [put_ne hx, put_ne hx]
    have R := Is.rep
    rw [e] at R
    have := I'.rep.size_new R put_self
    simp only [creations]
    omega
  | set st h c =>
    have : s'.size = s.size := Is.rep.size_dom I'.rep fun x => by
      simp only [Cmd.after]
      by_cases hx : x = st
      · subst hx; rw [put_self]; simp
      · rw [put_ne hx]
    simp only [creations]; omega
  | clone h ph => exact Is.rep.size_eq I'.rep
  | remove h c => exact Is.rep.size_eq I'.rep
  | destroy h => exact Is.rep.size_eq I'.rep

theorem creations_cons (c : Cmd) (cs : List Cmd) : creations (c :: cs) = creations [c] + creations cs := by
  cases c <;> simp [creations, Nat.add_comm]

theorem playQueue_size {ty : Types} (husk : V → V) : ∀ (cs : List Cmd) (q : List (Nat × ACmd V)) (s d : Reg V)
    (S C : Handle → Option (Comps V)) (P : List Handle), RInv ty s 0 [] S → RInv ty d 0 P C → QRel S cs q →
    (cs.filterMap Cmd.staged).Nodup → (∀ ph ∈ CSys.placeholders q, ph ∈ P) → (CSys.placeholders q).Nodup →
    ∀ b' d' u, playQueue ty husk cs s d = .ok (b', d') u → b'.staging.size + creations cs = s.size := by
  intro cs
  induction cs with
  | nil => intro q s d S C P _ _ _ _ _ _ b' d' u h; cases h; rfl
  | cons c cs ih =>
    intro q s d S C P Is Id hq hn hp hpn b' d'' u hu
    cases q with
    | nil => exact hq.elim
    | cons a q =>
      obtain ⟨h1, h2⟩ := hq
      rw [placeholders_cons] at hp hpn
      have hx := exec_spec husk Is Id h1 (fun ph hph => hp ph (by simp [hph]))
      have hsz := @exec_size V ty husk s d S C P Is Id c a.2 h1 (fun ph hph => hp ph (by simp [hph]))
      have hn2 : (cs.filterMap Cmd.staged).Nodup ∧ ∀ st, c.staged = some st → st ∉ cs.filterMap Cmd.staged := by
        cases hc : c.staged with
        | none => simp only [List.filterMap_cons, hc] at hn; exact ⟨hn, fun _ h => by cases h⟩
        | some st =>
          simp only [List.filterMap_cons, hc] at hn
          exact ⟨(List.nodup_cons.1 hn).2, fun st' h => by cases h; exact (List.nodup_cons.1 hn).1⟩
      simp only [playQueue] at hu
      cases he : c.exec ty husk s d with
      | ub => rw [he] at hu; cases hu
      | throw sd e => rw [he] at hu; cases hu
      | ok sd u =>
        obtain ⟨s', d'⟩ := sd
        have hsz' := hsz he
        rw [he] at hx hu
        obtain ⟨hs', hd', hrd, _, _⟩ := hx
        obtain ⟨n1, n2, n3⟩ := List.nodup_append.1 hpn
        have hq' : QRel (c.after husk S) cs q := h2.frame fun st hst =>
          Cmd.after_ne fun he => hn2.2 st he hst
        have := ih q s' d' _ _ _ hs' hd' hq' hn2.1 (by
          intro ph hph
          rw [List.mem_filter]
          refine ⟨hp ph (by simp [hph]), ?_⟩
          simp only [ne_eq, decide_eq_true_eq]
          intro hc
          exact n3 ph (by simp [hc]) ph hph rfl) n2 b' d'' _ hu
        rw [creations_cons]
        omega

theorem flushBufs_size {ty : Types} (husk : V → V) : ∀ (bs : List (Option (Buf V))) (qs : List (List (Nat × ACmd V))) (d : Reg V)
    (C : Handle → Option (Comps V)) (P : List Handle), RInv ty d 0 P C → BufsRel ty bs qs →
    (∀ ph ∈ CSys.placeholders qs.flatten, ph ∈ P) → (CSys.placeholders qs.flatten).Nodup →
    ∀ bs' d' u, flushBufs ty husk bs d = .ok (bs', d') u → bs'.length = bs.length ∧
      ∀ (n : Nat) (b : Buf V), bs[n]? = some (some b) →
        ∃ b', bs'[n]? = some (some b') ∧ b'.queue = [] ∧ b'.staging.size + creations b.queue = b.staging.size := by
  intro bs
  induction bs with
  | nil => intro qs d C P _ _ _ _ bs' d' u h; cases h; exact ⟨rfl, by simp⟩
  | cons b bs ih =>
    intro qs d C P Id hb hp hn bs' d'' u hu
    cases b with
    | none => cases hu
    | some b =>
      cases qs with
      | nil => exact hb.elim
      | cons q qs =>
        obtain ⟨⟨S, Is, hq, hst⟩, hbs⟩ := hb
        rw [List.flatten_cons, placeholders_append] at hp hn
        obtain ⟨n1, n2, n3⟩ := List.nodup_append.1 hn
        have hpl := playQueue_spec husk b.queue q b.staging d S C P Is Id hq hst (fun ph h => hp ph (by simp [h])) n1
        have hsz := playQueue_size husk b.queue q b.staging d S C P Is Id hq hst (fun ph h => hp ph (by simp [h])) n1
        simp only [flushBufs, Buf.play] at hu
        cases he : playQueue ty husk b.queue b.staging d with
        | ub => rw [he] at hu; cases hu
        | throw bd e => rw [he] at hu; cases hu
        | ok bd u =>
          obtain ⟨b', d'⟩ := bd
          have hsz' := hsz _ _ _ he
          rw [he] at hpl hu
          obtain ⟨k0, k1, k2, k3⟩ := hpl
          have hi := ih qs d' _ _ k2 hbs (by
            intro ph hph
            rw [List.mem_filter]
            refine ⟨hp ph (by simp [hph]), ?_⟩
            simp only [decide_eq_true_eq]
            intro hc
            exact n3 ph hc ph hph rfl) n2
          cases hf : flushBufs ty husk bs d' with
          | ub => simp [hf] at hu
          | throw x e => simp [hf] at hu
          | ok x u =>
            obtain ⟨bs1, d1⟩ := x
            simp only [hf] at hu
            cases hu
            obtain ⟨m1, m2⟩ := hi _ _ _ hf
            refine ⟨by simp [m1], fun n b0 hb0 => ?_⟩
            cases n with
            | zero => simp at hb0; subst hb0; exact ⟨b', rfl, k0, hsz'⟩
            | succ n => simpa using m2 n b0 (by simpa using hb0)

/-! ## Contents -/

theorem apply_keeps {C : Handle → Option (Comps V)} {a : ACmd V} {h : Handle} (hc : C h ≠ none) (ha : a ≠ .destroy h) (hr : a.Ready C) :
    a.apply C h ≠ none := by
  cases a with
  | create ph d =>
    simp only [ACmd.apply, ACmd.put]; split
    · simp
    · exact hc
  | clone x ph =>
    simp only [ACmd.apply, ACmd.put]; split
    · exact hr x rfl
    · exact hc
  | set x c v =>
    simp only [ACmd.apply, ACmd.put]; split
    · subst_vars; simpa using hc
    · exact hc
  | remove x c =>
    simp only [ACmd.apply, ACmd.put]; split
    · subst_vars; simpa using hc
    · exact hc
  | destroy x =>
    simp only [ACmd.apply, ACmd.put]; split
    · subst_vars; exact absurd rfl ha
    · exact hc

theorem applyAll_keeps {h : Handle} : ∀ {q : List (Nat × ACmd V)} {C : Handle → Option (Comps V)}, C h ≠ none →
    (∀ x ∈ q, x.2 ≠ .destroy h) → ACmd.AllReady C (q.map Prod.snd) → applyAll C q h ≠ none
  | [], _, hc, _, _ => hc
  | a :: q, C, hc, hd, hr => by
    exact applyAll_keeps (q := q) (C := a.2.apply C) (apply_keeps hc (hd a (by simp)) hr.1) (fun x hx => hd x (by simp [hx])) hr.2

theorem applyAll_creates {h : Handle} : ∀ {q : List (Nat × ACmd V)} {C : Handle → Option (Comps V)}, h ∈ CSys.placeholders q →
    (∀ x ∈ q, x.2 ≠ .destroy h) → ACmd.AllReady C (q.map Prod.snd) → applyAll C q h ≠ none
  | [], _, hm, _, _ => by simp [CSys.placeholders] at hm
  | a :: q, C, hm, hd, hr => by
    rw [placeholders_cons, List.mem_append] at hm
    rcases hm with hm | hm
    · refine applyAll_keeps (q := q) (C := a.2.apply C) ?_ (fun x hx => hd x (by simp [hx])) hr.2
      have hr1 := hr.1
      cases ha : a.2 with
      | create ph d => simp [ha, ACmd.placeholder] at hm; subst hm; simp [ACmd.apply, ACmd.put]
      | clone x ph =>
        rw [ha] at hr1
        simp [ha, ACmd.placeholder] at hm; subst hm; simp only [ACmd.apply, ACmd.put, if_true]; exact hr1 x rfl
      | _ => simp [ha, ACmd.placeholder] at hm
    · exact applyAll_creates (q := q) (C := a.2.apply C) hm (fun x hx => hd x (by simp [hx])) hr.2

end CoEcs
