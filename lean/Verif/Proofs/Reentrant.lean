import Verif.Proofs.CommandMore
import Verif.Spec.Reentrant

/-!
# Flushes during which destructors record commands
-/

namespace CoEcs
open Spec (ACmd CSys NoCreation Recorded RecordedBy applied)
variable {V : Type}

/-- The run of the abstract machine: from buffer `p` on, with queues `qs` and contents `C`, the commands
`ex` are executed; `qs'` and `C'` are left; `r` is the exception that ended it. -/
inductive HRun (ty : Types) (hook : Hook V) (j : Nat) : Nat → List (List (ACmd V)) → ACmd.Content V → List (ACmd V) → List (List (ACmd V)) →
    ACmd.Content V → Option Exn → Prop
  | stop {p qs C} : qs[p]? = none → HRun ty hook j p qs C [] qs C none
  | next {p qs C ex qs' C' r} : qs[p]? = some [] → HRun ty hook j (p + 1) qs C ex qs' C' r → HRun ty hook j p qs C ex qs' C' r
  | run {p qs C a q l ex qs' C' r} : qs[p]? = some (a :: q) → a.Ready C → Recorded hook C a l →
      HRun ty hook j p ((qs.set p q).modify j (· ++ l)) (a.apply C) ex qs' C' r → HRun ty hook j p qs C (a :: ex) qs' C' r
  | fail {p qs C a q e} : qs[p]? = some (a :: q) → a.Fails ty C e → HRun ty hook j p qs C [] (qs.set p q) C (some e)

/-! ## Calls without creation -/

theorem BufRel.call {ty : Types} {b : Buf V} {q : List (Nat × ACmd V)} (h : BufRel ty b q) {d d' : Reg V} {b' : Buf V} {k : Call V} {a : ACmd V}
    (i : Nat) (ha : Spec.Call.command k = some a) (hc : b.call ty d k = some (b', d')) :
    d' = d ∧ BufRel ty b' (q ++ [(i, a)]) ∧ a.placeholder = none := by
  cases k with
  | create => cases ha
  | clone => cases ha
  | set x c v =>
    cases ha
    simp only [Buf.call] at hc
    split at hc
    · rename_i hb
      simp only [Buf.set] at hc
      rcases h.stage (args := [(c, v)]) (by simp) hb with ⟨s, st, q1, q2⟩ | ⟨s, q1, _⟩
      · rw [q1] at hc
        cases hc
        refine ⟨rfl, q2 _ _ rfl fun S hS => ⟨rfl, rfl, _, hS, by simp [Spec.World.listed]⟩, rfl⟩
      · rw [q1] at hc; cases hc
    · cases hc
  | remove x c =>
    cases ha
    cases hc
    exact ⟨rfl, h.push (fun S => ⟨rfl, rfl⟩) rfl, rfl⟩
  | destroy x =>
    cases ha
    cases hc
    exact ⟨rfl, h.push (fun S => rfl) rfl, rfl⟩

theorem modify_append_append {X : Type} (l l' : List X) : ∀ (qs : List (List X)) (j : Nat),
    (qs.modify j (· ++ l)).modify j (· ++ l') = qs.modify j (· ++ (l ++ l'))
  | [], _ => by simp
  | q :: qs, 0 => by simp
  | q :: qs, j + 1 => by simp [modify_append_append l l' qs j]

theorem calls_spec {ty : Types} {j i : Nat} : ∀ (ks : List (Call V)) {bs bs' : List (Option (Buf V))} {qs : List (List (Nat × ACmd V))} {d d' : Reg V},
    BufsRel ty bs qs → (∀ k ∈ ks, (Spec.Call.command k).isSome) → calls ty (some j) ks bs d = some (bs', d') →
    d' = d ∧ BufsRel ty bs' (qs.modify j (· ++ (ks.filterMap Spec.Call.command).map (i, ·))) ∧
      ∀ a ∈ ks.filterMap Spec.Call.command, a.placeholder = none := by
  intro ks
  induction ks with
  | nil =>
    intro bs bs' qs d d' hb _ hc
    cases hc
    refine ⟨rfl, ?_, by simp⟩
    have : (fun q : List (Nat × ACmd V) => q ++ (([] : List (Call V)).filterMap Spec.Call.command).map (i, ·)) = fun q => q := by
      funext q; simp
    rw [this, modify_id]
    exact hb
  | cons k ks ih =>
    intro bs bs' qs d d' hb hk hc
    simp only [calls] at hc
    split at hc
    · rename_i b hbj
      cases hcall : b.call ty d k with
      | none => rw [hcall] at hc; cases hc
      | some x =>
        obtain ⟨b1, d1⟩ := x
        rw [hcall] at hc
        obtain ⟨a, ha⟩ := Option.isSome_iff_exists.1 (hk k (by simp))
        obtain ⟨q, hq, hbq⟩ := hb.get hbj
        obtain ⟨e1, e2, e3⟩ := hbq.call i ha hcall
        subst e1
        have hb1 : BufsRel ty (bs.set j (some b1)) (qs.modify j (· ++ [(i, a)])) :=
          hb.put fun q' hq' => by rw [hq] at hq'; cases hq'; exact e2
        obtain ⟨r1, r2, r3⟩ := ih hb1 (fun k hk' => hk k (by simp [hk'])) hc
        refine ⟨r1, ?_, ?_⟩
        · rw [modify_append_append] at r2
          rw [List.filterMap_cons, ha]
          exact r2
        · intro x hx
          rw [List.filterMap_cons, ha] at hx
          rcases List.mem_cons.1 hx with rfl | hx
          · exact e3
          · exact r3 x hx
    · cases hc

/-- Without commands to record, nothing happens. -/
theorem calls_nil {ty : Types} {own : Option Nat} {bs : List (Option (Buf V))} {d : Reg V} : calls ty own [] bs d = some (bs, d) := rfl

/-! ## Queues -/

theorem flatten_set {X : Type} {x : X} {q : List X} : ∀ {qs : List (List X)} {p : Nat}, qs[p]? = some (x :: q) →
    qs.flatten.Perm (x :: (qs.set p q).flatten)
  | [], _, h => by simp at h
  | q' :: qs, 0, h => by simp at h; subst h; simp
  | q' :: qs, p + 1, h => by
    have := flatten_set (x := x) (q := q) (qs := qs) (p := p) (by simpa using h)
    simp only [List.set_cons_succ, List.flatten_cons]
    exact (this.append_left q').trans List.perm_middle

theorem placeholders_modify {l : List (Nat × ACmd V)} (hl : CSys.placeholders l = []) : ∀ (qs : List (List (Nat × ACmd V))) (j : Nat),
    CSys.placeholders (qs.modify j (· ++ l)).flatten = CSys.placeholders qs.flatten
  | [], _ => by simp
  | q :: qs, 0 => by simp [placeholders_append, hl]
  | q :: qs, j + 1 => by simp [placeholders_append, placeholders_modify hl qs j]

theorem placeholders_tag {l : List (ACmd V)} (i : Nat) (hl : ∀ a ∈ l, a.placeholder = none) : CSys.placeholders (l.map (i, ·)) = [] := by
  unfold CSys.placeholders
  rw [List.filterMap_eq_nil_iff]
  intro x hx
  obtain ⟨a, ha, rfl⟩ := List.mem_map.1 hx
  exact hl a ha

theorem BufsRel.get_none {ty : Types} : ∀ {bs : List (Option (Buf V))} {qs : List (List (Nat × ACmd V))} {p : Nat},
    BufsRel ty bs qs → bs[p]? = none → qs[p]? = none
  | [], [], _, _, _ => by simp
  | none :: _, _ :: _, 0, _, hp => by simp at hp
  | some _ :: _, _ :: _, 0, _, hp => by simp at hp
  | none :: _, _ :: _, p + 1, h, hp => by simpa using BufsRel.get_none h.2 (by simpa using hp)
  | some _ :: _, _ :: _, p + 1, h, hp => by simpa using BufsRel.get_none h.2 (by simpa using hp)
  | [], _ :: _, _, h, _ => h.elim
  | none :: _, [], _, h, _ => h.elim
  | some _ :: _, [], _, h, _ => h.elim

theorem modify_const {X : Type} {q : X} : ∀ {qs : List X} {p : Nat}, qs.modify p (fun _ => q) = qs.set p q
  | [], _ => by simp
  | _ :: _, 0 => rfl
  | _ :: qs, p + 1 => by simp [modify_const (qs := qs) (p := p)]

/-! ## The machine -/

/-- What executing one command does to queues and contents. -/
def HStepSpec (ty : Types) (hook : Hook V) (j i p : Nat) (qs : List (List (Nat × ACmd V))) (C : ACmd.Content V) (P : List Handle)
    (a : ACmd V) (q : List (Nat × ACmd V)) : Res (List (Option (Buf V)) × Reg V) Unit → Prop
  | .ub => True
  | .throw (bs', d') e => BufsRel ty bs' (qs.set p q) ∧ RInv ty d' 0 P C ∧ a.Fails ty C e
  | .ok (bs', d') _ => a.Ready C ∧ ∃ l, Recorded hook C a l ∧ (∀ x ∈ l, x.placeholder = none) ∧
      BufsRel ty bs' ((qs.set p q).modify j (· ++ l.map (i, ·))) ∧ RInv ty d' 0 (P.filter fun h => a.placeholder ≠ some h) (a.apply C)

theorem filterMap_flatMap {A B D : Type} (f : A → List B) (g : B → Option D) : ∀ (l : List A),
    (l.flatMap f).filterMap g = l.flatMap fun x => (f x).filterMap g
  | [] => rfl
  | x :: l => by simp [List.filterMap_append, filterMap_flatMap f g l]

theorem execWith_spec {ty : Types} (husk : V → V) {hook : Hook V} (hh : NoCreation hook) {j i p : Nat} {bs : List (Option (Buf V))}
    {qs : List (List (Nat × ACmd V))} {d : Reg V} {C : ACmd.Content V} {P : List Handle} (Id : RInv ty d 0 P C) (hb : BufsRel ty bs qs)
    {s : Reg V} {c : Cmd} {cs : List Cmd} {a : Nat × ACmd V} {q : List (Nat × ACmd V)} (hp : qs[p]? = some (a :: q))
    (hbq : BufRel ty ⟨s, c :: cs⟩ (a :: q)) (hph : ∀ ph, a.2.placeholder = some ph → ph ∈ P) :
    HStepSpec ty hook j i p qs C P a.2 q (c.execWith ty husk hook (some j) p bs d s cs) := by
  obtain ⟨S, Is, ⟨h1, h2⟩, hn⟩ := hbq
  have hx := exec_spec husk Is Id h1 hph
  have hn2 : (cs.filterMap Cmd.staged).Nodup ∧ ∀ st, c.staged = some st → st ∉ cs.filterMap Cmd.staged := by
    cases hc : c.staged with
    | none => simp only [List.filterMap_cons, hc] at hn; exact ⟨hn, fun _ h => by cases h⟩
    | some st =>
      simp only [List.filterMap_cons, hc] at hn
      exact ⟨(List.nodup_cons.1 hn).2, fun st' h => by cases h; exact (List.nodup_cons.1 hn).1⟩
  have hpop : BufsRel ty (bs.set p (some ⟨s, cs⟩)) (qs.set p q) := by
    have := hb.put (b := p) (buf' := ⟨s, cs⟩) (f := fun _ => q) fun _ _ => ⟨S, Is, h2, hn2.1⟩
    rwa [modify_const] at this
  -- commands that destroy nothing
  have hplain : (∀ l, Recorded hook C a.2 l ↔ l = []) → HStepSpec ty hook j i p qs C P a.2 q
      (match c.exec ty husk s d with
        | .ub => .ub
        | .throw (s, d) e => .throw (bs.set p (some ⟨s, cs⟩), d) e
        | .ok (s, d) _ => .ok (bs.set p (some ⟨s, cs⟩), d) ()) := by
    intro hrec
    cases he : c.exec ty husk s d with
    | ub => trivial
    | throw sd e =>
      obtain ⟨s', d'⟩ := sd
      rw [he] at hx
      obtain ⟨rfl, x2, x3⟩ := hx
      exact ⟨hpop, x2, x3⟩
    | ok sd u =>
      obtain ⟨s', d'⟩ := sd
      rw [he] at hx
      obtain ⟨x1, x2, x3, _, _⟩ := hx
      refine ⟨x3, [], (hrec []).2 rfl, by simp, ?_, x2⟩
      have : (fun x : List (Nat × ACmd V) => x ++ (([] : List (ACmd V)).map (i, ·))) = fun x => x := by funext x; simp
      rw [this, modify_id]
      have := hb.put (b := p) (buf' := ⟨s', cs⟩) (f := fun _ => q) fun _ _ =>
        ⟨_, x1, h2.frame fun st hst => Cmd.after_ne fun hc => hn2.2 st hc hst, hn2.1⟩
      rwa [modify_const] at this
  cases c with
  | destroy h =>
    cases ha : a.2 <;> rw [ha] at h1 <;> simp only [CmdRel] at h1
    subst h1
    simp only [Cmd.execWith]
    cases hC : C h with
    | none =>
      rw [Id.rep.visit_none hC]
      exact ⟨hpop, Id, .inl ⟨h, rfl, hC, notFound_or rfl⟩⟩
    | some dd =>
      obtain ⟨l, v1, v2, v3⟩ := Id.rep.visit hC
      rw [v1]
      simp only
      cases hcl : calls ty (some j) (l.flatMap fun x => hook x.1 x.2) (bs.set p (some ⟨s, cs⟩)) d with
      | none => trivial
      | some x =>
        obtain ⟨bs1, d1⟩ := x
        obtain ⟨e1, e2, e3⟩ := calls_spec (i := i) _ hpop (by
          intro k hk
          obtain ⟨y, _, hk⟩ := List.mem_flatMap.1 hk
          exact hh y.1 y.2 k hk) hcl
        subst e1
        simp only
        rw [ha] at hx
        have hx' : ExecSpec ty husk s d1 S C P (.destroy h) (.destroy h) (match d1.destroy h with
            | .ub => .ub
            | .throw d e => .throw (s, d) e
            | .ok d _ => .ok (s, d) ()) := hx
        have hdn := Id.rep.destroy hC
        rcases hdn with ⟨q1, _⟩ | ⟨d', q1, _⟩
        · rw [q1]; trivial
        · rw [q1] at hx' ⊢
          obtain ⟨x1, x2, x3, _, _⟩ := hx'
          refine ⟨x3, _, ⟨dd, l, hC, v2, v3, rfl⟩, ?_, ?_, x2⟩
          · intro x hx
            refine e3 x ?_
            rw [filterMap_flatMap]; exact hx
          · rw [filterMap_flatMap] at e2; exact e2
  | create st ph =>
    cases ha : a.2 <;> rw [ha] at h1 <;> simp only [CmdRel] at h1
    rw [ha] at hplain
    exact hplain fun l => Iff.rfl
  | clone h ph =>
    cases ha : a.2 <;> rw [ha] at h1 <;> simp only [CmdRel] at h1
    rw [ha] at hplain
    exact hplain fun l => Iff.rfl
  | set st h c =>
    cases ha : a.2 <;> rw [ha] at h1 <;> simp only [CmdRel] at h1
    rw [ha] at hplain
    exact hplain fun l => Iff.rfl
  | remove h c =>
    cases ha : a.2 <;> rw [ha] at h1 <;> simp only [CmdRel] at h1
    rw [ha] at hplain
    exact hplain fun l => Iff.rfl

/-- Queues without the registries of the commands. -/
def plain (qs : List (List (Nat × ACmd V))) : List (List (ACmd V)) := qs.map (·.map Prod.snd)

theorem plain_get (qs : List (List (Nat × ACmd V))) (p : Nat) : (plain qs)[p]? = qs[p]?.map (·.map Prod.snd) := by simp [plain]

theorem plain_step {qs : List (List (Nat × ACmd V))} {p j i : Nat} {q : List (Nat × ACmd V)} {l : List (ACmd V)} :
    plain ((qs.set p q).modify j (· ++ l.map (i, ·))) = ((plain qs).set p (q.map Prod.snd)).modify j (· ++ l) := by
  apply List.ext_getElem?
  intro k
  rw [plain_get, List.getElem?_modify, List.getElem?_modify, List.getElem?_set, List.getElem?_set, plain_get]
  have hlen : (plain qs).length = qs.length := by simp [plain]
  rw [hlen]
  by_cases hj : j = k <;> by_cases hp : p = k <;> by_cases hl : p < qs.length <;> simp [hj, hp, hl]
  all_goals (cases qs[k]? <;> simp [Function.comp_def])
  all_goals (split <;> simp [Function.comp_def])

/-- How a flush ends. -/
def EndSpec (ty : Types) (hook : Hook V) (j p : Nat) (qs : List (List (Nat × ACmd V))) (C : ACmd.Content V) (i : Nat) :
    Res (List (Option (Buf V)) × Reg V) Unit → Prop
  | .ub => True
  | .ok (bs', d') _ => ∃ ex qs' C' P', HRun ty hook j p (plain qs) C ex (plain qs') C' none ∧ BufsRel ty bs' qs' ∧ RInv ty d' 0 P' C' ∧
      (∀ ph ∈ CSys.placeholders qs'.flatten, ph ∈ P') ∧ (CSys.placeholders qs'.flatten).Nodup
  | .throw (bs', d') e => ∃ ex qs' C' P', HRun ty hook j p (plain qs) C ex (plain qs') C' (some e) ∧ BufsRel ty bs' qs' ∧ RInv ty d' 0 P' C' ∧
      (∀ ph ∈ CSys.placeholders qs'.flatten, ph ∈ P') ∧ (CSys.placeholders qs'.flatten).Nodup

theorem flushFrom_spec {ty : Types} (husk : V → V) {hook : Hook V} (hh : NoCreation hook) {j i : Nat} : ∀ (n p : Nat)
    (bs : List (Option (Buf V))) (qs : List (List (Nat × ACmd V))) (d : Reg V) (C : ACmd.Content V) (P : List Handle),
    RInv ty d 0 P C → BufsRel ty bs qs → (∀ ph ∈ CSys.placeholders qs.flatten, ph ∈ P) → (CSys.placeholders qs.flatten).Nodup →
    ∀ r, flushFrom ty husk hook (some j) n p bs d = some r → EndSpec ty hook j p qs C i r := by
  intro n
  induction n with
  | zero => intro p bs qs d C P _ _ _ _ r hr; cases hr
  | succ n ih =>
    intro p bs qs d C P Id hb hp hn r hr
    simp only [flushFrom] at hr
    cases hbp : bs[p]? with
    | none =>
      rw [hbp] at hr
      cases hr
      exact ⟨[], qs, C, P, .stop (by rw [plain_get, hb.get_none hbp]; rfl), hb, Id, hp, hn⟩
    | some ob =>
      cases ob with
      | none => rw [hbp] at hr; cases hr; trivial
      | some b =>
        rw [hbp] at hr
        simp only at hr
        obtain ⟨q, hq, hbq⟩ := hb.get hbp
        obtain ⟨s, cmds⟩ := b
        cases cmds with
        | nil =>
          simp only at hr
          have hq0 : q = [] := List.eq_nil_of_length_eq_zero hbq.length.symm
          subst hq0
          have := ih (p + 1) bs qs d C P Id hb hp hn r hr
          have hnx : (plain qs)[p]? = some [] := by rw [plain_get, hq]; rfl
          cases r with
          | ub => trivial
          | ok x u =>
            obtain ⟨ex, qs', C', P', h1, h2⟩ := this
            exact ⟨ex, qs', C', P', .next hnx h1, h2⟩
          | throw x e =>
            obtain ⟨ex, qs', C', P', h1, h2⟩ := this
            exact ⟨ex, qs', C', P', .next hnx h1, h2⟩
        | cons c cs =>
          simp only at hr
          cases q with
          | nil => have := hbq.length; simp at this
          | cons a q =>
            have hperm := (flatten_set hq).filterMap fun x => x.2.placeholder
            have hcons : CSys.placeholders qs.flatten |>.Perm (a.2.placeholder.toList ++ CSys.placeholders (qs.set p q).flatten) := by
              rw [← placeholders_cons]; exact hperm
            have hstep := execWith_spec husk hh (j := j) (i := i) Id hb hq hbq (fun ph hph => hp ph (hcons.mem_iff.2 (by simp [hph])))
            have hget : (plain qs)[p]? = some (a.2 :: q.map Prod.snd) := by rw [plain_get, hq]; rfl
            obtain ⟨n1, n2, n3⟩ := List.nodup_append.1 (hcons.nodup hn)
            cases he : c.execWith ty husk hook (some j) p bs d s cs with
            | ub => rw [he] at hr; cases hr; trivial
            | throw x e =>
              obtain ⟨bs1, d1⟩ := x
              rw [he] at hr hstep
              cases hr
              obtain ⟨k1, k2, k3⟩ := hstep
              refine ⟨[], qs.set p q, C, P, ?_, k1, k2, fun ph hph => hp ph (hcons.mem_iff.2 (by simp [hph])), n2⟩
              have : plain (qs.set p q) = (plain qs).set p (q.map Prod.snd) := by simp [plain, List.map_set]
              rw [this]
              exact .fail hget k3
            | ok x u =>
              obtain ⟨bs1, d1⟩ := x
              rw [he] at hr hstep
              obtain ⟨k1, l, k2, k3, k4, k5⟩ := hstep
              have hpl : CSys.placeholders ((qs.set p q).modify j (· ++ l.map (i, ·))).flatten = CSys.placeholders (qs.set p q).flatten :=
                placeholders_modify (placeholders_tag i k3) _ _
              have := ih p bs1 _ d1 _ _ k5 k4 (by
                intro ph hph
                rw [hpl] at hph
                rw [List.mem_filter]
                refine ⟨hp ph (hcons.mem_iff.2 (by simp [hph])), ?_⟩
                simp only [decide_eq_true_eq]
                intro hc
                exact n3 ph (by simp [hc]) ph hph rfl) (by rw [hpl]; exact n2) r hr
              cases r with
              | ub => trivial
              | ok x u =>
                obtain ⟨ex, qs', C', P', h1, h2⟩ := this
                rw [plain_step] at h1
                exact ⟨_, qs', C', P', .run hget k1 k2 h1, h2⟩
              | throw x e =>
                obtain ⟨ex, qs', C', P', h1, h2⟩ := this
                rw [plain_step] at h1
                exact ⟨_, qs', C', P', .run hget k1 k2 h1, h2⟩

/-! ## The order of execution -/

section order
variable {X : Type}

theorem get_mod_self {f : X → X} {qs : List X} {j : Nat} : (qs.modify j f)[j]? = qs[j]?.map f := by
  simp [List.getElem?_modify]

theorem get_mod_ne {f : X → X} {qs : List X} {j k : Nat} (h : k ≠ j) : (qs.modify j f)[k]? = qs[k]? := by
  simp [List.getElem?_modify, Ne.symm h]

theorem drop_at {x : X} : ∀ {qs : List X} {p : Nat}, qs[p]? = some x → qs.drop p = x :: qs.drop (p + 1)
  | [], _, h => by simp at h
  | _ :: _, 0, h => by simp at h; subst h; rfl
  | _ :: qs, p + 1, h => by simpa using drop_at (qs := qs) (p := p) (by simpa using h)

theorem drop_modify_lt {f : X → X} : ∀ {qs : List X} {j p : Nat}, j < p → (qs.modify j f).drop p = qs.drop p
  | [], _, _, _ => by simp
  | _ :: _, _, 0, h => by omega
  | _ :: _, 0, p + 1, _ => by simp
  | _ :: qs, j + 1, p + 1, h => by simpa using drop_modify_lt (qs := qs) (j := j) (p := p) (by omega)

theorem drop_set_at {x y : X} : ∀ {qs : List X} {p : Nat}, qs[p]? = some x → (qs.set p y).drop p = y :: qs.drop (p + 1)
  | [], _, h => by simp at h
  | _ :: _, 0, _ => rfl
  | _ :: qs, p + 1, h => by simpa using drop_set_at (qs := qs) (p := p) (by simpa using h)

theorem drop_set_lt {y : X} : ∀ {qs : List X} {j p : Nat}, j < p → (qs.set j y).drop p = qs.drop p
  | [], _, _, _ => by simp
  | _ :: _, _, 0, h => by omega
  | _ :: _, 0, p + 1, _ => by simp
  | _ :: qs, j + 1, p + 1, h => by simpa using drop_set_lt (qs := qs) (j := j) (p := p) (by omega)

theorem take_modify {f : X → X} : ∀ {qs : List X} {j : Nat}, (qs.modify j f).take j = qs.take j
  | [], _ => by simp
  | _ :: _, 0 => rfl
  | _ :: qs, j + 1 => by simpa using take_modify (qs := qs) (j := j)

theorem take_set_lt {y : X} : ∀ {qs : List X} {j p : Nat}, (qs.set p y).take j = (qs.take j).set p y
  | [], _, _ => by simp
  | _ :: _, 0, _ => by simp
  | _ :: _, j + 1, 0 => by simp
  | _ :: qs, j + 1, p + 1 => by simpa using take_set_lt (qs := qs) (j := j) (p := p)

end order

/-- The buffers after that of the flushing thread. -/
theorem HRun.later {ty : Types} {hook : Hook V} {j p : Nat} {qs qs' : List (List (ACmd V))} {C C' : ACmd.Content V} {ex : List (ACmd V)}
    {r : Option Exn} (h : HRun ty hook j p qs C ex qs' C' r) (hr : r = none) (hj : j < p) :
    ex = (qs.drop p).flatten ∧ ACmd.AllReady C ex ∧ C' = applied C ex ∧ ∃ s, RecordedBy hook C ex s ∧
      ∀ k, qs'[k]? = if k = j then qs[j]?.map (· ++ s) else if k < p then qs[k]? else qs[k]?.map fun _ => [] := by
  induction h with
  | stop h0 =>
    rename_i p qs C
    refine ⟨?_, trivial, rfl, [], .nil, ?_⟩
    · rw [List.drop_eq_nil_of_le (List.getElem?_eq_none_iff.1 h0)]; rfl
    · intro k
      split
      · rename_i hk; subst hk; simp
      · split
        · rfl
        · have : qs[k]? = none := List.getElem?_eq_none (by have := List.getElem?_eq_none_iff.1 h0; omega)
          rw [this]; rfl
  | next h0 _ ih =>
    rename_i p qs C ex qs' C' r _
    obtain ⟨i1, i2, i3, s, i4, i5⟩ := ih hr (by omega)
    refine ⟨by rw [drop_at h0, i1]; rfl, i2, i3, s, i4, fun k => ?_⟩
    rw [i5 k]
    split
    · rfl
    · by_cases hk : k = p
      · subst hk; rw [if_pos (by omega), if_neg (by omega), h0]; rfl
      · by_cases hk2 : k < p
        · rw [if_pos (by omega), if_pos hk2]
        · rw [if_neg (by omega), if_neg hk2]
  | run h0 h1 h2 _ ih =>
    rename_i p qs C a q l ex qs' C' r _
    obtain ⟨i1, i2, i3, s, i4, i5⟩ := ih hr hj
    refine ⟨?_, ⟨h1, i2⟩, i3, l ++ s, .cons h2 i4, fun k => ?_⟩
    · rw [drop_modify_lt hj, drop_set_at h0] at i1
      rw [drop_at h0, i1]; rfl
    · rw [i5 k]
      by_cases hk : k = j
      · subst hk
        rw [if_pos rfl, if_pos rfl, get_mod_self, List.getElem?_set_ne (by omega)]
        cases qs[k]? <;> simp
      · rw [if_neg hk, if_neg hk, get_mod_ne hk]
        by_cases hk2 : k = p
        · subst hk2
          rw [if_neg (by omega), if_neg (by omega), List.getElem?_set_self (List.getElem?_eq_some_iff.1 h0).1, h0]; rfl
        · rw [List.getElem?_set_ne (by omega)]
  | fail => cases hr

/-- The buffer of the flushing thread and those after it. -/
theorem HRun.own {ty : Types} {hook : Hook V} {j p : Nat} {qs qs' : List (List (ACmd V))} {C C' : ACmd.Content V} {ex : List (ACmd V)}
    {r : Option Exn} (h : HRun ty hook j p qs C ex qs' C' r) (hr : r = none) (hj : p = j) {q : List (ACmd V)} (hq : qs[j]? = some q) :
    ∃ mid s2 s3, mid = q ++ s2 ∧ RecordedBy hook C mid s2 ∧ RecordedBy hook (applied C mid) (qs.drop (j + 1)).flatten s3 ∧
      ex = mid ++ (qs.drop (j + 1)).flatten ∧ ACmd.AllReady C ex ∧ C' = applied C ex ∧
      ∀ k, qs'[k]? = if k = j then some s3 else if k < j then qs[k]? else qs[k]?.map fun _ => [] := by
  induction h generalizing q with
  | stop h0 => subst hj; rw [hq] at h0; cases h0
  | next h0 h' =>
    rename_i p qs C ex qs' C' r _
    subst hj
    rw [hq] at h0
    cases h0
    obtain ⟨i1, i2, i3, s, i4, i5⟩ := h'.later hr (by omega)
    subst i1
    refine ⟨[], [], s, rfl, .nil, i4, rfl, i2, i3, fun k => ?_⟩
    rw [i5 k]
    split
    · rw [hq]; simp
    · by_cases hk2 : k < p
      · rw [if_pos (by omega), if_pos hk2]
      · rw [if_neg (by omega), if_neg hk2]
  | run h0 h1 h2 _ ih =>
    rename_i p qs C a q0 l ex qs' C' r _
    subst hj
    rw [hq] at h0
    cases h0
    have hlt := (List.getElem?_eq_some_iff.1 hq).1
    obtain ⟨mid, s2, s3, m1, m2, m3, m4, m5, m6, m7⟩ := ih hr rfl (q := q0 ++ l) (by
      rw [get_mod_self, List.getElem?_set_self hlt]; rfl)
    rw [drop_modify_lt (by omega), drop_set_lt (by omega)] at m3 m4
    refine ⟨a :: mid, l ++ s2, s3, by rw [m1]; simp, .cons h2 m2, m3, by rw [m4]; rfl, ⟨h1, m5⟩, m6, fun k => ?_⟩
    rw [m7 k]
    by_cases hk : k = p
    · rw [if_pos hk, if_pos hk]
    · rw [if_neg hk, if_neg hk, get_mod_ne hk, List.getElem?_set_ne (by omega)]
  | fail => cases hr

/-- All buffers from `p` on, up to that of the flushing thread and beyond. -/
theorem HRun.all {ty : Types} {hook : Hook V} {j p : Nat} {qs qs' : List (List (ACmd V))} {C C' : ACmd.Content V} {ex : List (ACmd V)}
    {r : Option Exn} (h : HRun ty hook j p qs C ex qs' C' r) (hr : r = none) (hj : p ≤ j) {q : List (ACmd V)} (hq : qs[j]? = some q) :
    ∃ mid s1 s2 s3, RecordedBy hook C ((qs.take j).drop p).flatten s1 ∧ mid = q ++ s1 ++ s2 ∧
      RecordedBy hook (applied C ((qs.take j).drop p).flatten) mid s2 ∧
      RecordedBy hook (applied C (((qs.take j).drop p).flatten ++ mid)) (qs.drop (j + 1)).flatten s3 ∧
      ex = ((qs.take j).drop p).flatten ++ mid ++ (qs.drop (j + 1)).flatten ∧ ACmd.AllReady C ex ∧ C' = applied C ex ∧
      ∀ k, qs'[k]? = if k = j then some s3 else if k < p then qs[k]? else qs[k]?.map fun _ => [] := by
  induction h generalizing q with
  | stop h0 =>
    have h1 := List.getElem?_eq_none_iff.1 h0
    have h2 := (List.getElem?_eq_some_iff.1 hq).1
    omega
  | next h0 h' ih =>
    rename_i p qs C ex qs' C' r
    by_cases hpj : p = j
    · subst hpj
      obtain ⟨mid, s2, s3, m1, m2, m3, m4, m5, m6, m7⟩ := (HRun.next h0 h').own hr rfl hq
      have e : ((qs.take p).drop p).flatten = [] := by simp
      rw [e]
      exact ⟨mid, [], s2, s3, .nil, by rw [m1]; simp, m2, m3, m4, m5, m6, m7⟩
    · obtain ⟨mid, s1, s2, s3, m0, m1, m2, m3, m4, m5, m6, m7⟩ := ih hr (by omega) hq
      have e : ((qs.take j).drop p).flatten = ((qs.take j).drop (p + 1)).flatten := by
        rw [drop_at (x := []) (by rw [List.getElem?_take_of_lt (by omega)]; exact h0)]; rfl
      rw [e]
      refine ⟨mid, s1, s2, s3, m0, m1, m2, m3, m4, m5, m6, fun k => ?_⟩
      rw [m7 k]
      split
      · rfl
      · by_cases hk : k = p
        · subst hk; rw [if_pos (by omega), if_neg (by omega), h0]; rfl
        · by_cases hk2 : k < p
          · rw [if_pos (by omega), if_pos hk2]
          · rw [if_neg (by omega), if_neg hk2]
  | run h0 h1 h2 h' ih =>
    rename_i p qs C a q0 l ex qs' C' r
    by_cases hpj : p = j
    · subst hpj
      obtain ⟨mid, s2, s3, m1, m2, m3, m4, m5, m6, m7⟩ := (HRun.run h0 h1 h2 h').own hr rfl hq
      have e : ((qs.take p).drop p).flatten = [] := by simp
      rw [e]
      exact ⟨mid, [], s2, s3, .nil, by rw [m1]; simp, m2, m3, m4, m5, m6, m7⟩
    · obtain ⟨mid, s1, s2, s3, m0, m1, m2, m3, m4, m5, m6, m7⟩ := ih hr hj (q := q ++ l) (by
        rw [get_mod_self, List.getElem?_set_ne hpj, hq]; rfl)
      have ht : (qs.take j)[p]? = some (a :: q0) := by rw [List.getElem?_take_of_lt (by omega)]; exact h0
      rw [take_modify, take_set_lt, drop_set_at ht] at m0 m2 m3 m4
      rw [drop_modify_lt (by omega), drop_set_lt (by omega)] at m3 m4
      have e : ((qs.take j).drop p).flatten = a :: (q0 :: (qs.take j).drop (p + 1)).flatten := by
        rw [drop_at ht]; rfl
      rw [e]
      refine ⟨mid, l ++ s1, s2, s3, .cons h2 m0, by rw [m1]; simp, m2, m3, by rw [m4]; rfl, ⟨h1, m5⟩, m6, fun k => ?_⟩
      rw [m7 k]
      by_cases hk : k = j
      · rw [if_pos hk, if_pos hk]
      · rw [if_neg hk, if_neg hk, get_mod_ne hk]
        by_cases hk2 : k = p
        · subst hk2
          rw [if_neg (by omega), if_neg (by omega), List.getElem?_set_self (List.getElem?_eq_some_iff.1 h0).1, h0]; rfl
        · rw [List.getElem?_set_ne (by omega)]
  | fail => cases hr

end CoEcs
