import Verif.Proofs.Observe
import Verif.Spec.Command

/-!
# Executing commands
-/

namespace CoEcs
open Spec (ACmd CSys COp CReach Sys SysOp Out noHandle withHandle)
variable {V : Type}

theorem RInv.sub {ty : Types} {r : Reg V} {k : Nat} {P P' : List Handle} {W : Handle → Option (Comps V)} (I : RInv ty r k P W)
    (h : ∀ x ∈ P', x ∈ P) : RInv ty r k P' W := ⟨I.rep, fun x hx => I.res x (h x hx)⟩

/-- The staging entity a command refers to. -/
def Cmd.staged : Cmd → Option Handle
  | .create st _ | .set st _ _ => some st
  | _ => none

/-- A queued command stands for a recorded command, given the contents of the staging registry. -/
def CmdRel (S : Handle → Option (Comps V)) : Cmd → ACmd V → Prop
  | .create st ph, .create ph' d => ph = ph' ∧ S st = some d
  | .clone h ph, .clone h' ph' => h = h' ∧ ph = ph'
  | .set st h c, .set h' c' v => h = h' ∧ c = c' ∧ ∃ d, S st = some d ∧ d c = some v
  | .remove h c, .remove h' c' => h = h' ∧ c = c'
  | .destroy h, .destroy h' => h = h'
  | _, _ => False

theorem CmdRel.frame {S S' : Handle → Option (Comps V)} {c : Cmd} {a : ACmd V} (h : CmdRel S c a)
    (hs : ∀ st, c.staged = some st → S' st = S st) : CmdRel S' c a := by
  cases c <;> cases a <;> simp only [CmdRel, Cmd.staged] at h hs ⊢ <;> try exact h
  · rw [hs _ rfl]; exact h
  · rw [hs _ rfl]; exact h

/-- The staging registry after a command. -/
def Cmd.after (husk : V → V) (S : Handle → Option (Comps V)) : Cmd → Handle → Option (Comps V)
  | .create st _ => World.put S st none
  | .set st _ c => World.put S st ((S st).map fun d => Spec.World.withComp d c ((d c).map husk))
  | _ => S

theorem Cmd.after_ne {husk : V → V} {S : Handle → Option (Comps V)} {c : Cmd} {st : Handle} (h : c.staged ≠ some st) :
    c.after husk S st = S st := by
  cases c with
  | create st' ph => exact put_ne (fun e => h (by rw [e]; rfl))
  | set st' h' c' => exact put_ne (fun e => h (by rw [e]; rfl))
  | _ => rfl

/-- Some archetype of the registry has an empty last chunk that is not its only one. -/
def BadLast (r : Reg V) : Prop := ∃ (i : Nat) (a : Arch V), r.archs.arches[i]? = some a ∧ ¬ a.LastOk

/-- What executing one command does. -/
def ExecSpec (ty : Types) (husk : V → V) (s d : Reg V) (S C : Handle → Option (Comps V)) (P : List Handle) (c : Cmd) (a : ACmd V) :
    Res (Reg V × Reg V) Unit → Prop
  | .ub => BadLast s ∨ BadLast d
  | .throw (s', d') e => s' = s ∧ RInv ty d' 0 P C ∧ a.Fails ty C e
  | .ok (s', d') _ => RInv ty s' 0 [] (c.after husk S) ∧ RInv ty d' 0 (P.filter fun h => a.placeholder ≠ some h) (a.apply C) ∧
      a.Ready C ∧ Keep s.archs s'.archs ∧ Keep d.archs d'.archs

theorem notFound_or {b : Bool} {e : Exn} (h : e = if b then .outOfRange else .entityNotFound) : e = .entityNotFound ∨ e = .outOfRange := by
  cases b <;> simp_all

theorem filter_none {P : List Handle} {a : ACmd V} (h : a.placeholder = none) : P.filter (fun x => a.placeholder ≠ some x) = P := by
  rw [List.filter_eq_self]; intro x _; simp [h]

theorem filter_some {P : List Handle} {a : ACmd V} {ph : Handle} (h : a.placeholder = some ph) :
    P.filter (fun x => a.placeholder ≠ some x) = P.filter (· ≠ ph) := by
  apply List.filter_congr; intro x _; simp [h, eq_comm]

theorem exec_spec {ty : Types} (husk : V → V) {s d : Reg V} {S C : Handle → Option (Comps V)} {P : List Handle}
    (Is : RInv ty s 0 [] S) (Id : RInv ty d 0 P C) {c : Cmd} {a : ACmd V} (hr : CmdRel S c a)
    (hp : ∀ ph, a.placeholder = some ph → ph ∈ P) : ExecSpec ty husk s d S C P c a (c.exec ty husk s d) := by
  cases c with
  | create st ph =>
    cases a <;> simp only [CmdRel] at hr
    rename_i ph' dd
    obtain ⟨rfl, hst⟩ := hr
    have hm := hp ph rfl
    have hh := (Id.res ph hm).1.held Id.rep.pool
    have := Is.moveInto Id st hh (Id.res ph hm).2
    simp only [Cmd.exec]
    rcases Is.rep.moveInto Id.rep hst hh (Id.res ph hm).2 with ⟨q1, q2⟩ | ⟨s', d', q1, _⟩
    · rw [q1]; exact .inl q2
    · rw [q1] at this ⊢
      obtain ⟨m1, m2, m3, m4, m5, m6⟩ := this
      refine ⟨m1, ?_, (by intro h hh; cases hh), m3, m5⟩
      rw [filter_some rfl]
      rw [hst] at m2
      exact m2
  | clone h ph =>
    cases a <;> simp only [CmdRel] at hr
    obtain ⟨rfl, rfl⟩ := hr
    have hm := hp ph rfl
    have hh := (Id.res ph hm).1.held Id.rep.pool
    have := Id.cloneInto h hm
    simp only [Cmd.exec]
    rw [cloneInto_eq] at this ⊢
    cases hc : C h with
    | none =>
      rw [Id.rep.copyInto_none hc]
      exact ⟨rfl, Id, .inl ⟨h, rfl, hc, notFound_or rfl⟩⟩
    | some dd =>
      have hready : (ACmd.clone (V := V) h ph).Ready C := by
        rintro h' ⟨⟩; rw [hc]; simp
      rcases Id.rep.copyInto Id.rep hc hh (Id.res ph hm).2 with ⟨d', q1, _⟩ | ⟨d', q1, q2, _⟩
      · rw [q1] at this ⊢
        obtain ⟨m1, m2, m3⟩ := this
        refine ⟨Is, ?_, hready, Keep.refl _, m2⟩
        rw [filter_some rfl]
        exact m1
      · rw [q1] at this ⊢
        refine ⟨rfl, this.1, .inr (.inr ⟨hready, rfl, h, ph, dd, ?_⟩)⟩
        unfold Copyable at q2
        simp only [Classical.not_forall] at q2
        obtain ⟨x, v, hv, hcp⟩ := q2
        exact ⟨x, v, rfl, hc, hv, by simpa using hcp⟩
  | set st h c =>
    cases a <;> simp only [CmdRel] at hr
    rename_i h' c' v
    obtain ⟨rfl, rfl, dd, hst, hv⟩ := hr
    simp only [Cmd.exec, Is.rep.get_some hst hv]
    have := Id.set h c v
    cases hc : C h with
    | none =>
      rw [Id.rep.set_none hc]
      exact ⟨rfl, Id, .inl ⟨h, rfl, hc, notFound_or rfl⟩⟩
    | some d0 =>
      have hready : (ACmd.set h c v).Ready C := by
        rintro h' ⟨⟩; rw [hc]; simp
      rcases Id.rep.set hc c v with ⟨q1, q2⟩ | ⟨d', q1, _⟩ | ⟨d', q1, _⟩
      · rw [q1]; exact .inr q2
      · rw [q1] at this ⊢
        rcases Is.rep.assign hst c (husk v) with ⟨w0, _⟩ | ⟨v0, s', w0, w1, w2, w3, w4, w5⟩
        · rw [hv] at w0; cases w0
        · have ha := Is.assign st c (husk v)
          rw [w1] at ha
          simp only [w1]
          refine ⟨?_, ?_, hready, w4, this.2.1⟩
          · have e : (fun d => Spec.World.withComp d c (some (husk v))) dd = Spec.World.withComp dd c ((dd c).map husk) := by
              rw [hv]; rfl
            have := ha.1
            simp only [Cmd.after, hst, Option.map_some] at this ⊢
            rw [hv]
            exact this
          · rw [filter_none rfl]
            exact this.1
      · rw [q1] at this ⊢
        exact ⟨rfl, this.1, .inr (.inl ⟨hready, rfl, .inl ⟨h, c, v, rfl⟩⟩)⟩
  | remove h c =>
    cases a <;> simp only [CmdRel] at hr
    obtain ⟨rfl, rfl⟩ := hr
    simp only [Cmd.exec]
    have := Id.remove h c
    cases hc : C h with
    | none =>
      rw [Id.rep.remove_none hc]
      exact ⟨rfl, Id, .inl ⟨h, rfl, hc, notFound_or rfl⟩⟩
    | some d0 =>
      have hready : (ACmd.remove (V := V) h c).Ready C := by
        rintro h' ⟨⟩; rw [hc]; simp
      have ok : ∀ d', d.remove ty h c = .ok d' () → ExecSpec ty husk s d S C P (.remove h c) (.remove h c)
          (.ok (s, d') ()) := by
        intro d' q1
        rw [q1] at this
        refine ⟨Is, ?_, hready, Keep.refl _, this.2.1⟩
        rw [filter_none rfl]
        exact this.1
      rcases Id.rep.remove hc c with ⟨_, q1⟩ | ⟨_, ⟨q1, q2⟩ | ⟨d', q1, _⟩ | ⟨d', q1, _⟩⟩
      · simp only [q1]; exact ok _ q1
      · rw [q1]; exact .inr q2
      · simp only [q1]; exact ok _ q1
      · rw [q1] at this ⊢
        exact ⟨rfl, this.1, .inr (.inl ⟨hready, rfl, .inr ⟨h, c, rfl⟩⟩)⟩
  | destroy h =>
    cases a <;> simp only [CmdRel] at hr
    subst hr
    simp only [Cmd.exec]
    have := Id.destroy h
    cases hc : C h with
    | none =>
      rw [Id.rep.destroy_none hc]
      exact ⟨rfl, Id, .inl ⟨h, rfl, hc, notFound_or rfl⟩⟩
    | some d0 =>
      have hready : (ACmd.destroy (V := V) h).Ready C := by
        rintro h' ⟨⟩; rw [hc]; simp
      rcases Id.rep.destroy hc with ⟨q1, q2⟩ | ⟨d', q1, _⟩
      · rw [q1]; exact .inr q2
      · rw [q1] at this ⊢
        refine ⟨Is, ?_, hready, Keep.refl _, this.2.1⟩
        rw [filter_none rfl]
        exact this.1

/-! ## Buffers -/

/-- The queue of a buffer stands for the recorded commands. -/
def QRel (S : Handle → Option (Comps V)) : List Cmd → List (Nat × ACmd V) → Prop
  | [], [] => True
  | c :: cs, a :: as => CmdRel S c a.2 ∧ QRel S cs as
  | _, _ => False

theorem QRel.frame {S S' : Handle → Option (Comps V)} : ∀ {cs : List Cmd} {as : List (Nat × ACmd V)}, QRel S cs as →
    (∀ st, st ∈ cs.filterMap Cmd.staged → S' st = S st) → QRel S' cs as
  | [], [], _, _ => trivial
  | c :: cs, a :: as, h, hs =>
    ⟨h.1.frame fun st hst => hs st (List.mem_filterMap.2 ⟨c, List.mem_cons_self .., hst⟩),
      h.2.frame fun st hst => hs st (by
        obtain ⟨x, hx, hxs⟩ := List.mem_filterMap.1 hst
        exact List.mem_filterMap.2 ⟨x, List.mem_cons_of_mem _ hx, hxs⟩)⟩
  | [], _ :: _, h, _ => h.elim
  | _ :: _, [], h, _ => h.elim

theorem QRel.length {S : Handle → Option (Comps V)} : ∀ {cs : List Cmd} {as : List (Nat × ACmd V)}, QRel S cs as → cs.length = as.length
  | [], [], _ => rfl
  | _ :: _, _ :: _, h => by simp [QRel.length h.2]
  | [], _ :: _, h => h.elim
  | _ :: _, [], h => h.elim

theorem QRel.append {S : Handle → Option (Comps V)} {c : Cmd} {a : Nat × ACmd V} (hc : CmdRel S c a.2) :
    ∀ {cs : List Cmd} {as : List (Nat × ACmd V)}, QRel S cs as → QRel S (cs ++ [c]) (as ++ [a])
  | [], [], _ => ⟨hc, trivial⟩
  | _ :: _, _ :: _, h => ⟨h.1, QRel.append hc h.2⟩
  | [], _ :: _, h => h.elim
  | _ :: _, [], h => h.elim

theorem QRel.staged {S : Handle → Option (Comps V)} : ∀ {cs : List Cmd} {as : List (Nat × ACmd V)}, QRel S cs as →
    ∀ st ∈ cs.filterMap Cmd.staged, ∃ d, S st = some d
  | [], [], _, st, h => by simp at h
  | c :: cs, a :: as, h, st, hst => by
    obtain ⟨x, hx, hxs⟩ := List.mem_filterMap.1 hst
    rcases List.mem_cons.1 hx with rfl | hx
    · obtain ⟨h1, h2⟩ := h
      cases x <;> cases ha : a.2 <;> rw [ha] at h1 <;> simp only [CmdRel, Cmd.staged] at h1 hxs <;> cases hxs
      · exact ⟨_, h1.2⟩
      · exact ⟨_, h1.2.2.choose_spec.1⟩
    · exact QRel.staged h.2 st (List.mem_filterMap.2 ⟨x, hx, hxs⟩)
  | [], _ :: _, h, _, _ => h.elim
  | _ :: _, [], h, _, _ => h.elim

/-- A buffer stands for the recorded commands. -/
def BufRel (ty : Types) (b : Buf V) (q : List (Nat × ACmd V)) : Prop :=
  ∃ S, RInv ty b.staging 0 [] S ∧ QRel S b.queue q ∧ (b.queue.filterMap Cmd.staged).Nodup

/-- The contents after some commands. -/
def applyAll (C : Handle → Option (Comps V)) (q : List (Nat × ACmd V)) : Handle → Option (Comps V) := q.foldl (fun C x => x.2.apply C) C

/-- What playing a buffer does; `g` and `t` are the commands that are gone and those that remain. -/
def PlaySpec (ty : Types) (d : Reg V) (C : Handle → Option (Comps V)) (P : List Handle) (q : List (Nat × ACmd V)) :
    Res (Buf V × Reg V) Unit → Prop
  | .ub => True
  | .ok (b', d') _ => b'.queue = [] ∧ BufRel ty b' [] ∧ RInv ty d' 0 (P.filter (· ∉ CSys.placeholders q)) (applyAll C q) ∧
      ACmd.AllReady C (q.map Prod.snd)
  | .throw (b', d') e => ∃ g a t, q = g ++ a :: t ∧ BufRel ty b' t ∧
      RInv ty d' 0 (P.filter (· ∉ CSys.placeholders g)) (applyAll C g) ∧ a.2.Fails ty (applyAll C g) e ∧ ACmd.AllReady C (g.map Prod.snd)

theorem placeholders_cons (a : Nat × ACmd V) (q : List (Nat × ACmd V)) :
    CSys.placeholders (a :: q) = a.2.placeholder.toList ++ CSys.placeholders q := by
  unfold CSys.placeholders
  cases h : a.2.placeholder <;> simp [List.filterMap_cons, h]

theorem playQueue_spec {ty : Types} (husk : V → V) : ∀ (cs : List Cmd) (q : List (Nat × ACmd V)) (s d : Reg V)
    (S C : Handle → Option (Comps V)) (P : List Handle), RInv ty s 0 [] S → RInv ty d 0 P C → QRel S cs q →
    (cs.filterMap Cmd.staged).Nodup → (∀ ph ∈ CSys.placeholders q, ph ∈ P) → (CSys.placeholders q).Nodup →
    PlaySpec ty d C P q (playQueue ty husk cs s d) := by
  intro cs
  induction cs with
  | nil =>
    intro q s d S C P Is Id hq hn hp hpn
    cases q with
    | cons => exact hq.elim
    | nil =>
      refine ⟨rfl, ⟨S, Is, trivial, by simp⟩, ?_, trivial⟩
      exact Id.sub fun x hx => (List.mem_filter.1 hx).1
  | cons c cs ih =>
    intro q s d S C P Is Id hq hn hp hpn
    cases q with
    | nil => exact hq.elim
    | cons a q =>
      obtain ⟨h1, h2⟩ := hq
      rw [placeholders_cons] at hp hpn
      have hx := exec_spec husk Is Id h1 (fun ph hph => hp ph (by simp [hph]))
      have hn2 : (cs.filterMap Cmd.staged).Nodup ∧ ∀ st, c.staged = some st → st ∉ cs.filterMap Cmd.staged := by
        cases hc : c.staged with
        | none => simp only [List.filterMap_cons, hc] at hn; exact ⟨hn, fun _ h => by cases h⟩
        | some st =>
          simp only [List.filterMap_cons, hc] at hn
          exact ⟨(List.nodup_cons.1 hn).2, fun st' h => by cases h; exact (List.nodup_cons.1 hn).1⟩
      simp only [playQueue]
      cases he : c.exec ty husk s d with
      | ub => trivial
      | throw sd e =>
        obtain ⟨s', d'⟩ := sd
        rw [he] at hx
        obtain ⟨rfl, hd, hf⟩ := hx
        refine ⟨[], a, q, rfl, ⟨S, Is, h2, hn2.1⟩, ?_, hf, trivial⟩
        exact hd.sub fun x hx => (List.mem_filter.1 hx).1
      | ok sd u =>
        obtain ⟨s', d'⟩ := sd
        rw [he] at hx
        obtain ⟨hs', hd', hrd, _, _⟩ := hx
        obtain ⟨n1, n2, n3⟩ := List.nodup_append.1 hpn
        have hq' : QRel (c.after husk S) cs q := h2.frame fun st hst =>
          Cmd.after_ne fun hc => hn2.2 st hc hst
        have hp' : ∀ ph ∈ CSys.placeholders q, ph ∈ P.filter fun h => a.2.placeholder ≠ some h := by
          intro ph hph
          rw [List.mem_filter]
          refine ⟨hp ph (by simp [hph]), ?_⟩
          simp only [decide_eq_true_eq]
          intro hc
          exact n3 ph (by simp [hc]) ph hph rfl
        have := ih q s' d' _ _ _ hs' hd' hq' hn2.1 hp' n2
        have hsub : ∀ g : List (Nat × ACmd V), ∀ x ∈ P.filter (· ∉ CSys.placeholders (a :: g)),
            x ∈ (P.filter fun h => a.2.placeholder ≠ some h).filter (· ∉ CSys.placeholders g) := by
          intro g x hx
          rw [placeholders_cons] at hx
          simp only [List.mem_filter, List.mem_append, not_or, decide_eq_true_eq, Option.mem_toList] at hx ⊢
          exact ⟨⟨hx.1, hx.2.1⟩, hx.2.2⟩
        show PlaySpec ty d C P (a :: q) (playQueue ty husk cs s' d')
        cases hp2 : playQueue ty husk cs s' d' with
        | ub => trivial
        | ok bd u =>
          obtain ⟨b', d''⟩ := bd
          rw [hp2] at this
          obtain ⟨k1, k2, k3, k4⟩ := this
          exact ⟨k1, k2, k3.sub (hsub q), hrd, k4⟩
        | throw bd e =>
          obtain ⟨b', d''⟩ := bd
          rw [hp2] at this
          obtain ⟨g, a', t, k0, k1, k2, k3, k4⟩ := this
          exact ⟨a :: g, a', t, by rw [k0]; rfl, k1, k2.sub (hsub g), k3, hrd, k4⟩

/-! ## All buffers -/

/-- The buffers stand for the recorded commands; a buffer whose thread has ended has none. -/
def BufsRel (ty : Types) : List (Option (Buf V)) → List (List (Nat × ACmd V)) → Prop
  | [], [] => True
  | none :: bs, q :: qs => q = [] ∧ BufsRel ty bs qs
  | some b :: bs, q :: qs => BufRel ty b q ∧ BufsRel ty bs qs
  | _, _ => False

theorem BufRel.length {ty : Types} {b : Buf V} {q : List (Nat × ACmd V)} (h : BufRel ty b q) : b.queue.length = q.length := by
  obtain ⟨S, _, h, _⟩ := h; exact h.length

theorem BufsRel.gone_rest {ty : Types} : ∀ {bs : List (Option (Buf V))} {qs : List (List (Nat × ACmd V))}, BufsRel ty bs qs →
    CSys.gone qs (CSys.left bs) = [] ∧ CSys.rest qs (CSys.left bs) = qs
  | [], [], _ => ⟨rfl, rfl⟩
  | none :: bs, q :: qs, h => by
    obtain ⟨rfl, h⟩ := h
    obtain ⟨h1, h2⟩ := BufsRel.gone_rest h
    simp [CSys.gone, CSys.rest, CSys.left, h1, h2]
  | some b :: bs, q :: qs, h => by
    obtain ⟨h0, h⟩ := h
    obtain ⟨h1, h2⟩ := BufsRel.gone_rest h
    simp [CSys.gone, CSys.rest, CSys.left, h1, h2, h0.length]
  | [], _ :: _, h => h.elim
  | none :: _, [], h => h.elim
  | some _ :: _, [], h => h.elim

theorem applyAll_append (C : Handle → Option (Comps V)) (q q' : List (Nat × ACmd V)) :
    applyAll C (q ++ q') = applyAll (applyAll C q) q' := List.foldl_append ..

theorem allReady_append (C : Handle → Option (Comps V)) (q q' : List (Nat × ACmd V)) :
    ACmd.AllReady C ((q ++ q').map Prod.snd) ↔ ACmd.AllReady C (q.map Prod.snd) ∧ ACmd.AllReady (applyAll C q) (q'.map Prod.snd) := by
  induction q generalizing C with
  | nil => simp [ACmd.AllReady, applyAll]
  | cons a q ih =>
    simp only [List.cons_append, List.map_cons, ACmd.AllReady, ih, and_assoc]
    rfl

/-- What flushing does. -/
def FlushSpec (ty : Types) (C : Handle → Option (Comps V)) (P : List Handle) (qs : List (List (Nat × ACmd V))) :
    Res (List (Option (Buf V)) × Reg V) Unit → Prop
  | .ub => True
  | .ok (bs', d') _ => (∀ n ∈ CSys.left bs', n = 0) ∧ CSys.gone qs (CSys.left bs') = qs.flatten ∧
      BufsRel ty bs' (CSys.rest qs (CSys.left bs')) ∧
      RInv ty d' 0 (P.filter (· ∉ CSys.placeholders qs.flatten)) (applyAll C qs.flatten) ∧
      ACmd.AllReady C (qs.flatten.map Prod.snd)
  | .throw (bs', d') e => ∃ g a, CSys.gone qs (CSys.left bs') = g ++ [a] ∧
      qs.flatten = g ++ [a] ++ (CSys.rest qs (CSys.left bs')).flatten ∧
      BufsRel ty bs' (CSys.rest qs (CSys.left bs')) ∧
      RInv ty d' 0 (P.filter (· ∉ CSys.placeholders g)) (applyAll C g) ∧ a.2.Fails ty (applyAll C g) e ∧
      ACmd.AllReady C (g.map Prod.snd)

theorem placeholders_append (q q' : List (Nat × ACmd V)) :
    CSys.placeholders (q ++ q') = CSys.placeholders q ++ CSys.placeholders q' := List.filterMap_append ..

theorem flushBufs_spec {ty : Types} (husk : V → V) : ∀ (bs : List (Option (Buf V))) (qs : List (List (Nat × ACmd V))) (d : Reg V)
    (C : Handle → Option (Comps V)) (P : List Handle), RInv ty d 0 P C → BufsRel ty bs qs →
    (∀ ph ∈ CSys.placeholders qs.flatten, ph ∈ P) → (CSys.placeholders qs.flatten).Nodup →
    FlushSpec ty C P qs (flushBufs ty husk bs d) := by
  intro bs
  induction bs with
  | nil =>
    intro qs d C P Id hb hp hn
    cases qs with
    | cons => exact hb.elim
    | nil =>
      refine ⟨by simp [CSys.left], rfl, trivial, ?_, trivial⟩
      exact Id.sub fun x hx => (List.mem_filter.1 hx).1
  | cons b bs ih =>
    intro qs d C P Id hb hp hn
    cases b with
    | none => trivial
    | some b =>
      cases qs with
      | nil => exact hb.elim
      | cons q qs =>
        obtain ⟨⟨S, Is, hq, hst⟩, hbs⟩ := hb
        rw [List.flatten_cons, placeholders_append] at hp hn
        obtain ⟨n1, n2, n3⟩ := List.nodup_append.1 hn
        have hpl := playQueue_spec husk b.queue q b.staging d S C P Is Id hq hst (fun ph h => hp ph (by simp [h])) n1
        simp only [flushBufs, Buf.play]
        have hsub : ∀ g : List (Nat × ACmd V), ∀ x ∈ P.filter (· ∉ CSys.placeholders (q ++ g)),
            x ∈ (P.filter (· ∉ CSys.placeholders q)).filter (· ∉ CSys.placeholders g) := by
          intro g x hx
          rw [placeholders_append] at hx
          simp only [List.mem_filter, List.mem_append, not_or, decide_eq_true_eq] at hx ⊢
          exact ⟨⟨hx.1, hx.2.1⟩, hx.2.2⟩
        cases he : playQueue ty husk b.queue b.staging d with
        | ub => trivial
        | throw bd e =>
          obtain ⟨b', d'⟩ := bd
          rw [he] at hpl
          obtain ⟨g, a, t, k0, k1, k2, k3, k4⟩ := hpl
          obtain ⟨r1, r2⟩ := hbs.gone_rest
          have hl := k1.length
          have e1 : q.length - b'.queue.length = (g ++ [a]).length := by rw [hl, k0]; simp; omega
          have e2 : q.take (q.length - b'.queue.length) = g ++ [a] := by
            rw [e1, k0, show g ++ a :: t = (g ++ [a]) ++ t by simp, List.take_left]
          have e3 : q.drop (q.length - b'.queue.length) = t := by
            rw [e1, k0, show g ++ a :: t = (g ++ [a]) ++ t by simp, List.drop_left]
          refine ⟨g, a, ?_, ?_, ?_, k2, k3, k4⟩
          · simp only [CSys.left, CSys.gone, r1, List.append_nil, e2]
          · simp only [CSys.left, CSys.rest, r2, e3, List.flatten_cons]; rw [k0]; simp
          · simp only [CSys.left, CSys.rest, r2, e3]
            exact ⟨k1, hbs⟩
        | ok bd u =>
          obtain ⟨b', d'⟩ := bd
          rw [he] at hpl
          obtain ⟨k0, k1, k2, k3⟩ := hpl
          have hp' : ∀ ph ∈ CSys.placeholders qs.flatten, ph ∈ P.filter (· ∉ CSys.placeholders q) := by
            intro ph hph
            rw [List.mem_filter]
            refine ⟨hp ph (by simp [hph]), ?_⟩
            simp only [decide_eq_true_eq]
            intro hc
            exact n3 ph hc ph hph rfl
          have := ih qs d' _ _ k2 hbs hp' n2
          have e2 : q.take (q.length - b'.queue.length) = q := by rw [k0]; simp
          have e3 : q.drop (q.length - b'.queue.length) = [] := by rw [k0]; simp
          show FlushSpec ty C P (q :: qs) (match flushBufs ty husk bs d' with
            | .ub => .ub
            | .throw (bs, d) e => .throw (some b' :: bs, d) e
            | .ok (bs, d) _ => .ok (some b' :: bs, d) ())
          cases hf : flushBufs ty husk bs d' with
          | ub => trivial
          | throw bd e =>
            obtain ⟨bs', d''⟩ := bd
            rw [hf] at this
            obtain ⟨g, a, m1, m2, m3, m4, m5, m6⟩ := this
            refine ⟨q ++ g, a, ?_, ?_, ?_, ?_, ?_, ?_⟩
            · simp only [CSys.left, CSys.gone, m1, e2]; simp
            · simp only [CSys.left, CSys.rest, e3, List.flatten_cons, m2]; simp
            · simp only [CSys.left, CSys.rest, e3]
              exact ⟨k1, m3⟩
            · rw [applyAll_append]; exact m4.sub (hsub g)
            · rw [applyAll_append]; exact m5
            · exact (allReady_append C q g).2 ⟨k3, m6⟩
          | ok bd u =>
            obtain ⟨bs', d''⟩ := bd
            rw [hf] at this
            obtain ⟨m1, m2, m3, m4, m5⟩ := this
            refine ⟨?_, ?_, ?_, ?_, ?_⟩
            · simp only [CSys.left, List.mem_cons, forall_eq_or_imp, k0]; exact ⟨rfl, m1⟩
            · simp only [CSys.left, CSys.gone, m2, e2]; simp
            · simp only [CSys.left, CSys.rest, e3]
              exact ⟨k1, m3⟩
            · rw [List.flatten_cons, applyAll_append]; exact m4.sub (hsub qs.flatten)
            · rw [List.flatten_cons]; exact (allReady_append C q _).2 ⟨k3, m5⟩

theorem flush_spec {ty : Types} (husk : V → V) {bs : List (Option (Buf V))} {qs : List (List (Nat × ACmd V))} {d : Reg V} {k : Nat}
    {C : Handle → Option (Comps V)} {P : List Handle} (Id : RInv ty d k P C) (hb : BufsRel ty bs qs)
    (hp : ∀ ph ∈ CSys.placeholders qs.flatten, ph ∈ P) (hn : (CSys.placeholders qs.flatten).Nodup) :
    FlushSpec ty C P qs (flush ty husk bs d) :=
  flushBufs_spec husk bs qs d.sync C P Id.sync.1 hb hp hn

/-! ## Recording -/

theorem BufsRel.snoc {ty : Types} {b : Buf V} {q : List (Nat × ACmd V)} (hb : BufRel ty b q) :
    ∀ {bs : List (Option (Buf V))} {qs : List (List (Nat × ACmd V))}, BufsRel ty bs qs → BufsRel ty (bs ++ [some b]) (qs ++ [q])
  | [], [], _ => ⟨hb, trivial⟩
  | none :: _, _ :: _, h => ⟨h.1, BufsRel.snoc hb h.2⟩
  | some _ :: _, _ :: _, h => ⟨h.1, BufsRel.snoc hb h.2⟩
  | [], _ :: _, h => h.elim
  | none :: _, [], h => h.elim
  | some _ :: _, [], h => h.elim

theorem BufsRel.kill {ty : Types} :
    ∀ {bs : List (Option (Buf V))} {qs : List (List (Nat × ACmd V))} (b : Nat), BufsRel ty bs qs → BufsRel ty (bs.set b none) (qs.set b [])
  | [], [], _, _ => trivial
  | none :: _, _ :: _, 0, h => ⟨rfl, h.2⟩
  | some _ :: _, _ :: _, 0, h => ⟨rfl, h.2⟩
  | none :: _, _ :: _, b + 1, h => ⟨h.1, BufsRel.kill b h.2⟩
  | some _ :: _, _ :: _, b + 1, h => ⟨h.1, BufsRel.kill b h.2⟩
  | [], _ :: _, _, h => h.elim
  | none :: _, [], _, h => h.elim
  | some _ :: _, [], _, h => h.elim

theorem BufsRel.get {ty : Types} :
    ∀ {bs : List (Option (Buf V))} {qs : List (List (Nat × ACmd V))} {b : Nat} {buf : Buf V}, BufsRel ty bs qs → bs[b]? = some (some buf) →
      ∃ q, qs[b]? = some q ∧ BufRel ty buf q
  | [], [], _, _, _, hb => by simp at hb
  | none :: _, _ :: _, 0, _, _, hb => by simp at hb
  | some _ :: _, q :: _, 0, _, h, hb => by simp at hb; subst hb; exact ⟨q, rfl, h.1⟩
  | none :: _, _ :: _, b + 1, _, h, hb => by simpa using BufsRel.get h.2 (by simpa using hb)
  | some _ :: _, _ :: _, b + 1, _, h, hb => by simpa using BufsRel.get h.2 (by simpa using hb)
  | [], _ :: _, _, _, h, _ => h.elim
  | none :: _, [], _, _, h, _ => h.elim
  | some _ :: _, [], _, _, h, _ => h.elim

theorem BufsRel.put {ty : Types} {f : List (Nat × ACmd V) → List (Nat × ACmd V)} :
    ∀ {bs : List (Option (Buf V))} {qs : List (List (Nat × ACmd V))} {b : Nat} {buf' : Buf V}, BufsRel ty bs qs →
      (∀ q, qs[b]? = some q → BufRel ty buf' (f q)) → BufsRel ty (bs.set b (some buf')) (qs.modify b f)
  | [], [], _, _, h, _ => by simpa using h
  | none :: _, q :: _, 0, _, h, hb => ⟨hb q rfl, h.2⟩
  | some _ :: _, q :: _, 0, _, h, hb => ⟨hb q rfl, h.2⟩
  | none :: _, _ :: _, b + 1, _, h, hb => ⟨h.1, BufsRel.put h.2 fun q hq => hb q (by simpa using hq)⟩
  | some _ :: _, _ :: _, b + 1, _, h, hb => ⟨h.1, BufsRel.put h.2 fun q hq => hb q (by simpa using hq)⟩
  | [], _ :: _, _, _, h, _ => h.elim
  | none :: _, [], _, _, h, _ => h.elim
  | some _ :: _, [], _, _, h, _ => h.elim

theorem modify_id {X : Type} : ∀ (l : List X) (b : Nat), l.modify b (fun x => x) = l
  | [], _ => by simp
  | x :: l, 0 => rfl
  | x :: l, b + 1 => by simp [modify_id l b]

theorem flatten_modify {X : Type} (x : X) : ∀ (l : List (List X)) (b : Nat), b < l.length →
    (l.modify b (· ++ [x])).flatten.Perm (x :: l.flatten)
  | [], _, h => by simp at h
  | q :: l, 0, _ => by
    show (q ++ [x] ++ l.flatten).Perm (x :: (q ++ l.flatten))
    rw [List.append_assoc]
    exact List.perm_middle
  | q :: l, b + 1, h => by
    have := flatten_modify x l b (by simpa using h)
    simp only [List.modify_succ_cons, List.flatten_cons]
    exact (this.append_left q).trans List.perm_middle

/-- Recording a command that needs no staging entity. -/
theorem BufRel.push {ty : Types} {b : Buf V} {q : List (Nat × ACmd V)} (h : BufRel ty b q) {c : Cmd} {a : Nat × ACmd V}
    (hc : ∀ S, CmdRel S c a.2) (hs : c.staged = none) : BufRel ty (b.push c) (q ++ [a]) := by
  obtain ⟨S, h1, h2, h3⟩ := h
  refine ⟨S, h1, h2.append (hc S), ?_⟩
  simp only [Buf.push, List.filterMap_append, List.filterMap_cons, hs, List.filterMap_nil, List.append_nil]
  exact h3

/-- Creating a staging entity and recording a command that refers to it. -/
theorem BufRel.stage {ty : Types} {b : Buf V} {q : List (Nat × ACmd V)} (h : BufRel ty b q) {args : List (Nat × V)}
    (hnd : (args.map Prod.fst).Nodup) (hb : b.staging.pool.nextId + 1 < U32) :
    (∃ s st, b.staging.create ty args = .ok s st ∧
      ∀ (c : Cmd) (a : Nat × ACmd V), c.staged = some st → (∀ S, S st = some (Spec.World.listed args) → CmdRel S c a.2) →
        BufRel ty (({ b with staging := s } : Buf V).push c) (q ++ [a])) ∨
    (∃ s, b.staging.create ty args = .throw s .insufficientChunkSize ∧ BufRel ty { b with staging := s } q) := by
  obtain ⟨S, h1, h2, h3⟩ := h
  have hsp := h1.create hb hnd
  obtain ⟨p, st, hc, _, hw, _, _, h6⟩ := h1.rep.create hb hnd
  rcases h6 with ⟨s, q1, _⟩ | ⟨s, q1, _⟩
  · left
    refine ⟨s, st, q1, fun c a hc ha => ?_⟩
    rw [q1] at hsp
    have hfr : st ∉ b.queue.filterMap Cmd.staged := by
      intro hm
      obtain ⟨d, hd⟩ := h2.staged st hm
      rw [hw] at hd; cases hd
    refine ⟨_, hsp.1, QRel.append (ha _ put_self) (h2.frame fun x hx => ?_), ?_⟩
    · exact put_ne fun e => hfr (e ▸ hx)
    · simp only [Buf.push, List.filterMap_append, List.filterMap_cons, hc, List.filterMap_nil]
      rw [List.nodup_append]
      refine ⟨h3, by simp, ?_⟩
      intro x hx y hy e
      simp at hy
      exact hfr (hy ▸ e ▸ hx)
  · right
    rw [q1] at hsp
    exact ⟨s, q1, S, hsp.1, h2, h3⟩

/-! ## Histories -/

structure CInv (ty : Types) (c : CSys V) (W : Spec.World V) : Prop where
  sys : SysInv ty c.sys W
  bufs : BufsRel ty c.bufs c.todo
  mem : ∀ x ∈ c.queued, x.2 ∈ c.sys.res x.1
  nodup : c.queued.Nodup

theorem CInv.init (ty : Types) : CInv ty (CSys.init : CSys V) (fun _ _ => none) :=
  ⟨SysInv.init ty, trivial, by simp [CSys.queued, CSys.init], by simp [CSys.queued, CSys.init]⟩

theorem mem_use {s : Sys V} {i j : Nat} {ph : Option Handle} {h : Handle} (hm : h ∈ s.res i)
    (hne : ∀ p, ph = some p → (j, p) ≠ (i, h)) : h ∈ (s.use j ph).res i := by
  cases ph with
  | none => exact hm
  | some p =>
    simp only [Sys.use]
    split
    · rename_i hij
      subst hij
      rw [List.mem_filter]
      refine ⟨hm, ?_⟩
      simp only [decide_eq_true_eq]
      rintro rfl
      exact hne h rfl rfl
    · exact hm

theorem step_res {ty : Types} {s s' : Sys V} {op : SysOp V} {out : Out} (hs : s.step ty op = some (s', out)) {i : Nat} {h : Handle}
    (hm : h ∈ s.res i) (hp : CSys.placeholderOf op ≠ some (i, h)) : h ∈ s'.res i := by
  cases op with
  | on j op =>
    have e0 : s.step ty (.on j op) = match op.run ty (s.reg j) with
        | .ub => none
        | .throw r e => some (s.setReg j r, .throw e)
        | .ok r h => some ((s.setReg j r).note j op h, .ok h) := rfl
    rw [e0] at hs
    split at hs
    · cases hs
    · cases hs; exact hm
    · rename_i r o _
      cases hs
      cases op with
      | clone x ph =>
        simp only [Sys.note]
        refine mem_use hm ?_
        rintro p rfl e
        exact hp (by rw [← e]; rfl)
      | reserve =>
        cases o with
        | none => exact hm
        | some o =>
          simp only [Sys.note]
          split
          · rename_i e; subst e; exact List.mem_cons_of_mem _ hm
          · exact hm
      | _ => exact hm
  | copy j x k ph =>
    simp only [Sys.step] at hs
    split at hs
    · cases hs
    · cases hs; exact hm
    · cases hs
      refine mem_use hm ?_
      rintro p rfl e
      exact hp (by rw [← e]; rfl)
  | move j x k ph =>
    simp only [Sys.step] at hs
    split at hs
    · cases hs
    · cases hs; exact hm
    · cases hs
      refine mem_use hm ?_
      rintro p rfl e
      exact hp (by rw [← e]; rfl)

theorem queued_note {c : CSys V} {b i : Nat} {a : ACmd V} (hb : b < c.todo.length) :
    (c.note b i a).queued.Perm ((a.placeholder.map fun ph => (i, ph)).toList ++ c.queued) := by
  have := (flatten_modify (i, a) c.todo b hb).filterMap fun x => x.2.placeholder.map fun ph => (x.1, ph)
  refine this.trans ?_
  cases h : a.placeholder <;> simp [List.filterMap_cons, h, CSys.queued]

/-- Recording a command without placeholder. -/
theorem CInv.note {ty : Types} {c : CSys V} {W : Spec.World V} (I : CInv ty c W) {b i : Nat} {buf' : Buf V} {a : ACmd V}
    (ha : a.placeholder = none) (hlt : b < c.todo.length)
    (hb : ∀ q, c.todo[b]? = some q → BufRel ty buf' (q ++ [(i, a)])) :
    CInv ty (({ c with bufs := c.bufs.set b (some buf') } : CSys V).note b i a) W := by
  have hq := queued_note (c := { c with bufs := c.bufs.set b (some buf') }) (b := b) (i := i) (a := a) hlt
  rw [ha] at hq
  exact ⟨I.sys, I.bufs.put hb, fun x hx => I.mem x (hq.subset hx), hq.symm.nodup I.nodup⟩

/-- Recording a command with a placeholder just reserved. -/
theorem CInv.noteReserved {ty : Types} {c : CSys V} {W : Spec.World V} (I : CInv ty c W) {b i : Nat} {buf' : Buf V} {a : ACmd V}
    (hbd : (c.sys.reg i).pool.nextId + 1 < U32) (hlt : b < c.todo.length) {r : Reg V} {ph : Handle}
    (hr : (c.sys.reg i).reserve = .ok r ph) (ha : a.placeholder = some ph)
    (hb : ∀ q, c.todo[b]? = some q → BufRel ty buf' (q ++ [(i, a)])) :
    CInv ty (({ c with sys := CSys.reserved c.sys i r ph, bufs := c.bufs.set b (some buf') } : CSys V).note b i a) W := by
  have hsp := step_spec I.sys (op := .on i .reserve) hbd
  have hst : c.sys.step ty (.on i .reserve) = some (CSys.reserved c.sys i r ph, .ok (some ph)) := by
    show (match withHandle (c.sys.reg i).reserve with
      | .ub => none
      | .throw r e => some (c.sys.setReg i r, Out.throw e)
      | .ok r h => some ((c.sys.setReg i r).note i .reserve h, Out.ok h)) = _
    rw [hr]; rfl
  rw [hst] at hsp
  have hq := queued_note (c := { c with sys := CSys.reserved c.sys i r ph, bufs := c.bufs.set b (some buf') }) (b := b) (i := i) (a := a) hlt
  rw [ha] at hq
  obtain ⟨r', ph', q1, _, _, _, _, _, q7, _⟩ := (I.sys i).rep.reserve hbd
  rw [hr] at q1
  cases q1
  refine ⟨hsp.1, I.bufs.put hb, fun x hx => ?_, hq.symm.nodup (List.nodup_cons.2 ⟨fun hm => ?_, I.nodup⟩)⟩
  · rcases List.mem_cons.1 (hq.subset hx) with rfl | hx
    · show ph ∈ (CSys.reserved c.sys i r ph).res i
      simp [CSys.reserved, Sys.note]
    · exact step_res hst (I.mem x hx) (by simp [CSys.placeholderOf])
  · exact (q7 ph ((I.sys i).res ph (I.mem _ hm)).1).2 rfl

theorem reserve_lost {ty : Types} {s : Sys V} {W : Spec.World V} (I : SysInv ty s W) {i : Nat}
    (hbd : (s.reg i).pool.nextId + 1 < U32) {r : Reg V} {ph : Handle} (hr : (s.reg i).reserve = .ok r ph) :
    SysInv ty { s.setReg i r with pend := fun j => if j = i then s.pend i + 1 else s.pend j } W := by
  have := RInv.reserve (I i) hbd
  rw [hr] at this
  intro j
  simp only [Sys.setReg]
  by_cases hj : j = i
  · subst hj; simp only [if_true]; exact this.1.sub fun x hx => List.mem_cons_of_mem _ hx
  · simp only [hj, if_false]; exact I j

theorem placeholders_queued {c : CSys V} {i : Nat} (h : ∀ x ∈ c.todo.flatten, x.1 = i) :
    c.queued = (CSys.placeholders c.todo.flatten).map fun ph => (i, ph) := by
  unfold CSys.queued CSys.placeholders
  generalize c.todo.flatten = l at h
  induction l with
  | nil => rfl
  | cons x l ih =>
    have := ih fun y hy => h y (List.mem_cons_of_mem _ hy)
    have hx := h x List.mem_cons_self
    cases hp : x.2.placeholder <;> simp [List.filterMap_cons, hp, this, hx]

theorem gone_rest_length {X : Type} : ∀ (qs : List (List X)) (ns : List Nat),
    (CSys.gone qs ns).length + (CSys.rest qs ns).flatten.length = qs.flatten.length
  | [], [] => rfl
  | [], _ :: _ => rfl
  | _ :: _, [] => by simp [CSys.gone, CSys.rest]
  | q :: qs, n :: ns => by
    have := gone_rest_length qs ns
    simp only [CSys.gone, CSys.rest, List.flatten_cons, List.length_append, List.length_take, List.length_drop]
    omega

/-- The state after a flush. -/
theorem CInv.flushed {ty : Types} {c : CSys V} {W : Spec.World V} (I : CInv ty c W) {i : Nat} (ht : ∀ x ∈ c.todo.flatten, x.1 = i)
    {bs : List (Option (Buf V))} {r : Reg V} {C : Handle → Option (Comps V)} {g : List (Nat × ACmd V)}
    (hg : ∀ x ∈ CSys.placeholders g, x ∈ CSys.placeholders (CSys.gone c.todo (CSys.left bs)))
    (hf : c.todo.flatten = CSys.gone c.todo (CSys.left bs) ++ (CSys.rest c.todo (CSys.left bs)).flatten)
    (hb : BufsRel ty bs (CSys.rest c.todo (CSys.left bs)))
    (hr : RInv ty r 0 ((c.sys.res i).filter (· ∉ CSys.placeholders g)) C) :
    CInv ty (c.flushed i bs r) (fun j => if j = i then C else W j) := by
  have hq := placeholders_queued ht
  have hq' : (c.flushed i bs r).queued = (CSys.placeholders (CSys.rest c.todo (CSys.left bs)).flatten).map fun ph => (i, ph) :=
    placeholders_queued (c := c.flushed i bs r) fun x hx => ht x (by rw [hf]; exact List.mem_append_right _ hx)
  have hn := I.nodup
  rw [hq, hf, placeholders_append, List.map_append] at hn
  obtain ⟨n1, n2, n3⟩ := List.nodup_append.1 hn
  refine ⟨?_, hb, ?_, hq' ▸ n2⟩
  · intro j
    simp only [CSys.flushed, Sys.setReg]
    by_cases hj : j = i
    · subst hj
      simp only [if_true]
      refine hr.sub fun x hx => ?_
      simp only [List.mem_filter, decide_eq_true_eq] at hx ⊢
      exact ⟨hx.1, fun hm => hx.2 (hg x hm)⟩
    · simp only [hj, if_false]; exact I.sys j
  · intro x hx
    rw [hq'] at hx
    obtain ⟨ph, hph, rfl⟩ := List.mem_map.1 hx
    have hm : (i, ph) ∈ c.queued := by
      rw [hq, hf, placeholders_append]; simp [hph]
    have := I.mem _ hm
    simp only [CSys.flushed, if_true, List.mem_filter, decide_eq_true_eq]
    refine ⟨this, fun hc => n3 (i, ph) (List.mem_map_of_mem hc) (i, ph) hx rfl⟩

theorem CInv.flushSpec {ty : Types} (husk : V → V) {c : CSys V} {W : Spec.World V} (I : CInv ty c W) {i : Nat} (ht : ∀ x ∈ c.todo.flatten, x.1 = i) :
    FlushSpec ty (W i) (c.sys.res i) c.todo (flush ty husk c.bufs (c.sys.reg i)) := by
  have hq := placeholders_queued ht
  refine flush_spec husk (I.sys i) I.bufs ?_ ?_
  · intro ph hph
    have := I.mem (i, ph) (by rw [hq]; exact List.mem_map_of_mem hph)
    exact this
  · have := I.nodup
    rw [hq] at this
    exact List.Pairwise.of_map _ (fun a b h e => h (by rw [e])) this

theorem Spec.CReach.inv {ty : Types} {husk : V → V} {c : CSys V} {W : Spec.World V} (h : CReach ty husk c W) : CInv ty c W := by
  induction h with
  | init => exact CInv.init ty
  | @step c c' W op out _ ha hs I =>
    cases op with
    | direct op =>
      obtain ⟨ha, hp⟩ := ha
      simp only [CSys.step, Option.map_eq_some_iff] at hs
      obtain ⟨⟨s', o⟩, h1, h2⟩ := hs
      cases h2
      have := step_spec I.sys ha
      rw [h1] at this
      exact ⟨this.1, I.bufs, fun x hx => step_res h1 (I.mem x hx) fun he => hp x he hx, I.nodup⟩
    | start =>
      cases hs
      have hq : ({ c with bufs := c.bufs ++ [some Buf.empty], todo := c.todo ++ [[]] } : CSys V).queued = c.queued := by
        simp [CSys.queued]
      refine ⟨I.sys, I.bufs.snoc (b := Buf.empty) (q := [])
        ⟨fun _ => none, ⟨Rep.empty ty, by intro h hh; cases hh⟩, trivial, by simp [Buf.empty]⟩, ?_, ?_⟩
      · rw [hq]; exact I.mem
      · rw [hq]; exact I.nodup
    | exit b =>
      cases hs
      have hq : ({ c with bufs := c.bufs.set b none, todo := c.todo.set b [] } : CSys V).queued.Sublist c.queued := by
        refine List.Sublist.filterMap _ ?_
        clear ha
        generalize c.todo = l
        induction l generalizing b with
        | nil => simp
        | cons q l ih =>
          cases b with
          | zero => simp
          | succ b => simp only [List.set_cons_succ, List.flatten_cons]; exact (ih b).append_left q
      exact ⟨I.sys, I.bufs.kill b, fun x hx => I.mem x (hq.subset hx), hq.nodup I.nodup⟩
    | record b i rc =>
      obtain ⟨buf, hb, ha⟩ := ha
      obtain ⟨q, hq, hrel⟩ := I.bufs.get hb
      have hlt : b < c.todo.length := (List.getElem?_eq_some_iff.1 hq).1
      have hW : W.cstep c c' (.record b i rc) out = W := by
        cases out <;> rfl
      rw [hW]
      simp only [CSys.step, hb] at hs
      cases rc with
      | create args =>
        obtain ⟨hnd, hbd, hbs⟩ := ha
        obtain ⟨r, ph, q1, _⟩ := (I.sys i).rep.reserve hbd
        simp only [CSys.record, Buf.create, q1] at hs
        rcases hrel.stage hnd hbs with ⟨s, st, w1, w2⟩ | ⟨s, w1, w2⟩
        · simp only [w1] at hs
          cases hs
          refine I.noteReserved hbd hlt q1 rfl fun q' hq' => ?_
          rw [hq] at hq'; cases hq'
          exact w2 _ _ rfl fun S hS => ⟨rfl, hS⟩
        · simp only [w1] at hs
          cases hs
          refine ⟨reserve_lost I.sys hbd q1, ?_, I.mem, I.nodup⟩
          have := I.bufs.put (b := b) (buf' := { buf with staging := s }) (f := fun x => x) fun q' hq' => by
            rw [hq] at hq'; cases hq'; exact w2
          rw [modify_id] at this
          exact this
      | clone h =>
        obtain ⟨r, ph, q1, _⟩ := (I.sys i).rep.reserve ha
        simp only [CSys.record, Buf.clone, q1] at hs
        cases hs
        refine I.noteReserved ha hlt q1 rfl fun q' hq' => ?_
        rw [hq] at hq'; cases hq'
        exact hrel.push (fun S => ⟨rfl, rfl⟩) rfl
      | set h cp v =>
        simp only [CSys.record, Buf.set] at hs
        rcases hrel.stage (args := [(cp, v)]) (by simp) ha with ⟨s, st, w1, w2⟩ | ⟨s, w1, w2⟩
        · simp only [w1] at hs
          cases hs
          refine I.note rfl hlt fun q' hq' => ?_
          rw [hq] at hq'; cases hq'
          exact w2 _ _ rfl fun S hS => ⟨rfl, rfl, _, hS, by simp [Spec.World.listed]⟩
        · simp only [w1] at hs
          cases hs
          refine ⟨I.sys, ?_, I.mem, I.nodup⟩
          have := I.bufs.put (b := b) (buf' := { buf with staging := s }) (f := fun x => x) fun q' hq' => by
            rw [hq] at hq'; cases hq'; exact w2
          rw [modify_id] at this
          exact this
      | remove h cp =>
        cases hs
        refine I.note rfl hlt fun q' hq' => ?_
        rw [hq] at hq'; cases hq'
        exact hrel.push (fun S => ⟨rfl, rfl⟩) rfl
      | destroy h =>
        cases hs
        refine I.note rfl hlt fun q' hq' => ?_
        rw [hq] at hq'; cases hq'
        exact hrel.push (fun S => rfl) rfl
    | flush i =>
      have hsp := I.flushSpec husk ha
      simp only [CSys.step] at hs
      split at hs
      · cases hs
      · rename_i bs r e he
        cases hs
        rw [he] at hsp
        obtain ⟨g, a, m1, m2, m3, m4, m5, m6⟩ := hsp
        have := I.flushed ha (bs := bs) (r := r) (g := g) (by rw [m1, placeholders_append]; simp; exact fun x => .inl) (by rw [m1]; exact m2) m3 m4
        have e1 : (CSys.gone c.todo (CSys.left bs)).dropLast = g := by rw [m1]; simp
        simp only [Spec.World.cstep, CSys.flushed, e1]
        exact this
      · rename_i bs r u he
        cases hs
        rw [he] at hsp
        obtain ⟨m0, m1, m2, m3, m4⟩ := hsp
        have hrest : (CSys.rest c.todo (CSys.left bs)).flatten = [] := by
          have := gone_rest_length c.todo (CSys.left bs)
          rw [m1] at this
          exact List.eq_nil_of_length_eq_zero (by omega)
        have := I.flushed ha (bs := bs) (r := r) (g := c.todo.flatten) (by rw [m1]; exact fun _ h => h) (by rw [m1, hrest]; simp) m2 m3
        have e2 : Spec.World.cstep W c (c.flushed i bs r) (.flush i) (.ok none) =
            fun j => if j = i then applyAll (W i) c.todo.flatten else W j := by
          show (fun j => if j = i then (CSys.gone c.todo (CSys.left bs)).foldl (fun C x => x.2.apply C) (W i) else W j) = _
          rw [m1]; rfl
        rw [e2]
        exact this

end CoEcs
