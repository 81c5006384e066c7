import Verif.Proofs.RepCopy
import Verif.Spec.Registry

/-!
# Every reachable registry represents the contents it should have
-/

namespace CoEcs
open Spec (RegOp SysOp Sys Out noHandle withHandle Reach)
variable {V : Type}

/-- A registry with its contents and outstanding placeholders. -/
structure RInv (ty : Types) (r : Reg V) (k : Nat) (P : List Handle) (W : Handle → Option (Comps V)) : Prop where
  rep : Rep ty r k W
  res : ∀ h ∈ P, HandleOk r.pool k h ∧ W h = none

/-- What one call does. -/
def RSpec (ty : Types) (r : Reg V) (k : Nat) (P : List Handle) (W : Handle → Option (Comps V))
    (k' : Nat) (P' : Option Handle → List Handle) (W' : Option Handle → Handle → Option (Comps V)) : Res (Reg V) (Option Handle) → Prop
  | .ub => ∃ (i : Nat) (a : Arch V), r.archs.arches[i]? = some a ∧ ¬ a.LastOk
  | .throw r' e => RInv ty r' k P W ∧ (e ≠ .invalidArgument → Keep r.archs r'.archs) ∧
      (e ≠ .insufficientChunkSize → NoNull r.archs → NoNull r'.archs)
  | .ok r' o => RInv ty r' k' (P' o) (W' o) ∧ Keep r.archs r'.archs ∧ (NoNull r.archs → NoNull r'.archs)

theorem Keep.refl (s : Archs V) : Keep s s := Keep.of_eq rfl

section
variable {ty : Types} {r : Reg V} {k : Nat} {P : List Handle} {W : Handle → Option (Comps V)}

theorem RSpec.same (I : RInv ty r k P W) {k' : Nat} {P' : Option Handle → List Handle}
    {W' : Option Handle → Handle → Option (Comps V)} (e : Exn) : RSpec ty r k P W k' P' W' (.throw r e) :=
  ⟨I, fun _ => Keep.refl _, fun _ h => h⟩

theorem RInv.pool_eq (I : RInv ty r k P W) {r' : Reg V} {W' : Handle → Option (Comps V)} (hp : r'.pool = r.pool) (R : Rep ty r' k W')
    (hw : ∀ h, W h = none → W' h = none) : RInv ty r' k P W' :=
  ⟨R, fun h hh => ⟨hp ▸ (I.res h hh).1, hw h (I.res h hh).2⟩⟩

theorem put_none {D : Type} {W : Handle → Option D} {h h' : Handle} {d : Option D} (hn : W h' = none) (hne : h' ≠ h ∨ d = none) :
    World.put W h d h' = none := by
  unfold World.put
  split
  · rcases hne with hne | hne
    · contradiction
    · exact hne
  · exact hn

theorem put_some_none {D : Type} {W : Handle → Option D} {h : Handle} {d0 : D} (hw : W h = some d0) {d : Option D} {h' : Handle}
    (hn : W h' = none) : World.put W h d h' = none := by
  refine put_none hn (.inl ?_)
  rintro rfl
  rw [hw] at hn; cases hn

theorem World.put_self {D : Type} {W : Handle → Option D} {h : Handle} : World.put W h (W h) = W := by
  funext h'
  unfold World.put
  split
  · rename_i e; rw [e]
  · rfl

/-- Preservation of the placeholders when an id is allocated. -/
theorem RInv.create_pool (I : RInv ty r 0 P W) (hb : r.pool.nextId + 1 < U32) :
    ∃ p h, r.pool.create = some (p, h) ∧ RInv ty { r with pool := p } 0 P W ∧ Held p 0 h ∧ W h = none ∧ h ∉ P := by
  obtain ⟨p, h, hc, R1, h3, hw, h4, h5⟩ := I.rep.create_pool hb
  have hk : ∀ h' ∈ P, Held p 0 h' ∧ h'.id ≠ h.id := fun h' hh => h4 h' ((I.res h' hh).1.held I.rep.pool)
  exact ⟨p, h, hc, ⟨R1, fun h' hh => ⟨(hk h' hh).1.ok, (I.res h' hh).2⟩⟩, h3, hw, fun hp => (hk h hp).2 rfl⟩

theorem RInv.create (I : RInv ty r 0 P W) (hb : r.pool.nextId + 1 < U32) {args : List (Nat × V)} (hnd : (args.map Prod.fst).Nodup) :
    RSpec ty r 0 P W 0 (fun _ => P)
      (fun o => match o with | some h => World.put W h (some (Spec.World.listed args)) | none => W) (withHandle (r.create ty args)) := by
  obtain ⟨p, h, hc, h3, hw, h4, h5, h6⟩ := I.rep.create hb hnd
  have hk : ∀ h' ∈ P, Held p 0 h' ∧ h'.id ≠ h.id := fun h' hh => h4 h' ((I.res h' hh).1.held I.rep.pool)
  rcases h6 with ⟨r', q1, q2, q3, q4, q5⟩ | ⟨r', q1, q2, q3, q4, q5⟩
  · rw [q1]
    refine ⟨⟨q3, fun h' hh => ⟨q2 ▸ (hk h' hh).1.ok, ?_⟩⟩, q4, q5⟩
    exact put_none (I.res h' hh).2 (.inl fun he => (hk h' hh).2 (he ▸ rfl))
  · rw [q1]
    exact ⟨⟨q3, fun h' hh => ⟨q2 ▸ (hk h' hh).1.ok, (I.res h' hh).2⟩⟩, fun _ => q4, fun hn => absurd rfl hn⟩

theorem RInv.destroy (I : RInv ty r 0 P W) (h : Handle) :
    RSpec ty r 0 P W 0 (fun _ => P) (fun _ => World.put W h none) (noHandle (r.destroy h)) := by
  cases hw : W h with
  | none =>
    rw [I.rep.destroy_none hw]
    exact RSpec.same I _
  | some d =>
    rcases I.rep.destroy hw with ⟨q1, q2⟩ | ⟨r', q1, q2, q3, q4, q5⟩
    · rw [q1]; exact q2
    · rw [q1]
      obtain ⟨z1, z2, z3, z4, z5⟩ := pool_recycle I.rep.pool (I.rep.held hw)
      refine ⟨⟨q3, fun h' hh => ⟨?_, put_none (I.res h' hh).2 (.inr rfl)⟩⟩, q4, q5⟩
      rw [q2]
      refine (z4 h' ((I.res h' hh).1.held I.rep.pool) ?_).ok
      rintro rfl
      rw [(I.res _ hh).2] at hw; cases hw

theorem RInv.set (I : RInv ty r k P W) (h : Handle) (c : Nat) (v : V) :
    RSpec ty r k P W k (fun _ => P) (fun _ => World.put W h ((W h).map fun d => Spec.World.withComp d c (some v)))
      (noHandle (r.set ty h c v)) := by
  cases hw : W h with
  | none =>
    rw [I.rep.set_none hw]
    exact RSpec.same I _
  | some d =>
    rcases I.rep.set hw c v with ⟨q1, q2⟩ | ⟨r', q1, q2, q3, q4, q5⟩ | ⟨r', q1, q2, q3, q4, q5⟩
    · rw [q1]; exact q2
    · rw [q1]
      exact ⟨I.pool_eq q2 q3 fun h' => put_some_none hw, q4, q5⟩
    · rw [q1]
      exact ⟨I.pool_eq q3 q4 fun _ hn => hn, fun _ => q5.1, fun hn => absurd rfl hn⟩

theorem RInv.remove (I : RInv ty r k P W) (h : Handle) (c : Nat) :
    RSpec ty r k P W k (fun _ => P) (fun _ => World.put W h ((W h).map fun d => Spec.World.withComp d c none))
      (noHandle (r.remove ty h c)) := by
  cases hw : W h with
  | none =>
    rw [I.rep.remove_none hw]
    exact RSpec.same I _
  | some d =>
    rcases I.rep.remove hw c with ⟨q0, q1⟩ | ⟨q0, ⟨q1, q2⟩ | ⟨r', q1, q2, q3, q4, q5⟩ | ⟨r', q1, q2, q3, q4⟩⟩
    · rw [q1]
      have : Spec.World.withComp d c none = d := by
        funext x; unfold Spec.World.withComp; split
        · rename_i hx; rw [hx, q0]
        · rfl
      refine ⟨?_, Keep.refl _, fun h => h⟩
      have e : World.put W h (some d) = W := by rw [← hw, World.put_self]
      simp only [Option.map_some, this, e]
      exact I
    · rw [q1]; exact q2
    · rw [q1]
      exact ⟨I.pool_eq q2 q3 fun h' => put_some_none hw, q4, q5⟩
    · rw [q1]
      exact ⟨I.pool_eq q2 q3 fun _ hn => hn, fun _ => q4.1, fun hn => absurd rfl hn⟩

theorem RInv.assign (I : RInv ty r k P W) (h : Handle) (c : Nat) (v : V) :
    RSpec ty r k P W k (fun _ => P) (fun _ => World.put W h ((W h).map fun d => Spec.World.withComp d c (some v)))
      (noHandle (r.assign h c v)) := by
  cases hw : W h with
  | none =>
    rw [I.rep.assign_none hw]
    exact RSpec.same I _
  | some d =>
    rcases I.rep.assign hw c v with ⟨q0, q1⟩ | ⟨v0, r', q0, q1, q2, q3, q4, q5⟩
    · rw [q1]; exact RSpec.same I _
    · rw [q1]
      exact ⟨I.pool_eq q2 q3 fun h' => put_some_none hw, q4, q5⟩

theorem RInv.getOrInsert (I : RInv ty r k P W) (h : Handle) (c : Nat) (v : V) :
    RSpec ty r k P W k (fun _ => P) (fun _ => World.put W h ((W h).map fun d =>
      match d c with | none => Spec.World.withComp d c (some v) | some _ => d))
      (noHandle (r.getOrInsert ty h c v)) := by
  cases hw : W h with
  | none =>
    rw [I.rep.getOrInsert_none hw]
    exact RSpec.same I _
  | some d =>
    rcases I.rep.getOrInsert hw c v with ⟨v0, q0, q1⟩ | ⟨q0, ⟨q1, q2⟩ | ⟨r', q1, q2, q3, q4, q5⟩ | ⟨r', q1, q2, q3, q4⟩⟩
    · rw [q1]
      refine ⟨?_, Keep.refl _, fun h => h⟩
      have e : World.put W h (some d) = W := by rw [← hw, World.put_self]
      simp only [Option.map_some, q0, e]
      exact I
    · rw [q1]; exact q2
    · rw [q1]
      simp only [Option.map_some, q0]
      exact ⟨I.pool_eq q2 q3 fun h' => put_some_none hw, q4, q5⟩
    · rw [q1]
      exact ⟨I.pool_eq q2 q3 fun _ hn => hn, fun _ => q4.1, fun hn => absurd rfl hn⟩

theorem RInv.reserve (I : RInv ty r k P W) (hb : r.pool.nextId + 1 < U32) :
    RSpec ty r k P W (k + 1) (fun o => match o with | some h => h :: P | none => P) (fun _ => W) (withHandle r.reserve) := by
  obtain ⟨r', h, q1, q2, q3, q4, q5, q6, q7, _⟩ := I.rep.reserve hb
  rw [q1]
  refine ⟨⟨q4, ?_⟩, by rw [q2]; exact Keep.refl _, by rw [q2]; exact fun h => h⟩
  intro h' hh
  rcases List.mem_cons.1 hh with rfl | hh
  · exact ⟨q6, q5⟩
  · exact ⟨(q7 h' (I.res h' hh).1).1, (I.res h' hh).2⟩

theorem RInv.sync (I : RInv ty r k P W) :
    RSpec ty r k P W 0 (fun _ => P) (fun _ => W) (.ok r.sync none) := by
  obtain ⟨q1, q2, _⟩ := I.rep.sync
  exact ⟨⟨q1, fun h hh => ⟨(q2 h (I.res h hh).1).ok, (I.res h hh).2⟩⟩, Keep.refl _, fun h => h⟩

/-- Copying to a placeholder. -/
theorem RInv.copyInto {q : Reg V} {k' : Nat} {P' : List Handle} {W' : Handle → Option (Comps V)} (R : Rep ty r k W) (I : RInv ty q k' P' W')
    (h : Handle) {ph : Handle} (hh : Held q.pool k' ph) (hp : W' ph = none) :
    RSpec ty q k' P' W' k' (fun _ => P'.filter (· ≠ ph))
      (fun o => match o with | some h' => World.put W' h' (W h) | none => W') (withHandle (r.copyInto h q ph)) := by
  cases hw : W h with
  | none =>
    rw [R.copyInto_none hw]
    exact RSpec.same I _
  | some d =>
    rcases R.copyInto I.rep hw hh hp with ⟨q', q1, q2, q3, q4, q5, q6⟩ | ⟨q', q1, q2, q3, q4, q5⟩
    · rw [q1]
      refine ⟨⟨q4, fun h' hm' => ?_⟩, q5, q6⟩
      obtain ⟨m1, m2⟩ := List.mem_filter.1 hm'
      exact ⟨q3 ▸ (I.res h' m1).1, put_none (I.res h' m1).2 (.inl (by simpa using m2))⟩
    · rw [q1]
      exact ⟨I.pool_eq q3 q4 fun _ hn => hn, fun hn => absurd rfl hn, fun _ => q5⟩

theorem filter_ne {P : List Handle} {h : Handle} (hn : h ∉ P) : P.filter (· ≠ h) = P := by
  rw [List.filter_eq_self]
  intro x hx
  simp only [decide_eq_true_eq]
  rintro rfl
  exact hn hx

theorem RInv.cloneInto (I : RInv ty r 0 P W) (h : Handle) {ph : Handle} (hm : ph ∈ P) :
    RSpec ty r 0 P W 0 (fun _ => P.filter (· ≠ ph))
      (fun o => match o with | some h' => World.put W h' (W h) | none => W) (withHandle (r.cloneInto h ph)) := by
  rw [cloneInto_eq]
  exact RInv.copyInto I.rep I h ((I.res ph hm).1.held I.rep.pool) (I.res ph hm).2

theorem RInv.clone (I : RInv ty r 0 P W) (hb : r.pool.nextId + 1 < U32) (h : Handle) :
    RSpec ty r 0 P W 0 (fun _ => P)
      (fun o => match o with | some h' => World.put W h' (W h) | none => W) (withHandle (r.clone h)) := by
  obtain ⟨p, ph, hc, I1, h1, h2, h3⟩ := I.create_pool hb
  unfold Reg.clone
  simp only [hc, cloneInto_eq]
  have := RInv.copyInto I1.rep I1 h h1 h2
  rw [filter_ne h3] at this
  exact this

theorem RInv.copyTo {q : Reg V} {P' : List Handle} {W' : Handle → Option (Comps V)} (R : Rep ty r k W) (I : RInv ty q 0 P' W')
    (hb : q.pool.nextId + 1 < U32) (h : Handle) :
    RSpec ty q 0 P' W' 0 (fun _ => P')
      (fun o => match o with | some h' => World.put W' h' (W h) | none => W') (withHandle (r.copyTo h q)) := by
  obtain ⟨p, ph, hc, I1, h1, h2, h3⟩ := I.create_pool hb
  unfold Reg.copyTo
  simp only [hc]
  have := RInv.copyInto R I1 h h1 h2
  rw [filter_ne h3] at this
  exact this

/-- What moving an entity does. -/
def MSpec (ty : Types) (r q : Reg V) (P P' P2 : List Handle) (W W' : Handle → Option (Comps V)) (h : Handle) :
    Res (Reg V × Reg V) Handle → Prop
  | .ub => ∃ (i : Nat) (a : Arch V), r.archs.arches[i]? = some a ∧ ¬ a.LastOk
  | .throw (r', q') e => r' = r ∧ RInv ty q' 0 P' W' ∧ Keep q.archs q'.archs ∧
      (e ≠ .insufficientChunkSize → NoNull q.archs → NoNull q'.archs) ∧ e ≠ .invalidArgument
  | .ok (r', q') h' => RInv ty r' 0 P (World.put W h none) ∧ RInv ty q' 0 P2 (World.put W' h' (W h)) ∧
      Keep r.archs r'.archs ∧ (NoNull r.archs → NoNull r'.archs) ∧ Keep q.archs q'.archs ∧ (NoNull q.archs → NoNull q'.archs)

theorem RInv.moveInto {q : Reg V} {P' : List Handle} {W' : Handle → Option (Comps V)} (I : RInv ty r 0 P W) (J : RInv ty q 0 P' W')
    (h : Handle) {ph : Handle} (hh : Held q.pool 0 ph) (hp : W' ph = none) :
    MSpec ty r q P P' (P'.filter (· ≠ ph)) W W' h (r.moveInto h q ph) := by
  cases hw : W h with
  | none =>
    rw [I.rep.moveInto_none hw]
    refine ⟨rfl, J, Keep.refl _, fun _ h => h, ?_⟩
    split <;> decide
  | some d =>
    rcases I.rep.moveInto J.rep hw hh hp with ⟨q1, q2⟩ | ⟨r', q', q1, q2, q3, q4, q5, q6, q7, q8, q9⟩
    · rw [q1]; exact q2
    · rw [q1]
      obtain ⟨z1, z2, z3, z4, z5⟩ := pool_recycle I.rep.pool (I.rep.held hw)
      refine ⟨⟨q4, fun h' hm => ⟨?_, put_none (I.res h' hm).2 (.inr rfl)⟩⟩, ⟨hw ▸ q5, fun h' hm' => ?_⟩, q6, q7, q8, q9⟩
      · rw [q2]
        refine (z4 h' ((I.res h' hm).1.held I.rep.pool) ?_).ok
        rintro rfl
        rw [(I.res _ hm).2] at hw; cases hw
      · obtain ⟨m1, m2⟩ := List.mem_filter.1 hm'
        exact ⟨q3 ▸ (J.res h' m1).1, put_none (J.res h' m1).2 (.inl (by simpa using m2))⟩

theorem RInv.moveTo {q : Reg V} {P' : List Handle} {W' : Handle → Option (Comps V)} (I : RInv ty r 0 P W) (J : RInv ty q 0 P' W')
    (hb : q.pool.nextId + 1 < U32) (h : Handle) : MSpec ty r q P P' P' W W' h (r.moveTo h q) := by
  obtain ⟨p, ph, hc, J1, h1, h2, h3⟩ := J.create_pool hb
  unfold Reg.moveTo
  simp only [hc]
  have := I.moveInto J1 h h1 h2
  rw [filter_ne h3] at this
  exact this

end

/-- Every registry of the system represents its part of the world. -/
def SysInv (ty : Types) (s : Sys V) (W : Spec.World V) : Prop := ∀ i, RInv ty (s.reg i) (s.pend i) (s.res i) (W i)

theorem SysInv.init (ty : Types) : SysInv ty (Sys.init : Sys V) (fun _ _ => none) :=
  fun _ => ⟨Rep.empty ty, by intro h hh; cases hh⟩

/-- What one step of a history does. -/
def StepSpec (ty : Types) (s : Sys V) (W : Spec.World V) (op : SysOp V) : Option (Sys V × Out) → Prop
  | none => ∃ (j i : Nat) (a : Arch V), (s.reg j).archs.arches[i]? = some a ∧ ¬ a.LastOk
  | some (s', out) => SysInv ty s' (W.step op out) ∧
      (out ≠ .throw .invalidArgument → ∀ i, Keep (s.reg i).archs (s'.reg i).archs) ∧
      (out ≠ .throw .insufficientChunkSize → ∀ i, NoNull (s.reg i).archs → NoNull (s'.reg i).archs)

theorem step_throw (W : Spec.World V) (op : SysOp V) (e : Exn) : W.step op (.throw e) = W := by
  cases op with
  | on i op => cases op <;> rfl
  | copy => rfl
  | move => rfl

/-- Assembling a step on one registry. -/
theorem on_step {ty : Types} {s : Sys V} {W : Spec.World V} (hs : SysInv ty s W) {i : Nat} {op : RegOp V} {k' : Nat}
    {P' : Option Handle → List Handle} {W' : Option Handle → Handle → Option (Comps V)}
    (h : RSpec ty (s.reg i) (s.pend i) (s.res i) (W i) k' P' W' (op.run ty (s.reg i)))
    (hn : ∀ r o, op.run ty (s.reg i) = .ok r o → ((s.setReg i r).note i op o).reg = (s.setReg i r).reg ∧
      (∀ j, ((s.setReg i r).note i op o).pend j = if j = i then k' else s.pend j) ∧
      (∀ j, ((s.setReg i r).note i op o).res j = if j = i then P' o else s.res j))
    (hw : ∀ r o, op.run ty (s.reg i) = .ok r o → ∀ j, W.step (.on i op) (.ok o) j = if j = i then W' o else W j) :
    StepSpec ty s W (.on i op) (s.step ty (.on i op)) := by
  have e0 : s.step ty (.on i op) = match op.run ty (s.reg i) with
      | .ub => none
      | .throw r e => some (s.setReg i r, .throw e)
      | .ok r h => some ((s.setReg i r).note i op h, .ok h) := rfl
  rw [e0]
  cases hr : op.run ty (s.reg i) with
  | ub =>
    rw [hr] at h
    obtain ⟨j, a, h1, h2⟩ := h
    exact ⟨i, j, a, h1, h2⟩
  | throw r e =>
    rw [hr] at h
    obtain ⟨h1, h2, h3⟩ := h
    refine ⟨?_, ?_, ?_⟩
    · intro j
      rw [step_throw]
      simp only [Sys.setReg]
      by_cases hj : j = i
      · subst hj; simpa using h1
      · simpa [hj] using hs j
    · intro he j
      simp only [Sys.setReg]
      by_cases hj : j = i
      · subst hj; simpa using h2 (by simpa using he)
      · simpa [hj] using Keep.refl _
    · intro he j
      simp only [Sys.setReg]
      by_cases hj : j = i
      · subst hj; simpa using h3 (by simpa using he)
      · simp [hj]
  | ok r o =>
    rw [hr] at h
    obtain ⟨h1, h2, h3⟩ := h
    obtain ⟨n1, n2, n3⟩ := hn r o hr
    have n4 := hw r o hr
    refine ⟨?_, fun _ j => ?_, fun _ j => ?_⟩
    · intro j
      rw [n1, n2, n3, n4]
      simp only [Sys.setReg]
      by_cases hj : j = i
      · subst hj; simpa using h1
      · simpa [hj] using hs j
    · rw [n1]
      simp only [Sys.setReg]
      by_cases hj : j = i
      · subst hj; simpa using h2
      · simpa [hj] using Keep.refl _
    · rw [n1]
      simp only [Sys.setReg]
      by_cases hj : j = i
      · subst hj; simpa using h3
      · simp [hj]

theorem upd_eq (W : Spec.World V) (i : Nat) (h : Handle) (d : Option (Comps V)) (j : Nat) :
    W.upd i h d j = if j = i then World.put (W i) h d else W j := by
  funext h'
  unfold Spec.World.upd World.put
  by_cases hj : j = i
  · subst hj; simp
  · simp [hj]

theorem withHandle_ok {σ : Type} {x : Res σ Handle} {r : σ} {o : Option Handle} (h : withHandle x = .ok r o) : ∃ h', o = some h' := by
  cases x <;> simp [withHandle] at h
  exact ⟨_, h.2.symm⟩

theorem setReg_setReg_use (s : Sys V) (i j : Nat) (r d : Reg V) (ph : Option Handle) :
    (((s.setReg i r).setReg j d).use j ph).reg = ((s.setReg i r).setReg j d).reg := by
  cases ph <;> rfl

theorem copy_step {ty : Types} {s : Sys V} {W : Spec.World V} (hs : SysInv ty s W) {i j : Nat} {h : Handle} {ph : Option Handle}
    (ha : s.Allowed (.copy i h j ph)) : StepSpec ty s W (.copy i h j ph) (s.step ty (.copy i h j ph)) := by
  have hsp : ∃ x, s.step ty (.copy i h j ph) = (match x with
      | .ub => none
      | .throw d e => some (s.setReg j d, .throw e)
      | .ok d h' => some ((s.setReg j d).use j ph, .ok (some h'))) ∧
      RSpec ty (s.reg j) (s.pend j) (s.res j) (W j) (s.pend j) (fun _ => ((s.use j ph).res j))
      (fun o => match o with | some h' => World.put (W j) h' (W i h) | none => W j) (withHandle x) := by
    cases ph with
    | none =>
      obtain ⟨h1, h2, h3⟩ := ha
      refine ⟨_, rfl, ?_⟩
      have := RInv.copyTo (hs i).rep (h2 ▸ hs j) h3 h
      rw [h2]
      exact this
    | some p =>
      obtain ⟨h1, h2, h3⟩ := ha
      refine ⟨_, rfl, ?_⟩
      have := RInv.copyInto (hs i).rep (hs j) h (ph := p)
      rw [h2] at this ⊢
      have hr := (hs j).res p h3
      rw [h2] at hr
      have := this (hr.1.held (h2 ▸ (hs j).rep.pool)) hr.2
      simpa [Sys.use] using this
  obtain ⟨x, e1, e2⟩ := hsp
  rw [e1]
  cases x with
  | ub =>
    obtain ⟨k, a, h1, h2⟩ := e2
    exact ⟨j, k, a, h1, h2⟩
  | throw d e =>
    obtain ⟨h1, h2, h3⟩ := e2
    refine ⟨?_, ?_, ?_⟩
    · intro k
      rw [step_throw]
      simp only [Sys.setReg]
      by_cases hj : k = j
      · subst hj; simpa using h1
      · simpa [hj] using hs k
    · intro he k
      simp only [Sys.setReg]
      by_cases hj : k = j
      · subst hj; simpa using h2 (by simpa using he)
      · simpa [hj] using Keep.refl _
    · intro he k
      simp only [Sys.setReg]
      by_cases hj : k = j
      · subst hj; simpa using h3 (by simpa using he)
      · simp [hj]
  | ok d h' =>
    obtain ⟨h1, h2, h3⟩ := e2
    have hreg : ((s.setReg j d).use j ph).reg = (s.setReg j d).reg := by cases ph <;> rfl
    have hpend : ((s.setReg j d).use j ph).pend = s.pend := by cases ph <;> rfl
    have hres : ∀ k, ((s.setReg j d).use j ph).res k = if k = j then (s.use j ph).res j else s.res k := by
      intro k
      cases ph with
      | none => simp only [Sys.use, Sys.setReg]; split <;> simp_all
      | some p => simp only [Sys.use, Sys.setReg]; split <;> simp_all
    refine ⟨?_, fun _ k => ?_, fun _ k => ?_⟩
    · intro k
      rw [hreg, hpend, hres]
      simp only [Sys.setReg, Spec.World.step, upd_eq]
      by_cases hj : k = j
      · subst hj; simpa using h1
      · simpa [hj] using hs k
    · rw [hreg]
      simp only [Sys.setReg]
      by_cases hj : k = j
      · subst hj; simpa using h2
      · simpa [hj] using Keep.refl _
    · rw [hreg]
      simp only [Sys.setReg]
      by_cases hj : k = j
      · subst hj; simpa using h3
      · simp [hj]

theorem move_step {ty : Types} {s : Sys V} {W : Spec.World V} (hs : SysInv ty s W) {i j : Nat} {h : Handle} {ph : Option Handle}
    (ha : s.Allowed (.move i h j ph)) : StepSpec ty s W (.move i h j ph) (s.step ty (.move i h j ph)) := by
  have hsp : ∃ x, s.step ty (.move i h j ph) = (match x with
      | .ub => none
      | .throw (r, d) e => some ((s.setReg i r).setReg j d, .throw e)
      | .ok (r, d) h' => some (((s.setReg i r).setReg j d).use j ph, .ok (some h'))) ∧
      MSpec ty (s.reg i) (s.reg j) (s.res i) (s.res j) ((s.use j ph).res j) (W i) (W j) h x := by
    cases ph with
    | none =>
      obtain ⟨h1, h2, h3, h4⟩ := ha
      exact ⟨_, rfl, RInv.moveTo (h2 ▸ hs i) (h3 ▸ hs j) h4 h⟩
    | some p =>
      obtain ⟨h1, h2, h3, h4⟩ := ha
      refine ⟨_, rfl, ?_⟩
      have I := hs i
      have J := hs j
      rw [h2] at I
      rw [h3] at J
      have := I.moveInto J h ((J.res p h4).1.held J.rep.pool) (J.res p h4).2
      simpa [Sys.use] using this
  have hne : i ≠ j ∧ s.pend i = 0 ∧ s.pend j = 0 := by
    cases ph with
    | none => exact ⟨ha.1, ha.2.1, ha.2.2.1⟩
    | some p => exact ⟨ha.1, ha.2.1, ha.2.2.1⟩
  obtain ⟨hij, hpi, hpj⟩ := hne
  have hji : j ≠ i := fun e => hij e.symm
  obtain ⟨x, e1, e2⟩ := hsp
  rw [e1]
  cases x with
  | ub =>
    obtain ⟨k, a, h1, h2⟩ := e2
    exact ⟨i, k, a, h1, h2⟩
  | throw rd e =>
    obtain ⟨r, d⟩ := rd
    obtain ⟨rfl, h1, h2, h3, h4⟩ := e2
    refine ⟨?_, ?_, ?_⟩
    · intro k
      rw [step_throw]
      simp only [Sys.setReg]
      by_cases hj : k = j
      · subst hj; simpa [hpj] using h1
      · by_cases hi : k = i
        · subst hi; simpa [hj] using hs k
        · simpa [hj, hi] using hs k
    · intro he k
      simp only [Sys.setReg]
      by_cases hj : k = j
      · subst hj; simpa using h2
      · by_cases hi : k = i
        · subst hi; simpa [hj] using Keep.refl _
        · simpa [hj, hi] using Keep.refl _
    · intro he k
      simp only [Sys.setReg]
      by_cases hj : k = j
      · subst hj; simpa using h3 (by simpa using he)
      · by_cases hi : k = i
        · subst hi; simp [hj]
        · simp [hj, hi]
  | ok rd h' =>
    obtain ⟨r, d⟩ := rd
    obtain ⟨h1, h2, h3, h4, h5, h6⟩ := e2
    have hpend : (((s.setReg i r).setReg j d).use j ph).pend = s.pend := by cases ph <;> rfl
    have hres : ∀ k, (((s.setReg i r).setReg j d).use j ph).res k = if k = j then (s.use j ph).res j else s.res k := by
      intro k
      cases ph with
      | none => simp only [Sys.use, Sys.setReg]; split <;> simp_all
      | some p => simp only [Sys.use, Sys.setReg]; split <;> simp_all
    refine ⟨?_, fun _ k => ?_, fun _ k => ?_⟩
    · intro k
      rw [setReg_setReg_use, hpend, hres]
      simp only [Sys.setReg, Spec.World.step, upd_eq]
      by_cases hj : k = j
      · subst hj; simpa [hpj, hji] using h2
      · by_cases hi : k = i
        · subst hi; simpa [hj, hpi] using h1
        · simpa [hj, hi] using hs k
    · rw [setReg_setReg_use]
      simp only [Sys.setReg]
      by_cases hj : k = j
      · subst hj; simpa using h5
      · by_cases hi : k = i
        · subst hi; simpa [hj] using h3
        · simpa [hj, hi] using Keep.refl _
    · rw [setReg_setReg_use]
      simp only [Sys.setReg]
      by_cases hj : k = j
      · subst hj; simpa using h6
      · by_cases hi : k = i
        · subst hi; simpa [hj] using h4
        · simp [hj, hi]

theorem step_spec {ty : Types} {s : Sys V} {W : Spec.World V} (hs : SysInv ty s W) {op : SysOp V} (ha : s.Allowed op) :
    StepSpec ty s W op (s.step ty op) := by
  have keep : ∀ i : Nat, (∀ j, s.pend j = if j = i then s.pend i else s.pend j) ∧ (∀ j, s.res j = if j = i then s.res i else s.res j) :=
    fun i => ⟨fun j => by split <;> simp_all, fun j => by split <;> simp_all⟩
  cases op with
  | copy i h j ph => exact copy_step hs ha
  | move i h j ph => exact move_step hs ha
  | on i op =>
    have I := hs i
    cases op with
    | create args =>
      obtain ⟨h1, h2, h3⟩ := ha
      refine on_step hs (h2.symm ▸ RInv.create (h2 ▸ I) h3 h1) (fun r o _ => ⟨rfl, fun j => ?_, (keep i).2⟩) ?_
      · show s.pend j = _
        exact h2 ▸ (keep i).1 j
      · intro r o ho j
        obtain ⟨h', rfl⟩ := withHandle_ok ho
        simp only [Spec.World.step, upd_eq]
    | destroy h =>
      refine on_step hs (ha.symm ▸ RInv.destroy (ha ▸ I) h) (fun r o _ => ⟨rfl, fun j => ?_, (keep i).2⟩) ?_
      · show s.pend j = _
        exact (show s.pend i = 0 from ha) ▸ (keep i).1 j
      · intro r o ho j
        simp only [Spec.World.step, upd_eq]
    | set h c v =>
      refine on_step hs (RInv.set I h c v) (fun r o _ => ⟨rfl, (keep i).1, (keep i).2⟩) ?_
      intro r o ho j
      simp only [Spec.World.step, upd_eq]
    | remove h c =>
      refine on_step hs (RInv.remove I h c) (fun r o _ => ⟨rfl, (keep i).1, (keep i).2⟩) ?_
      intro r o ho j
      simp only [Spec.World.step, upd_eq]
    | assign h c v =>
      refine on_step hs (RInv.assign I h c v) (fun r o _ => ⟨rfl, (keep i).1, (keep i).2⟩) ?_
      intro r o ho j
      simp only [Spec.World.step, upd_eq]
    | getOrInsert h c v =>
      refine on_step hs (RInv.getOrInsert I h c v) (fun r o _ => ⟨rfl, (keep i).1, (keep i).2⟩) ?_
      intro r o ho j
      simp only [Spec.World.step, upd_eq]
      rfl
    | clone h ph =>
      cases ph with
      | none =>
        obtain ⟨h1, h2⟩ := ha
        refine on_step hs (h1.symm ▸ RInv.clone (h1 ▸ I) h2 h) (fun r o _ => ⟨rfl, fun j => ?_, (keep i).2⟩) ?_
        · show s.pend j = _
          exact h1 ▸ (keep i).1 j
        · intro r o ho j
          obtain ⟨h', rfl⟩ := withHandle_ok ho
          simp only [Spec.World.step, upd_eq]
      | some ph =>
        obtain ⟨h1, h2⟩ := ha
        refine on_step hs (h1.symm ▸ RInv.cloneInto (h1 ▸ I) h h2) (fun r o _ => ⟨rfl, fun j => ?_, fun j => ?_⟩) ?_
        · show s.pend j = _
          exact h1 ▸ (keep i).1 j
        · simp only [Sys.note, Sys.use, Sys.setReg]
        · intro r o ho j
          obtain ⟨h', rfl⟩ := withHandle_ok ho
          simp only [Spec.World.step, upd_eq]
    | reserve =>
      refine on_step hs (RInv.reserve I ha) ?_ ?_
      · intro r o ho
        obtain ⟨h', rfl⟩ := withHandle_ok ho
        exact ⟨rfl, fun j => rfl, fun j => rfl⟩
      · intro r o ho j
        obtain ⟨h', rfl⟩ := withHandle_ok ho
        simp only [Spec.World.step]
        split <;> simp_all
    | sync =>
      refine on_step hs (RInv.sync I) (fun r o _ => ⟨rfl, fun j => rfl, (keep i).2⟩) ?_
      intro r o ho j
      simp only [Spec.World.step]
      split <;> simp_all

theorem Spec.Reach.inv {ty : Types} {P : Sys V → SysOp V → Prop} {s : Sys V} {W : Spec.World V} (h : Reach ty P s W) : SysInv ty s W := by
  induction h with
  | init => exact SysInv.init ty
  | @step s s' W op out h ha _ hst ih =>
    have := step_spec ih ha
    rw [hst] at this
    exact this.1

end CoEcs
