import Verif.Proofs.WeakShared
import Verif.Proofs.WeakSchedule
import Verif.Spec.WeakCommand

/-! # Commands recorded in parallel in C++ memory: helper lemmas -/

namespace CoEcs.Weak
open CoEcs

/-! ## Programs on other objects -/

section
variable {L M : Type} [DecidableEq L] [DecidableEq M] {ι : L → M}

theorem Op.on_seq (hι : ∀ x y, ι x = ι y → x = y) (o : Op L) (s : Store M) :
    ((o.on ι).seq s).1 = (o.seq (s.pull ι)).1 ∧ ((o.on ι).seq s).2.pull ι = (o.seq (s.pull ι)).2 ∧
    ∀ x, (∀ l, x ≠ ι l) → ((o.on ι).seq s).2.atom x = s.atom x ∧ ((o.on ι).seq s).2.cell x = s.cell x := by
  have hset : ∀ (l : L) (v : Int), (s.setAtom (ι l) v).pull ι = (s.pull ι).setAtom l v := by
    intro l v
    simp only [Store.pull, Store.setAtom, Store.mk.injEq, and_true]
    funext x
    by_cases e : x = l
    · subst e; simp
    · rw [if_neg e, if_neg fun e' => e (hι _ _ e')]
  have hcell : ∀ (l : L) (v : Int), (s.setCell (ι l) v).pull ι = (s.pull ι).setCell l v := by
    intro l v
    simp only [Store.pull, Store.setCell, Store.mk.injEq, true_and]
    funext x
    by_cases e : x = l
    · subst e; simp
    · rw [if_neg e, if_neg fun e' => e (hι _ _ e')]
  cases o with
  | load o l => exact ⟨rfl, rfl, fun _ _ => ⟨rfl, rfl⟩⟩
  | store o l v => exact ⟨rfl, hset l v, fun x hx => ⟨by simp [Op.on, Op.seq, Store.setAtom, hx l], rfl⟩⟩
  | rmw o l f =>
    simp only [Op.on, Op.seq]
    have : (s.pull ι).atom l = s.atom (ι l) := rfl
    rw [this]
    cases f (s.atom (ι l)) with
    | none => exact ⟨rfl, rfl, fun _ _ => ⟨rfl, rfl⟩⟩
    | some v => exact ⟨rfl, hset l v, fun x hx => ⟨by simp [Store.setAtom, hx l], rfl⟩⟩
  | fence o => exact ⟨rfl, rfl, fun _ _ => ⟨rfl, rfl⟩⟩
  | read l => exact ⟨rfl, rfl, fun _ _ => ⟨rfl, rfl⟩⟩
  | write l v => exact ⟨rfl, hcell l v, fun x hx => ⟨rfl, by simp [Op.on, Op.seq, Store.setCell, hx l]⟩⟩

theorem Prog.on_seq (hι : ∀ x y, ι x = ι y → x = y) {α : Type} (p : Prog L α) : ∀ s : Store M,
    ((p.on ι).seq s).1 = (p.seq (s.pull ι)).1 ∧ ((p.on ι).seq s).2.pull ι = (p.seq (s.pull ι)).2 ∧
    ∀ x, (∀ l, x ≠ ι l) → ((p.on ι).seq s).2.atom x = s.atom x ∧ ((p.on ι).seq s).2.cell x = s.cell x := by
  induction p with
  | ret a => exact fun s => ⟨rfl, rfl, fun _ _ => ⟨rfl, rfl⟩⟩
  | op o k ih =>
    intro s
    obtain ⟨h1, h2, h3⟩ := Op.on_seq hι o s
    obtain ⟨i1, i2, i3⟩ := ih (o.seq (s.pull ι)).1 ((o.on ι).seq s).2
    simp only [Prog.on, Prog.seq, h1]
    rw [← h2]
    exact ⟨i1, i2, fun x hx => ⟨(i3 x hx).1.trans (h3 x hx).1, (i3 x hx).2.trans (h3 x hx).2⟩⟩

theorem Prog.on_within {G : Foot M} {F : Foot L} (hr : ∀ l, F.has l → G.has (ι l)) (hw : ∀ l, F.wr l → G.wr (ι l)) {α : Type} {p : Prog L α} (h : p.Within F) :
    (p.on ι).Within G := by
  induction p with
  | ret a => trivial
  | op o k ih =>
    refine ⟨?_, fun v => ih v (h.2 v)⟩
    have := h.1
    cases o with
    | load o l => exact hr l this
    | store o l v => exact hw l this
    | rmw o l f => exact hw l this
    | fence o => trivial
    | read l => exact hr l this
    | write l v => exact hw l this

theorem Prog.bind_ret {α β : Type} {p : Prog L α} {k : α → Prog L β} {b : β} (h : p.bind k = .ret b) : ∃ a, p = .ret a ∧ k a = .ret b := by
  cases p with
  | ret a => exact ⟨a, rfl, h⟩
  | op o q => cases h

end

theorem CLoc.pool_inj : ∀ x y, CLoc.pool x = CLoc.pool y → x = y := fun _ _ h => by cases h; rfl

/-! ## What a worker uses -/

/-- The counters of the pool. -/
def Counter (l : CLoc) : Prop := l = .pool cursor ∨ l = .pool nextId

/-- What reserving reads. -/
def PoolRead : Loc → Prop
  | .pool .gens | .pool (.gen _) | .pool .frees | .pool (.free _) => True
  | _ => False

/-- What worker `t` uses besides the counters. -/
def recFoot (t : Nat) : Foot CLoc :=
  ⟨fun | .pool l => PoolRead l | _ => False, fun | .first b | .last b | .part b _ _ => b = t | _ => False⟩

theorem recFoot_free {t : Nat} {l : CLoc} (h : (recFoot t).has l) : l ≠ .go ∧ l ≠ .dn ∧ ¬ Counter l := by
  refine ⟨?_, ?_, ?_⟩
  · rintro rfl; simp [recFoot, Foot.has] at h
  · rintro rfl; simp [recFoot, Foot.has] at h
  · rintro (rfl | rfl) <;> simp [recFoot, Foot.has, PoolRead, cursor, nextId] at h

theorem recFoot_sep {t t' : Nat} (hne : t ≠ t') (l : CLoc) (hw : (recFoot t).wr l) : ¬ (recFoot t').has l := by
  cases l <;> simp [recFoot, Foot.has] at hw ⊢ <;> omega

theorem pushCmd_within (t : Nat) (m : MCmd) : (pushCmd t m).Within (recFoot t) := by
  simp [pushCmd, cread, cwrite, bind, pure, Prog.bind, Prog.call, Prog.Within, Op.Within, recFoot, Foot.has]

/-- The rest of a reservation that has found a free id. -/
def reserveTail (n : Int) : P (Int × Int) := do
  let _ ← read frees
  let id ← read (freeId (n - 1).toNat)
  let _ ← read gens
  let g ← read (gen id.toNat)
  pure (id, g)

theorem reserveTail_within (t : Nat) (n : Int) : ((reserveTail n).on CLoc.pool).Within (recFoot t) := by
  simp [reserveTail, read, frees, freeId, gens, gen, bind, pure, Prog.bind, Prog.call, Prog.on, Op.on, Prog.Within, Op.Within, recFoot, Foot.has, PoolRead]

/-- A call that reserves and has got a handle. -/
def recordTail (t : Nat) (made : List (Int × Int)) (c : RCall) (p : Prog CLoc (Int × Int)) : Prog CLoc (List (Int × Int)) :=
  p.bind fun h => (pushCmd t (c.cmd made h)).bind fun _ => .ret (made ++ [h])

theorem recordTail_within {t : Nat} {made : List (Int × Int)} {c : RCall} {p : Prog CLoc (Int × Int)} (hp : p.Within (recFoot t)) :
    (recordTail t made c p).Within (recFoot t) :=
  hp.bind fun _ => (pushCmd_within t _).bind fun _ => trivial

/-- A reservation that has found no free id. -/
def recordFresh (t : Nat) (made : List (Int × Int)) (c : RCall) : Prog CLoc (List (Int × Int)) :=
  .op (.rmw .rlx (.pool nextId) fun x => some ((x + 1) % 4294967296)) fun id => recordTail t made c (.ret (id, 0))

theorem recordCall_reserves {t : Nat} {made : List (Int × Int)} {c : RCall} (h : c.reserves = true) :
    recordCall t made c = .op (.rmw .rlx (.pool cursor) fun x => some (x - 1)) fun n =>
      if n > 0 then recordTail t made c ((reserveTail n).on CLoc.pool) else recordFresh t made c := by
  simp only [recordCall, h, if_true]
  simp only [reserve, rmw, bind, Prog.call, Prog.bind, Prog.on, Op.on]
  congr 1
  funext n
  by_cases hn : n > 0
  · rw [if_pos hn, if_pos hn]; rfl
  · rw [if_neg hn, if_neg hn]; rfl

theorem recordCall_plain {t : Nat} {made : List (Int × Int)} {c : RCall} (h : c.reserves = false) :
    recordCall t made c = (pushCmd t (c.cmd made (0, 0))).bind fun _ => .ret made := by
  simp [recordCall, h]

theorem recordCall_keeps (t : Nat) (made : List (Int × Int)) (c : RCall) : (recordCall t made c).Keeps Counter (recFoot t) := by
  cases h : c.reserves with
  | false =>
    rw [recordCall_plain h]
    exact (Prog.Within.bind (k := fun _ => Prog.ret made) (pushCmd_within t _) fun _ => trivial).keeps
  | true =>
    rw [recordCall_reserves h]
    refine ⟨.inr ⟨_, _, _, rfl, .inl rfl, by simp⟩, fun n => ?_⟩
    show Prog.Keeps Counter (recFoot t) (if n > 0 then recordTail t made c ((reserveTail n).on CLoc.pool) else recordFresh t made c)
    by_cases hn : n > 0
    · rw [if_pos hn]
      exact (recordTail_within (reserveTail_within t n)).keeps
    · rw [if_neg hn]
      exact ⟨.inr ⟨_, _, _, rfl, .inr rfl, by simp⟩, fun _ => (recordTail_within (by trivial)).keeps⟩

theorem recorder_keeps (t : Nat) : ∀ (cs : List RCall) (made : List (Int × Int)), (recorder t made cs).Keeps Counter (recFoot t)
  | [], _ => trivial
  | c :: cs, made => (recordCall_keeps t made c).bind fun _ => recorder_keeps t cs _

/-! ## Programs that keep to what is not used for synchronisation -/

def allFoot : Foot CLoc := Foot.but .go .dn

theorem cread_all {l : CLoc} (h : l ≠ .go ∧ l ≠ .dn) : (cread l).Within allFoot := ⟨.inl h, fun _ => trivial⟩
theorem cwrite_all {l : CLoc} {v : Int} (h : l ≠ .go ∧ l ≠ .dn) : (cwrite l v).Within allFoot := ⟨h, fun _ => trivial⟩

theorem Prog.within_true {L : Type} {α : Type} (p : Prog L α) : p.Within ⟨fun _ => True, fun _ => True⟩ := by
  induction p with
  | ret a => trivial
  | op o k ih => exact ⟨by cases o <;> simp [Op.Within, Foot.has], ih⟩

theorem on_all {α : Type} (p : P α) : (p.on CLoc.pool).Within allFoot :=
  Prog.on_within (ι := CLoc.pool) (G := allFoot) (F := ⟨fun _ => True, fun _ => True⟩) (fun _ _ => .inl ⟨nofun, nofun⟩) (fun _ _ => ⟨nofun, nofun⟩) p.within_true

theorem popCmd_all (b : Nat) : (popCmd b).Within allFoot := by
  simp [popCmd, cread, cwrite, bind, pure, Prog.bind, Prog.call, Prog.Within, Op.Within, allFoot, Foot.but, Foot.has]

theorem execCmd_all (m : MCmd) : (execCmd m).Within allFoot := by
  simp [execCmd, cread, cwrite, bind, pure, Prog.bind, Prog.call, Prog.Within, Op.Within, allFoot, Foot.but, Foot.has]

theorem playCmds_all (b : Nat) : ∀ n, (playCmds b n).Within allFoot
  | 0 => trivial
  | n + 1 => (popCmd_all b).bind fun m => (execCmd_all m).bind fun _ => playCmds_all b n

theorem playBuf_all (b : Nat) : (playBuf b).Within allFoot :=
  (cread_all (l := .first b) ⟨nofun, nofun⟩).bind fun _ => (cread_all (l := .last b) ⟨nofun, nofun⟩).bind fun _ => playCmds_all b _

theorem playBufs_all : ∀ bs, (playBufs bs).Within allFoot
  | [] => trivial
  | b :: bs => (playBuf_all b).bind fun _ => playBufs_all bs

theorem flushCmds_all (N : Nat) : (flushCmds N).Within allFoot := (on_all flush).bind fun _ => playBufs_all _

theorem recordRounds_sharing (N : Nat) (calls : Nat → List RCall) : ∀ R ∈ recordRounds N calls, R.Sharing N .go .dn Counter := by
  intro R hR
  simp only [recordRounds, List.mem_cons, List.not_mem_nil, or_false] at hR
  rcases hR with rfl | rfl
  · exact ⟨trivial, recFoot, fun t _ => recorder_keeps t _ _, fun t _ l hl => recFoot_free hl, fun t t' _ _ hne l hw => recFoot_sep hne l hw⟩
  · exact ⟨flushCmds_all N, recFoot, fun t _ => trivial, fun t _ l hl => recFoot_free hl, fun t t' _ _ hne l hw => recFoot_sep hne l hw⟩

/-! ## Buffers -/

/-- Buffer `b` holds the commands, from position `i0` on. -/
structure BufHas (s : Store CLoc) (b i0 : Nat) (ms : List MCmd) : Prop where
  first : s.cell (.first b) = (i0 : Int)
  last : s.cell (.last b) = ((i0 + ms.length : Nat) : Int)
  part : ∀ (i : Nat) (m : MCmd), ms[i]? = some m → ∀ q, s.cell (.part b q (i0 + i)) = m.get q

theorem BufHas.congr {s s' : Store CLoc} {b i0 : Nat} {ms : List MCmd} (h : BufHas s b i0 ms) (hs : s'.On (recFoot b).wr s) : BufHas s' b i0 ms :=
  ⟨by rw [(hs (.first b) rfl).2]; exact h.first, by rw [(hs (.last b) rfl).2]; exact h.last,
    fun i m hm q => by rw [(hs (.part b q (i0 + i)) rfl).2]; exact h.part i m hm q⟩

@[simp] theorem seq_cread (l : CLoc) (s : Store CLoc) : (cread l).seq s = (s.cell l, s) := rfl
@[simp] theorem seq_cwrite (l : CLoc) (v : Int) (s : Store CLoc) : (cwrite l v).seq s = (0, s.setCell l v) := rfl
@[simp] theorem seq_cpure {α : Type} (a : α) (s : Store CLoc) : (pure a : Prog CLoc α).seq s = (a, s) := rfl
@[simp] theorem cell_setCell {L : Type} [DecidableEq L] (s : Store L) (l x : L) (v : Int) : (s.setCell l v).cell x = if x = l then v else s.cell x := rfl
@[simp] theorem atom_setCell {L : Type} [DecidableEq L] (s : Store L) (l x : L) (v : Int) : (s.setCell l v).atom x = s.atom x := rfl

theorem BufHas.push {s : Store CLoc} {b i0 : Nat} {ms : List MCmd} (h : BufHas s b i0 ms) (m : MCmd) :
    BufHas ((pushCmd b m).seq s).2 b i0 (ms ++ [m]) := by
  have e : ((i0 : Int) + (ms.length : Int)).toNat = i0 + ms.length := by omega
  simp only [pushCmd, Prog.seq_bind', seq_cread, seq_cwrite, seq_cpure, h.last]
  constructor
  · simp [h.first]
  · simp; omega
  · intro i m' hm q
    rw [List.getElem?_append] at hm
    split at hm
    · rename_i hi
      have := h.part i m' hm q
      simp
      have hne : ¬ i0 + i = i0 + ms.length := by omega
      cases q <;> simp [e, hne, this]
      all_goals omega
    · rename_i hi
      have hi' : i = ms.length := by
        have := (List.getElem?_eq_some_iff.1 hm).1
        simp at this; omega
      subst hi'
      simp at hm
      subst hm
      cases q <;> simp [e, MCmd.get]

/-- The executed commands. -/
theorem Ran.exec {s : Store CLoc} {k : Nat} {ms : List MCmd} (h : Ran s k ms) (m : MCmd) : Ran ((execCmd m).seq s).2 k (ms ++ [m]) := by
  have e : ((k : Int) + (ms.length : Int)).toNat = k + ms.length := by omega
  simp only [execCmd, Prog.seq_bind', seq_cread, seq_cwrite, seq_cpure, h.1]
  constructor
  · simp; omega
  · intro i m' hm q
    rw [List.getElem?_append] at hm
    split at hm
    · rename_i hi
      have := h.2 i m' hm q
      simp
      have hne : ¬ k + i = k + ms.length := by omega
      cases q <;> simp [e, hne, this]
      all_goals omega
    · rename_i hi
      have hi' : i = ms.length := by
        have := (List.getElem?_eq_some_iff.1 hm).1
        simp at this; omega
      subst hi'
      simp at hm
      subst hm
      cases q <;> simp [e, MCmd.get]

/-- `execute` leaves the rest alone. -/
theorem execCmd_frame (m : MCmd) (s : Store CLoc) (l : CLoc) (h1 : l ≠ .ran) (h2 : ∀ q k, l ≠ .ranPart q k) :
    ((execCmd m).seq s).2.atom l = s.atom l ∧ ((execCmd m).seq s).2.cell l = s.cell l := by
  simp [execCmd, Prog.seq_bind', h1, h2]

theorem BufHas.pop {s : Store CLoc} {b i0 : Nat} {m : MCmd} {ms : List MCmd} (h : BufHas s b i0 (m :: ms)) :
    (popCmd b).seq s = (m, s.setCell (.first b) ((i0 + 1 : Nat) : Int)) := by
  have hp := h.part 0 m rfl
  simp only [popCmd, Prog.seq_bind', seq_cread, seq_cwrite, seq_cpure, h.first, Int.toNat_natCast]
  simp only [Nat.add_zero] at hp
  simp [hp, MCmd.get]

theorem BufHas.tail {s : Store CLoc} {b i0 : Nat} {m : MCmd} {ms : List MCmd} (h : BufHas s b i0 (m :: ms)) :
    BufHas (s.setCell (.first b) ((i0 + 1 : Nat) : Int)) b (i0 + 1) ms := by
  constructor
  · simp
  · have := h.last
    simp at this ⊢
    omega
  · intro i m' hm q
    have := h.part (i + 1) m' (by simpa using hm) q
    rw [show i0 + (i + 1) = i0 + 1 + i by omega] at this
    simpa using this

/-- What playing buffers changes. -/
def Played (bs : List Nat) (l : CLoc) : Prop := l = .ran ∨ (∃ q k, l = .ranPart q k) ∨ ∃ b ∈ bs, l = .first b

theorem playCmds_spec (b : Nat) : ∀ (ms : List MCmd) {s : Store CLoc} {i0 k : Nat} {done : List MCmd}, BufHas s b i0 ms → Ran s k done →
    Ran ((playCmds b ms.length).seq s).2 k (done ++ ms) ∧ BufHas ((playCmds b ms.length).seq s).2 b (i0 + ms.length) [] ∧
    ((playCmds b ms.length).seq s).2.On (fun l => ¬ Played [b] l) s
  | [], s, i0, k, done, h, hr => ⟨by simpa [playCmds, Prog.seq] using hr, by simpa [playCmds, Prog.seq] using h, .refl _ _⟩
  | m :: ms, s, i0, k, done, h, hr => by
    have e1 := h.pop
    have h1 := h.tail
    have hr1 : Ran (s.setCell (.first b) ((i0 + 1 : Nat) : Int)) k done := by
      refine ⟨by simpa using hr.1, fun i m hm q => by simpa using hr.2 i m hm q⟩
    have hr2 := hr1.exec m
    have h2 : BufHas ((execCmd m).seq (s.setCell (.first b) ((i0 + 1 : Nat) : Int))).2 b (i0 + 1) ms :=
      h1.congr fun l hl => by
        refine execCmd_frame m _ l ?_ ?_
        · rintro rfl; exact hl
        · rintro q k rfl; exact hl
    obtain ⟨i1, i2, i3⟩ := playCmds_spec b ms h2 hr2
    simp only [List.length_cons, playCmds, Prog.seq_bind', e1]
    refine ⟨by simpa using i1, ?_, i3.trans fun l hl => ?_⟩
    · rw [show i0 + (ms.length + 1) = i0 + 1 + ms.length by omega]
      exact i2
    · have h3 := execCmd_frame m (s.setCell (.first b) ((i0 + 1 : Nat) : Int)) l (fun e => hl (.inl e)) fun q k e => hl (.inr (.inl ⟨q, k, e⟩))
      refine ⟨h3.1, h3.2.trans ?_⟩
      rw [cell_setCell, if_neg]
      rintro rfl
      exact hl (.inr (.inr ⟨b, by simp, rfl⟩))

theorem playBuf_spec {b : Nat} {ms : List MCmd} {s : Store CLoc} {i0 k : Nat} {done : List MCmd} (h : BufHas s b i0 ms) (hr : Ran s k done) :
    Ran ((playBuf b).seq s).2 k (done ++ ms) ∧ BufHas ((playBuf b).seq s).2 b (i0 + ms.length) [] ∧
    ((playBuf b).seq s).2.On (fun l => ¬ Played [b] l) s := by
  have e : ((((i0 + ms.length : Nat) : Int)) - (i0 : Int)).toNat = ms.length := by omega
  simp only [playBuf, Prog.seq_bind', seq_cread, h.first, h.last, e]
  exact playCmds_spec b ms h hr

theorem playBufs_spec {i0 : Nat → Nat} {mss : Nat → List MCmd} : ∀ (bs : List Nat), bs.Nodup → ∀ {s : Store CLoc} {k : Nat} {done : List MCmd},
    (∀ b ∈ bs, BufHas s b (i0 b) (mss b)) → Ran s k done →
    Ran ((playBufs bs).seq s).2 k (done ++ (bs.map mss).flatten) ∧
    (∀ b ∈ bs, BufHas ((playBufs bs).seq s).2 b (i0 b + (mss b).length) []) ∧
    ((playBufs bs).seq s).2.On (fun l => ¬ Played bs l) s
  | [], _, s, k, done, _, hr => ⟨by simpa [playBufs, Prog.seq] using hr, by simp, .refl _ _⟩
  | b :: bs, hn, s, k, done, h, hr => by
    obtain ⟨h1, h2, h3⟩ := playBuf_spec (h b (List.mem_cons_self ..)) hr
    have hn := List.nodup_cons.1 hn
    obtain ⟨i1, i2, i3⟩ := playBufs_spec bs hn.2 (s := ((playBuf b).seq s).2) (fun b' hb' => by
      refine (h b' (List.mem_cons_of_mem _ hb')).congr (h3.mono fun l hl hp => ?_)
      rcases hp with rfl | ⟨q, k, rfl⟩ | ⟨b'', hb'', rfl⟩
      · exact hl
      · exact hl
      · simp only [List.mem_singleton] at hb''
        subst hb''
        have : b'' = b' := hl
        subst this
        exact hn.1 hb') h1
    simp only [playBufs, Prog.seq_bind']
    refine ⟨by simpa using i1, ?_, ?_⟩
    · intro b' hb'
      rcases List.mem_cons.1 hb' with rfl | hb'
      · refine h2.congr (i3.mono fun l hl hp => ?_)
        rcases hp with rfl | ⟨q, k, rfl⟩ | ⟨b'', hb'', rfl⟩
        · exact hl
        · exact hl
        · have : b'' = b' := hl
          subst this
          exact hn.1 hb''
      · exact i2 b' hb'
    · have g1 : ((playBufs bs).seq ((playBuf b).seq s).2).2.On (fun l => ¬ Played (b :: bs) l) ((playBuf b).seq s).2 := i3.mono fun l hl hp => hl (by
        rcases hp with e | e | ⟨b', hb', e⟩
        · exact .inl e
        · exact .inr (.inl e)
        · exact .inr (.inr ⟨b', List.mem_cons_of_mem _ hb', e⟩))
      have g2 : ((playBuf b).seq s).2.On (fun l => ¬ Played (b :: bs) l) s := h3.mono fun l hl hp => hl (by
        rcases hp with e | e | ⟨b', hb', e⟩
        · exact .inl e
        · exact .inr (.inl e)
        · simp only [List.mem_singleton] at hb'
          exact .inr (.inr ⟨b', by rw [hb']; exact List.mem_cons_self .., e⟩))
      exact g1.trans g2

/-! ## Every execution of the operations is one of the calls -/

/-- How many of the first `N`. -/
def tally : Nat → (Nat → Bool) → Nat
  | 0, _ => 0
  | N + 1, f => (f N).toNat + tally N f

theorem tally_congr {f g : Nat → Bool} : ∀ {N : Nat}, (∀ t, t < N → f t = g t) → tally N f = tally N g
  | 0, _ => rfl
  | N + 1, h => by
    simp only [tally, h N (by omega)]
    rw [tally_congr fun t h1 => h t (by omega)]

theorem tally_none {f : Nat → Bool} : ∀ {N : Nat}, (∀ t, t < N → f t = false) → tally N f = 0
  | 0, _ => rfl
  | N + 1, h => by
    simp only [tally, h N (by omega)]
    rw [tally_none fun t h1 => h t (by omega)]; rfl

theorem tally_upd (f : Nat → Bool) (t : Nat) (b : Bool) : ∀ {N : Nat}, t < N →
    tally N (fun i => if i = t then b else f i) + (f t).toNat = tally N f + b.toNat
  | 0, h => by omega
  | N + 1, h => by
    by_cases e : t = N
    · subst e
      simp only [tally, if_true]
      rw [tally_congr (g := f) fun i hi => if_neg (show i ≠ t by omega)]
      omega
    · have := tally_upd f t b (N := N) (by omega)
      simp only [tally]
      rw [if_neg (show N ≠ t by omega)]
      omega

/-- Where worker `t` is; `true`: it has not found a free id and is about to take a fresh one. -/
inductive RStat (t i0 : Nat) (made : List (Int × Int)) (todo : List RCall) (cmds : List MCmd) (p : Prog CLoc Unit) (s : Store CLoc) : Bool → Prop
  | own (q : Prog CLoc (List (Int × Int))) : q.Within (recFoot t) → p = q.bind (fun m => recorder t m todo) → (q.seq s).1 = made →
      BufHas (q.seq s).2 t i0 cmds → RStat t i0 made todo cmds p s false
  | pend (c : RCall) (cs : List RCall) : todo = c :: cs → c.reserves = true → p = (recordFresh t made c).bind (fun m => recorder t m cs) →
      BufHas s t i0 cmds → RStat t i0 made todo cmds p s true

theorem RStat.congr {t i0 : Nat} {made : List (Int × Int)} {todo : List RCall} {cmds : List MCmd} {p : Prog CLoc Unit} {s s' : Store CLoc} {b : Bool}
    (h : RStat t i0 made todo cmds p s b) (hs : s'.On (recFoot t).has s) : RStat t i0 made todo cmds p s' b := by
  cases h with
  | own q hq hp hv hb =>
    obtain ⟨e1, e2⟩ := Prog.seq_congr hq hs
    exact .own q hq hp (e1.trans hv) (hb.congr (e2.mono fun l hl => .inr hl))
  | pend c cs h1 h2 h3 h4 => exact .pend c cs h1 h2 h3 (h4.congr (hs.mono fun l hl => .inr hl))

/-- The free ids are ids, and the cursor is not beyond them. -/
structure PoolFit (p : Pool) : Prop where
  cur : p.cursor ≤ p.free.length
  ids : ∀ id ∈ p.free, id < p.gens.length

/-- The memory and the programs represent the state of the calls. -/
structure Sim (N : Nat) (i0 : Nat → Nat) (a : Recs) (w : Nat → Prog CLoc Unit) (s : Store CLoc) (pend : Nat → Bool) : Prop where
  pool : PRep { a.pool with cursor := a.pool.cursor - tally N pend } (s.pull .pool)
  fit : PoolFit a.pool
  out : 0 < tally N pend → a.pool.cursor ≤ 0
  stat : ∀ t, t < N → RStat t (i0 t) (a.made t) (a.todo t) (a.cmds t) (w t) s (pend t)

theorem PRep.on {p : Pool} {s s' : Store Loc} (h : PRep p s) (ha : ∀ l, s'.atom l = s.atom l) (hc : ∀ l, s'.cell l = s.cell l) : PRep p s' :=
  ⟨by rw [ha]; exact h.next, by rw [ha]; exact h.cursor, by rw [hc]; exact h.gens, fun i g hg => by rw [hc]; exact h.gen i g hg,
    by rw [hc]; exact h.frees, fun i g hg => by rw [hc]; exact h.free i g hg⟩

theorem recordCall_ne_ret (t : Nat) (made : List (Int × Int)) (c : RCall) (m : List (Int × Int)) : recordCall t made c ≠ .ret m := by
  cases h : c.reserves with
  | false => rw [recordCall_plain h]; intro e; cases e
  | true => rw [recordCall_reserves h]; intro e; cases e

theorem recorder_ret {t : Nat} {made : List (Int × Int)} {cs : List RCall} (h : recorder t made cs = .ret ()) : cs = [] := by
  cases cs with
  | nil => rfl
  | cons c cs =>
    obtain ⟨m, e, _⟩ := Prog.bind_ret h
    exact absurd e (recordCall_ne_ret t made c m)

/-- An operation on counters leaves what the workers use otherwise. -/
theorem setAtom_has {t : Nat} {s : Store CLoc} {l : CLoc} {v : Int} (hl : Counter l) : (s.setAtom l v).On (recFoot t).has s := by
  intro y hy
  refine ⟨?_, rfl⟩
  show (if y = l then v else s.atom y) = s.atom y
  rw [if_neg]
  rintro rfl
  exact (recFoot_free hy).2.2 hl

/-- Worker `t` goes on within what it uses. -/
theorem Sim.own {N : Nat} {i0 : Nat → Nat} {a : Recs} {w : Nat → Prog CLoc Unit} {s : Store CLoc} {pend : Nat → Bool} (h : Sim N i0 a w s pend) {t : Nat} (ht : t < N)
    (hp : pend t = false) {o : Op CLoc} {k : Int → Prog CLoc (List (Int × Int))} (hw : w t = (Prog.op o k).bind fun m => recorder t m (a.todo t))
    (hq : (Prog.op o k).Within (recFoot t)) (hv : ((Prog.op o k).seq s).1 = a.made t) (hb : BufHas ((Prog.op o k).seq s).2 t (i0 t) (a.cmds t)) :
    Sim N i0 a (fun i => if i = t then (k (o.seq s).1).bind (fun m => recorder t m (a.todo t)) else w i) (o.seq s).2 pend := by
  have hf := Op.seq_frame hq.1 s
  refine ⟨h.pool.on (fun l => (hf (.pool l) id).1) (fun l => (hf (.pool l) id).2), h.fit, h.out, fun i hi => ?_⟩
  by_cases e : i = t
  · subst e
    simp only [if_true]
    rw [hp]
    exact .own (k (o.seq s).1) (hq.2 _) rfl hv hb
  · simp only [if_neg e]
    exact (h.stat i hi).congr (hf.mono fun l hl hl' => recFoot_sep (fun e' => e e'.symm) l hl' hl)

/-- The call `c` of worker `t` is made, and it goes on with `q`. -/
theorem Sim.did {N : Nat} {i0 : Nat → Nat} {a : Recs} {w : Nat → Prog CLoc Unit} {s s' : Store CLoc} {pend : Nat → Bool} (h : Sim N i0 a w s pend) {t : Nat}
    (hs : ∀ i, s'.On (recFoot i).has s) {p : Pool} {hds : List (Int × Int)} {cs : List RCall} {m : MCmd} {q : Prog CLoc (List (Int × Int))}
    (hp : PRep { p with cursor := p.cursor - tally N (fun i => if i = t then false else pend i) } (s'.pull .pool)) (hfit : PoolFit p)
    (hout : 0 < tally N (fun i => if i = t then false else pend i) → p.cursor ≤ 0)
    (hq : q.Within (recFoot t)) (hv : (q.seq s').1 = a.made t ++ hds) (hb : BufHas (q.seq s').2 t (i0 t) (a.cmds t ++ [m])) :
    Sim N i0 (a.did t p hds cs m) (fun i => if i = t then q.bind (fun m => recorder t m cs) else w i) s' (fun i => if i = t then false else pend i) := by
  refine ⟨hp, hfit, hout, fun i hi => ?_⟩
  by_cases e : i = t
  · subst e
    simp only [Recs.did, if_true]
    exact .own q hq rfl hv hb
  · simp only [Recs.did, if_neg e]
    exact (h.stat i hi).congr (hs i)

/-- Reading a free id. -/
theorem reserveTail_seq {p : Pool} {s : Store Loc} (h : PRep p s) {n : Int} {id g : Nat} (h1 : p.free[(n - 1).toNat]? = some id) (h2 : p.gens[id]? = some g) :
    (reserveTail n).seq s = (((id : Int), (g : Int)), s) := by
  simp only [reserveTail, Prog.seq_bind', seq_read, seq_pure, h.free _ _ h1, h.gen _ _ h2, Int.toNat_natCast]

theorem recordTail_seq {t i0 : Nat} {made : List (Int × Int)} {c : RCall} {p : Prog CLoc (Int × Int)} {s : Store CLoc} {cmds : List MCmd} {h : Int × Int}
    (hv : (p.seq s).1 = h) (hb : BufHas (p.seq s).2 t i0 cmds) :
    ((recordTail t made c p).seq s).1 = made ++ [h] ∧ BufHas ((recordTail t made c p).seq s).2 t i0 (cmds ++ [c.cmd made h]) := by
  simp only [recordTail, Prog.seq_bind, hv]
  exact ⟨rfl, hb.push _⟩

theorem Sim.step {N : Nat} {i0 : Nat → Nat} {a : Recs} {w : Nat → Prog CLoc Unit} {s : Store CLoc} {pend : Nat → Bool} (h : Sim N i0 a w s pend) {t : Nat} (ht : t < N)
    {o : Op CLoc} {k : Int → Prog CLoc Unit} (hw : w t = .op o k) :
    ∃ a1 pend1, (a1 = a ∨ a.step t = some a1) ∧ Sim N i0 a1 (fun i => if i = t then k (o.seq s).1 else w i) (o.seq s).2 pend1 := by
  have hst := h.stat t ht
  cases hpt : pend t with
  | true =>
    rw [hpt] at hst
    obtain _ | ⟨c, cs, h1, h2, h3, h4⟩ := hst
    rw [hw] at h3
    simp only [recordFresh, Prog.bind, Prog.op.injEq] at h3
    obtain ⟨rfl, rfl⟩ := h3
    have htal := tally_upd pend t false ht
    rw [hpt] at htal
    simp only [Bool.toNat_true, Bool.toNat_false] at htal
    have hcur := h.out (by omega)
    have hnext : s.atom (.pool nextId) = (a.pool.nextId : Int) := h.pool.next
    have hres : a.pool.reserve = some ({ a.pool.bump with cursor := a.pool.cursor - 1 }, ⟨a.pool.nextId, 0⟩) := by
      simp [Pool.reserve, Pool.reserveSub, Pool.reserveFresh, Pool.bump, show ¬ a.pool.cursor > 0 by omega]
    refine ⟨a.did t { a.pool.bump with cursor := a.pool.cursor - 1 } [pairOf ⟨a.pool.nextId, 0⟩] cs (c.cmd (a.made t) (pairOf ⟨a.pool.nextId, 0⟩)),
      fun i => if i = t then false else pend i, .inr ?_, ?_⟩
    · simp [Recs.step, h1, h2, hres]
    · simp only [Op.seq, hnext]
      have hon : ∀ i, (s.setAtom (.pool nextId) (((a.pool.nextId : Int) + 1) % 4294967296)).On (recFoot i).has s := fun i => setAtom_has (.inr rfl)
      obtain ⟨e1, e2⟩ := recordTail_seq (t := t) (i0 := i0 t) (made := a.made t) (c := c) (p := .ret ((a.pool.nextId : Int), 0))
        (s := s.setAtom (.pool nextId) (((a.pool.nextId : Int) + 1) % 4294967296)) (cmds := a.cmds t) rfl (h4.congr ((hon t).mono fun l hl => .inr hl))
      refine h.did hon ?_ ⟨?_, h.fit.ids⟩ ?_ (recordTail_within (by trivial)) e1 e2
      · have hb := h.pool.bump.2
        refine ⟨?_, ?_, hb.gens, hb.gen, hb.frees, hb.free⟩
        · simp [Store.pull, Store.setAtom, Pool.bump, U32]
        · have := h.pool.cursor
          have e : ((s.setAtom (.pool nextId) (((a.pool.nextId : Int) + 1) % 4294967296)).pull CLoc.pool).atom cursor = (s.pull .pool).atom cursor := by
            simp [Store.pull, Store.setAtom, nextId, cursor]
          rw [e, this]
          show a.pool.cursor - _ = a.pool.cursor - 1 - _
          omega
      · have := h.fit.cur
        show a.pool.cursor - 1 ≤ _
        simp only [Pool.bump]
        omega
      · intro _
        show a.pool.cursor - 1 ≤ 0
        omega
  | false =>
    rw [hpt] at hst
    obtain ⟨q, hq, hp, hv, hb⟩ := hst
    have hsame : (fun i => if i = t then false else pend i) = pend := by
      funext i
      by_cases e : i = t
      · rw [if_pos e, e, hpt]
      · rw [if_neg e]
    cases q with
    | op o' k' =>
      rw [hw] at hp
      have hp0 := hp
      simp only [Prog.bind, Prog.op.injEq] at hp
      obtain ⟨rfl, rfl⟩ := hp
      exact ⟨a, pend, .inl rfl, h.own ht hpt (hw.trans hp0) hq hv hb⟩
    | ret m =>
      have hm : m = a.made t := hv
      subst hm
      have hb : BufHas s t (i0 t) (a.cmds t) := hb
      rw [hw] at hp
      simp only [Prog.bind] at hp
      cases htodo : a.todo t with
      | nil => rw [htodo] at hp; cases hp
      | cons c cs =>
        rw [htodo] at hp
        simp only [recorder] at hp
        cases hres : c.reserves with
        | false =>
          have hstep : a.step t = some (a.did t a.pool [] cs (c.cmd (a.made t) (0, 0))) := by simp [Recs.step, htodo, hres]
          rw [recordCall_plain hres] at hp
          have h' := h.did (t := t) (s' := s) (fun i => .refl _ _) (p := a.pool) (hds := []) (cs := cs) (m := c.cmd (a.made t) (0, 0))
            (q := (pushCmd t (c.cmd (a.made t) (0, 0))).bind fun _ => .ret (a.made t))
            (by rw [hsame]; exact h.pool) h.fit (by rw [hsame]; exact h.out) ((pushCmd_within t _).bind fun _ => trivial)
            (by simp [Prog.seq_bind, Prog.seq]) (by simp only [Prog.seq_bind, Prog.seq]; exact hb.push _)
          rw [hsame] at h'
          refine ⟨_, pend, .inr hstep, ?_⟩
          have htd : (a.did t a.pool [] cs (c.cmd (a.made t) (0, 0))).todo t = cs := by simp [Recs.did]
          have hq : ((pushCmd t (c.cmd (a.made t) (0, 0))).bind fun _ => Prog.ret (a.made t)).Within (recFoot t) := (pushCmd_within t _).bind fun _ => trivial
          have hv' : (((pushCmd t (c.cmd (a.made t) (0, 0))).bind fun _ => Prog.ret (a.made t)).seq s).1 = (a.did t a.pool [] cs (c.cmd (a.made t) (0, 0))).made t := by
            simp [Prog.seq_bind, Prog.seq, Recs.did]
          have hb' : BufHas (((pushCmd t (c.cmd (a.made t) (0, 0))).bind fun _ => Prog.ret (a.made t)).seq s).2 t (i0 t)
              ((a.did t a.pool [] cs (c.cmd (a.made t) (0, 0))).cmds t) := by
            simp only [Prog.seq_bind, Prog.seq, Recs.did, if_true]; exact hb.push _
          cases hqq : ((pushCmd t (c.cmd (a.made t) (0, 0))).bind fun _ => Prog.ret (a.made t)) with
          | ret m => cases hqq
          | op o' k' =>
            rw [hqq] at hp hq hv' hb' h'
            have h2 := h'.own ht hpt (o := o') (k := k') (by rw [htd]; simp) hq hv' hb'
            simp only [Prog.bind, Prog.op.injEq] at hp
            obtain ⟨rfl, rfl⟩ := hp
            rw [htd] at h2
            have hfun : (fun i => if i = t then (k' (o.seq s).1).bind (fun m => recorder t m cs)
                else if i = t then (Prog.op o k').bind (fun m => recorder t m cs) else w i) =
                (fun i => if i = t then (k' (o.seq s).1).bind (fun m => recorder t m cs) else w i) := by
              funext i; by_cases e : i = t <;> simp [e]
            rw [hfun] at h2
            exact h2
        | true =>
          rw [recordCall_reserves hres] at hp
          simp only [Prog.bind, Prog.op.injEq] at hp
          obtain ⟨rfl, rfl⟩ := hp
          have hcur : s.atom (.pool cursor) = a.pool.cursor - tally N pend := h.pool.cursor
          have hon : ∀ i, (s.setAtom (.pool cursor) (a.pool.cursor - tally N pend - 1)).On (recFoot i).has s := fun i => setAtom_has (.inl rfl)
          simp only [Op.seq, hcur]
          by_cases hn : a.pool.cursor - tally N pend > 0
          · have h0 : tally N pend = 0 := by
              have := h.out
              omega
            rw [if_pos hn]
            have hlt : (a.pool.cursor - tally N pend - 1).toNat < a.pool.free.length := by
              have := h.fit.cur
              omega
            have hid : a.pool.free[(a.pool.cursor - tally N pend - 1).toNat]? = some a.pool.free[(a.pool.cursor - tally N pend - 1).toNat] :=
              List.getElem?_eq_getElem hlt
            have hlt' := h.fit.ids _ (List.getElem_mem hlt)
            have hg := List.getElem?_eq_getElem hlt'
            have hres' : a.pool.reserve = some ({ a.pool with cursor := a.pool.cursor - 1 },
                ⟨a.pool.free[(a.pool.cursor - tally N pend - 1).toNat], a.pool.gens[a.pool.free[(a.pool.cursor - tally N pend - 1).toNat]]⟩) := by
              have h1 : a.pool.cursor > 0 := by omega
              have h2 : a.pool.free[(a.pool.cursor - 1).toNat]? = some a.pool.free[(a.pool.cursor - tally N pend - 1).toNat] := by
                rw [← hid]
                congr 2
                omega
              simp only [Pool.reserve, Pool.reserveSub, Pool.reserveFromFree, if_pos h1, h2, hg]
            have hpool : PRep { a.pool with cursor := a.pool.cursor - 1 } ((s.setAtom (.pool cursor) (a.pool.cursor - tally N pend - 1)).pull .pool) := by
              refine ⟨?_, ?_, h.pool.gens, h.pool.gen, h.pool.frees, h.pool.free⟩
              · have := h.pool.next
                simpa [Store.pull, Store.setAtom, cursor, nextId] using this
              · simp [Store.pull, Store.setAtom]
                omega
            obtain ⟨e1, e2, e3⟩ := Prog.on_seq CLoc.pool_inj (reserveTail (a.pool.cursor - tally N pend)) (s.setAtom (.pool cursor) (a.pool.cursor - tally N pend - 1))
            rw [reserveTail_seq hpool hid hg] at e1 e2
            obtain ⟨f1, f2⟩ := recordTail_seq (t := t) (i0 := i0 t) (made := a.made t) (c := c) (cmds := a.cmds t) e1 ((hb.congr ((hon t).mono fun l hl => .inr hl)).congr
              fun l hl => e3 l (by rintro l rfl; exact hl))
            refine ⟨_, fun i => if i = t then false else pend i, .inr (show a.step t = _ by
              simp only [Recs.step, htodo, hres, hres', if_true]; rfl), ?_⟩
            refine h.did hon ?_ ⟨?_, h.fit.ids⟩ ?_ (recordTail_within (reserveTail_within t _)) f1 f2
            · rw [hsame]
              have : ({ a.pool with cursor := a.pool.cursor - 1 - (tally N pend : Int) } : Pool) = { a.pool with cursor := a.pool.cursor - 1 } := by
                rw [h0]; simp
              rw [this]
              exact hpool
            · have := h.fit.cur
              show a.pool.cursor - 1 ≤ (a.pool.free.length : Int)
              omega
            · rw [hsame]
              omega
          · rw [if_neg hn]
            have htal := tally_upd pend t true ht
            rw [hpt] at htal
            simp only [Bool.toNat_true, Bool.toNat_false] at htal
            refine ⟨a, fun i => if i = t then true else pend i, .inl rfl, ?_, h.fit, ?_, ?_⟩
            · refine ⟨?_, ?_, h.pool.gens, h.pool.gen, h.pool.frees, h.pool.free⟩
              · have := h.pool.next
                simpa [Store.pull, Store.setAtom, cursor, nextId] using this
              · have e : ((s.setAtom (.pool cursor) (a.pool.cursor - tally N pend - 1)).pull CLoc.pool).atom cursor = a.pool.cursor - tally N pend - 1 := by
                  simp [Store.pull, Store.setAtom]
                rw [e]
                show _ = a.pool.cursor - _
                omega
            · intro _
              have := h.out
              omega
            · intro i hi
              by_cases e : i = t
              · subst e
                simp only [if_true]
                exact .pend c cs htodo hres rfl (hb.congr ((hon i).mono fun l hl => .inr hl))
              · simp only [if_neg e]
                exact (h.stat i hi).congr (hon i)

theorem Sim.run {N : Nat} {i0 : Nat → Nat} {w : Nat → Prog CLoc Unit} {s s' : Store CLoc} (hm : Mix N w s s') : ∀ {a : Recs} {pend : Nat → Bool}, Sim N i0 a w s pend →
    ∃ a', RecRun N a a' ∧ PRep a'.pool (s'.pull .pool) ∧ ∀ t, t < N → BufHas s' t (i0 t) (a'.cmds t) := by
  induction hm with
  | @done w s hr =>
    intro a pend h
    have hall : ∀ t, t < N → pend t = false ∧ a.todo t = [] ∧ BufHas s t (i0 t) (a.cmds t) := by
      intro t ht
      have hst := h.stat t ht
      rw [hr t ht] at hst
      cases hpt : pend t with
      | true =>
        rw [hpt] at hst
        obtain _ | ⟨c, cs, h1, h2, h3, h4⟩ := hst
        cases h3
      | false =>
        rw [hpt] at hst
        obtain ⟨q, hq, hp, hv, hb⟩ := hst
        obtain ⟨m, rfl, e⟩ := Prog.bind_ret hp.symm
        exact ⟨rfl, recorder_ret e, hb⟩
    refine ⟨a, .done fun t ht => (hall t ht).2.1, ?_, fun t ht => (hall t ht).2.2⟩
    have := h.pool
    rw [tally_none fun t ht => (hall t ht).1] at this
    simpa using this
  | @step w s s' t o k ht hw _ ih =>
    intro a pend h
    obtain ⟨a1, pend1, h1, h2⟩ := h.step ht hw
    obtain ⟨a', h3, h4⟩ := ih h2
    rcases h1 with rfl | h1
    · exact ⟨a', h3, h4⟩
    · exact ⟨a', .step t ht h1 h3, h4⟩

theorem Sim.start {N : Nat} {calls : Nat → List RCall} {p : Pool} {s : Store CLoc} (hp : PRep p (s.pull .pool)) (hf : PoolFit p) {i0 : Nat → Nat}
    (hb : ∀ t, t < N → BufHas s t (i0 t) []) :
    Sim N i0 ⟨p, fun _ => [], calls, fun _ => []⟩ (fun t => recorder t [] (calls t)) s (fun _ => false) := by
  have h0 : tally N (fun _ => false) = 0 := tally_none fun _ _ => rfl
  refine ⟨by rw [h0]; simpa using hp, hf, by omega, fun t ht => .own (.ret []) trivial rfl rfl (hb t ht)⟩

/-! ## The rest is left alone -/

theorem Op.Keeps.frame {t : Nat} {o : Op CLoc} (h : o.Keeps Counter (recFoot t)) (s : Store CLoc) :
    (o.seq s).2.On (fun l => ¬ Counter l ∧ ¬ (recFoot t).wr l) s := by
  rcases h with h | ⟨ord, l, f, rfl, hl, _⟩
  · exact (Op.seq_frame h s).mono fun l hl => hl.2
  · simp only [Op.seq]
    cases f (s.atom l) with
    | none => exact .refl _ _
    | some v =>
      intro y hy
      refine ⟨?_, rfl⟩
      show (if y = l then v else s.atom y) = s.atom y
      rw [if_neg]
      rintro rfl
      exact hy.1 hl

theorem Mix.frame {N : Nat} {w : Nat → Prog CLoc Unit} {s s' : Store CLoc} (h : Mix N w s s') : (∀ t, t < N → (w t).Keeps Counter (recFoot t)) →
    s'.On (fun l => ¬ Counter l ∧ ∀ t, t < N → ¬ (recFoot t).wr l) s := by
  induction h with
  | done _ => exact fun _ => .refl _ _
  | @step w s s' t o k ht hw _ ih =>
    intro hk
    have h1 := hk t ht
    rw [hw] at h1
    refine (ih fun i hi => ?_).trans ((h1.1.frame s).mono fun l hl => ⟨hl.1, hl.2 t ht⟩)
    by_cases e : i = t
    · subst e; simp only [if_true]; exact h1.2 _
    · simp only [if_neg e]; exact hk i hi

/-! ## Flushing -/

theorem flushCmds_spec {N : Nat} {p : Pool} {s : Store CLoc} {i0 : Nat → Nat} {mss : Nat → List MCmd} {k : Nat} (hp : PRep p (s.pull .pool))
    (hb : ∀ b, b < N → BufHas s b (i0 b) (mss b)) (hr : Ran s k []) :
    PRep p.flush (((flushCmds N).seq s).2.pull .pool) ∧ Ran ((flushCmds N).seq s).2 k ((List.range N).map mss).flatten ∧
    ∀ b, b < N → BufHas ((flushCmds N).seq s).2 b (i0 b + (mss b).length) [] := by
  obtain ⟨s1, e1, h1, _⟩ := hp.flush
  obtain ⟨f1, f2, f3⟩ := Prog.on_seq CLoc.pool_inj flush s
  rw [e1] at f2
  have hb' : ∀ b ∈ List.range N, BufHas ((flush.on CLoc.pool).seq s).2 b (i0 b) (mss b) := fun b hbN =>
    (hb b (List.mem_range.1 hbN)).congr fun l hl => f3 l (by rintro l rfl; exact hl)
  have hr' : Ran ((flush.on CLoc.pool).seq s).2 k [] :=
    ⟨by rw [(f3 .ran nofun).2]; exact hr.1, fun i m hm => by simp at hm⟩
  obtain ⟨g1, g2, g3⟩ := playBufs_spec (List.range N) List.nodup_range hb' hr'
  have e : ((flushCmds N).seq s).2 = ((playBufs (List.range N)).seq ((flush.on CLoc.pool).seq s).2).2 := by
    simp only [flushCmds, Prog.seq_bind']
  rw [e]
  refine ⟨?_, by simpa using g1, fun b hbN => g2 b (List.mem_range.2 hbN)⟩
  have hne : ∀ l, ¬ Played (List.range N) (.pool l) := by
    rintro l (e | ⟨_, _, e⟩ | ⟨_, _, e⟩) <;> cases e
  refine (show PRep p.flush (((flush.on CLoc.pool).seq s).2.pull .pool) by rw [f2]; exact h1).on (fun l => (g3 (.pool l) (hne l)).1) (fun l => (g3 (.pool l) (hne l)).2)

end CoEcs.Weak
