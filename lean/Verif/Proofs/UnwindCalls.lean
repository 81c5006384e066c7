import Verif.Proofs.UnwindInv

/-!
# The calls of a program whose systems throw
-/

namespace CoEcs

/-- Systems submitted by some code. -/
def submits : List Instr → List SysDesc
  | [] => []
  | .submit d :: c => d :: submits c
  | .runMain _ :: c => submits c
  | .endMain _ :: c => submits c
  | .wait :: c => submits c
  | .flush :: c => submits c

/-- Main-thread systems run by some code. -/
def mains : List Instr → List SysDesc
  | [] => []
  | .runMain d :: c => d :: mains c
  | .submit _ :: c => mains c
  | .endMain _ :: c => mains c
  | .wait :: c => mains c
  | .flush :: c => mains c

theorem submits_append (a b : List Instr) : submits (a ++ b) = submits a ++ submits b := by
  induction a with
  | nil => rfl
  | cons x a ih => cases x <;> simp [submits, ih]

theorem mains_append (a b : List Instr) : mains (a ++ b) = mains a ++ mains b := by
  induction a with
  | nil => rfl
  | cons x a ih => cases x <;> simp [mains, ih]

/-- Whatever is submitted is waited for; the flag says that something was already. -/
def Waits : Bool → List Instr → Prop
  | p, [] => p = false
  | _, .submit _ :: c => Waits true c
  | p, .runMain _ :: c => Waits p c
  | p, .endMain _ :: c => Waits p c
  | _, .wait :: c => Waits false c
  | p, .flush :: c => Waits p c

theorem waits_submits (b : List SysDesc) (c : List Instr) (p : Bool) (h : Waits (p || !b.isEmpty) c) : Waits p (b.map .submit ++ c) := by
  induction b generalizing p with
  | nil => simpa using h
  | cons x b ih =>
    have : Waits true (b.map .submit ++ c) := ih true (by simpa using h)
    simpa [Waits] using this

theorem waits_mains (b : List SysDesc) (c : List Instr) (p : Bool) (h : Waits p c) : Waits p (b.map .runMain ++ c) := by
  induction b with
  | nil => simpa using h
  | cons x b ih => simpa [Waits] using ih

theorem waits_batch (main b : List SysDesc) (c : List Instr) (h : Waits false c) : Waits false (execBatch main b ++ c) := by
  unfold execBatch
  rw [List.append_assoc, List.append_assoc]
  apply waits_submits
  apply waits_mains
  cases hb : b.isEmpty
  · simpa [Waits] using h
  · simpa using h

theorem waits_stage (e : StageExec) (c : List Instr) (h : Waits false c) : Waits false (e.code ++ c) := by
  unfold StageExec.code
  generalize e.batches = bs
  induction bs with
  | nil => simpa using h
  | cons b bs ih =>
    simp only [List.flatMap_cons, List.append_assoc]
    exact waits_batch _ _ _ ih

theorem waits_callCode (prog : Nat → ScheduleExec) (x : Nat × Bool) : Waits false (callCode prog x) := by
  obtain ⟨e, b⟩ := x
  cases b
  · simp only [callCode, ScheduleExec.runOnce]
    generalize (prog e).stages = ss
    induction ss with
    | nil => simp [Waits]
    | cons st ss ih =>
      simp only [List.flatMap_cons, List.append_assoc]
      exact waits_stage _ _ ih
  · simp only [callCode, ScheduleExec.construct]
    exact waits_stage _ _ (by simp [Waits])

namespace UState
variable {prog : Nat → ScheduleExec} {n : Nat} {s t : UState}

/-- The systems of the tasks call `k` has submitted, in order. -/
def subs (l : List UTask) (k : Nat) : List SysDesc := l.filterMap fun t => if t.call = k then some t.sys else none

/-- 1 if the main thread is in a main-thread system with this id. -/
def inSys (s : UState) (id : Nat) : Nat :=
  match s.main with
  | .system d => if d.id = id then 1 else 0
  | _ => 0

def sysCount (l : List SysDesc) (id : Nat) : Nat := (l.map SysDesc.id).count id

/-- Some tasks that had not finished have changed their status. -/
structure Upd (l l' : List UTask) : Prop where
  len : l'.length = l.length
  get : ∀ (i : Nat) (t' : UTask), l'[i]? = some t' → ∃ t, l[i]? = some t ∧ t'.call = t.call ∧ t'.exec = t.exec ∧ (t.st = .done → t' = t)
  subs : ∀ k, UState.subs l' k = UState.subs l k

theorem Upd.refl (l : List UTask) : Upd l l := ⟨rfl, fun _ t h => ⟨t, h, rfl, rfl, fun _ => rfl⟩, fun _ => rfl⟩

theorem Upd.modify {l : List UTask} {j : Nat} {st st' : UStatus} (h : stAt l j = some st) (hst : st ≠ .done) : Upd l (l.modify j (UTask.to st')) := by
  refine ⟨by simp, fun i t' ht => ?_, fun k => ?_⟩
  · rw [List.getElem?_modify] at ht
    by_cases hij : j = i
    · subst hij
      cases hj : l[j]? with
      | none => rw [hj] at ht; simp at ht
      | some u =>
        rw [hj] at ht
        simp at ht
        subst ht
        refine ⟨u, rfl, rfl, rfl, fun hd => ?_⟩
        rw [stAt_of hj, hd] at h
        injection h with h
        exact absurd h.symm hst
    · simp [hij] at ht
      exact ⟨t', ht, rfl, rfl, fun _ => rfl⟩
  · exact filterMap_modify_keep (fun t : UTask => if t.call = k then some t.sys else none) (UTask.to st') (fun t => rfl) l j

/-- The current call. -/
structure Cur (prog : Nat → ScheduleExec) (s : UState) (e : Nat) (b : Bool) (past : List Instr) : Prop where
  last : s.calls.getLast? = some (e, b)
  code : callCode prog (e, b) = past ++ s.code
  waits : Waits (decide (s.base < s.tasks.length)) s.code
  subs : UState.subs s.tasks s.call = submits past
  starts : ∀ id, s.log.count (.mainStart s.call id) = sysCount (mains past) id
  finishes : ∀ id, s.log.count (.mainFinish s.call id) + s.inSys id = sysCount (mains past) id
  done : ∀ (i : Nat) (t : UTask), i < s.base → s.tasks[i]? = some t → t.call = s.call → t.st = .done
  mine : ∀ (i : Nat) (t : UTask), s.base ≤ i → s.tasks[i]? = some t → t.call = s.call
  open_ : .returned s.call ∉ s.log ∧ .threw s.call ∉ s.log

/-- Call `k`, which was `x`, has done everything. -/
structure Complete (prog : Nat → ScheduleExec) (s : UState) (k : Nat) (x : Nat × Bool) : Prop where
  call : s.calls[k]? = some x
  subs : UState.subs s.tasks k = submits (callCode prog x)
  done : ∀ (i : Nat) (t : UTask), s.tasks[i]? = some t → t.call = k → t.st = .done
  starts : ∀ id, s.log.count (.mainStart k id) = sysCount (mains (callCode prog x)) id
  finishes : ∀ id, s.log.count (.mainFinish k id) = sysCount (mains (callCode prog x)) id

structure KInv (prog : Nat → ScheduleExec) (s : UState) : Prop where
  base : s.base ≤ s.tasks.length
  old : ∀ (i : Nat) (t : UTask), s.tasks[i]? = some t → ∃ b, s.calls[t.call]? = some (t.exec, b)
  cur : s.main ≠ .idle → ∃ e b past, Cur prog s e b past
  future : ∀ k, s.calls.length ≤ k → (∀ id, s.log.count (.mainStart k id) = 0 ∧ s.log.count (.mainFinish k id) = 0) ∧ .returned k ∉ s.log ∧ .threw k ∉ s.log
  ended : ∀ k, k < s.calls.length → (k = s.call → s.main = .idle) → .returned k ∈ s.log ∨ .threw k ∈ s.log
  ret : ∀ k, .returned k ∈ s.log → ∃ x, Complete prog s k x

/-- Events about which `KInv` says nothing. -/
def Neutral : UEvent → Prop
  | .mainStart _ _ => False
  | .mainFinish _ _ => False
  | .returned _ => False
  | .threw _ => False
  | _ => True

/-- What new events, none or one, do to counts. -/
theorem neutral_count {l : List UEvent} {l' : List UEvent} (h : l' = l ∨ ∃ e, Neutral e ∧ l' = l ++ [e]) :
    (∀ k id, l'.count (.mainStart k id) = l.count (.mainStart k id) ∧ l'.count (.mainFinish k id) = l.count (.mainFinish k id)) ∧
    (∀ k, (.returned k ∈ l' ↔ .returned k ∈ l) ∧ (.threw k ∈ l' ↔ .threw k ∈ l)) := by
  rcases h with rfl | ⟨e, he, rfl⟩
  · simp
  · refine ⟨fun k id => ?_, fun k => ?_⟩
    · cases e <;> simp [Neutral, count_snoc] at he ⊢
    · cases e <;> simp [Neutral] at he ⊢

theorem Complete.upd {k : Nat} {x : Nat × Bool} (C : Complete prog s k x) (hcalls : t.calls[k]? = s.calls[k]?) (hu : Upd s.tasks t.tasks)
    (hl : ∀ id, t.log.count (.mainStart k id) = s.log.count (.mainStart k id) ∧ t.log.count (.mainFinish k id) = s.log.count (.mainFinish k id)) : Complete prog t k x := by
  refine ⟨hcalls.trans C.call, (hu.subs k).trans C.subs, fun i u h1 h2 => ?_, fun id => (hl id).1.trans (C.starts id), fun id => (hl id).2.trans (C.finishes id)⟩
  obtain ⟨v, h3, h4, _, h5⟩ := hu.get i u h1
  have hd := C.done i v h3 (h4 ▸ h2)
  rw [h5 hd]; exact hd

/-- A step that changes only the tasks and the neutral part of the log. -/
theorem KInv.change (I : KInv prog s) (hcode : t.code = s.code) (hcalls : t.calls = s.calls) (hbase : t.base = s.base)
    (hmain : t.main = .idle ↔ s.main = .idle) (hsys : ∀ id, t.inSys id = s.inSys id) (hu : Upd s.tasks t.tasks)
    (hl : t.log = s.log ∨ ∃ e, Neutral e ∧ t.log = s.log ++ [e]) : KInv prog t := by
  obtain ⟨n1, n2⟩ := neutral_count hl
  have hc : t.call = s.call := by simp [call, hcalls]
  refine ⟨by rw [hbase, hu.len]; exact I.base, fun i u hi => ?_, fun hm => ?_, fun k hk => ?_, fun k hk hm => ?_, fun k hk => ?_⟩
  · obtain ⟨v, h1, h2, h3, _⟩ := hu.get i u hi
    rw [hcalls, h2, h3]; exact I.old i v h1
  · obtain ⟨e, b, past, C⟩ := I.cur (fun h => hm (hmain.2 h))
    refine ⟨e, b, past, by rw [hcalls]; exact C.last, by rw [hcode]; exact C.code, by rw [hcode, hbase, hu.len]; exact C.waits,
      by rw [hc, hu.subs]; exact C.subs, fun id => by rw [hc, (n1 _ _).1]; exact C.starts id, fun id => by rw [hc, (n1 _ _).2, hsys]; exact C.finishes id,
      fun i u h1 h2 h3 => ?_, fun i u h1 h2 => ?_, by rw [hc, (n2 _).1, (n2 _).2]; exact C.open_⟩
    · obtain ⟨v, h4, h5, _, h6⟩ := hu.get i u h2
      have hd := C.done i v (hbase ▸ h1) h4 (by rw [← h5, h3, hc])
      rw [h6 hd]; exact hd
    · obtain ⟨v, h4, h5, _, _⟩ := hu.get i u h2
      rw [h5, hc]; exact C.mine i v (hbase ▸ h1) h4
  · rw [hcalls] at hk
    obtain ⟨h1, h2, h3⟩ := I.future k hk
    exact ⟨fun id => by rw [(n1 k id).1, (n1 k id).2]; exact h1 id, by rw [(n2 k).1]; exact h2, by rw [(n2 k).2]; exact h3⟩
  · rw [hcalls] at hk
    rw [(n2 k).1, (n2 k).2]
    exact I.ended k hk (fun h => hmain.1 (hm (by rw [hc]; exact h)))
  · rw [(n2 k).1] at hk
    obtain ⟨x, C⟩ := I.ret k hk
    exact ⟨x, C.upd (by rw [hcalls]) hu (n1 k)⟩

theorem KInv.init : KInv prog UState.init := by
  refine ⟨Nat.le_refl _, fun i t h => ?_, fun h => absurd rfl h, fun k _ => ⟨fun id => ⟨rfl, rfl⟩, ?_, ?_⟩, fun k hk => ?_, fun k hk => ?_⟩
  · simp [UState.init] at h
  · simp [UState.init]
  · simp [UState.init]
  · simp [UState.init] at hk
  · simp [UState.init] at hk

theorem subs_none {l : List UTask} {k : Nat} (h : ∀ (i : Nat) (t : UTask), l[i]? = some t → t.call ≠ k) : subs l k = [] := by
  unfold subs
  rw [List.filterMap_eq_nil_iff]
  intro t ht
  obtain ⟨i, hi⟩ := List.mem_iff_getElem?.1 ht
  simp [h i t hi]

/-- The beginning of a call. -/
theorem KInv.enter (I : KInv prog s) (hm : s.main = .idle) (x : Nat × Bool) (hcode : t.code = callCode prog x) (hmain : t.main = .code)
    (hcalls : t.calls = s.calls ++ [x]) (hbase : t.base = s.tasks.length) (htasks : t.tasks = s.tasks) (hlog : t.log = s.log ++ [.enter s.calls.length]) :
    KInv prog t := by
  obtain ⟨n1, n2⟩ := neutral_count (l := s.log) (l' := t.log) (Or.inr ⟨.enter s.calls.length, trivial, hlog⟩)
  have hc : t.call = s.calls.length := by simp [call, hcalls]
  have hlen : t.calls.length = s.calls.length + 1 := by simp [hcalls]
  have hcall : ∀ (k : Nat) (y : Nat × Bool), s.calls[k]? = some y → t.calls[k]? = some y := by
    intro k y hy
    rw [hcalls, List.getElem?_append_left (by
      by_cases h : k < s.calls.length
      · exact h
      · rw [List.getElem?_eq_none (by omega)] at hy; cases hy)]
    exact hy
  have hlt : ∀ (i : Nat) (u : UTask), s.tasks[i]? = some u → u.call < s.calls.length := by
    intro i u hu
    obtain ⟨b, hb⟩ := I.old i u hu
    by_cases h : u.call < s.calls.length
    · exact h
    · rw [List.getElem?_eq_none (by omega)] at hb; cases hb
  refine ⟨by rw [hbase, htasks]; exact Nat.le_refl _, fun i u hi => ?_, fun _ => ?_, fun k hk => ?_, fun k hk hmk => ?_, fun k hk => ?_⟩
  · rw [htasks] at hi
    obtain ⟨b, hb⟩ := I.old i u hi
    exact ⟨b, hcall _ _ hb⟩
  · obtain ⟨e, b⟩ := x
    refine ⟨e, b, [], by rw [hcalls]; simp, by rw [hcode]; rfl, ?_, ?_, ?_, ?_, ?_, ?_, ?_⟩
    · rw [hcode, hbase, htasks]
      simpa using waits_callCode prog (e, b)
    · rw [htasks, hc, subs_none (fun i u hu => by have := hlt i u hu; omega)]
      rfl
    · intro id
      rw [hc, (n1 _ _).1, ((I.future _ (Nat.le_refl _)).1 id).1]; rfl
    · intro id
      rw [hc, (n1 _ _).2, ((I.future _ (Nat.le_refl _)).1 id).2]; simp [inSys, hmain, sysCount, mains]
    · intro i u _ hu hcu
      rw [htasks] at hu
      have := hlt i u hu
      omega
    · intro i u hi hu
      rw [hbase, ] at hi
      rw [htasks, List.getElem?_eq_none hi] at hu
      cases hu
    · rw [hc, (n2 _).1, (n2 _).2]; exact (I.future _ (Nat.le_refl _)).2
  · obtain ⟨h1, h2, h3⟩ := I.future k (by omega)
    exact ⟨fun id => by rw [(n1 k id).1, (n1 k id).2]; exact h1 id, by rw [(n2 k).1]; exact h2, by rw [(n2 k).2]; exact h3⟩
  · rw [(n2 k).1, (n2 k).2]
    have : k ≠ s.calls.length := fun h => by have := hmk (h.trans hc.symm); rw [hmain] at this; cases this
    exact I.ended k (by omega) (fun _ => hm)
  · rw [(n2 k).1] at hk
    obtain ⟨y, C⟩ := I.ret k hk
    exact ⟨y, C.upd (by rw [hcall _ _ C.call, C.call]) (by rw [htasks]; exact Upd.refl _) (n1 k)⟩

theorem call_lt (I : KInv prog s) (hm : s.main ≠ .idle) : s.call < s.calls.length := by
  obtain ⟨e, b, past, C⟩ := I.cur hm
  have := C.last
  have hne : s.calls ≠ [] := by intro h; rw [h] at this; cases this
  have := List.length_pos_iff.2 hne
  simp [call]; omega

/-- The next instruction of a call, with the bookkeeping of main-thread systems and of submissions. -/
theorem KInv.advance (I : KInv prog s) (hm : s.main = .code) {i : Instr} {c : List Instr} (hcode : s.code = i :: c) (hcode' : t.code = c)
    (hmain : t.main ≠ .idle) (hcalls : t.calls = s.calls) (htasks : t.tasks = s.tasks ++ (match i with | .submit d => [⟨d, (s.calls.getLast?.map Prod.fst).getD 0, s.call, .queued⟩] | _ => []))
    (hbase : t.base ≤ t.tasks.length) (hwaits : Waits (decide (t.base < t.tasks.length)) c)
    (hdone : ∀ (j : Nat) (u : UTask), j < t.base → t.tasks[j]? = some u → u.call = s.call → u.st = .done)
    (hmine : ∀ (j : Nat) (u : UTask), t.base ≤ j → t.tasks[j]? = some u → u.call = s.call)
    (hstart : ∀ k id, t.log.count (.mainStart k id) = s.log.count (.mainStart k id) + if k = s.call then sysCount (mains [i]) id else 0)
    (hfin : ∀ k id, t.log.count (.mainFinish k id) = s.log.count (.mainFinish k id))
    (hin : ∀ id, t.inSys id = sysCount (mains [i]) id)
    (hev : ∀ k, (.returned k ∈ t.log ↔ .returned k ∈ s.log) ∧ (.threw k ∈ t.log ↔ .threw k ∈ s.log)) : KInv prog t := by
  have hlt := call_lt I (by rw [hm]; simp)
  obtain ⟨e, b, past, C⟩ := I.cur (by rw [hm]; simp)
  have hc : t.call = s.call := by simp [call, hcalls]
  have hin0 : ∀ id, s.inSys id = 0 := by intro id; simp [inSys, hm]
  have hsub : ∀ k, subs t.tasks k = subs s.tasks k ++ if k = s.call then submits [i] else [] := by
    intro k
    rw [htasks]
    unfold subs
    rw [List.filterMap_append]
    congr 1
    cases i <;> simp [submits]
    by_cases h : s.call = k
    · simp [h]
    · have : ¬ k = s.call := fun e => h e.symm
      simp [h, this]
  have hold : ∀ (j : Nat) (u : UTask), t.tasks[j]? = some u → s.tasks[j]? = some u ∨ u.call = s.call ∧ u.exec = e := by
    intro j u hu
    rw [htasks] at hu
    by_cases h : j < s.tasks.length
    · rw [List.getElem?_append_left h] at hu; exact Or.inl hu
    · rw [List.getElem?_append_right (by omega)] at hu
      right
      have hmem := List.mem_of_getElem? hu
      cases i <;> simp at hmem
      subst hmem
      simp [C.last]
  refine ⟨hbase, fun j u hu => ?_, fun _ => ?_, fun k hk => ?_, fun k hk hmk => ?_, fun k hk => ?_⟩
  · rcases hold j u hu with h | ⟨h1, h2⟩
    · rw [hcalls]; exact I.old j u h
    · rw [hcalls, h1, h2]
      refine ⟨b, ?_⟩
      have := C.last
      rw [List.getLast?_eq_getElem?] at this
      exact this
  · refine ⟨e, b, past ++ [i], by rw [hcalls]; exact C.last, by rw [C.code, hcode, hcode']; simp, by rw [hcode']; exact hwaits,
      by rw [hc, hsub, C.subs, submits_append]; simp, fun id => ?_, fun id => ?_, fun j u h1 h2 h3 => hdone j u h1 h2 (h3.trans hc),
      fun j u h1 h2 => (hmine j u h1 h2).trans hc.symm, by rw [hc, (hev _).1, (hev _).2]; exact C.open_⟩
    · rw [hc, hstart, C.starts id, mains_append]; simp [sysCount]
    · rw [hc, hfin, hin, mains_append]
      have := C.finishes id
      rw [hin0] at this
      simp only [sysCount, List.map_append, List.count_append] at this ⊢
      omega
  · rw [hcalls] at hk
    obtain ⟨h1, h2, h3⟩ := I.future k hk
    refine ⟨fun id => ⟨?_, by rw [hfin]; exact (h1 id).2⟩, by rw [(hev k).1]; exact h2, by rw [(hev k).2]; exact h3⟩
    rw [hstart, (h1 id).1, if_neg (by omega)]
  · rw [hcalls] at hk
    rw [(hev k).1, (hev k).2]
    exact I.ended k hk (fun h => absurd (hmk (h.trans hc.symm)) hmain)
  · rw [(hev k).1] at hk
    have hne : k ≠ s.call := fun h => C.open_.1 (h ▸ hk)
    obtain ⟨x, D⟩ := I.ret k hk
    refine ⟨x, by rw [hcalls]; exact D.call, by rw [hsub, if_neg hne, List.append_nil]; exact D.subs, fun j u h1 h2 => ?_,
      fun id => by rw [hstart, if_neg hne]; exact D.starts id, fun id => by rw [hfin]; exact D.finishes id⟩
    rcases hold j u h1 with h | ⟨h3, _⟩
    · exact D.done j u h h2
    · exact absurd (h2.symm.trans h3) hne

/-- The end of a call by an exception. -/
theorem KInv.threw (I : KInv prog s) (hm : s.main ≠ .idle) (hmain : t.main = .idle) (hcalls : t.calls = s.calls) (hbase : t.base = s.base)
    (hu : Upd s.tasks t.tasks) (hlog : t.log = s.log ++ [.threw s.call]) : KInv prog t := by
  have hlt := call_lt I hm
  obtain ⟨e, b, past, C⟩ := I.cur hm
  have n1 : ∀ k id, t.log.count (.mainStart k id) = s.log.count (.mainStart k id) ∧ t.log.count (.mainFinish k id) = s.log.count (.mainFinish k id) := by
    intro k id; rw [hlog]; simp [count_snoc]
  refine ⟨by rw [hbase, hu.len]; exact I.base, fun i u hi => ?_, fun h => absurd hmain h, fun k hk => ?_, fun k hk _ => ?_, fun k hk => ?_⟩
  · obtain ⟨v, h1, h2, h3, _⟩ := hu.get i u hi
    rw [hcalls, h2, h3]; exact I.old i v h1
  · rw [hcalls] at hk
    obtain ⟨h1, h2, h3⟩ := I.future k hk
    refine ⟨fun id => by rw [(n1 k id).1, (n1 k id).2]; exact h1 id, ?_, ?_⟩
    · rw [hlog]; simpa using h2
    · rw [hlog]; simp only [List.mem_append, List.mem_singleton, UEvent.threw.injEq, not_or]; exact ⟨h3, by omega⟩
  · rw [hcalls] at hk
    rw [hlog]
    by_cases h : k = s.call
    · right; simp [h]
    · rcases I.ended k hk (fun h' => absurd h' h) with h1 | h1
      · left; simp [h1]
      · right; simp [h1]
  · rw [hlog] at hk
    have hk : .returned k ∈ s.log := by simpa using hk
    obtain ⟨x, D⟩ := I.ret k hk
    exact ⟨x, D.upd (by rw [hcalls]) hu (n1 k)⟩

theorem KInv.step (Q : QInv s) (I : KInv prog s) (h : Tr prog n s t) : KInv prog t := by
  cases h with
  | construct e hm => exact I.enter hm (e, true) rfl rfl rfl rfl rfl rfl
  | run e hm => exact I.enter hm (e, false) rfl rfl rfl rfl rfl rfl
  | destroy e hm => exact I.change rfl rfl rfl Iff.rfl (fun _ => rfl) (Upd.refl _) (Or.inl rfl)
  | ret hm hc =>
    have hlt := call_lt I (by rw [hm]; simp)
    obtain ⟨e, b, past, C⟩ := I.cur (by rw [hm]; simp)
    have hw := C.waits
    rw [hc] at hw
    have hb : s.base = s.tasks.length := by
      have h1 := I.base
      simp [Waits] at hw
      omega
    have hcode : past = callCode prog (e, b) := by rw [C.code, hc]; simp
    have n1 : ∀ k id, (s.log ++ [UEvent.returned s.call]).count (UEvent.mainStart k id) = s.log.count (UEvent.mainStart k id) ∧
        (s.log ++ [UEvent.returned s.call]).count (UEvent.mainFinish k id) = s.log.count (UEvent.mainFinish k id) := by
      intro k id; simp [count_snoc]
    have hcomp : Complete prog s s.call (e, b) := by
      refine ⟨?_, by rw [C.subs, hcode], fun i u hi hcu => ?_, fun id => by rw [C.starts id, hcode], fun id => ?_⟩
      · have := C.last
        rw [List.getLast?_eq_getElem?] at this
        exact this
      · refine C.done i u ?_ hi hcu
        rw [hb]
        by_cases h : i < s.tasks.length
        · exact h
        · rw [List.getElem?_eq_none (by omega)] at hi; cases hi
      · have := C.finishes id
        rw [hcode] at this
        simpa [inSys, hm] using this
    refine ⟨I.base, I.old, fun h => absurd rfl h, fun k hk => ?_, fun k hk _ => ?_, fun k hk => ?_⟩
    · obtain ⟨h1, h2, h3⟩ := I.future k hk
      refine ⟨fun id => by rw [(n1 k id).1, (n1 k id).2]; exact h1 id, ?_, by simpa using h3⟩
      simp only [List.mem_append, List.mem_singleton, UEvent.returned.injEq, not_or]
      exact ⟨h2, by have : s.calls.length ≤ k := hk; omega⟩
    · by_cases h : k = s.call
      · left; simp [h]
      · rcases I.ended k hk (fun h' => absurd h' h) with h1 | h1
        · left; simp [h1]
        · right; simp [h1]
    · simp only [List.mem_append, List.mem_singleton, UEvent.returned.injEq] at hk
      rcases hk with hk | hk
      · obtain ⟨x, D⟩ := I.ret k hk
        exact ⟨x, D.upd rfl (Upd.refl _) (n1 k)⟩
      · subst hk
        exact ⟨(e, b), hcomp.upd rfl (Upd.refl _) (n1 _)⟩
  | submit d c e b hm hc he =>
    obtain ⟨e', b', past, C⟩ := I.cur (by rw [hm]; simp)
    have hw := C.waits
    rw [hc] at hw
    have hsys0 : ∀ id, s.inSys id = 0 := by intro id; simp [inSys, hm]
    refine I.advance hm hc rfl (by rw [hm]; simp) rfl (by simp [he]) ?_ ?_ ?_ ?_ ?_ (fun _ _ => rfl) ?_ (fun _ => ⟨Iff.rfl, Iff.rfl⟩)
    · have := I.base; simp; omega
    · have := I.base
      have : decide (s.base < (s.tasks ++ [UTask.mk d e s.call .queued]).length) = true := by simp; omega
      show Waits (decide (s.base < (s.tasks ++ [UTask.mk d e s.call .queued]).length)) c
      rw [this]
      exact hw
    · intro j u h1 h2 h3
      have := I.base
      have h1' : j < s.base := h1
      have h2' : (s.tasks ++ [UTask.mk d e s.call .queued])[j]? = some u := h2
      rw [List.getElem?_append_left (by omega)] at h2'
      exact C.done j u h1 h2' h3
    · intro j u h1 h2
      have h2' : (s.tasks ++ [UTask.mk d e s.call .queued])[j]? = some u := h2
      by_cases h : j < s.tasks.length
      · rw [List.getElem?_append_left h] at h2'
        exact C.mine j u h1 h2'
      · rw [List.getElem?_append_right (by omega)] at h2'
        have := List.mem_of_getElem? h2'
        simp at this
        subst this; rfl
    · intro k id; simp [sysCount, mains]
    · intro id
      have := hsys0 id
      simp only [inSys, hm] at this ⊢
      simp [sysCount, mains]
  | runMain d c hm hc =>
    obtain ⟨e', b', past, C⟩ := I.cur (by rw [hm]; simp)
    have hw := C.waits
    rw [hc] at hw
    refine I.advance hm hc rfl (by simp) rfl (by simp) I.base hw (fun j u h1 h2 h3 => C.done j u h1 h2 h3) (fun j u h1 h2 => C.mine j u h1 h2) ?_ ?_ ?_ ?_
    · intro k id
      simp only [count_snoc, sysCount, mains, List.map_cons, List.map_nil, List.count_singleton]
      by_cases h1 : k = s.call
      · subst h1; simp
      · have : ¬ s.call = k := fun e => h1 e.symm
        simp [h1, this]
    · intro k id; simp [count_snoc]
    · intro id; simp [inSys, sysCount, mains, List.count_singleton]
    · intro k; simp
  | endMain d c hm hc =>
    obtain ⟨e', b', past, C⟩ := I.cur (by rw [hm]; simp)
    have hw := C.waits
    rw [hc] at hw
    refine I.advance hm hc rfl (by rw [hm]; simp) rfl (by simp) I.base hw (fun j u h1 h2 h3 => C.done j u h1 h2 h3) (fun j u h1 h2 => C.mine j u h1 h2) ?_
      (fun _ _ => rfl) ?_ (fun _ => ⟨Iff.rfl, Iff.rfl⟩)
    · intro k id; simp [sysCount, mains]
    · intro id; simp [inSys, hm, sysCount, mains]
  | waited c hm hc hb =>
    obtain ⟨e', b', past, C⟩ := I.cur (by rw [hm]; simp)
    have hw := C.waits
    rw [hc] at hw
    have hall : ∀ (j : Nat) (u : UTask), s.tasks[j]? = some u → u.call = s.call → u.st = .done := by
      intro j u hu hcu
      by_cases h : j < s.base
      · exact C.done j u h hu hcu
      · have hu' : (s.tasks.drop s.base)[j - s.base]? = some u := by rw [List.getElem?_drop]; rw [show s.base + (j - s.base) = j by omega]; exact hu
        have := List.all_eq_true.1 hb u (List.mem_of_getElem? hu')
        simpa using this
    refine I.advance hm hc rfl (by rw [hm]; simp) rfl (by simp) (Nat.le_refl _) (by simpa [Waits] using hw) (fun j u _ h2 h3 => hall j u h2 h3) ?_ ?_
      (fun _ _ => rfl) ?_ (fun _ => ⟨Iff.rfl, Iff.rfl⟩)
    · intro j u h1 h2
      have h2' : s.tasks[j]? = some u := h2
      rw [List.getElem?_eq_none h1] at h2'
      cases h2'
    · intro k id; simp [sysCount, mains]
    · intro id; simp [inSys, hm, sysCount, mains]
  | help c j u hm hc hb hj hu ha =>
    have hjq : stAt s.tasks j = some .queued := (Q.q j).1 (by obtain ⟨l', hl⟩ := List.getLast?_eq_some_iff.1 hj; rw [hl]; simp)
    exact I.change rfl rfl rfl (by simp [hm]) (by simp [inSys, hm]) (Upd.modify hjq (by simp)) (Or.inr ⟨UEvent.start u.call u.sys.id, trivial, rfl⟩)
  | flush c hm hc =>
    obtain ⟨e', b', past, C⟩ := I.cur (by rw [hm]; simp)
    have hw := C.waits
    rw [hc] at hw
    refine I.advance hm hc rfl (by rw [hm]; simp) rfl (by simp) I.base hw (fun j u h1 h2 h3 => C.done j u h1 h2 h3) (fun j u h1 h2 => C.mine j u h1 h2) ?_ ?_ ?_ ?_
    · intro k id; simp [sysCount, mains, count_snoc]
    · intro k id; simp [count_snoc]
    · intro id; simp [inSys, hm, sysCount, mains]
    · intro k; simp
  | sysRet d hm =>
    have hlt := call_lt I (by rw [hm]; simp)
    obtain ⟨e, b, past, C⟩ := I.cur (by rw [hm]; simp)
    have n1 : ∀ k id, (s.log ++ [UEvent.mainFinish s.call d.id]).count (UEvent.mainStart k id) = s.log.count (UEvent.mainStart k id) := by
      intro k id; simp [count_snoc]
    have n2 : ∀ k id, (s.log ++ [UEvent.mainFinish s.call d.id]).count (UEvent.mainFinish k id) = s.log.count (UEvent.mainFinish k id) + if s.call = k ∧ d.id = id then 1 else 0 := by
      intro k id; simp only [count_snoc, UEvent.mainFinish.injEq]
    refine ⟨I.base, I.old, fun _ => ?_, fun k hk => ?_, fun k hk hmk => ?_, fun k hk => ?_⟩
    · refine ⟨e, b, past, C.last, C.code, C.waits, C.subs, fun id => (n1 _ id).trans (C.starts id), fun id => ?_, C.done, C.mine, ?_⟩
      · have := C.finishes id
        simp only [inSys, hm] at this
        show (s.log ++ [UEvent.mainFinish s.call d.id]).count (UEvent.mainFinish s.call id) + 0 = _
        rw [n2]
        simpa using this
      · have := C.open_
        constructor
        · show UEvent.returned s.call ∉ s.log ++ [.mainFinish s.call d.id]
          simpa using this.1
        · show UEvent.threw s.call ∉ s.log ++ [.mainFinish s.call d.id]
          simpa using this.2
    · have hk' : s.calls.length ≤ k := hk
      obtain ⟨h1, h2, h3⟩ := I.future k hk
      refine ⟨fun id => ⟨(n1 k id).trans (h1 id).1, ?_⟩, by simpa using h2, by simpa using h3⟩
      rw [n2, (h1 id).2, if_neg (by rintro ⟨h, _⟩; omega)]
    · rcases I.ended k hk (fun h => by cases hmk h) with h1 | h1
      · left; simp [h1]
      · right; simp [h1]
    · have hk' : .returned k ∈ s.log := by simpa using hk
      have hne : ¬ s.call = k := fun h => C.open_.1 (h ▸ hk')
      obtain ⟨x, D⟩ := I.ret k hk'
      exact ⟨x, D.upd rfl (Upd.refl _) (fun id => ⟨n1 k id, by rw [n2, if_neg (by rintro ⟨h, _⟩; exact hne h)]; rfl⟩)⟩
  | helped j u hm hu =>
    exact I.change rfl rfl rfl (by simp [hm]) (by simp [inSys, hm]) (Upd.modify ((Q.m j).1 hm) (by simp)) (Or.inr ⟨UEvent.finish u.call u.sys.id, trivial, rfl⟩)
  | throwSys d al hm _ => exact I.threw (by rw [hm]; simp) rfl rfl rfl (Upd.refl _) rfl
  | throwTask j al hm _ => exact I.threw (by rw [hm]; simp) rfl rfl rfl (Upd.modify ((Q.m j).1 hm) (by simp)) rfl
  | take w j qs u hw hn hq hu ha =>
    have hjq : stAt s.tasks j = some .queued := (Q.q j).1 (by rw [hq]; simp)
    exact I.change rfl rfl rfl Iff.rfl (fun _ => rfl) (Upd.modify hjq (by simp)) (Or.inr ⟨UEvent.start u.call u.sys.id, trivial, rfl⟩)
  | finish w j u hw hu hst =>
    exact I.change rfl rfl rfl Iff.rfl (fun _ => rfl) (Upd.modify (stAt_of hu) (by rw [hst]; simp)) (Or.inr ⟨UEvent.finish u.call u.sys.id, trivial, rfl⟩)
  | terminate => exact I.change rfl rfl rfl Iff.rfl (fun _ => rfl) (Upd.refl _) (Or.inl rfl)

theorem _root_.CoEcs.UReach.kinv (h : UReach prog n s) : KInv prog s := h.induction KInv.init fun _ _ hr I hst => I.step hr.qinv hst

end UState
end CoEcs
