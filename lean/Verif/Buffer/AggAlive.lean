import Verif.Buffer.AggLedger
import Verif.Buffer.NVCorruptProps

/-
When the flush thread of the aggregate buffer drops records, and when it stops.
-/
namespace Verif.Buffer

/-! ### A blocking reservation fails for few reasons -/

theorem takeSpace_fails {K : Crc} {s : NV} {q : PQ} (h : NVSim K s q) (hp : s.producer = some none) {n : Nat}
    (h0 : 0 < n) (hn : n + s.core.xb ≤ s.core.len) {e : Code}
    (he : (s.takeSpace K (s.core.calcNextWriteStart (n + s.core.xb)) n true).2 = .err e) :
    e = .aborted ∧ s.core.shutdown = true := by
  have hqp : q.producer = some none := by
    have := h.producer
    rw [hp] at this
    cases hq : q.producer with
    | none => rw [hq] at this; cases this
    | some x =>
      cases x with
      | none => rfl
      | some _ => rw [hq] at this; cases this
  cases ho : q.overwrite with
  | true =>
    obtain ⟨k, c', hnle, e', _⟩ := h.core.makeRoom hqp h0 hn ho (s.hasRead || s.hasWrite) true
    unfold NV.takeSpace at he
    rw [e'] at he
    cases he
  | false =>
    have hov : s.core.overwrite = false := by rw [h.core.ow]; exact ho
    have key : ∀ c' r, s.core.advanceForWrite (s.hasRead || s.hasWrite)
        (s.core.calcNextWriteStart (n + s.core.xb)) true s.core.advanceFuel = (c', r) →
        ∀ e, r = .err e → e = .aborted ∧ s.core.shutdown = true := by
      intro c' r hr e hre
      subst hre
      rw [show s.core.advanceFuel = 2 * s.core.len + 3 + 1 from rfl] at hr
      unfold Core.advanceForWrite at hr
      cases hnr : s.core.nrs with
      | none => rw [hnr] at hr; simp at hr
      | some m =>
        rw [hnr] at hr
        simp only at hr
        have hl : ∃ sz, s.core.loadSize m = some sz := by
          have hi := h.core.inv
          have h1 := hi.nrs
          rw [hnr] at h1
          cases hU : (q.items.map (Item.range q.hb)) with
          | nil => rw [hU] at h1; cases h1
          | cons r U =>
            rw [hU] at h1
            simp only [List.head?_cons, Option.map_some, Option.some.injEq] at h1
            rw [h1]
            exact ⟨_, hi.loadSize (by rw [hU]; simp)⟩
        obtain ⟨sz, hl⟩ := hl
        rw [hl] at hr
        simp only [hov, Bool.not_false, Bool.not_true, Bool.false_eq_true, if_false, if_true] at hr
        split at hr
        · split at hr
          · rename_i hsd
            simp only [Prod.mk.injEq, Res.err.injEq] at hr
            exact ⟨hr.2.symm, hsd⟩
          · cases hr
        · cases hr
    unfold NV.takeSpace at he
    cases hr : s.core.advanceForWrite (s.hasRead || s.hasWrite)
        (s.core.calcNextWriteStart (n + s.core.xb)) true s.core.advanceFuel with
    | mk c' r =>
      rw [hr] at he
      cases r with
      | ok u => cases he
      | blocked => cases he
      | err e' =>
        simp only [Res.err.injEq] at he
        subst he
        exact key c' _ hr _ rfl

theorem passReader_fails {K : Crc} {s : NV} {q : PQ} (h : NVSim K s q) (hp : s.producer = some none) {n : Nat}
    (h0 : 0 < n) (hn : n + s.core.xb ≤ s.core.len) (hb : s.blockOnRead = true) {e : Code}
    (he : (s.passReader K (s.core.calcNextWriteStart (n + s.core.xb)) n true).2 = .err e) :
    e = .aborted ∧ s.core.shutdown = true := by
  unfold NV.passReader at he
  split at he
  · cases he
  · exact takeSpace_fails h hp h0 hn he

/-- Why a blocking reservation can fail. -/
theorem reserve_fails {K : Crc} {s : NV} {q : PQ} (h : NVSim K s q) (hp : s.producer = some none) {n : Nat}
    (hb : s.blockOnRead = true) {e : Code} (he : (s.reserve K n true).2 = .err e) :
    e ≠ .unavailable ∧ (s.core.shutdown = true ∨ 0 < s.core.lockCount ∨ n = 0 ∨ s.core.len < n + s.core.xb) := by
  have hpend : s.core.pendingReset = false := h.core.inv.pend
  have h32 := h.core.inv.len32
  by_cases h1 : 0 < s.core.lockCount
  · refine ⟨?_, Or.inr (Or.inl h1)⟩
    have : s.core.startReserve n = (s.core.refused n, .error .failedPrecondition) := by
      unfold Core.startReserve; rw [if_pos h1]
    unfold NV.reserve at he
    rw [hp] at he
    simp only [this, Res.err.injEq] at he
    rw [← he]; decide
  by_cases h2 : n = 0 ∨ s.core.len < n + s.core.xb
  · refine ⟨?_, Or.inr (Or.inr h2)⟩
    have : s.core.startReserve n = ({ s.core with stats :=
        { s.core.stats with recordsRefused := s.core.stats.recordsRefused + 1 } }, .error .invalidArgument) := by
      unfold Core.startReserve
      rw [if_neg h1, if_neg (by rw [hpend]; decide), if_pos (by omega)]
    unfold NV.reserve at he
    rw [hp] at he
    simp only [this, Res.err.injEq] at he
    rw [← he]; decide
  · have : s.core.startReserve n = (s.core, .ok (n + s.core.xb)) := by
      unfold Core.startReserve
      rw [if_neg h1, if_neg (by rw [hpend]; decide), if_neg (by omega)]
    unfold NV.reserve at he
    rw [hp] at he
    simp only [this] at he
    have e' : ({ s with core := s.core, producer := some none } : NV) = s := by rw [← hp]
    obtain ⟨a1, a2⟩ := passReader_fails h hp (n := n) (by omega) (by omega) hb (e := e) (by
      rw [← he, e'])
    exact ⟨by rw [a1]; decide, Or.inl a2⟩

theorem resume_fails {K : Crc} {s : NV} {q : PQ} (h : NVSim K s q) {p : Parked} (hk : s.parked = some p)
    (hb : s.blockOnRead = true) (hpb : p.block = true) {e : Code} (he : (s.resume K).2 = .err e) :
    e = .aborted ∧ s.core.shutdown = true := by
  obtain ⟨hp, h0, hn, ht, hov⟩ := h.parked p hk
  unfold NV.resume at he
  rw [hk] at he
  simp only at he
  split at he
  · rename_i hsd
    simp only [Res.err.injEq] at he
    exact ⟨he.symm, hsd⟩
  · split at he
    · rw [ht, hpb] at he
      exact passReader_fails h hp h0 hn hb he
    · rw [ht, hpb] at he
      exact takeSpace_fails h hp h0 hn he

/-! ### What never changes, and why the thread stops -/

theorem takeSpace_fixed (K : Crc) (s : NV) (t : Temp) (n : Nat) (b : Bool) :
    (s.takeSpace K t n b).1.core.fixed = s.core.fixed ∧ (s.takeSpace K t n b).1.blockOnRead = s.blockOnRead := by
  unfold NV.takeSpace
  have hf := fixed_advanceForWrite (s.hasRead || s.hasWrite) t b s.core.advanceFuel s.core
  cases hp' : s.core.advanceForWrite (s.hasRead || s.hasWrite) t b s.core.advanceFuel with
  | mk c r =>
    rw [hp'] at hf
    cases r with
    | ok u => exact ⟨(fixed_applyReservation _ _ _).trans hf, rfl⟩
    | err e =>
      have := same_withCore K s c hf
      exact ⟨this.fixed, this.block⟩
    | blocked => exact ⟨hf, rfl⟩

theorem passReader_fixed (K : Crc) (s : NV) (t : Temp) (n : Nat) (b : Bool) :
    (s.passReader K t n b).1.core.fixed = s.core.fixed ∧ (s.passReader K t n b).1.blockOnRead = s.blockOnRead := by
  unfold NV.passReader
  split
  · split <;> exact ⟨rfl, rfl⟩
  · exact takeSpace_fixed K s t n b

/-- Calls of the flush thread. -/
def NOp.byThread : NOp → Bool
  | .registerProducer | .dropProducer | .reserve .. | .resume | .write .. | .commit => true
  | _ => false

theorem thread_fixed (K : Crc) (s : NV) (op : NOp) (h : op.byThread = true) :
    (s.step K op).1.core.fixed = s.core.fixed ∧ (s.step K op).1.blockOnRead = s.blockOnRead := by
  have hs : (s.step K op).1 = s ∨ (s.step K op).1 = (s.step' K op).1 := by
    unfold NV.step
    split
    · exact Or.inl rfl
    · exact Or.inr rfl
  rcases hs with hs | hs
  · rw [hs]; exact ⟨rfl, rfl⟩
  rw [hs]
  cases op with
  | registerProducer => simp only [NV.step']; split <;> exact ⟨rfl, rfl⟩
  | dropProducer => exact ⟨rfl, rfl⟩
  | reserve n b =>
    show (s.reserve K n b).1.core.fixed = _ ∧ _
    have hf := fixed_startReserve s.core n
    unfold NV.reserve
    simp only [NV.step']
    unfold NV.reserve
    split
    · exact ⟨rfl, rfl⟩
    · exact ⟨rfl, rfl⟩
    · cases hr : s.core.startReserve n with
      | mk c r =>
        rw [hr] at hf
        cases r with
        | error e => exact ⟨hf, rfl⟩
        | ok x =>
          simp only
          obtain ⟨a, b⟩ := passReader_fixed K { s with core := c } (c.calcNextWriteStart x) n b
          exact ⟨a.trans hf, b⟩
  | resume =>
    show (s.resume K).1.core.fixed = _ ∧ (s.resume K).1.blockOnRead = _
    unfold NV.resume
    split
    · exact ⟨rfl, rfl⟩
    · split
      · exact ⟨rfl, rfl⟩
      · split
        · exact passReader_fixed _ _ _ _ _
        · exact takeSpace_fixed _ _ _ _ _
  | write o bs =>
    show (s.write o bs).1.core.fixed = _ ∧ (s.write o bs).1.blockOnRead = _
    unfold NV.write
    split
    · split <;> exact ⟨rfl, rfl⟩
    · exact ⟨rfl, rfl⟩
  | commit =>
    show (s.commit K).1.core.fixed = _ ∧ (s.commit K).1.blockOnRead = _
    unfold NV.commit
    split
    · exact ⟨(fixed_maybeReset _ _).trans (fixed_writeCrc _ _ _ _), rfl⟩
    · exact ⟨rfl, rfl⟩
    · exact ⟨rfl, rfl⟩
  | _ => cases h

theorem Fifo.step_shutdown (f : Fifo) (op : Op) (h : op ≠ .shutdown) : (f.step op).1.shutdown = f.shutdown := by
  cases op with
  | reserve p size =>
    simp only [Fifo.step, Fifo.reserve]
    split
    · rfl
    split
    · rfl
    split
    · rfl
    split <;> rfl
  | write p off bytes => simp only [Fifo.step, Fifo.write]; split <;> rfl
  | commit p => simp only [Fifo.step, Fifo.commit]; split <;> rfl
  | registerConsumer => simp only [Fifo.step]; split <;> rfl
  | dropConsumer => rfl
  | startRead b =>
    simp only [Fifo.step, Fifo.startRead]
    split
    · rfl
    · rfl
    · split <;> rfl
  | finishRead =>
    simp only [Fifo.step, Fifo.finishRead]
    split
    · rfl
    · rfl
    · simp only
  | waitForDrain => simp only [Fifo.step]; split <;> rfl
  | lock => rfl
  | unlock => rfl
  | shutdown => exact absurd rfl h

theorem vol_shutdown {v : Vol} {f : Fifo} {U O : List Slot} (h : Sim v f U O) (op : Op) (hs : op ≠ .shutdown) :
    (v.step op).1.core.shutdown = v.core.shutdown ∧ (v.step op).1.core.len = v.core.len := by
  obtain ⟨U', O', h', _⟩ := h.step op
  exact ⟨by rw [h'.shut, h.shut, f.step_shutdown op hs], by rw [h'.len, h.len, f.step_len op]⟩

/-- Only a shutdown makes the thread leave its loop. -/
structure Sane (vlen nlen xb : Nat) (a : Agg) : Prop where
  block : a.nv.blockOnRead = true
  locks : 0 < a.nv.core.lockCount → a.flag = true
  nlen : a.nv.core.len = nlen
  xb : a.nv.core.xb = xb
  vlen : a.vol.core.len = vlen
  vshut : a.vol.core.shutdown = true → a.flag = true
  nshut : a.nv.core.shutdown = true → a.flag = true

theorem Sane.nv {vlen nlen xb : Nat} {a : Agg} (h : Sane vlen nlen xb a) (K : Crc) (op : NOp) (st : Stage)
    (hf : (a.nv.step K op).1.core.fixed = a.nv.core.fixed ∧ (a.nv.step K op).1.blockOnRead = a.nv.blockOnRead) :
    Sane vlen nlen xb ((a.onNV K op).1.goto st) := by
  obtain ⟨hf, hb⟩ := hf
  simp only [Core.fixed, Prod.mk.injEq] at hf
  obtain ⟨f1, f2, f3, f4, f5⟩ := hf
  exact ⟨hb.trans h.block, fun hs => h.locks (by rw [← f4]; exact hs), f1.trans h.nlen, f2.trans h.xb, h.vlen, h.vshut,
    fun hs => h.nshut (f5.symm.trans hs)⟩

theorem Sane.vol {vlen nlen xb : Nat} {a : Agg} (h : Sane vlen nlen xb a) {f : Fifo} {U O : List Slot}
    (hs : Sim a.vol f U O) (op : Op) (hne : op ≠ .shutdown) (st : Stage) :
    Sane vlen nlen xb ((a.onVol op).1.goto st) := by
  obtain ⟨a1, a2⟩ := vol_shutdown hs op hne
  exact ⟨h.block, h.locks, h.nlen, h.xb, a2.trans h.vlen, fun x => h.vshut (a1.symm.trans x), h.nshut⟩

theorem Sane.goto {vlen nlen xb : Nat} {a : Agg} (h : Sane vlen nlen xb a) (st : Stage) :
    Sane vlen nlen xb (a.goto st) := ⟨h.block, h.locks, h.nlen, h.xb, h.vlen, h.vshut, h.nshut⟩

theorem Sane.thread {vlen nlen xb : Nat} {a : Agg} (h : Sane vlen nlen xb a) {f : Fifo} {U O : List Slot}
    (hs : Sim a.vol f U O) (K : Crc) : Sane vlen nlen xb (a.thread K) := by
  have v : ∀ op st, op ≠ .shutdown → Sane vlen nlen xb ((a.onVol op).1.goto st) :=
    fun op st hne => h.vol hs op hne st
  have n : ∀ op st, op.byThread = true → Sane vlen nlen xb ((a.onNV K op).1.goto st) :=
    fun op st hb => h.nv K op st (thread_fixed K a.nv op hb)
  have fst : ∀ {x : Agg × Out} {b : Agg} {o : Out}, x = (b, o) → b = x.1 := by
    intro x b o e; rw [e]
  unfold Agg.thread
  split
  · split <;> (rename_i e; rw [fst e]; exact v _ _ (by simp))
  · split <;> (rename_i e; rw [fst e]; exact n _ _ rfl)
  · split
    · exact h.goto _
    · split
      · rename_i e; rw [fst e]; exact v _ _ (by simp)
      · rename_i e; rw [fst e]; exact v (.startRead true) a.stage (by simp)
      · rename_i e; rw [fst e]; exact v _ _ (by simp)
  · exact n _ _ rfl
  · exact n _ _ rfl
  · split <;> (rename_i e; rw [fst e]; exact n _ _ rfl)
  · split <;> (rename_i e; rw [fst e]; exact n _ _ rfl)
  · split <;> (rename_i e; rw [fst e]; exact v _ _ (by simp))
  · exact n _ _ rfl
  · exact v _ _ (by simp)
  · exact h
  · exact h

theorem Sane.step {vlen nlen xb : Nat} {a : Agg} (h : Sane vlen nlen xb a) {f : Fifo} {U O : List Slot}
    (hs : Sim a.vol f U O) (K : Crc) (op : AOp) : Sane vlen nlen xb (a.step K op) := by
  cases op with
  | vol op =>
    simp only [Agg.step]
    split
    · rename_i hu
      by_cases hne : op = .shutdown
      · subst hne
        obtain ⟨U', O', h', _⟩ := hs.step .shutdown
        have hl : (a.vol.step .shutdown).1.core.len = a.vol.core.len := by
          rw [h'.len, hs.len, f.step_len]
        exact ⟨h.block, h.locks, h.nlen, h.xb, hl.trans h.vlen, fun _ => hu, h.nshut⟩
      · exact h.vol hs op hne a.stage
    · exact h
  | nv op =>
    simp only [Agg.step]
    split
    · rename_i hu
      rcases user_cases hu with h1 | ⟨rfl, hfl⟩
      · have := same_user K a.nv op h1
        exact h.nv K op a.stage ⟨this.fixed, this.block⟩
      · have e : (a.nv.step K .shutdown).1.core.len = a.nv.core.len ∧
            (a.nv.step K .shutdown).1.core.xb = a.nv.core.xb ∧
            (a.nv.step K .shutdown).1.blockOnRead = a.nv.blockOnRead := by
          simp only [NV.step, NOp.usesProducer, Bool.and_false, Bool.false_eq_true, if_false, NV.step']
          unfold Core.doShutdown
          split <;> exact ⟨rfl, rfl, by trivial⟩
        exact ⟨e.2.2.trans h.block, fun _ => hfl, e.1.trans h.nlen, e.2.1.trans h.xb, h.vlen,
          h.vshut, fun _ => hfl⟩
    · exact h
  | thread => exact h.thread hs K
  | stop => exact ⟨h.block, fun _ => rfl, h.nlen, h.xb, h.vlen, fun _ => rfl, fun _ => rfl⟩

/-- The thread is out of its loop. -/
def Stage.out : Stage → Bool
  | .leaving | .left | .dead => true
  | _ => false

/-- While the disk buffer behaves like a queue, the thread drops nothing; and it does not leave its loop
if every record that fits in memory fits on disk. -/
structure Calm (a : Agg) : Prop where
  drops : a.dropped = 0
  alive : a.vol.core.len + (a.nv.core.xb - 4) ≤ a.nv.core.len → a.stage.out = true → a.flag = true

theorem reserve_calm {K : Crc} {a : Agg} {r : Range} {op : NOp} {x : Res Range} (h : Calm a)
    (heo : (a.nv.step K op).2 = .slice x)
    (hx : ∀ e, x = .err e → e ≠ .unavailable ∧
      (a.vol.core.len + (a.nv.core.xb - 4) ≤ a.nv.core.len → a.flag = true))
    (hop : op.byThread = true) :
    Calm ((a.onNV K op).1.goto (afterReserve r (a.onNV K op).2)) := by
  have eo : (a.onNV K op).2 = .slice x := heo
  have hd := dropped_onNV K a op
  rw [eo] at hd
  have hf := (thread_fixed K a.nv op hop).1
  simp only [Core.fixed, Prod.mk.injEq] at hf
  refine ⟨?_, ?_⟩
  · show (a.onNV K op).1.dropped = 0
    rw [hd, h.drops]
    have : isDrop (op, Out.slice x) = false := by
      cases x with
      | ok _ => cases op <;> rfl
      | blocked => cases op <;> rfl
      | err e => exact isDrop_err op e (hx e rfl).1
    rw [this]; rfl
  · intro hl ho
    have hl : a.vol.core.len + ((a.nv.step K op).1.core.xb - 4) ≤ (a.nv.step K op).1.core.len := hl
    rw [hf.1, hf.2.1] at hl
    rw [eo] at ho
    have ho : (afterReserve r (.slice x)).out = true := ho
    show a.flag = true
    cases x with
    | ok _ => cases ho
    | blocked => cases ho
    | err e => exact (hx e rfl).2 hl

theorem Calm.keep {a b : Agg} (h : Calm a) (hs : Sane a.vol.core.len a.nv.core.len a.nv.core.xb b)
    (h1 : b.dropped = a.dropped) (h2 : b.stage.out = true → a.stage.out = true ∨ b.flag = true)
    (h3 : a.flag = true → b.flag = true) : Calm b := by
  refine ⟨h1.trans h.drops, ?_⟩
  rw [hs.vlen, hs.nlen, hs.xb]
  intro hl ho
  rcases h2 ho with h4 | h4
  · exact h3 (h.alive hl h4)
  · exact h4

theorem Calm.thread {K : Crc} {len : Nat} {mem : Mem} {s0 : NV} {a : Agg} (hi : AInv K len mem s0 a)
    (hlen : len < 2 ^ 32) {vlen nlen xb : Nat} (hs : Sane vlen nlen xb a) (h : Calm a) {q : PQ}
    (hq : NVSim K a.nv q) : Calm (a.thread K) := by
  obtain ⟨f, U, O, hsim⟩ := hi.sim hlen
  have hsane : Sane a.vol.core.len a.nv.core.len a.nv.core.xb (a.thread K) := by
    have := hs.thread hsim K
    rw [hs.vlen, hs.nlen, hs.xb]; exact this
  have hflag : (a.thread K).flag = a.flag := by
    unfold Agg.thread
    have fst : ∀ {x : Agg × Out} {b : Agg} {o : Out}, x = (b, o) → b = x.1 := by
      intro x b o e; rw [e]
    (repeat' split) <;> first | rfl | (rename_i e; rw [fst e]; rfl)
  have hv : ∀ op, (a.onVol op).1.dropped = a.dropped := fun _ => rfl
  have hk := hi.ok
  cases hst : a.stage with
  | spawned =>
    have e := hi.thread hlen
    refine h.keep hsane ?_ ?_ (fun x => hflag.trans x)
    · unfold Agg.thread; rw [hst]; simp only
      split <;> (rename_i e; have := congrArg (fun x => x.1.dropped) e; exact this.symm.trans (hv _))
    · unfold Agg.thread; rw [hst]; simp only
      split <;> (intro x; cases x)
  | registered =>
    refine h.keep hsane ?_ ?_ (fun x => hflag.trans x)
    · have hd := dropped_onNV K a .registerProducer
      unfold Agg.thread; rw [hst]; simp only
      split <;> (rename_i e; have := congrArg (fun x => x.1.dropped) e; exact this.symm.trans hd)
    · unfold Agg.thread; rw [hst]; simp only
      split <;> (intro x; cases x)
  | loop =>
    refine h.keep hsane ?_ ?_ (fun x => hflag.trans x)
    · unfold Agg.thread; rw [hst]; simp only
      split
      · rfl
      · split <;> (rename_i e; have := congrArg (fun x => x.1.dropped) e; exact this.symm.trans (hv _))
    · rw [hst] at hk
      obtain ⟨s1, s2, ⟨r, s3⟩, s4⟩ := startRead_held hsim hk.1.2 true
      rw [hflag]
      intro ho
      right
      by_cases hfl : a.flag = true
      · exact hfl
      exfalso
      apply hfl
      have e2 : a.onVol (.startRead true) = ((a.onVol (.startRead true)).1, .record r) := by
        have : (a.onVol (.startRead true)).2 = .record r := s3
        rw [← this]
      unfold Agg.thread at ho
      rw [hst] at ho
      simp only at ho
      rw [if_neg hfl, e2] at ho
      cases r with
      | ok x => cases ho
      | blocked =>
        simp only at ho
        have ho : a.stage.out = true := ho
        rw [hst] at ho
        cases ho
      | err e => exact hs.vshut (s2 e s3)
  | «have» r =>
    rw [hst] at hk
    obtain ⟨bs, hb, ⟨a3, a4, a5⟩, a6⟩ := hk
    have et : a.thread K = (a.onNV K (.reserve r.size true)).1.goto
        (afterReserve r (a.onNV K (.reserve r.size true)).2) := by
      unfold Agg.thread; rw [hst]
    rw [et]
    have e := nv_step_free K a.nv (.reserve r.size true) a4
    have e2 : (a.nv.step K (.reserve r.size true)).2 = .slice (a.nv.reserve K r.size true).2 := by rw [e]; rfl
    refine reserve_calm h e2 ?_ rfl
    intro c hc
    obtain ⟨b1, b2⟩ := reserve_fails hq a3 hs.block hc
    refine ⟨b1, fun hl => ?_⟩
    have hsz := hb.2.size
    rcases b2 with b2 | b2 | b2 | b2
    · exact hs.nshut b2
    · exact hs.locks b2
    · omega
    · have := hq.core.inv.xb4
      omega
  | asleep r =>
    rw [hst] at hk
    obtain ⟨bs, hb, a3, a4, ⟨p, a5, a6, a7, a8⟩, a9⟩ := hk
    have et : a.thread K = (a.onNV K .resume).1.goto (afterReserve r (a.onNV K .resume).2) := by
      unfold Agg.thread; rw [hst]
    rw [et]
    have e2 : (a.nv.step K .resume).2 = .slice (a.nv.resume K).2 := by
      simp only [NV.step, NOp.usesProducer, Bool.and_false, Bool.false_eq_true, if_false]; rfl
    refine reserve_calm h e2 ?_ rfl
    intro c hc
    obtain ⟨b1, b2⟩ := resume_fails hq a5 hs.block a8 hc
    exact ⟨by rw [b1]; decide, fun _ => hs.nshut b2⟩
  | filling r =>
    refine h.keep hsane ?_ ?_ (fun x => hflag.trans x)
    · have hd := dropped_onNV K a (.write 0 (readMem a.vol.core.mem r.start r.size))
      unfold Agg.thread; rw [hst]; simp only
      split <;> (rename_i e; have := congrArg (fun x => x.1.dropped) e; exact this.symm.trans hd)
    · unfold Agg.thread; rw [hst]; simp only
      split <;> (intro x; cases x)
  | filled r =>
    refine h.keep hsane ?_ ?_ (fun x => hflag.trans x)
    · have hd := dropped_onNV K a .commit
      unfold Agg.thread; rw [hst]; simp only
      split <;> (rename_i e; have := congrArg (fun x => x.1.dropped) e; exact this.symm.trans hd)
    · unfold Agg.thread; rw [hst]; simp only
      split <;> (intro x; cases x)
  | finishing r =>
    refine h.keep hsane ?_ ?_ (fun x => hflag.trans x)
    · unfold Agg.thread; rw [hst]; simp only
      split <;> (rename_i e; have := congrArg (fun x => x.1.dropped) e; exact this.symm.trans (hv _))
    · unfold Agg.thread; rw [hst]; simp only
      split <;> (intro x; cases x)
  | leaving =>
    refine h.keep hsane ?_ (fun _ => Or.inl (by rw [hst]; rfl)) (fun x => hflag.trans x)
    unfold Agg.thread; rw [hst]
    exact dropped_onNV K a .dropProducer
  | left =>
    refine h.keep hsane ?_ (fun _ => Or.inl (by rw [hst]; rfl)) (fun x => hflag.trans x)
    unfold Agg.thread; rw [hst]
    rfl
  | dead =>
    have : a.thread K = a := by unfold Agg.thread; rw [hst]
    rw [this]; exact h
  | panicked =>
    have : a.thread K = a := by unfold Agg.thread; rw [hst]
    rw [this]; exact h

theorem Calm.step {K : Crc} {len : Nat} {mem : Mem} {s0 : NV} {a : Agg} (hi : AInv K len mem s0 a)
    (hlen : len < 2 ^ 32) {vlen nlen xb : Nat} (hs : Sane vlen nlen xb a) (h : Calm a) {q : PQ}
    (hq : NVSim K a.nv q) (op : AOp) : Calm (a.step K op) := by
  obtain ⟨f, U, O, hsim⟩ := hi.sim hlen
  have hsane : Sane a.vol.core.len a.nv.core.len a.nv.core.xb (a.step K op) := by
    have := hs.step hsim K op
    rw [hs.vlen, hs.nlen, hs.xb]; exact this
  cases op with
  | vol op =>
    refine h.keep hsane ?_ ?_ ?_ <;> (simp only [Agg.step]; split)
    · rfl
    · rfl
    · exact Or.inl
    · exact Or.inl
    · exact id
    · exact id
  | nv op =>
    refine h.keep hsane ?_ ?_ ?_ <;> (simp only [Agg.step]; split)
    · rename_i hu
      rw [dropped_onNV, isDrop_user hu]; rfl
    · rfl
    · exact Or.inl
    · exact Or.inl
    · exact id
    · exact id
  | thread => exact Calm.thread hi hlen hs h hq
  | stop => exact ⟨h.drops, fun _ _ => rfl⟩

/-- Calm as long as the disk buffer behaves like a queue; `P` is a condition on the calls made so far that
guarantees this. -/
theorem Calm.run {K : Crc} {len : Nat} {mem : Mem} {s0 : NV} (hlen : len < 2 ^ 32) {vlen nlen xb : Nat}
    (P : List NOp → Prop) (hpre : ∀ l l', P (l ++ l') → P l)
    (hP : ∀ l, P l → ∃ q, NVSim K (s0.run K l).1 q) (ops : List AOp) :
    ∀ {a : Agg}, AInv K len mem s0 a → Sane vlen nlen xb a → Calm a → P ((a.run K ops).nlog.map (·.1)) →
      Sane vlen nlen xb (a.run K ops) ∧ Calm (a.run K ops) := by
  induction ops with
  | nil => intro a _ hs h _; exact ⟨hs, h⟩
  | cons op ops ih =>
    intro a hi hs h hp
    obtain ⟨f, U, O, hsim⟩ := hi.sim hlen
    have hp0 : P (a.nlog.map (·.1)) := by
      obtain ⟨_, ⟨L, hL⟩⟩ := run_grows K (op :: ops) a
      rw [hL, List.map_append] at hp
      exact hpre _ _ hp
    obtain ⟨q, hq⟩ := hP _ hp0
    rw [hi.log.nv] at hq
    exact ih (hi.step hlen op) (hs.step hsim K op) (Calm.step hi hlen hs h hq op) hp

/-! ### Histories -/

theorem trace_logs (l l' : List (Op × Out)) : ∀ t : Trace,
    t.run ((l ++ l').map (·.1)) ((l ++ l').map (·.2)) =
      (t.run (l.map (·.1)) (l.map (·.2))).run (l'.map (·.1)) (l'.map (·.2)) := by
  induction l with
  | nil => intro t; rfl
  | cons x l ih => intro t; exact ih _

theorem trace_step_grants (t : Trace) (op : Op) (o : Out) : t.grants.length ≤ (t.step op o).grants.length := by
  unfold Trace.step
  split <;> simp

theorem trace_run_grants (l : List (Op × Out)) : ∀ t : Trace,
    t.grants.length ≤ (t.run (l.map (·.1)) (l.map (·.2))).grants.length := by
  induction l with
  | nil => intro t; exact Nat.le_refl _
  | cons x l ih => intro t; exact Nat.le_trans (trace_step_grants t x.1 x.2) (ih _)

theorem grants_grow (K : Crc) (a : Agg) (ops : List AOp) :
    a.seen.grants.length ≤ (a.run K ops).seen.grants.length := by
  obtain ⟨⟨L, hL⟩, _⟩ := run_grows K ops a
  unfold Agg.seen
  rw [hL, trace_logs]
  exact trace_run_grants L _

theorem ntrace_calm (crc : Bool) (ops : List NOp) : ∀ (os : List Out) (t : NTrace),
    (t.run crc ops os).calm = true → t.calm = true := by
  induction ops with
  | nil => intro os t hc; cases os <;> exact hc
  | cons op ops ih =>
    intro os t hc
    cases os with
    | nil => exact hc
    | cons o os =>
      have := ih os _ hc
      revert this
      unfold NTrace.step
      split <;> simp +contextual

theorem nv_run_length (K : Crc) (ops : List NOp) : ∀ s : NV, (s.run K ops).2.length = ops.length := by
  induction ops with
  | nil => intro s; rfl
  | cons op ops ih => intro s; exact congrArg (· + 1) (ih _)

theorem ntrace_append (K : Crc) (crc : Bool) (a b : List NOp) : ∀ (s : NV) (t : NTrace),
    t.run crc (a ++ b) (s.run K (a ++ b)).2 =
      (t.run crc a (s.run K a).2).run crc b ((s.run K a).1.run K b).2 := by
  induction a with
  | nil => intro s t; rfl
  | cons x a ih => intro s t; exact ih _ _

theorem noZero_prefix {K : Crc} (a b : List NOp) : ∀ {s : NV}, NoZero K s (a ++ b) → NoZero K s a := by
  induction a with
  | nil => intro s _; trivial
  | cons x a ih => intro s h; exact ⟨h.1, ih h.2⟩

end Verif.Buffer
