import Verif.Buffer.Aggregate
import Verif.Buffer.Drain
import Verif.Buffer.NVStep2

/-
What calls on the two buffers leave alone, for the aggregate buffer.  Helper lemmas only.
-/
namespace Verif.Buffer

/-! ### Persistent buffer: what never changes -/

/-- The parts of `Core` that only `shutdown`, `lock` and `unlock` change. -/
def Core.fixed (c : Core) : Nat × Nat × Bool × Nat × Bool :=
  (c.len, c.xb, c.overwrite, c.lockCount, c.shutdown)

theorem fixed_advanceRead (c : Core) (n : Nat) : (c.advanceRead n).fixed = c.fixed := by
  unfold Core.advanceRead
  split
  · split
    · split <;> rfl
    · rfl
  · rfl

theorem fixed_advanceCursor (c : Core) (n : Nat) : (c.advanceCursor n).fixed = c.fixed := by
  unfold Core.advanceCursor
  split
  · split
    · split <;> rfl
    · rfl
  · rfl

theorem fixed_onLoss (c : Core) (b : Bool) : (c.onTotalDataLoss b).fixed = c.fixed := by
  unfold Core.onTotalDataLoss
  simp only
  split <;> rfl

theorem fixed_maybeReset (c : Core) (b : Bool) : (c.maybeReset b).fixed = c.fixed := by
  unfold Core.maybeReset
  split <;> rfl

theorem fixed_advanceForWrite (busy : Bool) (t : Temp) (block : Bool) (fuel : Nat) : ∀ (c : Core),
    (c.advanceForWrite busy t block fuel).1.fixed = c.fixed := by
  induction fuel with
  | zero => intro c; rfl
  | succ fuel ih =>
    intro c
    unfold Core.advanceForWrite
    split
    · rfl
    · split
      · show (c.onTotalDataLoss busy).fixed = _
        exact fixed_onLoss c busy
      · split
        · split
          · split
            · rfl
            · split <;> rfl
          · refine (ih _).trans ?_
            exact (fixed_advanceRead _ _).trans rfl
        · rfl

theorem fixed_finishReservation (c : Core) (a b : Nat) : (c.finishReservation a b).fixed = c.fixed := by
  unfold Core.finishReservation
  simp only
  split
  · split <;> rfl
  · rfl

theorem fixed_applyReservation (c : Core) (t : Temp) (n : Nat) : (c.applyReservation t n).fixed = c.fixed := by
  unfold Core.applyReservation
  exact fixed_finishReservation _ _ _

theorem fixed_startReserve (c : Core) (n : Nat) : (c.startReserve n).1.fixed = c.fixed := by
  unfold Core.startReserve
  split
  · rfl
  · split
    · rfl
    · split <;> rfl

theorem fixed_startRead (c : Core) (busy block : Bool) (r : Option Range) :
    (c.startRead busy block r).1.fixed = c.fixed := by
  unfold Core.startRead
  split
  · rfl
  · split
    · rfl
    · simp only
      split
      · split
        · split <;> rfl
        · rfl
      · split
        · rfl
        · have := fixed_onLoss c busy
          split
          · exact this
          · split
            · split <;> exact this
            · exact this

theorem fixed_startReadCursor (c : Core) (busy block : Bool) :
    (c.startReadCursor busy block).1.fixed = c.fixed := by
  unfold Core.startReadCursor
  split
  · rfl
  · simp only
    split
    · split
      · split <;> rfl
      · rfl
    · split
      · exact fixed_advanceCursor _ _
      · have := fixed_onLoss c busy
        split
        · exact this
        · split
          · split <;> exact this
          · exact this

theorem fixed_finishRead (c : Core) (busy : Bool) (r : Range) : (c.finishRead busy r).1.fixed = c.fixed := by
  unfold Core.finishRead
  simp only
  have key : ∀ (w : Bool) (c : Core), (if w then { c with drain := none } else c).fixed = c.fixed := by
    intro w c; cases w <;> rfl
  rw [fixed_maybeReset]
  exact (key _ _).trans (fixed_advanceRead _ _)

theorem fixed_writeCrc (K : Crc) (c : Core) (b : Bool) (r : Range) : (c.writeCrc K b r).fixed = c.fixed := by
  unfold Core.writeCrc
  split <;> rfl

/-- Nothing but the consumer and the contents changed. -/
structure NV.Same (s s' : NV) : Prop where
  crc : s'.crc = s.crc
  block : s'.blockOnRead = s.blockOnRead
  fixed : s'.core.fixed = s.core.fixed
  producer : s'.producer = s.producer
  parked : s'.parked = s.parked

theorem NV.Same.refl (s : NV) : s.Same s := ⟨rfl, rfl, rfl, rfl, rfl⟩

theorem NV.Same.trans {a b c : NV} (h : a.Same b) (h' : b.Same c) : a.Same c :=
  ⟨h'.1.trans h.1, h'.2.trans h.2, h'.3.trans h.3, h'.4.trans h.4, h'.5.trans h.5⟩

theorem same_withCore (K : Crc) (s : NV) (c : Core) (h : c.fixed = s.core.fixed) : s.Same (s.withCore K c) := by
  unfold NV.withCore
  split <;> exact ⟨rfl, rfl, h, rfl, rfl⟩

theorem same_plainLoop (K : Crc) (block : Bool) (fuel : Nat) : ∀ s : NV,
    s.Same (s.plainLoop K block fuel).1 := by
  induction fuel with
  | zero => intro s; exact ⟨rfl, rfl, rfl, rfl, rfl⟩
  | succ fuel ih =>
    intro s
    unfold NV.plainLoop
    have hf := fixed_startRead s.core s.hasWrite block none
    cases hp : s.core.startRead s.hasWrite block none with
    | mk c r =>
      rw [hp] at hf
      cases r with
      | ok r =>
        simp only
        split
        · split
          · exact ⟨rfl, rfl, hf, rfl, rfl⟩
          · refine NV.Same.trans ?_ (ih _)
            refine ⟨rfl, rfl, ?_, rfl, rfl⟩
            exact (fixed_finishRead _ _ _).trans hf
        · exact ⟨rfl, rfl, hf, rfl, rfl⟩
      | err e => exact same_withCore K s c hf
      | blocked => exact same_withCore K s c hf

theorem same_cursorLoop (K : Crc) (rs : List Range) (block : Bool) (fuel : Nat) : ∀ s : NV,
    s.Same (s.cursorLoop K rs block fuel).1 := by
  induction fuel with
  | zero => intro s; exact ⟨rfl, rfl, rfl, rfl, rfl⟩
  | succ fuel ih =>
    intro s
    unfold NV.cursorLoop
    have hf := fixed_startReadCursor s.core (s.hasRead || s.hasWrite) block
    cases hp : s.core.startReadCursor (s.hasRead || s.hasWrite) block with
    | mk c r =>
      rw [hp] at hf
      cases r with
      | ok r =>
        simp only
        split
        · refine NV.Same.trans ?_ (ih _)
          exact ⟨rfl, rfl, hf, rfl, rfl⟩
        · exact ⟨rfl, rfl, hf, rfl, rfl⟩
      | err e => exact same_withCore K s c hf
      | blocked => exact same_withCore K s c hf

/-- Users of the aggregate buffer do not touch the producer. -/
theorem same_user (K : Crc) (s : NV) (op : NOp) (h : op.byUser false = true) : s.Same (s.step K op).1 := by
  cases op with
  | registerConsumer =>
    simp only [NV.step, NOp.usesProducer, Bool.and_false, Bool.false_eq_true, if_false, NV.step']
    split <;> exact ⟨rfl, rfl, rfl, rfl, rfl⟩
  | registerCursor =>
    simp only [NV.step, NOp.usesProducer, Bool.and_false, Bool.false_eq_true, if_false, NV.step']
    split
    · exact ⟨rfl, rfl, rfl, rfl, rfl⟩
    · split <;> exact ⟨rfl, rfl, rfl, rfl, rfl⟩
  | dropConsumer =>
    simp only [NV.step, NOp.usesProducer, Bool.and_false, Bool.false_eq_true, if_false, NV.step']
    exact ⟨rfl, rfl, rfl, rfl, rfl⟩
  | startRead b =>
    simp only [NV.step, NOp.usesProducer, Bool.and_false, Bool.false_eq_true, if_false, NV.step']
    unfold NV.startRead
    split
    · have := same_plainLoop K b s.core.advanceFuel s
      cases hp : s.plainLoop K b s.core.advanceFuel with
      | mk s' r => rw [hp] at this; cases r <;> exact this
    · exact NV.Same.refl _
    · exact NV.Same.refl _
  | finishRead =>
    simp only [NV.step, NOp.usesProducer, Bool.and_false, Bool.false_eq_true, if_false, NV.step']
    unfold NV.finishRead
    split
    · exact ⟨rfl, rfl, fixed_finishRead _ _ _, rfl, rfl⟩
    · exact NV.Same.refl _
    · exact NV.Same.refl _
  | cursorRead b =>
    simp only [NV.step, NOp.usesProducer, Bool.and_false, Bool.false_eq_true, if_false, NV.step']
    unfold NV.cursorRead
    split
    · rename_i rs _
      have := same_cursorLoop K rs b s.core.advanceFuel s
      cases hp : s.cursorLoop K rs b s.core.advanceFuel with
      | mk s' r => rw [hp] at this; cases r <;> exact this
    · exact NV.Same.refl _
  | ack =>
    simp only [NV.step, NOp.usesProducer, Bool.and_false, Bool.false_eq_true, if_false, NV.step']
    unfold NV.ack
    split
    · exact ⟨rfl, rfl, fixed_finishRead _ _ _, rfl, rfl⟩
    · exact NV.Same.refl _
  | waitForDrain =>
    simp only [NV.step, NOp.usesProducer, Bool.and_false, Bool.false_eq_true, if_false, NV.step']
    unfold Core.waitForDrain
    split <;> exact ⟨rfl, rfl, rfl, rfl, rfl⟩
  | alter a b =>
    simp only [NV.step, NOp.usesProducer, Bool.and_false, Bool.false_eq_true, if_false, NV.step']
    exact ⟨rfl, rfl, rfl, rfl, rfl⟩
  | registerProducer => cases h
  | dropProducer => cases h
  | reserve _ _ => cases h
  | resume => cases h
  | write _ _ => cases h
  | commit => cases h
  | lock => cases h
  | unlock => cases h
  | shutdown => cases h
  | restart => cases h

theorem user_cases {op : NOp} {flag : Bool} (h : op.byUser flag = true) :
    op.byUser false = true ∨ (op = .shutdown ∧ flag = true) := by
  cases op <;> simp_all [NOp.byUser]

/-! ### Persistent buffer: the calls of the flush thread -/

/-- The outcome of a `reserve` for `n` bytes. -/
structure Outcome (s s' : NV) (n : Nat) (r : Res Range) : Prop where
  crc : s'.crc = s.crc
  block : s'.blockOnRead = s.blockOnRead
  fixed : s'.core.fixed = s.core.fixed
  ok : ∀ x, r = .ok x → x.size = n ∧ s'.parked = none ∧
    ∃ R, s'.producer = some (some R) ∧ R.size = n + s.core.xb
  err : ∀ e, r = .err e → s'.producer = some none ∧ s'.parked = none
  blocked : r = .blocked → s'.producer = some none ∧
    ∃ p, s'.parked = some p ∧ p.size = n ∧ p.t.range.size = n + s.core.xb ∧ p.block = true

theorem outcome_takeSpace (K : Crc) (s : NV) (t : Temp) (n : Nat) (hp : s.producer = some none)
    (ht : t.range.size = n + s.core.xb) :
    Outcome s (s.takeSpace K t n true).1 n (s.takeSpace K t n true).2 := by
  unfold NV.takeSpace
  have hf := fixed_advanceForWrite (s.hasRead || s.hasWrite) t true s.core.advanceFuel s.core
  cases hp' : s.core.advanceForWrite (s.hasRead || s.hasWrite) t true s.core.advanceFuel with
  | mk c r =>
    rw [hp'] at hf
    cases r with
    | ok u =>
      refine ⟨rfl, rfl, (fixed_applyReservation _ _ _).trans hf, ?_, ?_, ?_⟩
      · intro x hx
        simp only [Res.ok.injEq] at hx
        subst hx
        exact ⟨rfl, rfl, t.range, rfl, ht⟩
      · intro e he; cases he
      · intro he; cases he
    | err e =>
      have := same_withCore K s c hf
      refine ⟨this.crc, this.block, this.fixed, (fun x hx => by cases hx), ?_, (fun h => by cases h)⟩
      intro _ _
      exact ⟨this.producer.trans hp, rfl⟩
    | blocked =>
      refine ⟨rfl, rfl, hf, (fun x hx => by cases hx), (fun e h => by cases h), ?_⟩
      intro _
      exact ⟨hp, _, rfl, rfl, ht, rfl⟩

theorem outcome_passReader (K : Crc) (s : NV) (t : Temp) (n : Nat) (hp : s.producer = some none)
    (ht : t.range.size = n + s.core.xb) :
    Outcome s (s.passReader K t n true).1 n (s.passReader K t n true).2 := by
  unfold NV.passReader
  split
  · split
    · refine ⟨rfl, rfl, rfl, (fun x hx => by cases hx), (fun e h => by cases h), ?_⟩
      intro _
      exact ⟨hp, _, rfl, rfl, ht, rfl⟩
    · refine ⟨rfl, rfl, rfl, (fun x hx => by cases hx), ?_, (fun h => by cases h)⟩
      intro _ _
      exact ⟨hp, rfl⟩
  · exact outcome_takeSpace K s t n hp ht

theorem calcNext_size (c : Core) (n : Nat) : (c.calcNextWriteStart n).range.size = n := by
  unfold Core.calcNextWriteStart
  split <;> rfl

theorem fixed_xb {c c' : Core} (h : c.fixed = c'.fixed) : c.xb = c'.xb := by
  simp only [Core.fixed, Prod.mk.injEq] at h; exact h.2.1

theorem Outcome.base {s s1 s' : NV} {n : Nat} {r : Res Range} (h : Outcome s1 s' n r)
    (h1 : s1.crc = s.crc) (h2 : s1.blockOnRead = s.blockOnRead) (h3 : s1.core.fixed = s.core.fixed) :
    Outcome s s' n r := by
  have hx := fixed_xb h3
  obtain ⟨a, b, c, d, e, f⟩ := h
  rw [hx] at d f
  exact ⟨a.trans h1, b.trans h2, c.trans h3, d, e, f⟩

theorem outcome_reserve (K : Crc) (s : NV) (n : Nat) (hp : s.producer = some none) (hk : s.parked = none) :
    Outcome s (s.reserve K n true).1 n (s.reserve K n true).2 := by
  have hf := fixed_startReserve s.core n
  cases hr : s.core.startReserve n with
  | mk c r =>
    rw [hr] at hf
    cases r with
    | error e =>
      have e : s.reserve K n true = ({ s with core := c }, .err e) := by
        unfold NV.reserve
        rw [hp, hr]
      rw [e]
      refine ⟨rfl, rfl, hf, (fun x hx => by cases hx), ?_, (fun h => by cases h)⟩
      intro _ _
      exact ⟨hp, hk⟩
    | ok a =>
      have ha : a = n + s.core.xb := by
        unfold Core.startReserve at hr
        split at hr
        · cases hr
        · split at hr
          · cases hr
          · split at hr
            · cases hr
            · cases hr; rfl
      subst ha
      have e : s.reserve K n true =
          ({ s with core := c }).passReader K (c.calcNextWriteStart (n + s.core.xb)) n true := by
        unfold NV.reserve
        rw [hp, hr]
      rw [e]
      have hx : c.xb = s.core.xb := fixed_xb hf
      exact (outcome_passReader K { s with core := c } (c.calcNextWriteStart (n + s.core.xb)) n hp
        (by rw [calcNext_size]; show _ = n + c.xb; rw [hx])).base rfl rfl hf

theorem outcome_resume (K : Crc) (s : NV) (n : Nat) (hp : s.producer = some none) {p : Parked}
    (hk : s.parked = some p) (h1 : p.size = n) (h2 : p.t.range.size = n + s.core.xb) (h3 : p.block = true) :
    Outcome s (s.resume K).1 n (s.resume K).2 := by
  unfold NV.resume
  rw [hk]
  simp only
  rw [h1, h3]
  split
  · refine ⟨rfl, rfl, rfl, (fun x hx => by cases hx), ?_, (fun h => by cases h)⟩
    intro _ _
    exact ⟨hp, rfl⟩
  · split
    · exact outcome_passReader K s p.t n hp h2
    · exact outcome_takeSpace K s p.t n hp h2

/-! ### Volatile buffer -/

/-- Users of the aggregate buffer do not touch the consumer of the volatile buffer. -/
theorem user_consumer (v : Vol) (op : Op) (flag : Bool) (h : op.byUser flag = true) :
    (v.step op).1.consumer = v.consumer := by
  cases op with
  | reserve p n =>
    show (v.reserve p n).1.consumer = _
    unfold Vol.reserve
    split
    · rfl
    · split
      · rfl
      · simp only
        split
        · rfl
        · split
          · rfl
          · split <;> rfl
  | write p o b =>
    show (v.write p o b).1.consumer = _
    unfold Vol.write
    split
    · rfl
    · split <;> rfl
  | commit p =>
    show (v.commit p).1.consumer = _
    unfold Vol.commit
    split <;> rfl
  | waitForDrain => rfl
  | lock => rfl
  | unlock => rfl
  | shutdown => rfl
  | registerConsumer => cases h
  | dropConsumer => cases h
  | startRead _ => cases h
  | finishRead => cases h

/-- The consumer holds the record `bs` at `r`. -/
def Held (v : Vol) (r : Range) (bs : List UInt8) : Prop :=
  ∃ f U O s, Sim v f U O ∧ f.consumer = some true ∧ f.slots.head? = some s ∧ s.committed = true ∧
    r = ⟨s.start + 4, s.size⟩ ∧ s.data = bs.map some

theorem head_stays {f : Fifo} {s : Slot} (hc : f.consumer = some true) (hh : f.slots.head? = some s)
    (hs : s.committed = true) (op : Op) {flag : Bool} (h : op.byUser flag = true) :
    (f.step op).1.consumer = some true ∧ (f.step op).1.slots.head? = some s := by
  cases hsl : f.slots with
  | nil => rw [hsl] at hh; cases hh
  | cons a l =>
    obtain rfl : a = s := by rw [hsl] at hh; simpa using hh
    cases op with
    | reserve p n =>
      show (f.reserve p n).1.consumer = _ ∧ (f.reserve p n).1.slots.head? = _
      unfold Fifo.reserve
      simp only
      split
      · exact ⟨hc, hh⟩
      split
      · exact ⟨hc, hh⟩
      split
      · exact ⟨hc, hh⟩
      split
      · exact ⟨hc, hh⟩
      rename_i hn
      refine ⟨hc, ?_⟩
      have hw : f.inTheWay (n + headerBytes) a = false := by
        cases hw : f.inTheWay (n + headerBytes) a with
        | false => rfl
        | true =>
          exfalso; apply hn
          rw [List.any_eq_true]
          refine ⟨a, by rw [hsl]; simp, ?_⟩
          simp [hw, Fifo.pinned, Fifo.isRead, hc, hh]
      show (f.slots.filter _ ++ _).head? = _
      rw [hsl, List.filter_cons, if_pos (by simp [hw])]
      rfl
    | write p o b =>
      show (f.write p o b).1.consumer = _ ∧ (f.write p o b).1.slots.head? = _
      unfold Fifo.write
      split
      · refine ⟨hc, ?_⟩
        show (f.slots.map _).head? = _
        rw [hsl]
        simp [hs]
      · exact ⟨hc, hh⟩
    | commit p =>
      show (f.commit p).1.consumer = _ ∧ (f.commit p).1.slots.head? = _
      unfold Fifo.commit
      split
      · refine ⟨hc, ?_⟩
        show (f.slots.map _).head? = _
        rw [hsl]
        simp [hs]
      · exact ⟨hc, hh⟩
    | waitForDrain =>
      simp only [Fifo.step]
      split <;> exact ⟨hc, hh⟩
    | lock => exact ⟨hc, hh⟩
    | unlock => exact ⟨hc, hh⟩
    | shutdown =>
      simp only [Fifo.step]
      split <;> exact ⟨hc, hh⟩
    | registerConsumer => cases h
    | dropConsumer => cases h
    | startRead _ => cases h
    | finishRead => cases h

theorem Held.user {v : Vol} {r : Range} {bs : List UInt8} (h : Held v r bs) (op : Op) {flag : Bool}
    (hu : op.byUser flag = true) : Held (v.step op).1 r bs := by
  obtain ⟨f, U, O, s, h1, h2, h3, h4, h5, h6⟩ := h
  obtain ⟨U', O', h1', _⟩ := h1.step op
  obtain ⟨a, b⟩ := head_stays h2 h3 h4 op hu
  exact ⟨_, U', O', s, h1', a, b, h4, h5, h6⟩

theorem Held.bytes {v : Vol} {r : Range} {bs : List UInt8} (h : Held v r bs) :
    readMem v.core.mem r.start r.size = bs ∧ r.size = bs.length := by
  obtain ⟨f, U, O, s, h1, h2, h3, h4, rfl, h6⟩ := h
  have hs : s ∈ U ++ O := by rw [← h1.slots]; exact List.mem_of_head? h3
  have hd := h1.data s hs
  have hl : s.size = bs.length := by rw [← hd.2.1, h6, List.length_map]
  refine ⟨?_, hl⟩
  apply List.ext_getElem?
  intro i
  by_cases hi : i < s.size
  · rw [readMem_getElem? _ _ _ _ hi]
    have : s.data[i]? = some (some (bs[i]'(by omega))) := by
      rw [h6, List.getElem?_map, List.getElem?_eq_getElem (by omega)]; rfl
    rw [hd.2.2 i _ this, List.getElem?_eq_getElem (by omega)]
  · rw [List.getElem?_eq_none (by rw [readMem_length]; exact Nat.le_of_not_lt hi), List.getElem?_eq_none (by omega)]

theorem mem_takeWhile_true {α : Type} {p : α → Bool} {l : List α} {a : α} (h : a ∈ l.takeWhile p) :
    p a = true := by
  induction l with
  | nil => simp at h
  | cons b l ih =>
    rw [List.takeWhile_cons] at h
    split at h
    · rcases List.mem_cons.1 h with rfl | h
      · assumption
      · exact ih h
    · simp at h

/-- Sizes of the record held. -/
theorem Held.size {v : Vol} {r : Range} {bs : List UInt8} (h : Held v r bs) :
    0 < r.size ∧ r.size + 4 ≤ v.core.len := by
  obtain ⟨f, U, O, s, h1, h2, h3, h4, rfl, h6⟩ := h
  have hs : s ∈ U ++ O := by rw [← h1.slots]; exact List.mem_of_head? h3
  have hd := h1.data s hs
  have hm := (h1.inv.layout.mem (h1.mem_range hs)).1
  refine ⟨hd.1, ?_⟩
  simp only [Range.stop, Slot.range] at hm
  show s.size + 4 ≤ _
  omega

/-- The call of `start_read` by the flush thread. -/
theorem startRead_held {v : Vol} {f : Fifo} {U O : List Slot} (h : Sim v f U O) (hc : v.consumer = some none)
    (block : Bool) :
    (∀ x, (v.step (.startRead block)).2 = .record (.ok x) → Held (v.step (.startRead block)).1 x.1 x.2) ∧
    (∀ e, (v.step (.startRead true)).2 = .record (.err e) → v.core.shutdown = true) ∧
    (∃ r, (v.step (.startRead block)).2 = .record r) ∧
    ((v.step (.startRead true)).2 = .record .blocked → (v.step (.startRead true)).1.consumer = some none) := by
  have hk := h.known
  have hfc : f.consumer = some false := by
    have := h.cons
    cases hf : f.consumer with
    | none => rw [hf] at this; simp only at this; rw [hc] at this; cases this
    | some b =>
      cases b with
      | false => rfl
      | true =>
        rw [hf] at this; obtain ⟨s, _, hv⟩ := this
        rw [hc] at hv; cases hv
  refine ⟨?_, ?_, ⟨_, rfl⟩, ?_⟩
  · intro x hx
    obtain ⟨U', O', h1, ha⟩ := hk.step (.startRead block)
    rw [hx] at ha
    generalize hf' : ({ f with slots := f.slots.map (Slot.known v.core.mem) } : Fifo) = f' at *
    have hfc' : f'.consumer = some false := by rw [← hf']; exact hfc
    simp only [Fifo.step, Fifo.startRead, hfc'] at ha h1
    cases hv : f'.visible with
    | nil =>
      rw [hv] at ha
      simp only at ha
      split at ha
      · split at ha <;> exact ha.elim
      · exact ha.elim
    | cons s rest =>
      rw [hv] at ha h1
      simp only [Out.agrees] at ha h1
      obtain ⟨e1, e2⟩ := ha
      have hsub : f'.visible <+: f'.slots := List.takeWhile_prefix _
      have hs : f'.slots.head? = some s := by
        rw [hv] at hsub
        obtain ⟨z, hz⟩ := hsub
        rw [← hz]; rfl
      have hsc : s.committed = true := by
        have : s ∈ f'.slots.takeWhile (·.committed) := by
          show s ∈ f'.visible; rw [hv]; simp
        exact mem_takeWhile_true this
      refine ⟨_, U', O', s, h1, rfl, hs, hsc, e1, ?_⟩
      -- all bytes are known
      have : s ∈ f'.slots := List.mem_of_head? hs
      rw [← hf'] at this
      obtain ⟨s0, _, rfl⟩ := List.mem_map.1 this
      simp only [Slot.known] at e2 ⊢
      rw [bytesAgree_known e2]
  · intro e he
    obtain ⟨U', O', h1, ha⟩ := h.step (.startRead true)
    rw [he] at ha
    simp only [Fifo.step, Fifo.startRead, hfc] at ha
    cases hv : f.visible with
    | nil =>
      rw [hv] at ha
      simp only [if_true] at ha
      rw [h.shut]
      cases hsd : f.shutdown with
      | true => rfl
      | false => rw [hsd] at ha; exact ha.elim
    | cons s rest => rw [hv] at ha; exact ha.elim
  · intro he
    have he' : (v.startRead true).2 = .blocked := by
      have : Out.record (v.startRead true).2 = .record .blocked := he
      simpa using this
    show (v.startRead true).1.consumer = _
    unfold Vol.startRead at he' ⊢
    rw [hc] at he' ⊢
    simp only at he' ⊢
    split at he'
    · cases he'
    · cases he'
    · rfl

/-- The call of `finish_read` by the flush thread. -/
theorem finishRead_held {v : Vol} {r : Range} {bs : List UInt8} (h : Held v r bs) :
    (∃ w, (v.step .finishRead).2 = .finished (.ok w)) ∧ (v.step .finishRead).1.consumer = some none := by
  obtain ⟨f, U, O, s, h1, h2, h3, h4, rfl, h6⟩ := h
  obtain ⟨s', rest, hsl, _, hv⟩ := head_committed h1 h2
  constructor
  · refine ⟨(v.core.finishRead v.hasWrite s'.range).2, ?_⟩
    show Out.finished v.finishRead.2 = _
    unfold Vol.finishRead
    rw [hv]
  · show v.finishRead.1.consumer = _
    unfold Vol.finishRead
    rw [hv]

end Verif.Buffer
