import Verif.Queue.Model

/-
C10 (memory bounded channel) and C11 (pre-configuration buffer).
-/
namespace Verif.Queue

def total (l : List Msg) : Nat := (l.map Msg.size).sum

theorem total_append (a b : List Msg) : total (a ++ b) = total a + total b := by simp [total]
theorem total_cons (m : Msg) (l : List Msg) : total (m :: l) = m.size + total l := by simp [total]

/-! ### C10 -/

def callsTotal (l : List Call) : Nat := (l.map fun c => c.msg.size).sum
def reservedTotal (l : List Call) : Nat := ((l.filter fun c => c.phase = .reserved).map fun c => c.msg.size).sum
def heldSize : Option Msg → Nat
  | none => 0
  | some m => m.size

theorem callsTotal_cons (c : Call) (l : List Call) : callsTotal (c :: l) = c.msg.size + callsTotal l := by simp [callsTotal]

theorem reservedTotal_cons (c : Call) (l : List Call) :
    reservedTotal (c :: l) = (if c.phase = .reserved then c.msg.size else 0) + reservedTotal l := by
  unfold reservedTotal
  by_cases h : c.phase = .reserved <;> simp [h]

/-- The accounting invariant. -/
structure Chan.Inv (s : Chan) : Prop where
  /-- one call per thread -/
  threads : (s.calls.map Call.thread).Nodup
  /-- the counter is what is queued, held or in flight -/
  usage : s.usage = total s.queue + callsTotal s.calls + heldSize s.held
  /-- reservations that will be honoured never exceed the capacity -/
  bound : total s.queue + reservedTotal s.calls + heldSize s.held ≤ s.capacity
  slots : s.queue.length ≤ s.slots
  fifo : s.received ++ s.queue = s.accepted

theorem nodup_drop_filter {l : List Call} (h : (l.map Call.thread).Nodup) (t : Nat) :
    ((l.filter (·.thread ≠ t)).map Call.thread).Nodup :=
  (List.Sublist.map _ List.filter_sublist).nodup h

/-- Taking a call out of the list. -/
theorem drop_sums {l : List Call} (h : (l.map Call.thread).Nodup) {t : Nat} {c : Call}
    (hc : l.find? (·.thread = t) = some c) :
    c.thread = t ∧ callsTotal l = callsTotal (l.filter (·.thread ≠ t)) + c.msg.size ∧
    reservedTotal l = reservedTotal (l.filter (·.thread ≠ t)) + (if c.phase = .reserved then c.msg.size else 0) ∧
    t ∉ (l.filter (·.thread ≠ t)).map Call.thread := by
  induction l with
  | nil => simp at hc
  | cons a l ih =>
    simp only [List.map_cons, List.nodup_cons] at h
    have hnot : t ∉ ((a :: l).filter (·.thread ≠ t)).map Call.thread := by
      simp only [List.mem_map, List.mem_filter, not_exists, not_and]
      intro x hx e
      rw [e] at hx
      simpa using hx.2
    by_cases ha : a.thread = t
    · have : a = c := by simpa [List.find?_cons, ha] using hc
      subst this
      have hfil : (a :: l).filter (·.thread ≠ t) = l := by
        rw [List.filter_cons]
        simp only [ha, ne_eq, not_true_eq_false, decide_false, Bool.false_eq_true, if_false]
        rw [List.filter_eq_self]
        intro b hb
        have : b.thread ≠ t := by
          intro e
          apply h.1
          rw [ha, ← e]
          exact List.mem_map_of_mem hb
        simpa using this
      refine ⟨ha, ?_, ?_, hnot⟩
      · rw [hfil, callsTotal_cons]; omega
      · rw [hfil, reservedTotal_cons]; omega
    · have hc' : l.find? (·.thread = t) = some c := by
        simpa [List.find?_cons, ha] using hc
      obtain ⟨h1, h2, h3, _⟩ := ih h.2 hc'
      have hfil : (a :: l).filter (·.thread ≠ t) = a :: l.filter (·.thread ≠ t) := by
        rw [List.filter_cons]
        simp [ha]
      refine ⟨h1, ?_, ?_, hnot⟩
      · rw [hfil, callsTotal_cons, callsTotal_cons, h2]; omega
      · rw [hfil, reservedTotal_cons, reservedTotal_cons, h3]; omega

theorem not_mem_of_call_none {l : List Call} {t : Nat} (h : l.find? (·.thread = t) = none) :
    t ∉ l.map Call.thread := by
  simp only [List.find?_eq_none] at h
  simp only [List.mem_map, not_exists, not_and]
  intro x hx e
  exact h x hx (by simpa using e)

theorem Chan.inv_init (slots capacity : Nat) : (Chan.init slots capacity).Inv :=
  ⟨by simp [Chan.init], by simp [Chan.init, total, callsTotal, heldSize],
   by simp [Chan.init, total, reservedTotal, heldSize], by simp [Chan.init], rfl⟩

theorem Chan.Inv.step {s : Chan} (h : s.Inv) (a : Act) : (s.step a).1.Inv ∧ (s.step a).2 ≠ .bug := by
  cases a with
  | reserve t m =>
    cases hc : s.call? t with
    | some c => simp only [Chan.step, hc]; exact ⟨h, by simp⟩
    | none =>
      have hn := not_mem_of_call_none hc
      have hu := h.usage
      have hb := h.bound
      simp only [Chan.step, hc]
      split
      · refine ⟨⟨?_, ?_, ?_, h.slots, h.fifo⟩, by simp⟩
        · simp only [List.map_cons, List.nodup_cons]; exact ⟨hn, h.threads⟩
        · simp only [callsTotal_cons]; omega
        · simp only [reservedTotal_cons]; simpa using hb
      · rename_i hfit
        have hle : reservedTotal s.calls ≤ callsTotal s.calls := by
          generalize s.calls = l
          induction l with
          | nil => simp [reservedTotal, callsTotal]
          | cons c l ih => rw [reservedTotal_cons, callsTotal_cons]; split <;> omega
        refine ⟨⟨?_, ?_, ?_, h.slots, h.fifo⟩, by simp⟩
        · simp only [List.map_cons, List.nodup_cons]; exact ⟨hn, h.threads⟩
        · simp only [callsTotal_cons]; omega
        · simp only [reservedTotal_cons, if_true]; omega
  | enqueue t =>
    cases hc : s.call? t with
    | none => simp only [Chan.step, hc]; exact ⟨h, by simp⟩
    | some c =>
      obtain ⟨ct, m, ph⟩ := c
      cases ph with
      | voiding => simp only [Chan.step, hc]; exact ⟨h, by simp⟩
      | reserved =>
        obtain ⟨h1, h2, h3, h4⟩ := drop_sums h.threads hc
        simp only [if_true] at h2 h3
        have hu := h.usage
        have hb := h.bound
        have hv : ∀ c', (⟨{ s with calls := ⟨t, m, .voiding⟩ :: s.drop t }, c'⟩ : Chan × Result).1.Inv := by
          intro c'
          refine ⟨?_, ?_, ?_, h.slots, h.fifo⟩
          · simp only [List.map_cons, List.nodup_cons]; exact ⟨h4, nodup_drop_filter h.threads t⟩
          · simp only [callsTotal_cons, Chan.drop]; omega
          · simp only [reservedTotal_cons, Chan.drop, reduceCtorEq, if_false]; omega
        simp only [Chan.step, hc]
        split
        · exact ⟨hv .closed, by simp⟩
        · split
          · exact ⟨hv .countOverflow, by simp⟩
          · rename_i hlen
            refine ⟨⟨nodup_drop_filter h.threads t, ?_, ?_, ?_, ?_⟩, by simp⟩
            · simp only [total_append, total_cons, Chan.drop]
              have : total [] = 0 := rfl
              omega
            · simp only [total_append, total_cons, Chan.drop]
              have : total [] = 0 := rfl
              omega
            · simp only [List.length_append, List.length_cons, List.length_nil]; omega
            · simp only [← h.fifo, List.append_assoc]
  | void t =>
    cases hc : s.call? t with
    | none => simp only [Chan.step, hc]; exact ⟨h, by simp⟩
    | some c =>
      obtain ⟨ct, m, ph⟩ := c
      cases ph with
      | reserved => simp only [Chan.step, hc]; exact ⟨h, by simp⟩
      | voiding =>
        obtain ⟨h1, h2, h3, h4⟩ := drop_sums h.threads hc
        simp only [reduceCtorEq, if_false] at h2 h3
        have hu := h.usage
        have hb := h.bound
        simp only [Chan.step, hc]
        rw [if_neg (by omega)]
        refine ⟨⟨nodup_drop_filter h.threads t, ?_, ?_, h.slots, h.fifo⟩, by simp⟩
        · simp only [Chan.drop]; omega
        · simp only [Chan.drop]; omega
  | recv =>
    cases hh : s.held with
    | some m => simp only [Chan.step, hh]; exact ⟨h, by simp⟩
    | none =>
      cases hq : s.queue with
      | nil => simp only [Chan.step, hh, hq]; exact ⟨h, by simp⟩
      | cons m q =>
        have hu := h.usage
        have hb := h.bound
        have hs := h.slots
        have hf := h.fifo
        rw [hq, hh] at hu hb
        rw [hq] at hs hf
        simp only [total_cons, heldSize] at hu hb
        simp only [Chan.step, hh, hq]
        refine ⟨⟨h.threads, ?_, ?_, ?_, ?_⟩, by simp⟩
        · simp only [heldSize]; omega
        · simp only [heldSize]; omega
        · simp only [List.length_cons] at hs; simp only; omega
        · simp only [List.append_assoc]; exact hf
  | release =>
    cases hh : s.held with
    | none => simp only [Chan.step, hh]; exact ⟨h, by simp⟩
    | some m =>
      have hu := h.usage
      have hb := h.bound
      rw [hh] at hu hb
      simp only [heldSize] at hu hb
      simp only [Chan.step, hh]
      rw [if_neg (by omega)]
      refine ⟨⟨h.threads, ?_, ?_, h.slots, h.fifo⟩, by simp⟩
      · simp only [heldSize]; omega
      · simp only [heldSize]; omega
  | close => exact ⟨⟨h.threads, h.usage, h.bound, h.slots, h.fifo⟩, by simp [Chan.step]⟩

theorem Chan.run_inv (as : List Act) : ∀ {s : Chan}, s.Inv → (s.run as).Inv := by
  induction as with
  | nil => intro s h; exact h
  | cons a as ih => intro s h; exact ih (h.step a).1

theorem Chan.run_limits (as : List Act) : ∀ s : Chan, (s.run as).slots = s.slots ∧ (s.run as).capacity = s.capacity := by
  induction as with
  | nil => intro s; exact ⟨rfl, rfl⟩
  | cons a as ih =>
    intro s
    have h1 := ih (s.step a).1
    have h2 : (s.step a).1.slots = s.slots ∧ (s.step a).1.capacity = s.capacity := by
      unfold Chan.step
      cases a <;> simp only <;> (repeat' split) <;> first | exact ⟨rfl, rfl⟩ | trivial
    exact ⟨h1.1.trans h2.1, h1.2.trans h2.2⟩

/-- C10: under every interleaving of any number of senders with the receiver the queued messages fit in
the byte and in the slot capacity, even together with the one the receiver is just taking out. -/
theorem C10_budget (slots capacity : Nat) (as : List Act) :
    let s := (Chan.init slots capacity).run as
    total s.queue + heldSize s.held ≤ capacity ∧ s.queue.length ≤ slots := by
  intro s
  have h : s.Inv := Chan.run_inv as (Chan.inv_init slots capacity)
  have hl := Chan.run_limits as (Chan.init slots capacity)
  have hb := h.bound
  have hs := h.slots
  have e1 : s.slots = slots := hl.1
  have e2 : s.capacity = capacity := hl.2
  constructor <;> omega

/-- C10: messages are received in the order in which they were accepted, none is lost or repeated. -/
theorem C10_fifo (slots capacity : Nat) (as : List Act) :
    let s := (Chan.init slots capacity).run as
    s.received ++ s.queue = s.accepted :=
  (Chan.run_inv as (Chan.inv_init slots capacity)).fifo

/-- C10: the memory counter never underflows (the debug assertion holds), and when nobody is inside a call
it equals the size of what is queued. -/
theorem C10_accounting (slots capacity : Nat) (as : List Act) :
    let s := (Chan.init slots capacity).run as
    (∀ a, (s.step a).2 ≠ .bug) ∧ (s.calls = [] → s.held = none → s.usage = total s.queue) := by
  intro s
  have h : s.Inv := Chan.run_inv as (Chan.inv_init slots capacity)
  refine ⟨fun a => (h.step a).2, fun hc hh => ?_⟩
  have hu := h.usage
  rw [hc, hh] at hu
  simpa [callsTotal, heldSize] using hu

theorem Chan.step_enqueue {s : Chan} {t t' : Nat} {m : Msg} (h : s.call? t = some ⟨t', m, .reserved⟩) :
    s.step (.enqueue t) =
      if s.closed then ({ s with calls := ⟨t, m, .voiding⟩ :: s.drop t }, .closed)
      else if s.queue.length ≥ s.slots then ({ s with calls := ⟨t, m, .voiding⟩ :: s.drop t }, .countOverflow)
      else ({ s with queue := s.queue ++ [m], accepted := s.accepted ++ [m], calls := s.drop t }, .ok) := by
  simp only [Chan.step, h]

/-- C10: a send that meets no other call and an idle receiver is refused exactly if the message does not
fit: for bytes if the total would exceed the capacity, for slots if all are taken. -/
theorem C10_alone_exact (slots capacity : Nat) (as : List Act) (t : Nat) (m : Msg) :
    let s := (Chan.init slots capacity).run as
    s.calls = [] → s.held = none → s.closed = false →
    ((s.step (.reserve t m)).2 = .sizeOverflow ↔ total s.queue + m.size > capacity) ∧
    (total s.queue + m.size ≤ capacity →
      let s' := (s.step (.reserve t m)).1
      ((s'.step (.enqueue t)).2 = .ok ↔ s.queue.length < slots) ∧
      ((s'.step (.enqueue t)).2 = .countOverflow ↔ slots ≤ s.queue.length) ∧
      (s.queue.length < slots → (s'.step (.enqueue t)).1.queue = s.queue ++ [m])) := by
  intro s hc hh hcl
  have hu := (C10_accounting slots capacity as).2 hc hh
  have hl := Chan.run_limits as (Chan.init slots capacity)
  have e1 : s.slots = slots := hl.1
  have e2 : s.capacity = capacity := hl.2
  have hcall : s.call? t = none := by simp [Chan.call?, hc]
  have hu' : s.usage = total s.queue := hu
  constructor
  · simp only [Chan.step, hcall]
    rw [← e2, ← hu']
    split
    · rename_i h; simp [h]
    · rename_i h; simp only [reduceCtorEq, false_iff]; omega
  · intro hfit
    have hres : s.step (.reserve t m) =
        ({ s with usage := s.usage + m.size, calls := ⟨t, m, .reserved⟩ :: s.calls }, .pending) := by
      simp only [Chan.step, hcall]
      rw [if_neg (by omega)]
    simp only [hres]
    have hcall' : ({ s with usage := s.usage + m.size, calls := ⟨t, m, .reserved⟩ :: s.calls } : Chan).call? t =
        some ⟨t, m, .reserved⟩ := by simp [Chan.call?]
    rw [Chan.step_enqueue hcall']
    simp only [hcl]
    by_cases hq : s.queue.length ≥ s.slots
    · simp only [Bool.false_eq_true, if_false, if_pos hq]
      refine ⟨?_, ?_, ?_⟩
      · simp only [reduceCtorEq, false_iff]; omega
      · simp only [true_iff]; omega
      · intro h; omega
    · simp only [Bool.false_eq_true, if_false, if_neg hq]
      refine ⟨?_, ?_, ?_⟩
      · simp only [true_iff]; omega
      · simp only [reduceCtorEq, false_iff]; omega
      · intro _; trivial

example :
    let s := (Chan.init 2 10).run [.reserve 1 ⟨1, 6⟩, .reserve 2 ⟨2, 6⟩, .reserve 3 ⟨3, 1⟩, .enqueue 1, .void 2, .enqueue 3,
      .void 3, .recv, .reserve 2 ⟨4, 4⟩, .enqueue 2, .release]
    s.queue = [⟨4, 4⟩] ∧ s.received = [⟨1, 6⟩] ∧ s.usage = 4 := by decide

/-! ### C11 -/

/-- The logs kept, told without the buffer: each is kept unless it would be one too many or too big. -/
def kept (maxCount maxSize : Nat) : List Msg → List Msg
  | [] => []
  | ms => go [] ms
where
  go (acc : List Msg) : List Msg → List Msg
  | [] => acc
  | m :: ms => if acc.length + 1 ≤ maxCount ∧ total acc + m.size ≤ maxSize then go (acc ++ [m]) ms else go acc ms

def PreBuf.Inv (b : PreBuf) : Prop :=
  b.currentSize = total b.items ∧ b.items.length ≤ b.maxCount ∧ total b.items ≤ b.maxSize

theorem PreBuf.push_eq {b : PreBuf} (h : b.Inv) (m : Msg) :
    (b.push m).1.Inv ∧ (b.push m).1.maxCount = b.maxCount ∧ (b.push m).1.maxSize = b.maxSize ∧
    (b.push m).1.items =
      (if b.items.length + 1 ≤ b.maxCount ∧ total b.items + m.size ≤ b.maxSize then b.items ++ [m] else b.items) ∧
    ((b.push m).2 = .ok ↔ b.items.length + 1 ≤ b.maxCount ∧ total b.items + m.size ≤ b.maxSize) := by
  obtain ⟨h1, h2, h3⟩ := h
  unfold PreBuf.push
  by_cases hc : b.items.length ≥ b.maxCount
  · rw [if_pos hc]
    have : ¬ (b.items.length + 1 ≤ b.maxCount ∧ total b.items + m.size ≤ b.maxSize) := by omega
    rw [if_neg this]
    exact ⟨⟨h1, h2, h3⟩, rfl, rfl, rfl, by simp [this]⟩
  · rw [if_neg hc]
    by_cases hs : b.currentSize + m.size > b.maxSize
    · rw [if_pos hs]
      have : ¬ (b.items.length + 1 ≤ b.maxCount ∧ total b.items + m.size ≤ b.maxSize) := by omega
      rw [if_neg this]
      exact ⟨⟨h1, h2, h3⟩, rfl, rfl, rfl, by simp [this]⟩
    · rw [if_neg hs]
      have : b.items.length + 1 ≤ b.maxCount ∧ total b.items + m.size ≤ b.maxSize := by omega
      rw [if_pos this]
      refine ⟨⟨?_, ?_, ?_⟩, rfl, rfl, rfl, by simp [this]⟩
      · simp only [total_append, total_cons, h1]; simp [total]
      · simp only [List.length_append, List.length_cons, List.length_nil]; omega
      · simp only [total_append, total_cons]
        have : total [] = 0 := rfl
        omega

/-- Running logs only, before any configuration. -/
theorem run_uninit (ms : List Msg) : ∀ (b : PreBuf) (p : List Msg), b.Inv →
    ∃ b', (Logger.run ⟨.uninitialized b, p⟩ (ms.map .log)) = ⟨.uninitialized b', p⟩ ∧ b'.Inv ∧
      b'.maxCount = b.maxCount ∧ b'.maxSize = b.maxSize ∧ b'.items = kept.go b.maxCount b.maxSize b.items ms := by
  induction ms with
  | nil => intro b p h; exact ⟨b, rfl, h, rfl, rfl, rfl⟩
  | cons m ms ih =>
    intro b p h
    obtain ⟨h1, h2, h3, h4, _⟩ := PreBuf.push_eq h m
    obtain ⟨b', e1, e2, e3, e4, e5⟩ := ih (b.push m).1 p h1
    refine ⟨b', e1, e2, e3.trans h2, e4.trans h3, ?_⟩
    rw [e5, h2, h3, h4]
    simp only [kept.go]
    split <;> rfl

theorem run_init (es : List LEv) : ∀ p : List Msg,
    Logger.run ⟨.initialized, p⟩ es = ⟨.initialized, p ++ es.filterMap (fun | .log m => some m | .config => none)⟩ := by
  induction es with
  | nil => intro p; simp [Logger.run]
  | cons e es ih =>
    intro p
    cases e with
    | log m => simp only [Logger.run, Logger.step]; rw [ih]; simp
    | config => simp only [Logger.run, Logger.step]; rw [ih]; simp

theorem Logger.run_append (a b : List LEv) : ∀ s : Logger, s.run (a ++ b) = (s.run a).run b := by
  induction a with
  | nil => intro s; rfl
  | cons e a ih => intro s; exact ih _

theorem kept_eq_go (c n : Nat) (ms : List Msg) : kept c n ms = kept.go c n [] ms := by
  cases ms <;> rfl

/-- C11: whatever logs arrive before the first configuration and whatever happens afterwards, the logs
processed are the kept ones, once each and in order, followed by all later ones in order; before the
configuration nothing is processed. -/
theorem C11_replay (maxCount maxSize : Nat) (pre : List Msg) (post : List LEv) :
    ((Logger.init maxCount maxSize).run (pre.map .log)).processed = [] ∧
    ((Logger.init maxCount maxSize).run (pre.map .log ++ .config :: post)).processed =
      kept maxCount maxSize pre ++ post.filterMap (fun | .log m => some m | .config => none) := by
  obtain ⟨b', e1, _, _, _, e5⟩ := run_uninit pre ⟨maxCount, maxSize, 0, []⟩ []
    ⟨rfl, Nat.zero_le _, Nat.zero_le _⟩
  constructor
  · show (Logger.run _ _).processed = _
    unfold Logger.init
    rw [e1]
  · rw [Logger.run_append]
    unfold Logger.init
    rw [e1]
    simp only [Logger.run, Logger.step]
    rw [run_init, kept_eq_go, e5]
    simp

/-- C11: at any time before the configuration at most the allowed number and size of logs is kept, and a
log is refused exactly if keeping it would break a limit. -/
theorem C11_limits (maxCount maxSize : Nat) (pre : List Msg) :
    ∃ b, ((Logger.init maxCount maxSize).run (pre.map .log)).state = .uninitialized b ∧
      b.items = kept maxCount maxSize pre ∧ b.items.length ≤ maxCount ∧ total b.items ≤ maxSize ∧
      ∀ m, (b.push m).2 = .ok ↔ b.items.length + 1 ≤ maxCount ∧ total b.items + m.size ≤ maxSize := by
  obtain ⟨b', e1, e2, e3, e4, e5⟩ := run_uninit pre ⟨maxCount, maxSize, 0, []⟩ []
    ⟨rfl, Nat.zero_le _, Nat.zero_le _⟩
  simp only at e3 e4 e5
  refine ⟨b', by unfold Logger.init; rw [e1], by rw [kept_eq_go, e5], by have := e2.2.1; omega, by have := e2.2.2; omega, ?_⟩
  intro m
  have := (PreBuf.push_eq e2 m).2.2.2.2
  rw [e3, e4] at this
  exact this

/-- The kept logs are a sublist of those that arrived, in order. -/
theorem C11_kept_sublist (maxCount maxSize : Nat) (pre : List Msg) : (kept maxCount maxSize pre).Sublist pre := by
  rw [kept_eq_go]
  have : ∀ (ms acc : List Msg), ∃ k, kept.go maxCount maxSize acc ms = acc ++ k ∧ k.Sublist ms := by
    intro ms
    induction ms with
    | nil => intro acc; exact ⟨[], by simp [kept.go], .slnil⟩
    | cons m ms ih =>
      intro acc
      simp only [kept.go]
      split
      · obtain ⟨k, h1, h2⟩ := ih (acc ++ [m])
        exact ⟨m :: k, by rw [h1]; simp, h2.cons_cons m⟩
      · obtain ⟨k, h1, h2⟩ := ih acc
        exact ⟨k, h1, h2.cons m⟩
  obtain ⟨k, h1, h2⟩ := this pre []
  rw [h1]; exact h2

example :
    ((Logger.init 2 10).run [.log ⟨1, 4⟩, .log ⟨2, 7⟩, .log ⟨3, 6⟩, .log ⟨4, 0⟩, .config, .log ⟨5, 100⟩, .config, .log ⟨6, 1⟩]).processed =
      [⟨1, 4⟩, ⟨3, 6⟩, ⟨5, 100⟩, ⟨6, 1⟩] := by decide

end Verif.Queue
