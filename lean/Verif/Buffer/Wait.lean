import Verif.Buffer.NVModel

/-
Who sleeps on the condition variables of the ring buffers, and who is woken.

The models of the buffers say when a call has to wait (`blocked`) and what it does when it goes on; here is which threads are asleep, and which calls wake
them: `data_available`, `next_read_complete` (common_ring_buffer.rs:903-907), `no_reservations_condition` (volatile_ring_buffer.rs:440),
`no_consumer_reservation_condition` and `no_producer_reservation_condition` (non_volatile_ring_buffer.rs:697-702).  Each step holds the lock of the buffer from
its start to its end or to its next wait, `notify_all` wakes all sleepers of the variable, and nothing else does (parking_lot has no spurious wake-ups).
`drain_complete` is in `Drain.lean` and C09.  A process that ends takes its threads with it.

A woken reader that finds a total data loss reset pending tries to load the size once more in the code (common_ring_buffer.rs:766-804) and counts the loss
again; here it gives up at once, with the same result.
-/
namespace Verif.Buffer

/-! ### The persistent buffer -/

/-- `prod`: the producer inside `reserve` is asleep, on the variable named by `parked`; `inside`: the consumer is inside `start_read(true)`, and `reader`:
asleep there; `awaits`: the sleepers in `await_reservations_drained`. -/
structure Wait where
  nv : NV
  prod : Bool
  inside : Bool
  reader : Bool
  awaits : Nat

def Wait.new (K : Crc) (len : Nat) (crc overwrite blockOnRead : Bool) : Wait := ⟨NV.new K len crc overwrite blockOnRead, false, false, false, 0⟩

inductive WOp where
  | call (op : NOp)
  /-- the woken reader has the lock again -/
  | retry
  /-- `await_reservations_drained` (non_volatile_ring_buffer.rs:667-683) -/
  | await
  deriving DecidableEq

/-- Calls that need the consumer, which its thread has. -/
def NOp.usesConsumer : NOp → Bool
  | .dropConsumer | .startRead _ | .finishRead | .cursorRead _ | .ack => true
  | _ => false

/-- `next_read_complete` is notified: `finish_read_common`, which alone counts the record as read (common_ring_buffer.rs:641-650), or the first shutdown (871). -/
def readComplete (s s' : NV) : Bool :=
  s'.core.stats.recordsRead != s.core.stats.recordsRead || (s'.core.shutdown && !s.core.shutdown)

/-- `data_available` is notified: a commit when there was nothing to read (common_ring_buffer.rs:555-582), or the first shutdown (870). -/
def dataAvailable (s s' : NV) : NOp → Out → Bool
  | .commit, .unit (.ok ()) => s.core.nrs.isNone || s.core.ncrs.isNone
  | _, _ => s'.core.shutdown && !s.core.shutdown

/-- `no_consumer_reservation_condition` is notified (non_volatile_ring_buffer.rs:421, 590, 972). -/
def noConsumerReservation : NOp → Out → Bool
  | .finishRead, .finished (.ok _) | .ack, .finished (.ok _) | .shutdown, _ => true
  | _, _ => false

/-- `no_producer_reservation_condition` is notified (non_volatile_ring_buffer.rs:261). -/
def noProducerReservation : NOp → Out → Bool
  | .commit, .unit (.ok ()) => true
  | _, _ => false

def Out.blocks : Out → Bool
  | .slice .blocked | .record .blocked => true
  | _ => false

def Wait.onRead (w : Wait) : Bool :=
  match w.nv.parked with
  | some p => p.onRead
  | none => false

/-- A call that went through: who falls asleep, who is woken. -/
def Wait.after (w : Wait) (op : NOp) (r : NV × Out) : Wait :=
  match op with
  | .restart => ⟨r.1, false, false, false, 0⟩
  | .reserve .. | .resume => { w with nv := r.1, prod := r.2.blocks }
  | .startRead _ | .cursorRead _ =>
    { w with nv := r.1, prod := w.prod && !(!w.onRead && readComplete w.nv r.1), inside := r.2.blocks, reader := r.2.blocks }
  | _ =>
    { w with
      nv := r.1
      prod := w.prod && !(if w.onRead then noConsumerReservation op r.2 else readComplete w.nv r.1)
      reader := w.reader && !dataAvailable w.nv r.1 op r.2
      awaits := if noProducerReservation op r.2 then 0 else w.awaits }

/-- The reader goes on after its wait (common_ring_buffer.rs:774-783), or sleeps again. -/
def NV.readerResume (K : Crc) (s : NV) : NV × Out :=
  match s.consumer with
  | some (.plain _) => if s.core.shutdown then (s, .record (.err .aborted)) else if s.core.nrs.isNone then (s, .record .blocked) else s.step K (.startRead true)
  | some (.cursor _) => if s.core.shutdown then (s, .record (.err .aborted)) else if s.core.ncrs.isNone then (s, .record .blocked) else s.step K (.cursorRead true)
  | none => (s, .record (.err .failedPrecondition))

def Wait.step (K : Crc) (w : Wait) : WOp → Wait × Out
  | .call op =>
    if (op = .resume ∧ w.prod = true) ∨ (w.nv.parked.isSome = true ∧ op.usesProducer = true) ∨ (w.inside = true ∧ op.usesConsumer = true) then
      (w, .unit .blocked)
    else (w.after op (w.nv.step K op), (w.nv.step K op).2)
  | .retry => if w.inside = true ∧ w.reader = false then (w.after (.startRead true) (w.nv.readerResume K), (w.nv.readerResume K).2) else (w, .unit .blocked)
  | .await => if w.nv.hasWrite then ({ w with awaits := w.awaits + 1 }, .unit .blocked) else (w, .unit (.ok ()))

def Wait.run (K : Crc) (w : Wait) : List WOp → Wait
  | [] => w
  | op :: ops => (w.step K op).1.run K ops

/-! ### Asynchronous reads -/

/-- `CursorConsumerImpl::read` (non_volatile_ring_buffer.rs:505-540) up to its next `await`: `none` if it waits for a change of `readable`.  `fuel` is the number of
iterations; the last part is whether it ended within them. -/
def NV.asyncRead (K : Crc) (s : NV) : Nat → NV × Option (Res (Range × List UInt8)) × Bool
  | 0 => (s, none, false)
  | fuel + 1 =>
    if s.core.readable then
      match (s.cursorRead K false).2 with
      | .err .unavailable => (s.cursorRead K false).1.asyncRead K fuel
      | r => ((s.cursorRead K false).1, some r, true)
    else (s, none, true)

/-! ### The volatile buffer -/

/-- `inside` and `reader`: the consumer in `start_read(true)`; `awaits`: the sleepers in `await_reservations_drained`. -/
structure VWait where
  vol : Vol
  inside : Bool
  reader : Bool
  awaits : Nat

def VWait.new (len : Nat) (mem : Mem) : VWait := ⟨Vol.new len mem, false, false, 0⟩

inductive VWOp where
  | call (op : Op)
  | retry
  /-- `await_reservations_drained` (volatile_ring_buffer.rs:411-420) -/
  | await

def Op.usesConsumer : Op → Bool
  | .dropConsumer | .startRead _ | .finishRead => true
  | _ => false

/-- `data_available` is notified: a record became readable when there was none (common_ring_buffer.rs:555-582, for each record that `commit` makes readable), or the
first shutdown. -/
def volDataAvailable (v v' : Vol) : Op → Bool
  | .commit _ => v'.core.stats.recordsWritten != v.core.stats.recordsWritten && (v.core.nrs.isNone || v.core.ncrs.isNone)
  | _ => v'.core.shutdown && !v.core.shutdown

/-- `no_reservations_condition` is notified (volatile_ring_buffer.rs:213-215). -/
def noReservations (v' : Vol) : Op → Out → Bool
  | .commit _, .unit (.ok ()) => v'.resv.isEmpty
  | _, _ => false

def Vol.readerResume (v : Vol) : Vol × Out :=
  if v.core.shutdown then (v, .record (.err .aborted)) else if v.core.nrs.isNone then (v, .record .blocked) else v.step (.startRead true)

def VWait.after (w : VWait) (op : Op) (r : Vol × Out) : VWait :=
  match op with
  | .startRead _ => { w with vol := r.1, inside := r.2.blocks, reader := r.2.blocks }
  | _ =>
    { w with
      vol := r.1
      reader := w.reader && !volDataAvailable w.vol r.1 op
      awaits := if noReservations r.1 op r.2 then 0 else w.awaits }

def VWait.step (w : VWait) : VWOp → VWait × Out
  | .call op =>
    if w.inside = true ∧ op.usesConsumer = true then (w, .unit .blocked)
    else (w.after op (w.vol.step op), (w.vol.step op).2)
  | .retry => if w.inside = true ∧ w.reader = false then (w.after (.startRead true) w.vol.readerResume, w.vol.readerResume.2) else (w, .unit .blocked)
  | .await => if w.vol.hasWrite then ({ w with awaits := w.awaits + 1 }, .unit .blocked) else (w, .unit (.ok ()))

def VWait.run (w : VWait) : List VWOp → VWait
  | [] => w
  | op :: ops => (w.step op).1.run ops

end Verif.Buffer
