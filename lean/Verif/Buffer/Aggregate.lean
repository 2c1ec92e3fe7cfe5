import Verif.Buffer.NVTrace

/-
Model of the aggregate ring buffer (`bd-buffer/src/buffer/aggregate_ring_buffer.rs`): a volatile ring
buffer, a persistent ring buffer and a thread that moves records from the first to the second.

Every step below is one critical section (one call on one of the two buffers) of some thread, so that a
list of steps is an interleaving of the flush thread with the users.  The bytes of the record are copied
from the memory of the volatile buffer when the thread copies them, not when it got the slice
(aggregate_ring_buffer.rs:86).

Not modelled: the name, the statistics objects, `thread_synchronizer` (tests only); failures to spawn the
thread.  The persistent buffer is passed in opened; `RingBufferImpl::new` opens it with
`BlockWhenReservingIntoConcurrentRead::Yes` (aggregate_ring_buffer.rs:160-168), i.e. `blockOnRead = true`.
-/
namespace Verif.Buffer

/-- Where the flush thread is (aggregate_ring_buffer.rs:54-112). -/
inductive Stage where
  /-- before `register_consumer` -/
  | spawned
  /-- before `register_producer` -/
  | registered
  /-- at the loop condition -/
  | loop
  /-- `start_read` returned this slice -/
  | have (r : Range)
  /-- inside the blocking `reserve` -/
  | asleep (r : Range)
  /-- `reserve` returned a slice -/
  | filling (r : Range)
  /-- after `copy_from_slice` -/
  | filled (r : Range)
  /-- before `finish_read` -/
  | finishing (r : Range)
  /-- out of the loop, before the producer is dropped -/
  | leaving
  /-- before the consumer is dropped -/
  | left
  | dead
  /-- one of the `unwrap`s or `copy_from_slice` panicked -/
  | panicked
  deriving DecidableEq, Repr

/-- `SharedData` and the flush thread.  `vlog` and `nlog` are the calls made so far on the two buffers, with
their results; nothing depends on them. -/
structure Agg where
  vol : Vol
  nv : NV
  /-- `shutdown_flush_thread` -/
  flag : Bool
  stage : Stage
  vlog : List (Op × Out)
  nlog : List (NOp × Out)

/-- `RingBufferImpl::new` (aggregate_ring_buffer.rs:131-196): the size check; `none` is
`InvalidArgument`. `nv` is the persistent buffer as opened, `nvSize` its file size. -/
def Agg.new (volatileSize nvSize : Nat) (mem : Mem) (nv : NV) : Option Agg :=
  if nvSize < 40 ∨ volatileSize > nvSize - 40 then none
  else some { vol := Vol.new volatileSize mem, nv := nv, flag := false, stage := .spawned
              vlog := [], nlog := [] }

/-- A call on the volatile buffer. -/
def Agg.onVol (a : Agg) (op : Op) : Agg × Out :=
  let (v, o) := a.vol.step op
  ({ a with vol := v, vlog := a.vlog ++ [(op, o)] }, o)

/-- A call on the persistent buffer. -/
def Agg.onNV (K : Crc) (a : Agg) (op : NOp) : Agg × Out :=
  let (s, o) := a.nv.step K op
  ({ a with nv := s, nlog := a.nlog ++ [(op, o)] }, o)

def Agg.goto (a : Agg) (s : Stage) : Agg := { a with stage := s }

/-- What the thread does with the result of the blocking `reserve` (aggregate_ring_buffer.rs:81-104). -/
def afterReserve (r : Range) : Out → Stage
  | .slice (.ok _) => .filling r
  | .slice .blocked => .asleep r
  | .slice (.err .unavailable) => .finishing r
  | .slice (.err _) => .leaving
  | _ => .panicked

/-- One critical section of the flush thread (aggregate_ring_buffer.rs:54-112). -/
def Agg.thread (K : Crc) (a : Agg) : Agg :=
  match a.stage with
  | .spawned =>
    match a.onVol .registerConsumer with
    | (a, .unit (.ok ())) => a.goto .registered
    | (a, _) => a.goto .panicked
  | .registered =>
    match a.onNV K .registerProducer with
    | (a, .unit (.ok ())) => a.goto .loop
    | (a, _) => a.goto .panicked
  | .loop =>
    if a.flag then a.goto .leaving
    else
      match a.onVol (.startRead true) with
      | (a, .record (.ok x)) => a.goto (.have x.1)
      | (a, .record .blocked) => a
      | (a, _) => a.goto .leaving
  | .have r =>
    let (a, o) := a.onNV K (.reserve r.size true)
    a.goto (afterReserve r o)
  | .asleep r =>
    let (a, o) := a.onNV K .resume
    a.goto (afterReserve r o)
  | .filling r =>
    match a.onNV K (.write 0 (readMem a.vol.core.mem r.start r.size)) with
    | (a, .unit (.ok ())) => a.goto (.filled r)
    | (a, _) => a.goto .panicked
  | .filled r =>
    match a.onNV K .commit with
    | (a, .unit (.ok ())) => a.goto (.finishing r)
    | (a, _) => a.goto .panicked
  | .finishing _ =>
    match a.onVol .finishRead with
    | (a, .finished (.ok _)) => a.goto .loop
    | (a, _) => a.goto .panicked
  | .leaving => (a.onNV K .dropProducer).1.goto .left
  | .left => (a.onVol .dropConsumer).1.goto .dead
  | .dead => a
  | .panicked => a

/-- What users of the aggregate buffer do with the volatile part: `register_producer` gives producers of
it, `flush` and `lock` go there (aggregate_ring_buffer.rs:228-238, 278-280); `shutdown` reaches it after
the flag was set (269-274). -/
def Op.byUser (flag : Bool) : Op → Bool
  | .reserve .. | .write .. | .commit _ | .waitForDrain | .lock | .unlock => true
  | .shutdown => flag
  | .registerConsumer | .dropConsumer | .startRead _ | .finishRead => false

/-- What users of the aggregate buffer do with the persistent part: `register_consumer`,
`register_cursor_consumer` and `wait_for_drain` (aggregate_ring_buffer.rs:211-234); `shutdown` reaches it
after the flag was set (269-275).  `alter` is the environment. -/
def NOp.byUser (flag : Bool) : NOp → Bool
  | .registerConsumer | .registerCursor | .dropConsumer | .startRead _ | .finishRead | .cursorRead _
  | .ack | .waitForDrain | .alter .. => true
  | .shutdown => flag
  | .registerProducer | .dropProducer | .reserve .. | .resume | .write .. | .commit | .lock | .unlock
  | .restart => false

inductive AOp where
  | vol (op : Op)
  | nv (op : NOp)
  /-- the flush thread runs -/
  | thread
  /-- `shutdown_flush_thread.store(true)` (aggregate_ring_buffer.rs:270-273) -/
  | stop
  deriving DecidableEq, Repr

/-- One step.  A call that users cannot make does nothing. -/
def Agg.step (K : Crc) (a : Agg) : AOp → Agg
  | .vol op => if op.byUser a.flag then (a.onVol op).1 else a
  | .nv op => if op.byUser a.flag then (a.onNV K op).1 else a
  | .thread => a.thread K
  | .stop => { a with flag := true }

def Agg.run (K : Crc) (a : Agg) : List AOp → Agg
  | [] => a
  | op :: ops => (a.step K op).run K ops

/-- What an observer of the calls on the volatile buffer knows. -/
def Agg.seen (a : Agg) : Trace := Trace.empty.run (a.vlog.map (·.1)) (a.vlog.map (·.2))

/-- What an observer of the calls on the persistent buffer knows. -/
def Agg.stored (a : Agg) : NTrace := NTrace.empty.run a.nv.crc (a.nlog.map (·.1)) (a.nlog.map (·.2))

/-- Calls of `reserve` by the flush thread that failed with `Unavailable`: the record is dropped
(aggregate_ring_buffer.rs:89-93). -/
def isDrop : NOp × Out → Bool
  | (.reserve .., .slice (.err .unavailable)) => true
  | (.resume, .slice (.err .unavailable)) => true
  | _ => false

def Agg.dropped (a : Agg) : Nat := (a.nlog.filter isDrop).length

end Verif.Buffer
