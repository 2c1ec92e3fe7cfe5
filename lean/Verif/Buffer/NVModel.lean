import Verif.Buffer.Model

/-
Model of the persistent ring buffer (`bd-buffer/src/buffer/non_volatile_ring_buffer.rs`).

Conventions
* `Core` (Model.lean) is shared with the volatile buffer.  Its fields `nws`, `cws`, `lweb`, `nrs` and
  `mem` live in the memory mapped file, the others in RAM.
* The two checksums (`crc32fast`) are parameters: any function into 32 bits.
* A producer thread parked inside `reserve` is explicit state (`parked`); `resume` is a wake-up of
  that thread, spurious or not.  While it is parked its handle cannot be used.
* A consumer parked inside a blocking `start_read` has no state of its own, waking up is calling it
  again.
* `alter` is an alteration of one byte of the record memory by something other than the buffer (a
  bad disk, another process).  `restart` is the end of the process followed by a new open of the same
  file.  Crashes in the middle of a call are in `NVCrash.lean`.
-/
namespace Verif.Buffer

/-- The checksum functions: `per_record_crc32` and `compute_header_crc_32`
(non_volatile_ring_buffer.rs:1011-1073). -/
structure Crc where
  sum : List UInt8 → Nat
  sum_lt : ∀ l, sum l < 2 ^ 32
  hdr : Nat → Option Nat → Option Nat → Option Nat → Nat

/-- `ConsumerType` (non_volatile_ring_buffer.rs:630-633). -/
inductive Cons where
  | plain (r : Option Range)
  | cursor (rs : List Range)
  deriving DecidableEq, Repr

/-- A producer thread inside `reserve`: what it computed before it went to sleep, and whether it
waits on `no_consumer_reservation_condition` (`true`, non_volatile_ring_buffer.rs:149-151) or on
`next_read_complete` (`false`, common_ring_buffer.rs:413-415). -/
structure Parked where
  t : Temp
  size : Nat
  block : Bool
  onRead : Bool
  deriving DecidableEq, Repr

/-- The buffer: `LockedData` plus `ExtraLockedData` (non_volatile_ring_buffer.rs:639-649). -/
structure NV where
  core : Core
  /-- `per_record_crc32_check` -/
  crc : Bool
  /-- `block_when_reserving_into_concurrent_read` -/
  blockOnRead : Bool
  /-- `FileHeader::crc32` -/
  hdrCrc : Nat
  /-- `producer`, with its reservation -/
  producer : Option (Option Range)
  parked : Option Parked
  consumer : Option Cons

/-- `RingBufferImpl::new` on a file that does not exist yet (non_volatile_ring_buffer.rs:705-887);
`len` is the file size minus the 40 bytes of the header.  A new file is filled with zeros. -/
def NV.new (K : Crc) (len : Nat) (crc overwrite blockOnRead : Bool) : NV :=
  { core := { len := len, xb := if crc then 8 else 4, overwrite := overwrite, mem := fun _ => 0,
              nws := 0, cws := none, lweb := none, nrs := none, ncrs := none, drain := none,
              pendingReset := false, lockCount := 0, shutdown := false, readable := true,
              stats := {}, panicked := false }
    crc := crc, blockOnRead := blockOnRead, hdrCrc := K.hdr 0 none none none
    producer := none, parked := none, consumer := none }

/-- `write_header_crc32` (non_volatile_ring_buffer.rs:1023-1036). -/
def NV.syncHdr (K : Crc) (s : NV) : NV :=
  { s with hdrCrc := K.hdr s.core.nws s.core.cws s.core.lweb s.core.nrs }

/-- `RingBufferImpl::new` on an existing file (non_volatile_ring_buffer.rs:786-887).  The sizes and
the version match, since the same configuration is used.  `none` is the `DataLoss` error. -/
def NV.reopen (K : Crc) (s : NV) : Option NV :=
  if K.hdr s.core.nws s.core.cws s.core.lweb s.core.nrs ≠ s.hdrCrc then none
  else some { s with
    core := { s.core with ncrs := s.core.nrs, drain := none, pendingReset := false, lockCount := 0,
                          shutdown := false, readable := true }
    producer := none, parked := none, consumer := none }

/-- `has_read_reservation_cb` (non_volatile_ring_buffer.rs:871-879). -/
def NV.hasRead (s : NV) : Bool :=
  match s.consumer with
  | some (.plain r) => r.isSome
  | some (.cursor rs) => !rs.isEmpty
  | none => false

/-- `has_write_reservation_cb` (non_volatile_ring_buffer.rs:880-886). -/
def NV.hasWrite (s : NV) : Bool :=
  match s.producer with
  | some (some _) => true
  | _ => false

/-- `total_data_loss_reset` happened: the callback of `CommonRingBuffer` rewrote the header checksum
(non_volatile_ring_buffer.rs:651-655; common_ring_buffer.rs:697-710). -/
def NV.withCore (K : Crc) (s : NV) (c : Core) : NV :=
  if c.stats.totalDataLoss ≠ s.core.stats.totalDataLoss ∧ c.pendingReset = false then
    { s with core := c, hdrCrc := K.hdr 0 none none none }
  else { s with core := c }

/-- The read reservation that `reserve` looks at: that of the consumer or the oldest of the cursor
consumer (non_volatile_ring_buffer.rs:106-115). -/
def NV.readRange (s : NV) : Option Range :=
  match s.consumer with
  | some (.plain r) => r
  | some (.cursor rs) => rs.head?
  | none => none

def NV.readHit (s : NV) (t : Temp) : Bool :=
  match s.readRange with
  | some r => s.core.intersectReservation t r
  | none => false

/-- The end of `reserve` (non_volatile_ring_buffer.rs:173-196). -/
def NV.grant (K : Crc) (s : NV) (t : Temp) (size : Nat) : NV :=
  ({ s with core := s.core.applyReservation t size, producer := some (some t.range),
            parked := none }).syncHdr K

/-- `advance_next_read_due_to_write` and what follows it in `reserve`
(non_volatile_ring_buffer.rs:164-196). -/
def NV.takeSpace (K : Crc) (s : NV) (t : Temp) (size : Nat) (block : Bool) : NV × Res Range :=
  match s.core.advanceForWrite (s.hasRead || s.hasWrite) t block s.core.advanceFuel with
  | (c, .ok ()) => (({ s with core := c }).grant K t size, .ok ⟨t.range.start + c.xb, size⟩)
  | (c, .err e) => ({ s.withCore K c with parked := none }, .err e)
  | (c, .blocked) =>
    ({ s with core := c, parked := some ⟨t, size, block, false⟩ }, .blocked)

/-- The loop on the concurrent reader (non_volatile_ring_buffer.rs:104-162). -/
def NV.passReader (K : Crc) (s : NV) (t : Temp) (size : Nat) (block : Bool) : NV × Res Range :=
  if s.readHit t then
    if s.blockOnRead then ({ s with parked := some ⟨t, size, block, true⟩ }, .blocked)
    else ({ s with core := s.core.refused size, parked := none }, .err .resourceExhausted)
  else s.takeSpace K t size block

/-- `ProducerImpl::reserve` (non_volatile_ring_buffer.rs:77-197). -/
def NV.reserve (K : Crc) (s : NV) (size : Nat) (block : Bool) : NV × Res Range :=
  match s.producer with
  | none => (s, .err .failedPrecondition)
  | some (some _) => (s, .err .invalidArgument)
  | some none =>
    match s.core.startReserve size with
    | (c, .error e) => ({ s with core := c }, .err e)
    | (c, .ok actual) =>
      ({ s with core := c }).passReader K (c.calcNextWriteStart actual) size block

/-- The parked producer wakes up (non_volatile_ring_buffer.rs:149-160,
common_ring_buffer.rs:413-424). -/
def NV.resume (K : Crc) (s : NV) : NV × Res Range :=
  match s.parked with
  | none => (s, .err .invalidArgument)
  | some p =>
    if s.core.shutdown then ({ s with parked := none }, .err .aborted)
    else if p.onRead then s.passReader K p.t p.size p.block
    else s.takeSpace K p.t p.size p.block

/-- The producer stores into the slice it was handed. -/
def NV.write (s : NV) (off : Nat) (bytes : List UInt8) : NV × Res Unit :=
  match s.producer with
  | some (some r) =>
    if off + bytes.length ≤ r.size - s.core.xb then
      ({ s with core := { s.core with mem := writeMem s.core.mem (r.start + s.core.xb + off) bytes } },
        .ok ())
    else (s, .err .invalidArgument)
  | _ => (s, .err .invalidArgument)

/-- `per_record_crc32` (non_volatile_ring_buffer.rs:1011-1020). -/
def Core.recordCrc (K : Crc) (c : Core) (r : Range) : Nat :=
  K.sum (readMem c.mem (r.start + (c.xb - 4)) (r.size - (c.xb - 4)))

/-- The checksum stored with a record. -/
def Core.storedCrc (c : Core) (r : Range) : Nat := ofLe32 (readMem c.mem r.start 4)

/-- Store the checksum of a record (non_volatile_ring_buffer.rs:239-252). -/
def Core.writeCrc (K : Crc) (c : Core) (crc : Bool) (r : Range) : Core :=
  if crc then { c with mem := writeMem c.mem r.start (le32 (c.recordCrc K r)) } else c

/-- `ProducerImpl::commit` (non_volatile_ring_buffer.rs:199-263). -/
def NV.commit (K : Crc) (s : NV) : NV × Res Unit :=
  match s.producer with
  | some (some r) =>
    let c := s.core.advanceCommitted r
    let c := ({ c with readable := true } : Core).writeCrc K s.crc r
    let c := c.maybeReset s.hasRead
    (({ s with core := c, producer := some none }).syncHdr K, .ok ())
  | some none => (s, .err .invalidArgument)
  | none => (s, .err .failedPrecondition)

/-- `common_consumer_start_read` with `Cursor::No` (non_volatile_ring_buffer.rs:1076-1134).  `fuel`
bounds the number of corrupt records skipped. -/
def NV.plainLoop (K : Crc) (s : NV) (block : Bool) : Nat → NV × Res Range
  | 0 => ({ s with core := { s.core with panicked := true } }, .err .dataLoss)
  | fuel + 1 =>
    match s.core.startRead s.hasWrite block none with
    | (c, .ok r) =>
      if s.crc then
        let c' := c.zeroExtra r.start
        if c.recordCrc K r = c.storedCrc r then
          ({ s with core := c', consumer := some (.plain (some r)) }, .ok r)
        else
          let c' := { c' with stats := { c'.stats with
            recordsCorrupted := c'.stats.recordsCorrupted + 1 } }
          (({ s with core := (c'.finishRead s.hasWrite r).1 }).syncHdr K).plainLoop K block fuel
      else ({ s with core := c, consumer := some (.plain (some r)) }, .ok r)
    | (c, .err e) => (s.withCore K c, .err e)
    | (c, .blocked) => (s.withCore K c, .blocked)

/-- `ConsumerImpl::start_read` (non_volatile_ring_buffer.rs:285-370). -/
def NV.startRead (K : Crc) (s : NV) (block : Bool) : NV × Res (Range × List UInt8) :=
  match s.consumer with
  | some (.plain none) =>
    match s.plainLoop K block s.core.advanceFuel with
    | (s, .ok r) =>
      (s, .ok (⟨r.start + s.core.xb, r.size - s.core.xb⟩,
        readMem s.core.mem (r.start + s.core.xb) (r.size - s.core.xb)))
    | (s, .err e) => (s, .err e)
    | (s, .blocked) => (s, .blocked)
  | some (.plain (some _)) => (s, .err .invalidArgument)
  | _ => (s, .err .failedPrecondition)

/-- `ConsumerImpl::finish_read` (non_volatile_ring_buffer.rs:372-424). -/
def NV.finishRead (K : Crc) (s : NV) : NV × Res Bool :=
  match s.consumer with
  | some (.plain (some r)) =>
    let (c, woken) := s.core.finishRead s.hasWrite r
    (({ s with core := c, consumer := some (.plain none) }).syncHdr K, .ok woken)
  | some (.plain none) => (s, .err .invalidArgument)
  | _ => (s, .err .failedPrecondition)

/-- `common_consumer_start_read` with `Cursor::Yes` (non_volatile_ring_buffer.rs:1076-1134): a
corrupt record is passed by the cursor but not finished. -/
def NV.cursorLoop (K : Crc) (s : NV) (rs : List Range) (block : Bool) : Nat → NV × Res Range
  | 0 => ({ s with core := { s.core with panicked := true } }, .err .dataLoss)
  | fuel + 1 =>
    match s.core.startReadCursor (s.hasRead || s.hasWrite) block with
    | (c, .ok r) =>
      if s.crc ∧ c.recordCrc K r ≠ c.storedCrc r then
        ({ s with core := { c with stats := { c.stats with
          recordsCorrupted := c.stats.recordsCorrupted + 1 } } }).cursorLoop K rs block fuel
      else ({ s with core := c, consumer := some (.cursor (rs ++ [r])) }, .ok r)
    | (c, .err e) => (s.withCore K c, .err e)
    | (c, .blocked) => (s.withCore K c, .blocked)

/-- `CursorConsumerImpl::start_read` (non_volatile_ring_buffer.rs:469-561). -/
def NV.cursorRead (K : Crc) (s : NV) (block : Bool) : NV × Res (Range × List UInt8) :=
  match s.consumer with
  | some (.cursor rs) =>
    match s.cursorLoop K rs block s.core.advanceFuel with
    | (s, .ok r) =>
      (s, .ok (⟨r.start + s.core.xb, r.size - s.core.xb⟩,
        readMem s.core.mem (r.start + s.core.xb) (r.size - s.core.xb)))
    | (s, .err e) => (s, .err e)
    | (s, .blocked) => (s, .blocked)
  | _ => (s, .err .failedPrecondition)

/-- `CursorConsumerImpl::advance_read_pointer` (non_volatile_ring_buffer.rs:563-592). -/
def NV.ack (K : Crc) (s : NV) : NV × Res Bool :=
  match s.consumer with
  | some (.cursor (r :: rs)) =>
    let (c, woken) := s.core.finishRead (!rs.isEmpty || s.hasWrite) r
    (({ s with core := c, consumer := some (.cursor rs) }).syncHdr K, .ok woken)
  | _ => (s, .err .failedPrecondition)

/-- The calls, the environment's alterations of the file, and restarts. -/
inductive NOp where
  | registerProducer
  | dropProducer
  | reserve (size : Nat) (block : Bool)
  | resume
  | write (off : Nat) (bytes : List UInt8)
  | commit
  | registerConsumer
  | registerCursor
  | dropConsumer
  | startRead (block : Bool)
  | finishRead
  | cursorRead (block : Bool)
  | ack
  | waitForDrain
  | lock
  | unlock
  | shutdown
  | alter (addr : Nat) (b : UInt8)
  | restart
  deriving DecidableEq, Repr

/-- The producer's thread is parked, so that its handle cannot be used. -/
def NOp.usesProducer : NOp → Bool
  | .dropProducer | .reserve .. | .write .. | .commit => true
  | _ => false

/-- One step when the producer is not in the way: registration is
non_volatile_ring_buffer.rs:890-960, drops 264-274, 426-438, 595-606. -/
def NV.step' (K : Crc) (s : NV) : NOp → NV × Out
  | .registerProducer =>
    match s.producer with
    | some _ => (s, .unit (.err .failedPrecondition))
    | none => ({ s with producer := some none }, .unit (.ok ()))
  | .dropProducer => ({ s with producer := none }, .unit (.ok ()))
  | .reserve size block => let (s, r) := s.reserve K size block; (s, .slice r)
  | .resume => let (s, r) := s.resume K; (s, .slice r)
  | .write off bytes => let (s, r) := s.write off bytes; (s, .unit r)
  | .commit => let (s, r) := s.commit K; (s, .unit r)
  | .registerConsumer =>
    match s.consumer with
    | some _ => (s, .unit (.err .failedPrecondition))
    | none => ({ s with consumer := some (.plain none) }, .unit (.ok ()))
  | .registerCursor =>
    match s.consumer with
    | some _ => (s, .unit (.err .failedPrecondition))
    | none =>
      if s.core.overwrite then (s, .unit (.err .failedPrecondition))
      else ({ s with consumer := some (.cursor []) }, .unit (.ok ()))
  | .dropConsumer => ({ s with consumer := none }, .unit (.ok ()))
  | .startRead b => let (s, r) := s.startRead K b; (s, .record r)
  | .finishRead => let (s, r) := s.finishRead K; (s, .finished r)
  | .cursorRead b => let (s, r) := s.cursorRead K b; (s, .record r)
  | .ack => let (s, r) := s.ack K; (s, .finished r)
  | .waitForDrain =>
    let (c, w) := s.core.waitForDrain s.hasRead
    ({ s with core := c }, .drain w)
  | .lock => ({ s with core := { s.core with lockCount := s.core.lockCount + 1 } }, .unit (.ok ()))
  | .unlock => ({ s with core := { s.core with lockCount := s.core.lockCount - 1 } }, .unit (.ok ()))
  | .shutdown => ({ s with core := s.core.doShutdown }, .unit (.ok ()))
  | .alter addr b =>
    ({ s with core := { s.core with mem := writeMem s.core.mem addr [b] } }, .unit (.ok ()))
  | .restart =>
    match s.reopen K with
    | some s => (s, .unit (.ok ()))
    | none => (s, .unit (.err .dataLoss))

def NV.step (K : Crc) (s : NV) (op : NOp) : NV × Out :=
  if s.parked.isSome && op.usesProducer then (s, .unit .blocked) else s.step' K op

def NV.run (K : Crc) (s : NV) : List NOp → NV × List Out
  | [] => (s, [])
  | op :: ops =>
    let (s1, o) := s.step K op
    let (s2, os) := s1.run K ops
    (s2, o :: os)

end Verif.Buffer
