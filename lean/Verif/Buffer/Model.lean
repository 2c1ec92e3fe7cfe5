/-
Model of the index bookkeeping shared by the ring buffers of `bd-buffer`
(`bd-buffer/src/buffer/common_ring_buffer.rs`).

Conventions
* `u32` indices are `Nat`.  `nws + size` can only exceed `2^32` when the buffer is larger than
  2 GiB; the theorems that depend on this say so (`Core.len ≤ 2^31`).
* Every critical section (a `MutexGuard` scope) is one atomic function on the state.  A wait on a
  condition variable is reported as `Res.blocked` with the state left as it was when the wait began;
  waking up is calling the function again.
* `unwrap()` on `None` is a panic in Rust; the model records it in the sticky flag `panicked`.
* Tracing and condition variable notifications are not modelled, statistics are.
-/
namespace Verif.Buffer

/-- `AbslCode` (bd-buffer/src/lib.rs), the codes the ring buffers return. -/
inductive Code
  | invalidArgument | failedPrecondition | unavailable | resourceExhausted | aborted
  | dataLoss | unimplemented
  deriving DecidableEq, Repr

/-- Result of an API call: success, an error code, or the calling thread is parked on a condition
variable. -/
inductive Res (α : Type) where
  | ok (a : α)
  | err (c : Code)
  | blocked
  deriving DecidableEq, Repr

/-- `Range` (common_ring_buffer.rs:57-62). -/
structure Range where
  start : Nat
  size : Nat
  deriving DecidableEq, Repr

/-- One past the last index of a range. -/
def Range.stop (r : Range) : Nat := r.start + r.size

/-- `intersect` (common_ring_buffer.rs:23-30). -/
def intersect (a b : Range) : Bool :=
  decide (a.start ≤ b.start + b.size - 1) && decide (a.start + a.size - 1 ≥ b.start)

/-- `TempReservationData` (common_ring_buffer.rs:74-80). -/
structure Temp where
  range : Range
  nws : Nat
  lweb : Option Nat
  deriving DecidableEq, Repr

/-- Backing memory: a total function, of which only the indices below `Core.len` are meaningful. -/
abbrev Mem := Nat → UInt8

/-- `memory()[off .. off + bs.len()].copy_from_slice(bs)`. -/
def writeMem (m : Mem) (off : Nat) (bs : List UInt8) : Mem :=
  fun i => if off ≤ i ∧ i < off + bs.length then bs.getD (i - off) 0 else m i

/-- `memory()[off .. off + n]`. -/
def readMem (m : Mem) (off n : Nat) : List UInt8 :=
  (List.range n).map fun i => m (off + i)

/-- `u32::to_ne_bytes`, on a little endian machine. -/
def le32 (n : Nat) : List UInt8 :=
  [UInt8.ofNat n, UInt8.ofNat (n / 256), UInt8.ofNat (n / 65536), UInt8.ofNat (n / 16777216)]

/-- `u32::from_ne_bytes`, on a little endian machine. -/
def ofLe32 (bs : List UInt8) : Nat :=
  (bs.getD 0 0).toNat + 256 * (bs.getD 1 0).toNat + 65536 * (bs.getD 2 0).toNat
    + 16777216 * (bs.getD 3 0).toNat

/-- `RingBufferStats` (bd-buffer/src/buffer/mod.rs); all counters are assumed to be present. -/
structure Stats where
  recordsWritten : Nat := 0
  bytesWritten : Nat := 0
  totalBytesWritten : Nat := 0
  recordsRead : Nat := 0
  bytesRead : Nat := 0
  totalBytesRead : Nat := 0
  recordsOverwritten : Nat := 0
  bytesOverwritten : Nat := 0
  recordsRefused : Nat := 0
  bytesRefused : Nat := 0
  recordsCorrupted : Nat := 0
  totalDataLoss : Nat := 0
  deriving DecidableEq, Repr

/-- `LockedData` (common_ring_buffer.rs:120-171) without the buffer specific `extra_locked_data`.
`drain` is `wait_for_drain_data`; `shutdown` is `shutdown_lock.is_some()`. -/
structure Core where
  /-- `memory.len()` -/
  len : Nat
  /-- `extra_bytes_per_record`, which includes the four size bytes -/
  xb : Nat
  /-- `allow_overwrite == AllowOverwrite::Yes` -/
  overwrite : Bool
  mem : Mem
  /-- `next_write_start` -/
  nws : Nat
  /-- `committed_write_start` -/
  cws : Option Nat
  /-- `last_write_end_before_wrap` -/
  lweb : Option Nat
  /-- `next_read_start` -/
  nrs : Option Nat
  /-- `next_cursor_read_start` -/
  ncrs : Option Nat
  /-- `wait_for_drain_data` -/
  drain : Option (Option Nat)
  /-- `pending_total_data_loss_reset` -/
  pendingReset : Bool
  lockCount : Nat
  shutdown : Bool
  readable : Bool
  stats : Stats
  panicked : Bool

/-- Increment `records_refused`/`bytes_refused`: `return_record_refused`
(common_ring_buffer.rs:686-694). -/
def Core.refused (c : Core) (size : Nat) : Core :=
  { c with stats := { c.stats with recordsRefused := c.stats.recordsRefused + 1,
                                   bytesRefused := c.stats.bytesRefused + size } }

/-- `record_size_offset` (common_ring_buffer.rs:230-233). -/
def Core.sizeOffset (c : Core) (start : Nat) : Nat := start + (c.xb - 4)

/-- `zero_extra_data` (common_ring_buffer.rs:237-247). -/
def Core.zeroExtra (c : Core) (start : Nat) : Core :=
  { c with mem := writeMem c.mem start (List.replicate (c.xb - 4) 0) }

/-- `finish_reservation` (common_ring_buffer.rs:250-280): write the size, zero the extra data and
drop a `last_write_end_before_wrap` that the record reaches past.  The returned slice is
`[start + xb, start + xb + size)`. -/
def Core.finishReservation (c : Core) (start size : Nat) : Core :=
  let c1 := { c with mem := writeMem c.mem (c.sizeOffset start) (le32 size) }
  let c2 := c1.zeroExtra start
  match c2.lweb with
  | some e => if start + size + c2.xb - 1 > e then { c2 with lweb := none } else c2
  | none => c2

/-- `load_next_read_size` (common_ring_buffer.rs:284-320) at a given record start; `none` is the
`DataLoss` error. -/
def Core.loadSize (c : Core) (start : Nat) : Option Nat :=
  if c.sizeOffset start + 4 > c.len then none
  else
    let size := ofLe32 (readMem c.mem (c.sizeOffset start) 4)
    if size = 0 ∨ start + c.xb + size ≥ 2 ^ 32 ∨ start + c.xb + size > c.len then none
    else some size

/-- `intersect_in_wrap_gap` (common_ring_buffer.rs:324-338). -/
def Core.intersectWrapGap (c : Core) (t : Temp) (r : Range) : Bool :=
  match t.lweb with
  | none => false
  | some e => intersect ⟨e + 1, c.len - (e + 1)⟩ r

/-- `intersect_reservation` (common_ring_buffer.rs:341-347). -/
def Core.intersectReservation (c : Core) (t : Temp) (r : Range) : Bool :=
  intersect r t.range || c.intersectWrapGap t r

/-- `calculate_next_write_start` (common_ring_buffer.rs:450-474). -/
def Core.calcNextWriteStart (c : Core) (writeSize : Nat) : Temp :=
  if c.nws + writeSize ≤ c.len then
    { range := ⟨c.nws, writeSize⟩, nws := c.nws + writeSize, lweb := none }
  else
    { range := ⟨0, writeSize⟩, nws := writeSize, lweb := some (c.nws - 1) }

/-- `start_reserve_common` (common_ring_buffer.rs:477-528).  Returns the updated statistics and the
size of the record including its header. -/
def Core.startReserve (c : Core) (size : Nat) : Core × Except Code Nat :=
  if c.lockCount > 0 then (c.refused size, .error .failedPrecondition)
  else if c.pendingReset then (c.refused size, .error .unavailable)
  else if size + c.xb ≥ 2 ^ 32 ∨ size = 0 ∨ size + c.xb > c.len then
    -- 500-525: the bytes are not counted in this case
    ({ c with stats := { c.stats with recordsRefused := c.stats.recordsRefused + 1 } },
      .error .invalidArgument)
  else (c, .ok (size + c.xb))

/-- `advance_next_commited_write_start` (common_ring_buffer.rs:546-593). -/
def Core.advanceCommitted (c : Core) (r : Range) : Core :=
  { c with
    cws := some r.start
    nrs := match c.nrs with | none => some r.start | some x => some x
    ncrs := match c.ncrs with | none => some r.start | some x => some x
    stats := { c.stats with
      totalBytesWritten := c.stats.totalBytesWritten + r.size
      recordsWritten := c.stats.recordsWritten + 1
      bytesWritten := c.stats.bytesWritten + (r.size - c.xb) } }

/-- `advance_next_read(size, Cursor::No)` (common_ring_buffer.rs:596-632). -/
def Core.advanceRead (c : Core) (size : Nat) : Core :=
  match c.nrs, c.cws with
  | some n, some w =>
    if n ≠ w then
      if c.lweb = some (n + size - 1) then { c with lweb := none, nrs := some 0 }
      else { c with nrs := some (n + size) }
    else { c with nrs := none, cws := none }
  | _, _ => { c with panicked := true }

/-- `advance_next_read(size, Cursor::Yes)` (common_ring_buffer.rs:596-632). -/
def Core.advanceCursor (c : Core) (size : Nat) : Core :=
  match c.ncrs, c.cws with
  | some n, some w =>
    if n ≠ w then
      if c.lweb = some (n + size - 1) then { c with ncrs := some 0 }
      else { c with ncrs := some (n + size) }
    else { c with ncrs := none }
  | _, _ => { c with panicked := true }

/-- `total_data_loss_reset` (common_ring_buffer.rs:697-710). -/
def Core.totalReset (c : Core) : Core :=
  { c with nws := 0, cws := none, lweb := none, nrs := none, ncrs := none, mem := fun _ => 0 }

/-- `on_total_data_loss` (common_ring_buffer.rs:713-732).  `busy` is the disjunction of the two
reservation callbacks. -/
def Core.onTotalDataLoss (c : Core) (busy : Bool) : Core :=
  let c := { c with stats := { c.stats with totalDataLoss := c.stats.totalDataLoss + 1 } }
  if busy then { c with pendingReset := true } else c.totalReset

/-- `maybe_do_total_data_loss_reset` (common_ring_buffer.rs:670-683). -/
def Core.maybeReset (c : Core) (busy : Bool) : Core :=
  if c.pendingReset ∧ ¬ busy then ({ c with pendingReset := false }).totalReset else c

/-- The loop of `advance_next_read_due_to_write` (common_ring_buffer.rs:358-446).  `fuel` bounds the
number of iterations; running out of it is reported as a panic (and proved impossible). -/
def Core.advanceForWrite (c : Core) (busy : Bool) (t : Temp) (block : Bool) :
    Nat → Core × Res Unit
  | 0 => ({ c with panicked := true }, .err .dataLoss)
  | fuel + 1 =>
    match c.nrs with
    | none => (c, .ok ())
    | some n =>
      match c.loadSize n with
      | none => ((c.onTotalDataLoss busy).refused t.range.size, .err .unavailable)
      | some sz =>
        if c.intersectReservation t ⟨n, sz + c.xb⟩ then
          if !c.overwrite then
            if !block then (c, .err .unavailable)
            else if c.shutdown then (c, .err .aborted)
            else (c, .blocked)
          else
            let c1 := { c with stats := { c.stats with
              recordsOverwritten := c.stats.recordsOverwritten + 1
              bytesOverwritten := c.stats.bytesOverwritten + sz } }
            ((c1.zeroExtra n).advanceRead (sz + c.xb)).advanceForWrite busy t block fuel
        else (c, .ok ())

/-- Bound on the iterations of `advanceForWrite`: every iteration moves `next_read_start` forward by
at least one byte and it wraps at most once. -/
def Core.advanceFuel (c : Core) : Nat := 2 * c.len + 4

/-- The index updates that end a successful `reserve` (volatile_ring_buffer.rs:135-145,
non_volatile_ring_buffer.rs:173-179). -/
def Core.applyReservation (c : Core) (t : Temp) (size : Nat) : Core :=
  let c1 := { c with nws := t.nws, lweb := match t.lweb with | some e => some e | none => c.lweb }
  c1.finishReservation t.range.start size

/-- Outcome of the size loading loop of `start_read` (common_ring_buffer.rs:736-842) in
`Cursor::No` mode: the reserved range, without the memory slices. -/
def Core.startRead (c : Core) (busy block : Bool) (reserved : Option Range) : Core × Res Range :=
  if reserved.isSome then (c, .err .invalidArgument)
  else if c.pendingReset then (c, .err .unavailable)
  else
    -- 763-796: nothing to read
    let noData (c : Core) : Core × Res Range :=
      if block then (if c.shutdown then (c, .err .aborted) else (c, .blocked))
      else ({ c with readable := false }, .err .unavailable)
    match c.nrs with
    | none => noData c
    | some n =>
      match c.loadSize n with
      | some sz => (c, .ok ⟨n, sz + c.xb⟩)
      | none =>
        -- 800-804: total data loss, then back to the top of the loop
        let c := c.onTotalDataLoss busy
        if c.pendingReset then (c, .err .unavailable) else noData c

/-- `start_read` in `Cursor::Yes` mode (common_ring_buffer.rs:736-842). -/
def Core.startReadCursor (c : Core) (busy block : Bool) : Core × Res Range :=
  if c.pendingReset then (c, .err .unavailable)
  else
    let noData (c : Core) : Core × Res Range :=
      if block then (if c.shutdown then (c, .err .aborted) else (c, .blocked))
      else ({ c with readable := false }, .err .unavailable)
    match c.ncrs with
    | none => noData c
    | some n =>
      match c.loadSize n with
      | some sz => (c.advanceCursor (sz + c.xb), .ok ⟨n, sz + c.xb⟩)
      | none =>
        let c := c.onTotalDataLoss busy
        if c.pendingReset then (c, .err .unavailable) else noData c

/-- `finish_read_common` (common_ring_buffer.rs:635-667).  The second component says whether the
callers of `wait_for_drain` were woken.  `busy` is evaluated after the caller released its own
reservation. -/
def Core.finishRead (c : Core) (busy : Bool) (r : Range) : Core × Bool :=
  let c := c.advanceRead r.size
  let c := { c with stats := { c.stats with
    totalBytesRead := c.stats.totalBytesRead + r.size
    recordsRead := c.stats.recordsRead + 1
    bytesRead := c.stats.bytesRead + (r.size - c.xb) } }
  let woken := match c.drain with
    | some none => true
    | some (some t) => decide (t = r.start)
    | none => false
  let c := if woken then { c with drain := none } else c
  (c.maybeReset busy, woken)

/-- `wait_for_drain` (common_ring_buffer.rs:845-861): `true` when the caller has to wait. -/
def Core.waitForDrain (c : Core) (hasRead : Bool) : Core × Bool :=
  if hasRead || c.nrs.isSome then ({ c with drain := some c.cws }, true) else (c, false)

/-- `shutdown_common` (common_ring_buffer.rs:864-872). -/
def Core.doShutdown (c : Core) : Core :=
  if c.shutdown then c else { c with shutdown := true, lockCount := c.lockCount + 1 }

/-! ### Volatile ring buffer -/

/-- `Reservation` (volatile_ring_buffer.rs:44-48) together with the producer that owns it.  A
producer's pointer to its reservation is non-null exactly while an uncommitted entry with its
identity is in the queue. -/
structure Resv where
  owner : Nat
  range : Range
  committed : Bool
  deriving DecidableEq, Repr

/-- The volatile ring buffer: `LockedData` plus `ExtraLockedData`
(volatile_ring_buffer.rs:375-383).  `consumer = some r` when a consumer is registered, `r` being its
read reservation.  The intrusive queue with free list (intrusive_queue_with_free_list.rs) is a
list. -/
structure Vol where
  core : Core
  consumer : Option (Option Range)
  resv : List Resv

/-- `RingBufferImpl::new` (volatile_ring_buffer.rs:445-489).  The memory is uninitialised, so its
content is a parameter. -/
def Vol.new (len : Nat) (mem : Mem) : Vol :=
  { core := { len := len, xb := 4, overwrite := true, mem := mem, nws := 0, cws := none,
              lweb := none, nrs := none, ncrs := none, drain := none, pendingReset := false,
              lockCount := 0, shutdown := false, readable := true, stats := {},
              panicked := false }
    consumer := none
    resv := [] }

/-- `has_read_reservation_cb` (volatile_ring_buffer.rs:474-480). -/
def Vol.hasRead (v : Vol) : Bool :=
  match v.consumer with
  | some (some _) => true
  | _ => false

/-- `has_write_reservation_cb` (volatile_ring_buffer.rs:481). -/
def Vol.hasWrite (v : Vol) : Bool := !v.resv.isEmpty

/-- Whether producer `p` holds an uncommitted reservation (`!self.reservation.0.is_null()`). -/
def Vol.holds (v : Vol) (p : Nat) : Bool := v.resv.any fun r => r.owner == p && !r.committed

/-- The check of `ProducerImpl::reserve` against the range the consumer is reading
(volatile_ring_buffer.rs:66-161). -/
def Vol.readHit (v : Vol) (c : Core) (t : Temp) : Bool :=
  match v.consumer with
  | some (some r) => c.intersectReservation t r
  | _ => false

/-- The check of `ProducerImpl::reserve` against the FIRST outstanding write reservation only
(volatile_ring_buffer.rs:66-161). -/
def Vol.writeHit (v : Vol) (c : Core) (t : Temp) : Bool :=
  match v.resv.head? with
  | some r => c.intersectReservation t r.range
  | none => false

/-- `ProducerImpl::reserve` (volatile_ring_buffer.rs:66-161).  On success the result is the slice
handed to the producer: its first index and its length. -/
def Vol.reserve (v : Vol) (p size : Nat) : Vol × Res Range :=
  if v.holds p then (v, .err .invalidArgument)
  else
    match v.core.startReserve size with
    | (c, .error e) => ({ v with core := c }, .err e)
    | (c, .ok actual) =>
      let t := c.calcNextWriteStart actual
      if v.readHit c t then
        ({ v with core := c.refused size }, .err .resourceExhausted)
      else if v.writeHit c t then
        ({ v with core := c.refused size }, .err .resourceExhausted)
      else
        match c.advanceForWrite (v.hasRead || v.hasWrite) t true c.advanceFuel with
        | (c, .ok ()) =>
          ({ v with core := c.applyReservation t size
                    resv := v.resv ++ [⟨p, t.range, false⟩] },
            .ok ⟨t.range.start + c.xb, size⟩)
        | (c, .err e) => ({ v with core := c }, .err e)
        | (c, .blocked) => ({ v with core := c }, .blocked)

/-- The producer stores `bytes` at offset `off` of the slice it was handed; no lock is held.  Slice
bounds are enforced by Rust, so an out of range store is rejected. -/
def Vol.write (v : Vol) (p off : Nat) (bytes : List UInt8) : Vol × Res Unit :=
  match v.resv.find? fun r => r.owner == p && !r.committed with
  | none => (v, .err .invalidArgument)
  | some r =>
    if off + bytes.length ≤ r.range.size - v.core.xb then
      ({ v with core := { v.core with
          mem := writeMem v.core.mem (r.range.start + v.core.xb + off) bytes } }, .ok ())
    else (v, .err .invalidArgument)

/-- Mark the reservation of `p` as committed (volatile_ring_buffer.rs:179-186). -/
def markCommitted (p : Nat) (l : List Resv) : List Resv :=
  l.map fun r => if r.owner == p && !r.committed then { r with committed := true } else r

/-- The loop that pops committed reservations (volatile_ring_buffer.rs:189-209). -/
def popCommitted (c : Core) : List Resv → Core × List Resv
  | [] => (c, [])
  | r :: rest => if r.committed then popCommitted (c.advanceCommitted r.range) rest
                 else (c, r :: rest)

/-- `ProducerImpl::commit` (volatile_ring_buffer.rs:163-218). -/
def Vol.commit (v : Vol) (p : Nat) : Vol × Res Unit :=
  if !v.holds p then (v, .err .invalidArgument)
  else
    let (c, l) := popCommitted { v.core with readable := true } (markCommitted p v.resv)
    ({ v with core := c, resv := l }, .ok ())

/-- `register_consumer` (volatile_ring_buffer.rs:505-521). -/
def Vol.registerConsumer (v : Vol) : Vol × Res Unit :=
  match v.consumer with
  | some _ => (v, .err .failedPrecondition)
  | none => ({ v with consumer := some none }, .ok ())

/-- `Drop for ConsumerImpl` (volatile_ring_buffer.rs:361-369). -/
def Vol.dropConsumer (v : Vol) : Vol := { v with consumer := none }

/-- `ConsumerImpl::start_read` (volatile_ring_buffer.rs:231-264, 306-320): the record data and the
address of the slice.  Without a registered consumer there is no object to call. -/
def Vol.startRead (v : Vol) (block : Bool) : Vol × Res (Range × List UInt8) :=
  match v.consumer with
  | none => (v, .err .failedPrecondition)
  | some res =>
    match v.core.startRead (v.hasRead || v.hasWrite) block res with
    | (c, .ok r) =>
      ({ v with core := c, consumer := some (some r) },
        .ok (⟨r.start + c.xb, r.size - c.xb⟩, readMem c.mem (r.start + c.xb) (r.size - c.xb)))
    | (c, .err e) => ({ v with core := c }, .err e)
    | (c, .blocked) => ({ v with core := c }, .blocked)

/-- `ConsumerImpl::finish_read` (volatile_ring_buffer.rs:322-358). -/
def Vol.finishRead (v : Vol) : Vol × Res Bool :=
  match v.consumer with
  | none => (v, .err .failedPrecondition)
  | some none => (v, .err .invalidArgument)
  | some (some r) =>
    let (c, woken) := v.core.finishRead v.hasWrite r
    ({ v with core := c, consumer := some none }, .ok woken)

/-- The calls a client (any number of producers, one consumer, flushers, lock holders) can make. -/
inductive Op where
  | reserve (p size : Nat)
  | write (p off : Nat) (bytes : List UInt8)
  | commit (p : Nat)
  | registerConsumer
  | dropConsumer
  | startRead (block : Bool)
  | finishRead
  | waitForDrain
  | lock
  | unlock
  | shutdown
  deriving DecidableEq, Repr

/-- What the caller gets back. -/
inductive Out where
  /-- `reserve`: the slice handed out -/
  | slice (r : Res Range)
  /-- `start_read`: address and content of the slice handed out -/
  | record (r : Res (Range × List UInt8))
  /-- `finish_read`: whether drain waiters were woken -/
  | finished (r : Res Bool)
  /-- the other calls -/
  | unit (r : Res Unit)
  /-- `wait_for_drain`: `true` when the caller is parked -/
  | drain (waits : Bool)
  deriving DecidableEq, Repr

/-- One API call.  `lock`/`unlock` are `lock_common` and the drop of the handle
(common_ring_buffer.rs:86-95, 875-885). -/
def Vol.step (v : Vol) : Op → Vol × Out
  | .reserve p size => let (v, r) := v.reserve p size; (v, .slice r)
  | .write p off bytes => let (v, r) := v.write p off bytes; (v, .unit r)
  | .commit p => let (v, r) := v.commit p; (v, .unit r)
  | .registerConsumer => let (v, r) := v.registerConsumer; (v, .unit r)
  | .dropConsumer => (v.dropConsumer, .unit (.ok ()))
  | .startRead b => let (v, r) := v.startRead b; (v, .record r)
  | .finishRead => let (v, r) := v.finishRead; (v, .finished r)
  | .waitForDrain =>
    let (c, w) := v.core.waitForDrain v.hasRead
    ({ v with core := c }, .drain w)
  | .lock => ({ v with core := { v.core with lockCount := v.core.lockCount + 1 } }, .unit (.ok ()))
  | .unlock => ({ v with core := { v.core with lockCount := v.core.lockCount - 1 } }, .unit (.ok ()))
  | .shutdown => ({ v with core := v.core.doShutdown }, .unit (.ok ()))

/-- A sequence of API calls, in the order in which their critical sections execute. -/
def Vol.run (v : Vol) : List Op → Vol × List Out
  | [] => (v, [])
  | op :: ops =>
    let (v1, o) := v.step op
    let (v2, os) := v1.run ops
    (v2, o :: os)

end Verif.Buffer
