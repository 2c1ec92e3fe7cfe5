import Verif.Buffer.NVCrashProps

/-
Model of how a buffer file is opened: `RingBuffer::new` with its second attempt
(bd-buffer/src/ring_buffer.rs:606-681), the size check of `AggregateRingBuffer::new`
(bd-buffer/src/buffer/aggregate_ring_buffer.rs:130-160) and `RingBufferImpl::new` of the persistent
buffer (bd-buffer/src/buffer/non_volatile_ring_buffer.rs:705-887), on whatever is on the disk.

Simplifications
* A file is its length, the two header fields `version` and `size`, and a `File` (NVCrash.lean): the
  index fields, their checksum and the record memory.  A file shorter than the header is given by the
  header it has once it is extended with zeros, which is also how the code first sees it.
* The advisory lock is an input: whether it is granted.  The code holds it only while `new` runs (the
  file handle is a local), so it does not keep two buffers from using one file (see `C50`).
* An `Option<u32>` of the header with an invalid discriminant is not modelled.
* A file name that is not UTF-8 is an error before anything happens and is not modelled.
-/
namespace Verif.Buffer

/-- `FILE_HEADER_CURRENT_VERSION` (non_volatile_ring_buffer.rs:624). -/
def curVersion : Nat := 1

/-- `size_of::<FileHeader>()` (non_volatile_ring_buffer.rs:721). -/
def hdrBytes : Nat := 40

structure Img where
  len : Nat
  version : Nat
  size : Nat
  file : File

/-- A file just created by `open` (non_volatile_ring_buffer.rs:747-755). -/
def Img.empty : Img := ⟨0, 0, 0, ⟨fun _ => 0, 0, none, none, none, 0⟩⟩

/-- The parameters of `RingBuffer::new` that matter here.  `make_buffer` always asks for the record
checksums (ring_buffer.rs:588-601) and `AggregateRingBuffer::new` for blocking
(aggregate_ring_buffer.rs:165). -/
structure Params where
  vol : Nat
  size : Nat
  overwrite : Bool

/-- What the system does during one attempt. -/
structure Io where
  opened : Bool := true
  locked : Bool := true
  measured : Bool := true
  resized : Bool := true
  mapped : Bool := true
  spawned : Bool := true

inductive OpenErr where
  /-- `AbslCode::InvalidArgument` -/
  | invalid
  /-- `AbslCode::DataLoss` -/
  | dataLoss
  /-- `ThreadStartFailure` -/
  | thread
  deriving DecidableEq, Repr

/-- The stores by which a file is initialized. -/
inductive OStore where
  | len (n : Nat)
  | version (v : Nat)
  | size (v : Nat)
  | nws
  | cws
  | lweb
  | nrs
  | crc (v : Nat)
  deriving DecidableEq, Repr

/-- `set_len`: what is cut off is gone, what is added is zero (non_volatile_ring_buffer.rs:782-787). -/
def Img.setLen (n : Nat) (i : Img) : Img :=
  { i with
    len := n
    file := { i.file with mem := fun a => if a + hdrBytes < min i.len n then i.file.mem a else 0 } }

def OStore.apply (i : Img) : OStore → Img
  | .len n => i.setLen n
  | .version v => { i with version := v }
  | .size v => { i with size := v }
  | .nws => { i with file := { i.file with nws := 0 } }
  | .cws => { i with file := { i.file with cws := none } }
  | .lweb => { i with file := { i.file with lweb := none } }
  | .nrs => { i with file := { i.file with nrs := none } }
  | .crc v => { i with file := { i.file with hdr := v } }

/-- `*file_header = FileHeader::default()` (non_volatile_ring_buffer.rs:805). -/
def clearStores : List OStore := [.version 0, .size 0, .nws, .cws, .lweb, .nrs, .crc 0]

/-- The rest of the initialization (non_volatile_ring_buffer.rs:806-813). -/
def fillStores (K : Crc) (size : Nat) : List OStore :=
  [.version curVersion, .size size, .crc (K.hdr 0 none none none)]

def Img.init (K : Crc) (size : Nat) (i : Img) : Img :=
  (clearStores ++ fillStores K size).foldl OStore.apply i

/-- The checks of an existing file (non_volatile_ring_buffer.rs:814-839). -/
def Img.intact (K : Crc) (size : Nat) (i : Img) : Bool :=
  decide (i.version = curVersion) && decide (i.size = size) && decide (i.file.sum K = i.file.hdr)

/-- The buffer over an opened file (non_volatile_ring_buffer.rs:841-887;
common_ring_buffer.rs:920-960). -/
def Params.buffer (p : Params) (f : File) : NV :=
  { core := { len := p.size - hdrBytes, xb := 8, overwrite := p.overwrite, mem := f.mem, nws := f.nws,
              cws := f.cws, lweb := f.lweb, nrs := f.nrs, ncrs := f.nrs, drain := none,
              pendingReset := false, lockCount := 0, shutdown := false, readable := true,
              stats := {}, panicked := false }
    crc := true, blockOnRead := true, hdrCrc := f.hdr
    producer := none, parked := none, consumer := none }

/-- The start of the flush thread (aggregate_ring_buffer.rs:184-189). -/
def started (io : Io) (s : NV) : Except OpenErr NV := if io.spawned then .ok s else .error .thread

/-- `make_buffer`: one attempt, with what it leaves on the disk (aggregate_ring_buffer.rs:130-189;
non_volatile_ring_buffer.rs:705-887). -/
def attempt (K : Crc) (p : Params) (io : Io) (d : Option Img) : Option Img × Except OpenErr NV :=
  if p.size < hdrBytes ∨ p.size - hdrBytes < p.vol then (d, .error .invalid)
  else if io.opened = false then (d, .error .invalid)
  else
    let i := d.getD Img.empty
    if io.locked = false ∨ io.measured = false then (some i, .error .invalid)
    else if i.len = p.size then
      if io.mapped = false then (some i, .error .invalid)
      else if i.intact K p.size then (some i, started io (p.buffer i.file))
      else (some i, .error .dataLoss)
    else if io.resized = false then (some i, .error .invalid)
    else if io.mapped = false then (some (i.setLen p.size), .error .invalid)
    else
      let j := (i.setLen p.size).init K p.size
      (some j, started io (p.buffer j.file))

/-- `RingBuffer::new`: the flag tells that the second attempt was made, and is returned as `deleted`
(ring_buffer.rs:606-681).  `removed` tells whether the file could be removed. -/
def openBuffer (K : Crc) (p : Params) (io io2 : Io) (removed : Bool) (d : Option Img) :
    Option Img × Except OpenErr NV × Bool :=
  let r := attempt K p io d
  match r.2 with
  | .error .dataLoss =>
    let r2 := attempt K p io2 (if removed then none else r.1)
    (r2.1, r2.2, true)
  | _ => (r.1, r.2, false)

/-- The process dies while it opens a file of another length (or a new one): after how much.  The
header is cleared by one assignment, so any of its stores can be done or not. -/
inductive Cut where
  | resized
  | clearing (done : OStore → Bool)
  | versioned
  | sized
  | done

/-- The file a process leaves that died during the initialization
(non_volatile_ring_buffer.rs:782-813). -/
def Img.cut (K : Crc) (size : Nat) (i : Img) : Cut → Img
  | .resized => i.setLen size
  | .clearing done => (clearStores.filter done).foldl OStore.apply (i.setLen size)
  | .versioned => (clearStores ++ (fillStores K size).take 1).foldl OStore.apply (i.setLen size)
  | .sized => (clearStores ++ (fillStores K size).take 2).foldl OStore.apply (i.setLen size)
  | .done => (i.setLen size).init K size

/-- A process dies during `RingBuffer::new`: before it changed anything, or on the way of the
initialization, or after it removed a damaged file (`none`), or on the way after that. -/
inductive Death where
  | before
  | created
  | initializing (c : Cut)
  | removed
  | again (c : Cut)

def die (K : Crc) (p : Params) (d : Option Img) : Death → Option Img
  | .before => d
  | .created => some (d.getD Img.empty)
  | .initializing c =>
    let i := d.getD Img.empty
    if i.len = p.size then some i else some (i.cut K p.size c)
  | .removed =>
    let i := d.getD Img.empty
    if i.len = p.size ∧ i.intact K p.size = false then none else some i
  | .again c =>
    let i := d.getD Img.empty
    if i.len = p.size ∧ i.intact K p.size = false then some (Img.empty.cut K p.size c) else some i

end Verif.Buffer
