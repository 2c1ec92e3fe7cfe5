import Verif.Buffer.Model

/-
Independent specification of the volatile ring buffer: a bounded FIFO of slots.

A slot is what `reserve` hands to a producer.  The specification knows where slots live (their
address is observable, it is the slice the caller receives), but it has no read/commit pointers, no
wrap marker, no in-memory sizes and no ring traversal: it is a plain list, oldest slot first.
Bytes a producer has not stored yet are unknown (`none`).
-/
namespace Verif.Buffer

/-- Bytes of bookkeeping in front of every record (a `u32` size). -/
def headerBytes : Nat := 4

/-- A reservation that has not been read to completion, dropped or overwritten. -/
structure Slot where
  /-- how many reservations were granted before this one -/
  id : Nat
  owner : Nat
  /-- first byte of the header -/
  start : Nat
  /-- number of data bytes -/
  size : Nat
  /-- what the producer stored so far -/
  data : List (Option UInt8)
  committed : Bool
  deriving DecidableEq, Repr

/-- One past the last byte of the slot. -/
def Slot.stop (s : Slot) : Nat := s.start + headerBytes + s.size

/-- The slot shares at least one byte with `[a, b)`. -/
def Slot.overlaps (s : Slot) (a b : Nat) : Bool := decide (max s.start a < min s.stop b)

/-- Abstract state. -/
structure Fifo where
  len : Nat
  /-- where the next record would go -/
  next : Nat
  /-- oldest first -/
  slots : List Slot
  /-- `some b`: a consumer is registered, and `b` says whether it is holding the oldest record -/
  consumer : Option Bool
  locks : Nat
  shutdown : Bool
  /-- number of reservations granted so far -/
  granted : Nat
  /-- address of the record a flush waits for -/
  drain : Option Nat
  lostRecords : Nat
  lostBytes : Nat
  refusedRecords : Nat
  refusedBytes : Nat
  deriving DecidableEq, Repr

def Fifo.new (len : Nat) : Fifo :=
  { len := len, next := 0, slots := [], consumer := none, locks := 0, shutdown := false,
    granted := 0, drain := none, lostRecords := 0, lostBytes := 0, refusedRecords := 0,
    refusedBytes := 0 }

/-- Records that can be read: the committed ones not preceded by an uncommitted one. -/
def Fifo.visible (f : Fifo) : List Slot := f.slots.takeWhile (·.committed)

/-- Where a record of `n` bytes (header included) goes: right after the previous one if that fits
before the end of memory, at the start of memory otherwise. -/
def Fifo.place (f : Fifo) (n : Nat) : Nat := if f.next + n ≤ f.len then f.next else 0

/-- The record placed there needs the bytes the slot occupies: those of the record itself, and, when
it moves to the start of memory, the abandoned rest of the memory. -/
def Fifo.inTheWay (f : Fifo) (n : Nat) (s : Slot) : Bool :=
  if f.next + n ≤ f.len then s.overlaps f.next (f.next + n)
  else s.overlaps 0 n || s.overlaps f.next f.len

/-- `i`-th slot is being read. -/
def Fifo.isRead (f : Fifo) (s : Slot) : Bool :=
  f.consumer == some true && (f.slots.head?.map (·.id)) == some s.id

/-- A slot that may not be overwritten. -/
def Fifo.pinned (f : Fifo) (s : Slot) : Bool := !s.committed || f.isRead s

def Fifo.refuse (f : Fifo) (bytes : Nat) : Fifo :=
  { f with refusedRecords := f.refusedRecords + 1, refusedBytes := f.refusedBytes + bytes }

def sumSizes (l : List Slot) : Nat := (l.map (·.size)).sum

/-- Reserve: refused when the producer already holds a slot, the buffer is locked, the size is zero
or can never fit, or a pinned slot is in the way; otherwise exactly the slots in the way are lost
and the new slot goes to the end. -/
def Fifo.reserve (f : Fifo) (p size : Nat) : Fifo × Res Range :=
  let n := size + headerBytes
  if f.slots.any (fun s => s.owner == p && !s.committed) then (f, .err .invalidArgument)
  else if f.locks > 0 then (f.refuse size, .err .failedPrecondition)
  else if size = 0 ∨ n > f.len then (f.refuse 0, .err .invalidArgument)
  else if f.slots.any (fun s => f.inTheWay n s && f.pinned s) then
    (f.refuse size, .err .resourceExhausted)
  else
    let lost := f.slots.filter (f.inTheWay n)
    let new : Slot := { id := f.granted, owner := p, start := f.place n, size := size,
                        data := List.replicate size none, committed := false }
    ({ f with
        slots := f.slots.filter (fun s => !f.inTheWay n s) ++ [new]
        next := f.place n + n
        granted := f.granted + 1
        lostRecords := f.lostRecords + lost.length
        lostBytes := f.lostBytes + sumSizes lost },
      .ok ⟨f.place n + headerBytes, size⟩)

/-- Store bytes into a slot. -/
def Slot.store (s : Slot) (off : Nat) (bytes : List UInt8) : Slot :=
  { s with data := s.data.take off ++ bytes.map some ++ s.data.drop (off + bytes.length) }

def Fifo.write (f : Fifo) (p off : Nat) (bytes : List UInt8) : Fifo × Res Unit :=
  if f.slots.any (fun s => s.owner == p && !s.committed
      && decide (off + bytes.length ≤ s.size)) then
    ({ f with slots := f.slots.map fun s =>
        if s.owner == p && !s.committed then s.store off bytes else s }, .ok ())
  else (f, .err .invalidArgument)

def Fifo.commit (f : Fifo) (p : Nat) : Fifo × Res Unit :=
  if f.slots.any (fun s => s.owner == p && !s.committed) then
    ({ f with slots := f.slots.map fun s =>
        if s.owner == p && !s.committed then { s with committed := true } else s }, .ok ())
  else (f, .err .invalidArgument)

/-- Abstract results: as `Out`, with unknown bytes. -/
inductive SOut where
  | slice (r : Res Range)
  | record (r : Res (Range × List (Option UInt8)))
  | finished (r : Res Bool)
  | unit (r : Res Unit)
  | drain (waits : Bool)
  deriving DecidableEq, Repr

/-- The bytes agree wherever the specification knows them. -/
def bytesAgree (bs : List UInt8) (d : List (Option UInt8)) : Prop :=
  bs.length = d.length ∧ ∀ (i : Nat) (b : UInt8), d[i]? = some (some b) → bs[i]? = some b

/-- The concrete result is the abstract one, up to unknown bytes. -/
def Out.agrees : Out → SOut → Prop
  | .slice r, .slice r' => r = r'
  | .record (.ok (a, bs)), .record (.ok (a', d)) => a = a' ∧ bytesAgree bs d
  | .record (.err e), .record (.err e') => e = e'
  | .record .blocked, .record .blocked => True
  | .finished r, .finished r' => r = r'
  | .unit r, .unit r' => r = r'
  | .drain b, .drain b' => b = b'
  | _, _ => False

def Fifo.startRead (f : Fifo) (block : Bool) : Fifo × Res (Range × List (Option UInt8)) :=
  match f.consumer with
  | none => (f, .err .failedPrecondition)
  | some true => (f, .err .invalidArgument)
  | some false =>
    match f.visible with
    | s :: _ => ({ f with consumer := some true }, .ok (⟨s.start + headerBytes, s.size⟩, s.data))
    | [] => (f, if block then (if f.shutdown then .err .aborted else .blocked)
                else .err .unavailable)

def Fifo.finishRead (f : Fifo) : Fifo × Res Bool :=
  match f.consumer with
  | none => (f, .err .failedPrecondition)
  | some false => (f, .err .invalidArgument)
  | some true =>
    let woken := f.drain.isSome && f.drain == (f.slots.head?.map (·.start))
    ({ f with slots := f.slots.tail, consumer := some false,
              drain := if woken then none else f.drain }, .ok woken)

def Fifo.step (f : Fifo) : Op → Fifo × SOut
  | .reserve p size => let (f, r) := f.reserve p size; (f, .slice r)
  | .write p off bytes => let (f, r) := f.write p off bytes; (f, .unit r)
  | .commit p => let (f, r) := f.commit p; (f, .unit r)
  | .registerConsumer =>
    match f.consumer with
    | some _ => (f, .unit (.err .failedPrecondition))
    | none => ({ f with consumer := some false }, .unit (.ok ()))
  | .dropConsumer => ({ f with consumer := none }, .unit (.ok ()))
  | .startRead b => let (f, r) := f.startRead b; (f, .record r)
  | .finishRead => let (f, r) := f.finishRead; (f, .finished r)
  | .waitForDrain =>
    match f.visible.getLast? with
    | some s => ({ f with drain := some s.start }, .drain true)
    | none => (f, .drain false)
  | .lock => ({ f with locks := f.locks + 1 }, .unit (.ok ()))
  | .unlock => ({ f with locks := f.locks - 1 }, .unit (.ok ()))
  | .shutdown =>
    (if f.shutdown then f else { f with shutdown := true, locks := f.locks + 1 }, .unit (.ok ()))

def Fifo.run (f : Fifo) : List Op → Fifo × List SOut
  | [] => (f, [])
  | op :: ops =>
    let (f1, o) := f.step op
    let (f2, os) := f1.run ops
    (f2, o :: os)

end Verif.Buffer
