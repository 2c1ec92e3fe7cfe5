import Verif.Buffer.NVModel

/-
Independent specification of the persistent ring buffer: a queue of items.

There is no ring, no wrap marker and no read or commit pointer here.  Where a new record goes and
whether it is refused is left open (`PQ.allows` is a relation); what is pinned down is which records
are in the queue, in which order, and what a reader gets.

Every item remembers the checksum stored with it.  A committed record has the right one, an abandoned
reservation (`dropProducer` or `restart` between `reserve` and `commit`) has zero, and so does a
record that a plain consumer started to read.

`broken` marks the histories about which nothing is promised:
* the size field of a live record is altered;
* a cursor consumer meets a record with a wrong checksum, or is registered while the cursor is not at
  the oldest record (the code has a TODO about that, non_volatile_ring_buffer.rs:944-947).
-/
namespace Verif.Buffer

structure Item where
  start : Nat
  size : Nat
  data : List UInt8
  stored : Nat
  deriving DecidableEq, Repr

inductive Reader where
  /-- plain consumer, `true` while it holds the oldest record -/
  | plain (busy : Bool)
  /-- cursor consumer with `n` records read and not acknowledged -/
  | cursor (n : Nat)
  deriving DecidableEq, Repr

structure PQ where
  crc : Bool
  overwrite : Bool
  /-- the queue, oldest first -/
  items : List Item
  /-- abandoned reservations newer than the last committed record -/
  holes : List Item
  /-- `some p`: a producer is registered, `p` is its reservation -/
  producer : Option (Option Item)
  reader : Option Reader
  /-- number of items in front of the cursor, when that is known -/
  cpos : Option Nat
  broken : Bool
  deriving DecidableEq, Repr

/-- Header bytes of a record: the size and, with per record checksums, the checksum. -/
def PQ.hb (q : PQ) : Nat := if q.crc then 8 else 4

def PQ.pend (q : PQ) : List Item :=
  match q.producer with
  | some (some p) => [p]
  | _ => []

/-- Everything that occupies space. -/
def PQ.live (q : PQ) : List Item := q.items ++ q.holes ++ q.pend

/-- The checksum a record should have covers its size and its data. -/
def Item.sum (K : Crc) (it : Item) : Nat := K.sum (le32 it.size ++ it.data)

/-- A reader accepts the item. -/
def PQ.passes (K : Crc) (q : PQ) (it : Item) : Bool := !q.crc || decide (it.sum K = it.stored)

/-- An empty queue forgets its holes: no reader can reach them any more. -/
def holesAfter (items holes : List Item) : List Item := if items.isEmpty then [] else holes

/-- The oldest `n` items leave the queue. -/
def PQ.drop (q : PQ) (n : Nat) : PQ :=
  { q with
    items := q.items.drop n
    holes := holesAfter (q.items.drop n) q.holes
    cpos := q.cpos.bind fun k => if n ≤ k then some (k - n) else none }

/-- The reservation of the producer, if any, is abandoned. -/
def PQ.abandon (q : PQ) : PQ :=
  { q with holes := holesAfter q.items (q.holes ++ q.pend), producer := none }

def Item.store (it : Item) (off : Nat) (bytes : List UInt8) : Item :=
  { it with data := it.data.take off ++ bytes ++ it.data.drop (off + bytes.length) }

def PQ.write (q : PQ) (off : Nat) (bytes : List UInt8) : PQ × Res Unit :=
  match q.producer with
  | some (some p) =>
    if off + bytes.length ≤ p.size then
      ({ q with producer := some (some (p.store off bytes)) }, .ok ())
    else (q, .err .invalidArgument)
  | _ => (q, .err .invalidArgument)

/-- The record gets its checksum and goes to the end of the queue, with the abandoned reservations
before it. -/
def PQ.commit (K : Crc) (q : PQ) : PQ × Res Unit :=
  match q.producer with
  | some (some p) =>
    let p := if q.crc then { p with stored := p.sum K } else p
    ({ q with
        items := q.items ++ q.holes ++ [p]
        holes := []
        producer := some none
        cpos := q.cpos.bind fun k =>
          if k < q.items.length ∨ q.holes = [] then some k else none
        broken := q.broken || (match q.reader with
          | some (.cursor n) => decide (n = q.items.length) && !q.holes.isEmpty
          | _ => false) },
      .ok ())
  | some none => (q, .err .invalidArgument)
  | none => (q, .err .failedPrecondition)

/-- Nothing to read. -/
def nothing {α : Type} (block : Bool) (r : Res α) : Prop :=
  if block then r = .blocked ∨ r = .err .aborted else r = .err .unavailable

/-- The oldest item loses its checksum. -/
def PQ.spoil (q : PQ) : PQ :=
  if q.crc then
    { q with items := match q.items with
        | it :: rest => { it with stored := 0 } :: rest
        | [] => [] }
  else q

def PQ.slice (q : PQ) (it : Item) : Range × List UInt8 := (⟨it.start + q.hb, it.size⟩, it.data)

/-- Number of items in front of the first acceptable one. -/
def PQ.bad (K : Crc) (q : PQ) : Nat := (q.items.takeWhile fun it => !q.passes K it).length

/-- A plain consumer skips, and removes, the unacceptable records and gets the first acceptable
one. -/
def PQ.startRead (K : Crc) (q : PQ) (block : Bool) (q' : PQ) (r : Res (Range × List UInt8)) : Prop :=
  match q.reader with
  | some (.plain false) =>
    match q.items.find? (q.passes K) with
    | some it => q' = { (q.drop (q.bad K)).spoil with reader := some (.plain true) } ∧
        r = .ok (q.slice it)
    | none => q' = q.drop q.items.length ∧ nothing block r
  | some (.plain true) => q' = q ∧ r = .err .invalidArgument
  | _ => q' = q ∧ r = .err .failedPrecondition

def PQ.finishRead (q : PQ) (q' : PQ) (r : Res Bool) : Prop :=
  match q.reader with
  | some (.plain true) => q' = { q.drop 1 with reader := some (.plain false) } ∧ ∃ b, r = .ok b
  | some (.plain false) => q' = q ∧ r = .err .invalidArgument
  | _ => q' = q ∧ r = .err .failedPrecondition

/-- A cursor consumer gets the first record it has not read; nothing leaves the queue. -/
def PQ.cursorRead (K : Crc) (q : PQ) (block : Bool) (q' : PQ) (r : Res (Range × List UInt8)) : Prop :=
  match q.reader with
  | some (.cursor n) =>
    match q.items[n]? with
    | some it =>
      if q.passes K it then
        q' = { q with reader := some (.cursor (n + 1)), cpos := some (n + 1) } ∧ r = .ok (q.slice it)
      else q'.broken = true
    | none => q' = q ∧ nothing block r
  | _ => q' = q ∧ r = .err .failedPrecondition

/-- An acknowledgement removes the oldest record. -/
def PQ.ack (q : PQ) (q' : PQ) (r : Res Bool) : Prop :=
  match q.reader with
  | some (.cursor (n + 1)) => q' = { q.drop 1 with reader := some (.cursor n) } ∧ ∃ b, r = .ok b
  | _ => q' = q ∧ r = .err .failedPrecondition

/-- Refused, or granted with some bytes in it; only an overwriting buffer may drop items for it, and
never the one being read. -/
def PQ.reserve (q : PQ) (q' : PQ) (r : Res Range) : Prop :=
  (q' = q ∧ ∀ a, r ≠ .ok a) ∨
  (q.producer = some none ∧ ∃ n start size data,
    (n = 0 ∨ (q.overwrite = true ∧ q.reader ≠ some (.plain true) ∧ n ≤ q.items.length)) ∧
    data.length = size ∧
    q' = { q.drop n with producer := some (some ⟨start, size, data, 0⟩) } ∧
    r = .ok ⟨start + q.hb, size⟩)

/-- One byte of the memory changes. -/
def Item.poke (hb : Nat) (crc : Bool) (addr : Nat) (b : UInt8) (it : Item) : Item :=
  if it.start + hb ≤ addr ∧ addr < it.start + hb + it.size then
    { it with data := it.data.set (addr - (it.start + hb)) b }
  else if crc ∧ it.start ≤ addr ∧ addr < it.start + 4 then
    { it with stored := ofLe32 ((le32 it.stored).set (addr - it.start) b) }
  else it

def Item.sizeAt (hb : Nat) (addr : Nat) (it : Item) : Bool :=
  decide (it.start + (hb - 4) ≤ addr) && decide (addr < it.start + hb)

def PQ.alter (q : PQ) (addr : Nat) (b : UInt8) : PQ :=
  { q with
    items := q.items.map (Item.poke q.hb q.crc addr b)
    holes := q.holes.map (Item.poke q.hb q.crc addr b)
    producer := q.producer.map fun p => p.map (Item.poke q.hb q.crc addr b)
    broken := q.broken || q.live.any (Item.sizeAt q.hb addr) }

/-- What may happen. -/
def PQ.allows (K : Crc) (q : PQ) (op : NOp) (q' : PQ) (o : Out) : Prop :=
  match op with
  | .registerProducer =>
    match q.producer with
    | some _ => q' = q ∧ o = .unit (.err .failedPrecondition)
    | none => q' = { q with producer := some none } ∧ o = .unit (.ok ())
  | .dropProducer => q' = q.abandon ∧ o = .unit (.ok ())
  | .reserve _ _ => ∃ r, o = .slice r ∧ q.reserve q' r
  | .resume => ∃ r, o = .slice r ∧ q.reserve q' r
  | .write off bytes => q' = (q.write off bytes).1 ∧ o = .unit (q.write off bytes).2
  | .commit => q' = (q.commit K).1 ∧ o = .unit (q.commit K).2
  | .registerConsumer =>
    match q.reader with
    | some _ => q' = q ∧ o = .unit (.err .failedPrecondition)
    | none => q' = { q with reader := some (.plain false) } ∧ o = .unit (.ok ())
  | .registerCursor =>
    if q.reader.isSome ∨ q.overwrite then q' = q ∧ o = .unit (.err .failedPrecondition)
    else if q.cpos = some 0 then
      q' = { q with reader := some (.cursor 0) } ∧ o = .unit (.ok ())
    else q'.broken = true ∧ o = .unit (.ok ())
  | .dropConsumer => q' = { q with reader := none } ∧ o = .unit (.ok ())
  | .startRead b => ∃ r, o = .record r ∧ q.startRead K b q' r
  | .finishRead => ∃ r, o = .finished r ∧ q.finishRead q' r
  | .cursorRead b => ∃ r, o = .record r ∧ q.cursorRead K b q' r
  | .ack => ∃ r, o = .finished r ∧ q.ack q' r
  | .waitForDrain => q' = q ∧ ∃ w, o = .drain w
  | .lock => q' = q ∧ o = .unit (.ok ())
  | .unlock => q' = q ∧ o = .unit (.ok ())
  | .shutdown => q' = q ∧ o = .unit (.ok ())
  | .alter addr b => q' = q.alter addr b ∧ o = .unit (.ok ())
  | .restart => q' = { q.abandon with reader := none, cpos := some 0 } ∧ o = .unit (.ok ())

/-- A producer parked inside `reserve` cannot be used. -/
def PQ.steps (K : Crc) (q : PQ) (op : NOp) (q' : PQ) (o : Out) : Prop :=
  q.allows K op q' o ∨ (op.usesProducer = true ∧ q' = q ∧ o = .unit .blocked)

/-- A history of the specification, up to the point where it breaks. -/
inductive PQ.Run (K : Crc) : PQ → List NOp → PQ → List Out → Prop
  | nil (q) : Run K q [] q []
  | cons {q q1 q2 : PQ} {op : NOp} {o : Out} {ops : List NOp} {os : List Out} :
      q.steps K op q1 o → q1.broken = false → Run K q1 ops q2 os → Run K q (op :: ops) q2 (o :: os)
  /-- nothing is promised from here on -/
  | broke {q q1 q2 : PQ} {op : NOp} {o : Out} {ops : List NOp} {os : List Out} :
      q.steps K op q1 o → q1.broken = true → q2.broken = true → os.length = ops.length →
      Run K q (op :: ops) q2 (o :: os)

def PQ.new (crc overwrite : Bool) : PQ :=
  { crc := crc, overwrite := overwrite, items := [], holes := [], producer := none, reader := none,
    cpos := some 0, broken := false }

end Verif.Buffer
