import Verif.Buffer.Model

/-
The queue of outstanding reservations at the level of pointers: bd-buffer/src/buffer/intrusive_queue_with_free_list.rs
(`IntrusiveQueueWithFreeList`) and its use by the volatile ring buffer (volatile_ring_buffer.rs:60-218).

`Verif.Buffer.Model` takes the queue to be a list of reservations in which a producer finds its own entry by its identity.  The code has
raw pointers instead: `emplace_back` returns the address of a heap cell, the producer keeps that address, `commit` dereferences it
(`map_mut`, an `unsafe` block whose comment assumes that no popped entry is still pointed to), and popped cells are reused through a
free list.  Here addresses are numbers, 0 being null.

Simplifications
* A cell also stores who emplaced it (`Resv.owner`).  It is written once and never read by the functions below.
* Links between cells are the order of the two lists (the `intrusive_collections` crate is trusted).
* The allocator is an argument of every call: any function that returns a non-null address outside the list of live addresses.
-/
namespace Verif.Buffer

/-- `IntrusiveQueueWithFreeList<Reservation>` (intrusive_queue_with_free_list.rs:28-44): the addresses on the two lists, front first, and
the content of the cells. -/
structure PtrQ where
  queue : List Nat
  free : List Nat
  cells : Nat → Resv

/-- `Box::new`: any allocator that returns a non-null address that is not in use. -/
abbrev Alloc := { f : List Nat → Nat // ∀ l, f l ∉ l ∧ f l ≠ 0 }

/-- The store `*popped.value.get_mut() = value`, or the one of a mutation through `map_mut`. -/
def PtrQ.store (q : PtrQ) (a : Nat) (v : Resv) : PtrQ :=
  { q with cells := fun b => if b = a then v else q.cells b }

/-- `is_empty` (intrusive_queue_with_free_list.rs:62-64). -/
def PtrQ.isEmpty (q : PtrQ) : Bool := q.queue.isEmpty

/-- `front` (intrusive_queue_with_free_list.rs:67-72). -/
def PtrQ.front (q : PtrQ) : Option Resv :=
  match q.queue with
  | [] => none
  | a :: _ => some (q.cells a)

/-- `pop_front` (intrusive_queue_with_free_list.rs:75-79): the cell goes to the front of the free list. -/
def PtrQ.popFront (q : PtrQ) : PtrQ :=
  match q.queue with
  | [] => q
  | a :: rest => { q with queue := rest, free := a :: q.free }

/-- `emplace_back` (intrusive_queue_with_free_list.rs:82-96): reuses the front of the free list, else allocates. -/
def PtrQ.emplaceBack (q : PtrQ) (al : Alloc) (v : Resv) : PtrQ × Nat :=
  match q.free with
  | a :: rest => ({ q.store a v with queue := q.queue ++ [a], free := rest }, a)
  | [] =>
    let a := al.1 (q.queue ++ q.free)
    ({ q.store a v with queue := q.queue ++ [a] }, a)

/-- A producer: the pointer to its reservation (0: null) and the slice it was handed (volatile_ring_buffer.rs:60-63). -/
structure Prod where
  ptr : Nat
  slice : Range
  deriving DecidableEq, Repr

/-- The volatile ring buffer with the pointer queue.  `dangling` records a dereference of an address that is not on the queue, `twice` a
failing `debug_assert!(!reservation.committed)` (volatile_ring_buffer.rs:182). -/
structure PVol where
  core : Core
  consumer : Option (Option Range)
  q : PtrQ
  prod : Nat → Prod
  dangling : Bool
  twice : Bool

/-- `RingBufferImpl::new` with producers whose pointers are null (volatile_ring_buffer.rs:445-503). -/
def PVol.new (len : Nat) (mem : Mem) : PVol :=
  { core := (Vol.new len mem).core, consumer := none, q := ⟨[], [], fun _ => ⟨0, ⟨0, 0⟩, false⟩⟩,
    prod := fun _ => ⟨0, ⟨0, 0⟩⟩, dangling := false, twice := false }

/-- What the list-based model sees: the reservations of the queue, in order. -/
def PVol.view (v : PVol) : Vol := ⟨v.core, v.consumer, v.q.queue.map v.q.cells⟩

def PVol.setProd (v : PVol) (p : Nat) (x : Prod) : PVol :=
  { v with prod := fun p' => if p' = p then x else v.prod p' }

/-- The check against the first reservation (volatile_ring_buffer.rs:106-126). -/
def PVol.writeHit (v : PVol) (c : Core) (t : Temp) : Bool :=
  match v.q.front with
  | some r => c.intersectReservation t r.range
  | none => false

/-- `ProducerImpl::reserve` (volatile_ring_buffer.rs:66-161). -/
def PVol.reserve (v : PVol) (al : Alloc) (p size : Nat) : PVol × Res Range :=
  if (v.prod p).ptr ≠ 0 then (v, .err .invalidArgument)
  else
    match v.core.startReserve size with
    | (c, .error e) => ({ v with core := c }, .err e)
    | (c, .ok actual) =>
      let t := c.calcNextWriteStart actual
      if v.view.readHit c t then
        ({ v with core := c.refused size }, .err .resourceExhausted)
      else if v.writeHit c t then
        ({ v with core := c.refused size }, .err .resourceExhausted)
      else
        match c.advanceForWrite (v.view.hasRead || !v.q.isEmpty) t true c.advanceFuel with
        | (c, .ok ()) =>
          let (q, a) := v.q.emplaceBack al ⟨p, t.range, false⟩
          (({ v with core := c.applyReservation t size, q := q }).setProd p ⟨a, t.range⟩,
            .ok ⟨t.range.start + c.xb, size⟩)
        | (c, .err e) => ({ v with core := c }, .err e)
        | (c, .blocked) => ({ v with core := c }, .blocked)

/-- The producer stores into the slice it was handed; it does not look at the queue. -/
def PVol.write (v : PVol) (p off : Nat) (bytes : List UInt8) : PVol × Res Unit :=
  if (v.prod p).ptr = 0 then (v, .err .invalidArgument)
  else
    let r := (v.prod p).slice
    if off + bytes.length ≤ r.size - v.core.xb then
      ({ v with core := { v.core with
          mem := writeMem v.core.mem (r.start + v.core.xb + off) bytes } }, .ok ())
    else (v, .err .invalidArgument)

/-- The loop that pops committed reservations (volatile_ring_buffer.rs:189-209); it runs at most once per entry of the queue. -/
def popLoop (c : Core) (q : PtrQ) : Nat → Core × PtrQ
  | 0 => (c, q)
  | n + 1 =>
    match q.front with
    | none => (c, q)
    | some r => if r.committed then popLoop (c.advanceCommitted r.range) q.popFront n else (c, q)

/-- `ProducerImpl::commit` (volatile_ring_buffer.rs:163-218): `map_mut` writes through the producer's pointer. -/
def PVol.commit (v : PVol) (p : Nat) : PVol × Res Unit :=
  let a := (v.prod p).ptr
  if a = 0 then (v, .err .invalidArgument)
  else
    let old := v.q.cells a
    let q := v.q.store a { old with committed := true }
    let (c, q) := popLoop { v.core with readable := true } q q.queue.length
    (({ v with core := c, q := q,
               dangling := v.dangling || !v.q.queue.contains a,
               twice := v.twice || old.committed }).setProd p ⟨0, ⟨0, 0⟩⟩, .ok ())

/-- One API call.  The calls that only ask whether there are reservations are those of the list model, on the view. -/
def PVol.step (v : PVol) (al : Alloc) : Op → PVol × Out
  | .reserve p size => let (v, r) := v.reserve al p size; (v, .slice r)
  | .write p off bytes => let (v, r) := v.write p off bytes; (v, .unit r)
  | .commit p => let (v, r) := v.commit p; (v, .unit r)
  | op =>
    let (w, o) := v.view.step op
    ({ v with core := w.core, consumer := w.consumer }, o)

/-- A sequence of API calls, each with the allocator's answer. -/
def PVol.run (v : PVol) : List (Alloc × Op) → PVol × List Out
  | [] => (v, [])
  | (al, op) :: ops =>
    let (v1, o) := v.step al op
    let (v2, os) := v1.run ops
    (v2, o :: os)

end Verif.Buffer
