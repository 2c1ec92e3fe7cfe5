import Verif.Buffer.Model

/-
What an outside observer of the volatile ring buffer knows, computed from the calls made and the
results returned only (no access to the state of the buffer).  Used to state C01 and C02.
-/
namespace Verif.Buffer

/-- One granted `reserve`. -/
structure Grant where
  owner : Nat
  /-- the slice that was returned -/
  slice : Range
  /-- the bytes the producer stored so far; `none` = not stored yet -/
  data : List (Option UInt8)
  committed : Bool
  deriving DecidableEq, Repr

/-- `bytes` stored at offset `off`. -/
def overlay (d : List (Option UInt8)) (off : Nat) (bytes : List UInt8) : List (Option UInt8) :=
  d.take off ++ bytes.map some ++ d.drop (off + bytes.length)

structure Trace where
  /-- granted reservations, in the order they were granted -/
  grants : List Grant
  /-- what the consumer got from a `start_read` it has not finished: address and bytes -/
  reading : Option (Range × List UInt8)
  /-- the records whose reading was finished, in order -/
  delivered : List (List UInt8)
  deriving DecidableEq, Repr

def Trace.empty : Trace := ⟨[], none, []⟩

/-- `p` has this reservation and did not commit it. -/
def Grant.openBy (g : Grant) (p : Nat) : Bool := g.owner == p && !g.committed

def Trace.step (t : Trace) : Op → Out → Trace
  | .reserve p size, .slice (.ok r) =>
    { t with grants := t.grants ++ [⟨p, r, List.replicate size none, false⟩] }
  | .write p off bytes, .unit (.ok ()) =>
    { t with grants := t.grants.map fun g =>
        if g.openBy p then { g with data := overlay g.data off bytes } else g }
  | .commit p, .unit (.ok ()) =>
    { t with grants := t.grants.map fun g => if g.openBy p then { g with committed := true } else g }
  | .startRead _, .record (.ok x) => { t with reading := some x }
  | .finishRead, .finished (.ok _) =>
    { t with delivered := t.delivered ++ (t.reading.toList.map (·.2)), reading := none }
  | .dropConsumer, _ => { t with reading := none }
  | _, _ => t

def Trace.run (t : Trace) : List Op → List Out → Trace
  | op :: ops, o :: os => (t.step op o).run ops os
  | _, _ => t

/-- The history of a buffer of `len` bytes whose memory initially holds `mem`. -/
def history (len : Nat) (mem : Mem) (ops : List Op) : Trace :=
  Trace.empty.run ops ((Vol.new len mem).run ops).2

/-- The bytes agree with everything the producer stored. -/
def stores (d : List (Option UInt8)) (bs : List UInt8) : Prop :=
  bs.length = d.length ∧ ∀ (i : Nat) (b : UInt8), d[i]? = some (some b) → bs[i]? = some b

/-- The two ranges share no byte. -/
def Apart (a b : Range) : Prop := a.start + a.size ≤ b.start ∨ b.start + b.size ≤ a.start

/-- What a newly registered consumer would read: drop the current consumer, register a new one and
read until nothing is available (at most `n` records). -/
def readAll (v : Vol) : Nat → List (Range × List UInt8)
  | 0 => []
  | n + 1 =>
    match v.startRead false with
    | (v', .ok x) => x :: readAll v'.finishRead.1 n
    | _ => []

def Vol.unread (v : Vol) : List (Range × List UInt8) :=
  readAll (v.run [.dropConsumer, .registerConsumer]).1 (2 * v.core.len)

end Verif.Buffer
