import Verif.Buffer.NVModel
import Verif.Buffer.Trace
import Mathlib.Data.List.Forall2

/-
What an outside observer of the persistent ring buffer knows, computed from the calls made and the
results returned only.  Used to state C05 to C08.
-/
namespace Verif.Buffer

structure NTrace where
  /-- the reservation the producer holds: the bytes it stored, `none` = not stored -/
  pending : Option (List (Option UInt8))
  /-- the committed records, in the order of commit -/
  committed : List (List (Option UInt8))
  /-- the record the plain consumer got and did not finish -/
  reading : Option (List UInt8)
  /-- the records the cursor consumer got and did not acknowledge -/
  ahead : List (List UInt8)
  /-- the records finished by a plain consumer or acknowledged by a cursor consumer, in order -/
  taken : List (List UInt8)
  /-- a cursor consumer is registered -/
  cursor : Bool
  /-- a reservation was abandoned: the producer or the process went away between `reserve` and
  `commit` -/
  holed : Bool
  /-- no plain consumer read, and no cursor consumer went away with unacknowledged records, since the
  file was opened -/
  fresh : Bool
  /-- none of the following happened: an alteration of the file; a plain consumer or the process
  going away in the middle of a read, with record checksums; an abandoned reservation without record
  checksums or together with a cursor consumer; a cursor consumer registered when `fresh` is false -/
  calm : Bool
  deriving DecidableEq, Repr

def NTrace.empty : NTrace := ⟨none, [], none, [], [], false, false, true, true⟩

def NTrace.step (crc : Bool) (t : NTrace) : NOp → Out → NTrace
  | .reserve _ _, .slice (.ok r) => { t with pending := some (List.replicate r.size none) }
  | .resume, .slice (.ok r) => { t with pending := some (List.replicate r.size none) }
  | .write off bytes, .unit (.ok ()) =>
    { t with pending := t.pending.map fun d => overlay d off bytes }
  | .commit, .unit (.ok ()) =>
    { t with committed := t.committed ++ t.pending.toList, pending := none }
  | .dropProducer, .unit (.ok ()) =>
    { t with pending := none
             holed := t.holed || t.pending.isSome
             calm := t.calm && (t.pending.isNone || (crc && !t.cursor)) }
  | .startRead _, .record (.ok x) => { t with reading := some x.2, fresh := false }
  | .finishRead, .finished (.ok _) =>
    { t with taken := t.taken ++ t.reading.toList, reading := none }
  | .registerCursor, .unit (.ok ()) =>
    { t with cursor := true, calm := t.calm && t.fresh && !t.holed }
  | .cursorRead _, .record (.ok x) => { t with ahead := t.ahead ++ [x.2] }
  | .ack, .finished (.ok _) =>
    { t with taken := t.taken ++ t.ahead.head?.toList, ahead := t.ahead.tail }
  | .dropConsumer, _ =>
    { t with reading := none, ahead := [], cursor := false
             fresh := t.fresh && t.ahead.isEmpty
             calm := t.calm && (t.reading.isNone || !crc) }
  | .alter _ _, _ => { t with calm := false }
  | .restart, _ =>
    { t with pending := none, reading := none, ahead := [], cursor := false, fresh := true
             holed := t.holed || t.pending.isSome
             calm := t.calm && (t.pending.isNone || crc) && (t.reading.isNone || !crc) }
  | _, _ => t

def NTrace.run (crc : Bool) (t : NTrace) : List NOp → List Out → NTrace
  | op :: ops, o :: os => (t.step crc op o).run crc ops os
  | _, _ => t

/-- The buffer after the calls `ops` on a new file. -/
def nvAfter (K : Crc) (len : Nat) (crc overwrite blockOnRead : Bool) (ops : List NOp) : NV :=
  ((NV.new K len crc overwrite blockOnRead).run K ops).1

/-- What the observer of the calls `ops` on a new file knows. -/
def nvHistory (K : Crc) (len : Nat) (crc overwrite blockOnRead : Bool) (ops : List NOp) : NTrace :=
  NTrace.empty.run crc ops ((NV.new K len crc overwrite blockOnRead).run K ops).2

/-- An abandoned reservation has a zeroed checksum field, so readers skip it unless zero happens to be
the checksum of the bytes left in it.  `NoZero` says that this coincidence does not happen. -/
def NoZero (K : Crc) : NV → List NOp → Prop
  | _, [] => True
  | s, op :: ops =>
    ((op = .dropProducer ∨ op = .restart) → ∀ r, s.producer = some (some r) →
      s.core.recordCrc K r ≠ 0) ∧ NoZero K (s.step K op).1 ops

/-- Read with the registered consumer until nothing is available, at most `n` records. -/
def NV.readAll (K : Crc) (s : NV) : Nat → List (Range × List UInt8)
  | 0 => []
  | n + 1 =>
    match s.startRead K false with
    | (s', .ok x) => x :: (s'.finishRead K).1.readAll K n
    | _ => []

/-- What a newly registered plain consumer reads. -/
def NV.unread (K : Crc) (s : NV) : List (Range × List UInt8) :=
  (s.run K [.dropConsumer, .registerConsumer]).1.readAll K (2 * s.core.len)

/-- The byte strings are the records, in order. -/
def storesAll (ds : List (List (Option UInt8))) (bss : List (List UInt8)) : Prop :=
  List.Forall₂ stores ds bss

end Verif.Buffer
