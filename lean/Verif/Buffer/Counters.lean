import Verif.Buffer.NVModel
import Verif.Buffer.Trace

/-
What an outside observer of a ring buffer counts, from the calls and their results only.  Used to state C106: the counters of
`RingBufferStats` (bd-buffer/src/buffer/mod.rs:34-76) say the same.
-/
namespace Verif.Buffer

/-- The ledger of the observer of a persistent ring buffer. -/
structure Tally where
  /-- a producer is registered -/
  reg : Bool
  /-- the size of the reservation the producer holds -/
  hold : Option Nat
  /-- the request the producer is waiting in -/
  asked : Option (Nat × Bool)
  /-- the sizes of the records handed to the consumer and not finished -/
  ahead : List Nat
  /-- the sizes of the records committed -/
  written : List Nat
  /-- the sizes of the records whose reading was finished -/
  read : List Nat
  /-- the requests that were refused: size, whether the caller would have waited, the code -/
  refusals : List (Nat × Bool × Code)
  deriving DecidableEq, Repr

def Tally.empty : Tally := ⟨false, none, none, [], [], [], []⟩

/-- A second request of a producer that has a reservation, and a request without a producer, are misuse and not refusals. -/
def Tally.step (l : Tally) : NOp → Out → Tally
  | .registerProducer, .unit (.ok ()) => { l with reg := true }
  | .dropProducer, .unit (.ok ()) => { l with reg := false, hold := none }
  | .reserve size _, .slice (.ok _) => { l with hold := some size }
  | .reserve size block, .slice .blocked => { l with asked := some (size, block) }
  | .reserve size block, .slice (.err e) =>
    if l.reg && l.hold.isNone then { l with refusals := l.refusals ++ [(size, block, e)] } else l
  | .resume, .slice (.ok _) => { l with hold := l.asked.map (·.1), asked := none }
  | .resume, .slice (.err e) => { l with refusals := l.refusals ++ (l.asked.toList.map fun x => (x.1, x.2, e)), asked := none }
  | .commit, .unit (.ok ()) => { l with written := l.written ++ l.hold.toList, hold := none }
  | .startRead _, .record (.ok x) => { l with ahead := [x.2.length] }
  | .cursorRead _, .record (.ok x) => { l with ahead := l.ahead ++ [x.2.length] }
  | .finishRead, .finished (.ok _) => { l with read := l.read ++ l.ahead.head?.toList, ahead := l.ahead.tail }
  | .ack, .finished (.ok _) => { l with read := l.read ++ l.ahead.head?.toList, ahead := l.ahead.tail }
  | .dropConsumer, _ => { l with ahead := [] }
  | .restart, .unit (.ok ()) => { l with reg := false, hold := none, asked := none, ahead := [] }
  | _, _ => l

def Tally.run (l : Tally) : List NOp → List Out → Tally
  | op :: ops, o :: os => (l.step op o).run ops os
  | _, _ => l

/-- The observer of the calls `ops` on a new file. -/
def nvTally (K : Crc) (len : Nat) (crc overwrite blockOnRead : Bool) (ops : List NOp) : Tally :=
  Tally.empty.run ops ((NV.new K len crc overwrite blockOnRead).run K ops).2

/-- The refusals with one of the codes. -/
def refusedWith (l : List (Nat × Bool × Code)) (codes : List Code) : List (Nat × Bool × Code) := l.filter fun x => codes.contains x.2.2

/-- The requests of a volatile ring buffer that were refused: size and code. -/
def volRefusals (t : Trace) : List Op → List Out → List (Nat × Code)
  | op :: ops, o :: os =>
    (match op, o with
      | .reserve p size, .slice (.err e) => if t.grants.any (·.openBy p) then [] else [(size, e)]
      | _, _ => []) ++ volRefusals (t.step op o) ops os
  | _, _ => []

end Verif.Buffer
