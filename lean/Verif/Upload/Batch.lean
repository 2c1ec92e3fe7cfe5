/-
Model of the batching in bd-logger/src/consumer.rs: `BatchBuilder` and the triggered upload.
-/
namespace Verif.Upload

/-- The runtime limits in force at one moment (`max_batch_size_logs`, `max_match_size_bytes`). -/
structure Limits where
  logs : Nat
  bytes : Nat
  deriving DecidableEq, Repr

/-- A log read from the buffer: its bytes, its timestamp if it can be parsed, and the limits in force when
it is added (the runtime flags may change at any time).  Timestamps outside the range of
`from_unix_timestamp` panic in the code (consumer.rs:664) and are not modelled. -/
structure Entry where
  data : List Nat
  ts : Option Int
  lim : Limits
  deriving DecidableEq, Repr

/-- `BatchBuilder` (consumer.rs:378-382). -/
structure Builder where
  totalBytes : Nat
  logs : List Entry
  deriving DecidableEq, Repr

def Builder.empty : Builder := ⟨0, []⟩

/-- `BatchBuilder::add_log` (393-396). -/
def Builder.add (b : Builder) (e : Entry) : Builder := ⟨b.totalBytes + e.data.length, b.logs ++ [e]⟩

/-- `BatchBuilder::limit_reached` (398-407). -/
def Builder.limitReached (b : Builder) (l : Limits) : Bool :=
  if b.logs.isEmpty then false else l.bytes ≤ b.totalBytes || l.logs ≤ b.logs.length

/-- What ends the reading of a triggered upload: `Unavailable`, or another error. -/
inductive EndOf where
  | unavailable | error
  deriving DecidableEq, Repr

/-- Is the log older than the look-back limit (consumer.rs:654-672)? -/
def Entry.old (lookback : Option Int) (e : Entry) : Bool :=
  match lookback, e.ts with
  | some w, some t => t < w
  | _, _ => false

/-- `CompleteBufferUpload::run` (consumer.rs:644-700) over the logs its `try_read` returns; the result is
the batches given to the upload service and the number of logs dropped as old. -/
def trigLoop (lookback : Option Int) (end_ : EndOf) : List Entry → Builder → List (List Entry) → Nat → List (List Entry) × Nat
  | [], b, sent, dropped =>
    match end_ with
    | .unavailable => if b.logs.isEmpty then (sent, dropped) else (sent ++ [b.logs], dropped)
    | .error => (sent, dropped)
  | e :: es, b, sent, dropped =>
    if e.old lookback then trigLoop lookback end_ es b sent (dropped + 1)
    else
      let b := b.add e
      if b.limitReached e.lim then trigLoop lookback end_ es .empty (sent ++ [b.logs]) dropped
      else trigLoop lookback end_ es b sent dropped

def trigUpload (lookback : Option Int) (end_ : EndOf) (es : List Entry) : List (List Entry) × Nat :=
  trigLoop lookback end_ es .empty [] 0

end Verif.Upload
