import Verif.Upload.Batch

/-
Model of the continuous uploader of bd-logger/src/consumer.rs:416-545 (`ContinuousBufferUploader`).

The cursor buffer is abstracted to the list of all logs ever written to it, the number of acknowledged
(removed) logs and the cursor position: `read` returns the log at the cursor, `advance_read_cursor` removes
the oldest log (the concrete buffer is modelled in `Verif.Buffer`; cursor buffers never overwrite).  Logs
are numbered by their position in the list of all logs written.  Every `await` at which another task can
run, at which the uploader can be shut down or at which the process can die is a boundary between events.
-/
namespace Verif.Upload

inductive UpResult where
  | success | failure | canceled
  deriving DecidableEq, Repr

/-- A log in a batch: its number and its bytes. -/
abbrev NLog := Nat × List Nat

inductive Phase where
  /-- in the `select!` of `consume_continuous_logs` (467-484) -/
  | collecting
  /-- in `flush_current_batch`, waiting for the upload of these logs (515-531) -/
  | uploading (logs : List NLog)
  /-- in the loop that advances the read cursor, this many iterations left (537-539) -/
  | acking (k : Nat)
  | stopped
  deriving DecidableEq, Repr

structure CU where
  written : List (List Nat)
  acked : Nat
  pos : Nat
  batch : List NLog
  armed : Bool
  phase : Phase
  shutdown : Bool
  /-- ghost: uploads that returned a result, with the result -/
  finished : List (List NLog × UpResult)
  deriving DecidableEq, Repr

def CU.init : CU := ⟨[], 0, 0, [], false, .stopped, false, []⟩

inductive CEv where
  /-- a log is appended to the buffer -/
  | write (d : List Nat)
  /-- the uploader is started (a new process, or the buffer is configured) -/
  | start
  /-- the read arm of the `select!`, with the limits in force at the check after it -/
  | read (l : Limits)
  /-- the deadline arm -/
  | deadline
  /-- a limit changed -/
  | flag (l : Limits)
  /-- the upload returned a result -/
  | result (r : UpResult)
  /-- one `advance_read_cursor` -/
  | advance
  /-- shutdown is requested -/
  | shut
  /-- the shutdown arm of the `select!` of the loop is taken -/
  | stop
  /-- the shutdown arm of the `select!` in `flush_current_batch` is taken, and then the shutdown arm of the loop -/
  | abortStop
  /-- the shutdown arm of the `select!` in `flush_current_batch` is taken; the function returns `Ok` (530) and the
  `select!` of the loop, which polls its ready arms in random order, gets to choose again -/
  | abortGo
  /-- the process dies -/
  | kill
  deriving DecidableEq, Repr

/-- `limit_reached` (392-401) on the bytes of the batch. -/
def CU.limit (s : CU) (l : Limits) : Bool :=
  if s.batch.isEmpty then false else l.bytes ≤ (s.batch.map fun x => x.2.length).sum || l.logs ≤ s.batch.length

/-- `flush_current_batch` up to the upload (503-527). -/
def CU.flush (s : CU) : CU := { s with armed := false, phase := .uploading s.batch, batch := [] }

/-- Arm the deadline (490-498). -/
def CU.arm (s : CU) : CU := if s.batch.isEmpty then s else { s with armed := true }

/-- After an arm of the `select!` (486-498). -/
def CU.check (s : CU) (l : Limits) : CU := if s.limit l then s.flush else s.arm

def CU.step (s : CU) : CEv → CU
  | .write d => { s with written := s.written ++ [d] }
  | .start => match s.phase with
    | .stopped => { s with pos := s.acked, batch := [], armed := false, phase := .collecting, shutdown := false }
    | _ => s
  | .read l => match s.phase, s.written[s.pos]? with
    | .collecting, some d => CU.check { s with batch := s.batch ++ [(s.pos, d)], pos := s.pos + 1 } l
    | _, _ => s
  | .deadline => match s.phase with
    | .collecting => if s.armed then s.flush else s
    | _ => s
  | .flag l => match s.phase with
    | .collecting => s.check l
    | _ => s
  | .result r => match s.phase with
    | .uploading logs => { s with phase := .acking logs.length, finished := s.finished ++ [(logs, r)] }
    | _ => s
  | .advance => match s.phase with
    | .acking (k + 1) => { s with acked := s.acked + 1, phase := if k = 0 then .collecting else .acking k }
    | .acking 0 => { s with phase := .collecting }
    | _ => s
  | .shut => { s with shutdown := true }
  | .stop => match s.phase with
    | .collecting => if s.shutdown then { s with phase := .stopped } else s
    | _ => s
  | .abortStop => match s.phase with
    | .uploading _ => if s.shutdown then { s with phase := .stopped } else s
    | _ => s
  | .abortGo => match s.phase with
    | .uploading _ => if s.shutdown then { s with phase := .collecting } else s
    | _ => s
  | .kill => { s with phase := .stopped }

def CU.run (s : CU) (es : List CEv) : CU := es.foldl CU.step s

end Verif.Upload
