import Verif.Upload.BatchProps
import Verif.Upload.Continuous

/-
The way of a log through a trigger buffer: bd-logger/src/consumer.rs:150-252 and 598-725 (`handle_trigger_uploads`,
`CompleteBufferUpload`), bd-buffer/src/ring_buffer.rs:518-536 and 700-712 (`Consumer`, `new_consumer`), and of a streamed log:
consumer.rs:546-595 (`StreamedBufferUpload`).

As in `Verif.Flow.Model` the buffer is two lists: the records in memory and the content of the file.  The file of a trigger buffer
overwrites: moving a record to it may remove some of the oldest.  A triggered upload locks the buffer, waits until the memory is empty
and holds the lock to its end, so the pipeline's writes are refused meanwhile (`Pipe.W.locked`).
-/
namespace Verif.Flow

open Verif.Upload (Entry Builder Limits UpResult)

/-- Where a triggered upload is. -/
inductive TPhase where
  /-- about to call `try_read` -/
  | reading
  /-- waiting in `flush_batch` for these logs; the last flush of the upload or not -/
  | uploading (logs : List Entry) (last : Bool)
  deriving DecidableEq, Repr

structure Task where
  lookback : Option Int
  builder : Builder
  phase : TPhase
  deriving DecidableEq, Repr

inductive TReason where
  /-- removed from the file to make room -/
  | overwritten
  /-- in the memory of a process that died -/
  | died
  /-- in the batch of an upload that ended with an error -/
  | error
  deriving DecidableEq, Repr

structure TF where
  vol : List Entry
  file : List Entry
  task : Option Task
  /-- ghost: logs written to the buffer -/
  accepted : List Entry
  /-- ghost: uploads that returned -/
  uploads : List (List Entry × UpResult)
  /-- ghost: dropped because of their age -/
  old : List Entry
  lost : List (TReason × Entry)
  deriving DecidableEq, Repr

def TF.init : TF := ⟨[], [], none, [], [], [], []⟩

inductive TEv where
  /-- a log is committed to the memory of the buffer -/
  | write (e : Entry)
  /-- the thread of the buffer moves a record, overwriting the k oldest -/
  | move (k : Nat)
  /-- an upload is started with this window; flushing the memory overwrites the k oldest -/
  | request (lookback : Option Int) (k : Nat)
  /-- a `try_read` returns the oldest record, or there is none -/
  | read
  /-- a `try_read` fails -/
  | readError
  /-- an upload returns -/
  | result (r : UpResult)
  /-- the process dies -/
  | die
  deriving DecidableEq, Repr

/-- The logs an upload holds that are not in the file any more. -/
def Task.holds (t : Task) : List Entry := match t.phase with
  | .reading => t.builder.logs
  | .uploading logs _ => logs ++ t.builder.logs

def TF.holds (s : TF) : List Entry := match s.task with
  | none => []
  | some t => t.holds

/-- One iteration of `run` (consumer.rs:644-700). -/
def TF.read (s : TF) (t : Task) : TF := match s.file with
  | [] =>
    if t.builder.logs.isEmpty then { s with task := none }
    else { s with task := some { t with builder := .empty, phase := .uploading t.builder.logs true } }
  | e :: es =>
    if e.old t.lookback then { s with file := es, old := s.old ++ [e] }
    else
      let b := t.builder.add e
      if b.limitReached e.lim then { s with file := es, task := some { t with builder := .empty, phase := .uploading b.logs false } }
      else { s with file := es, task := some { t with builder := b } }

def TF.step (s : TF) : TEv → TF
  | .write e => if s.task.isSome then s else { s with vol := s.vol ++ [e], accepted := s.accepted ++ [e] }
  | .move k => match s.vol with
    | [] => s
    | e :: es => { s with vol := es, file := s.file.drop k ++ [e], lost := s.lost ++ (s.file.take k).map fun x => (.overwritten, x) }
  | .request w k => if s.task.isSome then s
    else { s with
      vol := []
      file := (s.file ++ s.vol).drop k
      lost := s.lost ++ ((s.file ++ s.vol).take k).map fun x => (.overwritten, x)
      task := some ⟨w, .empty, .reading⟩ }
  | .read => match s.task with
    | some t => match t.phase with
      | .reading => s.read t
      | _ => s
    | none => s
  | .readError => match s.task with
    | some t => match t.phase with
      | .reading => { s with task := none, lost := s.lost ++ t.builder.logs.map fun x => (.error, x) }
      | _ => s
    | none => s
  | .result r => match s.task with
    | some t => match t.phase with
      | .uploading logs last =>
        { s with
          uploads := s.uploads ++ [(logs, r)]
          task := if last then none else some { t with phase := .reading } }
      | _ => s
    | none => s
  | .die => { s with
      vol := []
      task := none
      lost := s.lost ++ (s.holds ++ s.vol).map fun x => (.died, x) }

def TF.run (s : TF) : List TEv → TF
  | [] => s
  | e :: es => (s.step e).run es

/-! ### Streamed logs -/

/-- `StreamedBufferUpload`: the buffer is in memory only; the log being uploaded stays in it until the upload returned
(consumer.rs:560-593). -/
structure SF where
  buf : List Entry
  busy : Bool
  stopped : Bool
  accepted : List Entry
  uploads : List (Entry × UpResult)
  deriving DecidableEq, Repr

def SF.init : SF := ⟨[], false, false, [], []⟩

inductive SEv where
  | write (e : Entry)
  | read
  | result (r : UpResult)
  | shutdown
  deriving DecidableEq, Repr

def SF.step (s : SF) : SEv → SF
  | .write e => { s with buf := s.buf ++ [e], accepted := s.accepted ++ [e] }
  | .read => if s.busy || s.stopped || s.buf.isEmpty then s else { s with busy := true }
  | .result r => match s.buf with
    | [] => s
    | e :: es => if s.busy && !s.stopped then { s with busy := false, buf := es, uploads := s.uploads ++ [(e, r)] } else s
  | .shutdown => { s with stopped := true }

def SF.run (s : SF) : List SEv → SF
  | [] => s
  | e :: es => (s.step e).run es

end Verif.Flow
