import Verif.Queue.Model
import Verif.Log.Pipe
import Verif.Upload.Continuous

/-
The way of a log from the call to the upload, put together from the models of the parts: the memory bounded channel
(Verif.Queue `Chan`, bd-logger/src/memory_bound.rs), the log task with its pre-configuration buffer (Verif.Queue `Logger`,
bd-logger/src/async_log_buffer.rs:465-668), the processing pipeline (Verif.Pipe `process`, bd-logger/src/log_replay.rs:204-493),
one continuous buffer, and its uploader (Verif.Upload `CU`, bd-logger/src/consumer.rs:416-545).

The buffer is the memory queue in front of the file, as the list `vol` of the records committed and not yet moved, and the file, as
the list `disk` of all records ever moved to it (bd-buffer/src/buffer/aggregate_ring_buffer.rs:94-165: a thread moves the records one
by one, and a record for which there is no room in the file is dropped).  That the concrete rings behave like this is
`C09_ledger`/`C09_end_to_end`, for the cursor file `C05_never_loses` and `C06_cursor_partial`.  A log whose reservation in memory is
refused is one the pipeline did not write (`Pipe.W.full`).

A process can die at any moment: the file stays (the crash of the file itself is C08), everything else is gone.
-/
namespace Verif.Flow

open Verif.Queue (Msg Chan Act Logger LState LEv PreBuf)
open Verif.Upload (CU CEv)
open Verif.Pipe (Env EngineResult Step process)
open Verif.Mgr (Id)

/-- What the log task decides with for one log: `none` if the log is dropped before the pipeline (a filter, or metadata that cannot
be obtained; async_log_buffer.rs:366-463, log_replay.rs:150-200). -/
structure PipeIn where
  env : Env
  matching : List Id
  engine : Option EngineResult
  blocking : Bool

/-- The buffers the log is for (log_replay.rs:228-291). -/
def PipeIn.dest (i : PipeIn) : List Id := match i.engine with
  | some r => r.dest
  | none => i.matching

/-- What one step of the pipeline puts in buffer `b`: the log itself (`false`) or its synthetic copy (`true`). -/
def copy (b : Id) : Step → Option Bool
  | .wrote x => if x = b then some false else none
  | .synth x => if x = b then some true else none
  | _ => none

/-- The copies of a log the pipeline puts in buffer `b`. -/
def copies (b : Id) : Option PipeIn → List Bool
  | none => []
  | some i => (process i.env i.matching i.engine i.blocking).steps.filterMap (copy b)

/-- Why a log does not get into the file. -/
inductive Reason where
  /-- the pre-configuration buffer is full -/
  | preConfig
  /-- dropped, meant for other buffers only, or refused by the buffer -/
  | pipeline
  /-- no room in the file -/
  | disk
  /-- the process died -/
  | died
  deriving DecidableEq, Repr

/-- A record: the log, and whether it is a synthetic copy. -/
abbrev Rec := Msg × Bool

structure Sys where
  /-- the channel of this process -/
  chan : Chan
  /-- how many of the logs received from it the log task has handled -/
  taken : Nat
  logger : Logger
  /-- ghost: how many logs the pipeline has handled, in all processes -/
  piped : Nat
  vol : List Rec
  disk : List Rec
  cu : CU
  /-- ghost: logs accepted by the channels of earlier processes -/
  past : List Msg
  /-- ghost: logs that did not get into the file, and why -/
  lost : List (Reason × Msg)

/-- The fixed parameters: channel slots and bytes, pre-configuration limits, the buffer, how a record is encoded (`make_log`), and
what happens to the n-th log that reaches the pipeline. -/
structure Cfg where
  slots : Nat
  capacity : Nat
  preCount : Nat
  preSize : Nat
  buf : Id
  enc : Rec → List Nat
  oracle : Nat → Option PipeIn

def Sys.init (c : Cfg) : Sys :=
  ⟨Chan.init c.slots c.capacity, 0, Logger.init c.preCount c.preSize, 0, [], [], CU.init, [], []⟩

inductive Ev where
  /-- a step of a sender or of the receiving end of the channel -/
  | chan (a : Act)
  /-- the log task handles the log it received -/
  | handle
  /-- the log task receives a configuration -/
  | config
  /-- the thread of the buffer moves a record to the file, or drops it -/
  | move (ok : Bool)
  /-- a step of the uploader -/
  | up (e : CEv)
  /-- the process dies and another one is started -/
  | die
  deriving DecidableEq, Repr

/-- The pipeline handles logs in turn, the first of them the n-th: records written to the buffer, and logs not written. -/
def pipeAll (c : Cfg) (n : Nat) : List Msg → List Rec × List Msg
  | [] => ([], [])
  | m :: ms =>
    let r := pipeAll c (n + 1) ms
    match copies c.buf (c.oracle n) with
    | [] => (r.1, m :: r.2)
    | k => (k.map (fun x => (m, x)) ++ r.1, r.2)

/-- The log task in a new state of `Logger`: the logs processed since go through the pipeline. -/
def Sys.pass (c : Cfg) (s : Sys) (l : Logger) : Sys :=
  let new := l.processed.drop s.logger.processed.length
  { s with
    logger := l
    piped := s.piped + new.length
    vol := s.vol ++ (pipeAll c s.piped new).1
    lost := s.lost ++ (pipeAll c s.piped new).2.map fun m => (.pipeline, m) }

/-- The logs in the pre-configuration buffer. -/
def waiting (l : Logger) : List Msg := match l.state with
  | .uninitialized b => b.items
  | .initialized => []

/-- Whether the pre-configuration buffer refuses the log. -/
def refused (l : Logger) (m : Msg) : Bool := match l.state with
  | .uninitialized b => decide ((b.push m).2 ≠ .ok)
  | .initialized => false

/-- Everything of this process that is not in the file. -/
def Sys.inMemory (s : Sys) : List Msg :=
  s.vol.map (·.1) ++ waiting s.logger ++ s.chan.received.drop s.taken ++ s.chan.queue

def Sys.step (c : Cfg) (s : Sys) : Ev → Sys
  | .chan a =>
    -- the task that receives is the one that handles: it does not receive before it has handled
    if a = .recv ∧ s.taken ≠ s.chan.received.length then s
    else { s with chan := (s.chan.step a).1 }
  | .handle =>
    if s.chan.held.isSome then s
    else match s.chan.received[s.taken]? with
      | none => s
      | some m =>
        if refused s.logger m then { s with taken := s.taken + 1, lost := s.lost ++ [(.preConfig, m)] }
        else Sys.pass c { s with taken := s.taken + 1 } (s.logger.step (.log m))
  | .config => Sys.pass c s (s.logger.step .config)
  | .move ok => match s.vol with
    | [] => s
    | r :: rs =>
      if ok then { s with vol := rs, disk := s.disk ++ [r], cu := s.cu.step (.write (c.enc r)) }
      else { s with vol := rs, lost := s.lost ++ [(.disk, r.1)] }
  | .up e => match e with
    | .write _ => s
    | .kill => s
    | e => { s with cu := s.cu.step e }
  | .die =>
    { s with
      chan := Chan.init c.slots c.capacity
      taken := 0
      logger := Logger.init c.preCount c.preSize
      vol := []
      cu := s.cu.step .kill
      past := s.past ++ s.chan.accepted
      lost := s.lost ++ s.inMemory.map fun m => (.died, m) }

def Sys.run (c : Cfg) (s : Sys) : List Ev → Sys
  | [] => s
  | e :: es => (s.step c e).run c es

/-- All logs accepted, by all processes, in the order of acceptance. -/
def Sys.accepted (s : Sys) : List Msg := s.past ++ s.chan.accepted

end Verif.Flow
