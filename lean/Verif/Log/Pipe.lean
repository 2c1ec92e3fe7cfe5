import Verif.Mgr.Model

/-
Model of `ProcessingPipeline::process_log` and its helpers, bd-logger/src/log_replay.rs:204-493, and of
`TailConfigurations`, bd-logger/src/client_config.rs:363-437.

The log itself is fixed and not represented.  Inputs: the buffers chosen by the buffer selector (Verif.Match), the result of
the workflows engine, the result of every write, the state of the buffer manager and of its flush task, and whether flushing the
stats works.  Sets (`BTreeSet`) are lists in the order of iteration.  Encoding a log (`make_log`) is assumed to succeed.
Filters, screenshots and tail streams are separate (Verif.Match.Filter, Verif.App, `stream` below).
-/
namespace Verif.Pipe

open Verif.Mgr (Id Handle Mgr flushReq)

/-- The result of looking up the producer of a buffer and writing. -/
inductive W where
  | ok
  /-- `FailedPrecondition`: locked -/
  | locked
  /-- `ResourceExhausted` -/
  | full
  /-- any other error -/
  | err
  /-- no producer for the buffer -/
  | missing
  deriving DecidableEq, Repr

/-- `write_to_buffers` (372-418): the buffers written to and whether it returned without error. -/
def writeAll (w : Id → W) : List Id → List Id × Bool
  | [] => ([], true)
  | b :: bs =>
    match w b with
    | .ok => let r := writeAll w bs; (b :: r.1, r.2)
    | .locked => writeAll w bs
    | .full => writeAll w bs
    | .err => ([], false)
    | .missing => ([], false)

/-- The part of `WorkflowsEngineResult` used here. -/
structure EngineResult where
  /-- `log_destination_buffer_ids` -/
  dest : List Id
  /-- `triggered_flush_buffers_action_ids` -/
  actions : List Nat
  /-- `triggered_flushes_buffer_ids` -/
  flushes : List Id
  deriving DecidableEq, Repr

/-- The sets in `BufferProducers`. -/
structure Producers where
  continuous : List Id
  trigger : List Id
  deriving DecidableEq, Repr

def disjoint (a b : List Id) : Bool := a.all fun x => !b.contains x

/-- `process_flush_buffers_actions` (420-493): the buffer for the synthetic log. -/
def synthetic (p : Producers) (r : EngineResult) : Option Id :=
  if r.actions.isEmpty then none
  else
    let toContinuous := !disjoint r.dest p.continuous
    let toTrigger := !disjoint r.dest p.trigger
    if toContinuous || toTrigger then none
    else r.flushes.head?

/-- What happens, in order. -/
inductive Step where
  | wrote (b : Id)
  /-- the synthetic log was written -/
  | synth (b : Id)
  /-- `maybe_persist` (250-274), forced or not -/
  | persist (force : Bool)
  | flushed (h : Handle)
  | statsFlushed
  /-- the caller is told that the log was processed -/
  | released
  /-- the completion sender is dropped, which also lets the caller go -/
  | abandoned
  deriving DecidableEq, Repr

structure Env where
  w : Id → W
  /-- result of writing the synthetic log -/
  w2 : Id → W
  producers : Producers
  mgr : Mgr
  /-- the flush task is running -/
  flushAlive : Bool
  /-- the stats flush trigger, if any, and whether flushing works -/
  stats : Option Bool

/-- Result: what happened, whether the flush task is still running, whether an error was returned. -/
structure Result where
  steps : List Step
  alive : Bool
  ok : Bool
  deriving DecidableEq, Repr

/-- `finish_blocking_log_processing` (319-370): steps, task state, success. -/
def finishBlocking (e : Env) (matching : List Id) : List Step × Bool × Bool :=
  let stats : List Step × Bool := match e.stats with
    | none => ([], true)
    | some true => ([.statsFlushed], true)
    | some false => ([], false)
  if matching.isEmpty then (stats.1, e.flushAlive, stats.2)
  else if e.flushAlive then
    let f := flushReq e.mgr matching
    if f.acked then (f.flushed.map .flushed ++ stats.1, f.alive, stats.2)
    else (f.flushed.map .flushed, f.alive, false)
  else ([], false, false)

/-- The writes: steps, buffers to flush for a blocking log, success (228-291). -/
def writes (e : Env) (matching : List Id) (engine : Option EngineResult) (blocking : Bool) : List Step × List Id × Bool :=
  match engine with
  | some r =>
    let wr := writeAll e.w r.dest
    if wr.2 then
      match synthetic e.producers r with
      | some b => (wr.1.map .wrote ++ (if e.w2 b = .ok then [.synth b] else []) ++ [.persist blocking], matching ++ [b], true)
      | none => (wr.1.map .wrote ++ [.persist blocking], matching, true)
    else (wr.1.map .wrote, matching, false)
  | none =>
    let wr := writeAll e.w matching
    (wr.1.map .wrote, matching, wr.2)

/-- `process_log` (204-317). -/
def process (e : Env) (matching : List Id) (engine : Option EngineResult) (blocking : Bool) : Result :=
  let a := writes e matching engine blocking
  if a.2.2 then
    if blocking then
      let f := finishBlocking e a.2.1
      ⟨a.1 ++ f.1 ++ [.released], f.2.1, f.2.2⟩
    else ⟨a.1, e.flushAlive, true⟩
  else ⟨a.1 ++ (if blocking then [.abandoned] else []), e.flushAlive, false⟩

/-! ### Tail streams -/

/-- A configured stream: its id, and its matcher compiled (`none` when there is no matcher, `some none` when the matcher
does not compile, `some (some m)` the verdict of the matcher on the log). -/
structure StreamCfg where
  id : Nat
  matcher : Option (Option Bool)
  deriving DecidableEq, Repr

def compileStream (s : StreamCfg) : Option (Nat × Option Bool) :=
  match s.matcher with
  | none => some (s.id, none)
  | some none => none
  | some (some b) => some (s.id, some b)

/-- `TailConfigurations::new` (369-406): `none` without streams. -/
def tailNew (l : List StreamCfg) : Option (List (Nat × Option Bool)) :=
  if l.isEmpty then none else some (l.filterMap compileStream)

def activeStream (s : Nat × Option Bool) : Option Nat := if s.2.getD true then some s.1 else none

/-- `maybe_stream_log` (408-437): the stream ids the log is written with, if it is written. -/
def stream (t : Option (List (Nat × Option Bool))) : Option (List Nat) :=
  match t with
  | none => none
  | some l =>
    let active := l.filterMap activeStream
    if active.isEmpty then none else some active

end Verif.Pipe
