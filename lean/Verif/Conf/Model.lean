import Verif.Log.Pipe
import Verif.Startup.Config

/-
Model of how a configuration reaches the logger: bd-logger/src/client_config.rs:100-214 (`Config`), 244-301
(`LoggerUpdate::apply_configuration`), bd-logger/src/logging_state.rs:317-355 (`BufferProducers::new`),
bd-matcher/src/buffer_selector.rs:34-53 (`BufferSelector::new`), and of the use the log buffer makes of it
(bd-logger/src/async_log_buffer.rs:497-519, 557-602, bd-logger/src/log_replay.rs:204-317).  It is put together from the models of the
buffer manager (Verif.Mgr), of the processing of a log (Verif.Pipe) and of the cached configuration (Verif.Startup).

Simplifications: workflows and filters are an opaque number (compiling them never fails: invalid ones are skipped).  The channel
to the log buffer is a queue (who waits for whom when it is full is in Verif.Tasks); that its receiver is gone, which the code
only logs, is left out.  A log is given by the set of buffers whose matchers match it.  Handles stay distinct across restarts.
-/
namespace Verif.Conf

open Verif.Mgr (Id Handle Ty BufCfg Entry Mgr)
open Verif.Pipe (W EngineResult Producers StreamCfg)
open Verif.Startup (Upd Wr)

/-- `Configuration` (client_config.rs:50-56).  Beside every buffer: whether all its matchers compile. -/
structure Cfg where
  bufs : List (BufCfg × Bool)
  streams : List StreamCfg
  rest : Nat
  deriving DecidableEq, Repr

/-- `ConfigUpdate` (logging_state.rs:301-307), and what the pipeline made from it holds. -/
structure Pipeline where
  /-- `BufferProducers::buffers`, with the type that decides on `continuous_buffer_ids` and `trigger_buffer_ids` -/
  producers : List Entry
  /-- the buffers of the selector -/
  selector : List Id
  /-- active streams and their producer -/
  tail : Option (List (Nat × Option Bool) × Option Handle)
  rest : Nat
  deriving DecidableEq, Repr

structure Sys where
  mgr : Mgr
  /-- the flush task of the manager is running (bd-buffer/src/ring_buffer.rs:186-231) -/
  flushAlive : Bool
  /-- updates on their way to the log buffer, oldest first -/
  chan : List Pipeline
  /-- `LoggingState`: `none` until the first update -/
  pipe : Option Pipeline
  /-- `configuration_version_id` -/
  version : Option String
  /-- the file `config.pb` (`some none`: cut) -/
  file : Option (Option (Upd Cfg))
  deriving DecidableEq, Repr

def Sys.init : Sys := ⟨Mgr.init, true, [], none, none, none⟩

/-- The values given to `config_update_tx.send` (client_config.rs:275-294). -/
def build (m : Mgr) (c : Cfg) : Pipeline where
  producers := m.bufs
  selector := c.bufs.map (·.1.id)
  tail := (Verif.Pipe.tailNew c.streams).map fun l => (l, m.stream)
  rest := c.rest

/-- `apply_configuration` (client_config.rs:244-301).  `ok`: creating a buffer works; `prodOk`: every producer can be made
(`BufferProducers::new`).  Both `?` come after the update of the manager. -/
def apply (s : Sys) (c : Cfg) (ok : Id → Bool) (prodOk : Bool) : Sys × Bool :=
  let r := Verif.Mgr.update s.mgr (c.bufs.map (·.1)) (!c.streams.isEmpty) ok
  if r.2 then
    if prodOk && c.bufs.all (·.2) then ({ s with mgr := r.1, chan := s.chan ++ [build r.1 c] }, true)
    else ({ s with mgr := r.1 }, false)
  else ({ s with mgr := r.1 }, false)

/-- `std::fs::write` of the file (client_config.rs:121-130). -/
def writeFile (old : Option (Option (Upd Cfg))) (u : Upd Cfg) : Wr → Option (Option (Upd Cfg))
  | .ok => some (some u)
  | .fail => old
  | .torn => some none

/-- `process_configuration_update` (client_config.rs:100-141). -/
def process (s : Sys) (u : Upd Cfg) (ok : Id → Bool) (prodOk : Bool) (w : Wr) : Sys × Bool :=
  match u.cfg with
  | none => (s, false)
  | some c =>
    let r := apply s c ok prodOk
    if r.2 then
      ({ r.1 with version := some u.nonce,
                  file := writeFile r.1.file u w }, true)
    else (r.1, false)

/-- `ConfigurationUpdateAck` (client_config.rs:175-200). -/
structure Ack where
  /-- the nonce in the nack -/
  nack : Option String
  lastApplied : String
  deriving DecidableEq, Repr

inductive Obs where
  | started
  /-- the cached configuration was applied -/
  | loaded (u : Upd Cfg)
  /-- an update of the server was answered -/
  | answered (u : Upd Cfg) (a : Ack)
  /-- a log was processed -/
  | logged (r : Verif.Pipe.Result)
  deriving DecidableEq, Repr

inductive Ev where
  /-- a process starts; `readOk`: the cached file can be read and removed (client_config.rs:143-170) -/
  | start (readOk : Bool) (ok : Id → Bool) (prodOk : Bool) (w : Wr)
  /-- the server sends a configuration -/
  | server (u : Upd Cfg) (ok : Id → Bool) (prodOk : Bool) (w : Wr)
  /-- the log buffer takes the next update (async_log_buffer.rs:497-519) -/
  | take
  /-- a log whose matching buffers are `m`; `w`, `w2`: results of writing to existing producers -/
  | log (m : Id → Bool) (engine : Option EngineResult) (blocking : Bool) (w w2 : Id → W) (stats : Option Bool)
  /-- the last reference to a buffer is dropped -/
  | drop (h : Handle)

/-- A new process: what is in memory is gone, the files stay; `file` is what is left of the cached configuration. -/
def restart (s : Sys) (file : Option (Option (Upd Cfg))) : Sys :=
  ⟨{ s.mgr with bufs := [], stream := none, doomed := [], events := [] }, true, [], none, none, file⟩

/-- Writing through the producers of the pipeline (`BufferProducers::producer`, logging_state.rs:357-365). -/
def writeVia (p : Pipeline) (w : Id → W) (id : Id) : W :=
  if id ∈ p.producers.map (·.id) then (if w id = .missing then .err else w id) else .missing

def envOf (s : Sys) (p : Pipeline) (w w2 : Id → W) (stats : Option Bool) : Verif.Pipe.Env where
  w := writeVia p w
  w2 := writeVia p w2
  producers := ⟨(p.producers.filter fun e => decide (e.ty = .continuous)).map (·.id),
                (p.producers.filter fun e => decide (e.ty = .trigger)).map (·.id)⟩
  mgr := s.mgr
  flushAlive := s.flushAlive
  stats := stats

def step (s : Sys) : Ev → Sys × List Obs
  | .start readOk ok prodOk w =>
    if readOk then
      match s.file with
      | none => (restart s none, [.started])
      | some none => (restart s none, [.started])
      | some (some u) =>
        let r := process (restart s none) u ok prodOk w
        (r.1, .started :: if r.2 then [.loaded u] else [])
    else (restart s s.file, [.started])
  | .server u ok prodOk w =>
    let r := process s u ok prodOk w
    (r.1, [.answered u ⟨if r.2 then none else some u.nonce, u.nonce⟩])
  | .take =>
    match s.chan with
    | [] => (s, [])
    | p :: ps => ({ s with pipe := some p, chan := ps }, [])
  | .log m engine blocking w w2 stats =>
    match s.pipe with
    | none => (s, [])
    | some p =>
      let r := Verif.Pipe.process (envOf s p w w2 stats) (p.selector.filter m).eraseDups engine blocking
      ({ s with flushAlive := r.alive }, [.logged r])
  | .drop h => ({ s with mgr := Verif.Mgr.dropHandle s.mgr h }, [])

def run (s : Sys) : List Ev → Sys
  | [] => s
  | e :: es => run (step s e).1 es

def obs (s : Sys) : List Ev → List Obs
  | [] => []
  | e :: es => (step s e).2 ++ obs (step s e).1 es

/-- `partial_handshake` (client_config.rs:206-211). -/
def handshakeVersion (s : Sys) : String := s.version.getD ""

end Verif.Conf
