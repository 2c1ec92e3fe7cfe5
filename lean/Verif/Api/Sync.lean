import Verif.Api.Stream
import Verif.Startup.Config
import Verif.Proto.Handshake

/-
Model of how client and server agree on configurations: the demultiplexing of responses (bd-api/src/payload_conversion.rs), the
two configuration pipelines (runtime: bd-api/src/api.rs:84-117; logger configuration: bd-logger/src/client_config.rs:172-214), their
acknowledgements, and the handshake with the versions in use and the reason of the last disconnect (bd-api/src/api.rs:575-766,
769-991), over any number of processes and streams.  It is put together from the models of the stream (Verif.Api.Stream), of the
cached configurations (Verif.Startup.Runtime, Verif.Startup.Config) and of the handshake (Verif.Proto.Handshake).

Simplifications: the text of an error in a nack is left out.  Whether the client is killed at a start is an input (Verif.Startup.Kill).
What applying a configuration does inside the logger is in Verif.Conf.  The generic list of pipelines is the one of
bd-logger/src/builder.rs:231-234: the runtime first, then the logger configuration.
-/
namespace Verif.Sync

open Verif.Startup (Wr StartEnv RtDisk Rt RtEv Upd Conf Outcome Source CfgObs CfgEv)
open Verif.Api (Api Resp Phase Decision)
open Verif.Handshake

/-- `RuntimeUpdate`. -/
structure RtUpd where
  nonce : String
  values : List (String × Verif.Startup.Val)
  deriving DecidableEq, Repr

/-- `Response_type` (bd-proto/src/protos/client/api.rs:7643-7670), with what the client reads of it. -/
inductive RType (Cfg : Type) where
  | handshake (ping : Bool)
  | logUpload (uuid : Nat) (err : Bool)
  | logUploadIntent (uuid : Nat) (d : Option Decision)
  | statsUpload (uuid : Nat) (err : Bool)
  | pong
  | configurationUpdate (u : Upd Cfg)
  | runtimeUpdate (u : RtUpd)
  | errorShutdown (unauthenticated : Bool) (message : Bytes)
  /-- `ok`: the upload manager is alive -/
  | flushBuffers (ok : Bool)
  | opaqueConfigurationUpdate
  | opaqueUpload (uuid : Nat) (err : Bool)
  | sankeyDiagramUpload (uuid : Nat) (err : Bool)
  | sankeyIntentResponse (uuid : Nat) (d : Option Decision)
  deriving DecidableEq, Repr

/-- `ApiResponse`; `none`: no type, or one this client does not know. -/
abbrev Response (Cfg : Type) := Option (RType Cfg)

/-- `ResponseKind` (bd-api/src/lib.rs:87-99). -/
inductive RKind where
  | handshake (ping : Bool)
  | errorShutdown (unauthenticated : Bool) (message : Bytes)
  | pong
  | logUpload (uuid : Nat) (err : Bool)
  | logUploadIntent (uuid : Nat) (d : Option Decision)
  | statsUpload (uuid : Nat) (err : Bool)
  | flushBuffers (ok : Bool)
  | sankeyPathUpload (uuid : Nat) (err : Bool)
  | sankeyPathUploadIntent (uuid : Nat) (d : Option Decision)
  | opaque (uuid : Nat) (err : Bool)
  | untyped
  deriving DecidableEq, Repr

variable {Cfg : Type}

/-- `demux` (bd-api/src/payload_conversion.rs:111-127). -/
def demux : Response Cfg → Option RKind
  | none => none
  | some (.handshake p) => some (.handshake p)
  | some (.logUpload u e) => some (.logUpload u e)
  | some (.logUploadIntent u d) => some (.logUploadIntent u d)
  | some (.statsUpload u e) => some (.statsUpload u e)
  | some .pong => some .pong
  | some (.errorShutdown a m) => some (.errorShutdown a m)
  | some (.flushBuffers ok) => some (.flushBuffers ok)
  | some (.sankeyDiagramUpload u e) => some (.sankeyPathUpload u e)
  | some (.sankeyIntentResponse u d) => some (.sankeyPathUploadIntent u d)
  | some (.opaqueUpload u e) => some (.opaque u e)
  | some _ => some .untyped

/-- `ConfigurationUpdate::from_response` (bd-api/src/payload_conversion.rs:24-35, 71-75). -/
def configOf : Response Cfg → Option (Upd Cfg)
  | some (.configurationUpdate u) => some u
  | _ => none

/-- `RuntimeUpdate::from_response` (bd-api/src/payload_conversion.rs:24-35, 76). -/
def runtimeOf : Response Cfg → Option RtUpd
  | some (.runtimeUpdate u) => some u
  | _ => none

/-- What `handle_responses` does with a response that is not for the pipelines (bd-api/src/api.rs:774-880). -/
def RKind.resp : RKind → Resp
  | .handshake p => .handshake p
  | .errorShutdown a _ => .errorShutdown a
  | .pong => .pong
  | .logUpload u e => .uploadAck u e
  | .logUploadIntent u d => .intentAck u d
  | .statsUpload u e => .uploadAck u e
  | .flushBuffers ok => .flushBuffers ok
  | .sankeyPathUpload u e => .uploadAck u e
  | .sankeyPathUploadIntent u d => .intentAck u d
  | .opaque u e => .uploadAck u e
  | .untyped => .untyped []

/-- `ConfigurationUpdateAck` in one of its two wrappers (bd-api/src/payload_conversion.rs:21-22); a nack names the version refused. -/
inductive Ack where
  | runtime (lastApplied : String)
  | config (lastApplied : String) (nack : Option String)
  deriving DecidableEq, Repr

/-- What the environment does while one response is handled: outcome of applying a configuration and of writing `config.pb`; outcome
of writing `update.pb` and `retry_count` with a possible death in between; whether the acknowledgement can be sent. -/
structure REnv where
  out : Outcome
  confW : Wr
  rtW : Wr
  rtTorn : Option RtUpd
  rtDie : Bool
  rtW' : Wr
  sendOk : Bool
  deriving DecidableEq, Repr

/-- What an observer of client and wire sees. -/
inductive Obs (Cfg : Type) where
  /-- a process starts, with the metadata of the platform -/
  | started (inner : List (Bytes × Bytes)) (p : Platform) (sdk : String)
  /-- a new stream, with the bytes of its handshake -/
  | hello (b : Bytes)
  /-- a response is taken up -/
  | got (r : Response Cfg)
  /-- a runtime snapshot comes into use -/
  | runtime (u : RtUpd)
  /-- a logger configuration is applied -/
  | attempt (src : Source) (u : Upd Cfg) (out : Outcome)
  /-- an acknowledgement is sent -/
  | ack (a : Ack)
  /-- `on_handshake_complete` -/
  | available
  /-- a stream ends -/
  | closed (reason : Bytes)
  deriving DecidableEq, Repr

def ofCfgObs : CfgObs Cfg → List (Obs Cfg)
  | .started => []
  | .attempt s u o => [.attempt s u o]

structure Sys (Cfg : Type) where
  /-- there is a process -/
  up : Bool
  api : Api
  rt : Rt RtUpd
  /-- the snapshot in use; `none`: the default one -/
  snap : Option RtUpd
  conf : Conf Cfg
  metadata : List (Bytes × Bytes)
  /-- `last_disconnect_reason` -/
  reason : Option Bytes
  /-- `stream_total`, `remote_connect_failure`, `error_shutdown_total` -/
  streamTotal : Nat
  connectFailure : Nat
  errorShutdown : Nat

/-- Nothing was ever installed. -/
def Sys.fresh : Sys Cfg := ⟨false, Api.init false, ⟨⟨none, none⟩, false⟩, none, ⟨none, none⟩, [], none, 0, 0, 0⟩

/-- `try_apply_config` of the runtime (bd-api/src/api.rs:87-100): what is observed, and the acknowledgement. -/
def Sys.applyRuntime (s : Sys Cfg) (r : Response Cfg) (e : REnv) : Sys Cfg × List (Obs Cfg) × Option Ack :=
  match runtimeOf r with
  | none => (s, [], none)
  | some u =>
    let s' := { s with rt := (s.rt.step (.update u e.rtW e.rtTorn e.rtDie e.rtW')).1, snap := some u }
    if e.rtDie then ({ s' with up := false }, [.runtime u], none)
    else (s', [.runtime u], some (.runtime ((s'.snap.map (·.nonce)).getD "")))

/-- `try_apply_config` of the logger configuration (bd-logger/src/client_config.rs:174-200). -/
def Sys.applyConfig (s : Sys Cfg) (r : Response Cfg) (e : REnv) : Sys Cfg × List (Obs Cfg) × Option Ack :=
  match configOf r with
  | none => (s, [], none)
  | some u =>
    let s' := { s with conf := (s.conf.process .server u e.out e.confW).1 }
    let obs := (s.conf.process .server u e.out e.confW).2.flatMap ofCfgObs
    if u.cfg.isSome && e.out == .die then ({ s' with up := false }, obs, none)
    else if u.cfg.isSome && e.out == .ok then (s', obs, some (.config u.nonce none))
    else (s', obs, some (.config u.nonce (some u.nonce)))

/-- One turn of `handle_responses` (bd-api/src/api.rs:774-889).  A response is for one pipeline at most, so that their acknowledgements are
sent together here. -/
def Sys.handle (s : Sys Cfg) (r : Response Cfg) (e : REnv) : Sys Cfg × List (Obs Cfg) :=
  match demux r with
  | none => (s, [.got r])
  | some .untyped =>
    let x := s.applyRuntime r e
    let y := x.1.applyConfig r e
    let acks := x.2.2.toList ++ y.2.2.toList
    match y.1.api.respond (.untyped (acks.map fun _ => e.sendOk)) with
    | none => ({ y.1 with api := y.1.api.fail }, .got r :: (x.2.1 ++ y.2.1))
    | some a => ({ y.1 with api := a }, .got r :: (x.2.1 ++ y.2.1 ++ acks.map .ack))
  | some k =>
    let s' := match k with
      | .errorShutdown _ _ => { s with errorShutdown := s.errorShutdown + 1 }
      | _ => s
    match s.api.respond k.resp with
    | none => ({ s' with api := s.api.fail }, [.got r])
    | some a => ({ s' with api := a }, [.got r])

/-- `handle_responses` (bd-api/src/api.rs:769-892): to the end, unless an error ends the task or the process dies. -/
def Sys.handleAll (s : Sys Cfg) : List (Response Cfg × REnv) → Sys Cfg × List (Obs Cfg)
  | [] => (s, [])
  | x :: xs =>
    if (s.handle x.1 x.2).1.up && (s.handle x.1 x.2).1.api.phase != .ended then
      (((s.handle x.1 x.2).1.handleAll xs).1, (s.handle x.1 x.2).2 ++ ((s.handle x.1 x.2).1.handleAll xs).2)
    else s.handle x.1 x.2

/-- The responses in the first data that has any (`wait_for_handshake`, bd-api/src/api.rs:933-991), and what follows a handshake (652-697);
`w`: outcome of writing the retry count in `mark_safe`. -/
def Sys.greet (s : Sys Cfg) (first : Response Cfg) (rest : List (Response Cfg × REnv)) (w : Wr) : Sys Cfg × List (Obs Cfg) :=
  match demux first with
  | some (.handshake p) =>
    let x := ({ s with api := { s.api with phase := .active, pingInterval := p, pingArmed := p } } : Sys Cfg).handleAll rest
    if x.1.up && x.1.api.phase != .ended then
      ({ x.1 with rt := (x.1.rt.step (.handshake w)).1 }, .got first :: (x.2 ++ [.available]))
    else (x.1, .got first :: x.2)
  | some (.errorShutdown true _) =>
    ({ s with api := { s.api.dropPending with phase := .idle, killed := true } }, [.got first])
  | some (.errorShutdown false m) =>
    ({ s with api := { s.api with phase := .backoff }, reason := some (enc "error shutdown: " ++ m),
              connectFailure := s.connectFailure + 1, errorShutdown := s.errorShutdown + 1 },
      [.got first, .closed (enc "error shutdown: " ++ m)])
  | _ => ({ s with api := s.api.fail }, [.got first])

inductive Ev (Cfg : Type) where
  /-- a process starts: the metadata of the platform, its kind and version; loading the runtime and the logger configuration; whether
  the client is killed (`Api::start`, bd-api/src/api.rs:444-459) -/
  | start (inner : List (Bytes × Bytes)) (p : Platform) (sdk : String) (e : StartEnv RtUpd)
      (readOk removeOk die : Bool) (out : Outcome) (w : Wr) (killed : Bool)
  /-- a new stream (575-642) -/
  | open_ (started sent : Bool)
  /-- data, decoded (`none`: decoding failed) -/
  | data (rs : Option (List (Response Cfg × REnv))) (w : Wr)
  | closed (reason : Bytes) (long : Bool)
  | wake
  | request (r : Verif.Api.Req) (ok : Bool)
  | pingTimer (ok : Bool)
  | shutdown
  /-- the process ends at any point -/
  | die

/-- The nonces of the pipelines (`version_nonce`, `configuration_version_id`). -/
def Sys.rtNonce (s : Sys Cfg) : Option Bytes := s.snap.map fun u => enc u.nonce
def Sys.confNonce (s : Sys Cfg) : Option Bytes := s.conf.version.map enc

/-- Start of a process: `Api::start` (bd-api/src/api.rs:444-459).  A death while loading is taken for possible also when there is nothing
to load. -/
def Sys.boot (s : Sys Cfg) (inner : List (Bytes × Bytes)) (p : Platform) (sdk : String) (e : StartEnv RtUpd) (readOk removeOk die : Bool) (out : Outcome) (w : Wr)
    (killed : Bool) : Sys Cfg × List (Obs Cfg) :=
  let rt := s.rt.step (.start e)
  if e.dieAfterIncr then
    ({ s with up := false, api := Api.init killed, rt := rt.1, snap := rt.2, conf := ⟨s.conf.file, none⟩, metadata := collect inner p sdk, reason := none,
              streamTotal := 0, connectFailure := 0, errorShutdown := 0 }, Obs.started inner p sdk :: rt.2.toList.map .runtime)
  else
    let c := s.conf.step (.start readOk removeOk die out w)
    ({ s with up := !(die || out == .die), api := Api.init killed, rt := rt.1, snap := rt.2, conf := c.1, metadata := collect inner p sdk, reason := none,
              streamTotal := 0, connectFailure := 0, errorShutdown := 0 },
      Obs.started inner p sdk :: (rt.2.toList.map .runtime ++ c.2.flatMap ofCfgObs))

/-- One event; what is observed. -/
def Sys.step (s : Sys Cfg) : Ev Cfg → Sys Cfg × List (Obs Cfg)
  | .start inner p sdk e readOk removeOk die out w killed => s.boot inner p sdk e readOk removeOk die out w killed
  | .open_ started sent =>
    if s.up && s.api.phase == .idle then
      if s.api.killed then ({ s with api := s.api.step (.open_ started sent) }, [])
      else
        match handshakeRequest s.metadata s.reason [rtPart s.rtNonce, confPart s.confNonce] with
        | none => ({ s with up := false }, [])
        | some h =>
          ({ s with api := s.api.step (.open_ started sent), streamTotal := s.streamTotal + 1,
                    reason := if started then none else s.reason },
            if started && sent then [.hello h.write] else [])
    else (s, [])
  | .data rs w =>
    if s.up then
      match s.api.phase, rs with
      | .waiting, none => ({ s with api := s.api.fail }, [])
      | .waiting, some [] => (s, [])
      | .waiting, some (x :: xs) => s.greet x.1 xs w
      | .active, none => ({ s with api := s.api.fail }, [])
      | .active, some xs => s.handleAll xs
      | _, _ => (s, [])
    else (s, [])
  | .closed reason long =>
    if s.up then
      match s.api.phase with
      | .waiting => ({ s with api := s.api.step (.closed long), reason := some reason, connectFailure := s.connectFailure + 1 }, [.closed reason])
      | .active => ({ s with api := s.api.step (.closed long), reason := some reason }, [.closed reason])
      | _ => (s, [])
    else (s, [])
  | .wake => if s.up then ({ s with api := s.api.step .wake }, []) else (s, [])
  | .request r ok => if s.up then ({ s with api := s.api.step (.request r ok) }, []) else (s, [])
  | .pingTimer ok => if s.up then ({ s with api := s.api.step (.pingTimer ok) }, []) else (s, [])
  | .shutdown => if s.up then ({ s with api := s.api.step .shutdown }, []) else (s, [])
  | .die => ({ s with up := false }, [])

def Sys.run (s : Sys Cfg) : List (Ev Cfg) → Sys Cfg
  | [] => s
  | e :: es => (s.step e).1.run es

/-- Everything observed in a history. -/
def Sys.obs (s : Sys Cfg) : List (Ev Cfg) → List (Obs Cfg)
  | [] => []
  | e :: es => (s.step e).2 ++ (s.step e).1.obs es

end Verif.Sync
