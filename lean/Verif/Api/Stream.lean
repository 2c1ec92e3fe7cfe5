/-
Model of the API stream: bd-api/src/upload.rs (`StateTracker`) and bd-api/src/api.rs (`maintain_active_stream`,
`wait_for_handshake`, `handle_responses`, `StreamState`).

Identifiers are natural numbers, a request carries the number of its one-shot response channel.  Payloads,
compression, configuration pipelines (they only answer `Untyped` responses) and the length of back-off delays
are not modelled; the codec is modelled in `Verif.Grpc`.  A failure to start a stream or to send data is an
input (`ok = false`) and ends the task, as `?` does in the code.
-/
namespace Verif.Api

/-- `UploadResponse` or `IntentResponse` goes back (upload.rs:88-95). -/
inductive Kind where
  | upload | intent
  deriving DecidableEq, Repr

structure Req where
  kind : Kind
  uuid : Nat
  chan : Nat
  deriving DecidableEq, Repr

inductive Decision where
  | drop | uploadImmediately
  deriving DecidableEq, Repr

/-- What is sent on a response channel; `dropped` is the sender being dropped without a message. -/
inductive Out where
  /-- `UploadResponse { success, uuid }` -/
  | upload (chan : Nat) (uuid : Nat) (success : Bool)
  /-- `IntentResponse { uuid, decision }` -/
  | intent (chan : Nat) (uuid : Nat) (d : Decision)
  | dropped (chan : Nat)
  deriving DecidableEq, Repr

def Out.chan : Out → Nat
  | .upload c _ _ => c
  | .intent c _ _ => c
  | .dropped c => c

/-- Responses of the server, as demultiplexed in `handle_responses` (769-892). The four acknowledgements of
uploads (opaque, log, stats, sankey) have the same handling; `err` tells whether the error is not empty.  An
intent without decision is `drop` (818-823). -/
inductive Resp where
  | handshake (ping : Bool)
  | pong
  | errorShutdown (unauthenticated : Bool)
  | uploadAck (uuid : Nat) (err : Bool)
  | intentAck (uuid : Nat) (d : Option Decision)
  /-- `ok`: the upload manager is alive -/
  | flushBuffers (ok : Bool)
  /-- a configuration update; the acknowledgements sent for it, with the result of sending -/
  | untyped (acks : List Bool)
  | unhandled
  deriving DecidableEq, Repr

/-- What is sent on a stream. -/
inductive Msg where
  | handshake | ping | configAck
  | data (r : Req)
  deriving DecidableEq, Repr

inductive Phase where
  /-- at the start of the outer loop (583) -/
  | idle
  | waiting | active
  /-- in `do_reconnect_backoff`, the stream state still alive (754-759) -/
  | backoff
  /-- `client_killed`: waiting for the shutdown (597-601) -/
  | killed
  | ended
  deriving DecidableEq, Repr

structure Api where
  phase : Phase
  killed : Bool
  /-- `pending_uploads`, `pending_intents` (upload.rs:88-95) -/
  uploads : List (Nat × Nat)
  intents : List (Nat × Nat)
  pingInterval : Bool
  pingArmed : Bool
  /-- ghost: sent on the current stream -/
  sent : List Msg
  /-- ghost: pongs received on the current stream -/
  pongs : Nat
  /-- ghost: streams opened -/
  streams : Nat
  /-- ghost: all messages on response channels -/
  outs : List Out
  /-- ghost: all requests given to the tracker -/
  tracked : List Req
  deriving DecidableEq, Repr

def Api.init (killed : Bool) : Api := ⟨.idle, killed, [], [], false, false, [], 0, 0, [], []⟩

/-- Drop all pending response channels. -/
def Api.dropPending (s : Api) : Api :=
  { s with uploads := [], intents := [], outs := s.outs ++ (s.uploads ++ s.intents).map fun x => .dropped x.2 }

/-- An error or a shutdown ends the task; everything it owns is dropped. -/
def Api.fail (s : Api) : Api := { s.dropPending with phase := .ended }

/-- `HashMap::insert` of a sender: a replaced sender is dropped. -/
def insertPending (l : List (Nat × Nat)) (uuid chan : Nat) : List (Nat × Nat) :=
  l.filter (fun x => x.1 != uuid) ++ [(uuid, chan)]

def replaced (l : List (Nat × Nat)) (uuid : Nat) : List (Nat × Nat) := l.filter (fun x => x.1 == uuid)

/-- `track_upload` (upload.rs:117-123) and `track_intent` (108-114). -/
def Api.track (s : Api) (r : Req) : Api :=
  match r.kind with
  | .upload => { s with uploads := insertPending s.uploads r.uuid r.chan, tracked := s.tracked ++ [r],
                        outs := s.outs ++ (replaced s.uploads r.uuid).map fun x => .dropped x.2 }
  | .intent => { s with intents := insertPending s.intents r.uuid r.chan, tracked := s.tracked ++ [r],
                        outs := s.outs ++ (replaced s.intents r.uuid).map fun x => .dropped x.2 }

/-- One response in `handle_responses` (774-888); `none` is an error. -/
def Api.respond (s : Api) : Resp → Option Api
  | .handshake _ => none
  | .pong => some { s with pingArmed := s.pingInterval, pongs := s.pongs + 1 }
  | .errorShutdown _ => some s
  | .uploadAck uuid err =>
    match s.uploads.find? (fun x => x.1 == uuid) with
    | none => none
    | some x => some { s with uploads := s.uploads.filter (fun y => y.1 != uuid), outs := s.outs ++ [.upload x.2 uuid (!err)] }
  | .intentAck uuid d =>
    match s.intents.find? (fun x => x.1 == uuid) with
    | none => none
    | some x => some { s with intents := s.intents.filter (fun y => y.1 != uuid), outs := s.outs ++ [.intent x.2 uuid (d.getD .drop)] }
  | .flushBuffers ok => if ok then some s else none
  | .untyped acks => if acks.all id then some { s with sent := s.sent ++ acks.map fun _ => .configAck } else none
  | .unhandled => some s

/-- `handle_responses`; on an error the task ends. -/
def Api.respondAll (s : Api) : List Resp → Api
  | [] => s
  | r :: rs => match s.respond r with
    | none => s.fail
    | some s' => Api.respondAll s' rs

inductive Ev where
  /-- an iteration of the outer loop reaches `start_stream` and sends the handshake (583-642); the results of both -/
  | open_ (started sent : Bool)
  /-- data arrived and was decoded to these responses (`none`: decoding failed) -/
  | data (rs : Option (List Resp))
  /-- the stream was closed; `long`: it lived for more than a minute, so that there is no back-off (750-759) -/
  | closed (long : Bool)
  /-- the back-off delay is over -/
  | wake
  /-- a request from the queue (737-740); `ok` tells whether it could be sent -/
  | request (r : Req) (ok : Bool)
  /-- the ping timer fires (732-736) -/
  | pingTimer (ok : Bool)
  /-- shutdown, or the event channel is closed -/
  | shutdown
  deriving DecidableEq, Repr

def Api.step (s : Api) : Ev → Api
  | .open_ started sent =>
    match s.phase with
    | .idle =>
      if s.killed then { s with phase := .killed }
      else if started then
        if sent then { s with phase := .waiting, pingInterval := false, pingArmed := false, sent := [.handshake], pongs := 0, streams := s.streams + 1 }
        else { s with phase := .ended, pingInterval := false, pingArmed := false, sent := [], pongs := 0, streams := s.streams + 1 }
      else { s with phase := .ended }
    | _ => s
  | .data rs =>
    match s.phase with
    | .waiting =>
      match rs with
      | none => s.fail
      | some [] => s
      | some (.handshake ping :: rest) => Api.respondAll { s with phase := .active, pingInterval := ping, pingArmed := ping } rest
      | some (.errorShutdown true :: _) => { s.dropPending with phase := .idle, killed := true }
      | some (.errorShutdown false :: _) => { s with phase := .backoff }
      | some (_ :: _) => s.fail
    | .active =>
      match rs with
      | none => s.fail
      | some rs => s.respondAll rs
    | _ => s
  | .closed long =>
    match s.phase with
    | .waiting => { s with phase := .backoff }
    | .active => if long then { s.dropPending with phase := .idle } else { s with phase := .backoff }
    | _ => s
  | .wake => match s.phase with
    | .backoff => { s.dropPending with phase := .idle }
    | _ => s
  | .request r ok => match s.phase with
    | .active => if ok then { s.track r with sent := s.sent ++ [.data r] } else (s.track r).fail
    | _ => s
  | .pingTimer ok => match s.phase with
    | .active => if s.pingArmed then
        if ok then { s with pingArmed := false, sent := s.sent ++ [.ping] } else Api.fail { s with pingArmed := false }
      else s
    | _ => s
  | .shutdown => match s.phase with
    | .idle => s
    | .ended => s
    | _ => s.fail

def Api.run (s : Api) (es : List Ev) : Api := es.foldl Api.step s

end Verif.Api
