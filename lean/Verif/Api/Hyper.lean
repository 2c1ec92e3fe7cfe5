/-
Model of the network task of bd-hyper-network/src/lib.rs together with the loop of bd-api/src/api.rs:573-764 that uses it.

Three parties: the api task, the network task, the server (with hyper's connection).  Between them: the channel of the handle
(capacity 1, lib.rs:84), one channel of events per stream (capacity 16, api.rs:648), one channel for the body of each request
(capacity 1, lib.rs:268).  A step is one completed operation of one party; which steps happen, and what the server answers, is arbitrary.

Simplifications.  A message is a number.  What the api task makes of received data (bytes of an incomplete message, the handshake, requests to be
sent in turn) is an input, see `React`; the model of that is Verif.Api.Stream.  The reasons of a closed stream and the headers are left out.
The delay before reconnecting has any length, see Verif.Reconn.
-/
namespace Verif.Hyper

/-- `StreamEvent` of the handle (lib.rs:44-48). -/
inductive Ev where
  | start (i : Nat)
  | data (d : Nat)
  deriving DecidableEq, Repr

/-- `bd_api::StreamEvent` -/
inductive Up where
  | data (d : Nat)
  | closed
  deriving DecidableEq, Repr

/-- Where the network task waits. -/
inductive Net where
  /-- for the next stream (lib.rs:110-123) -/
  | idle
  /-- `client.request` (lib.rs:147) -/
  | connecting (i : Nat)
  /-- the loop of `process_stream` (lib.rs:184-221) -/
  | serving (i : Nat)
  /-- `body_sender.send` (lib.rs:233) -/
  | toBody (i d : Nat)
  /-- `event_tx.send` of data (lib.rs:209) -/
  | toApi (i d : Nat)
  /-- `event_tx.send` of the final event (lib.rs:129) -/
  | close (i : Nat)
  | ended
  | panicked
  deriving DecidableEq, Repr

/-- Where the api task waits. -/
inductive Api where
  /-- `start_stream` (lib.rs:295-299); then the handshake `hello` is sent -/
  | starting (hello : Nat)
  /-- `out` still has to be sent; if nothing, `select!` before (api.rs:917-928) or after the handshake (api.rs:720-741) -/
  | active (out : List Nat) (shaken : Bool)
  | backoff
  | killed
  | ended
  | panicked
  deriving DecidableEq, Repr

/-- One stream.  `sent`, `taken`, `frames`, `got` record what the api task gave to `send_data`, what left the body channel, what
the response consisted of, what the api task received. -/
structure Str where
  up : List Up := []
  /-- the receiver of the events exists -/
  upAlive : Bool := true
  body : Option Nat := none
  /-- the receiver of the body exists -/
  bodyAlive : Bool := true
  sent : List Nat := []
  taken : List Nat := []
  frames : List Nat := []
  got : List Up := []

structure St where
  api : Api
  cur : Nat := 0
  inq : Option Ev := none
  /-- the sender of the handle exists -/
  tx : Bool := true
  net : Net := .idle
  str : Nat → Str := fun _ => {}

/-- What the api task makes of data. -/
inductive React where
  /-- nothing, or nothing to send -/
  | more
  /-- the handshake, or responses; `out` is sent in turn -/
  | reply (out : List Nat)
  /-- `ErrorShutdown` -/
  | refuse
  /-- `ErrorShutdown`, unauthenticated -/
  | unauth
  /-- an error ends the task -/
  | fail
  deriving DecidableEq, Repr

inductive Act where
  | apiSend
  | apiRecv (r : React)
  /-- an upload or a ping -/
  | apiUpload (out : List Nat)
  | apiDelay (hello : Nat)
  | apiStop
  | netRecv
  | netStop
  | netConn (ok : Bool)
  | netFrame (f : Option Nat)
  | netBody
  | netUp
  | srvTake (i : Nat)
  | srvDrop (i : Nat)
  deriving DecidableEq, Repr

def St.set (s : St) (i : Nat) (x : Str) : St := { s with str := fun j => if j = i then x else s.str j }

/-- The receiver of the handle's channel is gone. -/
def Net.gone : Net → Bool
  | .ended | .panicked => true
  | _ => false

/-- `StreamState` of the current stream is dropped. -/
def St.dropRx (s : St) : St := s.set s.cur { s.str s.cur with upAlive := false }

/-- The api task ends; it owned the handle. -/
def St.leave (s : St) (a : Api) : St := { s.dropRx with api := a, tx := false }

/-- `stream_event_tx.send(..).await.unwrap()` (lib.rs:295-299, 312-316) -/
def St.send (s : St) : Option St :=
  match s.api with
  | .starting hello =>
    if s.net.gone then some (s.leave .panicked)
    else if s.inq.isSome then none
    else some { s with inq := some (.start s.cur), api := .active [hello] false }
  | .active (d :: l) b =>
    if s.net.gone then some (s.leave .panicked)
    else if s.inq.isSome then none
    else some { s.set s.cur { s.str s.cur with sent := (s.str s.cur).sent ++ [d] } with inq := some (.data d), api := .active l b }
  | _ => none

/-- Received data before (api.rs:931-986) and after the handshake (api.rs:743-761, 768-861). -/
def St.react (s : St) (shaken : Bool) : React → St
  | .more => s
  | .reply out => { s with api := .active out true }
  | .refuse => if shaken then s else { s with api := .backoff }
  | .unauth => if shaken then s else { s.dropRx with api := .killed }
  | .fail => s.leave .ended

/-- `stream_event_rx.recv()` -/
def St.recv (s : St) (r : React) : Option St :=
  match s.api with
  | .active [] b =>
    match (s.str s.cur).up with
    | [] => none
    | .data d :: q => some ((s.set s.cur { s.str s.cur with up := q, got := (s.str s.cur).got ++ [.data d] }).react b r)
    | .closed :: q => some { s.set s.cur { s.str s.cur with up := q, got := (s.str s.cur).got ++ [.closed] } with api := .backoff }
  | _ => none

/-- `stream_event_rx.recv()` of the network task (lib.rs:108-122, 186-189, 224-232) -/
def St.netRecv (s : St) : Option St :=
  match s.net, s.inq with
  | .idle, some (.start i) => some { s with inq := none, net := .connecting i }
  | .idle, some (.data _) => some { s with inq := none }
  | .serving _, some (.start _) => some { s with inq := none, net := .panicked }
  | .serving i, some (.data d) => some { s with inq := none, net := .toBody i d }
  | .idle, none | .serving _, none => if s.tx then none else some { s with net := .ended }
  | _, _ => none

/-- `body_sender.send` completes (lib.rs:233-246). -/
def St.netBody (s : St) : Option St :=
  match s.net with
  | .toBody i d =>
    if (s.str i).bodyAlive then
      if (s.str i).body.isSome then none
      else some { s.set i { s.str i with body := some d } with net := .serving i }
    else some { s with net := .close i }
  | _ => none

/-- `event_tx.send` completes (lib.rs:129-132, 207-216). -/
def St.netUp (s : St) : Option St :=
  match s.net with
  | .toApi i d =>
    if (s.str i).upAlive then
      if (s.str i).up.length < 16 then some { s.set i { s.str i with up := (s.str i).up ++ [.data d] } with net := .serving i } else none
    else some { s with net := .ended }
  | .close i =>
    if (s.str i).upAlive then
      if (s.str i).up.length < 16 then some { s.set i { s.str i with up := (s.str i).up ++ [.closed] } with net := .idle } else none
    else some { s with net := .ended }
  | _ => none

def St.step (s : St) : Act → Option St
  | .apiSend => s.send
  | .apiRecv r => s.recv r
  | .apiUpload out => if s.api = .active [] true then some { s with api := .active out true } else none
  | .apiDelay hello => if s.api = .backoff then some { s.dropRx with api := .starting hello, cur := s.cur + 1 } else none
  | .apiStop =>
    match s.api with
    | .active [] _ | .backoff | .killed => some (s.leave .ended)
    | _ => none
  | .netRecv => s.netRecv
  | .netStop =>
    match s.net with
    | .idle | .serving _ => some { s with net := .ended }
    | _ => none
  | .netConn ok =>
    match s.net with
    | .connecting i => some { s with net := if ok then .serving i else .close i }
    | _ => none
  | .netFrame (some d) =>
    match s.net with
    | .serving i => some { s.set i { s.str i with frames := (s.str i).frames ++ [d] } with net := .toApi i d }
    | _ => none
  | .netFrame none =>
    match s.net with
    | .serving i => some { s with net := .close i }
    | _ => none
  | .netBody => s.netBody
  | .netUp => s.netUp
  | .srvTake i =>
    match (s.str i).body with
    | some d => if (s.str i).bodyAlive then some (s.set i { s.str i with body := none, taken := (s.str i).taken ++ [d] }) else none
    | none => none
  | .srvDrop i => some (s.set i { s.str i with bodyAlive := false })

def St.run (s : St) : List Act → Option St
  | [] => some s
  | a :: l => (s.step a).bind fun s' => s'.run l

/-- The start of both tasks. -/
def St.init (hello : Nat) : St := { api := .starting hello }

end Verif.Hyper
