/-
The counters of server streams: `server_streaming_handler` (bd-grpc/src/lib.rs:1028-1096) with the sending of messages
(`StreamingApiSender::send`, `send_raw_inner`, 814-838), for any number of calls at the same time.  What is sent and how a client reads it is
in Verif.Grpc.Call and Verif.Grpc.Ends.

The future of a request is dropped when its connection is lost while the request is being read (hyper drops the service future); afterwards the
handler runs in a task of its own, which only a panic or the end of the runtime stops.  Not modelled: the wait of the trailers for room in the
channel (they count as handed over when they are sent), a handler that drops the future of `send`, and the bytes counted by the encoder.
-/
namespace Verif.Grpc.Streams

inductive Phase where
  /-- `decode_request` is reading -/
  | decoding
  /-- the task of the handler runs -/
  | running
  /-- the request was not valid -/
  | invalid
  /-- the handler returned -/
  | ok
  | error
  /-- the handler panicked -/
  | panicked
  /-- the future or the task was dropped -/
  | dropped
  deriving DecidableEq, Repr

structure Call where
  phase : Phase := .decoding
  /-- the body of the response is still wanted -/
  client : Bool := true
  /-- a message waits for room in the channel of one place (833) -/
  pending : Bool := false
  /-- messages handed to the body -/
  frames : Nat := 0
  /-- messages refused since the body is gone (833-836) -/
  refused : Nat := 0
  /-- trailers handed to the body: the code -/
  trailers : List Bool := []
  deriving DecidableEq, Repr

structure Srv where
  calls : List Call := []
  /-- `stream_initiations_total` -/
  initiations : Nat := 0
  /-- `stream_completion_successes_total` -/
  successes : Nat := 0
  /-- `stream_completion_failures_total` -/
  failures : Nat := 0
  /-- `tx_messages_total` -/
  messages : Nat := 0
  /-- calls of the error handler -/
  reported : Nat := 0
  deriving DecidableEq, Repr

inductive Res where
  | ok
  | error
  | panic
  deriving DecidableEq, Repr

inductive Ev where
  | arrive
  /-- `decode_request` returned -/
  | decoded (i : Nat) (ok : Bool)
  /-- the client goes away -/
  | leave (i : Nat)
  /-- the handler sends a message -/
  | send (i : Nat)
  /-- there is room for it, or the client has gone -/
  | sent (i : Nat)
  /-- the handler ends; `reporter`: the error handler returns and the message of the error fits into a header (849) -/
  | finish (i : Nat) (r : Res) (reporter : Bool)
  /-- the runtime ends -/
  | shutdown
  deriving DecidableEq, Repr

def Call.active (c : Call) : Bool := c.phase = .decoding || c.phase = .running

def Call.leave (c : Call) : Call := { c with client := false, phase := if c.phase = .decoding then .dropped else c.phase }

def Call.sent (c : Call) : Call :=
  if c.client then { c with pending := false, frames := c.frames + 1 } else { c with pending := false, refused := c.refused + 1 }

/-- `send_trailers` (864-871); an error is ignored (1066, 1087). -/
def Call.finish (c : Call) (p : Phase) (good : Bool) : Call :=
  { c with phase := p, trailers := if c.client then c.trailers ++ [good] else c.trailers }

def Srv.step (s : Srv) : Ev → Srv
  | .arrive => { s with calls := s.calls ++ [{}], initiations := s.initiations + 1 }
  | .decoded i ok => match s.calls[i]? with
    | some c =>
      if c.phase = .decoding then
        if ok then { s with calls := s.calls.set i { c with phase := .running } }
        else { s with calls := s.calls.set i { c with phase := .invalid }, failures := s.failures + 1 }
      else s
    | none => s
  | .leave i => match s.calls[i]? with
    | some c => { s with calls := s.calls.set i c.leave }
    | none => s
  | .send i => match s.calls[i]? with
    | some c =>
      if c.phase = .running ∧ c.pending = false then
        { s with calls := s.calls.set i { c with pending := true }, messages := s.messages + 1 }
      else s
    | none => s
  | .sent i => match s.calls[i]? with
    | some c => if c.phase = .running ∧ c.pending = true then { s with calls := s.calls.set i c.sent } else s
    | none => s
  | .finish i r reporter => match s.calls[i]? with
    | some c =>
      if c.phase = .running ∧ c.pending = false then
        match r with
        | .ok => { s with calls := s.calls.set i (c.finish .ok true), successes := s.successes + 1 }
        | .error =>
          { s with
            calls := s.calls.set i (if reporter then c.finish .error false else { c with phase := .error })
            failures := s.failures + 1, reported := s.reported + 1 }
        | .panic => { s with calls := s.calls.set i { c with phase := .panicked } }
      else s
    | none => s
  | .shutdown => { s with calls := s.calls.map fun c => if c.active then { c with phase := .dropped } else c }

def Srv.run (s : Srv) (es : List Ev) : Srv := es.foldl Srv.step s

end Verif.Grpc.Streams
