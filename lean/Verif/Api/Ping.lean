/-
Model of the ping timer of the API stream: bd-api/src/api.rs, `StreamState::{new, initialize_stream_settings,
maybe_schedule_ping, send_ping}` (184-254), the timer branch of the loop (721-736) and the pong (779).

Time is a natural number.  `top` is the largest `Instant`; adding an interval beyond it panics, as
`Instant + Duration` does.  How a protobuf duration becomes a `Duration` belongs to a dependency: the result of the
conversion is an input (`none`: it fails).  Everything else on the stream (uploads, other responses) is one event
`other`; `Verif.Api.Stream` has the details, and `Verif.Api.PingProps` relates the two.
-/
namespace Verif.Ping

inductive Phase where
  /-- no stream, or the back-off after one -/
  | off
  /-- in `wait_for_handshake` -/
  | waiting
  /-- in the loop (721) -/
  | active
  /-- the task has returned -/
  | ended
  /-- `Instant + Duration` overflowed -/
  | panicked
  deriving DecidableEq, Repr

/-- What can be seen from outside, with the time. -/
inductive Tr where
  | opened
  /-- the handshake, with the ping interval it asks for -/
  | hello (iv : Option Nat)
  | pong
  | ping
  | closed
  deriving DecidableEq, Repr

structure St where
  phase : Phase := .off
  now : Nat := 0
  /-- `ping_interval`, `ping_deadline` (173-174) -/
  interval : Option Nat := none
  deadline : Option Nat := none
  /-- ghost: what happened, the last first -/
  tr : List (Nat × Tr) := []
  deriving DecidableEq, Repr

inductive Ev where
  /-- time passes -/
  | tick (d : Nat)
  /-- a new stream and its `StreamState` (629-650) -/
  | open_
  /-- the handshake response (656-658): the settings may be missing, and in them the interval, and its
  conversion may fail (228-233) -/
  | hello (settings : Option (Option (Option Nat)))
  | pong
  /-- a request is taken from the queue and sent, or another response is handled -/
  | other
  /-- the branch of the timer is taken (732-736); the result of sending -/
  | fire (ok : Bool)
  | closed
  deriving DecidableEq, Repr

/-- `stream_settings.and_then(|s| s.ping_interval.take().and_then(|d| d.try_into().ok()))` (229-234) -/
def intervalOf : Option (Option (Option Nat)) → Option Nat
  | some (some (some n)) => some n
  | _ => none

/-- `maybe_schedule_ping` (239-245): `ping_deadline = ping_interval.map(|i| Instant::now() + i)` -/
def St.schedule (top : Nat) (s : St) : St :=
  match s.interval with
  | none => { s with deadline := none }
  | some iv => if s.now + iv ≤ top then { s with deadline := some (s.now + iv) } else { s with phase := .panicked }

def St.step (top : Nat) (s : St) : Ev → St
  | .tick d => { s with now := s.now + d }
  | .open_ => if s.phase = .off then
      { s with phase := .waiting, interval := none, deadline := none, tr := (s.now, .opened) :: s.tr } else s
  | .hello st => if s.phase = .waiting then
      St.schedule top { s with phase := .active, interval := intervalOf st, tr := (s.now, .hello (intervalOf st)) :: s.tr }
    else s
  | .pong => if s.phase = .active then St.schedule top { s with tr := (s.now, .pong) :: s.tr } else s
  | .other => s
  | .fire ok => if s.phase = .active then
      match s.deadline with
      | none => s
      | some d => if d ≤ s.now then
          if ok then { s with deadline := none, tr := (s.now, .ping) :: s.tr } else { s with deadline := none, phase := .ended }
        else s
    else s
  | .closed => if s.phase = .active ∨ s.phase = .waiting then { s with phase := .off, tr := (s.now, .closed) :: s.tr } else s

def St.run (top : Nat) (s : St) : List Ev → St
  | [] => s
  | e :: es => St.run top (s.step top e) es

/-- The loop is polled in time: time does not pass a timer that is due without the branch being taken. -/
def Prompt (top : Nat) (s : St) : List Ev → Prop
  | [] => True
  | e :: es => (∀ d D, e = .tick d → s.phase = .active → s.deadline = some D → s.now + d ≤ D)
      ∧ Prompt top (s.step top e) es

end Verif.Ping
