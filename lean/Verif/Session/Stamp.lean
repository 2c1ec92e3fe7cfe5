import Verif.Session.Model

/-
The session of logs: the activity-based strategy (Verif.Session) together with the queue into the log task and
`AsyncLogBuffer::process_log` (bd-logger/src/async_log_buffer.rs:353-468), which decides on the session of a log when the log is
taken from the queue, not when it is logged.  The application and other tasks call the strategy at the same time
(bd-logger/src/logger.rs:379-395).

The log itself is left out (Verif.Meta).  What happens to it afterwards, the buffer before the configuration included, does not
change its session.
-/
namespace Verif.Session.Stamp

/-- An identifier that was handed out: to a caller, or (`log = some n`) written into a log that was logged when `n` of them had been
handed out; `plain = false` if it is the one of an override. -/
structure Item where
  id : Nat
  log : Option Nat
  plain : Bool
  deriving DecidableEq, Repr

structure S where
  act : Act
  /-- logs in the queue: when they were logged, and the expected session of their override -/
  queue : List (Nat × Option Nat) := []
  trace : List Item := []
  deriving DecidableEq, Repr

inductive Ev where
  /-- a log is logged; `fits`: there is room in the queue -/
  | call (override : Option Nat) (fits : Bool)
  /-- the log task takes one; `metadata`: the platform provides its metadata -/
  | take (now : Int) (wok metadata : Bool)
  /-- anything done with the strategy by others -/
  | op (o : ActOp)
  deriving DecidableEq, Repr

/-- `session_id` called for a log (async_log_buffer.rs:381, 430). -/
def S.stamp (s : S) (now : Int) (wok : Bool) (called : Nat) (q : List (Nat × Option Nat)) : S :=
  { act := (s.act.sessionId now wok).1, queue := q, trace := s.trace ++ [⟨(s.act.sessionId now wok).2, some called, true⟩] }

def S.step (s : S) : Ev → S
  | .call override fits => if fits then { s with queue := s.queue ++ [(s.trace.length, override)] } else s
  | .take now wok metadata => match s.queue with
    | [] => s
    | (called, override) :: q =>
      if metadata then
        match override with
        | none => s.stamp now wok called q
        | some o =>
          if s.act.previous = some o then { s with queue := q, trace := s.trace ++ [⟨o, some called, false⟩] }
          else s.stamp now wok called q
      else { s with queue := q }
  | .op o =>
    { act := (s.act.step o).1
      queue := if o = .restart then [] else s.queue
      trace := s.trace ++ (if o = .previous then [] else (s.act.step o).2.toList.map fun i => ⟨i, none, true⟩) }

def S.run (s : S) (es : List Ev) : S := es.foldl S.step s

def S.new (threshold : Int) : S := { act := Act.new threshold }

end Verif.Session.Stamp
