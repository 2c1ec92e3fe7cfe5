/-
The internal report: bd-logger/src/internal_report.rs.  Every log passes `Reporter::process` before it is handled
(bd-logger/src/async_log_buffer.rs:594-604); a resource log with an empty message carries the counts of the logs seen, when the flag is
on.  Log types are numbers (bd-proto/src/flatbuffers/buffer_log_generated.rs:156-167), counters are `u32` and wrap.
-/
namespace Verif.Report

def u32 (n : Nat) : Nat := n % 2 ^ 32

/-- One half of `State` (internal_report.rs:173-199): the counters named `.._count` or those named `.._total_count`. -/
structure Cnt where
  logs : Nat
  device : Nat
  internal : Nat
  network : Nat
  normal : Nat
  lifecycle : Nat
  replay : Nat
  resource : Nat
  deriving DecidableEq, Repr

def Cnt.zero : Cnt := ⟨0, 0, 0, 0, 0, 0, 0, 0⟩

/-- The increments (internal_report.rs:48-81), of one half. -/
def Cnt.inc (c : Cnt) (ty : Nat) : Cnt :=
  let c := { c with logs := u32 (c.logs + 1) }
  if ty = 6 then { c with device := u32 (c.device + 1) }
  else if ty = 4 then { c with internal := u32 (c.internal + 1) }
  else if ty = 2 then { c with lifecycle := u32 (c.lifecycle + 1) }
  else if ty = 8 then { c with network := u32 (c.network + 1) }
  else if ty = 0 then { c with normal := u32 (c.normal + 1) }
  else if ty = 1 then { c with replay := u32 (c.replay + 1) }
  else if ty = 3 then { c with resource := u32 (c.resource + 1) }
  else c

/-- `State`: since the last report, and in total. -/
structure IState where
  since : Cnt
  total : Cnt
  deriving DecidableEq, Repr

/-- A log: its type and its message; `none` when the message is bytes. -/
structure ILog where
  ty : Nat
  msg : Option String
  deriving DecidableEq, Repr

/-- The fields pushed (internal_report.rs:88-152). -/
def IState.fields (s : IState) : List (String × Nat) :=
  [("_logs_count", s.since.logs), ("_logs_total_count", s.total.logs),
   ("_device_logs_count", s.since.device), ("_device_logs_total_count", s.total.device),
   ("_internal_logs_count", s.since.internal), ("_internal_logs_total_count", s.total.internal),
   ("_network_logs_count", s.since.network), ("_network_logs_total_count", s.total.network),
   ("_normal_logs_count", s.since.normal), ("_normal_logs_total_count", s.total.normal),
   ("_lifecycle_logs_count", s.since.lifecycle), ("_lifecycle_logs_total_count", s.total.lifecycle),
   ("_replay_logs_count", s.since.replay), ("_replay_logs_total_count", s.total.replay),
   ("_resource_logs_count", s.since.resource), ("_resource_logs_total_count", s.total.resource)]

/-- `Reporter::process` (internal_report.rs:39-155): the new state and the fields added to the log. -/
def IState.process (on : Bool) (s : IState) (l : ILog) : IState × List (String × Nat) :=
  let s : IState := ⟨s.since.inc l.ty, s.total.inc l.ty⟩
  match l.msg with
  | none => (s, [])
  | some m =>
    if !(l.ty == 3 && m.isEmpty && on) then (s, [])
    else ({ s with since := .zero }, s.fields)

/-- The flag's value when the log is handled is part of the input. -/
def IState.run (s : IState) : List (Bool × ILog) → IState × List (List (String × Nat))
  | [] => (s, [])
  | (on, l) :: ls =>
    let (s1, o) := s.process on l
    let (s2, os) := s1.run ls
    (s2, o :: os)

def IState.init : IState := ⟨.zero, .zero⟩

end Verif.Report
