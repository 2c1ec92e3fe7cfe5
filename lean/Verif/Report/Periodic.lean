/-
The reporters that call the platform at an interval set by runtime flags: the resource utilization reporter
(bd-resource-utilization/src/lib.rs) and the screens of the session replay recorder (bd-session-replay/src/lib.rs:53-235; its
screenshots are C45).  The two loops are the same: a tick of an interval while enabled, a change of the interval flag, a change of the
enabled flag, shutdown.

`tokio::time::Interval`: a deadline and a period.  `tick()` completes when the deadline has passed; the next deadline is the old one
plus the period, or, when the tick is more than 5 ms late, with `MissedTickBehavior::Delay` the current time plus the period.  Creating
an interval with period zero panics (tokio: "`period` must be non-zero.").  Times are milliseconds, as the flags are; the timer's own
rounding makes a tick later, never earlier.

`tokio::select!` polls its branches in random order, so any ready branch may be taken: the branch is part of the event.
-/
namespace Verif.Report

/-- `Interval` of tokio. -/
structure Itv where
  deadline : Nat
  period : Nat
  deriving DecidableEq, Repr

/-- `Reporter` (bd-resource-utilization/src/lib.rs:42-52), `Recorder` (bd-session-replay/src/lib.rs:61-67), the flags with whether they
have unseen changes, the clock, and the times of the calls of the platform. -/
structure Per where
  now : Nat
  flagOn : Bool
  pendOn : Bool
  on : Bool
  flagRate : Nat
  pendRate : Bool
  itv : Option Itv
  ticks : List Nat
  panicked : Bool
  stopped : Bool
  deriving DecidableEq, Repr

/-- `Reporter::new` (bd-resource-utilization/src/lib.rs:55-73): both flags are read and marked as seen. -/
def Per.init (on : Bool) (rate : Nat) : Per :=
  ⟨0, on, false, on, rate, false, none, [], false, false⟩

/-- `create_interval` (bd-resource-utilization/src/lib.rs:75-89, bd-session-replay/src/lib.rs:142-157). -/
def Per.create (s : Per) (rate : Nat) (immediately : Bool) : Per :=
  if rate = 0 then { s with panicked := true }
  else { s with itv := some ⟨if immediately then s.now else s.now + rate, rate⟩ }

/-- The deadline after a tick at time `now`. -/
def Itv.next (i : Itv) (now : Nat) : Itv :=
  { i with deadline := if now > i.deadline + 5 then now + i.period else i.deadline + i.period }

inductive PEv where
  /-- time passes -/
  | wait (d : Nat)
  /-- a runtime update in which the flags have these values -/
  | update (on : Bool) (rate : Nat)
  /-- the loop is entered -/
  | start
  /-- the branches of the loop -/
  | tick
  | rateChanged
  | onChanged
  | shutdown
  deriving DecidableEq, Repr

/-- `run_with_shutdown` (bd-resource-utilization/src/lib.rs:98-131, bd-session-replay/src/lib.rs:166-235) before `start`: `rate0` is the
value read by `new`. -/
def Per.step (rate0 : Nat) (s : Per) : PEv → Per
  | .wait d => { s with now := s.now + d }
  | .update on rate =>
    { s with
      flagOn := on, pendOn := s.pendOn || on != s.flagOn
      flagRate := rate, pendRate := s.pendRate || rate != s.flagRate }
  | .start =>
    if s.panicked || s.itv.isSome then s else s.create rate0 true
  | .tick => match s.itv with
    | none => s
    | some i =>
      if !s.panicked && !s.stopped && s.on && decide (i.deadline ≤ s.now)
      then { s with itv := some (i.next s.now), ticks := s.ticks ++ [s.now] }
      else s
  | .rateChanged =>
    if s.itv.isSome && !s.panicked && !s.stopped && s.pendRate then { s with pendRate := false }.create s.flagRate false else s
  | .onChanged =>
    if s.itv.isSome && !s.panicked && !s.stopped && s.pendOn then { s with pendOn := false, on := s.flagOn } else s
  | .shutdown => { s with stopped := true }

def Per.run (rate0 : Nat) (s : Per) (evs : List PEv) : Per := evs.foldl (Per.step rate0) s

end Verif.Report
