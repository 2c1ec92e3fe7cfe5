/-
The platform event listener: bd-events/src/lib.rs.

The listener watches one boolean runtime flag.  A `tokio::sync::watch` channel holds the current value and a version; `ConfigLoader`
bumps the version only when the value really changes (bd-runtime/src/runtime.rs:300-325, C24), `changed()` completes when the version
differs from the one last seen and marks it as seen, and `read()` returns the current value.  So several changes between two turns of
the listener's loop are seen as one.
-/
namespace Verif.Report

/-- A call of the platform target (`ListenerTarget`, bd-events/src/lib.rs:28-31). -/
inductive Call where
  | start
  | stop
  deriving DecidableEq, Repr

/-- `Listener` (bd-events/src/lib.rs:39-47), the value of the flag, whether its version is newer than the one seen, and the calls made. -/
structure Lst where
  cur : Bool
  pending : Bool
  seenUpdate : Bool
  calls : List Call
  stopped : Bool
  deriving DecidableEq, Repr

/-- `Listener::new` (bd-events/src/lib.rs:50-61).  The first value counts as seen. -/
def Lst.init (b : Bool) : Lst := ⟨b, false, false, [], false⟩

inductive LEv where
  /-- a runtime update in which the flag has this value -/
  | update (b : Bool)
  /-- the loop takes its turn -/
  | poll
  /-- the shutdown branch is taken -/
  | shutdown
  deriving DecidableEq, Repr

/-- The body of the first branch (bd-events/src/lib.rs:77-90). -/
def Lst.handle (s : Lst) : Lst :=
  { s with
    pending := false
    calls := s.calls ++ (if s.cur then [.start] else if s.seenUpdate then [.stop] else [])
    seenUpdate := true }

/-- `run_with_shutdown` (bd-events/src/lib.rs:70-97) and the sender's side of the flag (bd-runtime/src/runtime.rs:300-325). -/
def Lst.step (s : Lst) : LEv → Lst
  | .update b => if b = s.cur then s else { s with cur := b, pending := true }
  | .poll => if s.stopped || !s.pending then s else s.handle
  | .shutdown => { s with stopped := true }

def Lst.run (s : Lst) (evs : List LEv) : Lst := evs.foldl Lst.step s

end Verif.Report
