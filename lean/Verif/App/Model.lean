/-
Models of the app version check (bd-logger/src/app_version.rs) and of the screenshot recorder
(bd-session-replay/src/lib.rs).
-/
namespace Verif.App

/-! ### App version -/

/-- `AppVersionExtra` (app_version.rs:30-35). -/
inductive Extra where
  | code (n : Int)
  | build (s : String)
  deriving DecidableEq, Repr

/-- `AppVersion` (app_version.rs:19-28); equality is the derived one. -/
structure Version where
  version : String
  extra : Extra
  deriving DecidableEq, Repr

/-- `Repository::has_changed` (app_version.rs:66-77) on the stored version; storage works. -/
def hasChanged (stored : Option Version) (v : Version) : Option Version × Bool :=
  match stored with
  | none => (some v, false)
  | some p => (some p, decide (v ≠ p))

/-- `Repository::set` (app_version.rs:80-99), as called by `Logger::log_app_update`
(logger.rs:264-300): an update event with the previous version is logged exactly when the result is
`some`. -/
def setVersion (stored : Option Version) (v : Version) : Option Version × Option Version :=
  match stored with
  | none => (some v, none)
  | some p => if v = p then (some p, none) else (some v, some p)

inductive VOp where
  /-- `should_log_app_update` (logger.rs:251-262) -/
  | check (v : Version)
  /-- `log_app_update` (logger.rs:264-300) -/
  | report (v : Version)
  deriving DecidableEq, Repr

def VOp.version : VOp → Version
  | .check v => v
  | .report v => v

def stepV (stored : Option Version) : VOp → Option Version
  | .check v => (hasChanged stored v).1
  | .report v => (setVersion stored v).1

def runV (stored : Option Version) : List VOp → Option Version
  | [] => stored
  | op :: ops => runV (stepV stored op) ops

/-- The updates reported in a history: previous and new version. -/
def reports (stored : Option Version) : List VOp → List (Version × Version)
  | [] => []
  | .check v :: ops => reports (stepV stored (.check v)) ops
  | .report v :: ops =>
    ((setVersion stored v).2.map fun p => (p, v)).toList ++ reports (stepV stored (.report v)) ops

/-! ### Screenshots -/

/-- The recorder (lib.rs:35-60) with its two channels of capacity one.  `outstanding` is a ghost: how many
requested screenshots have not come back as a log yet. -/
structure Shot where
  enabled : Bool
  ready : Bool
  /-- `capture_screenshot` channel holds a request -/
  request : Bool
  /-- `next_screenshot` channel holds a token -/
  token : Bool
  outstanding : Nat
  -- counters
  captured : Nat
  full : Nat
  disabled : Nat
  notReady : Nat
  deriving DecidableEq, Repr

inductive ShotEv where
  /-- `CaptureScreenshotHandler::capture_screenshot` (lib.rs:270-282) -/
  | ask
  /-- the recorder receives a request (lib.rs:186-208) -/
  | recvAsk
  /-- a screenshot log passes the interceptor (lib.rs:293-312) -/
  | shotLog
  /-- the recorder receives the token (lib.rs:209-212) -/
  | recvToken
  /-- the recorder notices the runtime flag (lib.rs:217-220) -/
  | setEnabled (b : Bool)
  deriving DecidableEq, Repr

def Shot.init (enabled : Bool) : Shot := ⟨enabled, true, false, false, 0, 0, 0, 0, 0⟩

/-- One event; the result says whether a screenshot is requested from the platform. -/
def Shot.step (s : Shot) : ShotEv → Shot × Bool
  | .ask => if s.request then ({ s with full := s.full + 1 }, false) else ({ s with request := true }, false)
  | .recvAsk =>
    if s.request then
      let s := { s with request := false }
      if !s.enabled then ({ s with disabled := s.disabled + 1 }, false)
      else if !s.ready then ({ s with notReady := s.notReady + 1 }, false)
      else ({ s with captured := s.captured + 1, ready := false, outstanding := s.outstanding + 1 }, true)
    else (s, false)
  | .shotLog => ({ s with token := true, outstanding := s.outstanding - 1 }, false)
  | .recvToken => if s.token then ({ s with token := false, ready := true }, false) else (s, false)
  | .setEnabled b => ({ s with enabled := b }, false)

def Shot.run (s : Shot) : List ShotEv → Shot
  | [] => s
  | e :: es => (s.step e).1.run es

end Verif.App
