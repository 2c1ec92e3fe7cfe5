/-
Model of bd-client-common/src/error.rs (reports of unexpected errors) and of
bd-log/src/rate_limit_log.rs (rate limited warnings).

Simplifications, valid for the whole file:
* Reporters, counters and threads are numbers; reporter 0 is the default one (error.rs:38-49).
* `ERROR_HANDLER` is one mutex (error.rs:240-241), so every operation is one step.  What happens if
  a reporter calls back into the logger is the subject of Verif.Tasks.Reentry, not of this file.
* A panic inside a reporter is not modelled (parking_lot mutexes are not poisoned, and the counter
  of remaining reports is already decremented).
* Times are natural numbers (nanoseconds).
-/
namespace Verif.Errors

/-- `UnexpectedErrorHandler` (error.rs:132-138) and `PER_THREAD_REPORTER` (error.rs:243-245). -/
structure Handler where
  reporter : Nat
  remaining : Nat
  counter : Option Nat
  override : Nat → Option Nat

/-- `UnexpectedErrorHandler::new` (error.rs:141-148). -/
def Handler.new : Handler :=
  { reporter := 0, remaining := 5, counter := none, override := fun _ => none }

/-- The calls. -/
inductive Call where
  /-- `set_reporter` (error.rs:151-153) -/
  | setReporter (r : Nat)
  /-- `clear_reporter` (error.rs:197-199) -/
  | clear
  /-- `disable` (error.rs:156-158) -/
  | disable
  /-- `register_stats` (error.rs:190-194) -/
  | register (c : Nat)
  /-- the begin of `with_reporter` or `async_with_reporter` on thread `t` (error.rs:163, 178-180) -/
  | enter (t r : Nat)
  /-- their end (error.rs:165, 184-186) -/
  | leave (t : Nat)
  /-- `handle_unexpected_error_with_details` on thread `t` (error.rs:247-256); `details` is what the
  closure would return -/
  | report (t : Nat) (message description : String) (details : Option String)

/-- What a report leads to. -/
inductive Event where
  /-- `reporter.report` with the text and the details -/
  | told (reporter : Nat) (text : String) (details : Option String)
  /-- the limit was hit; the counter that was incremented -/
  | dropped (counter : Option Nat)
  deriving DecidableEq, Repr

/-- `UnexpectedErrorHandler::report` (error.rs:203-232) on thread `t`. -/
def Handler.report (h : Handler) (t : Nat) (message description : String)
    (details : Option String) : Handler × Event :=
  if h.remaining = 0 then (h, .dropped h.counter)
  else
    ({ h with remaining := h.remaining - 1 },
      .told ((h.override t).getD h.reporter) (description ++ ": " ++ message) details)

/-- One call. -/
def Handler.step (h : Handler) : Call → Handler × List Event
  | .setReporter r => ({ h with reporter := r }, [])
  | .clear => ({ h with reporter := 0 }, [])
  | .disable => ({ h with remaining := 0 }, [])
  | .register c => ({ h with counter := some c }, [])
  | .enter t r => ({ h with override := fun u => if u = t then some r else h.override u }, [])
  | .leave t => ({ h with override := fun u => if u = t then none else h.override u }, [])
  | .report t m d x => ((h.report t m d x).1, [(h.report t m d x).2])

/-- A run and its events in order. -/
def Handler.run (h : Handler) : List Call → Handler × List Event
  | [] => (h, [])
  | c :: cs => (((h.step c).1.run cs).1, (h.step c).2 ++ ((h.step c).1.run cs).2)

/-! ### The reporter that adds metadata (error.rs:107-125) -/

/-- `fields.insert` -/
def insertField (l : List (String × String)) (k v : String) : List (String × String) :=
  (k, v) :: l.filter (fun e => e.1 ≠ k)

/-- `key.replace('_', "-")` (error.rs:119) -/
def dashed (k : String) : String := k.map (fun c => if c = '_' then '-' else c)

/-- `MetadataErrorReporter::report` (error.rs:108-124): the fields given to the inner reporter;
`meta` is what `metadata.collect()` yields, in its order. -/
def metaFields (fields : List (String × String)) (session : String)
    (collected : List (String × String)) : List (String × String) :=
  collected.foldl (fun l e => insertField l ("x-" ++ dashed e.1) e.2)
    (insertField fields "x-session-id" session)

/-! ### Rate limited warnings (rate_limit_log.rs:17-32) -/

/-- `should_warn` with the time `now` and the duration `d` of the call: `Instant` subtraction stops
at zero, the comparison is with a signed duration. -/
def shouldWarn (last : Option Nat) (now : Nat) (d : Int) : Bool :=
  match last with
  | none => true
  | some l => decide (((now - l : Nat) : Int) > d)

/-- A sequence of calls, in the order of the lock: each with its time and duration.  The result says
of each call whether it warned. -/
def warns (last : Option Nat) : List (Nat × Int) → List Bool
  | [] => []
  | (now, d) :: r =>
    shouldWarn last now d :: warns (if shouldWarn last now d then some now else last) r

/-- The calls that warned. -/
def warned (last : Option Nat) : List (Nat × Int) → List (Nat × Int)
  | [] => []
  | (now, d) :: r =>
    if shouldWarn last now d then (now, d) :: warned (some now) r else warned last r

end Verif.Errors
