/-
How long a change of the workflow state stays in memory only: `WorkflowsEngine::maybe_persist`, `run`, `run_once`
(bd-workflows/src/engine.rs:429-469), `StateStore::maybe_store` (engine.rs:991-1028), called after a log was written
(bd-logger/src/log_replay.rs:266-291) and for a flush of the state (bd-logger/src/async_log_buffer.rs:617-652), under the loop of
the log buffer (async_log_buffer.rs:579-667).

Every time a branch of that loop other than the pipeline is taken, the future of `run` is dropped, and the next turn starts the sleep of
`run_once` anew (engine.rs:449; the TODO there).  The same holds for an answer of the negotiator (engine.rs:455-467) and for the other branches of
`ProcessingPipeline::run` (log_replay.rs:496-538).

Simplifications: writes take no time and succeed (for others see C119, C66); one engine, which is not replaced (C112).  The state is the
number of changes it has seen, so that the file tells which changes it holds.  Time is that of the monotonic clock, in milliseconds;
`lag` is how late the task may be for a sleep that is over.
-/
namespace Verif.Wf.Stale

structure T where
  /-- when the sleep of `run_once` is over -/
  deadline : Nat
  /-- `last_persisted` -/
  last : Option Nat := none
  /-- `needs_state_persistence` -/
  dirty : Bool := false
  /-- changes the state of the engine has seen -/
  snap : Nat := 0
  /-- changes the file holds -/
  file : Nat := 0
  deriving DecidableEq, Repr

inductive Ev where
  /-- a log: whether it changes the state, whether it is blocking, whether writing it to the buffers succeeds, the value of the flag
  `workflows.persistence_write_interval_ms` -/
  | log (changes blocking wrote : Bool) (interval : Nat)
  /-- a flush of the state -/
  | flush
  /-- any other branch: fields, configurations, answers of the negotiator, flags -/
  | other (changes : Bool)
  /-- the sleep is over -/
  | tick (interval : Nat)
  deriving DecidableEq, Repr

/-- The engine changes its state, and says so (engine.rs:419, 464, 542, 656, 712, 744, 765). -/
def T.change (s : T) (changes : Bool) : T := if changes then { s with dirty := true, snap := s.snap + 1 } else s

/-- The last write was less than the interval ago (engine.rs:996-1001). -/
def early (last : Option Nat) (now interval : Nat) : Bool :=
  match last with
  | some l => decide (now - l < interval)
  | none => false

/-- `maybe_persist` (engine.rs:429-438) with `maybe_store` (engine.rs:991-1028). -/
def T.persist (s : T) (now : Nat) (force : Bool) (interval : Nat) : T :=
  if !s.dirty then s
  else if !force && early s.last now interval then s
  else { s with file := s.snap, last := some now, dirty := false }

/-- One turn of the loop at a time; `period` is what the flag `workflows.state_periodic_write_interval_ms` was when the engine was made
(engine.rs:140). -/
def T.step (period : Nat) (s : T) (te : Nat × Ev) : T :=
  let s' := match te.2 with
    | .log c b w i => if w then (s.change c).persist te.1 b i else s.change c
    | .flush => s.persist te.1 true 0
    | .other c => s.change c
    | .tick i => s.persist te.1 false i
  { s' with deadline := te.1 + period }

def T.run (period : Nat) (s : T) (es : List (Nat × Ev)) : T := es.foldl (T.step period) s

/-- Histories that can happen: time does not go back, a sleep is over only after its time, and the task is not later than `lag`. -/
def Legal (period lag : Nat) : Nat → T → List (Nat × Ev) → Prop
  | _, _, [] => True
  | t, s, te :: es => t ≤ te.1 ∧ te.1 ≤ s.deadline + lag ∧ (∀ i, te.2 = .tick i → s.deadline ≤ te.1) ∧
    Legal period lag te.1 (s.step period te) es

end Verif.Wf.Stale
