import Verif.Workflow.Engine

/-
Model of the statistics the workflows engine keeps about itself: `WorkflowsEngineStats` (bd-workflows/src/engine.rs
1107-1231) and the places that count.

The engine is the one of `Verif.Workflow.Engine`; this file adds the counters beside it, step by step in the same
order.  Simplifications.  The counters belong to one process: a new process begins with zeros (what happens to the
values afterwards is the subject of `Verif/Stats`).  Counters do not overflow.  Timers are left out.  The histogram
`traversal_active_total` is the list of the values observed.
-/
namespace Verif.Wf

/-- `WorkflowsEngineStats` (1107-1168). -/
structure Counters where
  wfStarts : Nat := 0
  wfStops : Nat := 0
  resets : Nat := 0
  forks : Nat := 0
  runStarts : Nat := 0
  runAdvances : Nat := 0
  runCompletions : Nat := 0
  runStops : Nat := 0
  travStarts : Nat := 0
  travAdvances : Nat := 0
  travCompletions : Nat := 0
  travStops : Nat := 0
  active : List Nat := []
  limitHit : Nat := 0
  matched : Nat := 0
  flushFailures : Nat := 0
  intentFailures : Nat := 0
  deriving DecidableEq, Repr

/-- `inc_by!` for the statistics of one workflow (605-637). -/
def Counters.log (m : Counters) (s : Stats) : Counters :=
  { m with
    resets := m.resets + s.resets
    forks := m.forks + s.forks
    runStarts := m.runStarts + s.createdRuns
    runAdvances := m.runAdvances + s.advancedRuns
    runStops := m.runStops + s.stoppedRuns
    runCompletions := m.runCompletions + s.completedRuns
    travStarts := m.travStarts + s.created
    travAdvances := m.travAdvances + s.advanced
    travStops := m.travStops + s.stopped
    travCompletions := m.travCompletions + s.completed
    limitHit := m.limitHit + s.limitHit
    matched := m.matched + s.matched }

structure Metered where
  e : Engine := {}
  m : Counters := {}
  deriving DecidableEq, Repr

/-- The runs `add_workflow` keeps (325-366). -/
def keptRuns (e : Engine) (w : Workflow) : List Run :=
  if travCount w.runs + e.count > e.limit then dropRuns e.limit e.count w.runs.length w.runs else w.runs

/-- `add_workflow` (325-388).  One limit hit for each run removed; the traversals are counted before runs are
removed. -/
def Metered.addWorkflow (x : Metered) (w : Workflow) (c : Config) : Metered :=
  { e := x.e.addWorkflow w c
    m := { x.m with
      limitHit := x.m.limitHit + (w.runs.length - (keptRuns x.e w).length)
      wfStarts := x.m.wfStarts + 1
      runStarts := x.m.runStarts + (keptRuns x.e w).length
      travStarts := x.m.travStarts + travCount w.runs } }

/-- `add_workflows` (295-323). -/
def Metered.addWorkflows (x : Metered) : List Workflow → List Config → Metered
  | _, [] => x
  | saved, c :: cs =>
    match findWorkflow c.id saved with
    | some w => (x.addWorkflow w c).addWorkflows (saved.filter (·.id ≠ c.id)) cs
    | none => (x.addWorkflow { id := c.id } c).addWorkflows saved cs

/-- `remove_workflow` (390-421) for the workflows that go. -/
def Metered.removeWorkflows (x : Metered) (keep : Workflow × Config → Bool) : Metered :=
  let gone := (x.e.workflows.zip x.e.configs).filter (!keep ·)
  { e := x.e.removeWorkflows keep
    m := { x.m with
      wfStops := x.m.wfStops + gone.length
      runStops := x.m.runStops + (gone.map fun y => y.1.runs.length).sum
      travStops := x.m.travStops + (gone.map fun y => travCount y.1.runs).sum } }

/-- `update` (210-293). -/
def Metered.update (x : Metered) (ec : EngineCfg) : Metered :=
  let x1 := x.removeWorkflows fun y => findConfig y.1.id ec.configs == some y.2
  let x2 := (ec.configs.filter fun c => !(x1.e.workflows.any (·.id = c.id))).foldl
    (fun x c => x.addWorkflow { id := c.id } c) x1
  { x2 with
    e := { x2.e with
      triggers := ec.triggers, conts := ec.conts
      pending := stdPending ec.triggers x2.e.pending
      streams := stdStreams ec.triggers ec.conts x2.e.streams } }

/-- `new` (98-153) and `start` (155-208). -/
def Metered.start (x : Metered) (limit : Nat) (readable : Bool) (oks : List Bool) (ec : EngineCfg) : Metered :=
  let fresh : Engine :=
    { limit := limit, triggers := ec.triggers, conts := ec.conts, disk := if readable then x.e.disk else none }
  match fresh.disk with
  | some s =>
    let x1 : Metered :=
      { e := { fresh with
          pending := stdPending ec.triggers s.pending
          streams := stdStreams ec.triggers ec.conts s.streams
          session := s.session } }
    let x2 := x1.addWorkflows s.workflows ec.configs
    { e := { x2.e with sent := accepted x2.e.pending oks }
      m := { x2.m with
        intentFailures := x2.m.intentFailures + (x2.e.pending.length - (accepted x2.e.pending oks).length) } }
  | none => ({ e := fresh } : Metered).addWorkflows [] ec.configs

/-- `on_log_upload_approved` (471-543). -/
def Metered.approved (x : Metered) (p : Pending) (sendOk : Bool) : Metered :=
  { e := x.e.approved p sendOk
    m := if (lookup p.id x.e.flushes).getD true ∧ sendOk = false then
        { x.m with flushFailures := x.m.flushFailures + 1 } else x.m }

/-- What the workflows report for one log, in order (596-637). -/
def statsAll (limit : Nat) (log : Log) : Nat → List (Workflow × Config) → List Stats
  | _, [] => []
  | count, (w, c) :: l =>
    let a := processRuns c limit log count w.runs
    a.stats :: statsAll limit log a.count l

/-- The actions of all workflows for one log. -/
def newPending (e : Engine) (log : Log) (dests : List String) : List Pending :=
  let p := processAll e.limit log e.count (e.workflows.zip e.configs)
  let str := processStreams e.triggers e.conts
    (e.streams.map fun s => (s, (lookup s.id e.flushes).getD true)) dests e.session
  (processFlush (flushActions p.2.2.1) e.session e.triggers e.conts e.pending str.2.1).new

/-- `process_log` after the session check (586-755). -/
def Metered.handle (x : Metered) (log : Log) (dests : List String) (v : LogEnv) : Metered :=
  if x.e.workflows.isEmpty then
    { e := (x.e.handle log dests v).1, m := { x.m with active := x.m.active ++ [x.e.count] } }
  else
    let m1 := (statsAll x.e.limit log x.e.count (x.e.workflows.zip x.e.configs)).foldl Counters.log x.m
    let e1 := (x.e.handle log dests v).1
    { e := e1
      m := { m1 with
        active := m1.active ++ [e1.count]
        intentFailures := m1.intentFailures +
          ((newPending x.e log dests).length - (accepted (newPending x.e log dests) v.pendingOks).length) } }

/-- `process_log` (547-755): what is discarded when the session changes is not counted (555-584, 757-766). -/
def Metered.processLog (x : Metered) (log : Log) (dests : List String) (v : LogEnv) : Metered :=
  ({ x with e := x.e.enter log.session } : Metered).handle log dests v

def Metered.apply (x : Metered) : Op → Metered
  | .start limit readable oks ec => x.start limit readable oks ec
  | .update ec => x.update ec
  | .log l dests v => x.processLog l dests v
  | .approved p ok => x.approved p ok
  | .rejected p => { x with e := x.e.rejected p }
  | .flushed id => { x with e := x.e.flushed id }
  | .persist due out => { x with e := x.e.persist due out }

def Metered.run (x : Metered) (ops : List Op) : Metered := ops.foldl Metered.apply x

end Verif.Wf
