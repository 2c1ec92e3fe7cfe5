import Verif.Workflow.Flush

/-
Model of the workflows engine: bd-workflows/src/engine.rs and the part of bd-workflows/src/metrics.rs that decides what
is emitted.

Simplifications.  Whether a channel accepts a message, whether a write succeeds and when a buffer flush completes are
inputs.  The counters of the engine are in `Verif.Workflow.Meter`.  `update` builds hash maps from identifiers to positions to avoid
quadratic work; here the lists are searched, with the same precedence (the last entry wins).  The state on disk is the
value written: `bincode` gives back what was put in.
-/
namespace Verif.Wf

/-- `WorkflowsEngineConfig` (868-874). -/
structure EngineCfg where
  configs : List Config
  triggers : List String
  conts : List String
  deriving DecidableEq, Repr

/-- `WorkflowsState` (1053-1061) as stored. -/
structure Saved where
  session : String
  workflows : List Workflow
  pending : List Pending
  streams : List Stream
  deriving DecidableEq, Repr

/-- What the engine hands to the dynamic statistics (metrics.rs:37-102). -/
structure Emitted where
  name : String
  tags : List (String × String)
  value : Nat
  deriving DecidableEq, Repr

structure Engine where
  configs : List Config := []
  workflows : List Workflow := []
  session : String := ""
  pending : List Pending := []
  streams : List Stream := []
  /-- `pending_buffer_flushes`: is the flush for this action over (answered, or its sender dropped)? -/
  flushes : List (String × Bool) := []
  dirty : Bool := false
  count : Nat := 0
  limit : Nat := 0
  triggers : List String := []
  conts : List String := []
  /-- the state file; `none`: missing or unreadable -/
  disk : Option Saved := none
  /-- what was sent to the negotiator, to the sankey processor, to the buffer manager and to the statistics since the
  engine was created -/
  sent : List Pending := []
  paths : List Path := []
  requests : List (String × List String) := []
  emitted : List Emitted := []
  deriving DecidableEq, Repr

/-- The traversals of all workflows. -/
def Engine.total (e : Engine) : Nat := (e.workflows.map fun w => travCount w.runs).sum

/-! ### Workflows come and go -/

/-- The removal loop, literally: the last run goes, and so on while the rest is too large. -/
def dropRuns (limit count : Nat) : Nat → List Run → List Run
  | 0, l => l
  | n + 1, l =>
    match l with
    | [] => []
    | _ => if travCount l.dropLast + count ≤ limit then l.dropLast else dropRuns limit count n l.dropLast

/-- `add_workflow` (321-388). -/
def Engine.addWorkflow (e : Engine) (w : Workflow) (c : Config) : Engine :=
  let runs := if travCount w.runs + e.count > e.limit then dropRuns e.limit e.count w.runs.length w.runs else w.runs
  { e with
    count := e.count + travCount runs
    configs := e.configs ++ [c]
    workflows := e.workflows ++ [{ w with runs := runs }] }

/-- The last workflow with this identifier: what a `HashMap` built from the list holds. -/
def findWorkflow (id : String) : List Workflow → Option Workflow
  | [] => none
  | w :: l => match findWorkflow id l with
    | some x => some x
    | none => if w.id = id then some w else none

/-- `add_workflows` (295-319): each stored workflow is used once. -/
def Engine.addWorkflows (e : Engine) : List Workflow → List Config → Engine
  | _, [] => e
  | saved, c :: cs =>
    match findWorkflow c.id saved with
    | some w => (e.addWorkflow w c).addWorkflows (saved.filter (·.id ≠ c.id)) cs
    | none => (e.addWorkflow { id := c.id } c).addWorkflows saved cs

/-- `remove_workflow` (390-421) for the workflows that go, all at once.  `keep` decides for a workflow with its
configuration. -/
def Engine.removeWorkflows (e : Engine) (keep : Workflow × Config → Bool) : Engine :=
  { e with
    configs := ((e.workflows.zip e.configs).filter keep).map (·.2)
    workflows := ((e.workflows.zip e.configs).filter keep).map (·.1)
    count := ((e.workflows.zip e.configs).filter (!keep ·)).foldr (fun x n => n - travCount x.1.runs) e.count
    dirty := e.dirty || (e.workflows.zip e.configs).any fun x => !keep x && !x.1.initial }

/-- The last configuration with this identifier. -/
def findConfig (id : String) : List Config → Option Config
  | [] => none
  | c :: l => match findConfig id l with
    | some x => some x
    | none => if c.id = id then some c else none

/-- The part of `update` (210-293) about workflows. -/
def Engine.updateWorkflows (e : Engine) (cs : List Config) : Engine :=
  let e1 := e.removeWorkflows fun x => findConfig x.1.id cs == some x.2
  (cs.filter fun c => !(e1.workflows.any (·.id = c.id))).foldl
    (fun e c => e.addWorkflow { id := c.id } c) e1

/-- `update` (210-293). -/
def Engine.update (e : Engine) (ec : EngineCfg) : Engine :=
  let e1 := e.updateWorkflows ec.configs
  { e1 with
    triggers := ec.triggers, conts := ec.conts
    pending := stdPending ec.triggers e1.pending
    streams := stdStreams ec.triggers ec.conts e1.streams }

/-- Messages offered to a channel; `oks` says which are accepted. -/
def accepted {α : Type} : List α → List Bool → List α
  | [], _ => []
  | a :: l, [] => a :: accepted l []
  | a :: l, ok :: oks => if ok then a :: accepted l oks else accepted l oks

/-- A new process: `new` (98-153) and `start` (155-208).  Only the disk survives. -/
def Engine.start (e : Engine) (limit : Nat) (readable : Bool) (oks : List Bool) (ec : EngineCfg) : Engine :=
  let fresh : Engine :=
    { limit := limit, triggers := ec.triggers, conts := ec.conts, disk := if readable then e.disk else none }
  match fresh.disk with
  | some s =>
    let e1 : Engine := { fresh with
      pending := stdPending ec.triggers s.pending
      streams := stdStreams ec.triggers ec.conts s.streams
      session := s.session }
    let e2 := e1.addWorkflows s.workflows ec.configs
    { e2 with sent := accepted e2.pending oks }
  | none => fresh.addWorkflows [] ec.configs

/-! ### Persistence -/

/-- `Workflow::optimized` (298-313). -/
def Workflow.optimized (w : Workflow) : Workflow := { w with runs := w.runs.filter (!·.initial) }

/-- `WorkflowsState::optimized` (1067-1090). -/
def Engine.saved (e : Engine) : Saved :=
  ⟨e.session, (e.workflows.map (·.optimized)).filter (!·.runs.isEmpty), e.pending, e.streams⟩

inductive Out where
  | ok
  /-- the file could not be created -/
  | fail
  /-- the file was created, writing failed -/
  | torn
  deriving DecidableEq, Repr

/-- `maybe_persist` (429-438) and `maybe_store` (985-1027).  `due`: forced, or the interval has passed.  The flag is
cleared whether or not the write succeeds. -/
def Engine.persist (e : Engine) (due : Bool) (out : Out) : Engine :=
  if e.dirty && due then
    { e with
      dirty := false
      disk := match out with
        | .ok => some e.saved
        | .fail => e.disk
        | .torn => none }
  else e

/-! ### Negotiation and flushes -/

def setFlush (id : String) (b : Bool) (l : List (String × Bool)) : List (String × Bool) :=
  (id, b) :: l.filter fun x => x.1 ≠ id

/-- `on_log_upload_approved` (471-543). -/
def Engine.approved (e : Engine) (p : Pending) (sendOk : Bool) : Engine :=
  let flush := (lookup p.id e.flushes).getD true
  let e1 := { e with pending := e.pending.filter (· ≠ p), dirty := true }
  let e2 :=
    if flush then
      if sendOk then
        { e1 with flushes := setFlush p.id false e1.flushes, requests := e1.requests ++ [(p.id, p.triggers)] }
      else { e1 with flushes := e1.flushes.filter fun x => x.1 ≠ p.id }
    else e1
  { e2 with streams := e2.streams ++ (Stream.new p e2.conts).toList }

/-- `NegotiatorOutput::UploadRejected` (463-466). -/
def Engine.rejected (e : Engine) (p : Pending) : Engine :=
  { e with pending := e.pending.filter (· ≠ p), dirty := true }

/-- The buffer manager answers, or drops the sender of, a flush request. -/
def Engine.flushed (e : Engine) (id : String) : Engine :=
  { e with flushes := e.flushes.map fun x => if x.1 = id then (x.1, true) else x }

/-! ### Logs -/

/-- The loop over the workflows in `process_log` (596-659). -/
def processAll (limit : Nat) (log : Log) : Nat → List (Workflow × Config) → List Workflow × Nat × List Trig × Bool
  | count, [] => ([], count, [], false)
  | count, (w, c) :: l =>
    let a := processRuns c limit log count w.runs
    let w' : Workflow := { w with runs := a.done }
    let rest := processAll limit log a.count l
    (w' :: rest.1, rest.2.1, a.actions ++ rest.2.2.1,
      (a.stats.progress && !(w.initial && w'.initial)) || rest.2.2.2)

/-- `prepare_actions` (774-845): each kind without repetitions. -/
def flushActions (l : List Trig) : List FlushCfg :=
  addNew [] (l.filterMap fun t => match t with | .flush a => some a | _ => none)
def metricActions (l : List Trig) : List MetricCfg :=
  addNew [] (l.filterMap fun t => match t with | .metric a => some a | _ => none)
def sankeyActions (l : List Trig) : List (SankeyCfg × Path) :=
  addNew [] (l.filterMap fun t => match t with | .sankey a p => some (a, p) | _ => none)
def screenshotActions (l : List Trig) : List String :=
  addNew [] (l.filterMap fun t => match t with | .screenshot i => some i | _ => none)

/-- Inserting into a `BTreeMap<String, String>`. -/
def setTag (k v : String) (l : List (String × String)) : List (String × String) := (k, v) :: l.filter fun x => x.1 ≠ k

/-- `resolve_field_name` (metrics.rs:103-109). -/
def resolveField (log : Log) (key : String) : Option String :=
  if key = "log_level" then some log.level
  else if key = "log_type" then some log.type
  else lookup key log.fields

/-- `extract_tags` (metrics.rs:111-126). -/
def extractTags (log : Log) (tags : List (String × TagValue)) : List (String × String) :=
  tags.filterMap fun t => (match t.2 with
    | .extract f => resolveField log f
    | .fixed v => some v).map fun v => (t.1, v)

/-- `emit_metrics` (metrics.rs:36-83).  `parse` is `str::parse::<f64>` followed by the conversion of the value. -/
def emitMetric (parse : String → Option Nat) (log : Log) (a : MetricCfg) : Option Emitted :=
  (match a.increment with
    | .fixed n => some n
    | .extract f => (resolveField log f).bind parse).map fun v =>
      ⟨if a.histogram then "workflows_dyn:histogram" else "workflows_dyn:action",
        setTag "_id" a.id (extractTags log a.tags), v⟩

/-- `emit_sankeys` (metrics.rs:85-101). -/
def emitSankey (log : Log) (a : SankeyCfg × Path) : Emitted :=
  ⟨"workflows_dyn:action", setTag "_path_id" a.2.pathId (setTag "_id" a.1.id (extractTags log a.1.tags)), 1⟩

/-- `WorkflowsEngineResult` (853-863). -/
structure Result where
  dests : List String
  actionIds : List String := []
  bufferIds : List String := []
  screenshot : Bool := false
  deriving DecidableEq, Repr

/-- The session check at the head of `process_log` (555-586) and `clean_state` (757-766). -/
def Engine.enter (e : Engine) (session : String) : Engine :=
  if e.session = "" then { e with session := session }
  else if e.session ≠ session then
    { e with
      count := 0, dirty := true, session := session
      workflows := e.workflows.map fun w => { w with runs := [] } }
  else e

/-- What the environment contributes while a log is processed: which sends succeed, and how numbers are read. -/
structure LogEnv where
  pendingOks : List Bool := []
  pathOks : List Bool := []
  parse : List (String × Nat) := []
  deriving DecidableEq, Repr

/-- The part of `process_log` after the session check (588-755). -/
def Engine.handle (e : Engine) (log : Log) (dests : List String) (v : LogEnv) : Engine × Result :=
  if e.workflows.isEmpty then (e, { dests := dests })
  else
    let p := processAll e.limit log e.count (e.workflows.zip e.configs)
    let str := processStreams e.triggers e.conts
      (e.streams.map fun s => (s, (lookup s.id e.flushes).getD true)) dests e.session
    let fl := processFlush (flushActions p.2.2.1) e.session e.triggers e.conts e.pending str.2.1
    ({ e with
        workflows := p.1, count := p.2.1
        dirty := e.dirty || p.2.2.2 || str.2.2 || !fl.new.isEmpty
        streams := str.2.1
        pending := addNew e.pending fl.new
        sent := e.sent ++ accepted fl.new v.pendingOks
        paths := e.paths ++ accepted ((sankeyActions p.2.2.1).map (·.2)) v.pathOks
        emitted := e.emitted ++ (metricActions p.2.2.1).filterMap (emitMetric (lookup · v.parse) log) ++
          (sankeyActions p.2.2.1).map (emitSankey log) },
      { dests := str.1, actionIds := fl.actionIds, bufferIds := fl.bufferIds
        screenshot := !(screenshotActions p.2.2.1).isEmpty })

/-- `process_log` (547-755). -/
def Engine.processLog (e : Engine) (log : Log) (dests : List String) (v : LogEnv) : Engine × Result :=
  (e.enter log.session).handle log dests v

/-! ### Histories -/

inductive Op where
  | start (limit : Nat) (readable : Bool) (oks : List Bool) (ec : EngineCfg)
  | update (ec : EngineCfg)
  | log (l : Log) (dests : List String) (v : LogEnv)
  | approved (p : Pending) (sendOk : Bool)
  | rejected (p : Pending)
  | flushed (id : String)
  | persist (due : Bool) (out : Out)
  deriving DecidableEq, Repr

def Engine.apply (e : Engine) : Op → Engine
  | .start limit readable oks ec => e.start limit readable oks ec
  | .update ec => e.update ec
  | .log l dests v => (e.processLog l dests v).1
  | .approved p ok => e.approved p ok
  | .rejected p => e.rejected p
  | .flushed id => e.flushed id
  | .persist due out => e.persist due out

def Engine.run (e : Engine) (ops : List Op) : Engine := ops.foldl Engine.apply e

end Verif.Wf
