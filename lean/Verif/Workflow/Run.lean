import Verif.Workflow.Config

/-
Model of traversals, runs and workflows: bd-workflows/src/workflow.rs.

Simplifications.  Counters are natural numbers (no wrapping at 2^32); subtraction saturates at zero, as in the code.
Times are natural numbers.  The identifier of a sankey path, the SHA-256 hash of the concatenated node values, is the
concatenation itself: the hash is assumed to be injective, which it is for all practical purposes, and what it is
applied to is the code's choice.  Indexing is total here; `Config.fits` says when the code's indexing does not panic.
-/
namespace Verif.Wf

/-! ### Sankey states -/

/-- `SankeyNodeState` (490-494). -/
structure Node where
  value : String
  counts : Bool
  deriving DecidableEq, Repr

/-- `SankeyState` (496-500). -/
structure Sankey where
  nodes : List Node := []
  trimmed : Bool := false
  deriving DecidableEq, Repr

/-- `remove(find_position(..))`: drops the first node that counts. -/
def dropFirst : List Node → List Node
  | [] => []
  | n :: l => if n.counts then l else n :: dropFirst l

/-- `SankeyState::push` (503-524). -/
def Sankey.push (s : Sankey) (value : String) (limit : Nat) (counts : Bool) : Sankey :=
  if counts then
    if ((s.nodes ++ [Node.mk value true]).filter (·.counts)).length > limit then
      { nodes := dropFirst (s.nodes ++ [⟨value, true⟩]), trimmed := true }
    else { s with nodes := s.nodes ++ [⟨value, true⟩] }
  else { s with nodes := s.nodes ++ [⟨value, false⟩] }

/-- `SankeyPath` (457-462). -/
structure Path where
  sankey : String
  nodes : List String
  pathId : String
  trimmed : Bool
  deriving DecidableEq, Repr

/-- `calculate_path_id` (476-483). -/
def calcPathId (s : Sankey) : String := s.nodes.foldl (fun a n => a ++ n.value) ""

/-- `SankeyPath::new` (465-474). -/
def Path.new (id : String) (s : Sankey) : Path := ⟨id, s.nodes.map (·.value), calcPathId s, s.trimmed⟩

/-- `Option<BTreeMap<String, SankeyState>>`: `None` and the empty map are not distinguished, the code does not either
(only a debug assertion does, 926). -/
abbrev Sankeys := List (String × Sankey)

/-- `entry(id).or_default()` and an update of it. -/
def upsert (id : String) (f : Sankey → Sankey) : Sankeys → Sankeys
  | [] => [(id, f {})]
  | e :: l => if e.1 = id then (id, f e.2) :: l else e :: upsert id f l

def erase (id : String) (l : Sankeys) : Sankeys := l.filter fun e => e.1 ≠ id

/-- `Traversal::sankey_states` (885-910). -/
def extract (log : Log) (s : Sankeys) : List Extraction → Sankeys
  | [] => s
  | e :: l => match e.value.value log with
    | none => extract log s l
    | some v => extract log (upsert e.sankey (·.push v e.limit e.counts) s) l

/-- `TriggeredAction` (963-969). -/
inductive Trig where
  | flush (a : FlushCfg)
  | metric (a : MetricCfg)
  | sankey (a : SankeyCfg) (p : Path)
  | screenshot (id : String)
  deriving DecidableEq, Repr

/-- `Traversal::triggered_actions` (912-951), and the sankey states that remain. -/
def trigger (s : Sankeys) : List Action → List Trig × Sankeys
  | [] => ([], s)
  | .flush a :: l => ((.flush a :: (trigger s l).1), (trigger s l).2)
  | .metric a :: l => ((.metric a :: (trigger s l).1), (trigger s l).2)
  | .screenshot i :: l => ((.screenshot i :: (trigger s l).1), (trigger s l).2)
  | .sankey a :: l => match lookup a.id s with
    | none => trigger s l
    | some st => ((.sankey a (Path.new a.id st) :: (trigger (erase a.id s) l).1), (trigger (erase a.id s) l).2)

/-! ### Traversals -/

/-- `Traversal` (784-800). -/
structure Traversal where
  state : Nat
  counts : List Nat
  sankeys : Sankeys
  deriving DecidableEq, Repr

/-- `Traversal::new` (805-821). -/
def Traversal.new (c : Config) (i : Nat) (s : Sankeys) : Option Traversal :=
  if (c.transitions i).isEmpty then none else some ⟨i, List.replicate (c.transitions i).length 0, s⟩

/-- `TraversalResult` (983-997). -/
structure TravResult where
  outputs : List Traversal := []
  actions : List Trig := []
  matched : Nat := 0
  followed : Nat := 0
  deriving DecidableEq, Repr

/-- The loop of `Traversal::process_log` (831-880) over the transitions with their counters: the new counters and the
result. -/
def scan (c : Config) (s : Sankeys) (log : Log) : List Transition → List Nat → List Nat × TravResult
  | tr :: trs, n :: ns =>
    match tr.rule with
    | .timeout _ => (n :: (scan c s log trs ns).1, (scan c s log trs ns).2)
    | .logMatch m k =>
      if m ∈ log.hits then
        if n + 1 = k then
          ((n + 1) :: (scan c s log trs ns).1,
            ⟨(Traversal.new c tr.target (trigger (extract log s tr.extractions) tr.actions).2).toList ++
                (scan c s log trs ns).2.outputs,
              (trigger (extract log s tr.extractions) tr.actions).1 ++ (scan c s log trs ns).2.actions,
              (scan c s log trs ns).2.matched + 1, (scan c s log trs ns).2.followed + 1⟩)
        else
          ((n + 1) :: (scan c s log trs ns).1,
            { (scan c s log trs ns).2 with matched := (scan c s log trs ns).2.matched + 1 })
      else (n :: (scan c s log trs ns).1, (scan c s log trs ns).2)
  | _, ns => (ns, {})

/-- `Traversal::process_log` (823-883): the traversal with its new counters, and the result. -/
def Traversal.process (c : Config) (log : Log) (t : Traversal) : Traversal × TravResult :=
  ({ t with counts := (scan c t.sankeys log (c.transitions t.state) t.counts).1 },
    (scan c t.sankeys log (c.transitions t.state) t.counts).2)

/-- `Traversal::is_in_initial_state` (954-956). -/
def Traversal.initial (t : Traversal) : Bool := t.state == 0 && t.counts.all (· == 0)

/-! ### Runs -/

/-- `Run` (530-547). -/
structure Run where
  traversals : List Traversal
  matched : Nat := 0
  first : Option Nat := none
  deriving DecidableEq, Repr

/-- `Run::new` (550-559). -/
def Run.new (c : Config) : Run := { traversals := (Traversal.new c 0 []).toList }

/-- `Run::is_in_initial_state` (714-725). -/
def Run.initial (r : Run) : Bool := r.traversals.all (·.initial)

/-- `RunState` (740-751). -/
inductive RunState where
  | running | completed | stopped
  deriving DecidableEq, Repr

/-- `RunResult` (758-775). -/
structure RunResult where
  state : RunState
  actions : List Trig
  created : Nat
  advanced : Nat
  completed : Nat
  matched : Nat
  deriving DecidableEq, Repr

/-- The local variables of `Run::process_log` while it goes through the traversals from the last to the first.  `done`
are the traversals behind the current one. -/
structure RunAcc where
  done : List Traversal := []
  matched : Nat
  first : Option Nat
  actions : List Trig := []
  created : Nat := 0
  advanced : Nat := 0
  completed : Nat := 0
  runMatched : Nat := 0
  stopped : Bool := false
  deriving DecidableEq, Repr

/-- More logs matched than the configuration allows (598-611). -/
def Config.overMatched (c : Config) (n : Nat) : Bool :=
  match c.maxMatched with
  | some l => n > l
  | none => false

/-- The run lasts longer than the configuration allows (613-645); a clock that went backwards never stops a run. -/
def Config.overDuration (c : Config) (first : Option Nat) (now : Nat) : Bool :=
  match c.duration, first with
  | some d, some f => f ≤ now && now - f > d
  | _, _ => false

/-- One iteration of the loop (586-679) for a traversal whose result is known. -/
def RunAcc.take (a : RunAcc) (c : Config) (now : Nat) (t : Traversal) (r : TravResult) : RunAcc :=
  if c.overMatched (a.matched + r.matched) then
    { a with matched := a.matched + r.matched, runMatched := a.runMatched + r.matched, stopped := true, done := t :: a.done }
  else if c.overDuration a.first now then
    { a with matched := a.matched + r.matched, runMatched := a.runMatched + r.matched, stopped := true, done := t :: a.done }
  else
    { a with
      matched := a.matched + r.matched
      runMatched := a.runMatched + r.matched
      first := if a.first.isNone && r.matched > 0 then some now else a.first
      actions := a.actions ++ r.actions
      advanced := if r.followed = 0 then a.advanced else a.advanced + 1
      completed := if r.followed > 0 ∧ r.outputs.isEmpty then a.completed + 1 else a.completed
      created := if r.followed > 0 ∧ !r.outputs.isEmpty then a.created + (r.outputs.length - 1) else a.created
      done := if r.followed = 0 then t :: a.done else r.outputs ++ a.done }

def RunAcc.visit (c : Config) (log : Log) (t : Traversal) (a : RunAcc) : RunAcc :=
  if a.stopped then { a with done := t :: a.done }
  else a.take c log.time (t.process c log).1 (t.process c log).2

/-- The loop of `Run::process_log` (586-679). -/
def Run.acc (c : Config) (log : Log) (r : Run) : RunAcc :=
  r.traversals.foldr (RunAcc.visit c log) { matched := r.matched, first := r.first }

/-- What `Run::process_log` returns (602-609, 681-696). -/
def RunAcc.result (a : RunAcc) : RunResult :=
  if a.stopped then ⟨.stopped, [], 0, 0, 0, a.runMatched⟩
  else ⟨if a.done.isEmpty then .completed else .running, a.actions, a.created, a.advanced, a.completed, a.runMatched⟩

def RunAcc.run (a : RunAcc) : Run := ⟨a.done, a.matched, a.first⟩

/-- `Run::process_log` (566-697). -/
def Run.process (c : Config) (log : Log) (r : Run) : Run × RunResult := ((r.acc c log).run, (r.acc c log).result)

/-! ### Workflows -/

/-- `WorkflowResultStats` (413-433). -/
structure Stats where
  createdRuns : Nat := 0
  advancedRuns : Nat := 0
  stoppedRuns : Nat := 0
  completedRuns : Nat := 0
  created : Nat := 0
  advanced : Nat := 0
  stopped : Nat := 0
  completed : Nat := 0
  limitHit : Nat := 0
  resets : Nat := 0
  forks : Nat := 0
  matched : Nat := 0
  deriving DecidableEq, Repr

/-- `WorkflowResultStats::did_make_progress` (436-447). -/
def Stats.progress (s : Stats) : Bool :=
  s.createdRuns > 0 || s.advancedRuns > 0 || s.stoppedRuns > 0 || s.completedRuns > 0 || s.created > 0 ||
    s.advanced > 0 || s.stopped > 0 || s.completed > 0 || s.matched > 0 || s.resets > 0

/-- `Workflow` (38-53). -/
structure Workflow where
  id : String
  runs : List Run := []
  deriving DecidableEq, Repr

/-- `Workflow::traversals_count` (282-284). -/
def travCount (l : List Run) : Nat := (l.map (·.traversals.length)).sum

/-- `Workflow::needs_new_run` (286-295). -/
def needsNew (l : List Run) : Bool := l.isEmpty || !l.any (·.initial)

/-- `Workflow::is_in_initial_state` (326-338). -/
def Workflow.initial (w : Workflow) : Bool := w.runs.all (·.initial)

/-- The state of the loop of `Workflow::process_log` (102-242), which goes through the runs from the last to the first.
`done` are the runs behind the current one. -/
structure WfAcc where
  done : List Run := []
  count : Nat
  actions : List Trig := []
  stats : Stats := {}
  progress : Bool := false
  broken : Bool := false
  deriving DecidableEq, Repr

/-- `incorporate_run_result` and the counter (107-120). -/
def WfAcc.incorporate (a : WfAcc) (r : RunResult) : WfAcc :=
  { a with
    actions := a.actions ++ r.actions
    count := a.count + r.created - r.completed
    stats := { a.stats with
      created := a.stats.created + r.created, advanced := a.stats.advanced + r.advanced,
      completed := a.stats.completed + r.completed, matched := a.stats.matched + r.matched } }

/-- The match on the state of the run (122-176); the run is kept or removed. -/
def WfAcc.settle (a : WfAcc) (limit : Nat) (run : Run) (r : RunResult) : WfAcc :=
  if r.state = .stopped ∨ a.count > limit then
    { a with
      count := a.count - run.traversals.length
      stats := { a.stats with
        stoppedRuns := a.stats.stoppedRuns + 1, stopped := a.stats.stopped + run.traversals.length,
        limitHit := if a.count > limit then a.stats.limitHit + 1 else a.stats.limitHit } }
  else if r.state = .completed then
    { a with
      progress := true
      stats := { a.stats with
        advancedRuns := a.stats.advancedRuns + 1, completedRuns := a.stats.completedRuns + 1 } }
  else
    { a with
      done := run :: a.done
      progress := a.progress || r.matched > 0
      stats := { a.stats with
        advancedRuns := if r.advanced > 0 then a.stats.advancedRuns + 1 else a.stats.advancedRuns } }

/-- What follows for exclusive workflows (190-241).  `before` is the number of runs in front of the current one; when it
is zero, the current run was the first of the list. -/
def WfAcc.exclusive (a : WfAcc) (c : Config) (log : Log) (before : Nat) : WfAcc :=
  if before + a.done.length > 1 ∧ a.progress then
    if before = 0 then
      match a.done[1]? with
      | some r =>
        { a with
          done := a.done.eraseIdx 1
          count := a.count - r.traversals.length
          stats := { a.stats with
            stoppedRuns := a.stats.stoppedRuns + 1, stopped := a.stats.stopped + r.traversals.length,
            resets := a.stats.resets + 1 } }
      | none => a
    else
      { a with
        broken := true
        stats := { a.stats with
          forks := if ((Run.new c).process c log).2.matched > 0 then a.stats.forks + 1 else a.stats.forks } }
  else a

/-- One iteration (102-242). -/
def WfAcc.visit (c : Config) (log : Log) (limit before : Nat) (run : Run) (a : WfAcc) : WfAcc :=
  if a.broken then { a with done := run :: a.done }
  else
    if c.exclusive then
      ((a.incorporate (run.process c log).2).settle limit (run.process c log).1 (run.process c log).2).exclusive c log
        before
    else (a.incorporate (run.process c log).2).settle limit (run.process c log).1 (run.process c log).2

/-- The loop over the runs, of which the first has the index `i`. -/
def loop (c : Config) (log : Log) (limit : Nat) (init : WfAcc) : Nat → List Run → WfAcc
  | _, [] => init
  | i, r :: rs => (loop c log limit init (i + 1) rs).visit c log limit i r

/-- `maybe_add_run` (247-280) with `Run::new`: the runs, the counter and the statistics. -/
def addRun (c : Config) (limit count : Nat) (runs : List Run) : List Run × Nat × Stats :=
  if (Run.new c).traversals.length + count ≤ limit then
    (if c.exclusive then Run.new c :: runs else runs ++ [Run.new c], count + (Run.new c).traversals.length,
      { createdRuns := 1, created := (Run.new c).traversals.length })
  else (runs, count, { limitHit := 1 })

/-- Lines 89-98. -/
def prepare (c : Config) (limit count : Nat) (runs : List Run) : List Run × Nat × Stats :=
  if needsNew runs then addRun c limit count runs else (runs, count, {})

/-- `Workflow::process_log` (80-245): the runs, the counter, the actions and the statistics are in the result. -/
def processRuns (c : Config) (limit : Nat) (log : Log) (count : Nat) (runs : List Run) : WfAcc :=
  loop c log limit { count := (prepare c limit count runs).2.1, stats := (prepare c limit count runs).2.2 } 0
    (prepare c limit count runs).1

end Verif.Wf
