/-
Model of workflow configurations: bd-workflows/src/config.rs.

Simplifications.  A log matcher is a number and a log carries the numbers of the matchers that accept it: evaluating a
matcher is a function of the log alone (it is modelled in Verif.Match.Tree), so any set of matchers and any log can be
written this way.  Strings compare by equality only.  A `BTreeSet` or `BTreeMap` is a list without repetitions; where the
code depends on the order (`first`) the list is in that order.
-/
namespace Verif.Wf

/-- `LogRef` (bd-log-primitives/src/lib.rs) as the workflows see it. `fields` is what `field_value` answers
(bd-matcher/src/lib.rs:39-64). -/
structure Log where
  session : String
  time : Nat
  hits : List Nat
  fields : List (String × String) := []
  level : String := "0"
  type : String := "0"
  deriving DecidableEq, Repr

def lookup {α : Type} (k : String) : List (String × α) → Option α
  | [] => none
  | e :: l => if e.1 = k then some e.2 else lookup k l

/-- `TagValue` (config.rs:704-709). -/
inductive TagValue where
  | extract (field : String)
  | fixed (value : String)
  deriving DecidableEq, Repr

/-- `TagValue::extract_value` (711-718). -/
def TagValue.value (log : Log) : TagValue → Option String
  | .extract f => lookup f log.fields
  | .fixed v => some v

/-- `Streaming` (config.rs:486-493). -/
structure StreamCfg where
  dests : List String
  max : Option Nat
  deriving DecidableEq, Repr

/-- `ActionFlushBuffers` (config.rs:470-478). -/
structure FlushCfg where
  id : String
  buffers : List String
  streaming : Option StreamCfg
  deriving DecidableEq, Repr

/-- `ValueIncrement` (690-697). -/
inductive Increment where
  | fixed (n : Nat)
  | extract (field : String)
  deriving DecidableEq, Repr

/-- `ActionEmitMetric` (540-546). -/
structure MetricCfg where
  id : String
  tags : List (String × TagValue)
  increment : Increment
  histogram : Bool
  deriving DecidableEq, Repr

/-- `ActionEmitSankey` (609-613). -/
structure SankeyCfg where
  id : String
  limit : Nat
  tags : List (String × TagValue)
  deriving DecidableEq, Repr

/-- `Action` (423-428). -/
inductive Action where
  | flush (a : FlushCfg)
  | metric (a : MetricCfg)
  | sankey (a : SankeyCfg)
  | screenshot (id : String)
  deriving DecidableEq, Repr

/-- `SankeyExtraction` (287-292). -/
structure Extraction where
  sankey : String
  value : TagValue
  counts : Bool
  limit : Nat
  deriving DecidableEq, Repr

/-- `Predicate` (412-415). -/
inductive Rule where
  | logMatch (matcher count : Nat)
  | timeout (ms : Nat)
  deriving DecidableEq, Repr

/-- `Transition` (322-327). -/
structure Transition where
  target : Nat
  rule : Rule
  actions : List Action
  extractions : List Extraction := []
  deriving DecidableEq, Repr

/-- `State` (216-219). -/
structure State where
  id : String
  transitions : List Transition
  deriving DecidableEq, Repr

/-- `Config` (80-86). -/
structure Config where
  id : String
  states : List State
  exclusive : Bool
  duration : Option Nat := none
  maxMatched : Option Nat := none
  deriving DecidableEq, Repr

/-- `config.states()[index].transitions()`; indexing beyond the end panics in the code, see `Config.fits`. -/
def Config.transitions (c : Config) (i : Nat) : List Transition :=
  match c.states[i]? with
  | some s => s.transitions
  | none => []

/-! ### `Config::new` (89-131): from the protobuf message -/

structure PExtraction where
  sankey : String
  /-- `None` if the oneof is not set -/
  value : Option TagValue
  counts : Bool
  deriving DecidableEq, Repr

structure PTransition where
  target : String
  rule : Option Rule
  /-- `none`: an action that does not convert (`Action::try_from_proto`, 430-462) -/
  actions : List (Option Action)
  /-- extensions with their type set; others are skipped (362-365) -/
  extractions : List PExtraction
  deriving DecidableEq, Repr

structure PState where
  id : String
  transitions : List PTransition
  deriving DecidableEq, Repr

structure PConfig where
  id : String
  states : List PState
  /-- `none`: no execution type set -/
  exclusive : Option Bool
  duration : Option Nat
  maxMatched : Option Nat
  deriving DecidableEq, Repr

/-- Collecting pairs into a `HashMap`: the last entry with a key wins. -/
def lastIdx (k : String) : List String → Option Nat
  | [] => none
  | e :: l => match lastIdx k l with
    | some i => some (i + 1)
    | none => if e = k then some 0 else none

/-- `state_index_by_id` (96-102). -/
def PConfig.index (c : PConfig) (id : String) : Option Nat := lastIdx id (c.states.map (·.id))

def PTransition.limits (t : PTransition) : List (String × Nat) :=
  t.actions.filterMap fun a => match a with
    | some (.sankey s) => some (s.id, s.limit)
    | _ => none

/-- `sankey_values_extraction_limit_by_id` (103-116), the last one first. -/
def PConfig.limits (c : PConfig) : List (String × Nat) :=
  ((c.states.map fun s => (s.transitions.map (·.limits)).flatten).flatten).reverse

def mapOpt {α β : Type} (f : α → Option β) : List α → Option (List β)
  | [] => some []
  | a :: l => match f a, mapOpt f l with
    | some b, some r => some (b :: r)
    | _, _ => none

/-- 359-391 and `SankeyExtraction::new` (295-314). -/
def PConfig.extraction (c : PConfig) (e : PExtraction) : Option Extraction :=
  match lookup e.sankey c.limits, e.value with
  | some l, some v => some ⟨e.sankey, v, e.counts, l⟩
  | _, _ => none

/-- `Transition::new` (330-399) with the check of the target (228-245). -/
def PConfig.transition (c : PConfig) (t : PTransition) : Option Transition :=
  match c.index t.target, t.rule, mapOpt (fun a => a) t.actions, mapOpt c.extraction t.extractions with
  | some i, some r, some a, some e => some ⟨i, r, a, e⟩
  | _, _, _, _ => none

/-- `State::try_from_proto` (222-248). -/
def PConfig.state (c : PConfig) (s : PState) : Option State :=
  match mapOpt c.transition s.transitions with
  | some t => some ⟨s.id, t⟩
  | none => none

/-- `try_duration_limit_from_proto`, `try_matched_logs_count_limit_from_proto` (154-184): zero is refused. -/
def positive : Option Nat → Option (Option Nat)
  | none => some none
  | some n => if n > 0 then some (some n) else none

/-- `Config::new` (89-131); `none` is an error. -/
def Config.new (c : PConfig) : Option Config :=
  if c.states.isEmpty then none
  else match mapOpt c.state c.states, c.exclusive, positive c.duration, positive c.maxMatched with
    | some s, some x, some d, some m => some ⟨c.id, s, x, d, m⟩
    | _, _, _, _ => none

/-- `WorkflowsConfiguration::new` (56-66): workflows that do not convert are left out. -/
def configsNew (l : List PConfig) : List Config := l.filterMap Config.new

end Verif.Wf
