import Verif.Workflow.Config
import Verif.Match.Tree
import Mathlib.Data.String.Basic

/-
Model of the conversion of workflow messages: bd-workflows/src/config.rs:290-660, down to single actions, tags and log
matchers.

The messages are those of the generated protobuf types; a `oneof` or a message field that is not set is `none` or
`missing`.  A compiled log matcher is replaced by a number (`num`) in the resulting `Config`, see Verif.Workflow.Config.
`rule.log_matcher` that is not set reads as the default message, whose `oneof` is missing (`Match.Cfg.missing`).
Conversions of widths (`u32` to `u64` and `usize`) do not fail on the platforms supported and do not appear.
-/
namespace Verif.Wf

/-- A tag of a metric or a sankey diagram; `value` is the oneof `tag_type`. -/
structure MTag where
  name : String
  value : Option TagValue
  deriving DecidableEq, Repr

/-- `action_flush_buffers::Streaming`; a criterion is the oneof with its only case, the number of logs. -/
structure MStreaming where
  dests : List String
  criteria : List (Option Nat)
  deriving DecidableEq, Repr

structure MFlush where
  id : String
  buffers : List String
  streaming : Option MStreaming
  deriving DecidableEq, Repr

structure MMetric where
  id : String
  tags : List MTag
  /-- the oneof `metric_type`: is it a histogram -/
  histogram : Option Bool
  increment : Option Increment
  deriving DecidableEq, Repr

structure MSankey where
  id : String
  limit : Nat
  tags : List MTag
  deriving DecidableEq, Repr

inductive MAction where
  | missing
  | flush (a : MFlush)
  | metric (a : MMetric)
  | sankey (a : MSankey)
  | screenshot (id : String)
  deriving DecidableEq, Repr

inductive MRule where
  | missing
  | noType
  | logMatch (matcher : Match.Cfg Match.BaseCfg) (count : Nat)
  | timeout (ms : Nat)

structure MTransition where
  target : String
  rule : MRule
  actions : List MAction
  /-- `none`: an extension without a type -/
  extensions : List (Option PExtraction)

structure MState where
  id : String
  transitions : List MTransition

/-- `Workflow`. `exclusive`: the oneof `execution_type`; the limits are message fields. -/
structure MConfig where
  id : String
  states : List MState
  exclusive : Option Bool
  duration : Option Nat
  maxMatched : Option Nat

/-! ### Sets and maps -/

/-- `BTreeSet::insert`; the set is its elements in order. -/
def setInsert (s : String) : List String → List String
  | [] => [s]
  | t :: l => if s < t then s :: t :: l else if s = t then t :: l else t :: setInsert s l

/-- `collect::<BTreeSet<_>>()`. -/
def setOf (l : List String) : List String := l.foldl (fun a s => setInsert s a) []

/-- `BTreeMap::insert`; the map is its entries in the order of their keys. -/
def tagInsert (k : String) (v : TagValue) : List (String × TagValue) → List (String × TagValue)
  | [] => [(k, v)]
  | e :: l => if k < e.1 then (k, v) :: e :: l else if k = e.1 then (k, v) :: l else e :: tagInsert k v l

/-- `collect::<anyhow::Result<BTreeMap<String, TagValue>>>()`: the first tag without a type ends the collecting. -/
def tagsOf : List MTag → List (String × TagValue) → Option (List (String × TagValue))
  | [], a => some a
  | t :: l, a => match t.value with
    | some v => tagsOf l (tagInsert t.name v a)
    | none => none

/-! ### Actions -/

/-- `Iterator::min` over the criteria that are set (config.rs:506-520). -/
def leastOf : List (Option Nat) → Option Nat
  | [] => none
  | none :: l => leastOf l
  | some n :: l => match leastOf l with
    | some k => some (if k < n then k else n)
    | none => some n

/-- `Streaming::new` (config.rs:496-534). -/
def MStreaming.convert (m : MStreaming) : Option StreamCfg :=
  match leastOf m.criteria with
  | some n => if n = 0 then none else some ⟨setOf m.dests, some n⟩
  | none => some ⟨setOf m.dests, none⟩

/-- `ActionEmitMetric::new` (config.rs:550-602). -/
def MMetric.convert (m : MMetric) : Option MetricCfg :=
  match tagsOf m.tags [] with
  | none => none
  | some tags => match m.histogram with
    | none => none
    | some h => match m.increment with
      | none => none
      | some i => some ⟨m.id, tags, i, h⟩

/-- `ActionEmitSankey::try_from_proto` (config.rs:616-640). -/
def MSankey.convert (m : MSankey) : Option SankeyCfg :=
  match tagsOf m.tags [] with
  | none => none
  | some tags => some ⟨m.id, m.limit, tags⟩

/-- `Action::try_from_proto` (config.rs:431-462). -/
def MAction.convert : MAction → Option Action
  | .missing => none
  | .flush a => match a.streaming with
    | none => some (.flush ⟨a.id, setOf a.buffers, none⟩)
    | some s => match s.convert with
      | none => none
      | some s => some (.flush ⟨a.id, setOf a.buffers, some s⟩)
  | .metric a => match a.convert with
    | none => none
    | some m => some (.metric m)
  | .sankey a => match a.convert with
    | none => none
    | some m => some (.sankey m)
  | .screenshot id => some (.screenshot id)

/-! ### Rules, transitions, workflows -/

/-- The rule in `Transition::new` (config.rs:335-351). -/
def MRule.convert (x : Match.Ext) (num : Match.Tree Match.Leaf → Nat) : MRule → Option Rule
  | .missing => none
  | .noType => none
  | .logMatch m count => match Match.compile (Match.Leaf.new x) m with
    | none => none
    | some t => some (.logMatch (num t) count)
  | .timeout ms => some (.timeout ms)

/-- Extensions without a type are skipped (config.rs:362-365, 387-391). -/
def MTransition.parts (x : Match.Ext) (num : Match.Tree Match.Leaf → Nat) (t : MTransition) : PTransition :=
  ⟨t.target, t.rule.convert x num, t.actions.map (·.convert), t.extensions.filterMap fun e => e⟩

/-- A message with rules and actions converted one by one.  The code reads the limits of sankey diagrams from the
message, also from actions that do not convert; but such an action makes the whole workflow fail. -/
def MConfig.parts (x : Match.Ext) (num : Match.Tree Match.Leaf → Nat) (m : MConfig) : PConfig :=
  ⟨m.id, m.states.map fun s => ⟨s.id, s.transitions.map (·.parts x num)⟩, m.exclusive, m.duration, m.maxMatched⟩

/-- `Config::new` (config.rs:89-131). -/
def MConfig.convert (x : Match.Ext) (num : Match.Tree Match.Leaf → Nat) (m : MConfig) : Option Config :=
  Config.new (m.parts x num)

/-- `WorkflowsConfiguration::new` (config.rs:56-64). -/
def workflowsNew (x : Match.Ext) (num : Match.Tree Match.Leaf → Nat) (l : List MConfig) : List Config :=
  configsNew (l.map (·.parts x num))

end Verif.Wf
