import Verif.Server.Labels

/-
Scopes and metrics of the server side collector (bd-server-stats/src/stats.rs:345-694): names and labels of nested scopes, the maps that
give one handle per identity, and the gauges that are decreased by a destructor.

The registry is that of the crate prometheus, which is not part of /repo.  Its rule is modelled from its documentation: a metric is
refused if one with the same name is registered that has the same constant labels, or other label names ("a metric with the same fully
qualified name must have the same label names").  All callers `unwrap` the result, so a refusal is a panic.  Names are valid metric
names, otherwise the registration panics as well.

A `HashMap` of labels is a list of pairs in which the first pair with a name counts.
-/
namespace Verif.Server

abbrev Labels := List (Str × Str)

def Labels.get (l : Labels) (k : Str) : Option Str := (l.find? fun kv => kv.1 == k).map (·.2)

/-- Equality of two maps. -/
def Labels.same (a b : Labels) : Bool := (a ++ b).all fun kv => Labels.get a kv.1 == Labels.get b kv.1

/-- Equality of the sets of names of two maps. -/
def Labels.sameNames (a b : Labels) : Bool := (a ++ b).all fun kv => (Labels.get a kv.1).isSome == (Labels.get b kv.1).isSome

/-- `Scope` (stats.rs:351-355). -/
structure Scope where
  scope : Str
  labels : Labels
  deriving DecidableEq, Repr

/-- `Collector::scope` (stats.rs:587-593). -/
def Scope.root (name : Str) : Scope := ⟨name, []⟩

/-- `Scope::metric_name` (stats.rs:519-525), with `SEP` of stats.rs:357. -/
def Scope.metricName (s : Scope) (name : Str) : Str :=
  if s.scope = [] then name else s.scope ++ bytes ":" ++ name

/-- `Scope::final_labels` (stats.rs:361-365): the given labels replace those of the scope. -/
def Scope.finalLabels (s : Scope) (labels : Labels) : Labels := labels ++ s.labels

/-- `Scope::scope_with_labels` (stats.rs:375-387). -/
def Scope.sub (s : Scope) (extend : Str) (labels : Labels) : Scope :=
  ⟨if extend = [] then s.scope else s.metricName extend, s.finalLabels labels⟩

inductive Kind where
  | counter
  | gauge
  | histogram
  deriving DecidableEq, Repr

/-- A registered metric.  `value` is the counter, the gauge or the number of observations. -/
structure Metric where
  kind : Kind
  name : Str
  labels : Labels
  value : Int
  deriving DecidableEq, Repr

/-- The registry: the metrics in order of registration.  A handle is a position. -/
abbrev Registry := List Metric

/-- The rule of the registry, see above. -/
def Registry.refuses (r : Registry) (name : Str) (labels : Labels) : Bool :=
  r.any fun m => decide (m.name = name) && (Labels.same m.labels labels || !Labels.sameNames m.labels labels)

/-- The lookup in `counters`, `gauges` or `histograms` (stats.rs:410-415, 440-448, 477-485) by `Id` (bd-stats-common/src/lib.rs:38-48). -/
def Registry.lookup (r : Registry) (kind : Kind) (name : Str) (labels : Labels) : Option Nat :=
  r.findIdx? fun m => decide (m.kind = kind) && decide (m.name = name) && Labels.same m.labels labels

/-- `counter_with_labels` (stats.rs:407-421), `gauge` (stats.rs:438-455), `histogram_ex` (stats.rs:475-497) with the final name and
labels: the registry afterwards and the handle, or a panic. -/
def Registry.request (r : Registry) (kind : Kind) (name : Str) (labels : Labels) : Registry × Option Nat :=
  match r.lookup kind name labels with
  | some i => (r, some i)
  | none => if r.refuses name labels then (r, none) else (r ++ [⟨kind, name, labels, 0⟩], some r.length)

/-- An addition through a handle. -/
def Registry.add (r : Registry) (i : Nat) (n : Int) : Registry :=
  r.modify i fun m => { m with value := m.value + n }

/-- A place in the program that asks for a metric and adds to it. -/
structure Use where
  kind : Kind
  name : Str
  labels : Labels
  amount : Int
  deriving DecidableEq, Repr

/-- A use: the registry afterwards and the handle that was used, or a panic. -/
def Registry.use (r : Registry) (u : Use) : Registry × Option Nat :=
  match r.request u.kind u.name u.labels with
  | (r', some i) => (r'.add i u.amount, some i)
  | (r', none) => (r', none)

/-- All uses, with their handles. -/
def Registry.uses : Registry → List Use → Registry × List (Use × Option Nat)
  | r, [] => (r, [])
  | r, u :: us =>
    let a := r.use u
    let b := Registry.uses a.1 us
    (b.1, (u, a.2) :: b.2)

/-- `Collector::gather_all` (stats.rs:629-641): the own metrics, then those of the chained collectors. -/
def gather (own : Registry) (chained : List Registry) : List Metric := own ++ chained.flatten

/-- A guard of `StackAutoGauge` or `AutoGauge` (stats.rs:648-694). -/
inductive Guard where
  /-- constructed: the gauge was increased -/
  | live
  /-- in `drop`, past the debug assertion -/
  | checked
  | dropped
  deriving DecidableEq, Repr

/-- A gauge, its guards, and whether a debug assertion has failed. -/
structure Gauged where
  gauge : Int
  guards : List Guard
  failed : Bool
  deriving DecidableEq, Repr

inductive GEv where
  | new
  | check (i : Nat)
  | sub (i : Nat)
  deriving DecidableEq, Repr

/-- `new` (stats.rs:657-660, 683-686) and the two steps of `drop` (stats.rs:664-667, 690-693), of any threads. -/
def Gauged.step (s : Gauged) : GEv → Gauged
  | .new => { s with gauge := s.gauge + 1, guards := s.guards ++ [.live] }
  | .check i => if s.guards[i]? = some .live
    then { s with guards := s.guards.set i .checked, failed := s.failed || decide (¬ s.gauge > 0) }
    else s
  | .sub i => if s.guards[i]? = some .checked
    then { s with gauge := s.gauge - 1, guards := s.guards.set i .dropped }
    else s

def Gauged.run : Gauged → List GEv → Gauged
  | s, [] => s
  | s, e :: es => Gauged.run (s.step e) es

end Verif.Server
