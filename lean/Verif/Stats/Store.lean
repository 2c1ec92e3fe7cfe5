/-
Model of the metrics store, bd-client-stats-store/src/lib.rs, and of the parts of bd-client-stats/src/stats.rs that
merge one snapshot into another.

Simplifications.  A `DDSketch` (an external library) is represented by the list of the observations it was given: what
it answers about them is the library's business, which observations reach it is the code's.  Encoding a sketch and
decoding it again is taken to give the same sketch.  Values (`f64`) are natural numbers, compared by bit pattern.
A counter does not wrap at 2^64.  An identifier (name and sorted labels, bd-stats-common/src/lib.rs) is a string: only
equality is used.
-/
namespace Verif.Stats

abbrev Val := Nat
abbrev Id := String

/-- `HistogramInner` (159-162). -/
inductive Hist where
  | inline (vs : List Val)
  | sketch (vs : List Val)
  deriving DecidableEq, Repr

/-- `MAX_INLINE_HISTOGRAM_VALUES` (43). -/
def maxInline : Nat := 5

/-- The observations a histogram holds. -/
def Hist.values : Hist → List Val
  | .inline vs => vs
  | .sketch vs => vs

/-- `switch_to_sketch(None)` (185-199). -/
def Hist.toSketch : Hist → Hist
  | .inline vs => .sketch vs
  | .sketch vs => .sketch vs

/-- `accept` (171-183); the switch with an additional value is 185-199. -/
def Hist.accept (h : Hist) (v : Val) : Hist :=
  match h with
  | .inline vs => if vs.length ≥ maxInline then .sketch (vs ++ [v]) else .inline (vs ++ [v])
  | .sketch vs => .sketch (vs ++ [v])

/-- `merge_from` (224-245). -/
def Hist.mergeFrom (self other : Hist) : Hist :=
  match other with
  | .inline vs => vs.foldl Hist.accept self
  | .sketch vs => match self.toSketch with
    | .sketch s => .sketch (s ++ vs)
    | h => h

/-- `snap` (247-273): what is taken out, and what is left behind. -/
def Hist.snap : Hist → Option Hist × Hist
  | .inline vs => if vs.isEmpty then (none, .inline vs) else (some (.inline vs), .inline [])
  | .sketch vs => if vs.isEmpty then (none, .sketch vs) else (some (.sketch vs), .sketch [])

inductive Kind where
  | counter | histogram
  deriving DecidableEq, Repr

/-- `MetricData` (381-384). -/
inductive Metric where
  | counter (n : Nat)
  | hist (h : Hist)
  deriving DecidableEq, Repr

def Metric.kind : Metric → Kind
  | .counter _ => .counter
  | .hist _ => .histogram

/-- A metric as the constructors passed to `get_common` make it (327-331, 344-346). -/
def Metric.new : Kind → Metric
  | .counter => .counter 0
  | .histogram => .hist (.inline [])

/-- `MetricData::snap` (442-448) and `Counter::snap` (118-127). -/
def Metric.snap : Metric → Option Metric × Metric
  | .counter n => if n = 0 then (none, .counter 0) else (some (.counter n), .counter 0)
  | .hist h => match h.snap with
    | (none, h') => (none, .hist h')
    | (some x, h') => (some (.hist x), .hist h')

/-- What a metric on the wire or on disk is: `ProtoMetricData` as `to_proto` (413-440) makes it.  `new` is the present
counter field, `old` the deprecated one that only older versions of the client wrote. -/
inductive ProtoMetric where
  | counter (new old : Nat)
  | sketch (vs : List Val)
  | inline (vs : List Val)
  | fixedBucket
  deriving DecidableEq, Repr

/-- `to_proto` (413-440). -/
def Metric.toProto : Metric → ProtoMetric
  | .counter n => .counter n 0
  | .hist (.inline vs) => .inline vs
  | .hist (.sketch vs) => .sketch vs

/-- `from_proto` (387-411). -/
def Metric.fromProto : ProtoMetric → Option Metric
  | .counter a b => some (.counter (a + b))
  | .sketch vs => some (.hist (.sketch vs))
  | .inline vs => some (.hist (.inline vs))
  | .fixedBucket => none

/-- The body of the loop of `merge_delta_snapshot_to_disk` for a metric that is already there
(bd-client-stats/src/stats.rs:187-207); `none`: the types differ, the new metric is dropped. -/
def Metric.merge (cached m : Metric) : Option Metric :=
  match m, cached with
  | .counter a, .counter b => some (.counter (b + a))
  | .hist a, .hist b => some (.hist (b.mergeFrom a))
  | _, _ => none

/-! ### What metrics hold -/

/-- One unit of what metrics record: `none` is one counter increment, `some v` one observation of `v`. -/
abbrev Atom := Option Val

/-- How often a metric holds a unit. -/
def Metric.count : Metric → Atom → Nat
  | .counter n, none => n
  | .counter _, some _ => 0
  | .hist _, none => 0
  | .hist h, some v => h.values.count v

/-- A set of named metrics: a snapshot. -/
abbrev Content := List (Id × Metric)

/-- How often a set of metrics holds the unit `x` of the metric named `id`. -/
def cnt (id : Id) (x : Atom) : Content → Nat
  | [] => 0
  | e :: c => (if e.1 = id then e.2.count x else 0) + cnt id x c

/-! ### Snapshots: `SnapshotHelper` (bd-client-stats/src/stats.rs:375-431) -/

/-- `mut_metric` (401-403). -/
def findMetric (id : Id) : Content → Option Metric
  | [] => none
  | e :: c => if e.1 = id then some e.2 else findMetric id c

def replaceMetric (id : Id) (m : Metric) : Content → Content
  | [] => []
  | e :: c => if e.1 = id then (id, m) :: c else e :: replaceMetric id m c

/-- `add_metric` (405-408): insertion into a map.  Returns also the metric that was overwritten (a debug build asserts
that there is none). -/
def addMetric (id : Id) (m : Metric) (c : Content) : Content × Content :=
  match findMetric id c with
  | none => (c ++ [(id, m)], [])
  | some old => (replaceMetric id m c, [(id, old)])

/-- The loop of `merge_delta_snapshot_to_disk` (178-208): the merged snapshot, and the new metrics that were dropped
because the type of the metric differs. -/
def mergeAll : Content → Content → Content × Content
  | ex, [] => (ex, [])
  | ex, (id, m) :: d =>
    match findMetric id ex with
    | none => mergeAll (ex ++ [(id, m)]) d
    | some m0 => match m0.merge m with
      | some r => mergeAll (replaceMetric id r ex) d
      | none => ((mergeAll ex d).1, (id, m) :: (mergeAll ex d).2)

end Verif.Stats
