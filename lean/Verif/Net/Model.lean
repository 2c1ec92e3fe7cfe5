/-
Model of bd-logger/src/network.rs: `HTTPTrafficDataUsageTracker` and `MetricsContainer`.

Instants and durations are nanoseconds from an arbitrary origin.  Counters are unbounded (the code uses `u64`
and would panic in debug builds on overflow).  The effects on the network quality are in Verif.Net.Offline.
-/
namespace Verif.Net

abbrev Key := List Char

inductive Val where
  | str (s : List Char)
  | bytes (b : List Nat)
  deriving DecidableEq, Repr

structure Field where
  key : Key
  val : Val
  deriving DecidableEq, Repr

/-- `get_int_field_value` (network.rs:288-308); `parse` is `str::parse::<u64>`. -/
def getInt (parse : List Char → Option Nat) (k : Key) : List Field → Option Nat
  | [] => none
  | f :: fs =>
    if f.key ≠ k then getInt parse k fs
    else match f.val with
      | .bytes _ => none
      | .str s => match parse s with
        | some v => some v
        | none => getInt parse k fs

/-- The four counters of `MetricsSample` (246-256). -/
structure Traffic where
  reqBody : Nat
  reqHeaders : Nat
  respBody : Nat
  respHeaders : Nat
  deriving DecidableEq, Repr

def Traffic.zero : Traffic := ⟨0, 0, 0, 0⟩
def Traffic.add (a b : Traffic) : Traffic :=
  ⟨a.reqBody + b.reqBody, a.reqHeaders + b.reqHeaders, a.respBody + b.respBody, a.respHeaders + b.respHeaders⟩

/-- The traffic of a response log (90-113). -/
def responseTraffic (parse : List Char → Option Nat) (fs : List Field) : Traffic :=
  ⟨(getInt parse "_request_body_bytes_sent_count".toList fs).getD 0,
   (getInt parse "_request_headers_bytes_count".toList fs).getD 0,
   (getInt parse "_response_body_bytes_received_count".toList fs).getD 0,
   (getInt parse "_response_headers_bytes_count".toList fs).getD 0⟩

structure Sample where
  start : Nat
  t : Traffic
  deriving DecidableEq, Repr

/-- One minute. -/
def minute : Nat := 60000000000

/-- `sample_add!` on the last sample (82-113). -/
def addLast (v : Traffic) : List Sample → List Sample
  | [] => []
  | [s] => [{ s with t := s.t.add v }]
  | s :: ss => s :: addLast v ss

/-- Sum of the samples (213-219). -/
def total (l : List Sample) : Traffic := l.foldl (fun acc s => acc.add s.t) .zero

/-- `get_summary_sample` (201-233). -/
def summary (now : Nat) (l : List Sample) : List Sample × Option Traffic :=
  let kept := l.filter fun s => now - s.start ≤ minute
  if kept.length < l.length then (kept ++ [⟨now, .zero⟩], some (total kept))
  else (kept ++ [⟨now, .zero⟩], none)

/-- What the tracker sees: the traffic of a response, or a resource log at a time. -/
inductive Ev where
  | response (v : Traffic)
  | report (now : Nat)
  deriving DecidableEq, Repr

structure Tracker where
  samples : List Sample
  /-- ghost: the summaries attached to resource logs -/
  reports : List (Option Traffic)
  deriving DecidableEq, Repr

/-- `MetricsContainer::new` (190-195). -/
def Tracker.init (t0 : Nat) : Tracker := ⟨[⟨t0, .zero⟩], []⟩

def Tracker.step (s : Tracker) : Ev → Tracker
  | .response v => { s with samples := addLast v s.samples }
  | .report now => let r := summary now s.samples; ⟨r.1, s.reports ++ [r.2]⟩

def Tracker.run (s : Tracker) (es : List Ev) : Tracker := es.foldl Tracker.step s

/-- The fields attached to a resource log (118-152): body, headers and their sums. -/
structure Attached where
  req : Nat
  reqBody : Nat
  reqHeaders : Nat
  resp : Nat
  respBody : Nat
  respHeaders : Nat
  deriving DecidableEq, Repr

def attach (t : Traffic) : Attached :=
  ⟨t.reqBody + t.reqHeaders, t.reqBody, t.reqHeaders, t.respBody + t.respHeaders, t.respBody, t.respHeaders⟩

end Verif.Net
