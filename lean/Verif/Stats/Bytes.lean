import Verif.Stats.Store
import Verif.Startup.Files
import Verif.Proto.Hash
import Verif.Proto.WireFlow
/-
Model of metrics as messages: what `SnapshotHelper` and `MetricData` make of a set of metrics and back (bd-client-stats/src/stats.rs,
bd-client-stats-store/src/lib.rs), the files they are kept in and their index (bd-client-stats/src/file_manager.rs), and the request with
them (bd-api/src/api.rs, bd-api/src/payload_conversion.rs).  A message is what the generated code writes and reads (Proto/Wire.lean).

Simplifications: a set of metrics is a list of them in the order in which its hash map is passed through; the labels of an identifier are
the entries of a `BTreeMap` in order, and `tags` gives the order of the hash map they are put into.  A sketch is encoded and decoded by two
functions of the library.  A request has at most one snapshot.  A sum of counters beyond 64 bits is a panic (it is in a debug build).
-/
namespace Verif.StatsBytes

open Handshake (Bytes)
open Wire (Msg MsgF V table write read strField bytesAt)
open Stats (Metric Hist)
open Files (writeCompressed readCompressed timestampMsg timeOf)

/-- `Id` (bd-stats-common/src/lib.rs): name and labels. -/
structure Id where
  name : Bytes
  labels : List (Bytes × Bytes)
  deriving DecidableEq, Repr

/-- A set of metrics. -/
abbrev Content := List (Id × Metric)

/-- An unsigned number as the field of a message. -/
def natField {M : Type} (i n : Nat) : List (Nat × V M) := if n = 0 then [] else [(i, .num n)]

def natOf {M : Type} (m : MsgF M) (i : Nat) : Nat :=
  match m.known.find? (fun x => decide (x.1 = i)) with
  | some (_, .num n) => n
  | _ => 0

def bytesOf {M : Type} (m : MsgF M) (i : Nat) : Bytes := (bytesAt i m.known).headD []

def numsOf {M : Type} (m : MsgF M) (i : Nat) : List Nat :=
  match m.known.find? (fun x => decide (x.1 = i)) with
  | some (_, .nums l) => l
  | _ => []

/-- `msgsOf`: the messages of a repeated field. -/
def msgsOf {M : Type} (m : MsgF M) (i : Nat) : List M :=
  m.known.filterMap fun x => if x.1 = i then (match x.2 with | .msg y => some y | _ => none) else none

variable {M : Type}

/-- `MetricData::to_proto` (bd-client-stats-store/src/lib.rs:415-441) with the number of the field. -/
def dataMsg (enc : List Nat → Bytes) : Metric → Nat × V (MsgF M)
  | .counter n => (2, .msg ⟨natField 1 n, []⟩)
  | .hist (.inline vs) => (5, .msg ⟨if vs = [] then [] else [(0, .nums vs)], []⟩)
  | .hist (.sketch vs) => (4, .msg ⟨strField 0 (enc vs), []⟩)

def tagMsg (t : Bytes × Bytes) : MsgF M := ⟨[(0, .bytes t.1), (1, .bytes t.2)], []⟩

/-- The body of the loop of `into_proto` (bd-client-stats/src/stats.rs:412-421). -/
def metricMsg (enc : List Nat → Bytes) (tags : List (Bytes × Bytes) → List (Bytes × Bytes)) (x : Id × Metric) : MsgF (MsgF M) :=
  ⟨strField 0 x.1.name ++ (tags x.1.labels).map (fun t => (1, .msg (tagMsg t))) ++ [dataMsg enc x.2], []⟩

/-- `into_proto` (bd-client-stats/src/stats.rs:411-431). -/
def snapshotMsg (enc : List Nat → Bytes) (tags : List (Bytes × Bytes) → List (Bytes × Bytes)) (c : Content) : MsgF (MsgF (MsgF (MsgF M))) :=
  ⟨[(0, .msg ⟨c.map (fun x => (0, .msg (metricMsg enc tags x))), []⟩)], []⟩

/-- `StatsUploadRequest` with one snapshot (bd-client-stats/src/file_manager.rs:290-293, 328). -/
def requestMsg (uuid : Bytes) (snap : MsgF (MsgF (MsgF (MsgF M)))) : MsgF (MsgF (MsgF (MsgF (MsgF M)))) := ⟨strField 0 uuid ++ [(1, .msg snap)], []⟩

/-- `MetricData::from_proto` (bd-client-stats-store/src/lib.rs:390-412), `none`: nothing to unwrap (stats.rs:394). -/
def dataOf (dec : Bytes → Option (List Nat)) (m : MsgF (MsgF M)) : Option Metric :=
  match m.known.find? (fun x => decide (2 ≤ x.1)) with
  | some (2, .msg c) => if natOf c 1 + natOf c 0 < 2 ^ 64 then some (.counter (natOf c 1 + natOf c 0)) else none
  | some (4, .msg h) => (dec (bytesOf h 0)).map fun vs => .hist (.sketch vs)
  | some (5, .msg h) => some (.hist (.inline (numsOf h 0)))
  | _ => none

/-- `BTreeMap::insert`. -/
def insertTag (t : Bytes × Bytes) : List (Bytes × Bytes) → List (Bytes × Bytes)
  | [] => [t]
  | x :: l => if t.1 = x.1 then t :: l else if Proto.lexLe t.1 x.1 then t :: x :: l else x :: insertTag t l

/-- `tags.into_iter().collect()`: into a `BTreeMap`. -/
def labelsOf (l : List (MsgF M)) : List (Bytes × Bytes) := l.foldl (fun m t => insertTag (bytesOf t 0, bytesOf t 1) m) []

/-- The loop of `metrics_from_snapshot` (stats.rs:392-397). -/
def metricsOf (dec : Bytes → Option (List Nat)) : List (MsgF (MsgF M)) → Option Content
  | [] => some []
  | m :: l =>
    match dataOf dec m, metricsOf dec l with
    | some x, some c => some ((⟨bytesOf m 0, labelsOf (msgsOf m 1)⟩, x) :: c)
    | _, _ => none

/-- `metrics_from_snapshot` with `unwrap_or_default` (stats.rs:380-399). -/
def contentOf (dec : Bytes → Option (List Nat)) (snap : MsgF (MsgF (MsgF (MsgF M)))) : Option Content :=
  match (msgsOf snap 0).getLast? with
  | some l => metricsOf dec (msgsOf l 0)
  | none => some []

/-! ### Files -/

def ixStatsUploadRequest : Nat := 27
def ixPendingAggregationIndex : Nat := 53

/-- `write_snapshot` (bd-client-stats/src/file_manager.rs:319-336). -/
def writeSnapshot (z : Bytes → Bytes) (enc : List Nat → Bytes) (tags : List (Bytes × Bytes) → List (Bytes × Bytes)) (uuid : Bytes) (c : Content) : Bytes :=
  writeCompressed z 6 ixStatsUploadRequest (requestMsg (M := Msg 1) uuid (snapshotMsg enc tags c))

/-- What is read from a file of metrics (file_manager.rs:279-287, 376-381). -/
def readSnapshot (u : Bytes → Option Bytes) (utf8 : Bytes → Bool) (bs : Bytes) : Option (MsgF (MsgF (MsgF (MsgF (MsgF (Msg 1)))))) := readCompressed u utf8 6 ixStatsUploadRequest bs

/-- Its identifier and its metrics (`StatsUploadRequestHandle::snapshot` and `SnapshotHelper::new`); `none`: a panic. -/
def ofRequest (dec : Bytes → Option (List Nat)) (m : MsgF (MsgF (MsgF (MsgF (MsgF M))))) : Option (Bytes × Content) :=
  match msgsOf m 1 with
  | [] => some (bytesOf m 0, [])
  | s :: _ => (contentOf dec s).map fun c => (bytesOf m 0, c)

/-- An entry of the index: name, `period_start`, `period_end`. -/
structure PFile where
  name : Bytes
  start : Int
  stop : Option Int
  deriving DecidableEq, Repr

def stampField (i : Nat) : Option Int → List (Nat × V (MsgF M))
  | none => []
  | some t => [(i, .msg (timestampMsg t))]

def entryMsg (f : PFile) : MsgF (MsgF M) := ⟨strField 0 f.name ++ stampField 1 (some f.start) ++ stampField 2 f.stop, []⟩

/-- `write_index` (file_manager.rs:140-157). -/
def writeIndex (z : Bytes → Bytes) (l : List PFile) : Bytes :=
  writeCompressed z 3 ixPendingAggregationIndex (⟨l.map fun f => (0, .msg (entryMsg (M := Msg 0) f)), []⟩ : MsgF (MsgF (MsgF (Msg 0))))

/-- A time that is there, the default, or a panic. -/
def stampOf (m : MsgF (MsgF M)) (i : Nat) : Option (Option Int) :=
  match msgsOf m i with
  | [] => some none
  | t :: _ => (timeOf t).map some

/-- An entry as it is used; `none`: a panic. -/
def entryOf (m : MsgF (MsgF M)) : Option PFile :=
  match stampOf m 1, stampOf m 2 with
  | some a, some b => some ⟨bytesOf m 0, a.getD 0, b⟩
  | _, _ => none

/-- The index that is read (file_manager.rs:187-209); `none`: the directory is removed. -/
def readIndex (u : Bytes → Option Bytes) (utf8 : Bytes → Bool) (bs : Bytes) : Option (List (Option PFile)) :=
  (readCompressed u utf8 3 ixPendingAggregationIndex bs).map fun m => (msgsOf (M := MsgF (MsgF (Msg 0))) m 0).map entryOf

/-! ### The upload -/

/-- An upload: identifier, metrics and period (Stats/Task.lean) and the time it is sent. -/
structure Upload where
  uuid : Bytes
  content : Content
  start : Int
  stop : Option Int
  sent : Int
  deriving DecidableEq, Repr

/-- `occurred_at` (file_manager.rs:384-393). -/
def periodMsg (start : Int) (stop : Option Int) : MsgF (MsgF M) := ⟨stampField 0 (some start) ++ stampField 1 stop, []⟩

/-- A request read from its file, with the period (file_manager.rs:382-396) and the time it is sent (bd-api/src/api.rs:293-295). -/
def sentMsg (m : MsgF (MsgF (MsgF (MsgF (MsgF M))))) (start : Int) (stop : Option Int) (sent : Int) : MsgF (MsgF (MsgF (MsgF (MsgF M)))) :=
  ⟨(m.known.filter fun x => decide (x.1 ≠ 2)).map (fun x =>
      match x with
      | (1, .msg s) => (1, .msg ⟨(s.known.filter fun y => decide (y.1 ≠ 1)) ++ [(1, .msg (periodMsg (M := MsgF M) start stop))], s.unknown⟩)
      | x => x) ++ [(2, .msg (timestampMsg sent))], m.unknown⟩

/-- `ApiRequest` with it (bd-api/src/payload_conversion.rs:39-50, 81). -/
def apiMsg (m : MsgF M) : MsgF (MsgF M) := ⟨[(3, .msg m)], []⟩

/-- What is handed to the network for an upload: the file as it is read, with the period and the time. -/
def uploadMsg (enc : List Nat → Bytes) (tags : List (Bytes × Bytes) → List (Bytes × Bytes)) (x : Upload) : MsgF (MsgF (MsgF (MsgF (MsgF (MsgF M))))) :=
  apiMsg (sentMsg (requestMsg x.uuid (snapshotMsg enc tags x.content)) x.start x.stop x.sent)

/-- The upload in a request, as a server reads it. -/
def uploadOf (dec : Bytes → Option (List Nat)) (m : MsgF (MsgF (MsgF (MsgF (MsgF (MsgF M)))))) : Option Upload :=
  match msgsOf m 3 with
  | [r] =>
    match ofRequest dec r, msgsOf r 1, stampOf r 2 with
    | some (uuid, c), [s], some (some sent) =>
      match msgsOf s 1 with
      | [p] =>
        match stampOf p 0, stampOf p 1 with
        | some (some start), some stop => some ⟨uuid, c, start, stop, sent⟩
        | _, _ => none
      | _ => none
    | _, _, _ => none
  | _ => none

end Verif.StatsBytes
