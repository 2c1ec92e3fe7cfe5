/-
The label tracker of the server side metrics (bd-server-stats/src/stats.rs:45-115), which keeps a mistake in the choice of labels from
producing metrics without limit.  Any number of threads call `track_labels` at the same time; the steps of the calls are interleaved.

`DashMap::entry` locks the shard of the key (write lock) until the entry is used up or dropped; which key is in which shard is any
function.  The atomic counter is read after the entry was found vacant and increased after the shard was released again
(`entry.insert(())` consumes the entry and its result is dropped at the end of the statement).

Strings are lists of bytes.  A call is the list of its pairs of label name and label value: the two lists have the same length
(the debug assertion of stats.rs:87-91; in a release build a provider with too few labels panics at stats.rs:95).
-/
namespace Verif.Server

abbrev Str := List Nat

/-- The bytes of a string. -/
def bytes (s : String) : Str := s.toList.map Char.toNat

/-- `concat_string!(label_name, "_", provided_labels[index])` (stats.rs:95). -/
def lkey (kv : Str × Str) : Str := kv.1 ++ bytes "_" ++ kv.2

/-- Where a thread is in `track_labels` (stats.rs:93-114): `call` are all pairs of the call, `rest` those after the current one. -/
inductive TPc where
  | idle
  /-- at the head of the loop -/
  | loop (call rest : List (Str × Str))
  /-- the entry is vacant, the shard is locked (stats.rs:96) -/
  | vacant (call : List (Str × Str)) (kv : Str × Str) (rest : List (Str × Str))
  /-- the counter was below the limit, the shard is locked (stats.rs:99) -/
  | admitted (call : List (Str × Str)) (kv : Str × Str) (rest : List (Str × Str))
  /-- inserted, the shard is released, the counter is not yet increased (stats.rs:100) -/
  | inserted (call : List (Str × Str)) (kv : Str × Str) (rest : List (Str × Str))
  deriving DecidableEq, Repr

/-- `LabelTracker` (stats.rs:54-60), the threads, and the calls that have returned with what they returned. -/
structure Trk where
  labels : List Str
  count : Nat
  overflow : Nat
  threads : List TPc
  results : List (List (Str × Str) × List Str)
  deriving DecidableEq, Repr

/-- `LabelTracker::new` (stats.rs:64-77), with `n` threads. -/
def Trk.init (n : Nat) : Trk := ⟨[], 0, 0, List.replicate n .idle, []⟩

/-- The key whose shard a thread holds. -/
def TPc.locked : TPc → Option Str
  | .vacant _ kv _ => some (lkey kv)
  | .admitted _ kv _ => some (lkey kv)
  | _ => none

/-- No thread holds the shard of `k`. -/
def Trk.free (shard : Str → Nat) (s : Trk) (k : Str) : Bool :=
  s.threads.all fun p => match p.locked with
    | some k' => shard k' != shard k
    | none => true

/-- The next step of thread `t` in `track_labels` (stats.rs:93-114).  A thread that needs a locked shard waits. -/
def Trk.go (max : Nat) (shard : Str → Nat) (s : Trk) (t : Nat) : Trk :=
  match s.threads[t]? with
  | none => s
  | some .idle => s
  | some (.loop call []) =>
    { s with threads := s.threads.set t .idle, results := s.results ++ [(call, call.map (·.2))] }
  | some (.loop call (kv :: rest)) =>
    if s.free shard (lkey kv) then
      if lkey kv ∈ s.labels then { s with threads := s.threads.set t (.loop call rest) }
      else { s with threads := s.threads.set t (.vacant call kv rest) }
    else s
  | some (.vacant call kv rest) =>
    if s.count < max then { s with threads := s.threads.set t (.admitted call kv rest) }
    else
      { s with
        threads := s.threads.set t .idle
        overflow := s.overflow + 1
        results := s.results ++ [(call, call.map fun _ => bytes "label_overflow")] }
  | some (.admitted call kv rest) =>
    { s with threads := s.threads.set t (.inserted call kv rest), labels := s.labels ++ [lkey kv] }
  | some (.inserted call _ rest) =>
    { s with threads := s.threads.set t (.loop call rest), count := s.count + 1 }

inductive TEv where
  /-- thread `t` calls `track_labels` -/
  | call (t : Nat) (pairs : List (Str × Str))
  /-- thread `t` makes a step -/
  | go (t : Nat)
  deriving DecidableEq, Repr

def Trk.step (max : Nat) (shard : Str → Nat) (s : Trk) : TEv → Trk
  | .call t pairs =>
    if s.threads[t]? = some .idle then { s with threads := s.threads.set t (.loop pairs pairs) } else s
  | .go t => s.go max shard t

def Trk.run (max : Nat) (shard : Str → Nat) : Trk → List TEv → Trk
  | s, [] => s
  | s, e :: es => Trk.run max shard (s.step max shard e) es

/-- `LateInitializedMetric` (stats.rs:295-315): the labels of the series it counts, once known. -/
abbrev Late := Option (List Str)

/-- `LateInitializedMetric::get` (stats.rs:305-314) with the labels `track_labels` gave, or would give. -/
def Late.get (m : Late) (tracked : List Str) : Late := some (m.getD tracked)

end Verif.Server
