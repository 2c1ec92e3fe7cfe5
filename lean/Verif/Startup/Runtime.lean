/-
Model of the runtime configuration loader (bd-runtime/src/runtime.rs): the crash-loop protection of the
cached configuration (C21) and the snapshot with its watches (C24).

Simplifications: a file is absent, unparsable or holds a value; a write succeeds, fails without touching
the file, or is torn (by a crash or an I/O error), after which the retry-count file is unparsable (a
count is one digit, so a torn write leaves it empty) and the cached configuration file has arbitrary
content.  The recursive directory removal may leave either file behind.
-/
namespace Verif.Startup

/-- Outcome of `std::fs::write`. -/
inductive Wr where
  | ok
  | fail
  | torn
  deriving DecidableEq, Repr

/-- The runtime directory: `retry_count` and `update.pb` (runtime.rs:141-149).
`none` = no such file, `some none` = unparsable content. -/
structure RtDisk (Cfg : Type) where
  retry : Option (Option Nat)
  cache : Option (Option Cfg)
  deriving DecidableEq, Repr

/-- `persist_cache_load_retry_count` (runtime.rs:179-184): the new directory and whether it
returned `Ok`. -/
def RtDisk.persist {Cfg : Type} (d : RtDisk Cfg) (n : Nat) : Wr → RtDisk Cfg × Bool
  | .ok => ({ d with retry := some (some n) }, true)
  | .fail => (d, false)
  | .torn => ({ d with retry := some none }, false)

/-- What the environment does during one process start. -/
structure StartEnv (Cfg : Type) where
  /-- reading the retry count succeeds -/
  readRetry : Bool
  /-- outcome of writing the incremented count -/
  incr : Wr
  /-- the process dies right after the increment -/
  dieAfterIncr : Bool
  /-- reading the cached configuration succeeds -/
  readCache : Bool
  /-- outcome of writing the cached configuration back; `tornCache` is the content left by a torn write -/
  writeBack : Wr
  tornCache : Option Cfg
  /-- which files a wipe removes (both, unless the process dies or the removal fails) -/
  wipeRetry : Bool
  wipeCache : Bool
  deriving DecidableEq, Repr

/-- `remove_dir_all` and `create_dir` (runtime.rs:199-203). -/
def RtDisk.wipe {Cfg : Type} (d : RtDisk Cfg) (e : StartEnv Cfg) : RtDisk Cfg :=
  { retry := if e.wipeRetry then none else d.retry
    cache := if e.wipeCache then none else d.cache }

/-- `cache_update` (runtime.rs:364-366). -/
def RtDisk.cacheUpdate {Cfg : Type} (d : RtDisk Cfg) (c : Cfg) (torn : Option Cfg) : Wr → RtDisk Cfg
  | .ok => { d with cache := some (some c) }
  | .fail => d
  | .torn => { d with cache := some torn }

/-- `handle_cached_config` with `try_load_cached_config` inlined (runtime.rs:186-261), run at process
start: the new directory and the configuration applied, if any. -/
def RtDisk.start {Cfg : Type} (d : RtDisk Cfg) (e : StartEnv Cfg) : RtDisk Cfg × Option Cfg :=
  match d.retry, d.cache with
  | some r, some c =>
    if e.readRetry then
      match r with
      | none => (d.wipe e, none)
      | some n =>
        let (d, okIncr) := d.persist (n + 1) e.incr
        if e.dieAfterIncr then (d, none)
        else if !okIncr then (d.wipe e, none)
        else if n > 5 then (d.wipe e, none)
        else
          match (if e.readCache then c else none) with
          | none => (d.wipe e, none)
          | some c => (d.cacheUpdate c e.tornCache e.writeBack, some c)
    else (d.wipe e, none)
  | _, _ => (d.wipe e, none)

/-- What can happen to the loader. -/
inductive RtEv (Cfg : Type) where
  /-- a process starts (the one before it, if any, has ended at any point) -/
  | start (e : StartEnv Cfg)
  /-- `mark_safe`: a handshake response arrived (runtime.rs:171-177) -/
  | handshake (w : Wr)
  /-- `update_snapshot`: a new configuration arrived; the process may die between the two writes
  (runtime.rs:327-332) -/
  | update (c : Cfg) (w : Wr) (torn : Option Cfg) (die : Bool) (w' : Wr)

/-- The directory and the flag `cached_config_validated` of the running process. -/
structure Rt (Cfg : Type) where
  disk : RtDisk Cfg
  validated : Bool

/-- One event; the result is the cached configuration applied by a start. -/
def Rt.step {Cfg : Type} (r : Rt Cfg) : RtEv Cfg → Rt Cfg × Option Cfg
  | .start e => (⟨(r.disk.start e).1, false⟩, (r.disk.start e).2)
  | .handshake w =>
    if r.validated then (r, none) else (⟨(r.disk.persist 0 w).1, true⟩, none)
  | .update c w torn die w' =>
    let d := r.disk.cacheUpdate c torn w
    if die then (⟨d, r.validated⟩, none) else (⟨(d.persist 0 w').1, r.validated⟩, none)

def Rt.run {Cfg : Type} (r : Rt Cfg) : List (RtEv Cfg) → Rt Cfg
  | [] => r
  | e :: es => (r.step e).1.run es

/-- The cached configurations applied by the starts of a history. -/
def Rt.applied {Cfg : Type} (r : Rt Cfg) : List (RtEv Cfg) → List Cfg
  | [] => []
  | e :: es => (r.step e).2.toList ++ (r.step e).1.applied es

/-! ### Snapshot and watches -/

/-- A runtime value (the protobuf `oneof`). -/
inductive Val where
  | bool (b : Bool)
  | uint (n : Nat)
  | str (s : String)
  deriving DecidableEq, Repr

/-- The typed getters of the generated code: the zero value if the `oneof` has another case. -/
def Val.boolValue : Val → Bool
  | .bool b => b
  | _ => false
def Val.uintValue : Val → Nat
  | .uint n => n
  | _ => 0

/-- A flag type (`define_primitive_flag_type!`, runtime.rs:490-519): `u32`, `bool`, `Duration`. -/
inductive Kind where
  | int
  | bool
  | duration
  deriving DecidableEq, Repr

/-- A typed flag value; durations are in milliseconds. -/
inductive TVal where
  | int (n : Nat)
  | bool (b : Bool)
  | duration (ms : Nat)
  deriving DecidableEq, Repr

def TVal.kind : TVal → Kind
  | .int _ => .int
  | .bool _ => .bool
  | .duration _ => .duration

abbrev Snapshot := List (String × Val)

/-- `ReadValue::read_value` through `get_bool`, `get_integer`, `get_duration` (runtime.rs:79-104); the
kind is that of the default. -/
def readValue (s : Snapshot) (path : String) (default : TVal) : TVal :=
  match s.lookup path with
  | none => default
  | some v =>
    match default with
    | .int _ => .int v.uintValue
    | .bool _ => .bool v.boolValue
    | .duration _ => .duration v.uintValue

/-- `InternalWatch` with its tokio watch channel: current value and version (runtime.rs:440-446). -/
structure WatchCh where
  default : TVal
  value : TVal
  version : Nat
  deriving DecidableEq, Repr

/-- `LoaderState` (runtime.rs:114-120). -/
structure Loader where
  snapshot : Snapshot
  watches : List (String × WatchCh)
  deriving DecidableEq, Repr

/-- `send_if_modified` (runtime.rs:302-325). -/
def WatchCh.send (w : WatchCh) (path : String) (s : Snapshot) : WatchCh :=
  let v := readValue s path w.default
  if w.value = v then w else { w with value := v, version := w.version + 1 }

/-- `update_snapshot_inner` (runtime.rs:335-362), without the disk. -/
def Loader.update (l : Loader) (s : Snapshot) : Loader :=
  ⟨s, l.watches.map fun (p, w) => (p, w.send p s)⟩

/-- `register_watch` (runtime.rs:272-300): the version the new receiver has seen, or an error if the
path is registered with another type. -/
def Loader.register (l : Loader) (path : String) (default : TVal) : Loader × Option Nat :=
  match l.watches.lookup path with
  | some w => (l, if w.default.kind = default.kind then some w.version else none)
  | none => (⟨l.snapshot, l.watches ++ [(path, ⟨default, readValue l.snapshot path default, 0⟩)]⟩, some 0)

/-- `Watch::read` (runtime.rs:405-407). -/
def Loader.readWatch (l : Loader) (path : String) : Option TVal :=
  (l.watches.lookup path).map (·.value)

/-- `Watch::has_changed` for a receiver that has seen `seen` (runtime.rs:411-416). -/
def Loader.hasChanged (l : Loader) (path : String) (seen : Nat) : Option Bool :=
  (l.watches.lookup path).map fun w => decide (w.version ≠ seen)

inductive LdOp where
  | update (s : Snapshot)
  | register (path : String) (default : TVal)
  deriving DecidableEq, Repr

def Loader.step (l : Loader) : LdOp → Loader
  | .update s => l.update s
  | .register p d => (l.register p d).1

def Loader.run (l : Loader) : List LdOp → Loader
  | [] => l
  | op :: ops => (l.step op).run ops

end Verif.Startup
