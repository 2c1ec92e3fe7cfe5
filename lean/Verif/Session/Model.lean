/-
Model of bd-session: the activity-based and the fixed session strategy, with their stored state.

Simplifications, valid for the whole file:
* Identifiers are natural numbers.  `Uuid::new_v4` is a counter, so every generated UUID is new
  (UUID collisions are not modelled).
* Times and durations are integers (nanoseconds).
* Each call is one step, because the strategies hold their mutex for the whole call.
* The key-value store (bd-key-value/src/lib.rs:37-100) is modelled by its content; `set` may fail
  (`wok = false`, the error is logged and ignored, lib.rs:48-57), and an undecodable or unreadable
  value is deleted and reads as absent (lib.rs:60-83), which is the step `lose`.
-/
namespace Verif.Session

/-- `State` (activity_based.rs:205-211). -/
structure Stored where
  id : Nat
  activity : Int
  deriving DecidableEq, Repr

/-- `InMemoryState` (activity_based.rs:191-198). -/
structure Live where
  id : Nat
  prev : Option Nat
  activity : Int
  write : Option Int
  deriving DecidableEq, Repr

/-- Process (`live`), disk and the UUID source. -/
structure Act where
  threshold : Int
  live : Option Live
  disk : Option Stored
  uuid : Nat
  deriving DecidableEq, Repr

/-- `max_write_interval: Duration::seconds(15)` (activity_based.rs:58), in nanoseconds. -/
def maxWrite : Int := 15000000000

/-- `self.store.set` of a state; nothing is stored if the write fails (bd-key-value/lib.rs:48-57). -/
def Act.store (a : Act) (wok : Bool) (l : Live) : Act :=
  if wok then { a with disk := some ⟨l.id, l.activity⟩ } else a

/-- The state `session_id` starts from (activity_based.rs:72-97): the one in memory, the one on disk, or
a new one. -/
def Act.load (a : Act) (now : Int) : Act × Live :=
  match a.live with
  | some l => (a, l)
  | none =>
    match a.disk with
    | some s => (a, ⟨s.id, some s.id, s.activity, none⟩)
    | none => ({ a with uuid := a.uuid + 1 }, ⟨a.uuid, none, now, none⟩)

/-- The rest of `session_id` once the state is loaded (activity_based.rs:99-137). -/
def Act.touch (a : Act) (l : Live) (now : Int) (wok : Bool) : Act × Nat :=
  let before := decide (now < l.activity)
  let exceeded := decide (now - l.activity > a.threshold)
  let allowed := match l.write with | none => true | some w => decide (now - w > maxWrite)
  let l := { l with activity := now }
  if before || exceeded then
    let l := { l with id := a.uuid, write := some now }
    ({ ({ a with uuid := a.uuid + 1 }).store wok l with live := some l }, l.id)
  else if allowed then
    let l := { l with write := some now }
    ({ a.store wok l with live := some l }, l.id)
  else ({ a with live := some l }, l.id)

/-- `Strategy::session_id` (activity_based.rs:67-137).  The callback is not modelled. -/
def Act.sessionId (a : Act) (now : Int) (wok : Bool) : Act × Nat :=
  (a.load now).1.touch (a.load now).2 now wok

/-- `Strategy::previous_process_session_id` (activity_based.rs:170-175). -/
def Act.previous (a : Act) : Option Nat :=
  match a.live with
  | none => a.disk.map (·.id)
  | some l => l.prev

/-- `Strategy::start_new_session` (activity_based.rs:139-168). -/
def Act.startNew (a : Act) (now : Int) (wok : Bool) : Act × Nat :=
  let l : Live := ⟨a.uuid, a.previous, now, some now⟩
  ({ ({ a with uuid := a.uuid + 1 }).store wok l with live := some l }, l.id)

/-- `Strategy::flush` (activity_based.rs:177-184). -/
def Act.flush (a : Act) (wok : Bool) : Act :=
  match a.live with
  | some l => a.store wok l
  | none => a

inductive ActOp where
  | sessionId (now : Int) (wok : Bool)
  | startNew (now : Int) (wok : Bool)
  | flush (wok : Bool)
  | previous
  /-- the process ends (in any way) and a new one starts -/
  | restart
  /-- the stored value becomes unreadable and is dropped -/
  | lose
  deriving DecidableEq, Repr

/-- One call; the result is the identifier returned, if the call returns one. -/
def Act.step (a : Act) : ActOp → Act × Option Nat
  | .sessionId now wok => let (a, i) := a.sessionId now wok; (a, some i)
  | .startNew now wok => let (a, i) := a.startNew now wok; (a, some i)
  | .flush wok => (a.flush wok, none)
  | .previous => (a, a.previous)
  | .restart => ({ a with live := none }, none)
  | .lose => ({ a with disk := none }, none)

def Act.run (a : Act) : List ActOp → Act
  | [] => a
  | op :: ops => (a.step op).1.run ops

/-- A first start on an empty device. -/
def Act.new (threshold : Int) : Act := ⟨threshold, none, none, 0⟩

/-! ### Fixed strategy -/

/-- `InMemoryState` (fixed.rs:200-218). -/
structure FLive where
  id : Nat
  prev : Option Nat
  deriving DecidableEq, Repr

structure Fixed where
  live : Option FLive
  disk : Option Nat
  deriving DecidableEq, Repr

/-- `Strategy::session_id` outside the callback (fixed.rs:73-116).  `gen` is what
`generate_session_id` returns: the application's identifier or a UUID (fixed.rs:48-71). -/
def Fixed.sessionId (f : Fixed) (gen : Nat) (wok : Bool) : Fixed × Nat :=
  match f.live with
  | some l => (f, l.id)
  | none => ({ live := some ⟨gen, f.disk⟩, disk := if wok then some gen else f.disk }, gen)

/-- `Strategy::previous_process_session_id` (fixed.rs:153-163). -/
def Fixed.previous (f : Fixed) : Option Nat :=
  match f.live with
  | none => f.disk
  | some l => l.prev

/-- `Strategy::start_new_session` outside the callback (fixed.rs:118-151). -/
def Fixed.startNew (f : Fixed) (gen : Nat) (wok : Bool) : Fixed × Nat :=
  ({ live := some ⟨gen, f.previous⟩, disk := if wok then some gen else f.disk }, gen)

inductive FixedOp where
  | sessionId (gen : Nat) (wok : Bool)
  /-- `session_id` called from the application's own callback: a random identifier, no state change
  (fixed.rs:77-84) -/
  | sessionIdInCallback (gen : Nat)
  | startNew (gen : Nat) (wok : Bool)
  /-- rejected (fixed.rs:122-124) -/
  | startNewInCallback
  | previous
  | restart
  | lose
  deriving DecidableEq, Repr

def Fixed.step (f : Fixed) : FixedOp → Fixed × Option Nat
  | .sessionId gen wok => let (f, i) := f.sessionId gen wok; (f, some i)
  | .sessionIdInCallback gen => (f, some gen)
  | .startNew gen wok => let (f, i) := f.startNew gen wok; (f, some i)
  | .startNewInCallback => (f, none)
  | .previous => (f, f.previous)
  | .restart => ({ f with live := none }, none)
  | .lose => ({ f with disk := none }, none)

def Fixed.run (f : Fixed) : List FixedOp → Fixed
  | [] => f
  | op :: ops => (f.step op).1.run ops

end Verif.Session
