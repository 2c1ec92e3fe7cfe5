import Verif.Mgr.Model

/-
Model of the upload manager's side of the buffer events: bd-logger/src/consumer.rs:123-370 (`BufferUploadManager::run`,
`handle_trigger_uploads`, `handle_buffer_event`, `shutdown`, `new_continous_consumer`, `new_trigger_consumer`), joined with
the buffer manager of `Verif.Mgr.Model`, whose events it takes from the channel in order.

A task is what is spawned for a buffer; the list holds the running ones.  Registering a consumer fails when the buffer has
one (bd-buffer/src/buffer/non_volatile_ring_buffer.rs:909-942, volatile_ring_buffer.rs:505-521); a running task holds the
consumer of its buffer and lets go of it when it ends.  A cursor consumer is also refused by a buffer that may overwrite;
that mode is set from the same configuration entry as the type in the event (ring_buffer.rs:257, 380-387) and is not a
separate input here.  `shutdown_trigger.shutdown().await` is one step: that the awaited task ends is C71/C77.  What the
tasks do with the records is C12, C13, C84, C98.
-/
namespace Verif.Mgr

inductive Kind where
  | continuous
  | trigger
  | stream
  deriving DecidableEq, Repr

/-- A running task; `no` tells the tasks apart, `h` is the buffer it consumes. -/
structure Task where
  no : Nat
  kind : Kind
  id : Id
  h : Handle
  deriving DecidableEq, Repr

structure Up where
  tasks : List Task
  /-- number of tasks spawned -/
  next : Nat
  /-- `shutdowns`: for a buffer id the task its trigger belongs to -/
  shutdowns : List (Id × Nat)
  /-- `trigger_buffers` -/
  trigBufs : List (Id × Handle)
  /-- `active_trigger_uploads` -/
  active : List Id
  /-- the channel `trigger_upload_complete` -/
  completed : List Id
  /-- `stream_buffer_shutdown_trigger` -/
  streamTask : Option Nat
  /-- `run` has not returned -/
  up : Bool
  deriving DecidableEq, Repr

def Up.init : Up := ⟨[], 0, [], [], [], [], none, true⟩

def look (id : Id) (l : List (Id × Nat)) : Option Nat := (l.find? fun p => decide (p.1 = id)).map (·.2)
def forget (id : Id) (l : List (Id × Nat)) : List (Id × Nat) := l.filter fun p => decide (p.1 ≠ id)
/-- `HashMap::insert`. -/
def put (id : Id) (n : Nat) (l : List (Id × Nat)) : List (Id × Nat) := (id, n) :: forget id l

/-- The buffer has a consumer. -/
def busy (u : Up) (h : Handle) : Bool := u.tasks.any fun t => decide (t.h = h)

/-- The tasks that send their id when they end (consumer.rs:211-220). -/
def endings (l : List Task) : List Id := (l.filter fun t => decide (t.kind = .trigger)).map (·.id)

/-- Task `n` ends. -/
def stopTask (u : Up) (n : Nat) : Up :=
  { u with tasks := u.tasks.filter fun t => decide (t.no ≠ n),
           completed := u.completed ++ endings (u.tasks.filter fun t => decide (t.no = n)) }

/-- The trigger of task `n` is dropped: `cancelled()` returns (bd-shutdown/src/lib.rs:137-147), which ends a continuous or
streamed upload (consumer.rs:469, 530, 566, 588); a triggered upload does not look. -/
def dropTrigger (u : Up) (n : Nat) : Up :=
  { u with tasks := u.tasks.filter fun t => decide (t.no ≠ n) || decide (t.kind = .trigger) }

def dropOpt (u : Up) : Option Nat → Up
  | some n => dropTrigger u n
  | none => u

def stopOpt (u : Up) : Option Nat → Up
  | some n => stopTask u n
  | none => u

/-- `run` returns an error or panics (consumer.rs:133-135, 300): everything it owns is dropped. -/
def fail (u : Up) : Up :=
  { u with tasks := u.tasks.filter fun t => decide (t.kind = .trigger), shutdowns := [], trigBufs := [], active := [],
           streamTask := none, up := false }

/-- Spawn a task for a buffer and keep its trigger (consumer.rs:178-231, 260-271). -/
def spawn (u : Up) (k : Kind) (id : Id) (h : Handle) : Up :=
  let u := dropOpt u (look id u.shutdowns)
  { u with tasks := u.tasks ++ [⟨u.next, k, id, h⟩], next := u.next + 1, shutdowns := put id u.next u.shutdowns }

/-- `handle_buffer_event` (consumer.rs:256-323). -/
def handle (u : Up) : Event → Up
  | .created id .continuous h => if busy u h then fail u else spawn u .continuous id h
  | .created id .trigger h => { u with trigBufs := put id h u.trigBufs }
  | .removed id =>
    let v := stopOpt u (look id u.shutdowns)
    { v with shutdowns := forget id u.shutdowns, trigBufs := forget id u.trigBufs }
  | .streamAdded h =>
    let v := dropOpt u u.streamTask
    -- the trigger is stored before the consumer is registered and unwrapped (295-300)
    if busy v h then fail v
    else { v with tasks := v.tasks ++ [⟨v.next, .stream, 0, h⟩], next := v.next + 1, streamTask := some v.next }
  | .streamRemoved _ => { stopOpt u u.streamTask with streamTask := none }

/-- One buffer of `handle_trigger_uploads` (consumer.rs:163-236); nothing after the function has returned. -/
def trigOne (u : Up) (id : Id) : Up :=
  if !u.up then u
  else if id ∈ u.active then u
  else match look id u.trigBufs with
    | some h => if busy u h then fail u else { spawn u .trigger id h with active := id :: u.active }
    | none => u

/-- `BufferUploadManager::shutdown` (consumer.rs:325-332), then `self` is dropped. -/
def shutdownAll (u : Up) : Up :=
  { u with tasks := [], shutdowns := [], trigBufs := [], active := [], streamTask := none, up := false }

structure Sys where
  m : Mgr
  /-- how many of the events sent were taken from the channel -/
  seen : Nat
  u : Up

def Sys.init : Sys := ⟨Mgr.init, 0, Up.init⟩

inductive Act where
  | mgr (op : Op)
  /-- `run` takes an event -/
  | handle
  /-- `run` takes a request to upload buffers -/
  | request (ids : List Id)
  /-- a triggered upload is done -/
  | finish (n : Nat)
  /-- `run` takes a completion (consumer.rs:136-138) -/
  | clear
  /-- a continuous or streamed upload returns an error (consumer.rs:472, 538, 567, 593) -/
  | crash (n : Nat)
  | shutdown

/-- A completion is taken: one id is forgotten. -/
def clearOne (u : Up) : Up :=
  match u.completed with
  | id :: rest => { u with completed := rest, active := u.active.filter fun a => decide (a ≠ id) }
  | [] => u

/-- A triggered upload ends. -/
def finishOne (u : Up) (n : Nat) : Up :=
  { u with tasks := u.tasks.filter fun t => decide (t.no ≠ n) || decide (t.kind ≠ .trigger),
           completed := u.completed ++ endings (u.tasks.filter fun t => decide (t.no = n)) }

def Sys.step (s : Sys) : Act → Sys
  | .mgr op => { s with m := Mgr.step s.m op }
  | .handle =>
    if s.u.up then
      match s.m.events[s.seen]? with
      | some e => { s with seen := s.seen + 1, u := Mgr.handle s.u e }
      | none => s
    else s
  | .request ids => if s.u.up then { s with u := ids.foldl trigOne s.u } else s
  | .finish n => { s with u := finishOne s.u n }
  | .clear => if s.u.up then { s with u := clearOne s.u } else s
  | .crash n => { s with u := dropTrigger s.u n }
  | .shutdown => if s.u.up then { s with u := shutdownAll s.u } else s

def Sys.run (acts : List Act) : Sys := acts.foldl Sys.step Sys.init

end Verif.Mgr
