/-
Model of the locks taken by calls into the logger and of the platform code called back while they are held:
bd-logger/src/logger.rs:82-156, 303-399 (the guard against re-entrancy, the entry points),
bd-logger/src/async_log_buffer.rs:240-352 (blocking calls), 354-466 (`process_log`), 609-650 (messages),
bd-session/src/activity_based.rs, bd-session/src/fixed.rs (the lock around the session state and the flag against calls from
the callback), bd-device/src/lib.rs:38-60, bd-client-common/src/error.rs:203-256 (the lock held while an error is reported).

Platform code runs in: the field provider (on the log thread, with the guard borrowed), `session_id_changed` and
`generate_session_id` (the session lock is held), the key-value storage (the session or the device lock is held), the error
reporter (the error lock is held; the reporter in use asks for the session identifier, error.rs:107-125).  What it does is an
arbitrary tree of calls into the logger.

Simplifications.  Only who waits for whom is modelled; the values are in Verif.Session, Verif.Log, Verif.Queue.  What the log thread does
with a log after `process_log` got the session identifier is in Verif.Tasks and returns here at once.  Whether the queue is full is
an input of each call.  `blocking_recv` on a thread of the runtime panics; so does a second `borrow_mut` of the guard.
-/
namespace Verif.Reentry

inductive Lock where
  /-- `ERROR_HANDLER` -/
  | error
  /-- `state` of the session strategy -/
  | session
  /-- `id` of the device -/
  | device
  deriving DecidableEq, Repr

inductive Kind where
  /-- `LoggerHandle::log` (logger.rs:118-156).  Callbacks: the field provider; then what `process_log` calls. -/
  | log (blocking full : Bool)
  /-- `add_log_field`, `remove_log_field` (logger.rs:326-366) -/
  | field (full : Bool)
  /-- `flush_state` (logger.rs:370-374).  Callbacks: the storage when the session is stored. -/
  | flush (blocking full : Bool)
  /-- `session_id` (logger.rs:377-379).  Callbacks: the storage before, the strategy's callback, the storage after. -/
  | sessionId
  /-- `start_new_session` (logger.rs:381-392), likewise -/
  | startNew
  /-- `previous_process_session_id`, called by `process_log` (async_log_buffer.rs:366-367).  Callbacks: the storage. -/
  | prevId
  /-- `device_id` (logger.rs:394-397).  Callbacks: the storage. -/
  | deviceId
  /-- `handle_unexpected_error_with_details` (error.rs:247-256).  Callbacks: the reporter. -/
  | report
  deriving DecidableEq, Repr

/-- A call and what the platform code called back during it does. -/
inductive Call where
  | node (kind : Kind) (a b c : List Call)

inductive Op where
  | acq (m : Lock)
  | rel (m : Lock)
  /-- `cell.borrow_mut()` and its end -/
  | borrow
  | release
  /-- `is_callback_in_progress` -/
  | flag (b : Bool)
  | call (c : Call)
  /-- `blocking_recv` -/
  | wait (k : Nat)
  /-- the completion is sent, or its sender dropped -/
  | send (k : Nat)

structure Thread where
  ops : List Op
  /-- a thread of the runtime -/
  onLog : Bool
  held : List Lock := []
  guard : Bool := false
  flag : Bool := false

/-- `AsyncLogBufferMessage` with what processing it will call. -/
inductive Msg where
  | log (provider after : List Call) (k : Option Nat)
  | field
  | flush (storage : List Call) (k : Option Nat)

structure Shared where
  queue : List Msg := []
  done : List Nat := []
  next : Nat := 0
  crashed : Bool := false

structure St where
  threads : List Thread
  sh : Shared := {}

def calls (l : List Call) : List Op := l.map .call

def sends (k : Option Nat) : List Op := k.toList.map .send

/-- The log thread processes a message (async_log_buffer.rs:614-650, 354-466). -/
def Msg.ops : Msg → List Op
  | .log p a k => .borrow :: (calls p ++ (.release :: (calls a ++ sends k)))
  | .field => []
  | .flush s k => .acq .session :: (calls s ++ (.rel .session :: sends k))

/-- The session lock around the callbacks (fixed.rs:44-151, activity_based.rs:66-179). -/
def locked (fixed : Bool) (a b c : List Call) : List Op :=
  .acq .session :: (calls a ++ ((if fixed then .flag true :: (calls b ++ [.flag false]) else calls b) ++
    (calls c ++ [.rel .session])))

/-- Blocking until the message is processed. -/
def awaits (blocking : Bool) (k : Nat) : List Op := if blocking then [.wait k] else []

/-- A thread starts a call. -/
def start (fixed : Bool) (t : Thread) (sh : Shared) (rest : List Op) : Call → Thread × Shared
  | .node (.log bl full) a b _ =>
    if t.guard || full then ({ t with ops := rest }, sh)
    else ({ t with ops := awaits bl sh.next ++ rest },
      { sh with queue := sh.queue ++ [.log a b (if bl then some sh.next else none)], next := sh.next + 1 })
  | .node (.field full) _ _ _ =>
    if t.guard || full then ({ t with ops := rest }, sh)
    else ({ t with ops := rest }, { sh with queue := sh.queue ++ [.field] })
  | .node (.flush bl full) a _ _ =>
    if full then ({ t with ops := rest }, sh)
    else ({ t with ops := awaits bl sh.next ++ rest },
      { sh with queue := sh.queue ++ [.flush a (if bl then some sh.next else none)], next := sh.next + 1 })
  | .node .sessionId a b c =>
    if fixed && t.flag then ({ t with ops := rest }, sh)
    else ({ t with ops := locked fixed a b c ++ rest }, sh)
  | .node .startNew a b c =>
    if t.guard || fixed && t.flag then ({ t with ops := rest }, sh)
    else ({ t with ops := locked fixed a b c ++ rest }, sh)
  | .node .prevId a _ _ => ({ t with ops := .acq .session :: (calls a ++ (.rel .session :: rest)) }, sh)
  | .node .deviceId a _ _ => ({ t with ops := .acq .device :: (calls a ++ (.rel .device :: rest)) }, sh)
  | .node .report a _ _ => ({ t with ops := .acq .error :: (calls a ++ (.rel .error :: rest)) }, sh)

/-- One step of a thread; `none` if it is finished or has to wait.  `free`: the lock is held by no thread. -/
def act (fixed : Bool) (free : Lock → Bool) (t : Thread) (sh : Shared) : Option (Thread × Shared) :=
  match t.ops with
  | [] =>
    if t.onLog then
      match sh.queue with
      | [] => none
      | m :: q => some ({ t with ops := m.ops }, { sh with queue := q })
    else none
  | .acq m :: r => if free m then some ({ t with ops := r, held := m :: t.held }, sh) else none
  | .rel m :: r => some ({ t with ops := r, held := t.held.erase m }, sh)
  | .borrow :: r =>
    if t.guard then some ({ t with ops := [] }, { sh with crashed := true })
    else some ({ t with ops := r, guard := true }, sh)
  | .release :: r => some ({ t with ops := r, guard := false }, sh)
  | .flag b :: r => some ({ t with ops := r, flag := b }, sh)
  | .call c :: r => some (start fixed t sh r c)
  | .wait k :: r =>
    if t.onLog then some ({ t with ops := [] }, { sh with crashed := true })
    else if k ∈ sh.done then some ({ t with ops := r }, sh)
    else none
  | .send k :: r => some ({ t with ops := r }, { sh with done := k :: sh.done })

def St.free (s : St) (m : Lock) : Bool := s.threads.all fun t => !decide (m ∈ t.held)

/-- Some thread makes a step. -/
inductive Step (fixed : Bool) : St → St → Prop where
  | mk {l r : List Thread} {t t' : Thread} {sh sh' : Shared} :
    act fixed (St.free ⟨l ++ t :: r, sh⟩) t sh = some (t', sh') → Step fixed ⟨l ++ t :: r, sh⟩ ⟨l ++ t' :: r, sh'⟩

/-- `n` steps. -/
inductive Steps (fixed : Bool) : Nat → St → St → Prop where
  | refl {s} : Steps fixed 0 s s
  | next {n s s' s''} : Step fixed s s' → Steps fixed n s' s'' → Steps fixed (n + 1) s s''

end Verif.Reentry
