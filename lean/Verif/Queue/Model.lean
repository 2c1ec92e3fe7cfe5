/-
Models of the memory bounded channel (bd-logger/src/memory_bound.rs) and of the pre-configuration log
buffer (bd-logger/src/pre_config_buffer.rs) with its use in bd-logger/src/async_log_buffer.rs.
-/
namespace Verif.Queue

/-! ### The memory bounded channel

Any number of senders and one receiver run concurrently; one step is one atomic operation on the shared
counter or on the tokio channel.  The counter is a natural number: sizes add up to less than 2^64. -/

/-- A message: an identity and its `size()`. -/
structure Msg where
  id : Nat
  size : Nat
  deriving DecidableEq, Repr

/-- Where a sender is inside `try_send` (memory_bound.rs:89-119). -/
inductive Phase where
  /-- memory reserved, about to call `self.tx.try_send` -/
  | reserved
  /-- refused, about to give the memory back (`void_memory_reservation`) -/
  | voiding
  deriving DecidableEq, Repr

/-- A sender inside a call. -/
structure Call where
  thread : Nat
  msg : Msg
  phase : Phase
  deriving DecidableEq, Repr

structure Chan where
  /-- slots of the tokio channel -/
  slots : Nat
  /-- `memory_capacity` -/
  capacity : Nat
  /-- the receiver was dropped -/
  closed : Bool
  /-- `memory_capacity_usage` -/
  usage : Nat
  queue : List Msg
  /-- calls in progress -/
  calls : List Call
  /-- taken out by the receiver, memory not yet given back -/
  held : Option Msg
  /-- history: messages accepted into and received from the channel -/
  accepted : List Msg
  received : List Msg
  deriving DecidableEq, Repr

def Chan.init (slots capacity : Nat) : Chan := ⟨slots, capacity, false, 0, [], [], none, [], []⟩

inductive Result where
  | pending | ok | countOverflow | sizeOverflow | closed | bug
  deriving DecidableEq, Repr

inductive Act where
  /-- a thread calls `try_send`; the `fetch_add` of `try_reserve_memory` (121-129) -/
  | reserve (thread : Nat) (m : Msg)
  /-- its `self.tx.try_send` (97-118) -/
  | enqueue (thread : Nat)
  /-- its `fetch_sub` in `void_memory_reservation` (155-160) -/
  | void (thread : Nat)
  /-- the receiver takes a message (187) -/
  | recv
  /-- the receiver's `fetch_sub` (189-191) -/
  | release
  /-- the receiver is dropped -/
  | close
  deriving DecidableEq, Repr

def Chan.call? (s : Chan) (t : Nat) : Option Call := s.calls.find? (·.thread = t)

def Chan.drop (s : Chan) (t : Nat) : List Call := s.calls.filter (·.thread ≠ t)

/-- One atomic step.  Steps that are not enabled change nothing.  `bug` is the failed debug assertion in
`void_memory_reservation` (156), or an underflow. -/
def Chan.step (s : Chan) : Act → Chan × Result
  | .reserve t m =>
    match s.call? t with
    | some _ => (s, .pending)
    | none =>
      if s.usage + m.size > s.capacity then
        ({ s with usage := s.usage + m.size, calls := ⟨t, m, .voiding⟩ :: s.calls }, .sizeOverflow)
      else ({ s with usage := s.usage + m.size, calls := ⟨t, m, .reserved⟩ :: s.calls }, .pending)
  | .enqueue t =>
    match s.call? t with
    | some ⟨_, m, .reserved⟩ =>
      if s.closed then ({ s with calls := ⟨t, m, .voiding⟩ :: s.drop t }, .closed)
      else if s.queue.length ≥ s.slots then ({ s with calls := ⟨t, m, .voiding⟩ :: s.drop t }, .countOverflow)
      else ({ s with queue := s.queue ++ [m], accepted := s.accepted ++ [m], calls := s.drop t }, .ok)
    | _ => (s, .pending)
  | .void t =>
    match s.call? t with
    | some ⟨_, m, .voiding⟩ =>
      if s.usage < m.size then (s, .bug)
      else ({ s with usage := s.usage - m.size, calls := s.drop t }, .pending)
    | _ => (s, .pending)
  | .recv =>
    match s.held, s.queue with
    | none, m :: q => ({ s with queue := q, held := some m, received := s.received ++ [m] }, .pending)
    | _, _ => (s, .pending)
  | .release =>
    match s.held with
    | some m =>
      if s.usage < m.size then (s, .bug)
      else ({ s with usage := s.usage - m.size, held := none }, .pending)
    | none => (s, .pending)
  | .close => ({ s with closed := true }, .pending)

def Chan.run (s : Chan) : List Act → Chan
  | [] => s
  | a :: as => (s.step a).1.run as

/-! ### Logs before configuration -/

/-- `PreConfigBuffer` (pre_config_buffer.rs:33-40). -/
structure PreBuf where
  maxCount : Nat
  maxSize : Nat
  currentSize : Nat
  items : List Msg
  deriving DecidableEq, Repr

inductive PushResult where
  | ok | countOverflow | sizeOverflow
  deriving DecidableEq, Repr

/-- `PreConfigBuffer::push` (pre_config_buffer.rs:51-75). -/
def PreBuf.push (b : PreBuf) (m : Msg) : PreBuf × PushResult :=
  if b.items.length ≥ b.maxCount then (b, .countOverflow)
  else if b.currentSize + m.size > b.maxSize then (b, .sizeOverflow)
  else ({ b with currentSize := b.currentSize + m.size, items := b.items ++ [m] }, .ok)

/-- `LoggingState` as far as this property needs it; `processed` are the logs given to
`replayer.replay_log`. -/
inductive LState where
  | uninitialized (b : PreBuf)
  | initialized
  deriving DecidableEq, Repr

structure Logger where
  state : LState
  processed : List Msg
  deriving DecidableEq, Repr

inductive LEv where
  | log (m : Msg)
  | config
  deriving DecidableEq, Repr

/-- The loop of `AsyncLogBuffer::run_with_shutdown` (async_log_buffer.rs:562-668): a log goes through
`write_log` (465-506), a configuration through `update` (508-531) and
`maybe_replay_pre_config_buffer_logs` (533-553).  Whether replaying one log fails does not matter to the
others. -/
def Logger.step (s : Logger) : LEv → Logger
  | .log m => match s.state with
    | .uninitialized b => { s with state := .uninitialized (b.push m).1 }
    | .initialized => { s with processed := s.processed ++ [m] }
  | .config => match s.state with
    | .uninitialized b => { state := .initialized, processed := s.processed ++ b.items }
    | .initialized => s

def Logger.run (s : Logger) : List LEv → Logger
  | [] => s
  | e :: es => (s.step e).run es

def Logger.init (maxCount maxSize : Nat) : Logger := ⟨.uninitialized ⟨maxCount, maxSize, 0, []⟩, []⟩

end Verif.Queue
