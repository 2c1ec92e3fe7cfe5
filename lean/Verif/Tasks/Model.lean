/-!
# Which task of the logger waits for which

`LoggerBuilder::build` (bd-logger/src/builder.rs:85-255) joins the API task, the log buffer, the
stats flusher and the upload manager into one future; the upload manager spawns one task per
upload.  They talk over channels with room for one message.  This file models what each of them
waits for and what lets it go on:

* `A` the API task: `Api::maintain_active_stream` and `handle_responses`
  (bd-api/src/api.rs:560-880) with the configuration pipeline inside it
  (`LoggerUpdate::apply_configuration`, bd-logger/src/client_config.rs:244-301 and
  `Manager::update_from_config`, bd-buffer/src/ring_buffer.rs:230-447),
* `U` the upload manager: `BufferUploadManager::run` (bd-logger/src/consumer.rs:92-332),
* the upload tasks: `ContinuousBufferUploader`, `StreamedBufferUpload`, `CompleteBufferUpload`
  (bd-logger/src/consumer.rs:421-725) on top of `Uploader` and `RetryPolicy`
  (bd-logger/src/service.rs:117-271), and the senders of intents and Sankey paths
  (bd-workflows/src/actions_flush_buffers.rs:292-350, bd-workflows/src/sankey_diagram.rs:175-252),
* `L` the log buffer: `AsyncLogBuffer::run_with_shutdown`
  (bd-logger/src/async_log_buffer.rs:562-668) and
  `finish_blocking_log_processing` (bd-logger/src/log_replay.rs:320-370),
* `F` the stats flusher: `Flusher::periodic_flush` (bd-client-stats/src/stats.rs:131-165, 282-370).

Simplifications: one step per completed wait; work that never waits is part of the step before it.
The contents of logs, metrics and configurations are left out.  Buffers are numbers.  How many
batches a triggered upload has is chosen when it is requested.  The disk and the buffer flush task
(`Manager::process_flushes`, which waits for nobody modelled here) always answer.  Shutting down
the whole logger is added in `Verif.Tasks.Shutdown`.
-/

namespace Verif.Tasks

/-- What an upload task is for. `other`: intents and Sankey paths, which hold no shutdown handle. -/
inductive Kind | continuous | trigger | stream | other
deriving DecidableEq, Repr

/-- Where an upload task stands: `more` batches follow the current one, which may be tried again
`tries` times (`RetryPolicy`, bd-logger/src/service.rs:206-271). -/
inductive Phase
  | reading
  | sending (more tries : Nat)
  | waiting (more tries : Nat)
  | backoff (more tries : Nat)
  | ended
  | gone
deriving DecidableEq, Repr

/-- An upload task; `shut`: its shutdown was signalled (or the trigger for it dropped). -/
structure Task where
  kind : Kind
  buf : Nat
  phase : Phase
  shut : Bool
deriving DecidableEq, Repr

/-- What travels over the data upload channel. -/
inductive Msg | stats | logs (t : Nat)
deriving DecidableEq, Repr

/-- `BufferEvent` (bd-buffer/src/ring_buffer.rs:44-62). -/
inductive Event
  | contCreated (id : Nat)
  | trigCreated (id : Nat)
  | removed (id : Nat)
  | streamAdded
  | streamRemoved
deriving DecidableEq, Repr

/-- Where the API task stands: in its `select!`, sending buffer events and then waiting until all
are acknowledged, sending the configuration to the log buffer, sending a trigger upload. -/
inductive APos
  | idle
  | sendEvents (evs : List Event) (ok : Bool)
  | sendConfig
  | sendTrigger (req : List (Nat × Nat))
deriving DecidableEq, Repr

/-- Where the upload manager stands: in its `select!`, or waiting until a task has dropped its
shutdown handle (`shutdown_trigger.shutdown().await`). -/
inductive UPos | idle | closing (t : Nat)
deriving DecidableEq, Repr

/-- The log buffer: in its `select!` or waiting for a stats flush on behalf of a blocking log or a
blocking flush. -/
inductive LPos | idle | flushing
deriving DecidableEq, Repr

/-- The stats flusher: in its `select!` or sending an upload. -/
inductive FPos | idle | sending
deriving DecidableEq, Repr

/-- `upload_rx` of the flusher. -/
inductive Rx | none | waiting | done (ok : Bool)
deriving DecidableEq, Repr

structure St where
  started : Bool := false
  killed : Bool := false
  up : Bool := false
  a : APos := .idle
  /-- uploads the server has not answered yet (`StateTracker`) -/
  sent : List Msg := []
  dataQ : Option Msg := Option.none
  evQ : Option Event := Option.none
  trigQ : Option (List (Nat × Nat)) := Option.none
  cfgQ : Bool := false
  u : UPos := .idle
  tasks : List Task := []
  shutdowns : List (Nat × Nat) := []
  streamTask : Option Nat := Option.none
  trigBufs : List Nat := []
  active : List Nat := []
  l : LPos := .idle
  f : FPos := .idle
  rx : Rx := .none
  /-- stats files which are old enough to be uploaded right after the current one -/
  files : Nat := 0
deriving DecidableEq, Repr

/-- Inputs and steps. The first group comes from outside: the network, the server, the application,
timers. The second are the steps of the tasks. -/
inductive Label
  -- from outside
  | down
  | kill
  | config (evs : List Event) (ok : Bool)
  | serverFlush (req : List (Nat × Nat))
  | blockingCall
  | matched (req : List (Nat × Nat))
  | intent
  | record (t : Nat)
  | tick
  | rotate
  -- inside
  | connect
  | drain
  | answer (m : Msg) (ok : Bool)
  | putEvent
  | acked
  | putConfig
  | putTrigger
  | uEvent
  | uTrigger
  | uDone (t : Nat)
  | uClosed
  | takeConfig
  | takeFlush
  | fPut
  | fResponse
  | tPut (t : Nat)
  | tWake (t : Nat)
  | tCancel (t : Nat)
deriving DecidableEq, Repr

/-- Is this a step of the tasks themselves (with the network there and a server that answers)? -/
def Label.inside : Label → Bool
  | .down | .kill | .config _ _ | .serverFlush _ | .blockingCall | .matched _ | .intent | .record _
  | .tick | .rotate => false
  | _ => true

def setTask (s : St) (t : Nat) (x : Task) : St := { s with tasks := s.tasks.set t x }

/-- What a task does once its current batch is over (bd-logger/src/consumer.rs:534-541, 591-594,
650-696). A triggered upload takes the next batch and ends after the last. -/
def nextPhase (R : Nat) (k : Kind) (more : Nat) : Phase :=
  match k with
  | .continuous | .stream => .reading
  | .other => .gone
  | .trigger => match more with
    | 0 => .ended
    | n + 1 => .sending n R

/-- The phase after the answer to the current batch: again after a while if it failed and may be
tried again (bd-logger/src/service.rs:232-267). -/
def answered (R : Nat) (x : Task) (ok : Bool) : Phase :=
  match x.phase with
  | .waiting more tries =>
    if ok then nextPhase R x.kind more
    else match tries with
      | 0 => nextPhase R x.kind more
      | n + 1 => .backoff more n
  | p => p

/-- The answer (or the end of the stream) reaches whoever waits for it. -/
def resolve (R : Nat) (s : St) (m : Msg) (ok : Bool) : St :=
  match m with
  | .stats => match s.rx with
    | .waiting => { s with rx := .done ok }
    | _ => s
  | .logs t => match s.tasks[t]? with
    | Option.none => s
    | some x => setTask s t { x with phase := answered R x ok }

/-- Signal the shutdown of task `t`, or drop the trigger for it. -/
def shutTask (s : St) (t : Nat) : St :=
  match s.tasks[t]? with
  | Option.none => s
  | some x => setTask s t { x with shut := true }

def lookup (m : List (Nat × Nat)) (id : Nat) : Option Nat :=
  (m.find? fun p => p.1 = id).map (·.2)

def erase (m : List (Nat × Nat)) (id : Nat) : List (Nat × Nat) := m.filter fun p => p.1 ≠ id

/-- Spawn a task and keep the trigger of its shutdown under the buffer's name
(bd-logger/src/consumer.rs:229-232, 263-272); a trigger that was there is dropped. -/
def spawn (s : St) (x : Task) : St :=
  let t := s.tasks.length
  let s := match lookup s.shutdowns x.buf with
    | some old => shutTask s old
    | Option.none => s
  { s with tasks := s.tasks ++ [x], shutdowns := (x.buf, t) :: erase s.shutdowns x.buf }

/-- The phase a triggered upload of `n` batches starts in. -/
def startPhase (R : Nat) : Nat → Phase
  | 0 => .ended
  | n + 1 => .sending n R

/-- One buffer of a trigger upload (bd-logger/src/consumer.rs:153-236). -/
def trigOne (R : Nat) (s : St) (p : Nat × Nat) : St :=
  if s.active.contains p.1 then s
  else if s.trigBufs.contains p.1 then
    let s := spawn s ⟨.trigger, p.1, startPhase R p.2, false⟩
    { s with active := p.1 :: s.active }
  else s

/-- `handle_buffer_event` (bd-logger/src/consumer.rs:256-323). -/
def handleEvent (s : St) : Event → St
  | .contCreated id => spawn s ⟨.continuous, id, .reading, false⟩
  | .trigCreated id => { s with trigBufs := id :: s.trigBufs }
  | .removed id =>
    let s := { s with trigBufs := s.trigBufs.filter (· ≠ id) }
    match lookup s.shutdowns id with
    | some t => { shutTask s t with shutdowns := erase s.shutdowns id, u := .closing t }
    | Option.none => s
  | .streamAdded =>
    let t := s.tasks.length
    let s := match s.streamTask with
      | some old => shutTask s old
      | Option.none => s
    { s with tasks := s.tasks ++ [⟨.stream, 0, .reading, false⟩], streamTask := some t }
  | .streamRemoved =>
    match s.streamTask with
    | some t => { shutTask s t with streamTask := Option.none, u := .closing t }
    | Option.none => s

/-- May this task be cancelled where it stands?  Continuous and streamed uploads watch their
shutdown everywhere (bd-logger/src/consumer.rs:469, 528-531, 566, 586-589), a triggered upload
nowhere (bd-logger/src/consumer.rs:196-220, 698-724). -/
def cancellable (x : Task) : Bool :=
  x.shut && x.kind != .trigger && x.phase != .gone && x.phase != .ended

/-- One step; `none`: not possible now. -/
def step (R : Nat) (s : St) : Label → Option St
  | .down =>
    if s.a = .idle ∧ s.up = true then
      some { s.sent.foldl (fun s m => resolve R s m false) s with up := false, sent := [] }
    else Option.none
  | .kill =>
    if s.a = .idle ∧ s.up = false then some { s with killed := true, started := true } else Option.none
  | .config evs ok =>
    if s.a = .idle ∧ (s.up = true ∨ s.started = false) then some { s with a := .sendEvents evs ok }
    else Option.none
  | .serverFlush req =>
    if s.a = .idle ∧ s.up = true then some { s with a := .sendTrigger req } else Option.none
  | .blockingCall => if s.l = .idle then some { s with l := .flushing } else Option.none
  | .matched req =>
    if s.l = .idle then
      some (match s.trigQ with
        | some _ => s
        | Option.none => { s with trigQ := some req })
    else Option.none
  | .intent => some { s with tasks := s.tasks ++ [⟨.other, 0, .sending 0 0, false⟩] }
  | .record t => match s.tasks[t]? with
    | some x => if x.phase = .reading then some (setTask s t { x with phase := .sending 0 R })
                else Option.none
    | Option.none => Option.none
  | .tick => if s.f = .idle ∧ s.rx = .none then some { s with f := .sending } else Option.none
  | .rotate => some { s with files := s.files + 1 }
  | .connect =>
    if s.a = .idle ∧ s.up = false ∧ s.killed = false then some { s with up := true, started := true }
    else Option.none
  | .drain => match s.dataQ with
    | some m => if s.a = .idle ∧ s.up = true then
        some { s with dataQ := Option.none, sent := s.sent ++ [m] } else Option.none
    | Option.none => Option.none
  | .answer m ok =>
    if s.a = .idle ∧ s.up = true ∧ m ∈ s.sent then
      some (resolve R { s with sent := s.sent.erase m } m ok)
    else Option.none
  | .putEvent => match s.a with
    | .sendEvents (e :: es) ok =>
      if s.evQ = Option.none then some { s with evQ := some e, a := .sendEvents es ok } else Option.none
    | _ => Option.none
  | .acked => match s.a with
    | .sendEvents [] ok =>
      if s.evQ = Option.none ∧ s.u = .idle then some { s with a := if ok then .sendConfig else .idle }
      else Option.none
    | _ => Option.none
  | .putConfig =>
    if s.a = .sendConfig ∧ s.cfgQ = false then some { s with cfgQ := true, a := .idle } else Option.none
  | .putTrigger => match s.a with
    | .sendTrigger req =>
      if s.trigQ = Option.none then some { s with trigQ := some req, a := .idle } else Option.none
    | _ => Option.none
  | .uEvent => match s.evQ with
    | some e => if s.u = .idle then some (handleEvent { s with evQ := Option.none } e) else Option.none
    | Option.none => Option.none
  | .uTrigger => match s.trigQ with
    | some req => if s.u = .idle then
        some (req.foldl (trigOne R) { s with trigQ := Option.none }) else Option.none
    | Option.none => Option.none
  | .uDone t => match s.tasks[t]? with
    | some x =>
      if s.u = .idle ∧ x.phase = .ended then
        some { setTask s t { x with phase := .gone } with active := s.active.filter (· ≠ x.buf) }
      else Option.none
    | Option.none => Option.none
  | .uClosed => match s.u with
    | .closing t => match s.tasks[t]? with
      | some x => if x.phase = .ended ∨ x.phase = .gone then some { s with u := .idle } else Option.none
      | Option.none => some { s with u := .idle }
    | .idle => Option.none
  | .takeConfig => if s.l = .idle ∧ s.cfgQ = true then some { s with cfgQ := false } else Option.none
  | .takeFlush => if s.l = .flushing ∧ s.f = .idle then some { s with l := .idle } else Option.none
  | .fPut =>
    if s.f = .sending ∧ s.dataQ = Option.none then
      some { s with f := .idle, dataQ := some .stats, rx := .waiting }
    else Option.none
  | .fResponse => match s.rx with
    | .done ok =>
      if s.f = .idle then
        some (match ok, s.files with
          | true, n + 1 => { s with rx := .none, f := .sending, files := n }
          | _, _ => { s with rx := .none })
      else Option.none
    | _ => Option.none
  | .tPut t => match s.tasks[t]? with
    | some x => match x.phase with
      | .sending more tries =>
        if s.dataQ = Option.none then
          some { setTask s t { x with phase := .waiting more tries } with dataQ := some (.logs t) }
        else Option.none
      | _ => Option.none
    | Option.none => Option.none
  | .tWake t => match s.tasks[t]? with
    | some x => match x.phase with
      | .backoff more tries => some (setTask s t { x with phase := .sending more tries })
      | _ => Option.none
    | Option.none => Option.none
  | .tCancel t => match s.tasks[t]? with
    | some x => if cancellable x then some (setTask s t { x with phase := .gone }) else Option.none
    | Option.none => Option.none

/-- A run: the labels one after the other, each possible where it is taken. -/
def run (R : Nat) : St → List Label → Option St
  | s, [] => some s
  | s, l :: ls => match step R s l with
    | some s' => run R s' ls
    | Option.none => Option.none

end Verif.Tasks
