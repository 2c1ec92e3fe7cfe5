import Verif.Upload.Trigger

/-
Model of the two switches of the processing pipeline and of the way of a flush request from the workflows engine to the
uploader: bd-logger/src/log_replay.rs:79-202 (`ProcessingPipeline::new`, `update`) and 495-540 (`run`),
bd-logger/src/async_log_buffer.rs:508-550 (`update`, replay of the logs from before the configuration),
bd-workflows/src/engine.rs:471-543 (`on_log_upload_approved`), bd-logger/src/builder.rs:115 (the channel of capacity 1) and
bd-logger/src/consumer.rs:121-252 (the uploader, Verif.Upload.Trigger).

`ProcessingPipeline::run` is one `select!`: a step below is one of its branches being taken, or none of them being ready.  A
`changed()` that is ready marks the value as seen and its branch is taken in the same poll, so that nothing is seen and not acted on.
The `ConfigLoader` is held by the pipeline, hence the watches do not close and `select!` never has all its branches disabled.  The
branch with `panic!("should never happen in practice")` is not polled without a receiver (`if` guard).

A configuration and a log are numbers.  What the engine and the filters do with a log is in Verif.Wf and Verif.Match; here it
only matters which of them see it.  The bounds of the queue before the configuration are in Verif.Queue (C11).  Negotiations are an
input (Verif.Wf.System): `approved` is the engine taking an approval.
-/
namespace Verif.Switch

open Verif.Upload (BufId TM TEv)

/-- A `tokio::sync::watch` channel of a flag (bd-runtime/src/runtime.rs:300-325). -/
structure Watch where
  value : Bool
  version : Nat
  deriving DecidableEq, Repr

/-- `send_if_modified` (C24): only a different value is a change. -/
def Watch.set (w : Watch) (v : Bool) : Watch := if w.value = v then w else ⟨v, w.version + 1⟩

/-- `BuffersToFlush` (bd-workflows/src/actions_flush_buffers.rs:924-945).  `serial` stands for its `response_tx`. -/
structure Req where
  serial : Nat
  action : Nat
  buffers : List BufId
  deriving DecidableEq, Repr

/-- `WorkflowsEngine`: its configuration and `pending_buffer_flushes`. -/
structure Eng where
  cfg : Nat
  waiting : List (Nat × Nat)
  deriving DecidableEq, Repr

/-- `TriggerUpload` (bd-api/src/lib.rs:139-155): from the pipeline (with the serial number of the request) or from the server. -/
structure Job where
  src : Option Nat
  buffers : List BufId
  deriving DecidableEq, Repr

/-- `ProcessingPipeline` (log_replay.rs:79-103). `rx` is `buffers_to_flush_rx` with what is in the channel, `seenW` and `seenF` the versions
of the flags that were seen last. -/
structure Line where
  cfg : Nat
  engine : Option Eng
  rx : Option (List Req)
  seenW : Nat
  seenF : Nat
  filterOn : Bool
  deriving DecidableEq, Repr

structure Sys where
  wf : Watch
  fc : Watch
  line : Option Line
  /-- logs waiting for the first configuration -/
  pre : List Nat
  /-- the channel to the uploader -/
  trig : List Job
  up : TM
  /-- the requests the uploader has taken; the position is its number in `up` -/
  taken : List (Option Nat)
  next : Nat
  deriving DecidableEq, Repr

def Sys.init (w f : Bool) : Sys := ⟨⟨w, 0⟩, ⟨f, 0⟩, none, [], [], TM.init, [], 0⟩

inductive Ev where
  /-- a runtime update with these values of the two flags -/
  | runtime (w f : Bool)
  | config (c : Nat)
  | log (n : Nat)
  /-- the engine takes an approval -/
  | approved (action : Nat) (buffers : List BufId)
  /-- the branch of `run` that passes on a request (503-529) -/
  | pass
  /-- the branches of `run` for the flags (530-537) -/
  | seeWorkflows
  | seeFilters
  /-- no branch of `run` is ready -/
  | idle
  /-- a flush request of the server (bd-api/src/api.rs:838-843), sent when the channel has room -/
  | server (buffers : List BufId)
  /-- the uploader takes a request -/
  | take (bad : List BufId)
  /-- something else happens to the uploader -/
  | up (e : TEv)
  /-- the task waiting for the uploads of request `r` answers it (consumer.rs:238-249); the task also lives without the uploader -/
  | answer (r : Nat)
  /-- the uploader ends -/
  | stop
  deriving DecidableEq, Repr

inductive Out where
  /-- a log was processed with the filters and the workflows of these configurations, if any -/
  | log (n : Nat) (filters workflows : Option Nat)
  /-- the engine sent a request -/
  | asked (r : Req)
  /-- the channel of the engine was full: `buffers_to_flush_channel_send_failures` -/
  | overflow (action : Nat)
  /-- a request was given to the uploader -/
  | passed (r : Req)
  /-- a request could not be given to the uploader: `send_trigger_upload` -/
  | refused (r : Req)
  /-- the uploader took a request -/
  | took (j : Job)
  | idle
  deriving DecidableEq, Repr

/-- The result of `process_log` (log_replay.rs:204-317) as far as the switches go. -/
def Line.process (l : Line) (n : Nat) : Out := .log n (if l.filterOn then some l.cfg else none) (l.engine.map (·.cfg))

/-- A new engine and its channel (engine.rs:98-153). -/
def Eng.fresh (c : Nat) : Eng := ⟨c, []⟩

/-- `ProcessingPipeline::new` (107-170). -/
def Line.new (w f : Watch) (c : Nat) : Line :=
  { cfg := c, engine := if w.value then some (Eng.fresh c) else none, rx := if w.value then some [] else none
    seenW := w.version, seenF := f.version, filterOn := f.value }

/-- `ProcessingPipeline::update` (172-202): `update` of the engine, a new engine with a new channel, or none. -/
def Line.update (l : Line) (w : Watch) (c : Nat) : Line :=
  if w.value then
    match l.engine with
    | some e => { l with cfg := c, engine := some { e with cfg := c }, seenW := w.version }
    | none => { l with cfg := c, engine := some (Eng.fresh c), rx := some [], seenW := w.version }
  else { l with cfg := c, engine := none, seenW := w.version }

/-- The requests in the channel of the engine. -/
def Sys.queue (s : Sys) : List Req := (s.line.bind (·.rx)).getD []

/-- Does the `response_tx` of the request still exist unused?  It moves with the request. -/
def Sys.isOpen (s : Sys) (n : Nat) : Bool :=
  s.queue.any (·.serial == n) || s.trig.any (·.src == some n) || s.up.open_.any (fun r => s.taken[r]? == some (some n))

/-- `pending_buffer_flushes.insert`. -/
def setWaiting (a n : Nat) (l : List (Nat × Nat)) : List (Nat × Nat) := (a, n) :: l.filter fun x => x.1 ≠ a

/-- `on_log_upload_approved` (engine.rs:471-543): a request unless the last one for the action is open. -/
def Sys.approve (s : Sys) (l : Line) (e : Eng) (a : Nat) (bufs : List BufId) : Sys × List Out :=
  if (e.waiting.lookup a).any s.isOpen then (s, [])
  else
    match l.rx with
    | some q =>
      if q.length < 10 then
        let r : Req := ⟨s.next, a, bufs⟩
        ({ s with next := s.next + 1
                  line := some { l with rx := some (q ++ [r]), engine := some { e with waiting := setWaiting a s.next e.waiting } } },
          [.asked r])
      else ({ s with line := some { l with engine := some { e with waiting := e.waiting.filter fun x => x.1 ≠ a } } }, [.overflow a])
    | none => ({ s with line := some { l with engine := some { e with waiting := e.waiting.filter fun x => x.1 ≠ a } } }, [.overflow a])

/-- The branch of `run` for the requests of the engine (503-529): `try_send` to the uploader. -/
def Sys.passOn (s : Sys) (l : Line) : Sys × List Out :=
  match l.rx with
  | some (r :: q) =>
    let s1 := { s with line := some { l with rx := some q } }
    if !s.up.dead && s.trig.isEmpty then ({ s1 with trig := s.trig ++ [⟨some r.serial, r.buffers⟩] }, [.passed r])
    else (s1, [.refused r])
  | _ => (s, [])

def Line.ready (l : Line) (w f : Watch) : Bool :=
  l.rx.any (!·.isEmpty) || l.seenW != w.version || l.seenF != f.version

/-- What else happens to the uploader. -/
def TEv.other : TEv → Bool
  | .created _ | .removed _ | .finish .. | .notify _ => true
  | .trigger .. | .respond _ => false

def Sys.step (s : Sys) (e : Ev) : Sys × List Out :=
  match e with
  | .runtime w f => ({ s with wf := s.wf.set w, fc := s.fc.set f }, [])
  | .config c =>
    match s.line with
    | none =>
      let l := Line.new s.wf s.fc c
      ({ s with line := some l, pre := [] }, s.pre.map l.process)
    | some l => ({ s with line := some (l.update s.wf c) }, [])
  | .log n =>
    match s.line with
    | none => ({ s with pre := s.pre ++ [n] }, [])
    | some l => (s, [l.process n])
  | .approved a bufs =>
    match s.line with
    | none => (s, [])
    | some l => match l.engine with
      | none => (s, [])
      | some e => s.approve l e a bufs
  | .pass => match s.line with
    | none => (s, [])
    | some l => s.passOn l
  | .seeWorkflows => match s.line with
    | none => (s, [])
    | some l =>
      if l.seenW = s.wf.version then (s, [])
      else ({ s with line := some { l with seenW := s.wf.version, engine := if s.wf.value then l.engine else none } }, [])
  | .seeFilters => match s.line with
    | none => (s, [])
    | some l =>
      if l.seenF = s.fc.version then (s, [])
      else ({ s with line := some { l with seenF := s.fc.version, filterOn := s.fc.value } }, [])
  | .idle => match s.line with
    | none => (s, [])
    | some l => if l.ready s.wf s.fc then (s, []) else (s, [.idle])
  | .server bufs => if !s.up.dead && s.trig.isEmpty then ({ s with trig := s.trig ++ [⟨none, bufs⟩] }, []) else (s, [])
  | .take bad => match s.trig with
    | [] => (s, [])
    | j :: rest =>
      let up := s.up.step (.trigger j.buffers bad)
      ({ s with up := up, taken := s.taken ++ [j.src], trig := if up.dead then [] else rest }, [.took j])
  | .up e => if TEv.other e then ({ s with up := s.up.step e }, []) else (s, [])
  | .answer r =>
    if s.up.running.any (fun x => x.1 == r) then (s, [])
    else ({ s with up := { s.up with open_ := s.up.open_.filter (· ≠ r) } }, [])
  | .stop => ({ s with up := { s.up with dead := true }, trig := [] }, [])

def Sys.run (s : Sys) : List Ev → Sys × List Out
  | [] => (s, [])
  | e :: es =>
    let a := s.step e
    let b := a.1.run es
    (b.1, a.2 ++ b.2)

end Verif.Switch
