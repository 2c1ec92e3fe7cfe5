import Verif.Workflow.Negotiate
import Verif.Upload.TriggerProps
import Verif.Flow.TriggerProps

/-
The whole way of a trigger buffer to the server, composed from the workflows engine with its negotiator (Verif.Workflow.Negotiate),
the channel of the engine (bd-workflows/src/engine.rs:116, capacity 10), the pipeline that empties it
(bd-logger/src/log_replay.rs:502-529), the channel to the uploader (bd-logger/src/builder.rs:115, capacity 1), which also takes the flush requests
of the server (bd-api/src/api.rs:836-843), the upload manager (Verif.Upload.Trigger) and one upload task per buffer (Verif.Flow.Trigger).
Any number of processes follow one another; in one process the engine may be replaced by a new one (workflows switched off and on,
log_replay.rs:178-201).

Simplifications beyond those of the parts: `SysOp.flushed` is free (the exact life of the answer is in C113); the content of a buffer that is
removed and created again under its name stays.
-/
namespace Verif.Flow.Consent

open Verif.Wf (System SysOp EngineCfg)
open Verif.Upload (BufId TM Entry UpResult)

/-- Names of buffers as the numbers of Verif.Upload.Trigger. -/
def num : List Char → Nat
  | [] => 0
  | c :: l => num l * 4294967296 + c.toNat + 1

def code (s : String) : BufId := num s.toList

/-- Who asked for an upload: the server by a flush request, or the engine for an action. -/
inductive Src where
  | server
  | engine (action : String)
  deriving DecidableEq, Repr

/-- `TriggerUpload` (bd-api/src/lib.rs:139-155). -/
structure Job where
  src : Src
  buffers : List String
  deriving DecidableEq, Repr

structure C where
  wf : System := {}
  /-- the channel of the engine: action and buffers -/
  chan : List (String × List String) := []
  /-- the channel to the uploader -/
  trig : List Job := []
  up : TM := TM.init
  /-- the requests this process' uploader has taken; the position is the number in `up` -/
  jobs : List Job := []
  bufs : String → TF := fun _ => TF.init
  /-- ghost: the flush requests of the server that were passed on -/
  orders : List (List String) := []
  /-- ghost: what upload tasks have given to the service, from which buffer and for which request -/
  sent : List (String × List Entry × Option Job) := []

inductive Ev where
  /-- the engine and its negotiator (logs, updates, negotiations, writes of the state) -/
  | wf (op : SysOp)
  /-- the engine takes an answer of the negotiator -/
  | deliver
  /-- the process dies and a new one starts -/
  | process (limit : Nat) (readable : Bool) (oks : List Bool) (ec : EngineCfg)
  /-- workflows are switched off and on again -/
  | engine (limit : Nat) (readable : Bool) (oks : List Bool) (ec : EngineCfg)
  /-- the pipeline takes a request from the channel of the engine -/
  | pass
  /-- a flush request of the server enters the channel; while there is no room, the sender waits (bd-api/src/api.rs:839-843) -/
  | server (buffers : List String)
  /-- the upload manager takes a request -/
  | take (bad : List String) (lookback : String → Option Int) (k : String → Nat)
  | created (b : String)
  | removed (b : String)
  /-- the manager learns that the upload of a buffer is over -/
  | notify (b : String)
  /-- a request is answered -/
  | respond (r : Nat)
  /-- the upload manager ends -/
  | stop
  /-- something happens in a buffer or its upload task -/
  | buf (b : String) (e : TEv)

/-- The events of a buffer that are not consequences of others. -/
def ownEv : TEv → Bool
  | .request .. | .die => false
  | _ => true

/-- The request for which a buffer is being uploaded. -/
def C.forJob (s : C) (b : String) : Option Job :=
  (s.up.running.find? fun x => decide (x.2 = code b)).bind fun x => s.jobs[x.1]?

/-- What an upload task has given to the service when its call returns (consumer.rs:703-724). -/
def given (t : TF) : TEv → Option (List Entry)
  | .result _ => match t.task with
    | some k => match k.phase with
      | .uploading logs _ => some logs
      | _ => none
    | none => none
  | _ => none

/-- The upload task of a buffer ends when it is through (consumer.rs:190-206). -/
def C.after (s : C) (b : String) (old new : TF) : TM :=
  if old.task.isSome && new.task.isNone then
    match s.up.running.find? fun x => decide (x.2 = code b) with
    | some x => s.up.step (.finish x.1 x.2)
    | none => s.up
  else s.up

def C.step (s : C) : Ev → C
  | .wf op => match op with
    | .start .. | .deliver _ => s
    | op => { s with wf := s.wf.step op }
  | .deliver =>
    let w := s.wf.step (.deliver (decide (s.chan.length < 10)))
    { s with wf := w, chan := s.chan ++ w.engine.requests.drop s.wf.engine.requests.length }
  | .process limit readable oks ec =>
    { s with
      wf := s.wf.step (.start limit readable oks ec), chan := [], trig := [], up := TM.init, jobs := []
      bufs := fun b => (s.bufs b).step .die }
  | .engine limit readable oks ec => { s with wf := s.wf.step (.start limit readable oks ec), chan := [] }
  | .pass => match s.chan with
    | [] => s
    | x :: q =>
      if !s.up.dead && s.trig.isEmpty then { s with chan := q, trig := s.trig ++ [⟨.engine x.1, x.2⟩] } else { s with chan := q }
  | .server bs =>
    if !s.up.dead && s.trig.isEmpty then { s with trig := s.trig ++ [⟨.server, bs⟩], orders := s.orders ++ [bs] }
    else s
  | .take bad w k => match s.trig with
    | [] => s
    | j :: rest =>
      if s.up.dead then s
      else
        let up := s.up.step (.trigger (j.buffers.map code) (bad.map code))
        { s with
          up := up, jobs := s.jobs ++ [j], trig := if up.dead then [] else rest
          bufs := fun b => if (s.up.requests, code b) ∈ up.running then (s.bufs b).step (.request (w b) (k b)) else s.bufs b }
  | .created b => { s with up := s.up.step (.created (code b)) }
  | .removed b => { s with up := s.up.step (.removed (code b)) }
  | .notify b => { s with up := s.up.step (.notify (code b)) }
  | .respond r => { s with up := s.up.step (.respond r) }
  | .stop => { s with up := { s.up with dead := true }, trig := [] }
  | .buf b e =>
    if ownEv e then
      { s with
        bufs := fun x => if x = b then (s.bufs b).step e else s.bufs x
        up := s.after b (s.bufs b) ((s.bufs b).step e)
        sent := s.sent ++ (given (s.bufs b) e).toList.map fun logs => (b, logs, s.forJob b) }
    else s

def C.run (s : C) (es : List Ev) : C := es.foldl C.step s

end Verif.Flow.Consent
