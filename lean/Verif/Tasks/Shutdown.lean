import Verif.Tasks.Cycles

/-!
# Shutting down the logger

`Logger::shutdown` (bd-logger/src/logger.rs:486-494) takes the shutdown trigger and, if the call is
to block, signals it and waits until every `ComponentShutdown` made from it was dropped
(bd-shutdown/src/lib.rs:68-120).  The tasks of `Verif.Tasks` see the signal where they wait in a
`select!`; elsewhere they have to get there first.  This file puts on top of that model

* the trigger, its handle in the log buffer and what makes `cancelled()` return
  (bd-shutdown/src/lib.rs:44-63, 126-153),
* how each task ends and what its end does to those that wait for it: a channel without receiver
  refuses, a dropped sender of an answer is a failure (bd-logger/src/builder.rs:242-262),
* `BufferUploadManager::shutdown` (bd-logger/src/consumer.rs:325-332), which stops the uploads one
  after the other,
* uploads that are cancelled by the shutdown of the whole logger
  (bd-logger/src/service.rs:117-195),
* the failure of one task, which ends all of them (`try_join!`, bd-logger/src/builder.rs:242-262).

Simplifications, besides those of `Verif.Tasks`: an answer to an upload that was cancelled may be
taken for the answer to the next upload of the same task.  The tasks that send intents and Sankey
paths hold no shutdown handle and are not waited for.  The network stream is assumed to take what
the API task sends.  The logger is built without a shutdown handle from outside.
-/

namespace Verif.Tasks

/-- A call of `Logger::shutdown`. -/
structure Call where
  blocking : Bool
  returned : Bool
deriving DecidableEq, Repr

structure Sd where
  s : St := {}
  /-- `Logger::shutdown_state` still holds the trigger -/
  trigger : Bool := true
  /-- the status is `PendingShutdown` -/
  pending : Bool := false
  calls : List Call := []
  aEnd : Bool := false
  uEnd : Bool := false
  lEnd : Bool := false
  fEnd : Bool := false
  /-- the upload manager is in `shutdown()`: the uploads it still has to wait for, the first of which
  was signalled -/
  uShut : Option (List Nat) := none
deriving DecidableEq, Repr

/-- Does `cancelled()` return (bd-shutdown/src/lib.rs:136-147)?  When the status is
`PendingShutdown`, or when nothing is left that could set it: neither the trigger nor the handle
which the log buffer holds (bd-logger/src/async_log_buffer.rs:148). -/
def Sd.cancelled (d : Sd) : Bool := d.pending || (!d.trigger && d.lEnd)

/-- Who may still make a step of the model without shutdown. -/
def Sd.may (d : Sd) : Label → Bool
  | .down | .kill | .config _ _ | .serverFlush _ | .connect | .drain | .answer _ _ | .acked => !d.aEnd
  | .putEvent | .putTrigger => !d.aEnd && !d.uEnd
  | .putConfig => !d.aEnd && !d.lEnd
  | .uEvent | .uTrigger | .uDone _ | .uClosed => !d.uEnd && d.uShut == none
  | .blockingCall | .intent | .takeConfig => !d.lEnd
  | .matched _ => !d.lEnd && !d.uEnd
  | .takeFlush => !d.lEnd && !d.fEnd
  | .tick | .rotate | .fResponse => !d.fEnd
  | .fPut => !d.fEnd && !d.aEnd
  | .tPut _ => !d.aEnd
  | .record _ | .tWake _ | .tCancel _ => true

inductive SLabel
  /-- a step of the model without shutdown -/
  | base (l : Label)
  -- from outside
  | call (blocking : Bool)
  -- inside
  | ret (i : Nat)
  | aStop
  | aRefused
  | aConfigRefused
  | aFail
  | uStop (order : List Nat)
  | uNext
  | uFinish
  | lStop
  | lRefused
  | fStop
  | fRefused
  | tCanceled (t : Nat)
deriving DecidableEq, Repr

def SLabel.inside : SLabel → Bool
  | .base l => l.inside
  | .call _ => false
  | _ => true

/-- Has this upload dropped its shutdown handles? (`ended`: a triggered upload that only has to
report its end, bd-logger/src/consumer.rs:213-220) -/
def Task.over (x : Task) : Bool := x.kind == .other || x.phase == .ended || x.phase == .gone

/-- No `ComponentShutdown` is left: `status_tx.is_closed()`. -/
def Sd.closed (d : Sd) : Bool := d.aEnd && d.uEnd && d.lEnd && d.fEnd && d.s.tasks.all Task.over

/-- Signal the upload that `BufferUploadManager::shutdown` waits for next. -/
def signalHead (s : St) : List Nat → St
  | [] => s
  | t :: _ => shutTask s t

/-- The upload manager is gone and with it the triggers it held. -/
def dropTriggers (s : St) : St :=
  (s.shutdowns.map (·.2) ++ s.streamTask.toList).foldl shutTask s

/-- The receivers of the upload manager are gone: what was in the channels is dropped. -/
def uGone (s : St) : St := { dropTriggers s with evQ := none, trigQ := none }

/-- The API task is gone and with it all uploads nobody answered. -/
def aGone (R : Nat) (s : St) : St :=
  { (s.sent ++ s.dataQ.toList).foldl (fun s m => resolve R s m false) s with sent := [], dataQ := none }

/-- `Canceled` is not tried again (bd-logger/src/service.rs:258-266): the upload goes on as after
an answer. -/
def cancelPhase (R : Nat) (x : Task) : Phase :=
  match x.phase with
  | .sending m _ => nextPhase R x.kind m
  | .waiting m _ => nextPhase R x.kind m
  | p => p

/-- May the current upload of this task be given up?  Where the service waits it sees the shutdown;
without a receiver the channel refuses (bd-logger/src/service.rs:160-182). -/
def mayCancel (d : Sd) (x : Task) : Bool :=
  match x.phase with
  | .sending _ _ => d.aEnd || (d.cancelled && x.kind != .other)
  | .waiting _ _ => d.cancelled && x.kind != .other
  | _ => false

/-- One step; `none`: not possible now. -/
def Sd.step (R : Nat) (d : Sd) : SLabel → Option Sd
  | .base l => if d.may l then (Tasks.step R d.s l).map fun s => { d with s := s } else none
  | .call b =>
    if d.trigger then
      some { d with trigger := false, pending := d.pending || b, calls := d.calls ++ [⟨b, !b⟩] }
    else some { d with calls := d.calls ++ [⟨b, true⟩] }
  | .ret i => match d.calls[i]? with
    | some c => if c.returned = false ∧ d.closed = true then
        some { d with calls := d.calls.set i { c with returned := true } } else none
    | none => none
  | .aStop =>
    if d.cancelled = true ∧ d.aEnd = false ∧ d.s.a = .idle then some { d with aEnd := true, s := aGone R d.s }
    else none
  | .aRefused => match d.s.a with
    | .sendEvents (_ :: es) ok =>
      if d.aEnd = false ∧ d.uEnd = true then some { d with s := { d.s with a := .sendEvents es ok } } else none
    | _ => none
  | .aConfigRefused =>
    if d.aEnd = false ∧ d.lEnd = true ∧ d.s.a = .sendConfig then some { d with s := { d.s with a := .idle } }
    else none
  | .aFail => match d.s.a with
    | .sendTrigger _ =>
      if d.aEnd = false ∧ d.uEnd = true then
        some { d with aEnd := true, lEnd := true, fEnd := true,
                      s := { aGone R d.s with cfgQ := false, rx := .none } }
      else none
    | _ => none
  | .uStop order =>
    if d.cancelled = true ∧ d.uEnd = false ∧ d.uShut = none ∧ d.s.u = .idle ∧
        order.isPerm (d.s.shutdowns.map (·.2)) = true then
      some { d with uShut := some order, s := signalHead d.s order }
    else none
  | .uNext => match d.uShut with
    | some (t :: ts) => match d.s.tasks[t]? with
      | some x => if d.uEnd = false ∧ (x.phase = .ended ∨ x.phase = .gone) then
          some { d with uShut := some ts, s := signalHead d.s ts } else none
      | none => none
    | _ => none
  | .uFinish =>
    if d.uEnd = false ∧ d.uShut = some [] then some { d with uEnd := true, s := uGone d.s } else none
  | .lStop =>
    if d.cancelled = true ∧ d.lEnd = false ∧ d.s.l = .idle then
      some { d with lEnd := true, s := { d.s with cfgQ := false } } else none
  | .lRefused =>
    if d.lEnd = false ∧ d.fEnd = true ∧ d.s.l = .flushing then some { d with s := { d.s with l := .idle } }
    else none
  | .fStop =>
    if d.cancelled = true ∧ d.fEnd = false ∧ d.s.f = .idle then
      some { d with fEnd := true, s := { d.s with rx := .none } } else none
  | .fRefused =>
    if d.fEnd = false ∧ d.aEnd = true ∧ d.s.f = .sending then some { d with s := { d.s with f := .idle } }
    else none
  | .tCanceled t => match d.s.tasks[t]? with
    | some x => if mayCancel d x then some { d with s := setTask d.s t { x with phase := cancelPhase R x } }
                else none
    | none => none

def Sd.run (R : Nat) : Sd → List SLabel → Option Sd
  | d, [] => some d
  | d, l :: ls => match d.step R l with
    | some d' => Sd.run R d' ls
    | none => none

end Verif.Tasks
