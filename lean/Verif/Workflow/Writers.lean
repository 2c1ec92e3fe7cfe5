import Verif.Workflow.Snapshot

/-
Writes of the workflow state that overlap: `WorkflowsEngine::maybe_persist`, `run_once` (bd-workflows/src/engine.rs:429-469),
`StateStore::maybe_store`, `store` (engine.rs:991-1039), under the loop of the log buffer (bd-logger/src/async_log_buffer.rs:573-667).

`maybe_store` hands the write to the blocking pool and waits for it (engine.rs:1011).  While the engine waits in `run`, which is one branch of
the `select!` of the log buffer (async_log_buffer.rs:654-655), any other branch can become ready; the future of `run` is then dropped, and
with it the handle of the write.  The write goes on, and neither `last_persisted` nor `needs_state_persistence` is changed.  The other
callers of `maybe_persist` (log_replay.rs:291, async_log_buffer.rs:646) are bodies of branches and are not dropped.

Simplifications: one process; all writes succeed (for others see C66 and C102); the file is not read while the process runs (switching
workflows off and on, C112); a call of `write` writes all it is given.  `cap` is the capacity of the `BufWriter` (8192): a state that is not
larger is written by one call at the end, a larger one by several, cut anywhere (more cuts than `BufWriter` makes; it cuts between the
pieces that bincode hands it).
-/
namespace Verif.Wf.Writers

open Verif.Wf.Snap

/-- A call of `store` in the blocking pool (engine.rs:1030-1039). -/
structure Job where
  id : Nat
  snap : Snap
  /-- `File::create` was done -/
  opened : Bool := false
  /-- bytes written -/
  pos : Nat := 0

/-- The engine waits for a write: which, whether inside `run`, and the time `maybe_store` took at its start (engine.rs:993). -/
structure Wait where
  job : Nat
  run : Bool
  now : Nat
  deriving DecidableEq, Repr

structure W where
  file : Option (List UInt8)
  jobs : List Job := []
  next : Nat := 0
  wait : Option Wait := none
  /-- the state of the engine as it would be written (engine.rs:1007) -/
  snap : Snap
  /-- `needs_state_persistence` -/
  dirty : Bool := false
  /-- `last_persisted` -/
  last : Option Nat := none

inductive Ev where
  /-- the engine processes a log, a configuration or an approval -/
  | change (s : Snap)
  /-- `maybe_persist`; `run`: called by `run_once` -/
  | persist (run force : Bool) (now interval : Nat)
  /-- the engine learns that its write ended -/
  | resume
  /-- the future of `run` is dropped -/
  | cancel
  | create (id : Nat)
  | write (id n : Nat)

/-- The bytes of a state (engine.rs:1035). -/
def bytes (s : Snap) : List UInt8 := (snap.enc s).1

/-- `write` at a position of the file: what is beyond the end is filled with zeros. -/
def overlay (f : List UInt8) (pos : Nat) (b : List UInt8) : List UInt8 :=
  f.take pos ++ List.replicate (pos - f.length) 0 ++ b ++ f.drop (pos + b.length)

def W.job (w : W) (id : Nat) : Option Job := w.jobs.find? fun j => decide (j.id = id)

def W.setJob (w : W) (j : Job) : List Job := w.jobs.map fun k => if k.id = j.id then j else k

def W.dropJob (w : W) (id : Nat) : List Job := w.jobs.filter fun k => decide (k.id ≠ id)

/-- Whether `maybe_store` writes (engine.rs:994-1001). -/
def due (last : Option Nat) (force : Bool) (now interval : Nat) : Bool :=
  force || match last with
    | some l => decide (interval ≤ now - l)
    | none => true

def W.step (cap : Nat) (w : W) : Ev → W
  | .change s => if w.wait.isNone then { w with snap := s, dirty := true } else w
  | .persist run force now interval =>
    if w.wait.isNone && w.dirty && due w.last force now interval then
      { w with jobs := w.jobs ++ [{ id := w.next, snap := w.snap }], next := w.next + 1, wait := some ⟨w.next, run, now⟩ }
    else w
  | .resume =>
    match w.wait with
    | some t => if (w.job t.job).isNone then { w with wait := none, last := some t.now, dirty := false } else w
    | none => w
  | .cancel =>
    match w.wait with
    | some t => if t.run then { w with wait := none } else w
    | none => w
  | .create id =>
    match w.job id with
    | some j => if j.opened then w else { w with file := some [], jobs := w.setJob { j with opened := true } }
    | none => w
  | .write id n =>
    match w.job id with
    | some j =>
      let b := bytes j.snap
      if j.opened && decide (0 < n) && decide (j.pos + n ≤ b.length) && (decide (j.pos + n = b.length ∧ j.pos = 0) || decide (cap < b.length)) then
        { w with
          file := some (overlay (w.file.getD []) j.pos ((b.drop j.pos).take n))
          jobs := if j.pos + n = b.length then w.dropJob id else w.setJob { j with pos := j.pos + n } }
      else w
    | none => w

def W.run (cap : Nat) (w : W) (es : List Ev) : W := es.foldl (W.step cap) w

/-- What the next process reads (engine.rs:943-980); `mem` as in Snapshot.lean. -/
def load (mem : Nat) (file : Option (List UInt8)) : Option Snap :=
  match file with
  | none => none
  | some b =>
    match snap.dec mem b with
    | .ok s _ => some s
    | _ => none

end Verif.Wf.Writers
