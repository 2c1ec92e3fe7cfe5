import Verif.Buffer.Aggregate
import Verif.Upload.Continuous

/-
A continuous buffer and its uploader, on the byte level: the producers write into the ring in memory, the flush thread moves the
records to the ring in the file (Verif.Buffer `Agg`, bd-buffer/src/buffer/aggregate_ring_buffer.rs), and the uploader reads the file
with a cursor consumer and acknowledges what it uploaded (bd-logger/src/consumer.rs:403-545).  Every call is one critical section
and every `await` of the uploader is a boundary between events, so that a list of events is an interleaving of the producers, the
flush thread and the uploader.  The process can end at any moment and the file be opened again by the next one.

`Verif.Upload.CU` describes the same uploader on a list of logs in place of the buffer; here its field `written` is not used and
stays empty, and `acked`, `pos` and the numbers of the logs in a batch are ghosts: what is read and removed is decided by the calls
on the buffer.

Not modelled: a change of the file by anyone else; a second consumer of the same file (the buffer manager starts one uploader for
each continuous buffer, C42); the failure of opening the file in the next process (C08: the header is checked; after the
calls modelled here it is sound).
-/
namespace Verif.Ring

open Verif.Buffer
open Verif.Upload (CU UpResult Limits)

/-- The sizes of the two rings, whether the file has checksums of records, and the checksum function. -/
structure Cfg where
  K : Crc
  vlen : Nat
  nlen : Nat
  crc : Bool

/-- The aggregate buffer in a new process (aggregate_ring_buffer.rs:131-196). -/
def opened (c : Cfg) (mem : Mem) (nv : NV) : Agg :=
  { vol := Vol.new c.vlen mem, nv := nv, flag := false, stage := .spawned, vlog := [], nlog := [] }

structure Sys where
  /-- ghost: the calls made on the file by the processes before this one -/
  pre : List NOp
  agg : Agg
  up : CU

/-- A new file (bd-buffer/src/ring_buffer.rs:590-598: continuous buffers do not overwrite). -/
def Sys.init (c : Cfg) (mem : Mem) : Sys :=
  ⟨[], opened c mem (NV.new c.K c.nlen c.crc false true), CU.init⟩

inductive Ev where
  /-- a producer, a flusher, the flush thread, the shutdown of the buffer -/
  | agg (op : AOp)
  /-- the uploader is started: `create_continous_consumer` (bd-logger/src/consumer.rs:335-353, bd-buffer/src/ring_buffer.rs:690-700) -/
  | start
  /-- the read arm of the `select!`, with the limits in force at the check after it (consumer.rs:467-484) -/
  | read (l : Limits)
  /-- the deadline arm -/
  | deadline
  /-- a limit changed -/
  | flag (l : Limits)
  /-- the upload returned a result -/
  | result (r : UpResult)
  /-- one `advance_read_cursor` (consumer.rs:537-539) -/
  | advance
  | shut
  /-- the shutdown arm of the `select!` of the loop; the consumer is dropped -/
  | stop
  /-- the shutdown arm of the `select!` in `flush_current_batch`, then that of the loop -/
  | abortStop
  /-- the shutdown arm of the `select!` in `flush_current_batch`, and on with the loop (see Verif.Upload) -/
  | abortGo
  /-- the process ends and the next one opens the file; `mem` is its memory -/
  | reopen (mem : Mem)

/-- The calls on the persistent part that are neither the flush thread's nor the uploader's. -/
def AOp.others : AOp → Bool
  | .nv .waitForDrain => true
  | .nv .shutdown => true
  | .nv _ => false
  | _ => true

def Sys.step (c : Cfg) (s : Sys) : Ev → Sys
  | .agg op => if AOp.others op then { s with agg := s.agg.step c.K op } else s
  | .start => match s.up.phase with
    | .stopped => match s.agg.onNV c.K .registerCursor with
      | (a, .unit (.ok ())) =>
        { s with agg := a, up := { s.up with pos := s.up.acked, batch := [], armed := false, phase := .collecting, shutdown := false } }
      | (a, _) => { s with agg := a }
    | _ => s
  | .read l => match s.up.phase with
    | .collecting => match s.agg.onNV c.K (.cursorRead false) with
      | (a, .record (.ok x)) =>
        { s with agg := a
                 up := CU.check { s.up with batch := s.up.batch ++ [(s.up.pos, x.2.map UInt8.toNat)], pos := s.up.pos + 1 } l }
      | (a, .record (.err .unavailable)) => { s with agg := a }
      -- `entry?`: the uploader ends (472)
      | (a, _) => { s with agg := (a.onNV c.K .dropConsumer).1, up := { s.up with phase := .stopped } }
    | _ => s
  | .deadline => match s.up.phase with
    | .collecting => if s.up.armed then { s with up := s.up.flush } else s
    | _ => s
  | .flag l => match s.up.phase with
    | .collecting => { s with up := s.up.check l }
    | _ => s
  | .result r => match s.up.phase with
    | .uploading logs => { s with up := { s.up with phase := .acking logs.length, finished := s.up.finished ++ [(logs, r)] } }
    | _ => s
  | .advance => match s.up.phase with
    | .acking (k + 1) => match s.agg.onNV c.K .ack with
      | (a, .finished (.ok _)) =>
        { s with agg := a, up := { s.up with acked := s.up.acked + 1, phase := if k = 0 then .collecting else .acking k } }
      -- `?`: the uploader ends (537-539)
      | (a, _) => { s with agg := (a.onNV c.K .dropConsumer).1, up := { s.up with phase := .stopped } }
    | .acking 0 => { s with up := { s.up with phase := .collecting } }
    | _ => s
  | .shut => { s with up := { s.up with shutdown := true } }
  | .stop => match s.up.phase with
    | .collecting =>
      if s.up.shutdown then { s with agg := (s.agg.onNV c.K .dropConsumer).1, up := { s.up with phase := .stopped } } else s
    | _ => s
  | .abortStop => match s.up.phase with
    | .uploading _ =>
      if s.up.shutdown then { s with agg := (s.agg.onNV c.K .dropConsumer).1, up := { s.up with phase := .stopped } } else s
    | _ => s
  | .abortGo => match s.up.phase with
    | .uploading _ => if s.up.shutdown then { s with up := { s.up with phase := .collecting } } else s
    | _ => s
  | .reopen mem =>
    { pre := s.pre ++ s.agg.nlog.map (·.1) ++ [.restart]
      agg := opened c mem (s.agg.nv.step c.K .restart).1
      up := { s.up with phase := .stopped } }

def Sys.run (c : Cfg) (s : Sys) (es : List Ev) : Sys := es.foldl (Sys.step c) s

/-- All calls ever made on the file. -/
def Sys.calls (s : Sys) : List NOp := s.pre ++ s.agg.nlog.map (·.1)

/-- What an observer of the calls on the file, from the beginning, knows. -/
def Sys.hist (c : Cfg) (s : Sys) : NTrace := nvHistory c.K c.nlen c.crc false true s.calls

end Verif.Ring
