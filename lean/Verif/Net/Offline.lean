import Verif.Net.Model
import Verif.Api.ReconnectProps

/-
The offline mark of logs: `NetworkQualityInterceptor` (bd-logger/src/network.rs:345-386) and what
`HTTPTrafficDataUsageTracker` does to the network quality (network.rs:70-86, 157-171), as interceptors of the log task
(bd-logger/src/async_log_buffer.rs:228-233, 595-606), together with the API task, which writes the same cell
(bd-api/src/api.rs:119-142, 602-608, 715; Verif.Api.Reconnect).

The two interceptors of one log are two steps, since the API task runs on its own and may write in between.  Fields that other
interceptors add are left out (they come before or after the mark and have other keys; Verif.Net.Model, Verif.Log).  `parse` is
`str::parse::<u64>`.
-/
namespace Verif.Net.Offline

open Verif.Reconn (Tr Quality Conn Turn)

/-- What the interceptors see of a log; the type is the number of the flatbuffers enumeration
(bd-proto/src/flatbuffers/buffer_log_generated.rs:156-167). -/
structure Log where
  ty : Nat
  msg : Val
  fields : List Field
  deriving DecidableEq, Repr

def tyReplay : Nat := 1
def tyResource : Nat := 3
def tyInternal : Nat := 4
def tySpan : Nat := 8

/-- `SimpleNetworkQualityProvider` (api.rs:122-142) written by the tracker (network.rs:70-86, 165-166). -/
def track (parse : List Char → Option Nat) (cell : Quality) (l : Log) : Quality :=
  match l.msg with
  | .bytes _ => cell
  | .str m =>
    if l.ty = tySpan ∧ m = "HTTPResponse".toList then
      if (getInt parse "_status_code".toList l.fields).isSome then .online else cell
    else cell

/-- `NetworkQualityInterceptor::process` (network.rs:358-385). -/
def mark (cell : Quality) (l : Log) : List Field :=
  if l.ty = tyResource ∨ l.ty = tyReplay ∨ l.ty = tyInternal then l.fields
  else if cell ≠ .offline then l.fields
  else l.fields ++ [⟨"_network_quality".toList, .str "offline".toList⟩]

inductive Item where
  /-- something the API task does -/
  | api (e : Tr)
  /-- the tracker processes a log -/
  | track (l : Log)
  /-- the interceptor processes it -/
  | mark (l : Log)
  deriving DecidableEq, Repr

structure S where
  cell : Quality := .unknown
  /-- logs with the fields they have after the interceptor -/
  out : List (Log × List Field) := []
  deriving DecidableEq, Repr

def S.step (parse : List Char → Option Nat) (s : S) : Item → S
  | .api (.quality q) => { s with cell := q }
  | .api _ => s
  | .track l => { s with cell := Offline.track parse s.cell l }
  | .mark l => { s with out := s.out ++ [(l, Offline.mark s.cell l)] }

def S.run (parse : List Char → Option Nat) (s : S) (es : List (Nat × Item)) : S := es.foldl (fun s e => s.step parse e.2) s

/-- What the API task did in a history. -/
def apiPart (es : List (Nat × Item)) : List (Nat × Tr) :=
  es.filterMap fun x => match x.2 with
    | .api e => some (x.1, e)
    | _ => none

/-- What the log task did. -/
def logPart (es : List (Nat × Item)) : List Item :=
  es.filterMap fun x => match x.2 with
    | .api _ => none
    | i => some i

/-- A history of both tasks: the API task follows its loop, the log task takes one log after the other. -/
structure History (c : Conn) (ts : List Turn) (es : List (Nat × Item)) : Prop where
  api : apiPart es <+: Reconn.run c ts
  log : ∃ ls : List Log, logPart es <+: ls.flatMap fun l => [.track l, .mark l]
  time : (es.map (·.1)).Pairwise (· ≤ ·)

end Verif.Net.Offline
