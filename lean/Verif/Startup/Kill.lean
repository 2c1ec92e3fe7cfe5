import Verif.Startup.Runtime

/-
Model of the kill file and the connection loop of the API client (bd-api/src/api.rs, C23).

Simplifications: times are integers; the API key hash is a function `hash`; a connection attempt is one
step whose outcome (rejected API key or anything else) is chosen by the server.  The kill file is absent,
unreadable (`some none`) or holds a hash and a time.
-/
namespace Verif.Startup

structure KillFile where
  hash : Nat
  till : Int
  deriving DecidableEq, Repr

structure Api where
  file : Option (Option KillFile)
  key : Nat
  killed : Bool
  deriving DecidableEq, Repr

inductive ApiEv where
  /-- a process starts with an API key; `generic`: `generic_kill_duration` of its runtime configuration;
  `rd`: the kill file can be read; `rm`: removing it succeeds; `w`: outcome of writing it -/
  | start (key : Nat) (now generic : Int) (rd rm : Bool) (w : Wr)
  /-- the connection loop comes around (api.rs:598-619); `rejected`: the server answers with the status
  UNAUTHENTICATED before the handshake; `dur`: `unauthenticated_kill_duration` -/
  | loop (now : Int) (rejected : Bool) (dur : Int) (w : Wr)
  deriving DecidableEq, Repr

variable (hash : Nat → Nat)

/-- `write_kill_file` (api.rs:537-552). -/
def Api.writeKill (a : Api) (now dur : Int) (w : Wr) : Api :=
  { a with
    killed := true
    file := match w with
      | .ok => some (some ⟨hash a.key, now + dur⟩)
      | .fail => a.file
      | .torn => some none }

/-- `maybe_kill_client` (api.rs:480-524) in a fresh process. -/
def Api.start (a : Api) (key : Nat) (now generic : Int) (rd rm : Bool) (w : Wr) : Api :=
  let a : Api := { a with key := key, killed := false }
  match (if rd then a.file.getD none else none) with
  | some k =>
    if k.till > now && hash key == k.hash then { a with killed := true }
    else if rm then { a with file := none } else a
  | none => if generic ≠ 0 then a.writeKill hash now generic w else a

/-- One event; the result says whether a connection was attempted. -/
def Api.step (a : Api) : ApiEv → Api × Bool
  | .start key now generic rd rm w => (a.start hash key now generic rd rm w, false)
  | .loop now rejected dur w =>
    if a.killed then (a, false)
    else if rejected then (a.writeKill hash now dur w, true)
    else (a, true)

def Api.run (a : Api) : List ApiEv → Api
  | [] => a
  | e :: es => (a.step hash e).1.run es

/-- How many connections are attempted in a history. -/
def Api.attempts (a : Api) : List ApiEv → Nat
  | [] => 0
  | e :: es => (if (a.step hash e).2 then 1 else 0) + (a.step hash e).1.attempts es

end Verif.Startup
