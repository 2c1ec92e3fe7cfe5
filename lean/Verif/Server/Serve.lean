/-
The accept loop of the server with graceful shutdown (bd-grpc/src/axum_helper.rs:40-109).

What hyper makes of a connection, when it is finished, and when the listener gives a socket or an error, are inputs.  The branch taken
by `tokio::select!` is any of the ready ones.  `ComponentShutdown` (bd-shutdown/src/lib.rs) is a receiver of a watch channel: `cancelled`
returns when the status is pending shutdown or the sender is gone; `ComponentShutdownTrigger::shutdown` returns when all receivers are
dropped.
-/
namespace Verif.Server

/-- The task of a connection (axum_helper.rs:74-102). -/
inductive Conn where
  /-- in the loop; `told` is whether `graceful_shutdown` was called, `start_shutdown` being spent -/
  | serving (told : Nat)
  /-- past the loop, the gauge is decreased (axum_helper.rs:101), its receiver not yet dropped -/
  | closed (told : Nat)
  /-- the task has ended -/
  | ended (told : Nat)
  deriving DecidableEq, Repr

/-- Where `serve_with_connect_info_ex` is. -/
inductive SPhase where
  | accepting
  /-- the listener is dropped, waiting for the connections (axum_helper.rs:105-106) -/
  | draining
  | returned
  /-- returned with the error of the listener (axum_helper.rs:56-59) -/
  | failed
  deriving DecidableEq, Repr

structure Srv where
  phase : SPhase
  conns : List Conn
  total : Nat
  active : Int
  deriving DecidableEq, Repr

/-- The start of the loop (axum_helper.rs:48-52). -/
def Srv.init : Srv := ⟨.accepting, [], 0, 0⟩

inductive SrvEv where
  | accept
  | acceptError
  | shutdown
  /-- the connection finishes, by itself or because it was told to and its work is done -/
  | finish (i : Nat)
  /-- the task of the connection sees the signal (axum_helper.rs:95-97) -/
  | see (i : Nat)
  /-- the task of the connection ends and drops its receiver -/
  | endTask (i : Nat)
  /-- the wait for the connections is over -/
  | drained
  deriving DecidableEq, Repr

/-- Do the tasks see the signal?  The status is pending shutdown, or the trigger was dropped by the error return. -/
def Srv.signalled (s : Srv) : Bool := s.phase != .accepting

def Conn.isEnded : Conn → Bool
  | .ended _ => true
  | _ => false

/-- One step (axum_helper.rs:53-108). -/
def Srv.step (s : Srv) : SrvEv → Srv
  | .accept => if s.phase = .accepting
    then { s with conns := s.conns ++ [.serving 0], total := s.total + 1, active := s.active + 1 } else s
  | .acceptError => if s.phase = .accepting then { s with phase := .failed } else s
  | .shutdown => if s.phase = .accepting then { s with phase := .draining } else s
  | .finish i => match s.conns[i]? with
    | some (.serving n) => { s with conns := s.conns.set i (.closed n), active := s.active - 1 }
    | _ => s
  | .see i => match s.conns[i]? with
    | some (.serving 0) => if s.signalled then { s with conns := s.conns.set i (.serving 1) } else s
    | _ => s
  | .endTask i => match s.conns[i]? with
    | some (.closed n) => { s with conns := s.conns.set i (.ended n) }
    | _ => s
  | .drained => if s.phase = .draining && s.conns.all Conn.isEnded then { s with phase := .returned } else s

def Srv.run : Srv → List SrvEv → Srv
  | s, [] => s
  | s, e :: es => Srv.run (s.step e) es

end Verif.Server
