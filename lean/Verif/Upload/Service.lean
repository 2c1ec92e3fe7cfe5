import Verif.Upload.RetryModel

/-
The upload service as a whole (bd-logger/src/service.rs:34-66): any number of uploads of any buffers side by side, each of which first gets a
permit of the shared rate limiter (bd-logger/src/ratelimit.rs:116-138) and then makes its attempts (service.rs:114-206, 232-267), with times.

The limiter is the outer layer and the retries are the inner one, so the permit is for the upload and not for the attempt.  The runtime may poll a
future at any time after its sleep is over; sleeps end at their deadline or later.  The values of the flags are read when they are needed and are
inputs.  `per_request_size` (service.rs:88-99) is given; an upload of 4 GiB or more, which panics there, is left out.  Requests and results are in
Verif.Upload.RetryModel, what happens to an attempt in Verif.Api.
-/
namespace Verif.Upload.Service

open Verif.Upload (Limiter Ask Res retryPolicy)

inductive Phase where
  /-- in the loop of the limiter (ratelimit.rs:124-137), asleep until `wake` -/
  | waiting (wake : Nat)
  /-- an attempt has been sent; `attempts` of the policy -/
  | sending (attempts : Nat)
  /-- asleep before the next attempt (service.rs:256-262) -/
  | backoff (attempts : Nat) (wake : Nat)
  | done (r : Res)
  /-- the future was dropped -/
  | dropped
  deriving DecidableEq, Repr

structure Up where
  size : Nat
  phase : Phase
  /-- the times of its attempts -/
  sent : List Nat := []
  deriving DecidableEq, Repr

structure S where
  now : Nat
  lim : Limiter
  ups : List Up := []
  deriving DecidableEq, Repr

inductive Ev where
  | tick (d : Nat)
  /-- `call` -/
  | start (size : Nat)
  /-- the loop of the limiter goes round; the rate read -/
  | poll (i : Nat) (num per : Nat)
  /-- the attempt ends; the retry limit read and the delay of the backoff -/
  | result (i : Nat) (r : Res) (mx delay : Nat)
  /-- the sleep of the backoff ends -/
  | retry (i : Nat)
  | drop (i : Nat)
  deriving DecidableEq, Repr

/-- `call_future.await` begins, or tower's retry calls the service again: an attempt is sent (service.rs:134-176). -/
def Up.send (u : Up) (now attempts : Nat) : Up := { u with phase := .sending attempts, sent := u.sent ++ [now] }

def S.step (s : S) : Ev → S
  | .tick d => { s with now := s.now + d }
  | .start size => { s with ups := s.ups ++ [⟨size, .waiting s.now, []⟩] }
  | .poll i num per => match s.ups[i]? with
    | some u => match u.phase with
      | .waiting wake =>
        if wake ≤ s.now then
          let (lim, ok) := s.lim.acquire ⟨s.now, u.size, num, per⟩
          if ok then { s with lim := lim, ups := s.ups.set i (u.send s.now 0) }
          else { s with lim := lim, ups := s.ups.set i { u with phase := .waiting lim.sleepUntil } }
        else s
      | _ => s
    | none => s
  | .result i r mx delay => match s.ups[i]? with
    | some u => match u.phase with
      | .sending a =>
        let (a', again, _) := retryPolicy a mx r
        { s with ups := s.ups.set i { u with phase := if again then .backoff a' (s.now + delay) else .done r } }
      | _ => s
    | none => s
  | .retry i => match s.ups[i]? with
    | some u => match u.phase with
      | .backoff a wake => if wake ≤ s.now then { s with ups := s.ups.set i (u.send s.now a) } else s
      | _ => s
    | none => s
  | .drop i => match s.ups[i]? with
    | some u => { s with ups := s.ups.set i { u with phase := match u.phase with | .done r => .done r | _ => .dropped } }
    | none => s

def S.run (s : S) (es : List Ev) : S := es.foldl S.step s

/-- `service::new` at time `t` (service.rs:34-66; ratelimit.rs:195-211). -/
def S.new (t num : Nat) : S := { now := t, lim := Limiter.new t num }

end Verif.Upload.Service
