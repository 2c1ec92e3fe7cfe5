/-
Model of the log upload service: retries (bd-logger/src/service.rs) and the rate limiter
(bd-logger/src/ratelimit.rs).

The retry loop is tower's: call the service; ask the policy; on `Some` wait and call again with the
cloned request; on `None` return the result.  The environment supplies, per attempt, the value of
`max_retries` read by the policy and the outcome of the attempt.  Backoff delays are not modelled.
-/
namespace Verif.Upload

/-- `UploadResult` (service.rs:102-112). -/
inductive Res where
  | success
  | failure
  | canceled
  deriving DecidableEq, Repr

/-- `UploadRequest` (service.rs:69-73). -/
structure Req where
  uuid : String
  logs : List (List UInt8)
  deriving DecidableEq, Repr

/-- What one request led to: the attempts made (request sent and outcome), the final result if the
loop has ended, and the two counters `retry_limit_exceeded` and `retry_limit_exceeded_dropped_logs`. -/
structure RetryOut where
  made : List (Req × Res)
  final : Option Res
  limitExceeded : Nat
  droppedLogs : Nat
  deriving DecidableEq, Repr

/-- `RetryPolicy::retry` (service.rs:232-267): new number of attempts and whether to retry, and whether
the limit counters are incremented. -/
def retryPolicy (attempts mx : Nat) (r : Res) : Nat × Bool × Bool :=
  if ¬ attempts < mx then (attempts, false, true)
  else (attempts + 1, r = .failure, false)

/-- `clone_request` (service.rs:269-271). -/
def cloneRequest (r : Req) : Req := r

/-- The loop for one request. -/
def retryLoop (req : Req) (attempts : Nat) : List (Nat × Res) → RetryOut
  | [] => ⟨[], none, 0, 0⟩
  | (mx, r) :: env =>
    let (attempts', again, exceeded) := retryPolicy attempts mx r
    if again then
      let out := retryLoop (cloneRequest req) attempts' env
      { out with made := (req, r) :: out.made }
    else ⟨[(req, r)], some r, if exceeded then 1 else 0, if exceeded then req.logs.length else 0⟩

/-- One upload with a fresh policy (`attempts: 0`, service.rs:57). -/
def upload (req : Req) (env : List (Nat × Res)) : RetryOut := retryLoop req 0 env

/-! ### Rate limiter -/

/-- `SharedState` (ratelimit.rs:62-69): `rem = none` is `State::Limited`. -/
structure Limiter where
  rem : Option Nat
  sleepUntil : Nat
  deriving DecidableEq, Repr

/-- A request to the limiter: when, how big, and the rate read at that moment. -/
structure Ask where
  now : Nat
  size : Nat
  num : Nat
  per : Nat
  deriving DecidableEq, Repr

/-- Whether a request refills the quota first (ratelimit.rs:151-154). -/
def Limiter.refills (l : Limiter) (a : Ask) : Bool := decide (l.sleepUntil < a.now)

/-- `try_acquire_ratelimit_permit` (ratelimit.rs:143-175). -/
def Limiter.acquire (l : Limiter) (a : Ask) : Limiter × Bool :=
  let l := if l.refills a then ⟨some a.num, a.now + a.per⟩ else l
  match l.rem with
  | none => (l, false)
  | some rem =>
    if rem > a.size then ({ l with rem := some (rem - a.size) }, true)
    else ({ l with rem := none }, true)

/-- `RateLimitLayer::new` (ratelimit.rs:195-211). -/
def Limiter.new (now num : Nat) : Limiter := ⟨some num, now⟩

/-- What happened to one request. -/
structure Verdict where
  ask : Ask
  refilled : Bool
  admitted : Bool
  deriving DecidableEq, Repr

def Limiter.run (l : Limiter) : List Ask → List Verdict
  | [] => []
  | a :: as => ⟨a, l.refills a, (l.acquire a).2⟩ :: (l.acquire a).1.run as

end Verif.Upload
