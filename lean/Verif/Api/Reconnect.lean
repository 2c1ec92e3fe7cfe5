/-
Model of the pace of reconnecting and of the reported network quality: bd-api/src/api.rs:554-569
(`do_reconnect_backoff`), 573-764 (the outer loop of `maintain_active_stream`), 994-1006 (`backoff_policy`).

Times are natural numbers (milliseconds).  What happens on a stream is in Verif.Api.Stream; here a turn of the outer loop is
given by how long the handshake took, how it ended, how long the stream lived, and the delay drawn by the back-off.  A shutdown, a
kill and an error end the loop (no further turn).  The `backoff` crate is not part of the repository: its
`ExponentialBackoff` (defaults: factor 1.5, randomisation 0.5) is modelled from its documentation; the delay drawn is an input
that must lie in its interval (`Draw`).
-/
namespace Verif.Reconn

/-- `ExponentialBackoff`: initial interval, maximal interval, current interval. -/
structure Backoff where
  initial : Nat
  max : Nat
  cur : Nat
  deriving DecidableEq, Repr

/-- `backoff_policy` (995-1006). -/
def policy (initial max : Nat) : Backoff := ⟨initial, max, initial⟩

/-- `next_backoff` without the randomisation: the next current interval. -/
def Backoff.bump (b : Backoff) : Backoff :=
  { b with cur := if 2 * b.max ≤ 3 * b.cur then b.max else b.cur * 3 / 2 }

def Backoff.reset (b : Backoff) : Backoff := { b with cur := b.initial }

/-- The delays `next_backoff` may return. -/
def Draw (b : Backoff) (wait : Nat) : Prop := b.cur ≤ 2 * wait ∧ 2 * wait ≤ 3 * b.cur

inductive Quality where
  | unknown | online | offline
  deriving DecidableEq, Repr

/-- What can be seen, with its time. -/
inductive Tr where
  | start
  | quality (q : Quality)
  | established
  | closed
  deriving DecidableEq, Repr

structure Conn where
  now : Nat
  backoff : Backoff
  /-- `disconnected_at` -/
  disc : Option Nat
  deriving DecidableEq, Repr

inductive Res where
  /-- `HandshakeResult::StreamClosure` -/
  | refused
  /-- `HandshakeResult::Received`; the stream was closed after `life` -/
  | lived (life : Nat)
  deriving DecidableEq, Repr

/-- One turn. -/
structure Turn where
  /-- new values of the two flags, if one of them changed -/
  change : Option (Nat × Nat)
  /-- time until the result of the handshake -/
  hs : Nat
  res : Res
  /-- the delay drawn, if one is -/
  wait : Nat
  deriving DecidableEq, Repr

def gracePeriod : Nat := 15000
def minute : Nat := 60000

/-- The quality set at the start of a turn (602-608). -/
def topQuality (disc now : Nat) : Quality := if disc + gracePeriod < now then .offline else .unknown

/-- Lines 618-622. -/
def applyChange (b : Backoff) : Option (Nat × Nat) → Backoff
  | none => b
  | some c => policy c.1 c.2

/-- One turn of the outer loop (598-764). -/
def turn (s : Conn) (t : Turn) : Conn × List (Nat × Tr) :=
  let d := s.disc.getD s.now
  let b := applyChange s.backoff t.change
  let top := [(s.now, .quality (topQuality d s.now)), (s.now, .start)]
  match t.res with
  | .refused => (⟨s.now + t.hs + t.wait, b.bump, some d⟩, top)
  | .lived life =>
    let up := top ++ [(s.now + t.hs, .established), (s.now + t.hs, .quality .online), (s.now + t.hs + life, .closed)]
    if minute < life then (⟨s.now + t.hs + life, b.reset, none⟩, up)
    else (⟨s.now + t.hs + life + t.wait, b.bump, none⟩, up)

def run (s : Conn) : List Turn → List (Nat × Tr)
  | [] => []
  | t :: ts => (turn s t).2 ++ run (turn s t).1 ts

/-- Every delay used is one that may be drawn. -/
def Draws (s : Conn) : List Turn → Prop
  | [] => True
  | t :: ts => (match t.res with
      | .lived life => minute < life ∨ Draw (applyChange s.backoff t.change) t.wait
      | .refused => Draw (applyChange s.backoff t.change) t.wait) ∧ Draws (turn s t).1 ts

end Verif.Reconn
