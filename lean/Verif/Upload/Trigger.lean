/-
Model of the triggered uploads of bd-logger/src/consumer.rs: `BufferUploadManager`.
-/
namespace Verif.Upload

abbrev BufId := Nat

/-- The part of `BufferUploadManager` (consumer.rs:50-91) concerned with triggered uploads, and the tasks it
spawned. `running` are the upload tasks (by request number and buffer) between being spawned (190) and the end
of `run` (193); `notifying` are the buffers whose task has ended but whose completion message (211-214) has not
been processed.  A removal of a buffer with a running upload waits for it (282-285); the model lets it proceed,
which only adds executions. -/
structure TM where
  known : List BufId
  active : List BufId
  running : List (Nat × BufId)
  notifying : List BufId
  /-- requests received so far -/
  requests : Nat
  /-- requests not answered yet -/
  open_ : List Nat
  dead : Bool
  deriving DecidableEq, Repr

def TM.init : TM := ⟨[], [], [], [], 0, [], false⟩

inductive TEv where
  /-- `TriggerBufferCreated` (273-277) -/
  | created (b : BufId)
  /-- `BufferRemoved` (279-289) -/
  | removed (b : BufId)
  /-- a `TriggerUpload` (153-252); `bad` are the buffers for which registering a consumer fails -/
  | trigger (ids : List BufId) (bad : List BufId)
  /-- the upload task of request `r` for buffer `b` ends (193-206) -/
  | finish (r : Nat) (b : BufId)
  /-- the manager processes a completion message (137-139) -/
  | notify (b : BufId)
  /-- the waiting task of request `r` answers it (238-249) -/
  | respond (r : Nat)
  deriving DecidableEq, Repr

/-- The loop of `handle_trigger_uploads` (163-236); an error ends the manager (`?`, 178). -/
def TM.startAll (r : Nat) (bad : List BufId) : List BufId → TM → TM
  | [], s => s
  | b :: bs, s =>
    if b ∈ s.active then TM.startAll r bad bs s
    else if b ∈ s.known then
      if b ∈ bad then { s with dead := true }
      else TM.startAll r bad bs { s with active := s.active ++ [b], running := s.running ++ [(r, b)] }
    else TM.startAll r bad bs s

def TM.step (s : TM) (e : TEv) : TM :=
  if s.dead then
    match e with
    | .finish r b => { s with running := s.running.erase (r, b), notifying := if (r, b) ∈ s.running then s.notifying ++ [b] else s.notifying }
    | _ => s
  else
  match e with
  | .created b => { s with known := if b ∈ s.known then s.known else s.known ++ [b] }
  | .removed b => { s with known := s.known.filter (· ≠ b) }
  | .trigger ids bad =>
    let s' := TM.startAll s.requests bad ids s
    { s' with requests := s.requests + 1, open_ := if s'.dead then s.open_ else s.open_ ++ [s.requests] }
  | .finish r b => { s with running := s.running.erase (r, b), notifying := if (r, b) ∈ s.running then s.notifying ++ [b] else s.notifying }
  | .notify b => if b ∈ s.notifying then { s with notifying := s.notifying.erase b, active := s.active.erase b } else s
  | .respond r => if s.running.any (fun x => x.1 == r) then s else { s with open_ := s.open_.filter (· ≠ r) }

def TM.run (s : TM) (es : List TEv) : TM := es.foldl TM.step s

end Verif.Upload
