import Verif.Workflow.Run

/-
Model of the flush buffers actions: bd-workflows/src/actions_flush_buffers.rs, `Resolver` and the two kinds of actions.
The negotiator task is modelled in Verif.Workflow.Negotiate.

Sets are lists; `addNew` keeps them free of repetitions.
-/
namespace Verif.Wf

/-- `PendingFlushBuffersAction` (734-742). -/
structure Pending where
  id : String
  session : String
  triggers : List String
  streaming : Option StreamCfg
  deriving DecidableEq, Repr

/-- `StreamingBuffersAction` (848-858). -/
structure Stream where
  id : String
  session : String
  sources : List String
  dests : List String
  max : Option Nat
  count : Nat := 0
  deriving DecidableEq, Repr

/-- Inserting the elements of a list into a set. -/
def addNew {α : Type} [DecidableEq α] (s : List α) : List α → List α
  | [] => s
  | a :: l => addNew (if a ∈ s then s else s ++ [a]) l

/-- The streaming part of `PendingFlushBuffersAction::new` (771-805). -/
def streamingFor (s : StreamCfg) (conts : List String) : Option StreamCfg :=
  if conts.isEmpty then none
  else
    if (if s.dests.isEmpty then conts.head?.toList else conts.filter (· ∈ s.dests)).isEmpty then none
    else some ⟨if s.dests.isEmpty then conts.head?.toList else conts.filter (· ∈ s.dests), s.max⟩

/-- `PendingFlushBuffersAction::new` (764-829). -/
def Pending.new (a : FlushCfg) (session : String) (triggers conts : List String) : Option Pending :=
  if (if a.buffers.isEmpty then triggers else a.buffers.filter (· ∈ triggers)).isEmpty then none
  else some ⟨a.id, session, if a.buffers.isEmpty then triggers else a.buffers.filter (· ∈ triggers),
    a.streaming.bind (streamingFor · conts)⟩

/-- `StreamingBuffersAction::new` (878-906), `make_streaming_action` (541-553). -/
def Stream.new (p : Pending) (conts : List String) : Option Stream :=
  match p.streaming with
  | none => none
  | some s => if s.dests.any (· ∈ conts) then some ⟨p.id, p.session, p.triggers, s.dests, s.max, 0⟩ else none

/-- `meets_termination_criteria` (908-916). -/
def Stream.full (s : Stream) : Bool :=
  match s.max with
  | some m => s.count ≥ m
  | none => false

/-- `FlushBuffersActionsProcessingResult` (707-713). -/
structure FlushResult where
  new : List Pending := []
  actionIds : List String := []
  bufferIds : List String := []
  deriving DecidableEq, Repr

/-- One iteration of `process_flush_buffer_actions` (384-421). -/
def FlushResult.add (session : String) (triggers conts : List String) (pending : List Pending) (streams : List Stream)
    (r : FlushResult) (a : FlushCfg) : FlushResult :=
  match Pending.new a session triggers conts with
  | none => { r with actionIds := addNew r.actionIds [a.id] }
  | some p =>
    { actionIds := addNew r.actionIds [a.id]
      bufferIds := addNew r.bufferIds p.triggers
      new := if pending.any (·.id = p.id) || streams.any (·.id = p.id) then r.new else addNew r.new [p] }

/-- `process_flush_buffer_actions` (373-429). -/
def processFlush (actions : List FlushCfg) (session : String) (triggers conts : List String) (pending : List Pending)
    (streams : List Stream) : FlushResult :=
  actions.foldl (FlushResult.add session triggers conts pending streams) {}

/-- The termination of streaming actions (444-479). -/
def retainStreams (session : String) (l : List (Stream × Bool)) : List Stream :=
  (l.filter fun x => !((x.1.full || x.1.session ≠ session) && x.2)).map (·.1)

/-- Does this action apply to a log for these buffers (500-508)? -/
def Stream.applies (s : Stream) (dests : List String) : Bool := s.sources.any (· ∈ dests)

/-- The counters (512). -/
def countStreams (dests : List String) (l : List Stream) : List Stream :=
  l.map fun s => if s.applies dests then { s with count := s.count + 1 } else s

/-- The buffers that receive the log (485-519, 532): those of the actions that apply, and those the log was meant for
that exist and are not a source of such an action. -/
def reroute (triggers conts dests : List String) (l : List Stream) : List String :=
  addNew ((l.filter (·.applies dests)).foldl (fun r s => addNew r s.dests) [])
    (dests.filter fun d => (d ∈ triggers || d ∈ conts) && !(l.any fun s => s.applies dests && d ∈ s.sources))

/-- `process_streaming_actions` (434-539): the buffers for the log, the actions that remain, and whether anything
changed. -/
def processStreams (triggers conts : List String) (l : List (Stream × Bool)) (dests : List String) (session : String) :
    List String × List Stream × Bool :=
  (reroute triggers conts dests (retainStreams session l), countStreams dests (retainStreams session l),
    (retainStreams session l).length != l.length || (retainStreams session l).any (·.applies dests))

/-- `standardize_pending_actions` (557-580). -/
def stdPending (triggers : List String) (l : List Pending) : List Pending :=
  addNew [] (l.filterMap fun p =>
    if p.triggers.any (· ∈ triggers) then some { p with triggers := p.triggers.filter (· ∈ triggers) } else none)

/-- `standardize_streaming_buffers` (585-613). -/
def stdStreams (triggers conts : List String) (l : List Stream) : List Stream :=
  l.filterMap fun s =>
    if (s.sources.filter (· ∈ triggers)).isEmpty || (s.dests.filter (· ∈ conts)).isEmpty then none
    else some { s with sources := s.sources.filter (· ∈ triggers), dests := s.dests.filter (· ∈ conts) }

end Verif.Wf
