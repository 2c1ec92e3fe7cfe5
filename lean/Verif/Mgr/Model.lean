/-
Model of the buffer manager, bd-buffer/src/ring_buffer.rs:130-480 (`Manager`) and 590-770 (`RingBuffer`'s file).

A ring buffer is a handle; the contents belong to the handle.  Buffer ids are naturals, the hash map is an association
list with distinct keys (its order is arbitrary in the code; no theorem depends on it except through sets and counts).
Whether creating a buffer succeeds is an input.  Channel sends to the uploader are events; a failed send is only logged
by the code and is not modelled.
-/
namespace Verif.Mgr

abbrev Id := Nat
abbrev Handle := Nat

/-- `buffer_config::Type`. -/
inductive Ty where
  | continuous
  | trigger
  deriving DecidableEq, Repr

/-- One entry of the configuration; `ty = none` is an enum value the client does not know. -/
structure BufCfg where
  id : Id
  ty : Option Ty
  deriving DecidableEq, Repr

structure Entry where
  id : Id
  ty : Ty
  h : Handle
  deriving DecidableEq, Repr

/-- `BufferEvent`. -/
inductive Event where
  | created (id : Id) (ty : Ty) (h : Handle)
  | removed (id : Id)
  | streamAdded (h : Handle)
  | streamRemoved (h : Handle)
  deriving DecidableEq, Repr

structure Mgr where
  bufs : List Entry
  stream : Option Handle
  /-- next fresh handle -/
  next : Handle
  /-- handles marked `delete_on_drop`, with the file they delete -/
  doomed : List (Handle × Id)
  /-- files in the buffer directory -/
  files : List Id
  /-- events sent, oldest first -/
  events : List Event
  deriving DecidableEq, Repr

def Mgr.init : Mgr := ⟨[], none, 0, [], [], []⟩

def find (id : Id) (l : List Entry) : Option Entry := l.find? fun e => decide (e.id = id)
def erase (id : Id) (l : List Entry) : List Entry := l.filter fun e => decide (e.id ≠ id)
/-- `HashMap::insert`. -/
def insert (e : Entry) (l : List Entry) : List Entry := erase e.id l ++ [e]

/-- The loop of `update_from_config` (248-309). -/
structure Acc where
  current : List Entry
  updated : List Entry
  fresh : List Entry
  next : Handle
  files : List Id
  deriving DecidableEq, Repr

def addFile (id : Id) (l : List Id) : List Id := if id ∈ l then l else l ++ [id]

/-- One iteration; `none` in the second component means the function returned an error. -/
def cfgStep (ok : Id → Bool) (a : Acc) (c : BufCfg) : Acc × Bool :=
  match c.ty with
  | none => (a, false)
  | some ty =>
    match find c.id a.current with
    | some e => ({ a with current := erase c.id a.current, updated := insert e a.updated }, true)
    | none =>
      if ok c.id then
        let e : Entry := ⟨c.id, ty, a.next⟩
        ({ a with updated := insert e a.updated, fresh := a.fresh ++ [e], next := a.next + 1,
                  files := addFile c.id a.files }, true)
      else (a, false)

def cfgLoop (ok : Id → Bool) : Acc → List BufCfg → Acc × Bool
  | a, [] => (a, true)
  | a, c :: cs =>
    match cfgStep ok a c with
    | (a', true) => cfgLoop ok a' cs
    | (a', false) => (a', false)

/-- `resolve_stream_buffer_update` (406-448): new stream buffer and events. -/
def resolveStream (streaming : Bool) (s : Option Handle) (next : Handle) : Option Handle × List Event :=
  match streaming, s with
  | true, some h => (some h, [])
  | false, none => (none, [])
  | true, none => (some next, [.streamAdded next])
  | false, some h => (none, [.streamRemoved h])

/-- `update_from_config` (234-335).  Returns whether it succeeded. -/
def update (m : Mgr) (cfg : List BufCfg) (streaming : Bool) (ok : Id → Bool) : Mgr × Bool :=
  let r := cfgLoop ok ⟨m.bufs, [], [], m.next, m.files⟩ cfg
  let a := r.1
  if r.2 then
    let s := resolveStream streaming m.stream a.next
    (⟨a.updated, s.1, a.next + 1, m.doomed ++ a.current.map (fun e => (e.h, e.id)), a.files,
      m.events ++ (a.current.map fun e => Event.removed e.id) ++
        (a.fresh.map fun e => Event.created e.id e.ty e.h) ++ s.2⟩, true)
  else
    -- the files created so far stay, nothing else changes (TODO at 262-265)
    ({ m with files := a.files, next := a.next }, false)

/-- The last reference to a handle goes away: `Drop for RingBuffer` (751-763). -/
def dropHandle (m : Mgr) (h : Handle) : Mgr :=
  match m.doomed.find? fun p => decide (p.1 = h) with
  | some p => { m with files := m.files.filter fun f => decide (f ≠ p.2),
                       doomed := m.doomed.filter fun q => decide (q.1 ≠ h) }
  | none => m

inductive Op where
  | update (cfg : List BufCfg) (streaming : Bool) (ok : Id → Bool)
  | drop (h : Handle)

def step (m : Mgr) : Op → Mgr
  | .update cfg s ok => (update m cfg s ok).1
  | .drop h => dropHandle m h

def run (ops : List Op) : Mgr := ops.foldl step Mgr.init

/-- What one request does in `process_flushes` (191-230): the handles flushed, whether the requester is
answered, whether the task goes on. -/
structure FlushResult where
  flushed : List Handle
  acked : Bool
  alive : Bool
  deriving DecidableEq, Repr

/-- The loop over the buffers. -/
def flushLoop (bufs : List Entry) : List Id → List Handle × Bool
  | [] => ([], true)
  | id :: ids =>
    match find id bufs with
    | some e => let r := flushLoop bufs ids; (e.h :: r.1, r.2)
    | none => ([], false)

def flushReq (m : Mgr) (ids : List Id) : FlushResult :=
  let all := ids.isEmpty
  let r := flushLoop m.bufs (if all then m.bufs.map (·.id) else ids)
  if r.2 then ⟨r.1 ++ (if all then m.stream.toList else []), true, true⟩
  else ⟨r.1, false, false⟩

end Verif.Mgr
