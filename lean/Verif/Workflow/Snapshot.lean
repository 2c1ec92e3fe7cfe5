import Verif.Workflow.Engine

/-
The file of the workflows engine, byte by byte: `StateStore` (bd-workflows/src/engine.rs:911-1047) with the coding of crate bincode 1.3
(`serialize_into`, `deserialize_from` with their default options) and of the derived `Serialize`, `Deserialize` of the stored types.

Simplifications: `usize` has 64 bits; a time is the number of nanoseconds since 1970, possibly negative; `mem` is the number of bytes the process can allocate at once
(bincode makes room for a string before it reads it); the reader sees the whole file.
-/
namespace Verif.Wf.Snap

/-! ### Coding -/

/-- What reading ends with: a value and the bytes behind it, an error, or a request for memory that cannot be served. -/
inductive Dec (α : Type) where
  | ok (v : α) (rest : List UInt8)
  | err
  | big
  deriving DecidableEq, Repr

def Dec.bind {α β : Type} (d : Dec α) (f : α → List UInt8 → Dec β) : Dec β :=
  match d with
  | .ok v r => f v r
  | .err => .err
  | .big => .big

def Dec.map {α β : Type} (f : α → β) (d : Dec α) : Dec β := d.bind fun v r => .ok (f v) r

/-- What a type is written as, and whether writing succeeds (the bytes are those before the error); how it is read. -/
structure Codec (α : Type) where
  enc : α → List UInt8 × Bool
  dec : Nat → List UInt8 → Dec α

/-- One after the other; the second only if the first succeeds. -/
def andThen (a b : List UInt8 × Bool) : List UInt8 × Bool := if a.2 then (a.1 ++ b.1, b.2) else a

def le : Nat → Nat → List UInt8
  | 0, _ => []
  | k + 1, n => UInt8.ofNat n :: le k (n / 256)

def unle : List UInt8 → Nat
  | [] => 0
  | b :: r => b.toNat + 256 * unle r

/-- `read_exact`. -/
def takeN (k : Nat) (l : List UInt8) : Dec (List UInt8) :=
  if k ≤ l.length then .ok (l.take k) (l.drop k) else .err

/-- Integers have a fixed width. -/
def int (k : Nat) : Codec Nat where
  enc n := (le k n, true)
  dec _ l := (takeN k l).bind fun h r => .ok (unle h) r

def bool : Codec Bool where
  enc b := ([if b then 1 else 0], true)
  dec _ l := (takeN 1 l).bind fun h r => if h = [0] then .ok false r else if h = [1] then .ok true r else .err

def strBytes (s : String) : List UInt8 := s.toUTF8.data.toList

def strOf (l : List UInt8) : Option String := String.fromUTF8? ⟨l.toArray⟩

/-- The length in eight bytes, then the bytes. -/
def str : Codec String where
  enc s := (le 8 (strBytes s).length ++ strBytes s, true)
  dec mem l := (takeN 8 l).bind fun h r =>
    if mem < unle h then .big
    else (takeN (unle h) r).bind fun b r' =>
      match strOf b with
      | some s => .ok s r'
      | none => .err

def pair {α β : Type} (c : Codec α) (d : Codec β) : Codec (α × β) where
  enc v := andThen (c.enc v.1) (d.enc v.2)
  dec mem l := (c.dec mem l).bind fun x r => (d.dec mem r).bind fun y r' => .ok (x, y) r'

/-- One byte, then the value. -/
def opt {α : Type} (c : Codec α) : Codec (Option α) where
  enc
    | none => ([0], true)
    | some v => andThen ([1], true) (c.enc v)
  dec mem l := (takeN 1 l).bind fun h r =>
    if h = [0] then .ok none r else if h = [1] then (c.dec mem r).map some else .err

def encAll {α : Type} (c : Codec α) : List α → List UInt8 × Bool
  | [] => ([], true)
  | v :: l => andThen (c.enc v) (encAll c l)

def decN {α : Type} (c : Codec α) (mem : Nat) : Nat → List UInt8 → Dec (List α)
  | 0, l => .ok [] l
  | n + 1, l => (c.dec mem l).bind fun v r => (decN c mem n r).map (v :: ·)

/-- `Vec`: the number of elements in eight bytes, then the elements. -/
def seq {α : Type} (c : Codec α) : Codec (List α) where
  enc l := andThen (le 8 l.length, true) (encAll c l)
  dec mem l := (takeN 8 l).bind fun h r => decN c mem (unle h) r

/-- Another type with the same coding. -/
def Codec.as {α β : Type} (c : Codec α) (f : α → β) (g : β → α) : Codec β where
  enc v := c.enc (g v)
  dec mem l := (c.dec mem l).map f

/-- `BTreeSet::insert`. -/
def insertBy {α : Type} (cmp : α → α → Ordering) (x : α) : List α → List α
  | [] => [x]
  | y :: l =>
    match cmp x y with
    | .lt => x :: y :: l
    | .eq => y :: l
    | .gt => y :: insertBy cmp x l

/-- `BTreeMap::insert`. -/
def insertKey {α β : Type} (cmp : α → α → Ordering) (x : α × β) : List (α × β) → List (α × β)
  | [] => [x]
  | y :: l =>
    match cmp x.1 y.1 with
    | .lt => x :: y :: l
    | .eq => (y.1, x.2) :: l
    | .gt => y :: insertKey cmp x l

/-- A set is written in its order and read by inserting. -/
def set {α : Type} (cmp : α → α → Ordering) (c : Codec α) : Codec (List α) :=
  (seq c).as (fun l => l.foldl (fun s x => insertBy cmp x s) []) id

def dict {α β : Type} (cmp : α → α → Ordering) (c : Codec α) (d : Codec β) : Codec (List (α × β)) :=
  (seq (pair c d)).as (fun l => l.foldl (fun s x => insertKey cmp x s) []) id

/-- `SystemTime`: seconds and nanoseconds since 1970; times before cannot be written, times too late cannot be read. -/
def time : Codec Int where
  enc t := if t < 0 then ([], false) else (le 8 (t.toNat / 10 ^ 9) ++ le 4 (t.toNat % 10 ^ 9), true)
  dec mem l := ((pair (int 8) (int 4)).dec mem l).bind fun v r =>
    if v.1 + v.2 / 10 ^ 9 < 2 ^ 63 then .ok ((v.1 * 10 ^ 9 + v.2 : Nat) : Int) r else .err

/-! ### Orders -/

def cmpNat (a b : Nat) : Ordering := compare a b

def cmpList {α : Type} (cmp : α → α → Ordering) : List α → List α → Ordering
  | [], [] => .eq
  | [], _ :: _ => .lt
  | _ :: _, [] => .gt
  | a :: l, b :: m => (cmp a b).then (cmpList cmp l m)

def cmpOpt {α : Type} (cmp : α → α → Ordering) : Option α → Option α → Ordering
  | none, none => .eq
  | none, some _ => .lt
  | some _, none => .gt
  | some a, some b => cmp a b

/-- Strings are compared by their bytes. -/
def cmpStr (a b : String) : Ordering := cmpList (fun x y => cmpNat x.toNat y.toNat) (strBytes a) (strBytes b)

/-- The derived order of `Streaming` (actions_flush_buffers.rs:836-841). -/
def cmpStreaming (a b : StreamCfg) : Ordering := (cmpList cmpStr a.dests b.dests).then (cmpOpt cmpNat a.max b.max)

/-- The derived order of `PendingFlushBuffersAction` (actions_flush_buffers.rs:738-746). -/
def cmpPending (a b : Pending) : Ordering :=
  (cmpStr a.id b.id).then ((cmpStr a.session b.session).then
    ((cmpList cmpStr a.triggers b.triggers).then (cmpOpt cmpStreaming a.streaming b.streaming)))

/-! ### The stored types -/

/-- `Run` (workflow.rs:530-547) with the time as stored. -/
structure SRun where
  traversals : List Traversal
  matched : Nat
  first : Option Int
  deriving DecidableEq, Repr

/-- `Workflow` (workflow.rs:40-54). -/
structure SWorkflow where
  id : String
  runs : List SRun
  deriving DecidableEq, Repr

/-- `WorkflowsState` (engine.rs:1057-1064). -/
structure Snap where
  session : String
  workflows : List SWorkflow
  pending : List Pending
  streams : List Stream
  deriving DecidableEq, Repr

/-- `SankeyNodeState`, `SankeyState` (workflow.rs:490-500). -/
def node : Codec Node := (pair str bool).as (fun v => ⟨v.1, v.2⟩) (fun v => (v.value, v.counts))

def sankey : Codec Sankey := (pair (seq node) bool).as (fun v => ⟨v.1, v.2⟩) (fun v => (v.nodes, v.trimmed))

/-- `sankey_states` is `None` until the first value. -/
def sankeys : Codec Sankeys := (opt (dict cmpStr str sankey)).as (fun v => v.getD []) (fun v => if v.isEmpty then none else some v)

/-- `Traversal` (workflow.rs:789-799). -/
def traversal : Codec Traversal :=
  (pair (int 8) (pair (seq (int 4)) sankeys)).as (fun v => ⟨v.1, v.2.1, v.2.2⟩) (fun v => (v.state, v.counts, v.sankeys))

def run : Codec SRun :=
  (pair (seq traversal) (pair (int 4) (opt time))).as (fun v => ⟨v.1, v.2.1, v.2.2⟩) (fun v => (v.traversals, v.matched, v.first))

def workflow : Codec SWorkflow := (pair str (seq run)).as (fun v => ⟨v.1, v.2⟩) (fun v => (v.id, v.runs))

def streaming : Codec StreamCfg := (pair (set cmpStr str) (opt (int 8))).as (fun v => ⟨v.1, v.2⟩) (fun v => (v.dests, v.max))

def pending : Codec Pending :=
  (pair str (pair str (pair (set cmpStr str) (opt streaming)))).as (fun v => ⟨v.1, v.2.1, v.2.2.1, v.2.2.2⟩)
    (fun v => (v.id, v.session, v.triggers, v.streaming))

def stream : Codec Stream :=
  (pair str (pair str (pair (set cmpStr str) (pair (set cmpStr str) (pair (opt (int 8)) (int 8)))))).as
    (fun v => ⟨v.1, v.2.1, v.2.2.1, v.2.2.2.1, v.2.2.2.2.1, v.2.2.2.2.2⟩)
    (fun v => (v.id, v.session, v.sources, v.dests, v.max, v.count))

def snap : Codec Snap :=
  (pair str (pair (seq workflow) (pair (set cmpPending pending) (seq stream)))).as (fun v => ⟨v.1, v.2.1, v.2.2.1, v.2.2.2⟩)
    (fun v => (v.session, v.workflows, v.pending, v.streams))

/-! ### The store -/

/-- What happens to a write: the file cannot be created; writing stops with an error, or the process dies, when `n` bytes have arrived; nothing. -/
inductive Wr where
  | noFile
  | cut (n : Nat)
  | die (n : Nat)
  | fine
  deriving DecidableEq, Repr

/-- `StateStore` (engine.rs:911-918) and the file. -/
structure Store where
  file : Option (List UInt8) := none
  last : Option Nat := none
  loads : Nat := 0
  loadFails : Nat := 0
  saves : Nat := 0
  saveFails : Nat := 0
  /-- the process has ended -/
  dead : Bool := false
  deriving DecidableEq, Repr

/-- `store` (engine.rs:1029-1040): the file that is left, and whether it succeeded (`none`: the process is gone). -/
def write (file : Option (List UInt8)) (s : Snap) : Wr → Option (List UInt8) × Option Bool
  | .noFile => (file, some false)
  | .cut n => (some ((snap.enc s).1.take n), some false)
  | .die n => (some ((snap.enc s).1.take n), none)
  | .fine => (some (snap.enc s).1, some (snap.enc s).2)

/-- Whether `maybe_store` writes (engine.rs:987-998): when forced, never written, or not written for the interval. -/
def Store.due (t : Store) (force : Bool) (now interval : Nat) : Bool :=
  force || match t.last with
    | some l => decide (interval ≤ now - l)
    | none => true

/-- `maybe_store` (engine.rs:985-1027). -/
def Store.save (t : Store) (s : Snap) (force : Bool) (now interval : Nat) (w : Wr) : Store :=
  if t.due force now interval then
    match write t.file s w with
    | (f, some true) => { t with file := f, last := some now, saves := t.saves + 1 }
    | (f, some false) => { t with file := f, saveFails := t.saveFails + 1 }
    | (f, none) => { t with file := f, dead := true }
  else t

/-- `load` (engine.rs:943-972) with `load_state` (974-980) and `purge` (1042-1050).  `open`: the file can be opened and read; `remove`: it can be removed. -/
def Store.load (mem : Nat) (t : Store) (opens remove : Bool) : Store × Option Snap :=
  match t.file with
  | none => (t, none)
  | some b =>
    match (if opens then snap.dec mem b else .err) with
    | .ok s _ => ({ t with loads := t.loads + 1 }, some s)
    | .err => ({ t with loadFails := t.loadFails + 1, file := if remove then none else some b }, none)
    | .big => ({ t with dead := true }, none)

/-- A new process. -/
def Store.boot (t : Store) : Store := { file := t.file }

inductive Op where
  | save (s : Snap) (force : Bool) (now interval : Nat) (w : Wr)
  | load (opens remove : Bool)
  | boot
  deriving DecidableEq, Repr

/-- A dead process does nothing. -/
def Store.step (mem : Nat) (t : Store) : Op → Store
  | .boot => t.boot
  | .save s f n i w => if t.dead then t else t.save s f n i w
  | .load o r => if t.dead then t else (t.load mem o r).1

def Store.run (mem : Nat) (t : Store) (ops : List Op) : Store := ops.foldl (Store.step mem) t

/-! ### The engine's view -/

/-- Milliseconds of the model as nanoseconds. -/
def ofRun (r : Run) : SRun := ⟨r.traversals, r.matched, r.first.map fun n => ((n * 10 ^ 6 : Nat) : Int)⟩

def ofSaved (s : Saved) : Snap := ⟨s.session, s.workflows.map fun w => ⟨w.id, w.runs.map ofRun⟩, s.pending, s.streams⟩

end Verif.Wf.Snap
