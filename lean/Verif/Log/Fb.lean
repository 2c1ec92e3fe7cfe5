/-
Encoding a log for the ring buffers and reading it back (bd-client-common/src/fb.rs; the generated code
bd-proto/src/flatbuffers/buffer_log_generated.rs; the check of the age in bd-logger/src/consumer.rs:655-673).

The crate flatbuffers (not part of the repository) is modelled by what it stores: a buffer is a list of objects (strings, byte vectors,
vectors of offsets, tables) that refer to earlier objects by their position; a table is a list of slots.  Its rules are kept: nothing can be
created while a table is open or after `finish`, a scalar equal to its default is not stored, a missing required slot panics, and reading a
slot with another type than it was written with is an error.  Byte layout, alignment and sharing of vtables are not modelled.
`none` is a panic when writing and the error of the verifier when reading.
-/
namespace Verif.Fb

abbrev Str := List Nat

inductive Width where
  | u8 | u32 | i32 | i64
  deriving DecidableEq, Repr

inductive Slot where
  | scalar (w : Width) (z : Int)
  | offset (o : Nat)
  deriving DecidableEq, Repr

inductive Obj where
  | str (s : Str)
  | bytes (b : Str)
  | vec (os : List Nat)
  | table (slots : List (Nat × Slot))
  deriving DecidableEq, Repr

/-- `FlatBufferBuilder`: the objects, the table under construction, the root once finished. -/
structure Builder where
  heap : List Obj
  opened : Option (List (Nat × Slot))
  root : Option Nat
  deriving DecidableEq, Repr

/-- A fresh builder, also what `reset` gives. -/
def Builder.empty : Builder := ⟨[], none, none⟩

/-- Creates an object that is not a table: asserts that no table is open and the buffer is not finished. -/
def Builder.create (b : Builder) (o : Obj) : Option (Nat × Builder) :=
  match b.opened, b.root with
  | none, none => some (b.heap.length, { b with heap := b.heap ++ [o] })
  | _, _ => none

def Builder.startTable (b : Builder) : Option Builder :=
  match b.opened, b.root with
  | none, none => some { b with opened := some [] }
  | _, _ => none

/-- `push_slot_always`. -/
def Builder.slot (b : Builder) (vt : Nat) (s : Slot) : Option Builder :=
  match b.opened with
  | some l => some { b with opened := some (l ++ [(vt, s)]) }
  | none => none

/-- `push_slot`: a value equal to the default is not stored. -/
def Builder.slotUnless (b : Builder) (vt : Nat) (w : Width) (z d : Int) : Option Builder :=
  match b.opened with
  | some l => some (if z = d then b else { b with opened := some (l ++ [(vt, .scalar w z)]) })
  | none => none

/-- An optional argument of a table: `if let Some(x) = args.… { builder.add_…(x) }`. -/
def Builder.slotOpt (b : Builder) (vt : Nat) : Option Nat → Option Builder
  | some o => b.slot vt (.offset o)
  | none => some b

def slotAt (l : List (Nat × Slot)) (vt : Nat) : Option Slot := (l.find? fun p => p.1 == vt).map (·.2)

/-- `end_table` and the `required` assertions of the generated `finish`. -/
def Builder.endTable (b : Builder) (required : List Nat) : Option (Nat × Builder) :=
  match b.opened with
  | some l => if required.all fun vt => (slotAt l vt).isSome
    then some (b.heap.length, { b with heap := b.heap ++ [.table l], opened := none }) else none
  | none => none

/-- A finished buffer. -/
structure Buf where
  heap : List Obj
  root : Nat
  deriving DecidableEq, Repr

/-- `finish_minimal` and `finished_data`. -/
def Builder.finish (b : Builder) (o : Nat) : Option Builder :=
  match b.opened, b.root with
  | none, none => some { b with root := some o }
  | _, _ => none

def Builder.data (b : Builder) : Option Buf := b.root.map fun r => ⟨b.heap, r⟩

/-! ### The log -/

inductive Val where
  | string (s : Str)
  | bytes (b : Str)
  deriving DecidableEq, Repr

/-- The arguments of `make_log` (fb.rs:52-63).  The time is in nanoseconds since the epoch. -/
structure LogIn where
  level : Nat
  logType : Nat
  message : Val
  fields : List (Str × Val)
  session : Str
  time : Int
  actionIds : List Str
  streamIds : List Str
  deriving DecidableEq, Repr

/-- `as i32`. -/
def wrap32 (z : Int) : Int := (z + 2147483648) % 4294967296 - 2147483648

/-- `string_or_bytes_union` (fb.rs:122-149), with `StringData::create` and `BinaryData::create`
(buffer_log_generated.rs:271-279, 370-379). -/
def mkUnion (b : Builder) : Val → Option (Nat × Nat × Builder)
  | .string s => do
    let (o, b) ← b.create (.str s)
    let b ← b.startTable
    let b ← b.slot 4 (.offset o)
    let (t, b) ← b.endTable [4]
    pure (t, 1, b)
  | .bytes s => do
    let (o, b) ← b.create (.bytes s)
    let b ← b.startTable
    let b ← b.slot 6 (.offset o)
    let (t, b) ← b.endTable [6]
    pure (t, 2, b)

/-- One turn of the loop over the fields (fb.rs:67-78), with `Field::create` (buffer_log_generated.rs:600-610). -/
def mkField (b : Builder) (f : Str × Val) : Option (Nat × Builder) := do
  let (k, b) ← b.create (.str f.1)
  let (v, ty, b) ← mkUnion b f.2
  let b ← b.startTable
  let b ← b.slot 8 (.offset v)
  let b ← b.slot 4 (.offset k)
  let b ← b.slotUnless 6 .u8 ty 0
  b.endTable [4, 8]

def mkFields : Builder → List (Str × Val) → Option (List Nat × Builder)
  | b, [] => some ([], b)
  | b, f :: fs => do
    let (o, b) ← mkField b f
    let (os, b) ← mkFields b fs
    pure (o :: os, b)

def mkStrings : Builder → List Str → Option (List Nat × Builder)
  | b, [] => some ([], b)
  | b, s :: ss => do
    let (o, b) ← b.create (.str s)
    let (os, b) ← mkStrings b ss
    pure (o :: os, b)

/-- `create_string_vector` (fb.rs:37-50): `none` offset for no strings. -/
def mkStringVector (b : Builder) (ss : List Str) : Option (Option Nat × Builder) := do
  let (os, b) ← mkStrings b ss
  match os with
  | [] => pure (none, b)
  | os => do
    let (o, b) ← b.create (.vec os)
    pure (some o, b)

/-- `FbTimestamp::create` (fb.rs:85-96; buffer_log_generated.rs:485-494). -/
def mkTimestamp (b : Builder) (t : Int) : Option (Nat × Builder) := do
  let secs := t / 1000000000
  let nanos := wrap32 (t - secs * 1000000000)
  let b ← b.startTable
  let b ← b.slotUnless 4 .i64 secs 0
  let b ← b.slotUnless 6 .i32 nanos 0
  b.endTable []

/-- `Log::create` (buffer_log_generated.rs:792-807). -/
def mkLogTable (b : Builder) (level logType msg msgType fields session ts : Nat) (ids streams : Option Nat) : Option (Nat × Builder) := do
  let b ← b.startTable
  let b ← b.slotOpt 20 streams
  let b ← b.slotUnless 18 .u32 logType 0
  let b ← b.slotOpt 16 ids
  let b ← b.slot 14 (.offset ts)
  let b ← b.slot 12 (.offset session)
  let b ← b.slot 10 (.offset fields)
  let b ← b.slot 8 (.offset msg)
  let b ← b.slotUnless 4 .u32 level 0
  let b ← b.slotUnless 6 .u8 msgType 0
  b.endTable [8]

/-- The part of `make_log` before the output (fb.rs:64-114). -/
def build (b : Builder) (l : LogIn) : Option Builder := do
  let (msg, msgType, b) ← mkUnion b l.message
  let (fs, b) ← mkFields b l.fields
  let (streams, b) ← mkStringVector b l.streamIds
  let (fields, b) ← b.create (.vec fs)
  let (session, b) ← b.create (.str l.session)
  let (ts, b) ← mkTimestamp b l.time
  let (ids, b) ← mkStringVector b l.actionIds
  let (log, b) ← mkLogTable b l.level l.logType msg msgType fields session ts ids streams
  b.finish log

/-- `make_log` (fb.rs:52-118).  `output` is the closure: it is given the buffer and says whether it fails.  The result is what was given
to the output, what `make_log` returns, and the builder afterwards. -/
def makeLog (b : Builder) (l : LogIn) (output : Buf → Bool) : Option (Buf × Bool × Builder) := do
  let b ← build b l
  let d ← b.data
  pure (d, output d, Builder.empty)

/-- Several logs through the same builder, as `BufferProducers::builder` is used (log_replay.rs:381, 462; client_config.rs:322). -/
def makeLogs : Builder → List (LogIn × (Buf → Bool)) → Option (List (Buf × Bool) × Builder)
  | b, [] => some ([], b)
  | b, (l, out) :: ls => do
    let (d, r, b) ← makeLog b l out
    let (ds, b) ← makeLogs b ls
    pure ((d, r) :: ds, b)

/-! ### Reading -/

def tableAt (h : List Obj) (o : Nat) : Option (List (Nat × Slot)) :=
  match h[o]? with
  | some (.table l) => some l
  | _ => none

def strAt (h : List Obj) (o : Nat) : Option Str :=
  match h[o]? with
  | some (.str s) => some s
  | _ => none

def bytesAt (h : List Obj) (o : Nat) : Option Str :=
  match h[o]? with
  | some (.bytes s) => some s
  | _ => none

def vecAt (h : List Obj) (o : Nat) : Option (List Nat) :=
  match h[o]? with
  | some (.vec s) => some s
  | _ => none

/-- A scalar field with its default. -/
def getScalar (t : List (Nat × Slot)) (vt : Nat) (w : Width) (d : Int) : Option Int :=
  match slotAt t vt with
  | none => some d
  | some (.scalar w' z) => if w' = w then some z else none
  | some (.offset _) => none

/-- An offset field that may be missing. -/
def getOffset (t : List (Nat × Slot)) (vt : Nat) : Option (Option Nat) :=
  match slotAt t vt with
  | none => some none
  | some (.offset o) => some (some o)
  | some (.scalar _ _) => none

/-- A required offset field. -/
def getRequired (t : List (Nat × Slot)) (vt : Nat) : Option Nat :=
  match slotAt t vt with
  | some (.offset o) => some o
  | _ => none

/-- A missing field is skipped, a present one must verify. -/
def optionally {α : Type} (o : Option Nat) (f : Nat → Option α) : Option (Option α) :=
  match o with
  | none => some none
  | some o => (f o).map some

inductive UVal where
  | string (s : Str)
  | bytes (b : Str)
  | other (tag : Int)
  deriving DecidableEq, Repr

/-- `message_as_string_data`, `message_as_binary_data` and those of a field with the verification of the union
(buffer_log_generated.rs:283-288, 390-395, 636-661, 875-900, 911-917). -/
def readUnion (h : List Obj) (tag : Int) (o : Nat) : Option UVal :=
  if tag = 1 then do
    let t ← tableAt h o
    let s ← strAt h (← getRequired t 4)
    pure (.string s)
  else if tag = 2 then do
    let t ← tableAt h o
    let s ← bytesAt h (← getRequired t 6)
    pure (.bytes s)
  else some (.other tag)

/-- A field (buffer_log_generated.rs:612-634, 665-684). -/
def readField (h : List Obj) (o : Nat) : Option (Str × UVal) := do
  let t ← tableAt h o
  let k ← strAt h (← getRequired t 4)
  let tag ← getScalar t 6 .u8 0
  let v ← readUnion h tag (← getRequired t 8)
  pure (k, v)

def readAll {α : Type} (f : Nat → Option α) : List Nat → Option (List α)
  | [] => some []
  | o :: os => do
    let x ← f o
    let xs ← readAll f os
    pure (x :: xs)

def readStrings (h : List Obj) (o : Nat) : Option (List Str) := do
  let os ← vecAt h o
  readAll (strAt h) os

def readTimestamp (h : List Obj) (o : Nat) : Option (Int × Int) := do
  let t ← tableAt h o
  let s ← getScalar t 4 .i64 0
  let n ← getScalar t 6 .i32 0
  pure (s, n)

/-- What the accessors of a verified `Log` give (buffer_log_generated.rs:810-872). -/
structure View where
  level : Int
  logType : Int
  message : UVal
  fields : Option (List (Str × UVal))
  session : Option Str
  timestamp : Option (Int × Int)
  actionIds : Option (List Str)
  streamIds : Option (List Str)
  deriving DecidableEq, Repr

def UVal.tables : UVal → Nat
  | .other _ => 0
  | _ => 1

/-- The tables the verifier visits. -/
def View.tables (v : View) : Nat :=
  1 + v.message.tables + (match v.fields with | some fs => (fs.map fun f => 1 + f.2.tables).sum | none => 0) +
    (match v.timestamp with | some _ => 1 | none => 0)

/-- `root_as_log` (fb.rs:27-29; buffer_log_generated.rs:903-927): the verifier, with at most `limit` tables (one million by default in
the crate), then the accessors. -/
def rootAsLog (limit : Nat) (d : Buf) : Option View := do
  let t ← tableAt d.heap d.root
  let level ← getScalar t 4 .u32 0
  let tag ← getScalar t 6 .u8 0
  let message ← readUnion d.heap tag (← getRequired t 8)
  let fields ← optionally (← getOffset t 10) fun o => do readAll (readField d.heap) (← vecAt d.heap o)
  let session ← optionally (← getOffset t 12) (strAt d.heap)
  let timestamp ← optionally (← getOffset t 14) (readTimestamp d.heap)
  let ids ← optionally (← getOffset t 16) (readStrings d.heap)
  let logType ← getScalar t 18 .u32 0
  let streams ← optionally (← getOffset t 20) (readStrings d.heap)
  let v : View := ⟨level, logType, message, fields, session, timestamp, ids, streams⟩
  if v.tables ≤ limit then some v else none

/-! ### The age of a log -/

/-- What becomes of an entry of a triggered upload. -/
inductive Age where
  | keep
  | drop
  /-- the task panics -/
  | panic
  deriving DecidableEq, Repr

/-- consumer.rs:655-673.  `lo` and `hi` are the first and last second an `OffsetDateTime` can have.  `none` are bytes that are not a
log. -/
def lookback (lo hi : Int) (window : Option Int) (limit : Nat) (d : Option Buf) : Age :=
  match window with
  | none => .keep
  | some w =>
    match d.bind (rootAsLog limit) with
    | none => .keep
    | some v =>
      match v.timestamp with
      | none => .keep
      | some (s, n) =>
        if lo ≤ s ∧ s ≤ hi then
          let t := s * 1000000000 + n
          if lo ≤ t / 1000000000 ∧ t / 1000000000 ≤ hi then (if t < w then .drop else .keep) else .panic
        else .panic

end Verif.Fb
