/-
What a message counts for in the bounded queues (bd-logger/src/size.rs; bd-logger/src/async_log_buffer.rs:52-136).

A string or a vector of bytes is its length and its capacity.  The sizes of the types on the stack (`size_of`) are the parameters
`Layout`; the channel ends (`oneshot::Sender`, `bd_completion::Sender`) count with their stack size only, what they share with the other
end is not counted on either side.
-/
namespace Verif.Size

/-- `size_of` of the types. -/
structure Layout where
  value : Nat
  field : Nat
  annotated : Nat
  kind : Nat
  /-- `size_of::<(String, StringOrBytes<String, Vec<u8>>)>()` -/
  tuple : Nat
  /-- a `Vec` of fields -/
  vec : Nat
  level : Nat
  logType : Nat
  overrides : Nat
  flushSender : Nat
  /-- `AsyncLogBufferMessage` -/
  message : Nat
  /-- `Log` -/
  log : Nat
  deriving DecidableEq, Repr

/-- A `String` or a `Vec<u8>`. -/
structure Buf where
  len : Nat
  cap : Nat
  deriving DecidableEq, Repr

/-- `StringOrBytes<String, Vec<u8>>` (bd-log-primitives/src/lib.rs:17-20): `LogMessage`, `LogFieldValue`. -/
inductive Value where
  | string (s : Buf)
  | bytes (b : Buf)
  deriving DecidableEq, Repr

/-- `LogField` (bd-log-primitives/src/lib.rs:122-125). -/
structure Field where
  key : Buf
  value : Value
  deriving DecidableEq, Repr

/-- A `Vec` of (annotated) fields; the annotation has no heap part. -/
structure Fields where
  items : List Field
  cap : Nat
  deriving DecidableEq, Repr

/-- `LogLine` (async_log_buffer.rs:76-95). -/
structure Line where
  message : Value
  fields : Fields
  matching : Fields
  /-- `expected_previous_process_session_id` of the overrides -/
  previousSession : Option Buf
  deriving DecidableEq, Repr

/-- `AsyncLogBufferMessage` (async_log_buffer.rs:44-50). -/
inductive Message where
  | emitLog (l : Line)
  | addLogField (f : Field)
  | removeLogField (name : Buf)
  | flushState
  deriving DecidableEq, Repr

/-- `Log` (bd-log-primitives/src/lib.rs:152-167). -/
structure Log where
  message : Value
  fields : Fields
  matching : Fields
  session : Buf
  deriving DecidableEq, Repr

/-- size.rs:52-60. -/
def Value.size (L : Layout) (v : Value) : Nat :=
  L.value + match v with
    | .string s => s.len
    | .bytes b => b.cap

/-- size.rs:24-28. -/
def Field.size (L : Layout) (f : Field) : Nat := L.field + f.key.len + f.value.size L

/-- size.rs:30-34. -/
def Field.annotatedSize (L : Layout) (f : Field) : Nat := L.annotated + f.size L + L.kind

/-- `LogFields` (size.rs:36-42). -/
def Fields.size (L : Layout) (fs : Fields) : Nat :=
  L.vec + (fs.items.map (Field.size L)).sum + (fs.cap - fs.items.length) * L.tuple

/-- `AnnotatedLogFields` (size.rs:44-50): the reserved slots are counted with the size of the tuple, not of `AnnotatedLogField`. -/
def Fields.annotatedSize (L : Layout) (fs : Fields) : Nat :=
  L.vec + (fs.items.map (Field.annotatedSize L)).sum + (fs.cap - fs.items.length) * L.tuple

/-- async_log_buffer.rs:105-124. -/
def Line.size (L : Layout) (l : Line) : Nat :=
  L.level + L.logType + l.message.size L + l.fields.annotatedSize L + l.matching.annotatedSize L + L.overrides + 48 + 24

/-- async_log_buffer.rs:52-62. -/
def Message.size (L : Layout) (m : Message) : Nat :=
  L.message + match m with
    | .emitLog l => l.size L
    | .addLogField f => f.size L
    | .removeLogField n => n.len
    | .flushState => L.flushSender

/-- async_log_buffer.rs:126-136. -/
def Log.size (L : Layout) (l : Log) : Nat :=
  L.log + l.message.size L + l.fields.size L + l.matching.size L + l.session.len

end Verif.Size
