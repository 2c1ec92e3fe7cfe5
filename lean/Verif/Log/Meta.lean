/-
Model of bd-logger/src/metadata.rs and of the part of `AsyncLogBuffer::process_log`
(bd-logger/src/async_log_buffer.rs:354-463) that builds the log.

Field values, messages and sessions are opaque naturals.  Keys are character lists.  The metadata provider is an input:
its fields and timestamp, or a failure.
-/
namespace Verif.Meta

abbrev Key := List Char

structure Field where
  key : Key
  val : Nat
  deriving DecidableEq, Repr

/-- `LogFieldKind`. -/
inductive Kind where
  | ootb
  | custom
  deriving DecidableEq, Repr

structure AField where
  field : Field
  kind : Kind
  deriving DecidableEq, Repr

/-- `RESERVED_FIELD_NAMES` (metadata.rs:21-35). -/
def reserved : List Key :=
  ["app_id".toList, "app_version".toList, "carrier".toList, "foreground".toList, "log_level".toList,
   "log_type".toList, "model".toList, "network_type".toList, "os".toList, "os_version".toList, "radio_type".toList]

/-- `verify_custom_field_name` (173-191). -/
def customOk (k : Key) : Bool := !reserved.contains k && !(k.head? == some '_')

/-- `partition_fields` (154-171): platform fields, accepted custom fields. -/
def partition : List AField → List Field × List Field
  | [] => ([], [])
  | f :: fs =>
    let r := partition fs
    match f.kind with
    | .ootb => (f.field :: r.1, r.2)
    | .custom => if customOk f.field.key then (r.1, f.field :: r.2) else r

/-- `unique_by(|f| f.key.clone())`: the first field of each key. -/
def uniqueBy : List Key → List Field → List Field
  | _, [] => []
  | seen, f :: fs => if f.key ∈ seen then uniqueBy seen fs else f :: uniqueBy (f.key :: seen) fs

/-- `LogType`, as far as it matters here. -/
inductive LogType where
  | normal
  | replay
  | resource
  | internalSDK
  deriving DecidableEq, Repr

/-- Provider fields are matching fields for these types (82-89). -/
def LogType.providerMatchingOnly : LogType → Bool
  | .normal => false
  | _ => true

structure Metadata where
  timestamp : Nat
  fields : List Field
  matching : List Field
  deriving DecidableEq, Repr

/-- `normalized_metadata_with_extra_fields` (71-129). -/
def normalized (globals : List Field) (ts : Option Nat) (provider : Option (List AField))
    (fields matching : List AField) (ty : LogType) : Option Metadata :=
  match ts, provider with
  | some t, some pf =>
    let (pfields, pmatching) := if ty.providerMatchingOnly then ([], pf) else (pf, [])
    let p := partition pfields
    let l := partition fields
    let pm := partition pmatching
    let m := partition matching
    some ⟨t, uniqueBy [] (p.1 ++ l.1 ++ l.2 ++ globals ++ p.2), uniqueBy [] (pm.1 ++ m.1 ++ m.2 ++ pm.2)⟩
  | _, _ => none

/-- Remove the first field with the key (134-136, 143-147). -/
def removeKey (k : Key) : List Field → List Field
  | [] => []
  | f :: fs => if f.key = k then fs else f :: removeKey k fs

/-- `add_field` (131-141): the new global fields, unchanged if the name is refused. -/
def addField (g : List Field) (f : Field) : List Field :=
  if customOk f.key then removeKey f.key g ++ [f] else g

inductive GOp where
  | add (f : Field)
  | remove (k : Key)
  deriving DecidableEq, Repr

def gstep (g : List Field) : GOp → List Field
  | .add f => addField g f
  | .remove k => removeKey k g

def grun (ops : List GOp) : List Field := ops.foldl gstep []

/-- `LogAttributesOverridesPreviousRunSessionID`. -/
structure Override where
  session : Nat
  occurredAt : Nat
  deriving DecidableEq, Repr

/-- The log handed to the pipeline. -/
structure Log where
  session : Nat
  occurredAt : Nat
  fields : List Field
  matching : List Field
  deriving DecidableEq, Repr

inductive Outcome where
  /-- the log is written -/
  | written (l : Log)
  /-- the log is dropped, an internal log about it is written (390-424) -/
  | mismatch (internal : Log)
  /-- the provider failed (455-460) -/
  | failed
  deriving DecidableEq, Repr

def loggedAt : Key := "_logged_at".toList

/-- `process_log` (354-463).  `tsVal` turns a timestamp into a field value, `sess` the current session and `prev`
that of the previous process; `sessVal` turns a session into a field value. -/
def processLog (tsVal sessVal : Nat → Nat) (sess : Nat) (prev : Option Nat) (md : Option Metadata)
    (ov : Option Override) : Outcome :=
  match md with
  | none => .failed
  | some m =>
    match ov with
    | none => .written ⟨sess, m.timestamp, m.fields, m.matching⟩
    | some o =>
      if some o.session = prev then
        .written ⟨o.session, o.occurredAt, m.fields ++ [⟨loggedAt, tsVal m.timestamp⟩], m.matching⟩
      else
        .mismatch ⟨sess, m.timestamp, m.fields ++ [⟨"_original_session_id".toList, sessVal sess⟩,
          ⟨"_override_session_id".toList, sessVal o.session⟩], m.matching⟩

end Verif.Meta
