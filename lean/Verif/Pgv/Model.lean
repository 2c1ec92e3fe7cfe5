/-
Model of message validation: bd-pgv/src/proto_validate.rs.

A message is a tree of values with the descriptors of its fields.  `FieldRules` of PGV has one optional group for messages
and a oneof with a group per type (validate.proto); here `Rules` and `TypeRule`.  Each group lists the rules that the code
looks at; `other` says whether any rule of the group is set for which the code calls `not_implemented`.

Simplifications.  Error texts are left out.  Reflection gives values of the declared type of a field.  Numbers are
unbounded.  A `google.protobuf.Duration` is the number of its nanoseconds if `try_into` accepts it.  The default of an
enum field is defined (its first value).
-/
namespace Verif.Pgv

/-- `StringRules`; `ignoreEmpty` is not looked at. -/
structure StringRules where
  minLen : Option Nat := none
  maxLen : Option Nat := none
  ignoreEmpty : Bool := false
  other : Bool := false
  deriving DecidableEq, Repr

structure IntRules where
  gt : Option Int := none
  other : Bool := false
  deriving DecidableEq, Repr

structure EnumRules where
  definedOnly : Bool := false
  other : Bool := false
  deriving DecidableEq, Repr

structure RepeatedRules where
  minItems : Option Nat := none
  other : Bool := false
  deriving DecidableEq, Repr

/-- `gt`: the bound, `some none` if it is not a valid duration. -/
structure DurationRules where
  gt : Option (Option Nat) := none
  required : Bool := false
  other : Bool := false
  deriving DecidableEq, Repr

/-- `MessageRules`; `skip` is not looked at. -/
structure MessageRules where
  required : Bool := false
  skip : Bool := false
  deriving DecidableEq, Repr

/-- The oneof `type` of `FieldRules`. -/
inductive TypeRule where
  | float | double
  | int32 (r : IntRules) | int64 (r : IntRules) | uint32 (r : IntRules) | uint64 (r : IntRules)
  | sint32 (r : IntRules) | sint64 (r : IntRules)
  | fixed32 | fixed64 | sfixed32 | sfixed64
  | bool (const : Option Bool)
  | string (r : StringRules)
  | bytes
  | enum (r : EnumRules)
  | repeated (r : RepeatedRules)
  | map | any | timestamp
  | duration (r : DurationRules)
  deriving DecidableEq, Repr

structure Rules where
  message : Option MessageRules := none
  type : Option TypeRule := none
  deriving DecidableEq, Repr

/-- `RuntimeType`. -/
inductive Ty where
  | i32 | i64 | u32 | u64 | f32 | f64 | bool | string | bytes | enum | message
  deriving DecidableEq, Repr

/-- A oneof (493-509): is `(validate.required)` set, and the positions of its fields. -/
structure Oneof where
  required : Bool
  fields : List Nat
  deriving DecidableEq, Repr

mutual
  /-- `ReflectValueRef`.  An enum value is known or not. -/
  inductive Value where
    | i32 (n : Int) | i64 (n : Int) | u32 (n : Int) | u64 (n : Int) | f32 | f64 | bool (b : Bool) | string (s : String)
    | bytes | enum (defined : Bool) | message (m : Msg)
  /-- What is in a field, by `RuntimeFieldType`: a singular field with its type and value if present, a repeated field, a
  map. -/
  inductive Content where
    | one (t : Ty) (v : Option Value)
    | many (l : List Value)
    | map (l : List (String × Value))
  /-- `optional`: in a oneof, real or synthetic. -/
  inductive Field where
    | mk (rules : Option Rules) (optional : Bool) (content : Content)
  /-- `duration`: what a `google.protobuf.Duration` amounts to; `none` for other messages. -/
  inductive Msg where
    | mk (duration : Option (Option Nat)) (oneofs : List Oneof) (fields : List Field)
end

def Field.rules : Field → Option Rules
  | .mk r _ _ => r
def Field.optional : Field → Bool
  | .mk _ o _ => o
def Field.content : Field → Content
  | .mk _ _ c => c
def Msg.duration : Msg → Option (Option Nat)
  | .mk d _ _ => d
def Msg.oneofs : Msg → List Oneof
  | .mk _ o _ => o
def Msg.fields : Msg → List Field
  | .mk _ _ f => f

/-- `get_singular_field_or_default` when the field is not set. -/
def Ty.default : Ty → Option Value
  | .i32 => some (.i32 0)
  | .i64 => some (.i64 0)
  | .u32 => some (.u32 0)
  | .u64 => some (.u64 0)
  | .f32 => some .f32
  | .f64 => some .f64
  | .bool => some (.bool false)
  | .string => some (.string "")
  | .bytes => some .bytes
  | .enum => some (.enum true)
  | .message => none

/-- `get_singular_or_default` (48-65). -/
def singularOrDefault (optional : Bool) (t : Ty) (v : Option Value) : Option Value :=
  if optional then v
  else match v with
    | some x => some x
    | none => t.default

/-- `validate_enum` (67-92). -/
def enumOk (r : EnumRules) : Option Value → Bool
  | some (.enum d) => !(r.definedOnly && !d) && !r.other
  | _ => true

/-- `validate_bool` (94-113). -/
def boolOk (const : Option Bool) : Option Value → Bool
  | some (.bool b) => match const with
    | some c => c == b
    | none => true
  | _ => true

/-- `validate_all_int_rules` (127-174). -/
def intOk (r : IntRules) (n : Int) : Bool :=
  (match r.gt with
    | some g => !(decide (n ≤ g))
    | none => true) && !r.other

/-- `validate_string` (215-269); `len` is the length in bytes. -/
def stringOk (r : StringRules) : Option Value → Bool
  | some (.string s) =>
    (match r.minLen with
      | some k => !(decide (k > s.utf8ByteSize))
      | none => true) &&
    (match r.maxLen with
      | some k => !(decide (k < s.utf8ByteSize))
      | none => true) && !r.other
  | _ => true

/-- `validate_repeated` (271-295). -/
def repeatedOk (r : RepeatedRules) (len : Nat) : Bool :=
  (match r.minItems with
    | some k => !(decide (len < k))
    | none => true) && !r.other

/-- `validate_duration` (297-330). -/
def durationOk (r : DurationRules) (d : Option Nat) : Bool :=
  !r.required && !r.other &&
    match d with
    | none => false
    | some n => match r.gt with
      | none => true
      | some none => false
      | some (some g) => !(decide (n ≤ g))

/-- Lines 349-357: groups that are never supported. -/
def unsupported : Option TypeRule → Bool
  | some .any | some .timestamp | some .fixed32 | some .fixed64 | some .sfixed32 | some .sfixed64 => true
  | _ => false

/-- A singular field that holds a message (362-394).  `none`: error; `some b`: look into the message or not. -/
def messageField (r : Rules) (v : Option Value) : Option Bool :=
  if r.message.any MessageRules.required && v.isNone then none
  else match r.type, v with
    | some (.duration dr), some (.message m) => match m.duration with
      | some d => if durationOk dr d then some false else none
      | none => some true
    | _, _ => some true

/-- The other singular fields (395-467). -/
def scalarOk (t : Ty) (type : Option TypeRule) (v : Option Value) : Bool :=
  match t, type with
  | .string, some (.string r) => stringOk r v
  | .i32, some (.int32 r) => match v with
    | some (.i32 n) => intOk r n
    | _ => true
  | .i64, some (.int64 r) => match v with
    | some (.i64 n) => intOk r n
    | _ => true
  | .u32, some (.uint32 r) => match v with
    | some (.u32 n) => intOk r n
    | _ => true
  | .u64, some (.uint64 r) => match v with
    | some (.u64 n) => intOk r n
    | _ => true
  | .f32, some .float => false
  | .f64, some .double => false
  | .bool, some (.bool c) => boolOk c v
  | .bytes, some .bytes => false
  | .enum, some (.enum r) => enumOk r v
  | _, _ => true

/-- `validate_field` (332-486). -/
def validateField (f : Field) : Option Bool :=
  match f.rules with
  | none => some true
  | some r =>
    if unsupported r.type then none
    else match f.content with
      | .one .message v => messageField r v
      | .one t v => if scalarOk t r.type (singularOrDefault f.optional t v) then some true else none
      | .many l => match r.type with
        | some (.repeated rr) => if repeatedOk rr l.length then some true else none
        | _ => some true
      | .map _ => match r.type with
        | some .map => none
        | _ => some true

/-- `has_field`. -/
def Field.isSet (f : Field) : Bool :=
  match f.content with
  | .one _ v => v.isSome
  | .many l => !l.isEmpty
  | .map l => !l.isEmpty

/-- The loop over the oneofs (493-509). -/
def oneofsOk (l : List Oneof) (fields : List Field) : Bool :=
  l.all fun o => !(o.required && !o.fields.any fun i => match fields[i]? with
    | some f => f.isSet
    | none => false)

mutual
  /-- `validate` (489-542). -/
  def Msg.validate : Msg → Bool
    | .mk _ oneofs fields => oneofsOk oneofs fields && validateFields fields
  def validateFields : List Field → Bool
    | [] => true
    | f :: l => f.validate && validateFields l
  def Field.validate : Field → Bool
    | .mk r o c => match validateField (.mk r o c) with
      | none => false
      | some false => true
      | some true => c.validate
  def Content.validate : Content → Bool
    | .one _ v => validateOpt v
    | .many l => validateList l
    | .map l => validateMap l
  def validateOpt : Option Value → Bool
    | some v => v.validate
    | none => true
  def validateList : List Value → Bool
    | [] => true
    | v :: l => v.validate && validateList l
  def validateMap : List (String × Value) → Bool
    | [] => true
    | v :: l => validatePair v && validateMap l
  def validatePair : String × Value → Bool
    | (_, v) => v.validate
  def Value.validate : Value → Bool
    | .message m => m.validate
    | _ => true
end

end Verif.Pgv
