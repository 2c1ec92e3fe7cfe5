import Verif.Match.Tree

/-
Model of bd-log-filter/src/lib.rs.
`Regex::replace_all` is a parameter.
-/
namespace Verif.Match

/-- `FieldType` on the wire: an unknown number becomes the default (`enum_value().unwrap_or_default()`,
lib.rs:265), which is `unknown`. -/
inductive WireFieldType where
  | unknown | captured | matchingOnly
  deriving DecidableEq, Repr

inductive SetValue where
  | literal (s : Str)
  | existing (key : Str)
  deriving DecidableEq, Repr

/-- `filter::Transform`; `none`s are unset messages. -/
inductive TransformCfg where
  | missing
  | capture (name : Str)
  | set (name : Str) (value : Option (Option SetValue)) (type : WireFieldType) (allowOverride : Bool)
  | remove (name : Str)
  | regex (name pattern subst : Str)
  deriving DecidableEq, Repr

structure FilterCfg where
  matcher : Option (Cfg BaseCfg)
  transforms : List TransformCfg

/-- `Transform` (lib.rs:133-138). -/
inductive Transform where
  | capture (name : Str)
  | set (name : Str) (value : SetValue) (captured : Bool) (allowOverride : Bool)
  | remove (name : Str)
  | regex (name pattern subst : Str)
  deriving DecidableEq, Repr

structure Filter where
  matcher : Tree Leaf
  transforms : List Transform

/-- External functions of the filters. -/
structure FExt extends Ext where
  /-- `pattern.replace_all(input, substitution)` -/
  replaceAll : Str → Str → Str → Str

/-- `Transform::new` (lib.rs:140-162) with the constructors it calls (187-191, 229-244, 260-281, 319-323,
343-349). -/
def Transform.new (x : Ext) : TransformCfg → Option Transform
  | .missing => none
  | .capture n => some (.capture n)
  | .set n v t o =>
    match v with
    | none => none
    | some none => none
    | some (some sv) =>
      match t with
      | .unknown => none
      | .captured => some (.set n sv true o)
      | .matchingOnly => some (.set n sv false o)
  | .remove n => some (.remove n)
  | .regex n p s => if x.regexValid p then some (.regex n p s) else none

def transformsNew (x : Ext) : List TransformCfg → Option (List Transform)
  | [] => some []
  | t :: l => match Transform.new x t with
    | none => none
    | some t => (transformsNew x l).map (t :: ·)

/-- `Filter::new` (lib.rs:110-127). -/
def Filter.new (x : Ext) (c : FilterCfg) : Option Filter :=
  match c.matcher with
  | none => none
  | some m => match compile (Leaf.new x) m with
    | none => none
    | some t => (transformsNew x c.transforms).map fun ts => ⟨t, ts⟩

/-- `FilterChain::new` (lib.rs:47-76): the usable filters and the number of failures. -/
def chainNew (x : Ext) : List FilterCfg → List Filter × Nat
  | [] => ([], 0)
  | c :: l =>
    let (fs, n) := chainNew x l
    match Filter.new x c with
    | none => (fs, n + 1)
    | some f => (f :: fs, n)

/-- `set_field` (lib.rs:391-396). -/
def setField (fields : List Field) (f : Field) : List Field :=
  fields.filter (·.key ≠ f.key) ++ [f]

def messageKey : Str := "_message".toList

/-- `FieldProvider for Log` (lib.rs:402-417). -/
def Log.fieldValue (log : Log) (key : Str) : Option Str :=
  if key = messageKey then log.message.asStr
  else if key = logLevelKey then some (digits log.level)
  else if key = logTypeKey then some (digits log.type)
  else ((log.fields ++ log.matching).find? (·.key = key)).bind (·.value.asStr)

/-- The value `SetField` writes (lib.rs:292-303). -/
def SetValue.get (log : Log) : SetValue → Option Str
  | .literal s => some s
  | .existing key => log.fieldValue key

/-- The loop of `RegexMatchAndSubstitute::apply` over one list (lib.rs:351-365); the result says whether a
field of that name was found, in which case the function returns. -/
def regexList (f : Str → Str) (name : Str) : List Field → List Field × Bool
  | [] => ([], false)
  | fd :: l =>
    if fd.key ≠ name then
      let (l, b) := regexList f name l
      (fd :: l, b)
    else match fd.value with
      | .str s => (⟨fd.key, .str (f s)⟩ :: l, true)
      | .bytes _ => (fd :: l, true)

/-- `Transform::apply` (lib.rs:164-173): `CaptureField::apply` (193-206), `SetField::apply` (283-312),
`RemoveField::apply` (325-328), `RegexMatchAndSubstitute::apply` (350-384). -/
def Transform.apply (x : FExt) (log : Log) : Transform → Log
  | .capture name =>
    match log.matching.findIdx? (·.key = name) with
    | none => log
    | some i => match log.matching[i]? with
      | none => log
      | some f => { log with matching := log.matching.eraseIdx i, fields := setField log.fields f }
  | .set name value captured allow =>
    if !allow && (log.fieldValue name).isSome then log
    else match value.get log with
      | none => log
      | some s =>
        if captured then { log with fields := setField log.fields ⟨name, .str s⟩ }
        else { log with matching := setField log.matching ⟨name, .str s⟩ }
  | .remove name =>
    { log with matching := log.matching.filter (·.key ≠ name), fields := log.fields.filter (·.key ≠ name) }
  | .regex name pattern subst =>
    let (fields, found) := regexList (fun s => x.replaceAll pattern s subst) name log.fields
    if found then { log with fields := fields }
    else { log with matching := (regexList (fun s => x.replaceAll pattern s subst) name log.matching).1 }

def applyAll (x : FExt) (log : Log) : List Transform → Log
  | [] => log
  | t :: l => applyAll x (t.apply x log) l

/-- `FilterChain::process` (lib.rs:78-97). -/
def chainProcess (x : FExt) (log : Log) : List Filter → Log
  | [] => log
  | f :: l =>
    if log.matches x.toExt f.matcher then chainProcess x (applyAll x log f.transforms) l
    else chainProcess x log l

end Verif.Match
