import Verif.Match.Version

/-
Models of the two matcher trees: bd-log-matcher/src/matcher.rs (workflows and filters) and
bd-matcher/src/matcher.rs (buffer selection), and of the field lookup in bd-matcher/src/lib.rs.

Both trees have the same shape over different leaves, so the shape is modelled once.
External functions are parameters: whether a regex compiles, whether it matches, and the integer a string
denotes (`parse::<f64>` followed by the saturating `as i32`).
-/
namespace Verif.Match

/-- What the standard library and the regex crate decide. -/
structure Ext where
  regexValid : Str → Bool
  isMatch : Str → Str → Bool
  toI32 : Str → Option Int

/-- `Option::map_or(false, f)`. -/
def mapOr {α : Type} (o : Option α) (f : α → Bool) : Bool :=
  match o with
  | none => false
  | some a => f a

/-- `StringOrBytes` (bd-log-primitives/src/lib.rs:17-20). -/
inductive Val where
  | str (s : Str)
  | bytes (b : List Nat)
  deriving DecidableEq, Repr

/-- `StringOrBytes::as_str` (lib.rs:24-31). -/
def Val.asStr : Val → Option Str
  | .str s => some s
  | .bytes _ => none

/-- `LogField` (lib.rs:114-118). -/
structure Field where
  key : Str
  value : Val
  deriving DecidableEq, Repr

/-- The parts of `Log` (lib.rs:144-161) matchers and filters see. -/
structure Log where
  level : Nat
  type : Nat
  message : Val
  fields : List Field
  matching : List Field
  deriving DecidableEq, Repr

/-- `FieldsRef::matching_field_value` (bd-log-primitives/src/lib.rs:206-212). -/
def matchingFieldValue (matching : List Field) (key : Str) : Option Str :=
  (matching.find? (·.key = key)).bind (·.value.asStr)

/-- `FieldProvider for FieldsRef` (bd-matcher/src/lib.rs:39-54). -/
def fieldsRefValue (captured matching : List Field) (key : Str) : Option Str :=
  match (captured.findSome? fun f => if f.key = key then some f.value.asStr else none).join with
  | some v => some v
  | none => matchingFieldValue matching key

/-! ### The shape of the trees -/

/-- A matcher configuration over base matchers `B`; `missing` is an unset oneof. -/
inductive Cfg (B : Type) where
  | missing
  | base (b : B)
  | or (l : List (Cfg B))
  | and (l : List (Cfg B))
  | not (c : Cfg B)

/-- `Tree` (bd-log-matcher/src/matcher.rs:37-52, bd-matcher/src/matcher.rs:25-39). -/
inductive Tree (L : Type) where
  | base (l : L)
  | or (l : List (Tree L))
  | and (l : List (Tree L))
  | not (t : Tree L)

section
variable {B L : Type}

mutual
/-- `Tree::new` (bd-log-matcher/src/matcher.rs:56-79, bd-matcher/src/matcher.rs:43-62); `none` is an error.
-/
def compile (leaf : B → Option L) : Cfg B → Option (Tree L)
  | .missing => none
  | .base b => (leaf b).map .base
  | .or l => (compileList leaf l).map .or
  | .and l => (compileList leaf l).map .and
  | .not c => (compile leaf c).map .not
/-- `iter().map(Self::new).collect::<Result<Vec<_>>>()`. -/
def compileList (leaf : B → Option L) : List (Cfg B) → Option (List (Tree L))
  | [] => some []
  | c :: l => match compile leaf c with
    | none => none
    | some t => (compileList leaf l).map (t :: ·)
end

mutual
/-- `Tree::do_match` (bd-log-matcher/src/matcher.rs:84-122, bd-matcher/src/matcher.rs:66-90). -/
def doMatch (ev : L → Bool) : Tree L → Bool
  | .base l => ev l
  | .or l => anyMatch ev l
  | .and l => allMatch ev l
  | .not t => !doMatch ev t
def anyMatch (ev : L → Bool) : List (Tree L) → Bool
  | [] => false
  | t :: l => doMatch ev t || anyMatch ev l
def allMatch (ev : L → Bool) : List (Tree L) → Bool
  | [] => true
  | t :: l => doMatch ev t && allMatch ev l
end
end

/-! ### Leaves of bd-log-matcher -/

/-- `base_log_matcher::Operator`. -/
inductive Op where
  | unspecified | lt | le | eq | gt | ge | ne | regex
  deriving DecidableEq, Repr

/-- An enum on the wire: `none` is an unknown number. -/
abbrev WireOp := Option Op

/-- `BaseLogMatcher`: the values are those of the protobuf message. -/
inductive BaseCfg where
  | missing
  | message (op : WireOp) (value : Str)
  | tagMissing (key : Str)
  | tagInt (key : Str) (op : WireOp) (value : Int)
  | tagStr (key : Str) (op : WireOp) (value : Str)
  | tagVersion (key : Str) (op : WireOp) (value : Str)
  | tagIsSet (key : Str)
  deriving DecidableEq, Repr

/-- `InputType` (matcher.rs:217-221). -/
inductive Input where
  | message
  | field (key : Str)
  deriving DecidableEq, Repr

/-- `VersionMatch` (version.rs:225-230). -/
inductive VersionMatch where
  | regex (r : Str)
  | cmp (c : Comparator) (v : Version)
  deriving DecidableEq, Repr

/-- `Leaf` (matcher.rs:239-260). -/
inductive Leaf where
  | level (op : Op) (value : Int)
  | type (n : Nat)
  | int (i : Input) (op : Op) (value : Int)
  | str (i : Input) (op : Op) (value : Str)
  | version (i : Input) (m : VersionMatch)
  | isSet (i : Input)
  deriving DecidableEq, Repr

/-- `IntMatch::new` (matcher.rs:133-139). -/
def intMatchNew (op : WireOp) : Option Op :=
  match op with
  | none => none
  | some .regex => none
  | some o => some o

/-- `IntMatch::evaluate` (matcher.rs:141-155). -/
def intEval (op : Op) (value candidate : Int) : Bool :=
  match op with
  | .unspecified => false
  | .lt => candidate < value
  | .le => candidate ≤ value
  | .gt => candidate > value
  | .ge => candidate ≥ value
  | .ne => candidate ≠ value
  | .eq => candidate = value
  | .regex => candidate = value

/-- `StringMatch::new` (matcher.rs:180-198). -/
def strMatchNew (x : Ext) (op : WireOp) (value : Str) : Option Op :=
  match op with
  | none => none
  | some .unspecified => none
  | some .regex => if x.regexValid value then some .regex else none
  | some o => some o

/-- `StringMatch::evaluate` (matcher.rs:200-213). -/
def strEval (x : Ext) (op : Op) (value candidate : Str) : Bool :=
  match op with
  | .unspecified => false
  | .lt => cmpStr candidate value == .lt
  | .le => cmpStr candidate value != .gt
  | .eq => candidate == value
  | .gt => cmpStr candidate value == .gt
  | .ge => cmpStr candidate value != .lt
  | .ne => candidate != value
  | .regex => x.isMatch value candidate

/-- `VersionMatch::new` (version.rs:254-267) with `SimpleComparator::from_operator` (198-209). -/
def versionMatchNew (x : Ext) (op : WireOp) (value : Str) : Option VersionMatch :=
  match op with
  | none => none
  | some .unspecified => none
  | some .regex => if x.regexValid value then some (.regex value) else none
  | some .lt => some (.cmp .lt (Version.ofStr value))
  | some .le => some (.cmp .le (Version.ofStr value))
  | some .gt => some (.cmp .gt (Version.ofStr value))
  | some .ge => some (.cmp .ge (Version.ofStr value))
  | some .ne => some (.cmp .ne (Version.ofStr value))
  | some .eq => some (.cmp .eq (Version.ofStr value))

/-- `VersionMatch::evaluate` (version.rs:269-274). -/
def VersionMatch.eval (x : Ext) (m : VersionMatch) (candidate : Str) : Bool :=
  match m with
  | .regex r => x.isMatch r candidate
  | .cmp c v => c.compare (Version.ofStr candidate) v

def logLevelKey : Str := "log_level".toList
def logTypeKey : Str := "log_type".toList

/-- `Leaf::new` (matcher.rs:262-337). -/
def Leaf.new (x : Ext) : BaseCfg → Option Leaf
  | .missing => none
  | .message op v => (strMatchNew x op v).map fun o => .str .message o v
  | .tagMissing _ => none
  | .tagInt key op v =>
    if key = logLevelKey then (intMatchNew op).map fun o => .level o v
    else if key = logTypeKey then (if 0 ≤ v then some (.type v.toNat) else none)
    else (intMatchNew op).map fun o => .int (.field key) o v
  | .tagStr key op v => (strMatchNew x op v).map fun o => .str (.field key) o v
  | .tagVersion key op v => (versionMatchNew x op v).map fun m => .version (.field key) m
  | .tagIsSet key => some (.isSet (.field key))

/-- `InputType::get` (matcher.rs:224-234). -/
def Input.get (message : Val) (fields : Str → Option Str) : Input → Option Str
  | .message => message.asStr
  | .field key => fields key

/-- The leaf cases of `Tree::do_match` (matcher.rs:92-112).  `log_level.try_into()` fails beyond the range
of `i32`. -/
def Leaf.eval (x : Ext) (level type : Nat) (message : Val) (fields : Str → Option Str) : Leaf → Bool
  | .level op v => if level < 2 ^ 31 then intEval op v level else false
  | .type n => n == type
  | .int i op v => mapOr (i.get message fields) fun s => mapOr (x.toI32 s) fun n => intEval op v n
  | .str i op v => mapOr (i.get message fields) fun s => strEval x op v s
  | .version i m => mapOr (i.get message fields) fun s => m.eval x s
  | .isSet i => (i.get message fields).isSome

/-- A compiled matcher applied to a log with its own fields, as the filter chain and the workflows do. -/
def Log.matches (x : Ext) (log : Log) (t : Tree Leaf) : Bool :=
  doMatch (Leaf.eval x log.level log.type log.message (fieldsRefValue log.fields log.matching)) t

/-! ### Leaves of bd-matcher -/

/-- `StringMatchType`. -/
inductive StrType where
  | exact | prefix | regex
  deriving DecidableEq, Repr

/-- `ComparisonOperator`. -/
inductive CmpOp where
  | lt | le | eq | gt | ge
  deriving DecidableEq, Repr

/-- `BaseLogMatcher` of the buffer configuration; `none` is an unknown enum number. -/
inductive BufBase where
  | missing
  | level (op : Option CmpOp) (value : Int)
  | message (t : Option StrType) (value : Str)
  | tag (key : Str) (t : Option StrType) (value : Str)
  | any
  | type (n : Nat)
  deriving DecidableEq, Repr

/-- `Leaf` (bd-matcher/src/matcher.rs:185-199). -/
inductive BufLeaf where
  | level (op : CmpOp) (value : Nat)
  | str (i : Input) (t : StrType) (value : Str)
  | type (n : Nat)
  | any
  deriving DecidableEq, Repr

/-- `Str::new` (bd-matcher/src/matcher.rs:107-113). -/
def bufStrNew (x : Ext) (t : Option StrType) (value : Str) : Option StrType :=
  match t with
  | none => none
  | some .exact => some .exact
  | some .prefix => some .prefix
  | some .regex => if x.regexValid value then some .regex else none

/-- `Str::evaluate` (bd-matcher/src/matcher.rs:115-121). -/
def bufStrEval (x : Ext) (t : StrType) (value candidate : Str) : Bool :=
  match t with
  | .regex => x.isMatch value candidate
  | .prefix => value.isPrefixOf candidate
  | .exact => candidate == value

/-- `Integer::do_match` (bd-matcher/src/matcher.rs:136-144). -/
def bufIntEval (op : CmpOp) (value level : Nat) : Bool :=
  match op with
  | .lt => level < value
  | .le => level ≤ value
  | .eq => level = value
  | .gt => level > value
  | .ge => level ≥ value

/-- `Leaf::new` (bd-matcher/src/matcher.rs:201-245). -/
def BufLeaf.new (x : Ext) : BufBase → Option BufLeaf
  | .missing => none
  | .level op v => match op with
    | none => none
    | some o => if 0 ≤ v then some (.level o v.toNat) else none
  | .message t v => (bufStrNew x t v).map fun t => .str .message t v
  | .tag key t v => (bufStrNew x t v).map fun t => .str (.field key) t v
  | .any => some .any
  | .type n => some (.type n)

/-- The leaf cases of `Tree::do_match` (bd-matcher/src/matcher.rs:74-81). -/
def BufLeaf.eval (x : Ext) (level type : Nat) (message : Val) (fields : Str → Option Str) : BufLeaf → Bool
  | .level op v => bufIntEval op v level
  | .type n => n == type
  | .str i t v => mapOr (i.get message fields) fun s => bufStrEval x t v s
  | .any => true

/-! ### Buffer selection -/

/-- `BufferConfig` with its filters (a filter may lack a matcher). -/
structure BufCfg where
  id : Str
  filters : List (Str × Option (Cfg BufBase))

/-- `BufferFilter` (bd-matcher/src/buffer_selector.rs:17-27). -/
structure BufFilter where
  id : Str
  matchers : List (Str × Tree BufLeaf)

/-- The inner loop of `BufferSelector::new` (buffer_selector.rs:41-46). -/
def selFilters (x : Ext) : List (Str × Option (Cfg BufBase)) → Option (List (Str × Tree BufLeaf))
  | [] => some []
  | (_, none) :: l => selFilters x l
  | (id, some c) :: l => match compile (BufLeaf.new x) c with
    | none => none
    | some t => (selFilters x l).map ((id, t) :: ·)

/-- `BufferSelector::new` (buffer_selector.rs:36-55). -/
def selNew (x : Ext) : List BufCfg → Option (List BufFilter)
  | [] => some []
  | c :: l => match selFilters x c.filters with
    | none => none
    | some m => (selNew x l).map (⟨c.id, m⟩ :: ·)

/-- `BTreeSet::insert`, the set kept as a list without duplicates (its order is not modelled). -/
def insertSet (s : List Str) (a : Str) : List Str := if a ∈ s then s else s ++ [a]

/-- The loop in `BufferSelector::buffers` (buffer_selector.rs:59-83). -/
def selLoop (ev : BufLeaf → Bool) : List BufFilter → List Str → List Str
  | [], acc => acc
  | f :: l, acc =>
    selLoop ev l (if f.matchers.any (fun m => doMatch ev m.2) then insertSet acc f.id else acc)

def selBuffers (x : Ext) (sel : List BufFilter) (level type : Nat) (message : Val) (fields : Str → Option Str) :
    List Str :=
  selLoop (BufLeaf.eval x level type message fields) sel []

end Verif.Match
