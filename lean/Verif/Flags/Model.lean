/-
Model of the server-side feature flags (bd-runtime-config/src/feature_flags.rs).
`u64` values are natural numbers; the random number is an input.
-/
namespace Verif.Flags

/-- `FeatureFlagValue` (feature_flags.rs:63-69). -/
inductive Value where
  | bool (b : Bool)
  | int (n : Nat)
  | str (s : String)
  deriving DecidableEq, Repr

abbrev Flags := List (String × Value)

/-- `MemoryFeatureFlags::feature_enabled` (feature_flags.rs:77-86). -/
def featureEnabled (f : Flags) (name : String) (default : Bool) (random : Nat) : Bool :=
  match f.lookup name with
  | some (.int i) =>
    if i = 0 then false
    else if i ≤ 9999 then decide (random % 10000 < i)
    else true
  | _ => default

/-- `get_bool`, `get_integer`, `get_string` (feature_flags.rs:94-113). -/
def getBool (f : Flags) (name : String) (default : Bool) : Bool :=
  match f.lookup name with
  | some (.bool b) => b
  | _ => default
def getInteger (f : Flags) (name : String) (default : Nat) : Nat :=
  match f.lookup name with
  | some (.int n) => n
  | _ => default
def getString (f : Flags) (name : String) (default : String) : String :=
  match f.lookup name with
  | some (.str s) => s
  | _ => default

end Verif.Flags
