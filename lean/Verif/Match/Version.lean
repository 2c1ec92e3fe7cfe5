/-
Model of bd-log-matcher/src/version.rs.

Strings are lists of characters; Rust compares strings by their UTF-8 bytes, which is the order of the
code points.
-/
namespace Verif.Match

abbrev Str := List Char

/-- `str::cmp`. -/
def cmpStr : Str → Str → Ordering
  | [], [] => .eq
  | [], _ :: _ => .lt
  | _ :: _, [] => .gt
  | a :: as, b :: bs => (compare a.toNat b.toNat).then (cmpStr as bs)

/-- Decimal digits of `n`, at most `fuel + 1` of them. -/
def digitsF : Nat → Nat → Str
  | 0, n => [Char.ofNat (48 + n)]
  | fuel + 1, n => if n < 10 then [Char.ofNat (48 + n)] else digitsF fuel (n / 10) ++ [Char.ofNat (48 + n % 10)]

/-- Decimal digits without leading zeros (`u32::to_string`). -/
def digits (n : Nat) : Str := digitsF n n

/-- The value of a digit string, `none` if some character is not a digit. -/
def readDigits : Str → Nat → Option Nat
  | [], acc => some acc
  | c :: cs, acc => if 48 ≤ c.toNat ∧ c.toNat ≤ 57 then readDigits cs (acc * 10 + (c.toNat - 48)) else none

/-- `str::parse::<u32>`: not empty, digits only, no overflow.  (Rust also accepts a leading `+`; a
segment never contains one.) -/
def parseU32 (s : Str) : Option Nat :=
  if s = [] then none
  else match readDigits s 0 with
    | some n => if n < 2 ^ 32 then some n else none
    | none => none

/-- `VersionSegment` (version.rs:32-36). -/
inductive Seg where
  | int (n : Nat)
  | str (s : Str)
  deriving DecidableEq, Repr

/-- `VersionSegment::from_str` (version.rs:38-43). -/
def Seg.ofStr (s : Str) : Seg :=
  match parseU32 s with
  | some n => .int n
  | none => .str s

/-- `VersionSegment::cmp` (version.rs:54-63). -/
def Seg.cmp : Seg → Seg → Ordering
  | .int a, .int b => compare a b
  | .str a, .str b => cmpStr a b
  | .str a, .int b => cmpStr a (digits b)
  | .int a, .str b => cmpStr (digits a) b

/-- `str::split_once`: the part before the first `c` and, if there is one, the part after it. -/
def splitOnce (c : Char) (s : Str) : Str × Option Str :=
  match s.dropWhile (· ≠ c) with
  | [] => (s, none)
  | _ :: rest => (s.takeWhile (· ≠ c), some rest)

/-- `str::split('.')`. -/
def splitDot : Str → List Str
  | [] => [[]]
  | c :: cs =>
    if c = '.' then [] :: splitDot cs
    else match splitDot cs with
      | [] => [[c]]
      | seg :: segs => (c :: seg) :: segs

structure Version where
  segments : List Seg
  revision : Option Str
  buildMetadata : Option Str
  deriving DecidableEq, Repr

/-- `Version::new` (version.rs:98-137). -/
def Version.ofStr (s : Str) : Version :=
  let (s, revision) := splitOnce '-' s
  let (s, build) := splitOnce '+' s
  ⟨(splitDot s).map Seg.ofStr, revision, build⟩

def Seg.zero : Seg := .int 0

/-- The loop over `zip_longest` in `Version::cmp` (version.rs:139-156), when the left version has no
segments left. -/
def zeroVs : List Seg → Ordering
  | [] => .eq
  | b :: bs => match Seg.zero.cmp b with | .eq => zeroVs bs | o => o

/-- The loop over `zip_longest` in `Version::cmp` (version.rs:139-156). -/
def cmpSegs : List Seg → List Seg → Ordering
  | [], bs => zeroVs bs
  | a :: as, b :: bs => match a.cmp b with | .eq => cmpSegs as bs | o => o
  | a :: as, [] => match a.cmp .zero with | .eq => cmpSegs as [] | o => o

def Version.cmp (a b : Version) : Ordering := cmpSegs a.segments b.segments

/-- `SimpleComparator` (version.rs:188-196). -/
inductive Comparator where
  | lt | le | gt | ge | ne | eq
  deriving DecidableEq, Repr

/-- `SimpleComparator::compare` (version.rs:211-222). -/
def Comparator.compare (c : Comparator) (a b : Version) : Bool :=
  match c with
  | .lt => a.cmp b == .lt
  | .le => a.cmp b == .lt || a.cmp b == .eq
  | .gt => a.cmp b == .gt
  | .ge => a.cmp b == .gt || a.cmp b == .eq
  | .ne => a.cmp b != .eq
  | .eq => a.cmp b == .eq

end Verif.Match
