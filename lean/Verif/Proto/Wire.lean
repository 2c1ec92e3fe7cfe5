import Verif.Proto.Handshake
/-
Model of the generated code of bd-proto/src/protos: `merge_from`, `compute_size` and `write_to_with_cached_sizes` of a message whose
fields are given by a table (the tables of all messages are in Tables.lean), with the functions of the protobuf crate they call.

A message is the list of its fields that are set, in the order of writing (a field of a repeated kind occurs once per element, an
implicit field is set unless it has its default, a packed field is one list), and its unknown fields.  Messages of depth at most `d`
are a type; reading with this type is reading with a recursion limit of `d` (`CodedInputStream`, 100 by default).

Simplifications: bytes are natural numbers and strings their bytes, the test for UTF-8 is a parameter; signed numbers are their bits;
sizes and varints are not cut to 32 or 64 bits before the cut of the reading function; unknown fields keep their order (a hash map
in the crate), groups are refused (skipped in the crate); an unknown field of an entry of a map is kept and a missing key or value stays missing; a message
field that occurs twice is replaced.
-/
namespace Verif.Wire

open Handshake (Bytes varint readVarint readField)

inductive Kind where
  | u32 | u64 | i32 | i64 | enum | bool | f64 | f32 | str | bytes
  | msg (i : Nat)
  deriving DecidableEq, Repr

/-- What becomes of a field: implicit presence, explicit presence (and messages), repeated, repeated and packed, map, both fields of an entry of a map,
alternative of the `g`-th oneof. -/
inductive Label where
  | plain | opt | rep | packed | map | always
  | one (g : Nat)
  deriving DecidableEq, Repr

/-- What the writing function is given: the field number, or a literal tag. -/
inductive Wtag where
  | num (n : Nat)
  | tag (t : Nat)
  deriving DecidableEq, Repr

/-- What the size is computed from: the field number, a literal for the tag, a literal for tag and value. -/
inductive Sz where
  | num (n : Nat)
  | lit (n : Nat)
  | fix (a b : Nat)
  deriving DecidableEq, Repr

structure Field where
  tag : Nat
  alt : Option Nat
  rk : Kind
  w : Wtag
  wk : Kind
  s : Sz
  sk : Option Kind
  label : Label
  dflt : Nat
  deriving DecidableEq, Repr

abbrev Table := List (List Field)

/-- A field that no arm of `merge_from` takes. -/
inductive Raw where
  | varint (n : Nat)
  | f64 (n : Nat)
  | len (b : Bytes)
  | f32 (n : Nat)
  deriving DecidableEq, Repr

inductive V (M : Type) where
  | num (n : Nat)
  | bytes (b : Bytes)
  | nums (l : List Nat)
  | msg (m : M)
  deriving DecidableEq, Repr

structure MsgF (M : Type) where
  known : List (Nat × V M)
  unknown : List (Nat × Raw)
  deriving DecidableEq, Repr

/-- Messages of depth at most `d`. -/
def Msg : Nat → Type
  | 0 => Empty
  | d + 1 => MsgF (Msg d)

/-! ### Wire types and numbers -/

/-- `WireType`. -/
def Kind.wt : Kind → Nat
  | .f64 => 1
  | .f32 => 5
  | .str => 2
  | .bytes => 2
  | .msg _ => 2
  | _ => 0

/-- Negative numbers of 32 bits are written with 64. -/
def toWire : Kind → Nat → Nat
  | .i32, n => if n < 2 ^ 31 then n else n + (2 ^ 64 - 2 ^ 32)
  | .enum, n => if n < 2 ^ 31 then n else n + (2 ^ 64 - 2 ^ 32)
  | _, n => n

/-- `read_uint32`, `read_int64`, `read_bool`, ... of a varint. -/
def fromWire : Kind → Nat → Nat
  | .u32, n => n % 2 ^ 32
  | .i32, n => n % 2 ^ 32
  | .enum, n => n % 2 ^ 32
  | .bool, n => if n = 0 then 0 else 1
  | _, n => n % 2 ^ 64

/-- `compute_raw_varint64_size`. -/
def varintSize (n : Nat) : Nat := if n < 128 then 1 else varintSize (n / 128) + 1
termination_by n
decreasing_by omega

/-- `tag_size`. -/
def tagSize (num : Nat) : Nat := varintSize (8 * num)

def le : Nat → Nat → Bytes
  | 0, _ => []
  | k + 1, n => n % 256 :: le k (n / 256)

def unle : Bytes → Nat
  | [] => 0
  | b :: r => b + 256 * unle r

/-- `read_raw_little_endian64`, `read_raw_little_endian32`. -/
def readLe (k : Nat) (bs : Bytes) : Option (Nat × Bytes) := if k ≤ bs.length then some (unle (bs.take k), bs.drop k) else none

/-! ### Scalars -/

/-- A number without its tag. -/
def writeNum (k : Kind) (n : Nat) : Bytes :=
  match k with
  | .f64 => le 8 n
  | .f32 => le 4 n
  | k => varint (toWire k n)

def sizeNum (k : Kind) (n : Nat) : Nat :=
  match k with
  | .f64 => 8
  | .f32 => 4
  | k => varintSize (toWire k n)

def readNum (k : Kind) (bs : Bytes) : Option (Nat × Bytes) :=
  match k with
  | .f64 => readLe 8 bs
  | .f32 => readLe 4 bs
  | k => (readVarint bs).map fun x => (fromWire k x.1, x.2)

/-- The elements of a packed field: `read_repeated_packed_double_into`. -/
def readNums (k : Kind) : Nat → Bytes → Option (List Nat)
  | _, [] => some []
  | 0, _ :: _ => none
  | n + 1, bs =>
    match readNum k bs with
    | none => none
    | some (x, r) => (readNums k n r).map (x :: ·)

/-! ### Writing -/

/-- The tag that is written. -/
def Field.wtag (f : Field) : Nat :=
  match f.w with
  | .num n => 8 * n + (if f.label = .packed then 2 else f.wk.wt)
  | .tag t => t

/-- One line of `write_to_with_cached_sizes`; `sz` is the cached size of a message field. -/
def writeV {M : Type} (sz : Nat → M → Nat) (wr : Nat → M → Bytes) (f : Field) : V M → Bytes
  | .num n => varint f.wtag ++ writeNum f.wk n
  | .bytes b => varint f.wtag ++ varint b.length ++ b
  | .nums l => varint f.wtag ++ varint (l.map (sizeNum f.wk)).sum ++ l.flatMap (writeNum f.wk)
  | .msg m =>
    match f.wk with
    | .msg ix => varint f.wtag ++ varint (sz ix m) ++ wr ix m
    | _ => []

/-- One line of `compute_size`. -/
def sizeV {M : Type} (sz : Nat → M → Nat) (f : Field) (v : V M) : Nat :=
  match f.s, f.sk, v with
  | .fix a b, _, _ => a + b
  | .num n, some k, .num x => tagSize n + sizeNum k x
  | .num n, some _, .bytes b => tagSize n + varintSize b.length + b.length
  | .num n, some k, .nums l => tagSize n + varintSize (l.map (sizeNum k)).sum + (l.map (sizeNum k)).sum
  | .lit n, some (.msg ix), .msg m => n + varintSize (sz ix m) + sz ix m
  | _, _, _ => 0

/-- `write_unknown_fields`. -/
def writeRaw : Nat × Raw → Bytes
  | (num, .varint n) => varint (8 * num) ++ varint n
  | (num, .f64 n) => varint (8 * num + 1) ++ le 8 n
  | (num, .len b) => varint (8 * num + 2) ++ varint b.length ++ b
  | (num, .f32 n) => varint (8 * num + 5) ++ le 4 n

/-- `unknown_fields_size`. -/
def sizeRaw : Nat × Raw → Nat
  | (num, .varint n) => tagSize num + varintSize n
  | (num, .f64 _) => tagSize num + 8
  | (num, .len b) => tagSize num + varintSize b.length + b.length
  | (num, .f32 _) => tagSize num + 4

def writeKnown {M : Type} (sz : Nat → M → Nat) (wr : Nat → M → Bytes) (fs : List Field) (x : Nat × V M) : Bytes :=
  match fs[x.1]? with
  | some f => writeV sz wr f x.2
  | none => []

def sizeKnown {M : Type} (sz : Nat → M → Nat) (fs : List Field) (x : Nat × V M) : Nat :=
  match fs[x.1]? with
  | some f => sizeV sz f x.2
  | none => 0

def writeF {M : Type} (sz : Nat → M → Nat) (wr : Nat → M → Bytes) (fs : List Field) (m : MsgF M) : Bytes :=
  m.known.flatMap (writeKnown sz wr fs) ++ m.unknown.flatMap writeRaw

def sizeF {M : Type} (sz : Nat → M → Nat) (fs : List Field) (m : MsgF M) : Nat :=
  (m.known.map (sizeKnown sz fs)).sum + (m.unknown.map sizeRaw).sum

def Table.fields (T : Table) (ix : Nat) : List Field := (T[ix]?).getD []

/-- `compute_size` of the `ix`-th message. -/
def size (T : Table) : (d : Nat) → Nat → Msg d → Nat
  | 0, _, m => nomatch m
  | d + 1, ix, m => sizeF (size T d) (T.fields ix) m

/-- `write_to_bytes` of the `ix`-th message. -/
def write (T : Table) : (d : Nat) → Nat → Msg d → Bytes
  | 0, _, m => nomatch m
  | d + 1, ix, m => writeF (size T d) (write T d) (T.fields ix) m

/-! ### Reading -/

/-- The arm for a tag; `true` if it is the unpacked one of a packed field. -/
def findArm : List Field → Nat → Nat → Option (Nat × Field × Bool)
  | [], _, _ => none
  | f :: fs, i, tag => if f.tag = tag then some (i, f, false) else if f.alt = some tag then some (i, f, true) else findArm fs (i + 1) tag

/-- The value behind the tag. -/
def readV {M : Type} (utf8 : Bytes → Bool) (rd : Nat → Bytes → Option M) (f : Field) (single : Bool) (bs : Bytes) : Option (V M × Bytes) :=
  if f.label = .packed then
    if single then (readNum f.rk bs).map fun x => (.nums [x.1], x.2)
    else
      match readField bs with
      | none => none
      | some (b, r) => (readNums f.rk b.length b).map fun l => (.nums l, r)
  else
    match f.rk with
    | .str =>
      match readField bs with
      | none => none
      | some (b, r) => if utf8 b then some (.bytes b, r) else none
    | .bytes => (readField bs).map fun x => (.bytes x.1, x.2)
    | .msg ix =>
      match readField bs with
      | none => none
      | some (b, r) => (rd ix b).map fun m => (.msg m, r)
    | k => (readNum k bs).map fun x => (.num x.1, x.2)

/-- `read_unknown_or_skip_group`. -/
def readRaw (tag : Nat) (bs : Bytes) : Option ((Nat × Raw) × Bytes) :=
  if tag / 8 = 0 then none
  else if tag % 8 = 0 then (readVarint bs).map fun x => ((tag / 8, .varint x.1), x.2)
  else if tag % 8 = 1 then (readLe 8 bs).map fun x => ((tag / 8, .f64 x.1), x.2)
  else if tag % 8 = 2 then (readField bs).map fun x => ((tag / 8, .len x.1), x.2)
  else if tag % 8 = 5 then (readLe 4 bs).map fun x => ((tag / 8, .f32 x.1), x.2)
  else none

/-- Whether an implicit field with this value counts as not set: `!= 0`, `!= 0.`, `!= false`, `is_empty`. -/
def isDefault {M : Type} (f : Field) : V M → Bool
  | .num n => decide (n = f.dflt) || (decide (f.rk = .f64) && decide (n = 2 ^ 63)) || (decide (f.rk = .f32) && decide (n = 2 ^ 31))
  | .bytes b => b.isEmpty
  | .nums l => l.isEmpty
  | .msg _ => false

/-- At the place of the `i`-th field. -/
def ins {M : Type} (i : Nat) (v : V M) (l : List (Nat × V M)) : List (Nat × V M) :=
  l.takeWhile (fun x => decide (x.1 ≤ i)) ++ (i, v) :: l.dropWhile (fun x => decide (x.1 ≤ i))

def vkey {M : Type} (key : M → Option Bytes) : V M → Option Bytes
  | .msg m => key m
  | _ => none

def group (fs : List Field) (i : Nat) : Option Nat :=
  match fs[i]? with
  | some f =>
    match f.label with
    | .one g => some g
    | _ => none
  | none => none

/-- The numbers of a packed field so far. -/
def held {M : Type} (i : Nat) (l : List (Nat × V M)) : List Nat :=
  match l.find? (fun x => decide (x.1 = i)) with
  | some (_, .nums n) => n
  | _ => []

def numsOf {M : Type} : V M → List Nat
  | .nums l => l
  | _ => []

/-- What an arm does with the value. -/
def absorb {M : Type} (key : M → Option Bytes) (fs : List Field) (i : Nat) (f : Field) (v : V M) (l : List (Nat × V M)) : List (Nat × V M) :=
  match f.label with
  | .plain =>
    let l' := l.filter fun x => decide (x.1 ≠ i)
    if isDefault f v then l' else ins i v l'
  | .opt => ins i v (l.filter fun x => decide (x.1 ≠ i))
  | .always => ins i v (l.filter fun x => decide (x.1 ≠ i))
  | .rep => ins i v l
  | .packed =>
    let l' := l.filter fun x => decide (x.1 ≠ i)
    let n := held i l ++ numsOf v
    if n.isEmpty then l' else ins i (.nums n) l'
  | .map => ins i v (l.filter fun x => !(decide (x.1 = i) && decide (vkey key x.2 = vkey key v)))
  | .one g => ins i v (l.filter fun x => decide (group fs x.1 ≠ some g))

/-- The loop of `merge_from`. -/
def loop {M : Type} (utf8 : Bytes → Bool) (key : M → Option Bytes) (rd : Nat → Bytes → Option M) (fs : List Field) :
    Nat → MsgF M → Bytes → Option (MsgF M)
  | _, m, [] => some m
  | 0, _, _ :: _ => none
  | n + 1, m, bs =>
    match readVarint bs with
    | none => none
    | some (tag, r) =>
      match findArm fs 0 tag with
      | some (i, f, single) =>
        match readV utf8 rd f single r with
        | none => none
        | some (v, r) => loop utf8 key rd fs n { m with known := absorb key fs i f v m.known } r
      | none =>
        match readRaw tag r with
        | none => none
        | some (u, r) => loop utf8 key rd fs n { m with unknown := m.unknown ++ [u] } r

/-- The key of an entry of a map. -/
def keyOf : (d : Nat) → Msg d → Option Bytes
  | 0, m => nomatch m
  | _ + 1, m =>
    match m.known.find? (fun x => decide (x.1 = 0)) with
    | some (_, .bytes b) => some b
    | _ => none

/-- `parse_from_bytes` of the `ix`-th message. -/
def read (T : Table) (utf8 : Bytes → Bool) : (d : Nat) → Nat → Bytes → Option (Msg d)
  | 0, _, _ => none
  | d + 1, ix, bs => loop utf8 (keyOf d) (read T utf8 d) (T.fields ix) bs.length ⟨[], []⟩ bs

end Verif.Wire
