/-
Model of the message that opens a stream: `HandshakeRequest` as the generated code writes and merges it
(bd-proto/src/protos/client/api.rs:178-192, 247-290, 333-372), the way `Api::handshake_request` puts it together
(bd-api/src/api.rs:895-915) and the metadata it carries (bd-metadata/src/lib.rs:14-71).

Simplifications: a byte is a natural number, a string is its bytes (UTF-8 is not checked again on reading).  Lengths are not cut to
32 bits.  The value of a metadata entry (`Data` with a string in field 1) is the string.  `opqaue_version_nonces`, which no
pipeline sets, is left out: like any tag that is not listed it makes reading fail here, while the code keeps it aside.  Hash maps
are lists; the order of their entries is any order.
-/
namespace Verif.Handshake

abbrev Bytes := List Nat

/-- `HashMap::insert`. -/
def hput (m : List (Bytes × Bytes)) (k v : Bytes) : List (Bytes × Bytes) := m.filter (fun x => x.1 != k) ++ [(k, v)]

/-- Looking a key up. -/
def hget (m : List (Bytes × Bytes)) (k : Bytes) : Option Bytes := (m.find? fun x => x.1 == k).map (·.2)

/-- `HandshakeRequest` (bd-proto/src/protos/client/api.rs:178-192). -/
structure Hs where
  metadata : List (Bytes × Bytes)
  confNonce : Bytes
  rtNonce : Bytes
  reason : Bytes
  deriving DecidableEq, Repr

def Hs.empty : Hs := ⟨[], [], [], []⟩

/-- `write_raw_varint32`. -/
def varint (n : Nat) : Bytes := if n < 128 then [n] else (n % 128 + 128) :: varint (n / 128)
termination_by n
decreasing_by omega

/-- `read_raw_varint32`. -/
def readVarint : Bytes → Option (Nat × Bytes)
  | [] => none
  | b :: r => if b < 128 then some (b, r) else (readVarint r).map fun x => (b - 128 + 128 * x.1, x.2)

/-- A field of wire type 2: `write_string`, and a message field. -/
def field (num : Nat) (s : Bytes) : Bytes := varint (8 * num + 2) ++ varint s.length ++ s

/-- Length and contents of a field of wire type 2: `read_string`, `push_limit`. -/
def readField (bs : Bytes) : Option (Bytes × Bytes) :=
  match readVarint bs with
  | none => none
  | some (len, r) => if len ≤ r.length then some (r.take len, r.drop len) else none

/-- A proto3 string is written if it is not empty. -/
def optField (num : Nat) (s : Bytes) : Bytes := if s.isEmpty then [] else field num s

/-- An entry of the metadata: key in field 1, the `Data` message with its string in field 2. -/
def entry (k v : Bytes) : Bytes := field 1 (field 1 k ++ field 2 (field 1 v))

/-- `write_to_with_cached_sizes` (bd-proto/src/protos/client/api.rs:333-372). -/
def Hs.write (h : Hs) : Bytes :=
  h.metadata.flatMap (fun x => entry x.1 x.2) ++ optField 3 h.confNonce ++ optField 4 h.rtNonce ++ optField 6 h.reason

/-- The string of a `Data` message: the last field 1. -/
def readData : Nat → Bytes → Bytes → Option Bytes
  | _, v, [] => some v
  | 0, _, _ :: _ => none
  | n + 1, _, bs =>
    match readVarint bs with
    | some (10, r) =>
      match readField r with
      | some (x, r) => readData n x r
      | none => none
    | _ => none

/-- The inner loop over an entry (bd-proto/src/protos/client/api.rs:255-261). -/
def readEntry : Nat → Bytes × Bytes → Bytes → Option (Bytes × Bytes)
  | _, kv, [] => some kv
  | 0, _, _ :: _ => none
  | n + 1, kv, bs =>
    match readVarint bs with
    | some (10, r) =>
      match readField r with
      | some (x, r) => readEntry n (x, kv.2) r
      | none => none
    | some (18, r) =>
      match readField r with
      | some (x, r) =>
        match readData x.length [] x with
        | some v => readEntry n (kv.1, v) r
        | none => none
      | none => none
    | _ => none

/-- `merge_from` (bd-proto/src/protos/client/api.rs:247-296). -/
def Hs.mergeFrom : Nat → Hs → Bytes → Option Hs
  | _, h, [] => some h
  | 0, _, _ :: _ => none
  | n + 1, h, bs =>
    match readVarint bs with
    | none => none
    | some (tag, r) =>
      match readField r with
      | none => none
      | some (x, r) =>
        if tag = 10 then
          match readEntry x.length ([], []) x with
          | some kv => Hs.mergeFrom n { h with metadata := hput h.metadata kv.1 kv.2 } r
          | none => none
        else if tag = 26 then Hs.mergeFrom n { h with confNonce := x } r
        else if tag = 34 then Hs.mergeFrom n { h with rtNonce := x } r
        else if tag = 50 then Hs.mergeFrom n { h with reason := x } r
        else none

/-- `merge_from_bytes`. -/
def Hs.merge (h : Hs) (bs : Bytes) : Option Hs := Hs.mergeFrom bs.length h bs

/-- What a reader gets: `parse_from_bytes`. -/
def Hs.parse (bs : Bytes) : Option Hs := Hs.empty.merge bs

/-- `Api::handshake_request` (bd-api/src/api.rs:895-915); `none`: a panic of `unwrap`. -/
def handshakeRequest (metadata : List (Bytes × Bytes)) (reason : Option Bytes) (parts : List Hs) : Option Hs :=
  parts.foldl (fun h p => h.bind fun h => h.merge p.write) (some ⟨metadata, [], [], reason.getD []⟩)

/-- `partial_handshake` of the runtime pipeline (bd-api/src/api.rs:106-111). -/
def rtPart (nonce : Option Bytes) : Hs := { Hs.empty with rtNonce := nonce.getD [] }

/-- `partial_handshake` of the logger configuration (bd-logger/src/client_config.rs:206-211). -/
def confPart (nonce : Option Bytes) : Hs := { Hs.empty with confNonce := nonce.getD [] }

def enc (s : String) : Bytes := s.toUTF8.data.toList.map UInt8.toNat

/-- `Platform` (bd-metadata/src/lib.rs:16-27). -/
inductive Platform where
  | android | ios | pulse
  | other (os kind : String)
  deriving DecidableEq, Repr

/-- `kind` (bd-metadata/src/lib.rs:30-36). -/
def Platform.kind : Platform → String
  | .android => "mobile"
  | .ios => "mobile"
  | .pulse => "pulse"
  | .other _ k => k

/-- `os` (bd-metadata/src/lib.rs:38-45). -/
def Platform.os : Platform → String
  | .android => "android"
  | .ios => "ios"
  | .pulse => "pulse"
  | .other o _ => o

/-- `collect` (bd-metadata/src/lib.rs:55-70). -/
def collect (inner : List (Bytes × Bytes)) (p : Platform) (sdk : String) : List (Bytes × Bytes) :=
  let m := hput inner (enc "config_version") (enc "26")
  let m := hput m (enc "os") (enc p.os)
  let m := hput m (enc "kind") (enc p.kind)
  hput m (enc "sdk_version") (enc sdk)

end Verif.Handshake
