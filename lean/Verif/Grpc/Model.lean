/-
Model of the gRPC framing of bd-grpc-codec/src/lib.rs: `Encoder::encode` and `Decoder::decode_data`.

Bytes are natural numbers (only the length bytes are computed with, reduced modulo 256).  The protobuf
serialiser and parser and the zlib streams are parameters; a zlib stream carries a state from one message to
the next (the stateless variant has a trivial state).  The byte counters and the zlib objects
of a thread are in Ends.lean; the release of memory (`OptimizeFor::Memory`) is not modelled.
-/
namespace Verif.Grpc

abbrev Bytes := List Nat

/-- What is not modelled: serialisation and compression. `none` is a failure. -/
structure Codec (M S D : Type) where
  ser : M → Bytes
  parse : Bytes → Option M
  comp : S → Bytes → Option (S × Bytes)
  decomp : D → Bytes → Option (D × Bytes)

/-- What is assumed of them: parsing undoes serialising, and a decompressor that has seen what a compressor
has produced so far undoes the next compression. -/
structure Codec.Good {M S D : Type} (c : Codec M S D) (R : S → D → Prop) : Prop where
  parse : ∀ m, c.parse (c.ser m) = some m
  comp : ∀ s d b s' b', R s d → c.comp s b = some (s', b') → ∃ d', c.decomp d b' = some (d', b) ∧ R s' d'

/-- `BufMut::put_u32` / `u32::to_be_bytes` of `n as u32`. -/
def putU32 (n : Nat) : Bytes := [n / 16777216 % 256, n / 65536 % 256, n / 256 % 256, n % 256]

/-- `Buf::get_u32`. -/
def getU32 (a b c d : Nat) : Nat := a * 16777216 + b * 65536 + c * 256 + d

/-- `GRPC_MIN_MESSAGE_SIZE_COMPRESSION_THRESHOLD` (lib.rs:61). -/
def threshold : Nat := 100

/-- `encode_uncompressed` (220-244). -/
def encodeUncompressed {M S D : Type} (c : Codec M S D) (m : M) : Bytes := 0 :: putU32 (c.ser m).length ++ c.ser m

/-- The frame of `encode_compressed` (161-218). -/
def frameCompressed (b : Bytes) : Bytes := 1 :: putU32 b.length ++ b

/-- `Encoder::encode` (106-144); the state of the encoder is its compressor, given up after a failure. -/
def encode {M S D : Type} (c : Codec M S D) (e : Option S) (m : M) : Option S × Bytes :=
  match e with
  | some s =>
    if threshold ≤ (c.ser m).length then
      match c.comp s (c.ser m) with
      | some (s', b) => (some s', frameCompressed b)
      | none => (none, encodeUncompressed c m)
    else (some s, encodeUncompressed c m)
  | none => (none, encodeUncompressed c m)

/-- The bytes produced for a sequence of messages. -/
def encodeAll {M S D : Type} (c : Codec M S D) : Option S → List M → Option S × Bytes
  | e, [] => (e, [])
  | e, m :: ms => let (e', b) := encode c e m; let (e'', b') := encodeAll c e' ms; (e'', b ++ b')

/-- `Decoder` (274-283). -/
structure Dec (D : Type) where
  buf : Bytes
  decompressor : Option D
  compressed : Bool
  size : Option Nat

def Dec.init {D : Type} (d : Option D) : Dec D := ⟨[], d, false, none⟩

/-- One iteration of the loop of `decode_data` (335-367) with its result. -/
inductive Iter (M D : Type) where
  /-- not enough data: `break` -/
  | more
  /-- an error is returned -/
  | err
  /-- `continue`, or a message was pushed -/
  | next (d : Dec D) (m : Option M)

/-- The payload of a complete message and the decoder without it (351-356, `decompress` 376-414). -/
def Dec.payload {M S D : Type} (c : Codec M S D) (d : Dec D) (n : Nat) : Option (Dec D × Bytes) :=
  if d.compressed then
    match d.decompressor with
    | none => none
    | some z => match c.decomp z (d.buf.take n) with
      | none => none
      | some (z', b) => some ({ d with buf := d.buf.drop n, decompressor := some z', size := none }, b)
  else some ({ d with buf := d.buf.drop n, size := none }, d.buf.take n)

def Dec.iter {M S D : Type} (c : Codec M S D) (d : Dec D) : Iter M D :=
  match d.size with
  | none =>
    match d.buf with
    | f :: b0 :: b1 :: b2 :: b3 :: rest => .next { d with buf := rest, compressed := f == 1, size := some (getU32 b0 b1 b2 b3) } none
    | _ => .more
  | some n =>
    if n ≤ d.buf.length then
      match d.payload c n with
      | none => .err
      | some (d', b) => match c.parse b with
        | none => .err
        | some m => .next d' (some m)
    else .more

theorem Dec.iter_decreases {M S D : Type} {c : Codec M S D} {d d' : Dec D} {m : Option M} (h : d.iter c = .next d' m) :
    2 * d'.buf.length + (if d'.size.isSome then 1 else 0) < 2 * d.buf.length + (if d.size.isSome then 1 else 0) := by
  unfold Dec.iter at h
  cases hs : d.size with
  | none =>
    simp only [hs] at h
    split at h
    · rename_i f b0 b1 b2 b3 rest hb
      cases h
      simp only [hb, List.length_cons, Option.isSome_some, if_true, Option.isSome_none, Bool.false_eq_true, if_false]
      omega
    · cases h
  | some n =>
    simp only [hs] at h
    split at h
    · unfold Dec.payload at h
      by_cases hc : d.compressed = true
      · rw [if_pos hc] at h
        cases hz : d.decompressor with
        | none => simp [hz] at h
        | some z =>
          simp only [hz] at h
          cases hd : c.decomp z (d.buf.take n) with
          | none => simp [hd] at h
          | some p =>
            simp only [hd] at h
            cases hp : c.parse p.2 with
            | none => simp [hp] at h
            | some m =>
              simp only [hp] at h
              cases h
              simp
              omega
      · rw [if_neg hc] at h
        simp only at h
        cases hp : c.parse (d.buf.take n) with
        | none => simp [hp] at h
        | some m =>
          simp only [hp] at h
          cases h
          simp
          omega
    · cases h

/-- The loop of `decode_data` (335-367): `none` if an error is returned. -/
def Dec.loop {M S D : Type} (c : Codec M S D) (d : Dec D) : Option (List M × Dec D) :=
  match h : d.iter c with
  | .more => some ([], d)
  | .err => none
  | .next d' m =>
    match Dec.loop c d' with
    | none => none
    | some (ms, d'') => some (m.toList ++ ms, d'')
termination_by 2 * d.buf.length + (if d.size.isSome then 1 else 0)
decreasing_by exact Dec.iter_decreases h

/-- `decode_data` (312-374). -/
def Dec.decode {M S D : Type} (c : Codec M S D) (d : Dec D) (data : Bytes) : Option (List M × Dec D) :=
  Dec.loop c { d with buf := d.buf ++ data }

/-- `decode_data` for each chunk in turn; an error ends the stream. -/
def Dec.feed {M S D : Type} (c : Codec M S D) (d : Dec D) : List Bytes → Option (List M × Dec D)
  | [] => some ([], d)
  | x :: xs =>
    match d.decode c x with
    | none => none
    | some (ms, d') => match Dec.feed c d' xs with
      | none => none
      | some (ms', d'') => some (ms ++ ms', d'')

end Verif.Grpc
