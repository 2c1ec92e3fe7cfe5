import Verif.Proto.WireProps
import Verif.Grpc.Props
import Verif.Flow.RingProps
/-
C103 together with the framing (C18), the handshake (C100) and the ring (C98): what the server gets.
-/
namespace Verif.Wire

open Handshake (Bytes varint Hs field optField entry)
open Grpc (Codec Dec encode encodeAll encodeUncompressed Short prep)

variable {St D : Type}

/-- `write_to_bytes` and `parse_from_tokio_bytes` with some compression. -/
def wireCodec (T : Table) (utf8 : Bytes → Bool) (d ix : Nat) (comp : St → Bytes → Option (St × Bytes)) (decomp : D → Bytes → Option (D × Bytes)) : Codec (Msg d) St D :=
  ⟨write T d ix, read T utf8 d ix, comp, decomp⟩

open Classical in
/-- The same for the messages that fit only. -/
noncomputable def goodCodec (T : Table) (S : Schema) (utf8 : Bytes → Bool) (d ix : Nat) (comp : St → Bytes → Option (St × Bytes)) (decomp : D → Bytes → Option (D × Bytes)) :
    Codec { m : Msg d // Fits S utf8 d ix m } St D :=
  ⟨fun m => write T d ix m.1, fun b => (read T utf8 d ix b).bind fun m => if h : Fits S utf8 d ix m then some ⟨m, h⟩ else none, comp, decomp⟩

section
variable {M M' : Type} {c : Codec M St D} {c' : Codec M' St D} {f : M' → M}

/-- `c` is `c'` seen through `f`. -/
structure Through (c : Codec M St D) (c' : Codec M' St D) (f : M' → M) : Prop where
  ser : ∀ m, c.ser (f m) = c'.ser m
  parse : ∀ b m, c'.parse b = some m → c.parse b = some (f m)
  comp : c.comp = c'.comp
  decomp : c.decomp = c'.decomp

theorem Through.encode (h : Through c c' f) (e : Option St) (m : M') : Grpc.encode c e (f m) = Grpc.encode c' e m := by
  simp only [Grpc.encode, encodeUncompressed, h.ser, h.comp]

theorem Through.encodeAll (h : Through c c' f) (ms : List M') : ∀ e : Option St, Grpc.encodeAll c e (ms.map f) = Grpc.encodeAll c' e ms := by
  induction ms with
  | nil => intro e; rfl
  | cons m ms ih => intro e; simp only [List.map_cons, Grpc.encodeAll, h.encode, ih]

theorem Through.short (h : Through c c' f) (ms : List M') : ∀ e : Option St, Short c e (ms.map f) → Short c' e ms := by
  induction ms with
  | nil => intro e _; trivial
  | cons m ms ih =>
    intro e hs
    obtain ⟨h1, h2⟩ := hs
    rw [h.encode] at h1 h2
    exact ⟨h1, ih _ h2⟩

theorem Through.payload (h : Through c c' f) (d : Dec D) (n : Nat) : d.payload c n = d.payload c' n := by
  simp only [Dec.payload, h.decomp]

theorem Through.iter (h : Through c c' f) (d : Dec D) :
    (d.iter c' = .more → d.iter c = .more) ∧ (∀ d' m, d.iter c' = .next d' m → d.iter c = .next d' (m.map f)) := by
  unfold Dec.iter
  simp only [h.payload]
  constructor
  · intro hi
    split at hi
    · split at hi
      · cases hi
      · rfl
    · split at hi
      · split at hi
        · cases hi
        · split at hi <;> cases hi
      · rename_i hn; exact if_neg hn
  · intro d' m hi
    split at hi
    · split at hi
      · cases hi; rfl
      · cases hi
    · split at hi
      · rename_i hle
        split at hi
        · cases hi
        · split at hi
          · cases hi
          · rename_i hp
            cases hi
            simp only [h.parse _ _ hp]
            exact if_pos hle
      · cases hi

theorem Through.loop (h : Through c c' f) : ∀ (n : Nat) (d : Dec D), 2 * d.buf.length + (if d.size.isSome then 1 else 0) < n → ∀ ms d', d.loop c' = some (ms, d') →
    d.loop c = some (ms.map f, d') := by
  intro n
  induction n with
  | zero => intro d hn; omega
  | succ n ih =>
    intro d hn ms d' hl
    obtain ⟨h1, h2⟩ := h.iter d
    rw [Dec.loop] at hl ⊢
    split at hl
    · rename_i hi
      cases hl
      split
      · rfl
      · rename_i hi'; rw [h1 hi] at hi'; cases hi'
      · rename_i hi'; rw [h1 hi] at hi'; cases hi'
    · cases hl
    · rename_i d1 m hi
      have hi' := h2 _ _ hi
      split
      · rename_i hx; rw [hi'] at hx; cases hx
      · rename_i hx; rw [hi'] at hx; cases hx
      · rename_i d2 m2 hx
        rw [hi'] at hx
        cases hx
        split at hl
        · cases hl
        · rename_i ms1 d3 hl1
          cases hl
          have hd := Dec.iter_decreases hi
          rw [ih d1 (by omega) ms1 d' hl1]
          cases m <;> simp

theorem Through.decode (h : Through c c' f) {d d' : Dec D} {x : Bytes} {ms : List M'} (hl : d.decode c' x = some (ms, d')) : d.decode c x = some (ms.map f, d') :=
  h.loop _ _ (Nat.lt_succ_self _) ms d' hl

theorem Through.feed (h : Through c c' f) : ∀ (chunks : List Bytes) (d d' : Dec D) (ms : List M'), d.feed c' chunks = some (ms, d') → d.feed c chunks = some (ms.map f, d') := by
  intro chunks
  induction chunks with
  | nil =>
    intro d d' ms hl
    simp only [Dec.feed, Option.some.injEq, Prod.mk.injEq] at hl
    obtain ⟨rfl, rfl⟩ := hl
    rfl
  | cons x xs ih =>
    intro d d' ms hl
    simp only [Dec.feed] at hl ⊢
    cases hx : d.decode c' x with
    | none => rw [hx] at hl; cases hl
    | some p =>
      obtain ⟨ms1, d1⟩ := p
      rw [hx] at hl
      rw [h.decode hx]
      dsimp only at hl ⊢
      cases hy : d1.feed c' xs with
      | none => rw [hy] at hl; cases hl
      | some q =>
        obtain ⟨ms2, d2⟩ := q
        rw [hy] at hl
        rw [ih d1 d2 ms2 hy]
        simp only [Option.some.injEq, Prod.mk.injEq] at hl ⊢
        exact ⟨by rw [← hl.1, List.map_append], hl.2⟩
end

/-- **C103 and C18.** A stream of messages of a type, serialised by the generated code and framed, arrives as the same messages however
the bytes are cut; of the compression only is assumed that it can be undone. -/
theorem C103_grpc {T : Table} {S : Schema} (hT : T.ok = true) (hS : T.isFor S) (utf8 : Bytes → Bool) (d ix : Nat) (comp : St → Bytes → Option (St × Bytes))
    (decomp : D → Bytes → Option (D × Bytes)) (R : St → D → Prop)
    (hR : ∀ s z b s' b', R s z → comp s b = some (s', b') → ∃ z', decomp z b' = some (z', b) ∧ R s' z')
    (e : Option St) (z : Option D) (he : ∀ s, e = some s → ∃ z', z = some z' ∧ R s z') (ms : List (Msg d)) (hm : ∀ m ∈ ms, Fits S utf8 d ix m)
    (hs : Short (wireCodec T utf8 d ix comp decomp) e ms) (chunks : List Bytes) (hc : chunks.flatten = (encodeAll (wireCodec T utf8 d ix comp decomp) e ms).2) :
    ∃ z', (Dec.init z).feed (wireCodec T utf8 d ix comp decomp) chunks = some (ms, z') ∧ z'.buf = [] ∧ z'.size = none := by
  have hth : Through (wireCodec T utf8 d ix comp decomp) (goodCodec T S utf8 d ix comp decomp) Subtype.val := by
    refine ⟨fun _ => rfl, ?_, rfl, rfl⟩
    intro b m h
    simp only [goodCodec] at h
    cases hr : read T utf8 d ix b with
    | none => rw [hr] at h; cases h
    | some m' =>
      rw [hr, Option.bind_some] at h
      split at h
      · cases h; exact hr
      · cases h
  obtain ⟨ms', rfl⟩ : ∃ ms' : List { m : Msg d // Fits S utf8 d ix m }, ms'.map Subtype.val = ms :=
    ⟨ms.attach.map fun x => ⟨x.1, hm x.1 x.2⟩, by rw [List.map_map]; exact List.attach_map_subtype_val ms⟩
  have hg : (goodCodec T S utf8 d ix comp decomp).Good R := by
    refine ⟨?_, hR⟩
    intro m
    simp only [goodCodec, C103_roundtrip hT hS utf8 d ix m.1 m.2, Option.bind_some]
    rw [dif_pos m.2]
  rw [hth.encodeAll] at hc
  obtain ⟨z', h1, h2, h3⟩ := Grpc.C18_roundtrip hg e z he ms' (hth.short ms' e hs) chunks hc
  exact ⟨z', hth.feed chunks _ _ _ h1, h2, h3⟩

/-! ### Uploads of logs -/

/-- A string field without presence. -/
def strField {M : Type} (i : Nat) (b : Bytes) : List (Nat × V M) := if b = [] then [] else [(i, .bytes b)]

/-- `LogUploadRequest` of an upload (bd-logger/src/service.rs:142-150). -/
def logUpload {k : Nat} (uuid buffer : Bytes) (logs : List Bytes) : Msg (k + 1) :=
  ⟨strField 0 uuid ++ logs.map (fun l => (1, .bytes l)) ++ strField 2 buffer, []⟩

/-- `ApiRequest` with it (bd-api/src/payload_conversion.rs:39-50, 82). -/
def uploadRequest {k : Nat} (uuid buffer : Bytes) (logs : List Bytes) : Msg (k + 2) := ⟨[(2, .msg (logUpload uuid buffer logs))], []⟩

/-- The values of a field of bytes. -/
def bytesAt {M : Type} (i : Nat) (l : List (Nat × V M)) : List Bytes :=
  l.filterMap fun x => if x.1 = i then (match x.2 with | .bytes b => some b | _ => none) else none

/-- The identifier and the logs of a request, as a server reads them. -/
def logsOf {k : Nat} (m : Msg (k + 2)) : Option (Bytes × List Bytes) :=
  match MsgF.known m with
  | [(2, .msg l)] => some ((bytesAt 0 (MsgF.known l)).headD [], bytesAt 1 (MsgF.known l))
  | _ => none

theorem strField_mem {M : Type} {i : Nat} {b : Bytes} {x : Nat × V M} (h : x ∈ strField i b) : x = (i, .bytes b) ∧ b ≠ [] := by
  unfold strField at h
  split at h
  · cases h
  · rename_i hb; exact ⟨by simpa using h, hb⟩

theorem logUpload_fits {k : Nat} (utf8 : Bytes → Bool) {uuid buffer : Bytes} (hu : utf8 uuid = true) (hb : utf8 buffer = true) (logs : List Bytes) :
    Fits schema utf8 (k + 1) ixLogUploadRequest (logUpload uuid buffer logs) := by
  have hss : schema.fields ixLogUploadRequest = [⟨1, .str, .plain⟩, ⟨2, .bytes, .rep⟩, ⟨3, .str, .plain⟩] := by decide
  show FitsF (Fits schema utf8 k) (HasKey k) utf8 (schema.fields ixLogUploadRequest) _
  rw [hss]
  refine ⟨?_, ?_, by simp [logUpload], ?_⟩
  · intro x hx
    simp only [logUpload, List.mem_append, List.mem_map] at hx
    rcases hx with (hx | ⟨l, _, rfl⟩) | hx
    · obtain ⟨rfl, hne⟩ := strField_mem hx
      exact ⟨_, rfl, nofun, Or.inr ⟨rfl, hu⟩, fun _ => hne⟩
    · exact ⟨_, rfl, nofun, Or.inl rfl, nofun⟩
    · obtain ⟨rfl, hne⟩ := strField_mem hx
      exact ⟨_, rfl, nofun, Or.inr ⟨rfl, hb⟩, fun _ => hne⟩
  · have none_one : ∀ (i j : Nat) (s s' : SField) (g : Nat), ([⟨1, .str, .plain⟩, ⟨2, .bytes, .rep⟩, ⟨3, .str, .plain⟩] : List SField)[i]? = some s →
        ([⟨1, .str, .plain⟩, ⟨2, .bytes, .rep⟩, ⟨3, .str, .plain⟩] : List SField)[j]? = some s' → s.label = .one g → s'.label ≠ .one g := by
      intro i j s s' g hi _ hl
      match i, hi with
      | 0, hi => cases hi; cases hl
      | 1, hi => cases hi; cases hl
      | 2, hi => cases hi; cases hl
    have single : ∀ (i : Nat) (b : Bytes), (strField (M := Msg k) i b).Pairwise (Before (HasKey k) [⟨1, .str, .plain⟩, ⟨2, .bytes, .rep⟩, ⟨3, .str, .plain⟩]) := by
      intro i b
      unfold strField
      split <;> simp
    simp only [logUpload]
    rw [List.pairwise_append, List.pairwise_append]
    refine ⟨⟨single 0 uuid, ?_, ?_⟩, single 2 buffer, ?_⟩
    · rw [List.pairwise_map]
      exact List.pairwise_of_forall fun a b => Or.inr ⟨rfl, _, rfl, Or.inl rfl⟩
    · intro x hx y hy
      obtain ⟨rfl, _⟩ := strField_mem hx
      rw [List.mem_map] at hy
      obtain ⟨l, _, rfl⟩ := hy
      exact Or.inl ⟨by simp, none_one 0 1⟩
    · intro x hx y hy
      obtain ⟨rfl, _⟩ := strField_mem hy
      rw [List.mem_append, List.mem_map] at hx
      rcases hx with hx | ⟨l, _, rfl⟩
      · obtain ⟨rfl, _⟩ := strField_mem hx
        exact Or.inl ⟨by simp, none_one 0 2⟩
      · exact Or.inl ⟨by simp, none_one 1 2⟩
  · intro x hx s hs hl
    have : ∀ (i : Nat), ([⟨1, .str, .plain⟩, ⟨2, .bytes, .rep⟩, ⟨3, .str, .plain⟩] : List SField)[i]? = some s → s.label ≠ .map := by
      intro i hi
      match i, hi with
      | 0, hi => cases hi; nofun
      | 1, hi => cases hi; nofun
      | 2, hi => cases hi; nofun
    exact absurd hl (this _ hs)

theorem uploadRequest_fits {k : Nat} (utf8 : Bytes → Bool) {uuid buffer : Bytes} (hu : utf8 uuid = true) (hb : utf8 buffer = true) (logs : List Bytes) :
    Fits schema utf8 (k + 2) ixApiRequest (uploadRequest uuid buffer logs) := by
  show FitsF (Fits schema utf8 (k + 1)) (HasKey (k + 1)) utf8 (schema.fields ixApiRequest) _
  have hss : (schema.fields ixApiRequest)[2]? = some ⟨2, .msg ixLogUploadRequest, .one 0⟩ := by decide
  refine ⟨?_, ?_, by simp [uploadRequest], ?_⟩
  · intro x hx
    simp only [uploadRequest, List.mem_singleton] at hx
    subst hx
    exact ⟨_, hss, nofun, _, rfl, logUpload_fits utf8 hu hb logs⟩
  · simp [uploadRequest]
  · intro x hx s hs hl
    simp only [uploadRequest, List.mem_singleton] at hx
    subst hx
    rw [hss] at hs
    cases hs
    cases hl

theorem bytesAt_append {M : Type} (i : Nat) (a b : List (Nat × V M)) : bytesAt i (a ++ b) = bytesAt i a ++ bytesAt i b := List.filterMap_append

theorem bytesAt_strField {M : Type} (i j : Nat) (b : Bytes) : bytesAt i (strField (M := M) j b) = if j = i ∧ b ≠ [] then [b] else [] := by
  unfold strField bytesAt
  by_cases hb : b = []
  · simp [hb]
  · by_cases h : j = i <;> simp [hb, h]

theorem bytesAt_map {M : Type} (i j : Nat) (l : List Bytes) : bytesAt i (l.map fun b => ((j, .bytes b) : Nat × V M)) = if j = i then l else [] := by
  unfold bytesAt
  rw [List.filterMap_map]
  split
  · rename_i h
    induction l with
    | nil => rfl
    | cons a l ih => rw [List.filterMap_cons]; simp [h, ih]
  · rename_i h
    rw [List.filterMap_eq_nil_iff]
    intro b _
    simp [h]

theorem logsOf_uploadRequest {k : Nat} (uuid buffer : Bytes) (logs : List Bytes) : logsOf (k := k) (uploadRequest uuid buffer logs) = some (uuid, logs) := by
  show some ((bytesAt 0 (strField (M := Msg k) 0 uuid ++ logs.map (fun l => (1, .bytes l)) ++ strField 2 buffer)).headD [],
    bytesAt 1 (strField (M := Msg k) 0 uuid ++ logs.map (fun l => (1, .bytes l)) ++ strField 2 buffer)) = _
  simp only [bytesAt_append, bytesAt_strField, bytesAt_map]
  by_cases h : uuid = [] <;> simp [h]

/-- **C103, the logs.** Uploads sent one after the other over a stream reach the server with their identifiers and with exactly their logs,
byte for byte and in order, for every cutting of the stream and every recursion limit of at least two. -/
theorem C103_logs (k : Nat) (utf8 : Bytes → Bool) (comp : St → Bytes → Option (St × Bytes)) (decomp : D → Bytes → Option (D × Bytes)) (R : St → D → Prop)
    (hR : ∀ s z b s' b', R s z → comp s b = some (s', b') → ∃ z', decomp z b' = some (z', b) ∧ R s' z')
    (e : Option St) (z : Option D) (he : ∀ s, e = some s → ∃ z', z = some z' ∧ R s z')
    (us : List (Bytes × Bytes × List Bytes)) (hu : ∀ u ∈ us, utf8 u.1 = true ∧ utf8 u.2.1 = true)
    (hs : Short (wireCodec table utf8 (k + 2) ixApiRequest comp decomp) e (us.map fun u => uploadRequest u.1 u.2.1 u.2.2)) (chunks : List Bytes)
    (hc : chunks.flatten = (encodeAll (wireCodec table utf8 (k + 2) ixApiRequest comp decomp) e (us.map fun u => uploadRequest u.1 u.2.1 u.2.2)).2) :
    ∃ got z', (Dec.init z).feed (wireCodec table utf8 (k + 2) ixApiRequest comp decomp) chunks = some (got, z') ∧
      got.map logsOf = us.map fun u => some (u.1, u.2.2) := by
  obtain ⟨z', h, _⟩ := C103_grpc C103_tables.1 C103_tables.2 utf8 (k + 2) ixApiRequest comp decomp R hR e z he (us.map fun u => uploadRequest u.1 u.2.1 u.2.2)
    (by
      intro m hm
      rw [List.mem_map] at hm
      obtain ⟨u, hx, rfl⟩ := hm
      exact uploadRequest_fits utf8 (hu u hx).1 (hu u hx).2 _) hs chunks hc
  refine ⟨_, z', h, ?_⟩
  rw [List.map_map]
  exact List.map_congr_left fun u _ => logsOf_uploadRequest u.1 u.2.1 u.2.2

/-- A case: two uploads without compression.  The bytes are short, and they are the two frames. -/
example :
    let c : Codec (Msg 2) Unit Unit := wireCodec table (fun _ => true) 2 ixApiRequest (fun _ _ => none) (fun _ _ => none)
    let ms : List (Msg 2) := [uploadRequest [97] [98] [[1, 2], [3]], uploadRequest [99] [98] [[4]]]
    (encodeAll c none ms).2.length < 4294967296 ∧ (encode c none ms[0]).2.length < 4294967296 + 5 ∧ (encode c none ms[1]).2.length < 4294967296 + 5 ∧
    ms[0].known.length = 1 ∧
    (encodeAll c none ms).2 = [0, 0, 0, 0, 15, 18, 13, 10, 1, 97, 18, 2, 1, 2, 18, 1, 3, 26, 1, 98] ++ [0, 0, 0, 0, 11, 18, 9, 10, 1, 99, 18, 1, 4, 26, 1, 98] := by
  decide +kernel

/-! ### The handshake -/

/-- `Data` with a string. -/
def dataMsg {k : Nat} (v : Bytes) : Msg (k + 1) := ⟨[(0, .bytes v)], []⟩

def entryMsg {k : Nat} (x : Bytes × Bytes) : Msg (k + 2) := ⟨[(0, .bytes x.1), (1, .msg (dataMsg x.2))], []⟩

/-- `HandshakeRequest` as a message of the table. -/
def hsMsg {k : Nat} (h : Hs) : Msg (k + 3) :=
  ⟨h.metadata.map (fun x => (0, .msg (entryMsg x))) ++ strField 1 h.confNonce ++ strField 2 h.rtNonce ++ strField 4 h.reason, []⟩

theorem write_data {k : Nat} (v : Bytes) : write table (k + 1) 103 (dataMsg v) = field 1 v ∧ size table (k + 1) 103 (dataMsg (k := k) v) = (field 1 v).length := by
  constructor
  · show writeF _ _ m103 _ = _
    simp [writeF, writeKnown, dataMsg, m103, writeV, Field.wtag, Kind.wt, field]
  · show sizeF _ m103 _ = _
    simp [sizeF, sizeKnown, dataMsg, m103, sizeV, tagSize, field, varint_length]
    rw [varintSize, varintSize_eq 10]
    simp
    omega

theorem write_entry {k : Nat} (x : Bytes × Bytes) : write table (k + 2) 186 (entryMsg x) = field 1 x.1 ++ field 2 (field 1 x.2) ∧
    size table (k + 2) 186 (entryMsg (k := k) x) = (field 1 x.1 ++ field 2 (field 1 x.2)).length := by
  obtain ⟨h1, h2⟩ := write_data (k := k) x.2
  constructor
  · show writeF _ _ m186 _ = _
    simp [writeF, writeKnown, entryMsg, m186, writeV, Field.wtag, Kind.wt, h1, h2]
    simp [field]
  · show sizeF _ m186 _ = _
    simp only [sizeF, sizeKnown, entryMsg, m186, sizeV, tagSize, List.map_cons, List.map_nil, List.sum_cons, List.sum_nil, List.getElem?_cons_zero, List.getElem?_cons_succ, h2]
    simp only [field, List.length_append, varint_length]
    have e1 : varintSize (8 * 1) = 1 := by decide +kernel
    have e2 : varintSize (8 * 1 + 2) = 1 := by decide +kernel
    have e3 : varintSize (8 * 2 + 2) = 1 := by decide +kernel
    rw [e1, e2, e3]
    omega

/-- **C103 and C100.** The bytes of a handshake of C100 are those of the general function for its table. -/
theorem C103_handshake (k : Nat) (h : Hs) : write table (k + 3) ixHandshakeRequest (hsMsg h) = h.write := by
  have ho : ∀ (i : Nat) (f : Field) (b : Bytes), m7[i]? = some f → f.wtag = 8 * f.sig.num + 2 → f.label = .plain →
      (strField i b).flatMap (writeKnown (size table (k + 2)) (write table (k + 2)) m7) = optField f.sig.num b := by
    intro i f b hf hw _
    unfold strField optField
    cases b with
    | nil => rfl
    | cons a b => simp [writeKnown, hf, writeV, hw, field]
  show writeF _ _ m7 _ = _
  simp only [writeF, hsMsg, List.flatMap_append, List.flatMap_nil, List.append_nil, Hs.write]
  rw [ho 1 _ _ rfl rfl rfl, ho 2 _ _ rfl rfl rfl, ho 4 _ _ rfl rfl rfl, List.flatMap_map]
  congr 3
  apply List.flatMap_congr
  intro x _
  obtain ⟨h1, h2⟩ := write_entry (k := k) x
  simp [writeKnown, m7, writeV, Field.wtag, h1, h2]
  simp [entry, field, Nat.add_assoc]

example : write table 3 ixHandshakeRequest (hsMsg ⟨[([97], [98])], [110], [], [114]⟩) =
    [10, 8, 10, 1, 97, 18, 3, 10, 1, 98, 26, 1, 110, 50, 1, 114] := by decide +kernel

/-! ### From the ring to the server -/

/-- **C98 to the server.** The finished uploads of a buffer, sent over a stream: the server reads one message for each, and its logs are a
run of consecutive records as they were committed to the file, byte for byte.  Partial as C98 is: executions without the events that lose
the file or a record.  The identifiers and the name of the buffer are any strings. -/
theorem C98_server_partial (k : Nat) (utf8 : Bytes → Bool) (comp : St → Bytes → Option (St × Bytes)) (decomp : D → Bytes → Option (D × Bytes)) (R : St → D → Prop)
    (hR : ∀ s z b s' b', R s z → comp s b = some (s', b') → ∃ z', decomp z b' = some (z', b) ∧ R s' z')
    (e : Option St) (z : Option D) (he : ∀ s, e = some s → ∃ z', z = some z' ∧ R s z')
    (c : Ring.Cfg) (hc : c.Sane) (mem : Buffer.Mem) (es : List Ring.Ev) (hcl : Ring.Clean c (Ring.Sys.init c mem) es)
    (ids : List (Bytes × Bytes)) (hids : ∀ u ∈ ids, utf8 u.1 = true ∧ utf8 u.2 = true)
    (hlen : ids.length = ((Ring.Sys.init c mem).run c es).up.finished.length)
    (hs : Short (wireCodec table utf8 (k + 2) ixApiRequest comp decomp) e
      (List.zipWith (fun i u => uploadRequest i.1 i.2 (u.1.map (·.2))) ids ((Ring.Sys.init c mem).run c es).up.finished)) (chunks : List Bytes)
    (hch : chunks.flatten = (encodeAll (wireCodec table utf8 (k + 2) ixApiRequest comp decomp) e
      (List.zipWith (fun i u => uploadRequest i.1 i.2 (u.1.map (·.2))) ids ((Ring.Sys.init c mem).run c es).up.finished)).2) :
    ∃ got z', (Dec.init z).feed (wireCodec table utf8 (k + 2) ixApiRequest comp decomp) chunks = some (got, z') ∧
      List.Forall₂ (fun m i => ∃ (a n : Nat) (bss : List (List UInt8)), logsOf m = some (i.1, bss.map (·.map UInt8.toNat)) ∧ bss ≠ [] ∧
        bss.map (·.map some) = ((((Ring.Sys.init c mem).run c es).hist c).committed.drop a).take n) got ids := by
  have hb := Ring.C98_batches_partial c hc mem es hcl
  dsimp only at hb
  revert hs hch hb hlen
  generalize ((Ring.Sys.init c mem).run c es).up.finished = fin
  generalize (((Ring.Sys.init c mem).run c es).hist c).committed = com
  intro hlen hs hch hb
  have key : List.zipWith (fun i u => uploadRequest (k := k) i.1 i.2 (u.1.map (·.2))) ids fin =
      (List.zipWith (fun i u => (i.1, i.2, u.1.map (·.2))) ids fin).map fun u => uploadRequest u.1 u.2.1 u.2.2 := by
    rw [List.map_zipWith]
  rw [key] at hs hch
  obtain ⟨got, z', h1, h2⟩ := C103_logs k utf8 comp decomp R hR e z he _ (by
    intro u hu
    rw [← List.map_uncurry_zip_eq_zipWith, List.mem_map] at hu
    obtain ⟨x, hx, rfl⟩ := hu
    exact hids _ (List.of_mem_zip hx).1) hs chunks hch
  refine ⟨got, z', h1, ?_⟩
  clear h1 hs hch key hids hcl he hR
  induction ids generalizing got fin with
  | nil =>
    cases got with
    | nil => exact .nil
    | cons g got => simp at h2
  | cons i ids ih =>
    cases fin with
    | nil => simp at hlen
    | cons u fin =>
      cases got with
      | nil => simp at h2
      | cons g got =>
        simp only [List.zipWith_cons_cons, List.map_cons, List.cons.injEq] at h2
        obtain ⟨hne, a, bss, e1, e2⟩ := hb u List.mem_cons_self
        refine .cons ⟨a, u.1.length, bss, by rw [h2.1, e1], ?_, e2⟩ (ih fin (by simpa using hlen) (fun u hu => hb u (List.mem_cons_of_mem _ hu)) got h2.2)
        rintro rfl
        exact hne (List.map_eq_nil_iff.1 e1)

/-- A case: the three uploads of the two lives of C98. -/
example : Ring.Clean Ring.c0 (Ring.Sys.init Ring.c0 Ring.mem0) Ring.twoLives ∧
    List.zipWith (fun i u => (uploadRequest i.1 i.2 (u.1.map (·.2)) : Msg 2)) [([97], []), ([98], []), ([99], [])]
      ((Ring.Sys.init Ring.c0 Ring.mem0).run Ring.c0 Ring.twoLives).up.finished =
      [uploadRequest [97] [] [[1, 2]], uploadRequest [98] [] [[3]], uploadRequest [99] [] [[4, 5, 6]]] := by
  have h : ((Ring.Sys.init Ring.c0 Ring.mem0).run Ring.c0 Ring.twoLives).up.finished =
      [([(0, [1, 2])], .success), ([(1, [3])], .success), ([(2, [4, 5, 6])], .success)] := by decide +kernel
  exact ⟨by decide +kernel, by rw [h]; rfl⟩

end Verif.Wire
