import Verif.Grpc.Model

/-
C18: gRPC framing is independent of how bytes are chunked.
-/
namespace Verif.Grpc

variable {M S D : Type}

def Dec.push (d : Dec D) (x : Bytes) : Dec D := { d with buf := d.buf ++ x }

/-- Prepend messages to a result. -/
def prep (ms : List M) : Option (List M × Dec D) → Option (List M × Dec D)
  | none => none
  | some (ms', d) => some (ms ++ ms', d)

theorem prep_prep (a b : List M) (r : Option (List M × Dec D)) : prep a (prep b r) = prep (a ++ b) r := by
  cases r <;> simp [prep]

theorem loop_more {c : Codec M S D} {d : Dec D} (h : d.iter c = .more) : d.loop c = some ([], d) := by
  rw [Dec.loop]; split <;> simp_all

theorem loop_err {c : Codec M S D} {d : Dec D} (h : d.iter c = .err) : d.loop c = none := by
  rw [Dec.loop]; split <;> simp_all

theorem loop_next {c : Codec M S D} {d d' : Dec D} {m : Option M} (h : d.iter c = .next d' m) :
    d.loop c = prep m.toList (d'.loop c) := by
  rw [Dec.loop]
  split
  · simp_all
  · simp_all
  · rename_i d1 m1 h1
    rw [h] at h1
    cases h1
    cases d'.loop c <;> rfl

theorem iter_push_next {c : Codec M S D} {d d' : Dec D} {m : Option M} (h : d.iter c = .next d' m) (x : Bytes) :
    (d.push x).iter c = .next (d'.push x) m := by
  unfold Dec.iter at h ⊢
  cases hs : d.size with
  | none =>
    simp only [hs] at h
    split at h
    · rename_i f b0 b1 b2 b3 rest hb
      cases h
      simp [Dec.push, hs, hb]
    · cases h
  | some n =>
    simp only [hs] at h
    split at h
    · rename_i hn
      have hl : n ≤ (d.push x).buf.length := by simp [Dec.push]; omega
      have hsz : (d.push x).size = some n := hs
      simp only [hsz, if_pos hl]
      have ht : (d.push x).buf.take n = d.buf.take n := by
        simp only [Dec.push]; exact List.take_append_of_le_length hn
      have hdr : (d.push x).buf.drop n = d.buf.drop n ++ x := by
        simp only [Dec.push]; exact List.drop_append_of_le_length hn
      unfold Dec.payload at h ⊢
      rw [ht, hdr]
      have hc' : (d.push x).compressed = d.compressed := rfl
      have hz' : (d.push x).decompressor = d.decompressor := rfl
      rw [hc', hz']
      by_cases hc : d.compressed = true
      · rw [if_pos hc] at h ⊢
        cases hz : d.decompressor with
        | none => simp [hz] at h
        | some z =>
          simp only [hz] at h ⊢
          cases hd : c.decomp z (d.buf.take n) with
          | none => simp [hd] at h
          | some p =>
            simp only [hd] at h ⊢
            cases hp : c.parse p.2 with
            | none => simp [hp] at h
            | some m =>
              simp only [hp] at h ⊢
              cases h
              rfl
      · rw [if_neg hc] at h ⊢
        simp only at h ⊢
        cases hp : c.parse (d.buf.take n) with
        | none => simp [hp] at h
        | some m =>
          simp only [hp] at h ⊢
          cases h
          rfl
    · cases h

theorem iter_push_err {c : Codec M S D} {d : Dec D} (h : d.iter c = .err) (x : Bytes) :
    (d.push x).iter c = .err := by
  unfold Dec.iter at h ⊢
  cases hs : d.size with
  | none =>
    simp only [hs] at h
    split at h <;> cases h
  | some n =>
    simp only [hs] at h
    split at h
    · rename_i hn
      have hl : n ≤ (d.push x).buf.length := by simp [Dec.push]; omega
      have hsz : (d.push x).size = some n := hs
      simp only [hsz, if_pos hl]
      have ht : (d.push x).buf.take n = d.buf.take n := by
        simp only [Dec.push]; exact List.take_append_of_le_length hn
      unfold Dec.payload at h ⊢
      rw [ht]
      have hc' : (d.push x).compressed = d.compressed := rfl
      have hz' : (d.push x).decompressor = d.decompressor := rfl
      rw [hc', hz']
      by_cases hc : d.compressed = true
      · rw [if_pos hc] at h ⊢
        cases hz : d.decompressor with
        | none => simp
        | some z =>
          simp only [hz] at h ⊢
          cases hd : c.decomp z (d.buf.take n) with
          | none => simp
          | some p =>
            simp only [hd] at h ⊢
            cases hp : c.parse p.2 with
            | none => simp
            | some m => simp [hp] at h
      · rw [if_neg hc] at h ⊢
        simp only at h ⊢
        cases hp : c.parse (d.buf.take n) with
        | none => simp
        | some m => simp [hp] at h
    · cases h

/-- Decoding some more bytes at once is decoding what there is and then the rest. -/
theorem loop_push (c : Codec M S D) (x : Bytes) (n : Nat) : ∀ d : Dec D,
    2 * d.buf.length + (if d.size.isSome then 1 else 0) < n →
    (d.push x).loop c = match d.loop c with
      | none => none
      | some (ms, d') => prep ms ((d'.push x).loop c) := by
  induction n with
  | zero => intro d h; omega
  | succ n ih =>
    intro d h
    cases hi : d.iter c with
    | more =>
      rw [loop_more hi]
      simp only
      cases (d.push x).loop c <;> simp [prep]
    | err => rw [loop_err hi, loop_err (iter_push_err hi x)]
    | next d' m =>
      rw [loop_next hi, loop_next (iter_push_next hi x)]
      have hlt := Dec.iter_decreases hi
      rw [ih d' (by omega)]
      cases d'.loop c with
      | none => rfl
      | some p => simp only [prep]; cases (p.2.push x).loop c <;> simp

/-- C18: for arbitrary bytes (valid or not), decoding two pieces together is decoding the first and then the
second: the same messages in the same order, an error in the one case exactly if in the other. -/
theorem C18_split (c : Codec M S D) (d : Dec D) (x y : Bytes) :
    d.decode c (x ++ y) = match d.decode c x with
      | none => none
      | some (ms, d') => prep ms (d'.decode c y) := by
  have := loop_push c y _ (d.push x) (Nat.lt_succ_self _)
  have e : (d.push x).push y = d.push (x ++ y) := by simp [Dec.push]
  rw [e] at this
  exact this

/-- Decoding nothing changes nothing once a decoder has been run. -/
theorem loop_idem (c : Codec M S D) (n : Nat) : ∀ d : Dec D,
    2 * d.buf.length + (if d.size.isSome then 1 else 0) < n → ∀ ms d', d.loop c = some (ms, d') → d'.iter c = .more := by
  induction n with
  | zero => intro d h; omega
  | succ n ih =>
    intro d h ms d' hl
    cases hi : d.iter c with
    | more => rw [loop_more hi] at hl; cases hl; exact hi
    | err => rw [loop_err hi] at hl; cases hl
    | next d1 m =>
      have hlt := Dec.iter_decreases hi
      rw [loop_next hi] at hl
      cases h1 : d1.loop c with
      | none => rw [h1] at hl; cases hl
      | some p =>
        rw [h1] at hl
        cases hl
        exact ih d1 (by omega) p.1 p.2 h1

/-- C18: for arbitrary bytes, however they are split into chunks (also empty ones), decoding the chunks one
after the other gives what decoding them at once gives. -/
theorem C18_chunks (c : Codec M S D) (chunks : List Bytes) (d : Dec D) (hd : d.iter c = .more) :
    d.feed c chunks = d.decode c chunks.flatten := by
  induction chunks generalizing d with
  | nil =>
    have : d.decode c [] = d.loop c := by simp [Dec.decode]
    simp only [Dec.feed, List.flatten_nil]
    rw [this, loop_more hd]
  | cons x xs ih =>
    rw [List.flatten_cons, C18_split]
    simp only [Dec.feed]
    cases h : d.decode c x with
    | none => rfl
    | some p =>
      simp only
      rw [ih p.2 (loop_idem c _ _ (Nat.lt_succ_self _) p.1 p.2 h)]
      cases p.2.decode c xs.flatten <;> rfl

/-! ### Messages that were encoded -/

theorem getU32_putU32 {n : Nat} (h : n < 4294967296) :
    getU32 (n / 16777216 % 256) (n / 65536 % 256) (n / 256 % 256) (n % 256) = n := by
  unfold getU32; omega

/-- A frame: the flag, the length and the payload. -/
def frame (flag : Nat) (b : Bytes) : Bytes := flag :: putU32 b.length ++ b

theorem iter_header (c : Codec M S D) (z : Option D) (k : Bool) (flag : Nat) (b rest : Bytes) (hb : b.length < 4294967296) :
    (⟨frame flag b ++ rest, z, k, none⟩ : Dec D).iter c = .next ⟨b ++ rest, z, flag == 1, some b.length⟩ none := by
  simp only [frame, putU32, Dec.iter, List.cons_append, List.nil_append]
  rw [getU32_putU32 hb]

/-- The message to be decoded from a frame, with the next state of the decompressor. -/
def decodes (c : Codec M S D) (z : Option D) (flag : Nat) (b : Bytes) (z' : Option D) (m : M) : Prop :=
  (flag = 0 ∧ z' = z ∧ c.parse b = some m) ∨
  (flag = 1 ∧ ∃ s s' p, z = some s ∧ z' = some s' ∧ c.decomp s b = some (s', p) ∧ c.parse p = some m)

theorem loop_frame {c : Codec M S D} {z z' : Option D} {flag : Nat} {b : Bytes} {m : M} (hb : b.length < 4294967296)
    (h : decodes c z flag b z' m) (k : Bool) (rest : Bytes) :
    (⟨frame flag b ++ rest, z, k, none⟩ : Dec D).loop c = prep [m] ((⟨rest, z', flag == 1, none⟩ : Dec D).loop c) := by
  rw [loop_next (iter_header c z k flag b rest hb)]
  have hi : (⟨b ++ rest, z, flag == 1, some b.length⟩ : Dec D).iter c = .next ⟨rest, z', flag == 1, none⟩ (some m) := by
    simp only [Dec.iter, Dec.payload, List.length_append]
    rw [if_pos (by omega)]
    rcases h with ⟨rfl, rfl, hp⟩ | ⟨rfl, s, s', p, rfl, rfl, hd, hp⟩
    · simp [hp]
    · simp [hd, hp]
  rw [loop_next hi]
  cases (⟨rest, z', flag == 1, none⟩ : Dec D).loop c <;> simp [prep]

/-- Every encoded message is a frame that decodes to it. -/
theorem encode_frame {c : Codec M S D} {R : S → D → Prop} (hg : c.Good R) (e : Option S) (z : Option D)
    (hR : ∀ s, e = some s → ∃ d, z = some d ∧ R s d) (m : M) :
    ∃ flag b z', (encode c e m).2 = frame flag b ∧ decodes c z flag b z' m ∧
      (∀ s, (encode c e m).1 = some s → ∃ d, z' = some d ∧ R s d) := by
  unfold encode
  cases e with
  | none =>
    exact ⟨0, c.ser m, z, rfl, Or.inl ⟨rfl, rfl, hg.parse m⟩, fun s h => by cases h⟩
  | some s =>
    simp only
    split
    · cases hc : c.comp s (c.ser m) with
      | none => exact ⟨0, c.ser m, z, rfl, Or.inl ⟨rfl, rfl, hg.parse m⟩, fun s h => by cases h⟩
      | some p =>
        obtain ⟨d, rfl, hr⟩ := hR s rfl
        obtain ⟨d', hd, hr'⟩ := hg.comp s d _ p.1 p.2 hr hc
        exact ⟨1, p.2, some d', rfl, Or.inr ⟨rfl, d, d', _, rfl, rfl, hd, hg.parse m⟩, fun s h => by
          cases h; exact ⟨d', rfl, hr'⟩⟩
    · exact ⟨0, c.ser m, z, rfl, Or.inl ⟨rfl, rfl, hg.parse m⟩, fun s' h => by cases h; exact hR s rfl⟩

/-- The payloads of all frames are shorter than 2^32 bytes. -/
def Short (c : Codec M S D) : Option S → List M → Prop
  | _, [] => True
  | e, m :: ms => (encode c e m).2.length < 4294967296 + 5 ∧ Short c (encode c e m).1 ms

theorem frame_length (flag : Nat) (b : Bytes) : (frame flag b).length = b.length + 5 := by simp [frame, putU32]

theorem decode_all {c : Codec M S D} {R : S → D → Prop} (hg : c.Good R) (ms : List M) :
    ∀ (e : Option S) (z : Option D), (∀ s, e = some s → ∃ d, z = some d ∧ R s d) → Short c e ms → ∀ (k : Bool) (rest : Bytes),
    ∃ z' k', (⟨(encodeAll c e ms).2 ++ rest, z, k, none⟩ : Dec D).loop c = prep ms ((⟨rest, z', k', none⟩ : Dec D).loop c) ∧
      (∀ s, (encodeAll c e ms).1 = some s → ∃ d, z' = some d ∧ R s d) := by
  induction ms with
  | nil =>
    intro e z hR _ k rest
    refine ⟨z, k, ?_, hR⟩
    simp only [encodeAll, List.nil_append]
    cases (⟨rest, z, k, none⟩ : Dec D).loop c <;> simp [prep]
  | cons m ms ih =>
    intro e z hR hs k rest
    obtain ⟨flag, b, z1, h1, h2, h3⟩ := encode_frame hg e z hR m
    have hlen : b.length < 4294967296 := by
      have := hs.1
      rw [h1, frame_length] at this
      omega
    obtain ⟨z', k', h4, h5⟩ := ih (encode c e m).1 z1 h3 hs.2 (flag == 1) rest
    refine ⟨z', k', ?_, h5⟩
    simp only [encodeAll]
    rw [h1, List.append_assoc, loop_frame hlen h2, h4, prep_prep]; rfl

/-- C18: a message of less than 100 bytes goes out as it is and leaves the compressor alone; any other one is compressed unless the
compressor fails, which ends compression for this stream. -/
theorem C18_compressed (c : Codec M S D) (s : S) (m : M) :
    ((c.ser m).length < 100 → encode c (some s) m = (some s, 0 :: putU32 (c.ser m).length ++ c.ser m)) ∧
    (100 ≤ (c.ser m).length → ∀ s' b, c.comp s (c.ser m) = some (s', b) → encode c (some s) m = (some s', 1 :: putU32 b.length ++ b)) ∧
    (100 ≤ (c.ser m).length → c.comp s (c.ser m) = none → encode c (some s) m = (none, 0 :: putU32 (c.ser m).length ++ c.ser m)) := by
  refine ⟨fun h => ?_, fun h s' b hc => ?_, fun h hc => ?_⟩
  · simp only [encode]
    rw [if_neg (by unfold threshold; omega)]
    rfl
  · simp only [encode]
    rw [if_pos (by unfold threshold; omega), hc]
    rfl
  · simp only [encode]
    rw [if_pos (by unfold threshold; omega), hc]
    rfl

/-- C18: the messages encoded with any compression are decoded exactly, in order, however the bytes are split into
chunks. -/
theorem C18_roundtrip {c : Codec M S D} {R : S → D → Prop} (hg : c.Good R) (e : Option S) (z : Option D)
    (hR : ∀ s, e = some s → ∃ d, z = some d ∧ R s d) (ms : List M) (hs : Short c e ms) (chunks : List Bytes)
    (hc : chunks.flatten = (encodeAll c e ms).2) :
    ∃ d', (Dec.init z).feed c chunks = some (ms, d') ∧ d'.buf = [] ∧ d'.size = none := by
  rw [C18_chunks c chunks (Dec.init z) rfl, hc]
  obtain ⟨z', k', h, _⟩ := decode_all hg ms e z hR hs false []
  refine ⟨⟨[], z', k', none⟩, ?_, rfl, rfl⟩
  have e1 : (Dec.init z).decode c (encodeAll c e ms).2 = (⟨(encodeAll c e ms).2 ++ [], z, false, none⟩ : Dec D).loop c := by
    simp [Dec.decode, Dec.init]
  rw [e1, h, loop_more rfl]
  simp [prep]

/-- C18: a partial message is never delivered: of a stream cut in the middle of a message exactly the messages
before the cut are delivered, however the bytes are split into chunks. -/
theorem C18_partial_message {c : Codec M S D} {R : S → D → Prop} (hg : c.Good R) (e : Option S) (z : Option D)
    (hR : ∀ s, e = some s → ∃ d, z = some d ∧ R s d) (ms : List M) (m : M) (hs : Short c e (ms ++ [m]))
    (cut : Bytes) (rest : Bytes) (hcut : cut ++ rest = (encode c (encodeAll c e ms).1 m).2) (hrest : rest ≠ [])
    (chunks : List Bytes) (hc : chunks.flatten = (encodeAll c e ms).2 ++ cut) :
    ∃ d', (Dec.init z).feed c chunks = some (ms, d') := by
  have hs1 : Short c e ms ∧ (encode c (encodeAll c e ms).1 m).2.length < 4294967296 + 5 := by
    clear hcut hc hR
    induction ms generalizing e with
    | nil => exact ⟨trivial, hs.1⟩
    | cons a ms ih =>
      obtain ⟨h1, h2⟩ := ih (encode c e a).1 hs.2
      exact ⟨⟨hs.1, h1⟩, h2⟩
  rw [C18_chunks c chunks (Dec.init z) rfl, hc]
  obtain ⟨z', k', h, h5⟩ := decode_all hg ms e z hR hs1.1 false cut
  have e1 : (Dec.init z).decode c ((encodeAll c e ms).2 ++ cut) = (⟨(encodeAll c e ms).2 ++ cut, z, false, none⟩ : Dec D).loop c := by
    simp [Dec.decode, Dec.init]
  rw [e1, h]
  obtain ⟨flag, b, z1, h1, _, _⟩ := encode_frame hg _ z' h5 m
  rw [h1] at hcut
  have hblen : b.length < 4294967296 := by
    have := hs1.2
    rw [h1, frame_length] at this
    omega
  have hshort : cut.length < b.length + 5 := by
    have := congrArg List.length hcut
    rw [List.length_append, frame_length] at this
    have : 0 < rest.length := List.length_pos_iff.mpr hrest
    omega
  suffices hloop : ∃ d', (⟨cut, z', k', none⟩ : Dec D).loop c = some ([], d') by
    obtain ⟨d', hd⟩ := hloop
    exact ⟨d', by rw [hd]; simp [prep]⟩
  by_cases h5 : cut.length < 5
  · refine ⟨_, loop_more ?_⟩
    unfold Dec.iter
    simp only
    split
    · simp only [List.length_cons] at h5
      omega
    · rfl
  · have hcut' : ∃ t, cut = flag :: putU32 b.length ++ t := by
      refine ⟨cut.drop 5, ?_⟩
      have h6 : (cut ++ rest).take 5 = (frame flag b).take 5 := by rw [hcut]
      rw [List.take_append_of_le_length (by omega)] at h6
      have h7 : (frame flag b).take 5 = flag :: putU32 b.length := by simp [frame, putU32]
      rw [← h7, ← h6, List.take_append_drop]
    obtain ⟨t, rfl⟩ := hcut'
    have hi : (⟨flag :: putU32 b.length ++ t, z', k', none⟩ : Dec D).iter c = .next ⟨t, z', flag == 1, some b.length⟩ none := by
      simp only [putU32, Dec.iter, List.cons_append, List.nil_append]
      rw [getU32_putU32 hblen]
    rw [loop_next hi]
    have hmore : (⟨t, z', flag == 1, some b.length⟩ : Dec D).iter c = .more := by
      unfold Dec.iter
      simp only
      rw [if_neg]
      simp [putU32] at hshort
      omega
    rw [loop_more hmore]
    exact ⟨_, rfl⟩

/-- A codec meeting the assumptions: the compressor adds its state (a counter) in front of the bytes and the
decompressor checks and removes it. -/
def toyCodec : Codec Bytes Nat Nat where
  ser m := m
  parse b := some b
  comp s b := some (s + 1, s :: b)
  decomp d b := match b with
    | x :: b => if x = d then some (d + 1, b) else none
    | [] => none

example : toyCodec.Good (fun s d => s = d) ∧ Short toyCodec (some 3) [[1, 2], List.replicate 150 7, []] := by
  constructor
  · constructor
    · intro m; rfl
    · intro s d b s' b' h hc
      simp only [toyCodec, Option.some.injEq, Prod.mk.injEq] at hc
      obtain ⟨rfl, rfl⟩ := hc
      exact ⟨d + 1, by simp [toyCodec, h], by rw [h]⟩
  · simp [Short, toyCodec, encode, encodeUncompressed, frameCompressed, putU32, threshold]

end Verif.Grpc
