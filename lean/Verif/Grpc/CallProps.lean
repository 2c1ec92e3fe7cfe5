import Verif.Grpc.Call
import Verif.Grpc.Props

/-!
C68: a unary call gives the handler the request and the client the outcome.
C69: a handler is called only with a valid request.
C70: the reader of a stream gets what was sent, and how it ended.
-/
namespace Verif.Grpc

variable {M R S D : Type}

/-! ### Texts in headers -/

theorem pctByte_visible : ∀ b < 256, (pctByte b).all (fun c => (32 ≤ c.toNat && c.toNat < 127) || c.toNat == 9) = true := by
  decide +kernel

theorem visible_pct (s : String) : visible (pct s) = true := by
  unfold visible pct
  rw [String.toList_ofList, List.all_eq_true]
  intro c hc
  obtain ⟨b, _, hb⟩ := List.mem_flatMap.1 hc
  exact List.all_eq_true.1 (pctByte_visible b.toNat b.toNat_lt) c hb

theorem Code.roundtrip (c : Code) : Code.ofString (toString c.toInt) = c ∧ visible (toString c.toInt) = true := by
  cases c <;> decide +kernel

/-! ### Headers -/

theorem Headers.get_append {a b : Headers} {k : String} (h : ∀ p ∈ a, p.1 ≠ k) : Headers.get (a ++ b) k = Headers.get b k := by
  unfold Headers.get
  rw [List.find?_append]
  have : a.find? (fun p => p.1 == k) = none := by
    rw [List.find?_eq_none]; intro p hp; simpa using h p hp
  rw [this]; rfl

/-- The headers that a caller adds are none of those that say how a request is coded. -/
def Plain (h : Headers) : Prop :=
  ∀ p ∈ h, p.1 ≠ "grpc-encoding" ∧ p.1 ≠ "grpc-accept-encoding" ∧ p.1 ≠ "content-encoding"

theorem plain_filter {h : Headers} (hp : Plain h) (f : String × String → Bool) : Plain (h.filter f) :=
  fun p hm => hp p (List.mem_filter.1 hm).1

theorem request_headers (w : Wire M S D) (comp : Compression) {extra : Headers} (h : Plain extra) (m : M) :
    (unaryRequest w comp extra m).headers.get "grpc-encoding" = (if comp = .grpc then some "deflate" else none) ∧
    (unaryRequest w comp extra m).headers.get "grpc-accept-encoding" = (if comp = .grpc then some "deflate" else none) ∧
    (unaryRequest w comp extra m).headers.get "content-encoding" = (if comp = .snappy then some "snappy" else none) := by
  cases comp with
  | none =>
    refine ⟨?_, ?_, ?_⟩ <;> simp only [unaryRequest]
    · rw [Headers.get_append fun p hp => (h p hp).1]; decide
    · rw [Headers.get_append fun p hp => (h p hp).2.1]; decide
    · rw [Headers.get_append fun p hp => (h p hp).2.2]; decide
  | snappy =>
    refine ⟨?_, ?_, ?_⟩ <;> simp only [unaryRequest, Headers.append, List.append_assoc]
    · rw [Headers.get_append fun p hp => (h p hp).1]; decide
    · rw [Headers.get_append fun p hp => (h p hp).2.1]; decide
    · rw [Headers.get_append fun p hp => (h p hp).2.2]; decide
  | grpc =>
    have e : (unaryRequest w .grpc extra m).headers =
        (extra.filter (fun p => p.1 != "grpc-encoding")).filter (fun p => p.1 != "grpc-accept-encoding") ++
          [("grpc-encoding", "deflate"), ("grpc-accept-encoding", "deflate"), ("content-type", "application/grpc"), ("te", "trailers")] := by
      simp only [unaryRequest, Headers.insert, List.filter_append, List.append_assoc]
      rfl
    have hp := plain_filter (plain_filter h (fun p => p.1 != "grpc-encoding")) (fun p => p.1 != "grpc-accept-encoding")
    refine ⟨?_, ?_, ?_⟩ <;> rw [e]
    · rw [Headers.get_append fun p hm => (hp p hm).1]; decide
    · rw [Headers.get_append fun p hm => (hp p hm).2.1]; decide
    · rw [Headers.get_append fun p hm => (hp p hm).2.2]; decide

/-! ### Coding -/

/-- What is assumed of a serialiser and the compressors. -/
structure Wire.Good (w : Wire M S D) (R : S → D → Prop) : Prop where
  codec : w.codec.Good R
  start : R w.s0 w.d0
  snap : ∀ b, w.unsnap (w.snap b) = some b

theorem decode_one {w : Wire M S D} {Q : S → D → Prop} (hw : w.Good Q) (c : Bool) (m : M)
    (hs : (encode w.codec (if c then some w.s0 else none) m).2.length < 4294967296 + 5) :
    ∃ d', (Dec.init (if c then some w.d0 else none)).decode w.codec (encode w.codec (if c then some w.s0 else none) m).2 = some ([m], d') := by
  have := C18_roundtrip hw.codec (if c then some w.s0 else none) (if c then some w.d0 else none)
    (by
      intro s hs
      cases c with
      | true => simp only [if_true, Option.some.injEq] at hs; subst hs; exact ⟨w.d0, rfl, hw.start⟩
      | false => simp at hs) [m] ⟨hs, trivial⟩ [(encode w.codec (if c then some w.s0 else none) m).2]
    (by simp [encodeAll])
  obtain ⟨d', h, _⟩ := this
  refine ⟨d', ?_⟩
  simp only [Dec.feed] at h
  revert h
  cases (Dec.init (if c then some w.d0 else none)).decode w.codec (encode w.codec (if c then some w.s0 else none) m).2 with
  | none => simp
  | some p => simp; exact fun h1 h2 => Prod.ext h1 h2

/-- A message that fits, with the compression of a call. -/
def Fits (w : Wire M S D) (compressed : Bool) (m : M) : Prop :=
  (encode w.codec (if compressed then some w.s0 else none) m).2.length < 4294967296 + 5

theorem decode_sent {w : Wire M S D} {Q : S → D → Prop} (hw : w.Good Q) (comp : Compression) {extra : Headers} (h : Plain extra)
    (m : M) (hf : Fits w (comp == .grpc) m) (validate : Option (M → Option String)) :
    decodeRequest w validate (unaryRequest w comp extra m) = match validate.bind fun v => v m with
      | some e => .error (.grpc ⟨.invalidArgument, some ("Invalid request: " ++ e)⟩)
      | none => .ok m := by
  obtain ⟨h1, _, h3⟩ := request_headers w comp h m
  obtain ⟨d', hd⟩ := decode_one hw (comp == .grpc) m hf
  have hdec : decompression w (unaryRequest w comp extra m).headers = if (comp == .grpc) = true then some w.d0 else none := by
    unfold decompression; rw [h1]; cases comp <;> simp
  unfold decodeRequest
  rw [h3, hdec]
  have hbody : (if (if comp = .snappy then some "snappy" else none) = some "snappy" then w.unsnap (unaryRequest w comp extra m).body
      else some (unaryRequest w comp extra m).body) = some (encode w.codec (if (comp == .grpc) = true then some w.s0 else none) m).2 := by
    cases comp with
    | none => rfl
    | grpc => rfl
    | snappy => simp only [if_true]; exact hw.snap _
  simp only [hbody, hd]
  cases validate.bind fun v => v m <;> rfl

/-! ### Unary calls -/

/-- What a client is to see of an error of a handler. -/
def Err.seen : Err → Status
  | .grpc s => ⟨s.code, s.message.map pct⟩
  | .connectionTimeout | .requestTimeout => ⟨.internal, some (pct "upstream timeout")⟩
  | .codec _ | .protoValidation _ | .snap _ => ⟨.internal, some "Non-200 response code: 400"⟩
  | .bodyStream _ | .closed | .hyperClient _ => ⟨.internal, some "Non-200 response code: 500"⟩

theorem check_status (s : Status) : ∃ r, s.response = some r ∧ checkResponse r = .error (.grpc ⟨s.code, s.message.map pct⟩) := by
  obtain ⟨c, m⟩ := s
  obtain ⟨h1, h2⟩ := Code.roundtrip c
  have h1 : Code.ofString c.toInt.repr = c := h1
  have h2 : visible c.toInt.repr = true := h2
  cases m with
  | none =>
    refine ⟨_, rfl, ?_⟩
    simp [checkResponse, Headers.get, statusOf, h1, h2]
  | some m =>
    refine ⟨⟨200, [("grpc-status", toString c.toInt), ("grpc-message", pct m)], []⟩, ?_, ?_⟩
    · simp [Status.response, headerValue, visible_pct]
    · simp [checkResponse, Headers.get, statusOf, h1, h2, headerValue, visible_pct]

theorem check_error (e : Err) : ∃ r, e.response = some r ∧ checkResponse r = .error (.grpc e.seen) := by
  cases e with
  | grpc s => exact check_status s
  | connectionTimeout => exact check_status ⟨.internal, some "upstream timeout"⟩
  | requestTimeout => exact check_status ⟨.internal, some "upstream timeout"⟩
  | codec t => exact ⟨_, rfl, rfl⟩
  | protoValidation t => exact ⟨_, rfl, rfl⟩
  | snap t => exact ⟨_, rfl, rfl⟩
  | bodyStream t => exact ⟨_, rfl, rfl⟩
  | closed => exact ⟨_, rfl, rfl⟩
  | hyperClient t => exact ⟨_, rfl, rfl⟩

theorem unaryResult_error {v : Wire R S D} {r : Response} {e : Err} (h : checkResponse r = .error e) : unaryResult v r = .error e := by
  unfold unaryResult; rw [h]

/-- What a call is to come to: the handler is called with the request if it is valid, and the client gets its response,
or the code of its error. -/
def outcome (validate : Option (M → Option String)) (handler : M → Except Err R) (m : M) : List M × Except Status R :=
  match validate.bind fun v => v m with
  | some e => ([], .error ⟨.invalidArgument, some (pct ("Invalid request: " ++ e))⟩)
  | none => ([m], match handler m with
    | .ok x => .ok x
    | .error e => .error e.seen)

/-- C68: for every request, handler, validation and compression, the handler is called with the request exactly once (not
at all if it is not valid), and the client gets the response, or an error with the code of the handler's status.  Missing:
the text of the status, which arrives as it was coded for the header (`C68_message_violated`). -/
theorem C68_unary_partial {w : Wire M S D} {v : Wire R S D} {Q Q' : S → D → Prop} (hw : w.Good Q) (hv : v.Good Q')
    (comp : Compression) {extra : Headers} (h : Plain extra) (m : M) (hf : Fits w (comp == .grpc) m)
    (validate : Option (M → Option String)) (handler : M → Except Err R)
    (hr : ∀ x, handler m = .ok x → Fits v (comp == .grpc) x) :
    ∃ r, serveUnary w v validate handler (unaryRequest w comp extra m) = ((outcome validate handler m).1, some r) ∧
      unaryResult v r = match (outcome validate handler m).2 with
        | .ok x => .ok x
        | .error s => .error (.grpc s) := by
  unfold serveUnary outcome
  rw [decode_sent hw comp h m hf]
  cases hval : validate.bind fun v => v m with
  | some e =>
    simp only
    obtain ⟨r, h1, h2⟩ := check_error (.grpc ⟨.invalidArgument, some ("Invalid request: " ++ e)⟩)
    exact ⟨r, by rw [h1], unaryResult_error h2⟩
  | none =>
    simp only
    cases hh : handler m with
    | error e =>
      obtain ⟨r, h1, h2⟩ := check_error e
      exact ⟨r, by rw [← h1], unaryResult_error h2⟩
    | ok x =>
      refine ⟨_, rfl, ?_⟩
      simp only
      have hc : responseCompression v (unaryRequest w comp extra m).headers = if (comp == .grpc) = true then some v.s0 else none := by
        unfold responseCompression; rw [(request_headers w comp h m).2.1]; cases comp <;> simp
      rw [hc]
      obtain ⟨d', hd⟩ := decode_one hv (comp == .grpc) x (hr x hh)
      have hck : ∀ (b : Bool) (fs : List Frame), checkResponse (grpcResponse b fs) = .ok (grpcResponse b fs) := by
        intro b fs; cases b <;> simp [checkResponse, grpcResponse, Headers.get]
      have hdc : ∀ (b : Bool) (fs : List Frame), decompression v (grpcResponse b fs).headers = if b = true then some v.d0 else none := by
        intro b fs; cases b <;> simp [decompression, grpcResponse, Headers.get]
      unfold unaryResult
      rw [hck]
      simp only [hdc]
      have : (if (comp == Compression.grpc) = true then some v.s0 else none).isSome = (comp == .grpc) := by
        cases comp <;> rfl
      rw [this]
      simp only [grpcResponse, bytesOf, List.append_nil, hd]

/-- A wire that meets the assumptions. -/
def toyWire : Wire Bytes Nat Nat := ⟨toyCodec, 0, 0, List.reverse, fun b => some b.reverse⟩

example : toyWire.Good (fun s d => s = d) ∧ Plain [("x-key", "1")] ∧ Fits toyWire true (List.replicate 150 7) := by
  refine ⟨⟨⟨fun m => rfl, ?_⟩, rfl, fun b => by simp [toyWire]⟩, by simp [Plain], ?_⟩
  · intro s d b s' b' h hc
    simp only [toyWire, toyCodec, Option.some.injEq, Prod.mk.injEq] at hc
    obtain ⟨rfl, rfl⟩ := hc
    exact ⟨d + 1, by simp [toyWire, toyCodec, h], by rw [h]⟩
  · simp [Fits, toyWire, toyCodec, encode, frameCompressed, putU32, threshold]

/-- C68 is violated for the text of a status: it is coded for the header and never decoded. -/
theorem C68_message_violated : ∃ r, (Err.grpc ⟨.notFound, some "no such key"⟩).response = some r ∧
    unaryResult toyWire r = .error (.grpc ⟨.notFound, some "no%20such%20key"⟩) := by
  obtain ⟨r, h1, h2⟩ := check_error (.grpc ⟨.notFound, some "no such key"⟩)
  refine ⟨r, h1, ?_⟩
  have : pct "no such key" = "no%20such%20key" := by decide +kernel
  simp only [Err.seen, Option.map_some, this] at h2
  exact unaryResult_error h2

/-- A response with an error in its trailers is taken for a success by a unary call if there is a message in it (this
server sends no such response). -/
theorem C68_trailers_violated (x : R) (v : Wire R S D) {Q : S → D → Prop} (hv : v.Good Q) (hf : Fits v false x) (code : Code) :
    unaryResult v ⟨200, [], [.data (encode v.codec none x).2, .trailers [("grpc-status", toString code.toInt)]]⟩ = .ok x := by
  obtain ⟨d', hd⟩ := decode_one hv false x hf
  simp only [Bool.false_eq_true, if_false] at hd
  simp [unaryResult, checkResponse, Headers.get, decompression, bytesOf, hd]

/-- The timeout of a unary call ends with the headers of the response. -/
theorem C68_timeout_violated (timeout : Nat) : ∀ late, ∃ headers body, timeout + late < unaryEnds timeout headers body := by
  intro late
  refine ⟨0, timeout + late + 1, ?_⟩
  unfold unaryEnds
  rw [if_neg (by omega)]
  omega

/-! ### What a handler is called with -/

/-- The bytes of the messages in a request. -/
def Request.content (w : Wire M S D) (r : Request) (b : Bytes) : Prop :=
  if r.headers.get "content-encoding" = some "snappy" then w.unsnap r.body = some b else r.body = b

theorem decodeRequest_ok {w : Wire M S D} {validate : Option (M → Option String)} {r : Request} {m : M}
    (h : decodeRequest w validate r = .ok m) :
    (∀ v, validate = some v → v m = none) ∧ ∃ b d', r.content w b ∧
      (Dec.init (if r.headers.get "grpc-encoding" = some "deflate" then some w.d0 else none)).decode w.codec b = some ([m], d') := by
  unfold decodeRequest at h
  have hb : ∀ b, (if r.headers.get "content-encoding" = some "snappy" then w.unsnap r.body else some r.body) = some b →
      r.content w b := by
    intro b hb; unfold Request.content; split at hb <;> rename_i hc
    · rw [if_pos hc]; exact hb
    · rw [if_neg hc]; simpa using hb
  generalize (if r.headers.get "content-encoding" = some "snappy" then w.unsnap r.body else some r.body) = body at h hb
  cases body with
  | none => cases h
  | some b =>
    simp only at h
    split at h
    · cases h
    · rename_i m' d' hd
      split at h
      · cases h
      · rename_i hv
        cases h
        refine ⟨?_, b, d', hb b rfl, hd⟩
        rintro v rfl; simpa using hv
    · cases h

/-- C69: whatever the bytes of a request, a unary handler and a stream handler are called at most once, with the one
complete message of the body, and only if it is valid.  Missing: that nothing follows the message
(`C69_rest_violated`). -/
theorem C69_handler_partial (w : Wire M S D) (v : Wire R S D) (validate : Option (M → Option String)) (r : Request) (m : M) :
    (∀ handler, m ∈ (serveUnary w v validate handler r).1 → (serveUnary w v validate handler r).1 = [m] ∧
      (∀ f, validate = some f → f m = none) ∧ ∃ b d', r.content w b ∧
      (Dec.init (if r.headers.get "grpc-encoding" = some "deflate" then some w.d0 else none)).decode w.codec b = some ([m], d')) ∧
    (∀ compress handler, m ∈ (serveStream w v validate compress handler r).1 → (serveStream w v validate compress handler r).1 = [m] ∧
      (∀ f, validate = some f → f m = none) ∧ ∃ b d', r.content w b ∧
      (Dec.init (if r.headers.get "grpc-encoding" = some "deflate" then some w.d0 else none)).decode w.codec b = some ([m], d')) := by
  constructor
  · intro handler hm
    unfold serveUnary at hm ⊢
    cases hd : decodeRequest w validate r with
    | error e => rw [hd] at hm; cases hm
    | ok m' =>
      simp only [hd] at hm ⊢
      have : m = m' := by cases hh : handler m' <;> rw [hh] at hm <;> simpa using hm
      subst this
      refine ⟨?_, decodeRequest_ok hd⟩
      cases handler m <;> rfl
  · intro compress handler hm
    unfold serveStream at hm ⊢
    cases hd : decodeRequest w validate r with
    | error e => rw [hd] at hm; cases hm
    | ok m' =>
      simp only [hd] at hm ⊢
      have : m = m' := by simpa using hm
      subst this
      exact ⟨rfl, decodeRequest_ok hd⟩

/-- C69 is violated for what follows: a body that is cut in a second message is taken for the first. -/
theorem C69_rest_violated (w : Wire M S D) (v : Wire R S D) {Q : S → D → Prop} (hw : w.Good Q) (m m2 : M)
    (hf : Fits w false m) (hf2 : Fits w false m2) (cut rest : Bytes) (hcut : cut ++ rest = (encode w.codec none m2).2) (hrest : rest ≠ [])
    (handler : M → Except Err R) :
    (serveUnary w v none handler ⟨[], (encode w.codec none m).2 ++ cut⟩).1 = [m] := by
  have h := C18_partial_message hw.codec none none (by intro s h; cases h) [m] m2 ⟨hf, hf2, trivial⟩ cut rest (by simpa [encodeAll, encode] using hcut)
    hrest [(encode w.codec none m).2 ++ cut] (by simp [encodeAll])
  obtain ⟨d', h⟩ := h
  have hd : (Dec.init (none : Option D)).decode w.codec ((encode w.codec none m).2 ++ cut) = some ([m], d') := by
    simp only [Dec.feed] at h
    revert h
    cases (Dec.init (none : Option D)).decode w.codec ((encode w.codec none m).2 ++ cut) with
    | none => simp
    | some p => simp; exact fun h1 h2 => Prod.ext h1 h2
  simp only [serveUnary, decodeRequest, Headers.get, decompression, List.find?_nil, Option.map_none, reduceCtorEq, if_false, hd,
    Option.bind_none]
  cases handler m <;> rfl

/-- **C68 (answers).** What a unary call returns is the one message of a response of status 2xx without a status in
its headers; anything else is an error. -/
theorem C68_answer (v : Wire R S D) (r : Response) (x : R) (h : unaryResult v r = .ok x) :
    200 ≤ r.status ∧ r.status < 300 ∧ r.headers.get "grpc-status" = none ∧
    ∃ d, (Dec.init (decompression v r.headers)).decode v.codec (bytesOf r.frames) = some ([x], d) := by
  unfold unaryResult at h
  cases hc : checkResponse r with
  | error e => rw [hc] at h; cases h
  | ok r' =>
    rw [hc] at h
    have hr : r' = r ∧ 200 ≤ r.status ∧ r.status < 300 ∧ r.headers.get "grpc-status" = none := by
      unfold checkResponse at hc
      split at hc
      · cases hc
      · rename_i hs
        have hs := Decidable.not_not.mp hs
        cases hg : r.headers.get "grpc-status" with
        | none => rw [hg] at hc; injection hc with hc; exact ⟨hc.symm, hs.1, hs.2, rfl⟩
        | some c => rw [hg] at hc; cases hc
    obtain ⟨rfl, h1, h2, h3⟩ := hr
    refine ⟨h1, h2, h3, ?_⟩
    simp only at h
    cases hd : (Dec.init (decompression v r'.headers)).decode v.codec (bytesOf r'.frames) with
    | none => rw [hd] at h; cases h
    | some p =>
      obtain ⟨ms, d⟩ := p
      rw [hd] at h
      match ms, h with
      | [y], h => injection h with h; subst h; exact ⟨d, rfl⟩

/-- **C68 (time).** A unary call whose response does not start in time is over when the time is. -/
theorem C68_headers_in_time (timeout headers body : Nat) (h : timeout < headers) :
    unaryEnds timeout headers body = timeout := by
  unfold unaryEnds; rw [if_pos h]

example : unaryEnds 15 40 41 = 15 := rfl

end Verif.Grpc
