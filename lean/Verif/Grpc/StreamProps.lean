import Verif.Grpc.CallProps

/-!
C70: the reader of a stream gets what was sent, and how it ended.
-/
namespace Verif.Grpc

variable {M R S D : Type}

/-- Data frames in any chunks, with frames of other kinds in between. -/
inductive Chunked : List Bytes → List Frame → Prop where
  | nil : Chunked [] []
  | data {b l fs} : Chunked l fs → Chunked (b :: l) (.data b :: fs)
  | other {l fs} : Chunked l fs → Chunked l (.other :: fs)

theorem firstInvalid_none {validate : Option (R → Option String)} {l : List R} :
    firstInvalid validate l = none ↔ ∀ f, validate = some f → ∀ m ∈ l, f m = none := by
  unfold firstInvalid
  cases validate with
  | none => simp
  | some f => simp

theorem firstInvalid_some {validate : Option (R → Option String)} {l : List R} {e : String}
    (h : firstInvalid validate l = some e) : ∃ f, validate = some f ∧ ∃ m ∈ l, f m = some e := by
  unfold firstInvalid at h
  cases validate with
  | none => simp at h
  | some f =>
    simp only [Option.bind_some] at h
    obtain ⟨m, hm, he⟩ := List.exists_of_findSome?_eq_some h
    exact ⟨f, rfl, m, hm, he⟩

theorem readAll_chunks (c : Codec R S D) (validate : Option (R → Option String)) {chunks : List Bytes} {fs : List Frame}
    (hfs : Chunked chunks fs) (tail : List Frame) : ∀ (d d' : Dec D) (ms : List R), d.feed c chunks = some (ms, d') →
    (∀ f, validate = some f → ∀ m ∈ ms, f m = none) →
    ∃ bs : List (List R), bs.flatten = ms ∧
      readAll c validate d (fs ++ tail) = (bs ++ (readAll c validate d' tail).1, (readAll c validate d' tail).2) := by
  induction hfs with
  | nil =>
    intro d d' ms h _
    simp only [Dec.feed, Option.some.injEq, Prod.mk.injEq] at h
    obtain ⟨rfl, rfl⟩ := h
    exact ⟨[], rfl, rfl⟩
  | @data b l fs _ ih =>
    intro d d' ms h hv
    simp only [Dec.feed] at h
    cases hd : d.decode c b with
    | none => rw [hd] at h; cases h
    | some p =>
      obtain ⟨m1, d1⟩ := p
      simp only [hd] at h
      cases hf : d1.feed c l with
      | none => rw [hf] at h; cases h
      | some q =>
        obtain ⟨m2, d2⟩ := q
        simp only [hf, Option.some.injEq, Prod.mk.injEq] at h
        obtain ⟨rfl, rfl⟩ := h
        obtain ⟨bs, h1, h2⟩ := ih d1 d2 m2 hf fun f hf' m hm => hv f hf' m (List.mem_append_right _ hm)
        have hn : firstInvalid validate m1 = none :=
          firstInvalid_none.2 fun f hf' m hm => hv f hf' m (List.mem_append_left _ hm)
        refine ⟨if m1.isEmpty then bs else m1 :: bs, ?_, ?_⟩
        · cases m1 with
          | nil => simpa using h1
          | cons a m1 => simp [h1]
        · simp only [List.cons_append, readAll, hd, hn, h2]
          cases m1 <;> rfl
  | other _ ih =>
    intro d d' ms h hv
    obtain ⟨bs, h1, h2⟩ := ih d d' ms h hv
    exact ⟨bs, h1, by simpa [readAll] using h2⟩

theorem dataFrames_bytes (c : Codec R S D) (ms : List R) : ∀ e, bytesOf (dataFrames c e ms) = (encodeAll c e ms).2 := by
  induction ms with
  | nil => intro e; rfl
  | cons m ms ih => intro e; simp [dataFrames, encodeAll, bytesOf, ih]

theorem bytesOf_append (a b : List Frame) : bytesOf (a ++ b) = bytesOf a ++ bytesOf b := by
  induction a with
  | nil => rfl
  | cons f a ih => cases f <;> simp [bytesOf, ih]

/-- What may become of a body on the way: the bytes stay, in other chunks; what ends it stays. -/
def Rechunked (sent received : List Frame) : Prop :=
  ∃ ds fs tail chunks, sent = ds ++ tail ∧ received = fs ++ tail ∧ (∀ f ∈ ds, ∃ b, f = .data b) ∧ (∀ f ∈ tail, ∀ b, f ≠ .data b) ∧
    Chunked chunks fs ∧ chunks.flatten = bytesOf ds

/-- How a reader is to see the end of a stream. -/
def Ends : Except Err Unit → End → Prop
  | .ok _, e => e = .complete
  | .error (.grpc s), e => e = .error (.grpc s)
  | .error x, e => e = .error (.grpc ⟨.internal, some x.display⟩)

/-- The error of a handler can be told: its status is an error and its text is plain. -/
def Telling : Except Err Unit → Prop
  | .ok _ => True
  | .error e => e.status.code ≠ .ok ∧ ∀ t, e.status.message = some t → visible t = true

theorem endFrames_spec {res : Except Err Unit} (ht : Telling res) : ∃ h, endFrames res = [.trailers h] ∧ Ends res (endOf h) := by
  cases res with
  | ok u => exact ⟨_, rfl, show endOf _ = _ by decide +kernel⟩
  | error e =>
    have key : ∃ h, errorTrailers e.status = [.trailers h] ∧ endOf h = .error (.grpc e.status) := by
      obtain ⟨h1, h2⟩ := Code.roundtrip e.status.code
      have h1 : Code.ofString e.status.code.toInt.repr = e.status.code := h1
      have h2 : visible e.status.code.toInt.repr = true := h2
      obtain ⟨hc, hm⟩ := ht
      unfold errorTrailers
      cases hmsg : e.status.message with
      | none =>
        refine ⟨_, rfl, ?_⟩
        simp [endOf, h1, h2, hc]
        rw [← hmsg]
      | some t =>
        simp only [headerValue, hm t hmsg, if_true]
        refine ⟨_, rfl, ?_⟩
        simp [endOf, h1, h2, hc, hm t hmsg]
        rw [← hmsg]
    obtain ⟨h, e1, e2⟩ := key
    refine ⟨h, e1, ?_⟩
    rw [e2]
    cases e <;> rfl

theorem checkResponse_grpc (b : Bool) (fs : List Frame) : checkResponse (grpcResponse b fs) = .ok (grpcResponse b fs) := by
  cases b <;> simp [checkResponse, grpcResponse, Headers.get]

theorem decompression_grpc (v : Wire R S D) (b : Bool) (fs : List Frame) :
    decompression v (grpcResponse b fs).headers = if b = true then some v.d0 else none := by
  cases b <;> simp [decompression, grpcResponse, Headers.get]

/-- The split of a body at its end is the only one. -/
theorem split_end {ds a tail : List Frame} {h : Headers} (hd : ∀ f ∈ a, ∃ b, f = .data b) (hds : ∀ f ∈ ds, ∃ b, f = .data b)
    (ht : ∀ f ∈ tail, ∀ b, f ≠ .data b) (e : a ++ [.trailers h] = ds ++ tail) : tail = [.trailers h] ∧ ds = a := by
  rcases List.eq_nil_or_concat tail with rfl | ⟨t, x, rfl⟩
  · obtain ⟨b, hb⟩ := hds (.trailers h) (by rw [List.append_nil] at e; rw [← e]; simp)
    cases hb
  · rw [List.concat_eq_append, ← List.append_assoc] at e
    obtain ⟨e1, e2⟩ := List.append_inj' e rfl
    have : t = [] := by
      rcases t with _ | ⟨y, t⟩
      · rfl
      · obtain ⟨b, hb⟩ := hd y (by rw [e1]; simp)
        exact absurd hb (ht y (by simp) b)
    subst this
    simp only [List.cons.injEq, and_true] at e2
    subst e2
    exact ⟨rfl, by simpa using e1.symm⟩

theorem dataFrames_data (c : Codec R S D) (ms : List R) : ∀ e, ∀ f ∈ dataFrames c e ms, ∃ b, f = .data b := by
  induction ms with
  | nil => intro e f hf; cases hf
  | cons m ms ih =>
    intro e f hf
    rcases List.mem_cons.1 hf with rfl | hf
    · exact ⟨_, rfl⟩
    · exact ih _ f hf

/-- C70: for every request that reaches a stream handler, whatever the handler sends, with or without compression, and
however the bytes are split on the way, the reader gets the messages that were sent, in order, and the end that the
handler came to.  Missing: an error with a text that is not plain, or with the code OK (`C70_text_violated`,
`C70_code_violated`), and streams with a message that is not valid (`C70_invalid_partial`). -/
theorem C70_stream_partial {w : Wire M S D} {v : Wire R S D} {Q : S → D → Prop} (hv : v.Good Q) (validate : Option (M → Option String))
    (compress : Bool) (handler : M → List R × Except Err Unit) (r : Request) (m : M) (hm : decodeRequest w validate r = .ok m)
    (hs : ∀ e, e = none ∨ e = some v.s0 → Short v.codec e (handler m).1) (ht : Telling (handler m).2)
    (check : Option (R → Option String)) (hc : ∀ f, check = some f → ∀ x ∈ (handler m).1, f x = none) :
    ∃ resp, serveStream w v validate compress handler r = ([m], some resp) ∧
      ∀ received, Rechunked resp.frames received →
        (streamResult v check { resp with frames := received }).1.flatten = (handler m).1 ∧
        Ends (handler m).2 (streamResult v check { resp with frames := received }).2 := by
  unfold serveStream
  rw [hm]
  refine ⟨_, rfl, ?_⟩
  intro received hr
  generalize hcomp : (if compress = true then responseCompression v r.headers else none) = e at hr ⊢
  have he : e = none ∨ e = some v.s0 := by
    rw [← hcomp]; unfold responseCompression; split
    · split
      · exact .inr rfl
      · exact .inl rfl
    · exact .inl rfl
  obtain ⟨h, hend, hends⟩ := endFrames_spec ht
  simp only [grpcResponse, hend] at hr
  obtain ⟨ds, fs, tail, chunks, h1, h2, h3', h3, h4, h5⟩ := hr
  obtain ⟨rfl, rfl⟩ := split_end (dataFrames_data v.codec _ e) h3' h3 h1
  have hbytes : chunks.flatten = (encodeAll v.codec e (handler m).1).2 := by rw [h5, dataFrames_bytes]
  have hz : ∀ s, e = some s → ∃ d, (if e.isSome = true then some v.d0 else none) = some d ∧ Q s d := by
    intro s hs'
    rcases he with rfl | rfl
    · cases hs'
    · cases hs'; exact ⟨v.d0, rfl, hv.start⟩
  obtain ⟨d', hd, _⟩ := C18_roundtrip hv.codec e (if e.isSome = true then some v.d0 else none) hz (handler m).1 (hs e he) chunks hbytes
  obtain ⟨bs, hbs, hread⟩ := readAll_chunks v.codec check h4 [.trailers h] _ d' _ hd hc
  have hres : streamResult v check ⟨200, ("content-type", "application/grpc") :: (if e.isSome = true then [("grpc-encoding", "deflate")] else []), received⟩ =
      (bs, endOf h) := by
    unfold streamResult
    have := checkResponse_grpc e.isSome received
    unfold grpcResponse at this
    rw [this]
    simp only
    have hdc := decompression_grpc v e.isSome received
    simp only [grpcResponse] at hdc
    rw [hdc, h2, hread]
    simp [readAll]
  simp only [grpcResponse]
  rw [hres]
  exact ⟨hbs, hends⟩

/-- A handler that sends two messages and fails, and how its bytes might arrive. -/
example : Telling (.error (.grpc ⟨.notFound, some "gone"⟩)) ∧ Telling (.error .closed) ∧
    Rechunked (dataFrames toyCodec none [[1], [2]] ++ [.trailers []])
      [.data [0, 0, 0], .other, .data [0, 1, 1, 0, 0, 0, 0, 1], .data [2], .trailers []] := by
  refine ⟨⟨by decide, fun t h => ?_⟩, ⟨by decide, fun t h => ?_⟩, dataFrames toyCodec none [[1], [2]],
    [.data [0, 0, 0], .other, .data [0, 1, 1, 0, 0, 0, 0, 1], .data [2]], [.trailers []], [[0, 0, 0], [0, 1, 1, 0, 0, 0, 0, 1], [2]],
    rfl, rfl, dataFrames_data _ _ _, by simp, .data (.other (.data (.data .nil))), by decide⟩
  · cases h; decide
  · cases h; decide

/-! ### Messages that are not valid -/

/-- C70: what is delivered of a stream was found valid, and no delivery is empty; for all frames. -/
theorem C70_valid (c : Codec R S D) (f : R → Option String) (fs : List Frame) (d : Dec D) :
    ∀ l ∈ (readAll c (some f) d fs).1, l ≠ [] ∧ ∀ x ∈ l, f x = none := by
  induction fs generalizing d with
  | nil => intro l hl; cases hl
  | cons fr fs ih =>
    cases fr with
    | trailers h => intro l hl; cases hl
    | other => exact ih d
    | data b =>
      simp only [readAll]
      cases d.decode c b with
      | none => intro l hl; cases hl
      | some p =>
        obtain ⟨ms, d'⟩ := p
        simp only
        cases hv : firstInvalid (some f) ms with
        | some e => intro l hl; cases hl
        | none =>
          simp only
          intro l hl
          cases ms with
          | nil => exact ih d' l hl
          | cons a ms =>
            rcases List.mem_cons.1 hl with rfl | hl
            · exact ⟨by simp, firstInvalid_none.1 hv f rfl⟩
            · exact ih d' l hl

/-- C70: if a message of a stream is not valid, then however the stream is split, what is delivered is a beginning of what
comes before the first such message, and the reader gets an error.  Missing: that all of it is delivered
(`C70_before_violated`). -/
theorem C70_invalid_partial (c : Codec R S D) (f : R → Option String) {chunks : List Bytes} {fs : List Frame} (hfs : Chunked chunks fs)
    (tail : List Frame) : ∀ (d d' : Dec D) (pre post : List R) (x : R) (e : String), d.feed c chunks = some (pre ++ x :: post, d') →
    (∀ y ∈ pre, f y = none) → f x = some e →
    (readAll c (some f) d (fs ++ tail)).1.flatten <+: pre ∧ (readAll c (some f) d (fs ++ tail)).2 = .error (.protoValidation e) := by
  induction hfs with
  | nil =>
    intro d d' pre post x e h _ _
    simp [Dec.feed] at h
  | @data b l fs _ ih =>
    intro d d' pre post x e h hp hx
    simp only [Dec.feed] at h
    cases hd : d.decode c b with
    | none => rw [hd] at h; cases h
    | some p =>
      obtain ⟨m1, d1⟩ := p
      simp only [hd] at h
      cases hf : d1.feed c l with
      | none => rw [hf] at h; cases h
      | some q =>
        obtain ⟨m2, d2⟩ := q
        simp only [hf, Option.some.injEq, Prod.mk.injEq] at h
        obtain ⟨h, rfl⟩ := h
        simp only [List.cons_append, readAll, hd]
        rcases List.append_eq_append_iff.1 h with ⟨a, rfl, h2⟩ | ⟨a, h1, h2⟩
        · -- the first part is before the bad message
          have hn : firstInvalid (some f) m1 = none :=
            firstInvalid_none.2 fun g hg m hm => by cases hg; exact hp m (List.mem_append_left _ hm)
          subst h2
          obtain ⟨i1, i2⟩ := ih d1 d2 a post x e hf (fun y hy => hp y (List.mem_append_right _ hy)) hx
          simp only [hn]
          refine ⟨?_, i2⟩
          cases m1 with
          | nil => simpa using i1
          | cons y m1 => simpa using i1
        · cases a with
          | nil =>
            simp only [List.append_nil] at h1
            simp only [List.nil_append] at h2
            subst h1
            have hn : firstInvalid (some f) m1 = none := firstInvalid_none.2 fun g hg m hm => by cases hg; exact hp m hm
            obtain ⟨i1, i2⟩ := ih d1 d2 [] post x e (by rw [hf, ← h2]; rfl) (by simp) hx
            simp only [hn]
            refine ⟨?_, i2⟩
            have i1 : (readAll c (some f) d1 (fs ++ tail)).1.flatten = [] := by simpa using i1
            cases m1 with
            | nil => simp [i1]
            | cons y m1 => simp [i1]
          | cons y a =>
            simp only [List.cons_append, List.cons.injEq] at h2
            obtain ⟨rfl, h2⟩ := h2
            subst h1
            have hn : firstInvalid (some f) (pre ++ x :: a) = some e := by
              simp only [firstInvalid, Option.bind_some, List.findSome?_append]
              have : pre.findSome? f = none := by rw [List.findSome?_eq_none_iff]; exact hp
              rw [this]
              simp [hx]
            simp only [hn]
            exact ⟨List.nil_prefix, trivial⟩
  | other _ ih =>
    intro d d' pre post x e h hp hx
    simpa [readAll] using ih d d' pre post x e h hp hx

/-! ### Where the property does not hold -/

/-- C70 is violated for what comes before a message that is not valid: whether it is delivered depends on the chunks. -/
theorem C70_before_violated {v : Wire R S D} {Q : S → D → Prop} (hv : v.Good Q) (x y : R) (f : R → Option String) (hx : f x = none)
    (e : String) (hy : f y = some e) (hfx : Fits v false x) (hfy : Fits v false y) :
    (readAll v.codec (some f) (Dec.init none) [.data (encode v.codec none x).2, .data (encode v.codec none y).2]).1.flatten = [x] ∧
    (readAll v.codec (some f) (Dec.init none) [.data ((encode v.codec none x).2 ++ (encode v.codec none y).2)]).1.flatten = [] := by
  have hshort : Short v.codec none [x, y] := ⟨hfx, hfy, trivial⟩
  constructor
  · obtain ⟨d1, hd1⟩ := decode_one hv false x hfx
    simp only [Bool.false_eq_true, if_false] at hd1
    obtain ⟨d2, hd2, _⟩ := C18_roundtrip hv.codec none none (by intro s h; cases h) [x, y] hshort
      [(encode v.codec none x).2, (encode v.codec none y).2] (by simp [encodeAll, encode])
    simp only [Dec.feed, hd1] at hd2
    cases hd : d1.decode v.codec (encode v.codec none y).2 with
    | none => rw [hd] at hd2; cases hd2
    | some p =>
      obtain ⟨m2, d3⟩ := p
      simp only [hd, List.append_nil, Option.some.injEq, Prod.mk.injEq, List.cons_append, List.nil_append, List.cons.injEq, true_and] at hd2
      obtain ⟨rfl, _⟩ := hd2
      simp [readAll, hd1, firstInvalid, hx, hd, hy]
  · obtain ⟨d2, hd2, _⟩ := C18_roundtrip hv.codec none none (by intro s h; cases h) [x, y] hshort
      [(encode v.codec none x).2 ++ (encode v.codec none y).2] (by simp [encodeAll, encode])
    have h := (C70_invalid_partial v.codec f (.data .nil) [] (Dec.init none) d2 [x] [] y e hd2 (by simpa using hx) hy).1
    simp only [Dec.feed] at hd2
    cases hd : (Dec.init (none : Option D)).decode v.codec ((encode v.codec none x).2 ++ (encode v.codec none y).2) with
    | none => rw [hd] at hd2; cases hd2
    | some p =>
      obtain ⟨m, d3⟩ := p
      simp only [hd, List.append_nil, Option.some.injEq, Prod.mk.injEq] at hd2
      obtain ⟨rfl, _⟩ := hd2
      simp [readAll, hd, firstInvalid, hx, hy]

/-- C70 is violated for errors with a text that is not plain: the task that ends the stream panics, no trailers are sent,
and the reader takes the stream to be complete. -/
theorem C70_text_violated (c : Codec R S D) (d : Dec D) :
    (readAll c none d (endFrames (.error (.grpc ⟨.internal, some "line 1\nline 2"⟩)))).2 = .complete ∧
    (readAll c none d (endFrames (.error (.codec "bad über")))).2 = .complete := by
  constructor <;>
  · rw [show endFrames _ = [] from by decide +kernel]; rfl

/-- C70 is violated for a handler that fails with the code OK. -/
theorem C70_code_violated (c : Codec R S D) (d : Dec D) :
    (readAll c none d (endFrames (.error (.grpc ⟨.ok, some "failed"⟩)))).2 = .complete := by
  rw [show endFrames _ = [.trailers [("grpc-status", "0"), ("grpc-message", "failed")]] from by decide +kernel]
  simp only [readAll]
  decide +kernel

/-- A stream that ends in the middle of a message, without trailers, is taken to be complete. -/
theorem C70_cut_violated {v : Wire R S D} {Q : S → D → Prop} (hv : v.Good Q) (x : R) (hf : Fits v false x) (cut rest : Bytes)
    (hcut : cut ++ rest = (encode v.codec none x).2) (hrest : rest ≠ []) :
    readAll v.codec none (Dec.init none) [.data cut] = ([], .complete) := by
  obtain ⟨d', h⟩ := C18_partial_message hv.codec none none (by intro s h; cases h) [] x ⟨hf, trivial⟩ cut rest
    (by simpa [encodeAll] using hcut) hrest [cut] (by simp [encodeAll])
  simp only [Dec.feed] at h
  cases hd : (Dec.init (none : Option D)).decode v.codec cut with
  | none => rw [hd] at h; cases h
  | some p =>
    obtain ⟨m, d3⟩ := p
    simp only [hd, List.append_nil, Option.some.injEq, Prod.mk.injEq] at h
    obtain ⟨rfl, _⟩ := h
    simp [readAll, hd, firstInvalid]

/-- **C70 (undecodable).** A stream in which something cannot be decoded, or with a message that is not valid, is not
taken for complete. -/
theorem C70_undecodable (c : Codec R S D) (validate : Option (R → Option String)) {chunks : List Bytes}
    {fs : List Frame} (hfs : Chunked chunks fs) (tail : List Frame) : ∀ (d : Dec D), d.feed c chunks = none →
    ∃ e, (readAll c validate d (fs ++ tail)).2 = .error e := by
  induction hfs with
  | nil => intro d h; simp [Dec.feed] at h
  | @data b l fs _ ih =>
    intro d h
    simp only [Dec.feed] at h
    simp only [List.cons_append, readAll]
    cases hd : d.decode c b with
    | none => exact ⟨_, rfl⟩
    | some p =>
      obtain ⟨m1, d1⟩ := p
      simp only [hd] at h
      simp only
      cases firstInvalid validate m1 with
      | some e => exact ⟨_, rfl⟩
      | none =>
        simp only
        refine ih d1 ?_
        cases hf : d1.feed c l with
        | none => rfl
        | some q => rw [hf] at h; cases h
  | other _ ih =>
    intro d h
    simpa [readAll] using ih d h

/-- **C70 (failed).** A response that reports an error is not taken for an empty stream. -/
theorem C70_failed (v : Wire R S D) (validate : Option (R → Option String)) (r : Response)
    (h : r.status < 200 ∨ 300 ≤ r.status ∨ r.headers.get "grpc-status" ≠ none) :
    (streamResult v validate r).1 = [] ∧ ∃ e, (streamResult v validate r).2 = .error e := by
  have hc : ∃ e, checkResponse r = .error e := by
    unfold checkResponse
    split
    · exact ⟨_, rfl⟩
    · rename_i hs
      have hs := Decidable.not_not.mp hs
      cases hg : r.headers.get "grpc-status" with
      | none =>
        rcases h with h | h | h
        · omega
        · omega
        · exact absurd hg h
      | some c => exact ⟨_, rfl⟩
  obtain ⟨e, he⟩ := hc
  unfold streamResult
  rw [he]
  exact ⟨rfl, e, rfl⟩

example : ∃ e, (streamResult toyWire none ⟨503, [], []⟩).2 = .error e :=
  (C70_failed toyWire none ⟨503, [], []⟩ (.inr (.inl (by decide)))).2

end Verif.Grpc
