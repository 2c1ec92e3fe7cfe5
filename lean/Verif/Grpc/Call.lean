import Verif.Grpc.Model

/-
Model of calls: bd-grpc/src/lib.rs, the unary client and handler and the server side and client side of a stream.

Messages are coded as in `Verif.Grpc.Model`.  Headers are a list of names and values; `get` finds the first, `insert`
replaces.  Only headers that are looked at are set.  Validation is a parameter (`Verif.Pgv`).  A panic is `none`.

Not modelled: connections and their errors, the limit on concurrent requests, counters and warnings, the extensions of a
request, `read_stop` (it only delays reading), and time, except for the timeout of a unary call (`unaryEnds`).
-/
namespace Verif.Grpc

/-- `Code` (140-151). -/
inductive Code where
  | ok | unknown | invalidArgument | failedPrecondition | internal | unavailable | unauthenticated | notFound
  deriving DecidableEq, Repr

/-- `to_int` (154-168). -/
def Code.toInt : Code → Nat
  | .ok => 0
  | .unknown => 2
  | .invalidArgument => 3
  | .failedPrecondition => 9
  | .notFound => 5
  | .internal => 13
  | .unavailable => 14
  | .unauthenticated => 16

/-- `from_string` (169-182). -/
def Code.ofString (s : String) : Code :=
  if s = "0" then .ok
  else if s = "3" then .invalidArgument
  else if s = "5" then .notFound
  else if s = "9" then .failedPrecondition
  else if s = "13" then .internal
  else if s = "14" then .unavailable
  else if s = "16" then .unauthenticated
  else .unknown

/-- `Status` (204-221). -/
structure Status where
  code : Code
  message : Option String
  deriving DecidableEq, Repr

/-- `Error` (74-94) with the text of its cause. -/
inductive Err where
  | bodyStream (t : String) | closed | codec (t : String) | connectionTimeout | grpc (s : Status) | hyperClient (t : String)
  | protoValidation (t : String) | requestTimeout | snap (t : String)
  deriving DecidableEq, Repr

/-- What `thiserror` makes of the messages; for `Status` see 265-275. -/
def Err.display : Err → String
  | .bodyStream t => "Body stream error ocurred: " ++ t
  | .closed => "Stream has closed"
  | .codec t => "A codec error occurred: " ++ t
  | .connectionTimeout => "A connection timeout occurred"
  | .grpc s => "A gRPC error occurred: code: " ++ toString s.code.toInt ++ ", message: " ++ s.message.getD "<none>"
  | .hyperClient t => "A hyper client error occurred: " ++ t
  | .protoValidation t => "A proto validation error occurred: " ++ t
  | .requestTimeout => "A request timeout occurred"
  | .snap t => "A snap decode error occurred: " ++ t

abbrev Headers := List (String × String)

def Headers.get (h : Headers) (k : String) : Option String := (h.find? fun p => p.1 == k).map Prod.snd
def Headers.insert (h : Headers) (k v : String) : Headers := (h.filter fun p => p.1 != k) ++ [(k, v)]
def Headers.append (h : Headers) (k v : String) : Headers := h ++ [(k, v)]

/-- `HeaderValue::from_str` and `to_str`: characters 32 to 126 and the tab. -/
def visible (s : String) : Bool := s.toList.all fun c => (32 ≤ c.toNat && c.toNat < 127) || c.toNat == 9

def headerValue (s : String) : Option String := if visible s then some s else none

/-- A hexadecimal digit in upper case. -/
def hexDigit (n : Nat) : Char := if n < 10 then Char.ofNat (48 + n) else Char.ofNat (55 + n)

/-- One byte of `urlencoding::encode`: letters, digits and `-_.~` stay. -/
def pctByte (b : Nat) : List Char :=
  if (48 ≤ b && b ≤ 57) || (65 ≤ b && b ≤ 90) || (97 ≤ b && b ≤ 122) || b == 45 || b == 95 || b == 46 || b == 126 then [Char.ofNat b]
  else ['%', hexDigit (b / 16), hexDigit (b % 16)]

/-- `urlencoding::encode`. -/
def pct (s : String) : String := String.ofList (s.toUTF8.data.toList.flatMap fun b => pctByte b.toNat)

inductive Frame where
  | data (b : Bytes)
  | trailers (h : Headers)
  /-- neither data nor trailers -/
  | other
  deriving Repr, DecidableEq

structure Request where
  headers : Headers
  body : Bytes

structure Response where
  status : Nat
  headers : Headers
  frames : List Frame
  deriving Repr, DecidableEq

/-- Serialiser and compressors of one direction, with the states that they start in. -/
structure Wire (M S D : Type) where
  codec : Codec M S D
  s0 : S
  d0 : D
  snap : Bytes → Bytes
  unsnap : Bytes → Option Bytes

/-- `Compression` (188-198). -/
inductive Compression where
  | none | grpc | snappy
  deriving DecidableEq, Repr

/-- `into_response_with_body` (246-263) without a body. -/
def Status.response (s : Status) : Option Response :=
  match s.message with
  | none => some ⟨200, [("grpc-status", toString s.code.toInt)], []⟩
  | some m => match headerValue (pct m) with
    | none => none
    | some v => some ⟨200, [("grpc-status", toString s.code.toInt), ("grpc-message", v)], []⟩

/-- `into_response` of an error (98-114). -/
def Err.response : Err → Option Response
  | .connectionTimeout | .requestTimeout => Status.response ⟨.internal, some "upstream timeout"⟩
  | .grpc s => s.response
  | .codec _ | .protoValidation _ | .snap _ => some ⟨400, [], []⟩
  | .bodyStream _ | .closed | .hyperClient _ => some ⟨500, [], []⟩

variable {M R S D : Type}

/-- What `unary` sends (413-464) and `common_request` (349-374). -/
def unaryRequest (w : Wire M S D) (comp : Compression) (extra : Headers) (m : M) : Request :=
  let base := [("content-type", "application/grpc"), ("te", "trailers")]
  match comp with
  | .none => ⟨extra ++ base, (encode w.codec none m).2⟩
  | .grpc => ⟨((extra.insert "grpc-encoding" "deflate").insert "grpc-accept-encoding" "deflate") ++ base,
      (encode w.codec (some w.s0) m).2⟩
  | .snappy => ⟨(extra.append "content-encoding" "snappy") ++ base, w.snap (encode w.codec none m).2⟩

/-- `finalize_decompression` (1021-1026). -/
def decompression (w : Wire M S D) (h : Headers) : Option D :=
  if h.get "grpc-encoding" = some "deflate" then some w.d0 else none

/-- `finalize_response_compression` (999-1019) for stateless compression. -/
def responseCompression (w : Wire M S D) (h : Headers) : Option S :=
  if h.get "grpc-accept-encoding" = some "deflate" then some w.s0 else none

/-- `decode_request` (930-965). -/
def decodeRequest (w : Wire M S D) (validate : Option (M → Option String)) (r : Request) : Except Err M :=
  let body := if r.headers.get "content-encoding" = some "snappy" then w.unsnap r.body else some r.body
  match body with
  | none => .error (.snap "corrupt input")
  | some b => match (Dec.init (decompression w r.headers)).decode w.codec b with
    | none => .error (.codec "decode")
    | some ([m], _) => match validate.bind fun v => v m with
      | some e => .error (.grpc ⟨.invalidArgument, some ("Invalid request: " ++ e)⟩)
      | none => .ok m
    | some _ => .error (.grpc ⟨.invalidArgument, some "Invalid request body"⟩)

/-- `new_grpc_response` (885-903). -/
def grpcResponse (compressed : Bool) (frames : List Frame) : Response :=
  ⟨200, ("content-type", "application/grpc") :: (if compressed then [("grpc-encoding", "deflate")] else []), frames⟩

/-- `unary_handler` (967-997) and the response made of its error (`make_unary_router`, 1125-1158): the requests that the
handler was called with, and the response. -/
def serveUnary (w : Wire M S D) (v : Wire R S D) (validate : Option (M → Option String)) (handler : M → Except Err R)
    (r : Request) : List M × Option Response :=
  match decodeRequest w validate r with
  | .error e => ([], e.response)
  | .ok m => match handler m with
    | .error e => ([m], e.response)
    | .ok x =>
      let c := responseCompression v r.headers
      ([m], some (grpcResponse c.isSome [.data (encode v.codec c x).2, .trailers [("grpc-status", "0")]]))

/-- The bytes of a body (`collect().to_bytes()`). -/
def bytesOf : List Frame → Bytes
  | [] => []
  | .data b :: l => b ++ bytesOf l
  | _ :: l => bytesOf l

/-- `Status::from_headers` (223-238), `get` of `grpc-status` given. -/
def statusOf (code : String) (h : Headers) : Status :=
  ⟨Code.ofString (if visible code then code else ""), (h.get "grpc-message").bind headerValue⟩

/-- The end of `common_request` (393-409). -/
def checkResponse (r : Response) : Except Err Response :=
  if ¬ (200 ≤ r.status ∧ r.status < 300) then .error (.grpc ⟨.internal, some ("Non-200 response code: " ++ toString r.status)⟩)
  else match r.headers.get "grpc-status" with
    | some c => .error (.grpc (statusOf c r.headers))
    | none => .ok r

/-- The end of `unary` (466-486). -/
def unaryResult (v : Wire R S D) (r : Response) : Except Err R :=
  match checkResponse r with
  | .error e => .error e
  | .ok r => match (Dec.init (decompression v r.headers)).decode v.codec (bytesOf r.frames) with
    | none => .error (.codec "decode")
    | some ([x], _) => .ok x
    | some _ => .error (.grpc ⟨.internal, some "Invalid response body"⟩)

/-- When a unary call is over (466-479): the headers of the response are there at `headers`, its body at `body`. -/
def unaryEnds (timeout headers body : Nat) : Nat := if timeout < headers then timeout else max headers body

/-! ### Streams -/

/-- The frames of messages sent one after the other (`send`, 814-838). -/
def dataFrames (c : Codec R S D) : Option S → List R → List Frame
  | _, [] => []
  | e, m :: ms => .data (encode c e m).2 :: dataFrames c (encode c e m).1 ms

/-- `send_error` (840-853): nothing is sent after a panic. -/
def errorTrailers (s : Status) : List Frame :=
  match s.message with
  | none => [.trailers [("grpc-status", toString s.code.toInt)]]
  | some m => match headerValue m with
    | none => []
    | some v => [.trailers [("grpc-status", toString s.code.toInt), ("grpc-message", v)]]

/-- What the status of a failed stream is (1078-1081). -/
def Err.status : Err → Status
  | .grpc s => s
  | e => ⟨.internal, some e.display⟩

/-- The end of a stream (1059-1089). -/
def endFrames : Except Err Unit → List Frame
  | .ok _ => [.trailers [("grpc-status", "0")]]
  | .error e => errorTrailers e.status

/-- `server_streaming_handler` (1028-1096); `handler` says what is sent for a request and how it ends. -/
def serveStream (w : Wire M S D) (v : Wire R S D) (validate : Option (M → Option String)) (compress : Bool)
    (handler : M → List R × Except Err Unit) (r : Request) : List M × Option Response :=
  match decodeRequest w validate r with
  | .error e => ([], e.response)
  | .ok m =>
    let c := if compress then responseCompression v r.headers else none
    ([m], some (grpcResponse c.isSome (dataFrames v.codec c (handler m).1 ++ endFrames (handler m).2)))

/-- How the reading of a stream ends: `Ok(None)`, or an error. -/
inductive End where
  | complete
  | error (e : Err)
  deriving DecidableEq, Repr

/-- The trailers (752-774). -/
def endOf (h : Headers) : End :=
  match (h.filter fun p => p.1 == "grpc-status").getLast? with
  | none => .complete
  | some s =>
    let code := Code.ofString (if visible s.2 then s.2 else "")
    if code = .ok then .complete
    else .error (.grpc ⟨code, ((h.filter fun p => p.1 == "grpc-message").getLast?).map fun p => if visible p.2 then p.2 else ""⟩)

/-- The first message that is not valid. -/
def firstInvalid (validate : Option (R → Option String)) (l : List R) : Option String :=
  validate.bind fun v => l.findSome? v

/-- `next` (714-781) until the end of the stream: what was delivered, a list for each call, and the end. -/
def readAll (c : Codec R S D) (validate : Option (R → Option String)) : Dec D → List Frame → List (List R) × End
  | _, [] => ([], .complete)
  | d, .data b :: fs => match d.decode c b with
    | none => ([], .error (.codec "decode"))
    | some (ms, d') => match firstInvalid validate ms with
      | some e => ([], .error (.protoValidation e))
      | none =>
        let (l, e) := readAll c validate d' fs
        (if ms.isEmpty then l else ms :: l, e)
  | _, .trailers h :: _ => ([], endOf h)
  | d, .other :: fs => readAll c validate d fs

/-- `server_streaming` (539-566) and `ServerStreamingApi::new` (678-711) for the headers that this server sends. -/
def streamResult (v : Wire R S D) (validate : Option (R → Option String)) (r : Response) : List (List R) × End :=
  match checkResponse r with
  | .error e => ([], .error e)
  | .ok r => readAll v.codec validate (Dec.init (decompression v r.headers)) r.frames

end Verif.Grpc
