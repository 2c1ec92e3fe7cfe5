import Verif.Grpc.Props

/-
The ends of gRPC streams as a thread sees them: `Encoder` and `Decoder` of bd-grpc-codec/src/lib.rs with what C18 leaves out, the zlib objects
that all stateless streams of a thread share, and the byte counters, which are kept back until the labels of the stream are known
(bd-grpc-codec/src/stats.rs).

An object of the zlib library (flate2 1.0.35, `write::ZlibEncoder` and `write::ZlibDecoder` over a `Vec<u8>`) is a parameter with three calls:
`write` (`write_all`), `flush` with `mem::take` of the output, and `finish`.  `reset` of flate2 is `finish` and, only if that succeeds, a new
state.  Counters do not wrap.  The streams of a thread register with one set of counters.
-/
namespace Verif.Grpc.Ends

/-- An object of the zlib library. -/
structure Zlib (Z : Type) where
  fresh : Z
  write : Z → Bytes → Z × Bool
  flush : Z → Z × Option Bytes
  finish : Z → Z × Option Bytes

/-- `Compressor` (lib.rs:72-75), `Decompressor` (250-253): `shared` is `StatelessZlib`, which uses the object of the thread. -/
inductive Comp (Z : Type) where
  | shared
  | own (z : Z)
  deriving DecidableEq, Repr

/-- One message through a compressor (162-203) or a decompressor (379-402): the object of the thread, the own one, the output. -/
def squeeze {Z : Type} (zl : Zlib Z) (z : Z) : Comp Z → Bytes → Z × Comp Z × Option Bytes
  | .shared, b =>
    match zl.write z b with
    | (z', false) => (z', .shared, none)
    | (z', true) =>
      match zl.finish z' with
      | (z'', none) => (z'', .shared, none)
      | (_, some out) => (zl.fresh, .shared, some out)
  | .own y, b =>
    match zl.write y b with
    | (y', false) => (z, .own y', none)
    | (y', true) => (z, .own (zl.flush y').1, (zl.flush y').2)

/-- `DeferredCounter` (stats.rs:17-45); `live`: `counter.is_some()`. -/
structure Deferred where
  live : Bool
  count : Nat
  deriving DecidableEq, Repr

def Deferred.new : Deferred := ⟨false, 0⟩

/-- `inc_by` (stats.rs:32-37): the counter and what is added to the registered one. -/
def Deferred.incBy (d : Deferred) (n : Nat) : Deferred × Nat := ({ d with count := d.count + n }, if d.live then n else 0)

/-- `initialize` (stats.rs:39-43). -/
def Deferred.initialize (d : Deferred) : Deferred × Nat := ({ d with live := true }, d.count)

/-- `Error` (lib.rs:44-52). -/
inductive DErr where
  | protobuf
  | protocol
  | io
  deriving DecidableEq, Repr

/-- Serialiser and parser of the messages, and the zlib library in both directions. -/
structure Lib (M ZC ZD : Type) where
  ser : M → Bytes
  parse : Bytes → Option M
  zc : Zlib ZC
  zd : Zlib ZD

variable {M ZC ZD : Type}

/-- What `encode` (106-144) does besides counting: the thread's object, the compressor, the frame and whether compression failed. -/
def encodeZ (L : Lib M ZC ZD) (z : ZC) (e : Option (Comp ZC)) (m : M) : ZC × Option (Comp ZC) × Bytes × Bool :=
  match e with
  | some c =>
    if threshold ≤ (L.ser m).length then
      match squeeze L.zc z c (L.ser m) with
      | (z', c', some out) => (z', some c', 1 :: putU32 out.length ++ out, false)
      | (z', _, none) => (z', none, 0 :: putU32 (L.ser m).length ++ L.ser m, true)
    else (z, some c, 0 :: putU32 (L.ser m).length ++ L.ser m, false)
  | none => (z, none, 0 :: putU32 (L.ser m).length ++ L.ser m, false)

/-- The loop of `decode_data` (335-367) with `decompress` (376-414): the thread's object, the decoder, what was added to `rx_decompressed` and the
messages or the error.  `fuel` bounds the iterations and is never used up. -/
def loopZ (L : Lib M ZC ZD) : Nat → ZD → Dec (Comp ZD) → Nat → List M → ZD × Dec (Comp ZD) × Nat × Except DErr (List M)
  | 0, z, d, n, acc => (z, d, n, .ok acc)
  | fuel + 1, z, d, n, acc =>
    match d.size with
    | none =>
      match d.buf with
      | f :: b0 :: b1 :: b2 :: b3 :: rest => loopZ L fuel z { d with buf := rest, compressed := f == 1, size := some (getU32 b0 b1 b2 b3) } n acc
      | _ => (z, d, n, .ok acc)
    | some k =>
      if k ≤ d.buf.length then
        if d.compressed then
          match d.decompressor with
          | none => (z, { d with buf := d.buf.drop k }, n, .error .protocol)
          | some c =>
            match squeeze L.zd z c (d.buf.take k) with
            | (z', c', none) => (z', { d with buf := d.buf.drop k, decompressor := some c' }, n, .error .io)
            | (z', c', some out) =>
              match L.parse out with
              | none => (z', { d with buf := d.buf.drop k, decompressor := some c', size := none }, n + out.length, .error .protobuf)
              | some m => loopZ L fuel z' { d with buf := d.buf.drop k, decompressor := some c', size := none } (n + out.length) (acc ++ [m])
        else
          match L.parse (d.buf.take k) with
          | none => (z, { d with buf := d.buf.drop k, size := none }, n + (d.buf.take k).length, .error .protobuf)
          | some m => loopZ L fuel z { d with buf := d.buf.drop k, size := none } (n + (d.buf.take k).length) (acc ++ [m])
      else (z, d, n, .ok acc)

/-- `decode_data` (312-374) besides counting the bytes received. -/
def decodeZ (L : Lib M ZC ZD) (z : ZD) (d : Dec (Comp ZD)) (data : Bytes) : ZD × Dec (Comp ZD) × Nat × Except DErr (List M) :=
  loopZ L (2 * (d.buf ++ data).length + 2) z { d with buf := d.buf ++ data } 0 []

/-- The five counters of a stream. -/
structure Five (α : Type) where
  tx : α
  txu : α
  msgs : α
  rx : α
  rxd : α
  deriving DecidableEq, Repr

/-- `StreamingApi` (bd-grpc/src/lib.rs:585-590), `StreamState` (bd-api/src/api.rs:169-183): both directions of a stream. -/
structure End (ZC ZD : Type) where
  enc : Option (Comp ZC)
  dec : Dec (Comp ZD)
  cnt : Five Deferred

/-- A thread: its zlib objects (lib.rs:171-173, 387-390), its streams, the registered counters. -/
structure Thread (ZC ZD : Type) where
  zc : ZC
  zd : ZD
  ends : List (End ZC ZD)
  reg : Five Nat

def Thread.new (L : Lib M ZC ZD) : Thread ZC ZD := ⟨L.zc.fresh, L.zd.fresh, [], ⟨0, 0, 0, 0, 0⟩⟩

inductive EOp (M : Type) where
  /-- `Encoder::new` and `Decoder::new`; `some true`: stateless, `some false`: stateful -/
  | new (comp decomp : Option Bool)
  /-- `initialize_stats` (bd-grpc/src/lib.rs:633-647, bd-api/src/api.rs:200-209) -/
  | register (i : Nat)
  /-- `StreamingApiSender::send` (lib.rs:815-818) -/
  | send (i : Nat) (m : M)
  /-- `send_raw` (lib.rs:822-827) -/
  | sendRaw (i : Nat) (bytes : Bytes)
  /-- a data frame (lib.rs:742, bd-api/src/api.rs:263) -/
  | receive (i : Nat) (data : Bytes)
  deriving DecidableEq, Repr

/-- What the caller sees: the bytes handed to the body, and whether an unexpected error was reported; the messages. -/
inductive EOut (M : Type) where
  | unit
  | sent (bytes : Bytes) (failed : Bool)
  | received (r : Except DErr (List M))

def compOf {Z : Type} (zl : Zlib Z) : Bool → Comp Z
  | true => .shared
  | false => .own zl.fresh

def End.new (L : Lib M ZC ZD) (comp decomp : Option Bool) : End ZC ZD :=
  ⟨comp.map (compOf L.zc), Dec.init (decomp.map (compOf L.zd)), ⟨.new, .new, .new, .new, .new⟩⟩

/-- Add to the counters of a stream; the second part is what is added to the registered ones. -/
def Five.incBy (c : Five Deferred) (n : Five Nat) : Five Deferred × Five Nat :=
  (⟨(c.tx.incBy n.tx).1, (c.txu.incBy n.txu).1, (c.msgs.incBy n.msgs).1, (c.rx.incBy n.rx).1, (c.rxd.incBy n.rxd).1⟩,
   ⟨(c.tx.incBy n.tx).2, (c.txu.incBy n.txu).2, (c.msgs.incBy n.msgs).2, (c.rx.incBy n.rx).2, (c.rxd.incBy n.rxd).2⟩)

def Five.initialize (c : Five Deferred) : Five Deferred × Five Nat :=
  (⟨c.tx.initialize.1, c.txu.initialize.1, c.msgs.initialize.1, c.rx.initialize.1, c.rxd.initialize.1⟩,
   ⟨c.tx.initialize.2, c.txu.initialize.2, c.msgs.initialize.2, c.rx.initialize.2, c.rxd.initialize.2⟩)

def Five.plus (a b : Five Nat) : Five Nat := ⟨a.tx + b.tx, a.txu + b.txu, a.msgs + b.msgs, a.rx + b.rx, a.rxd + b.rxd⟩

/-- One call on a stream: the thread's objects, the stream, what is added to its counters, and the result. -/
def End.call (L : Lib M ZC ZD) (zc : ZC) (zd : ZD) (e : End ZC ZD) : EOp M → ZC × ZD × End ZC ZD × Five Nat × EOut M
  | .send _ m =>
    let r := encodeZ L zc e.enc m
    (r.1, zd, { e with enc := r.2.1 }, ⟨r.2.2.1.length, (L.ser m).length + 5, 1, 0, 0⟩, .sent r.2.2.1 r.2.2.2)
  | .sendRaw _ b => (zc, zd, e, ⟨b.length, b.length, 1, 0, 0⟩, .sent b false)
  | .receive _ data =>
    let r := decodeZ L zd e.dec data
    (zc, r.1, { e with dec := r.2.1 }, ⟨0, 0, 0, data.length, r.2.2.1⟩, .received r.2.2.2)
  | _ => (zc, zd, e, ⟨0, 0, 0, 0, 0⟩, .unit)

/-- The call with its effect on the counters; the last but one part is added to the registered ones. -/
def End.step (L : Lib M ZC ZD) (zc : ZC) (zd : ZD) (e : End ZC ZD) (op : EOp M) : ZC × ZD × End ZC ZD × Five Nat × EOut M :=
  match op with
  | .register _ => (zc, zd, { e with cnt := e.cnt.initialize.1 }, e.cnt.initialize.2, .unit)
  | _ =>
    let r := e.call L zc zd op
    (r.1, r.2.1, { r.2.2.1 with cnt := (e.cnt.incBy r.2.2.2.1).1 }, (e.cnt.incBy r.2.2.2.1).2, r.2.2.2.2)

/-- The stream of a call. -/
def EOp.stream : EOp M → Option Nat
  | .new .. => none
  | .register i | .send i _ | .sendRaw i _ | .receive i _ => some i

def Thread.on (L : Lib M ZC ZD) (t : Thread ZC ZD) (i : Nat) (op : EOp M) : Thread ZC ZD × EOut M :=
  match t.ends[i]? with
  | none => (t, .unit)
  | some e =>
    let r := e.step L t.zc t.zd op
    (⟨r.1, r.2.1, t.ends.set i r.2.2.1, t.reg.plus r.2.2.2.1⟩, r.2.2.2.2)

def Thread.step (L : Lib M ZC ZD) (t : Thread ZC ZD) (op : EOp M) : Thread ZC ZD × EOut M :=
  match op with
  | .new comp decomp => ({ t with ends := t.ends ++ [End.new L comp decomp] }, .unit)
  | .register i | .send i _ | .sendRaw i _ | .receive i _ => t.on L i op

def Thread.run (L : Lib M ZC ZD) (t : Thread ZC ZD) : List (EOp M) → Thread ZC ZD × List (EOut M)
  | [] => (t, [])
  | op :: ops => (((t.step L op).1.run L ops).1, (t.step L op).2 :: ((t.step L op).1.run L ops).2)

end Verif.Grpc.Ends
