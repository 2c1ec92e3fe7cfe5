/-
Model of bd-key-value (src/lib.rs): the text format of stored values (bincode inside base64), the
operations `Store::set` and `Store::get`, and of bd-device (src/lib.rs): the device identifier.

Simplifications, valid for the whole file:
* Bytes and characters are natural numbers; the predicate `Ty.Ok` says that they are in range.
* `utf8` is the validity test of the UTF-8 decoder, as a parameter: a Rust `String` is a byte list
  that passes it.
* `mem` is the number of bytes the process can allocate at once.  `bincode::deserialize_from` reads
  a string by growing a buffer to the announced length before it reads (bincode 1.3, `IoReader`;
  the crate is not part of /repo, so this is an assumption about it); a longer announcement ends
  the process, which is `Dec.big`.
* The platform storage behind `Storage` (lib.rs:34-39) is a map from keys to texts; which of its
  calls fail, and whether a failing write took effect, is an input of every operation.
-/
namespace Verif.Store

/-! ### base64 (`general_purpose::STANDARD`, lib.rs:99, 114) -/

/-- The character of a six-bit value. -/
def sym (n : Nat) : Nat :=
  if n < 26 then 65 + n
  else if n < 52 then 97 + (n - 26)
  else if n < 62 then 48 + (n - 52)
  else if n = 62 then 43
  else 47

/-- The six-bit value of a character. -/
def unsym (c : Nat) : Option Nat :=
  if 65 ≤ c ∧ c ≤ 90 then some (c - 65)
  else if 97 ≤ c ∧ c ≤ 122 then some (c - 97 + 26)
  else if 48 ≤ c ∧ c ≤ 57 then some (c - 48 + 52)
  else if c = 43 then some 62
  else if c = 47 then some 63
  else none

/-- `STANDARD.encode(&bytes)` (lib.rs:99): groups of three bytes, padded with `=` (61). -/
def b64e : List Nat → List Nat
  | [] => []
  | [a] => [sym (a / 4), sym (a % 4 * 16), 61, 61]
  | [a, b] => [sym (a / 4), sym (a % 4 * 16 + b / 16), sym (b % 16 * 4), 61]
  | a :: b :: c :: r =>
    sym (a / 4) :: sym (a % 4 * 16 + b / 16) :: sym (b % 16 * 4 + c / 64) :: sym (c % 64) :: b64e r

/-- `STANDARD.decode(base64)` (lib.rs:114): padding is required, unused bits must be zero. -/
def b64d : List Nat → Option (List Nat)
  | [] => some []
  | w :: x :: y :: z :: r =>
    if z = 61 then
      match r with
      | _ :: _ => none
      | [] =>
        if y = 61 then
          match unsym w, unsym x with
          | some p, some q => if q % 16 = 0 then some [p * 4 + q / 16] else none
          | _, _ => none
        else
          match unsym w, unsym x, unsym y with
          | some p, some q, some s =>
            if s % 4 = 0 then some [p * 4 + q / 16, q % 16 * 16 + s / 4] else none
          | _, _, _ => none
    else
      match unsym w, unsym x, unsym y, unsym z, b64d r with
      | some p, some q, some s, some t, some l =>
        some ((p * 4 + q / 16) :: (q % 16 * 16 + s / 4) :: (s % 4 * 64 + t) :: l)
      | _, _, _, _, _ => none
  | _ => none

/-! ### bincode (lib.rs:94-97, 117) -/

/-- The shapes of the stored types: `String` (lib.rs:28), structures of several fields
(bd-session/src/activity_based.rs:214-218, bd-session/src/fixed.rs:193-195,
bd-logger/src/app_version.rs:22-25), and the enum of two variants (app_version.rs:30-35). -/
inductive Ty where
  | unit
  | str
  | i64
  | pair (a b : Ty)
  | alt (a b : Ty)
  deriving DecidableEq, Repr

/-- The values of a shape. -/
def Ty.Val : Ty → Type
  | .unit => Unit
  | .str => List Nat
  | .i64 => Int
  | .pair a b => a.Val × b.Val
  | .alt a b => a.Val ⊕ b.Val

/-- A Rust `String` that fits into memory. -/
def StrOk (utf8 : List Nat → Bool) (mem : Nat) (s : List Nat) : Prop :=
  (∀ b ∈ s, b < 256) ∧ utf8 s = true ∧ s.length ≤ mem ∧ s.length < 2 ^ 64

/-- The range of `i64`. -/
def I64Ok (n : Int) : Prop := -(2 ^ 63 : Int) ≤ n ∧ n < 2 ^ 63

/-- The values that exist in Rust and fit into memory. -/
def Ty.Ok (utf8 : List Nat → Bool) (mem : Nat) : (t : Ty) → t.Val → Prop
  | .unit, _ => True
  | .str, s => StrOk utf8 mem s
  | .i64, n => I64Ok n
  | .pair a b, v => a.Ok utf8 mem v.1 ∧ b.Ok utf8 mem v.2
  | .alt a _, .inl v => a.Ok utf8 mem v
  | .alt _ b, .inr v => b.Ok utf8 mem v

/-- `k` bytes of a number, least significant first. -/
def le : Nat → Nat → List Nat
  | 0, _ => []
  | k + 1, n => n % 256 :: le k (n / 256)

/-- The number of a byte list, least significant first. -/
def unle : List Nat → Nat
  | [] => 0
  | b :: r => b + 256 * unle r

/-- A string: its length in eight bytes, then its bytes. -/
def encStr (s : List Nat) : List Nat := le 8 s.length ++ s

/-- An `i64` in two's complement. -/
def encI64 (n : Int) : List Nat := le 8 (n % (2 ^ 64 : Int)).toNat

/-- `bincode::serialize_into` (lib.rs:95): fixed-width little endian integers, strings with a
64-bit length, structures field by field, enums with a 32-bit variant index. -/
def enc : (t : Ty) → t.Val → List Nat
  | .unit, _ => []
  | .str, s => encStr s
  | .i64, n => encI64 n
  | .pair a b, v => enc a v.1 ++ enc b v.2
  | .alt a _, .inl v => le 4 0 ++ enc a v
  | .alt _ b, .inr v => le 4 1 ++ enc b v

/-- The outcome of reading: a value and the remaining bytes, an error, or an allocation that is too
large. -/
inductive Dec (α : Type) where
  | ok (v : α) (rest : List Nat)
  | err
  | big
  deriving DecidableEq, Repr

/-- Continue with the remaining bytes. -/
def Dec.bind {α β : Type} (d : Dec α) (f : α → List Nat → Dec β) : Dec β :=
  match d with
  | .ok v r => f v r
  | .err => .err
  | .big => .big

/-- Exactly `k` bytes. -/
def takeN (k : Nat) (l : List Nat) : Dec (List Nat) :=
  if k ≤ l.length then .ok (l.take k) (l.drop k) else .err

/-- The signed number of a 64-bit pattern. -/
def signed (n : Nat) : Int := if n < 2 ^ 63 then (n : Int) else (n : Int) - 2 ^ 64

/-- `bincode::deserialize_from` (lib.rs:117); bytes after the value are ignored. -/
def dec (utf8 : List Nat → Bool) (mem : Nat) : (t : Ty) → List Nat → Dec t.Val
  | .unit, l => .ok () l
  | .str, l =>
    (takeN 8 l).bind fun h r =>
      if mem < unle h then .big
      else (takeN (unle h) r).bind fun s r' => if utf8 s then .ok s r' else .err
  | .i64, l => (takeN 8 l).bind fun h r => .ok (signed (unle h)) r
  | .pair a b, l =>
    (dec utf8 mem a l).bind fun x r => (dec utf8 mem b r).bind fun y r' => .ok (x, y) r'
  | .alt a b, l =>
    (takeN 4 l).bind fun h r =>
      if unle h = 0 then (dec utf8 mem a r).bind fun x r' => .ok (.inl x) r'
      else if unle h = 1 then (dec utf8 mem b r).bind fun y r' => .ok (.inr y) r'
      else .err

/-! ### The store (lib.rs:45-126) -/

/-- The content of the platform storage. -/
abbrev Disk := String → Option (List Nat)

/-- Change one key. -/
def Disk.put (d : Disk) (k : String) (v : Option (List Nat)) : Disk :=
  fun k' => if k' = k then v else d k'

/-- What a write of the platform does: it works, it fails without effect, or it reports a failure
although the value is there. -/
inductive Wr where
  | ok
  | lost
  | kept
  deriving DecidableEq, Repr

/-- `Store::set` (lib.rs:57-66, 93-105): errors are logged and ignored. -/
def set (t : Ty) (d : Disk) (k : String) (v : t.Val) (w : Wr) : Disk :=
  match w with
  | .ok | .kept => d.put k (some (b64e (enc t v)))
  | .lost => d

/-- What a call of `get` ends with. -/
inductive Got (α : Type) where
  | val (v : Option α)
  | abort
  deriving DecidableEq, Repr

/-- `Store::get_internal` (lib.rs:107-125), `none` for an error. -/
def getInternal (utf8 : List Nat → Bool) (mem : Nat) (t : Ty) (d : Disk) (k : String)
    (rdFails : Bool) : Option (Got t.Val) :=
  if rdFails then none
  else match d k with
    | none => some (.val none)
    | some txt =>
      match b64d txt with
      | none => none
      | some bytes =>
        match dec utf8 mem t bytes with
        | .ok v _ => some (.val (some v))
        | .err => none
        | .big => some .abort

/-- `Store::get` (lib.rs:69-91): after an error of any kind the key is deleted. -/
def get (utf8 : List Nat → Bool) (mem : Nat) (t : Ty) (d : Disk) (k : String)
    (rdFails delFails : Bool) : Disk × Got t.Val :=
  match getInternal utf8 mem t d k rdFails with
  | some g => (d, g)
  | none => (if delFails then d else d.put k none, .val none)

/-- An operation on the store, with the behaviour of the platform. -/
inductive Op where
  | set (t : Ty) (k : String) (v : t.Val) (w : Wr)
  | get (t : Ty) (k : String) (rdFails delFails : Bool)

/-- The effect of one operation on the storage. -/
def Op.run (utf8 : List Nat → Bool) (mem : Nat) (d : Disk) : Op → Disk
  | .set t k v w => Verif.Store.set t d k v w
  | .get t k rf df => (Verif.Store.get utf8 mem t d k rf df).1

/-! ### The device identifier (bd-device/src/lib.rs) -/

/-- `DEVICE_ID_KEY` (bd-device/src/lib.rs:17). -/
def devKey : String := "device.state"

/-- The process: the cached identifier of each `Device` object (lib.rs:23-26), the objects that
found nothing stored and are about to write (lib.rs:45-49), the storage, the number of identifiers
generated so far, and the number of the process. -/
structure Dev where
  cache : Nat → Option (List Nat)
  pend : Nat → Bool
  disk : Disk
  made : Nat
  proc : Nat

/-- The start of the first process with a given storage. -/
def Dev.start (d : Disk) : Dev :=
  { cache := fun _ => none, pend := fun _ => false, disk := d, made := 0, proc := 0 }

/-- The end of the process and the start of the next one. -/
def Dev.next (s : Dev) : Dev :=
  { cache := fun _ => none, pend := fun _ => false, disk := s.disk, made := s.made
    proc := s.proc + 1 }

/-- One event.  `look i` and `make i` are the two parts of a call of `id` on the `i`-th object
(lib.rs:37-58): the read of the cache and of the store, and the generation of an identifier when
nothing was found.  The mutex of the object is held in between (lib.rs:38), so a second call on the
same object waits; calls on other objects and other users of the store may come in between.
`restart` is the end of the process and the start of the next one. -/
inductive DevOp where
  | look (i : Nat) (rdFails delFails : Bool)
  | make (i : Nat) (w : Wr)
  | restart
  | other (op : Op)

/-- One event, and the identifier it returned, with the process and the object.  `uuid n` is the `n`-th generated
identifier. -/
def Dev.step (utf8 : List Nat → Bool) (mem : Nat) (uuid : Nat → List Nat) (s : Dev) :
    DevOp → Dev × List (Nat × Nat × List Nat)
  | .look i rf df =>
    if s.pend i then (s, [])
    else match s.cache i with
      | some x => (s, [(s.proc, i, x)])
      | none =>
        match get utf8 mem .str s.disk devKey rf df with
        | (_, .abort) => (s.next, [])
        | (d, .val (some x)) =>
          ({ s with cache := fun j => if j = i then some x else s.cache j, disk := d }, [(s.proc, i, x)])
        | (d, .val none) =>
          ({ s with pend := fun j => if j = i then true else s.pend j, disk := d }, [])
  | .make i w =>
    if s.pend i then
      ({ cache := fun j => if j = i then some (uuid s.made) else s.cache j
         pend := fun j => if j = i then false else s.pend j
         disk := set .str s.disk devKey (uuid s.made) w
         made := s.made + 1
         proc := s.proc }, [(s.proc, i, uuid s.made)])
    else (s, [])
  | .restart => (s.next, [])
  | .other op => ({ s with disk := op.run utf8 mem s.disk }, [])

/-- A run, and all identifiers returned, in order. -/
def Dev.run (utf8 : List Nat → Bool) (mem : Nat) (uuid : Nat → List Nat) (s : Dev) :
    List DevOp → Dev × List (Nat × Nat × List Nat)
  | [] => (s, [])
  | o :: os =>
    let r := s.step utf8 mem uuid o
    let q := r.1.run utf8 mem uuid os
    (q.1, r.2 ++ q.2)

end Verif.Store
