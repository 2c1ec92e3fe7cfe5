/-
Model of bd-proto-util/src/proto.rs: the bytes that `hash_message` feeds into a hasher, and C82.

Simplifications, valid for the whole file:
* A message is the list of its fields in the order of its descriptor, as reflection shows them
  (proto.rs:91-94): optional, repeated or map.  Unknown fields are not hashed by the code and not
  part of the model.
* Floating point numbers are their bit patterns.  An enum value is its number (proto.rs:143).
* The hasher is the byte string fed so far: both SHA-256 (proto.rs:78-82) and the hashers of the
  standard library (proto.rs:84-88) depend only on it.
* `usize` has 64 bits.
* A `HashMap` has no order: its entries are listed in the order in which this process iterates them.
-/
namespace Verif.Proto

/-- Scalar values (proto.rs:133-146). -/
inductive Sc where
  | u32 (n : Nat)
  | u64 (n : Nat)
  | i32 (n : Int)
  | i64 (n : Int)
  | f32 (bits : Nat)
  | f64 (bits : Nat)
  | bool (b : Bool)
  | str (s : List Nat)
  | bytes (s : List Nat)
  deriving DecidableEq, Repr

mutual
/-- A value: `ReflectValueRef`. -/
inductive V where
  | sc (s : Sc)
  | msg (fs : Fs)
/-- The fields of a message, in the order of the descriptor: `ReflectFieldRef`. -/
inductive Fs where
  | nil
  | absent (num : Nat) (rest : Fs)
  | opt (num : Nat) (v : V) (rest : Fs)
  | rep (num : Nat) (vs : Vs) (rest : Fs)
  | map (num : Nat) (kvs : Kvs) (rest : Fs)
/-- The values of a repeated field. -/
inductive Vs where
  | nil
  | cons (v : V) (rest : Vs)
/-- The entries of a map field. -/
inductive Kvs where
  | nil
  | cons (k : Sc) (v : V) (rest : Kvs)
end

/-- `to_le_bytes` of a number with `k` bytes. -/
def leBytes : Nat → Nat → List Nat
  | 0, _ => []
  | k + 1, n => n % 256 :: leBytes k (n / 256)

/-- The two's complement of a signed number with `k` bytes. -/
def twos (k : Nat) (n : Int) : Nat := (n % ((256 ^ k : Nat) : Int)).toNat

/-- `hash_value` of a scalar (proto.rs:135-143). -/
def hSc : Sc → List Nat
  | .u32 n => leBytes 4 n
  | .u64 n => leBytes 8 n
  | .i64 n => leBytes 8 (twos 8 n)
  | .f32 b => leBytes 4 b
  | .f64 b => leBytes 8 b
  | .bool b => if b then [1] else [0]
  | .str s => s
  | .bytes s => s
  | .i32 n => leBytes 4 (twos 4 n)

/-- A natural number in decimal digits. -/
def decimal (n : Nat) : List Nat :=
  if h : n < 10 then [48 + n] else decimal (n / 10) ++ [48 + n % 10]
  termination_by n

/-- A signed number in decimal digits. -/
def decimalInt (n : Int) : List Nat :=
  if 0 ≤ n then decimal n.toNat else 45 :: decimal (-n).toNat

/-- `k.to_string()` of a map key (proto.rs:123): map keys are integers, booleans and strings. -/
def keyText : Sc → List Nat
  | .u32 n | .u64 n | .f32 n | .f64 n => decimal n
  | .i32 n | .i64 n => decimalInt n
  | .bool b => if b then [116, 114, 117, 101] else [102, 97, 108, 115, 101]
  | .str s | .bytes s => s

/-- The order of strings, by bytes. -/
def lexLe : List Nat → List Nat → Bool
  | [], _ => true
  | _ :: _, [] => false
  | a :: x, b :: y => if a < b then true else if b < a then false else lexLe x y

/-- The number of elements of a repeated field. -/
def Vs.len : Vs → Nat
  | .nil => 0
  | .cons _ r => r.len + 1

mutual
/-- `hash_value` (proto.rs:133-146). -/
def hV : V → List Nat
  | .sc s => hSc s
  | .msg fs => hFs fs
/-- `hash_message` (proto.rs:90-131): an optional field with its number, a repeated field with its
length if it is not empty, a map with its entries sorted by the text of the key. -/
def hFs : Fs → List Nat
  | .nil => []
  | .absent _ r => hFs r
  | .opt n v r => leBytes 4 n ++ hV v ++ hFs r
  | .rep _ vs r => (if vs.len = 0 then [] else leBytes 8 vs.len) ++ hVs vs ++ hFs r
  | .map _ m r => ((hKvs m).mergeSort fun a b => lexLe a.1 b.1).flatMap (·.2) ++ hFs r
/-- The elements of a repeated field, in order (proto.rs:113-115). -/
def hVs : Vs → List Nat
  | .nil => []
  | .cons v r => hV v ++ hVs r
/-- The entries of a map in the order of iteration: the text of the key, and what is hashed for the
entry (proto.rs:121-127). -/
def hKvs : Kvs → List (List Nat × List Nat)
  | .nil => []
  | .cons k v r => (keyText k, hSc k ++ hV v) :: hKvs r
end

/-! ### Equality of messages -/

mutual
/-- Equality of values: bit for bit, with maps as sets of entries. -/
inductive SameV : V → V → Prop where
  | sc (s : Sc) : SameV (.sc s) (.sc s)
  | msg {a b : Fs} : SameFs a b → SameV (.msg a) (.msg b)
inductive SameFs : Fs → Fs → Prop where
  | nil : SameFs .nil .nil
  | absent (n : Nat) {a b : Fs} : SameFs a b → SameFs (.absent n a) (.absent n b)
  | opt (n : Nat) {v w : V} {a b : Fs} : SameV v w → SameFs a b → SameFs (.opt n v a) (.opt n w b)
  | rep (n : Nat) {v w : Vs} {a b : Fs} : SameVs v w → SameFs a b →
      SameFs (.rep n v a) (.rep n w b)
  | map (n : Nat) {v w : Kvs} {a b : Fs} : SameKvs v w → SameFs a b →
      SameFs (.map n v a) (.map n w b)
inductive SameVs : Vs → Vs → Prop where
  | nil : SameVs .nil .nil
  | cons {v w : V} {a b : Vs} : SameV v w → SameVs a b → SameVs (.cons v a) (.cons w b)
inductive SameKvs : Kvs → Kvs → Prop where
  | nil : SameKvs .nil .nil
  | cons (k : Sc) {v w : V} {a b : Kvs} : SameV v w → SameKvs a b →
      SameKvs (.cons k v a) (.cons k w b)
  | swap (k k' : Sc) (v v' : V) (a : Kvs) :
      SameKvs (.cons k v (.cons k' v' a)) (.cons k' v' (.cons k v a))
  | trans {a b c : Kvs} : SameKvs a b → SameKvs b c → SameKvs a c
end

/-- The keys of a map. -/
def Kvs.keys : Kvs → List Sc
  | .nil => []
  | .cons k _ r => k :: r.keys

/-- The keys of one map have one type: two keys with different texts or equal. -/
def sameKind : Sc → Sc → Bool
  | .u32 _, .u32 _ => true
  | .u64 _, .u64 _ => true
  | .i32 _, .i32 _ => true
  | .i64 _, .i64 _ => true
  | .bool _, .bool _ => true
  | .str _, .str _ => true
  | _, _ => false

mutual
/-- Well-formed: the keys of every map have the same type and are different. -/
def V.Wf : V → Prop
  | .sc _ => True
  | .msg fs => fs.Wf
def Fs.Wf : Fs → Prop
  | .nil => True
  | .absent _ r => r.Wf
  | .opt _ v r => v.Wf ∧ r.Wf
  | .rep _ vs r => vs.Wf ∧ r.Wf
  | .map _ m r => m.Wf ∧ m.keys.Pairwise (fun a b => sameKind a b = true ∧ a ≠ b) ∧ r.Wf
def Vs.Wf : Vs → Prop
  | .nil => True
  | .cons v r => v.Wf ∧ r.Wf
def Kvs.Wf : Kvs → Prop
  | .nil => True
  | .cons _ v r => v.Wf ∧ r.Wf
end

end Verif.Proto
