import Verif.Proto.Schema
/-
What C103 asks: the messages of a schema, the bytes that are an encoding of a message under the schema, and when a table (the
generated code) is one for a schema.  Nothing here is used by the model of the code.
-/
namespace Verif.Wire

open Handshake (Bytes varint)

/-! ### The messages of a schema -/

def Schema.fields (S : Schema) (ix : Nat) : List SField := (S[ix]?).getD []

/-- The numbers of a type; floats and signed numbers as their bits. -/
def inRange : Kind → Nat → Prop
  | .u32, n => n < 2 ^ 32
  | .i32, n => n < 2 ^ 32
  | .enum, n => n < 2 ^ 32
  | .bool, n => n < 2
  | .u64, n => n < 2 ^ 64
  | .i64, n => n < 2 ^ 64
  | .f64, n => n < 2 ^ 64
  | .f32, n => n < 2 ^ 32
  | _, _ => False

/-- A value for a field: of its type, an implicit field not with its default (both zeros of the floats), a packed field not empty. -/
def FitsV {M : Type} (fm : Nat → M → Prop) (utf8 : Bytes → Bool) (s : SField) : V M → Prop
  | .num n => s.label ≠ .packed ∧ inRange s.kind n ∧ (s.label = .plain → n ≠ 0 ∧ (s.kind = .f64 → n ≠ 2 ^ 63) ∧ (s.kind = .f32 → n ≠ 2 ^ 31))
  | .bytes b => s.label ≠ .packed ∧ (s.kind = .bytes ∨ s.kind = .str ∧ utf8 b = true) ∧ (s.label = .plain → b ≠ [])
  | .nums l => s.label = .packed ∧ l ≠ [] ∧ ∀ n ∈ l, inRange s.kind n
  | .msg m => s.label ≠ .packed ∧ ∃ ix, s.kind = .msg ix ∧ fm ix m

/-- In the order of the fields; only repeated fields and maps, with other keys, occur twice; only one of a oneof is set. -/
def Before {M : Type} (hk : M → Bytes → Prop) (ss : List SField) (x y : Nat × V M) : Prop :=
  (x.1 < y.1 ∧ ∀ s s' g, ss[x.1]? = some s → ss[y.1]? = some s' → s.label = .one g → s'.label ≠ .one g) ∨
  (x.1 = y.1 ∧ ∃ s, ss[x.1]? = some s ∧ (s.label = .rep ∨
    s.label = .map ∧ ∃ m m' b b', x.2 = .msg m ∧ y.2 = .msg m' ∧ hk m b ∧ hk m' b' ∧ b ≠ b'))

/-- A value of the type of a field, default or not. -/
def Typed {M : Type} (fm : Nat → M → Prop) (utf8 : Bytes → Bool) (s : SField) : V M → Prop
  | .num n => s.label ≠ .packed ∧ inRange s.kind n
  | .bytes b => s.label ≠ .packed ∧ (s.kind = .bytes ∨ s.kind = .str ∧ utf8 b = true)
  | .nums l => s.label = .packed ∧ ∀ n ∈ l, inRange s.kind n
  | .msg m => s.label ≠ .packed ∧ ∃ ix, s.kind = .msg ix ∧ fm ix m

/-- The wire type of a type. -/
def wireType : Kind → Nat
  | .u32 => 0
  | .u64 => 0
  | .i32 => 0
  | .i64 => 0
  | .enum => 0
  | .bool => 0
  | .f64 => 1
  | .f32 => 5
  | .str => 2
  | .bytes => 2
  | .msg _ => 2

def rawType : Raw → Nat
  | .varint _ => 0
  | .f64 _ => 1
  | .len _ => 2
  | .f32 _ => 5

/-- The tag of a field. -/
def tagOf (s : SField) : Nat := 8 * s.num + (if s.label = .packed then 2 else wireType s.kind)

/-- An unknown field: not one of the schema, or one of another wire type. -/
def FitsU (ss : List SField) (u : Nat × Raw) : Prop :=
  1 ≤ u.1 ∧ (∀ s ∈ ss, 8 * u.1 + rawType u.2 ≠ tagOf s ∧ (s.label = .packed → 8 * u.1 + rawType u.2 ≠ 8 * s.num + wireType s.kind)) ∧
  match u.2 with
  | .f64 n => n < 2 ^ 64
  | .f32 n => n < 2 ^ 32
  | _ => True

def FitsF {M : Type} (fm : Nat → M → Prop) (hk : M → Bytes → Prop) (utf8 : Bytes → Bool) (ss : List SField) (m : MsgF M) : Prop :=
  (∀ x ∈ m.known, ∃ s, ss[x.1]? = some s ∧ FitsV fm utf8 s x.2) ∧ m.known.Pairwise (Before hk ss) ∧ (∀ u ∈ m.unknown, FitsU ss u) ∧
  ∀ x ∈ m.known, ∀ s, ss[x.1]? = some s → s.label = .map → ∃ m b, x.2 = .msg m ∧ hk m b

/-- The key of an entry of a map: its first field. -/
def HasKey : (d : Nat) → Msg d → Bytes → Prop
  | 0, _, _ => False
  | _ + 1, m, b => ∃ rest, MsgF.known m = (0, .bytes b) :: rest

/-- `m` is a message of the `ix`-th type of the schema. -/
def Fits (S : Schema) (utf8 : Bytes → Bool) : (d : Nat) → Nat → Msg d → Prop
  | 0, _, _ => False
  | d + 1, ix, m => FitsF (Fits S utf8 d) (HasKey d) utf8 (S.fields ix) m

/-! ### Its encodings -/

/-- A base 128 number, not necessarily the shortest. -/
inductive IsVarint : Nat → Bytes → Prop where
  | last (b : Nat) (h : b < 128) : IsVarint b [b]
  | more (b n : Nat) (bs : Bytes) (h : b < 128) (hn : IsVarint n bs) : IsVarint (b + 128 * n) ((b + 128) :: bs)

/-- In at most ten bytes, if it has 64 bits. -/
def IsVar (n : Nat) (bs : Bytes) : Prop := IsVarint n bs ∧ (bs.length ≤ 10 ∨ 2 ^ 64 ≤ n)

/-- Little endian. -/
def IsLe (k n : Nat) (bs : Bytes) : Prop := bs = (List.range k).map fun i => n / 256 ^ i % 256

/-- A number: 32 signed bits are extended to 64. -/
def EncNum (k : Kind) (n : Nat) (bs : Bytes) : Prop :=
  match k with
  | .f64 => IsLe 8 n bs
  | .f32 => IsLe 4 n bs
  | .i32 => IsVar (if n < 2 ^ 31 then n else 2 ^ 64 - (2 ^ 32 - n)) bs
  | .enum => IsVar (if n < 2 ^ 31 then n else 2 ^ 64 - (2 ^ 32 - n)) bs
  | _ => IsVar n bs

def EncNums (k : Kind) : List Nat → Bytes → Prop
  | [], bs => bs = []
  | n :: l, bs => ∃ a b, EncNum k n a ∧ EncNums k l b ∧ bs = a ++ b

/-- Behind its length. -/
def Delimited (b bs : Bytes) : Prop := ∃ l, IsVar b.length l ∧ bs = l ++ b

/-- What follows the tag. -/
def EncPay {M : Type} (enc : Nat → M → Bytes → Prop) (s : SField) (v : V M) (bs : Bytes) : Prop :=
  match v with
  | .num n => s.label ≠ .packed ∧ EncNum s.kind n bs
  | .bytes b => s.label ≠ .packed ∧ Delimited b bs
  | .nums l => s.label = .packed ∧ ∃ b, EncNums s.kind l b ∧ Delimited b bs
  | .msg m => s.label ≠ .packed ∧ ∃ ix b, s.kind = .msg ix ∧ enc ix m b ∧ Delimited b bs

/-- A field; an element of a packed field may stand alone. -/
def EncV {M : Type} (enc : Nat → M → Bytes → Prop) (s : SField) (v : V M) (bs : Bytes) : Prop :=
  ∃ t p, bs = t ++ p ∧ ((IsVar (tagOf s) t ∧ EncPay enc s v p) ∨
    (s.label = .packed ∧ IsVar (8 * s.num + wireType s.kind) t ∧ ∃ n, v = .nums [n] ∧ EncNum s.kind n p))

def EncRaw (u : Nat × Raw) (bs : Bytes) : Prop :=
  ∃ t p, bs = t ++ p ∧ IsVar (8 * u.1 + rawType u.2) t ∧
    match u.2 with
    | .varint n => IsVar n p
    | .f64 n => IsLe 8 n p
    | .len b => Delimited b p
    | .f32 n => IsLe 4 n p

/-- A field of the schema, or another one. -/
abbrev Item (M : Type) := (Nat × V M) ⊕ (Nat × Raw)

def EncItem {M : Type} (enc : Nat → M → Bytes → Prop) (ss : List SField) (it : Item M) (bs : Bytes) : Prop :=
  match it with
  | .inl x => ∃ s, ss[x.1]? = some s ∧ EncV enc s x.2 bs
  | .inr u => EncRaw u bs

def EncItems {M : Type} (enc : Nat → M → Bytes → Prop) (ss : List SField) : List (Item M) → Bytes → Prop
  | [], bs => bs = []
  | it :: l, bs => ∃ a b, EncItem enc ss it a ∧ EncItems enc ss l b ∧ bs = a ++ b

def knowns {M : Type} (l : List (Item M)) : List (Nat × V M) := l.filterMap Sum.getLeft?
def unknowns {M : Type} (l : List (Item M)) : List (Nat × Raw) := l.filterMap Sum.getRight?

def elems {M : Type} : V M → List Nat
  | .nums l => l
  | _ => []

/-- What the items say about the `j`-th field: the elements of a packed field together. -/
def gather {M : Type} (ss : List SField) (j : Nat) (l : List (Nat × V M)) : List (Nat × V M) :=
  if ∃ s, ss[j]? = some s ∧ s.label = .packed then
    if ((l.filter fun x => x.1 = j).flatMap fun x => elems x.2) = [] then [] else [(j, .nums ((l.filter fun x => x.1 = j).flatMap fun x => elems x.2))]
  else l.filter fun x => x.1 = j

/-- No field twice but repeated ones and maps with other keys, and one of a oneof. -/
def Compat {M : Type} (hk : M → Bytes → Prop) (ss : List SField) (x y : Nat × V M) : Prop :=
  (x.1 ≠ y.1 ∧ ∀ s s' g, ss[x.1]? = some s → ss[y.1]? = some s' → s.label = .one g → s'.label ≠ .one g) ∨
  (x.1 = y.1 ∧ ∃ s, ss[x.1]? = some s ∧ (s.label = .rep ∨ s.label = .packed ∨
    s.label = .map ∧ ∃ m m' b b', x.2 = .msg m ∧ y.2 = .msg m' ∧ hk m b ∧ hk m' b' ∧ b ≠ b'))

/-- The fields in any order (the elements of one field in theirs), unknown ones anywhere between. -/
def EncF {M : Type} (enc : Nat → M → Bytes → Prop) (hk : M → Bytes → Prop) (ss : List SField) (m : MsgF M) (bs : Bytes) : Prop :=
  ∃ items : List (Item M), EncItems enc ss items bs ∧ (knowns items).Pairwise (Compat hk ss) ∧
    (∀ j, gather ss j (knowns items) = m.known.filter fun x => x.1 = j) ∧ unknowns items = m.unknown

/-- `bs` is an encoding of the message `m` of the `ix`-th type. -/
def Enc (S : Schema) : (d : Nat) → Nat → Msg d → Bytes → Prop
  | 0, _, _, _ => False
  | d + 1, ix, m, bs => EncF (Enc S d) (HasKey d) (S.fields ix) m bs

/-! ### What any sequence of fields says -/

/-- The default of a field without presence. -/
def Absent {M : Type} (s : SField) : V M → Prop
  | .num n => n = 0 ∨ s.kind = .f64 ∧ n = 2 ^ 63 ∨ s.kind = .f32 ∧ n = 2 ^ 31
  | .bytes b => b = []
  | _ => False

def SameKey {M : Type} (hk : M → Bytes → Prop) (x y : Nat × V M) : Prop := ∃ m m' b, x.2 = .msg m ∧ y.2 = .msg m' ∧ hk m b ∧ hk m' b

open Classical in
/-- The last entry for each key. -/
noncomputable def lastKeys {M : Type} (hk : M → Bytes → Prop) : List (Nat × V M) → List (Nat × V M)
  | [] => []
  | x :: l => if ∃ y ∈ l, SameKey hk x y then lastKeys hk l else x :: lastKeys hk l

open Classical in
/-- What the items say about the `j`-th field: the last one counts, and of a oneof the last one of all of its fields; of a repeated field
all, together if it is packed; of a map the last one for each key. -/
noncomputable def lastOf {M : Type} (hk : M → Bytes → Prop) (ss : List SField) (j : Nat) (l : List (Nat × V M)) : List (Nat × V M) :=
  match ss[j]? with
  | none => []
  | some s =>
    match s.label with
    | .plain => (l.filter fun x => x.1 = j).getLast?.toList.filter fun x => ¬ Absent s x.2
    | .opt => (l.filter fun x => x.1 = j).getLast?.toList
    | .always => (l.filter fun x => x.1 = j).getLast?.toList
    | .rep => l.filter fun x => x.1 = j
    | .packed => gather ss j l
    | .map => lastKeys hk (l.filter fun x => x.1 = j)
    | .one g => (l.filter fun x => ∃ s', ss[x.1]? = some s' ∧ s'.label = .one g).getLast?.toList.filter fun x => x.1 = j

def SaysF {M : Type} (enc : Nat → M → Bytes → Prop) (hk : M → Bytes → Prop) (utf8 : Bytes → Bool) (ss : List SField) (m : MsgF M) (bs : Bytes) : Prop :=
  ∃ items : List (Item M), EncItems enc ss items bs ∧
    (∀ x ∈ knowns items, ∀ s, ss[x.1]? = some s → Typed (fun _ _ => True) utf8 s x.2 ∧ (s.label = .map → ∃ m b, x.2 = .msg m ∧ hk m b)) ∧
    (∀ u ∈ unknowns items, FitsU ss u) ∧
    m.known.Pairwise (fun x y => x.1 ≤ y.1) ∧ (∀ j, m.known.filter (fun x => x.1 = j) = lastOf hk ss j (knowns items)) ∧ m.unknown = unknowns items

/-- `bs` is a sequence of fields in any order and number, defaults and repetitions included, and `m` is what they say. -/
def Says (S : Schema) (utf8 : Bytes → Bool) : (d : Nat) → Nat → Msg d → Bytes → Prop
  | 0, _, _, _ => False
  | d + 1, ix, m, bs => SaysF (Says S utf8 d) (HasKey d) utf8 (S.fields ix) m bs

/-! ### Tables for a schema -/

/-- What an arm of the code says about its field. -/
def Field.sig (f : Field) : SField := ⟨f.tag / 8, f.rk, f.label⟩

def Kind.isMsg : Kind → Bool
  | .msg _ => true
  | _ => false

def Kind.isNum : Kind → Bool
  | .msg _ => false
  | .str => false
  | .bytes => false
  | _ => true

/-- The bytes of a tag. -/
def tagBytes (t : Nat) : Nat := if t < 2 ^ 7 then 1 else if t < 2 ^ 14 then 2 else if t < 2 ^ 21 then 3 else if t < 2 ^ 28 then 4 else 5

/-- The three functions agree about a field. -/
def Field.ok (f : Field) : Bool :=
  decide (f.wk = f.rk) && decide (f.tag = tagOf f.sig) && decide (8 ≤ f.tag) && decide (f.tag < 2 ^ 32) && decide (f.dflt = 0) &&
  (match f.w with
    | .num n => decide (n = f.tag / 8)
    | .tag t => decide (t = f.tag)) &&
  (match f.s with
    | .num n => decide (n = f.tag / 8) && decide (f.sk = some f.rk) && !f.rk.isMsg
    | .lit n => decide (n = tagBytes f.tag) && decide (f.sk = some f.rk) && f.rk.isMsg
    | .fix a b => decide (a = tagBytes f.tag) && (decide (f.rk = .bool ∧ b = 1) || decide (f.rk = .f64 ∧ b = 8) || decide (f.rk = .f32 ∧ b = 4)) && decide (f.label ≠ .packed)) &&
  (if f.label = .packed then f.rk.isNum && decide (f.alt = some (8 * (f.tag / 8) + wireType f.rk)) else decide (f.alt = none)) &&
  (match f.label with
    | .plain => !f.rk.isMsg
    | .map => f.rk.isMsg
    | _ => true)

/-- The tags of the arms. -/
def tags (fs : List Field) : List Nat := fs.flatMap fun f => f.tag :: f.alt.toList

/-- The three functions agree, and a tag leads to one arm. -/
def Table.ok (T : Table) : Bool := T.all fun fs => fs.all Field.ok && decide (tags fs).Nodup

/-- The generated code is for this schema. -/
def Table.isFor (T : Table) (S : Schema) : Prop := T.map (fun fs => fs.map Field.sig) = S

end Verif.Wire
