import Verif.Proto.WireSpec
import Verif.Proto.Tables
import Verif.Proto.HandshakeProps
/-
C103: what the generated code writes is an encoding under the schema, the sizes it computes are the lengths it writes, and it reads
every encoding.
-/
namespace Verif.Wire

open Handshake (Bytes varint readVarint readField readVarint_varint readField_body varint_ne)

/-! ### Numbers -/

theorem varint_length (n : Nat) : (varint n).length = varintSize n := by
  induction n using Nat.strongRecOn with
  | ind n ih =>
    rw [varint, varintSize]
    by_cases h : n < 128
    · rw [if_pos h, if_pos h]; rfl
    · rw [if_neg h, if_neg h, List.length_cons, ih (n / 128) (by omega)]

theorem varintSize_add {n k : Nat} (h : k < 8) : varintSize (8 * n + k) = varintSize (8 * n) := by
  have e : (8 * n + k) / 128 = 8 * n / 128 := by omega
  conv => lhs; rw [varintSize]
  conv => rhs; rw [varintSize]
  rw [e]
  by_cases h1 : 8 * n < 128
  · rw [if_pos h1, if_pos (by omega)]
  · rw [if_neg h1, if_neg (by omega)]

theorem le_length (k n : Nat) : (le k n).length = k := by
  induction k generalizing n with
  | zero => rfl
  | succ k ih => simp [le, ih]

theorem unle_le (k n : Nat) (h : n < 256 ^ k) : unle (le k n) = n := by
  induction k generalizing n with
  | zero => simp at h; subst h; rfl
  | succ k ih =>
    simp only [le, unle]
    rw [ih (n / 256) (by rw [Nat.pow_succ] at h; omega)]
    omega

theorem readLe_le (k n : Nat) (r : Bytes) (h : n < 256 ^ k) : readLe k (le k n ++ r) = some (n, r) := by
  have hl := le_length k n
  have h1 : (le k n ++ r).take k = le k n := by rw [List.take_append_of_le_length (by omega), List.take_of_length_le (by omega)]
  have h2 : (le k n ++ r).drop k = r := by rw [List.drop_append_of_le_length (by omega), List.drop_of_length_le (by omega), List.nil_append]
  rw [readLe, if_pos (by simp [hl]), h1, h2, unle_le k n h]

theorem writeNum_length (k : Kind) (n : Nat) : (writeNum k n).length = sizeNum k n := by
  cases k <;> simp [writeNum, sizeNum, le_length, varint_length]

theorem writeNum_ne (k : Kind) (n : Nat) : writeNum k n ≠ [] := by
  cases k <;> simp [writeNum, le, varint_ne]

theorem signed (n : Nat) (h : n < 2 ^ 32) : (if n < 2 ^ 31 then n else n + (2 ^ 64 - 2 ^ 32)) % 2 ^ 32 = n := by
  split <;> omega


theorem isVarint_varint (n : Nat) : IsVarint n (varint n) := by
  induction n using Nat.strongRecOn with
  | ind n ih =>
    rw [varint]
    by_cases h : n < 128
    · rw [if_pos h]; exact .last n h
    · rw [if_neg h]
      have := IsVarint.more (n % 128) (n / 128) _ (Nat.mod_lt _ (by omega)) (ih (n / 128) (by omega))
      rwa [Nat.mod_add_div] at this

theorem varintSize_le (k : Nat) : ∀ n, n < 128 ^ (k + 1) → varintSize n ≤ k + 1 := by
  induction k with
  | zero =>
    intro n h
    rw [varintSize, if_pos (by simpa using h)]
    exact Nat.le_refl _
  | succ k ih =>
    intro n h
    rw [varintSize]
    split
    · omega
    · have := ih (n / 128) (by rw [Nat.pow_succ] at h; omega)
      omega

theorem isVar_varint (n : Nat) : IsVar n (varint n) := by
  refine ⟨isVarint_varint n, ?_⟩
  by_cases h : n < 2 ^ 64
  · rw [varint_length]
    exact Or.inl (varintSize_le 9 n (by omega))
  · exact Or.inr (by omega)

theorem isVarint_ne {n : Nat} {bs : Bytes} (h : IsVarint n bs) : bs ≠ [] := by
  cases h <;> simp

theorem readVarint_isVarint {n : Nat} {bs : Bytes} (h : IsVarint n bs) (r : Bytes) : readVarint (bs ++ r) = some (n, r) := by
  induction h with
  | last b h => simp [readVarint, h]
  | more b n bs h _ ih =>
    rw [List.cons_append, readVarint, if_neg (by omega), ih]
    simp

theorem le_eq (k n : Nat) : le k n = (List.range k).map fun i => n / 256 ^ i % 256 := by
  induction k generalizing n with
  | zero => rfl
  | succ k ih =>
    rw [le, List.range_succ_eq_map, List.map_cons, List.map_map, ih]
    congr 1
    · simp
    · apply List.map_congr_left
      intro i _
      simp only [Function.comp, Nat.succ_eq_add_one]
      rw [Nat.div_div_eq_div_mul, Nat.pow_succ, Nat.mul_comm]

theorem isLe_le (k n : Nat) : IsLe k n (le k n) := le_eq k n

theorem encNum_write (k : Kind) (n : Nat) (h : inRange k n) : EncNum k n (writeNum k n) := by
  cases k <;> simp only [inRange] at h <;> simp only [EncNum, writeNum, toWire, isLe_le, isVar_varint]
  all_goals
    have e : (if n < 2 ^ 31 then n else n + (2 ^ 64 - 2 ^ 32)) = (if n < 2 ^ 31 then n else 2 ^ 64 - (2 ^ 32 - n)) := by
      split <;> omega
    rw [e]
    exact isVar_varint _

theorem readNum_enc {k : Kind} {n : Nat} {p : Bytes} (hp : EncNum k n p) (h : inRange k n) (r : Bytes) : readNum k (p ++ r) = some (n, r) := by
  have hs : n < 2 ^ 32 → (if n < 2 ^ 31 then n else 2 ^ 64 - (2 ^ 32 - n)) % 2 ^ 32 = n := by
    intro h
    split <;> omega
  cases k <;> simp only [inRange] at h <;> simp only [EncNum] at hp <;> simp only [readNum]
  case f64 => rw [hp, ← le_eq]; exact readLe_le 8 n r (by simpa using h)
  case f32 => rw [hp, ← le_eq]; exact readLe_le 4 n r (by simpa using h)
  case i32 => rw [readVarint_isVarint hp.1, Option.map_some, fromWire, hs h]
  case enum => rw [readVarint_isVarint hp.1, Option.map_some, fromWire, hs h]
  case u32 => rw [readVarint_isVarint hp.1, Option.map_some, fromWire, Nat.mod_eq_of_lt h]
  case bool =>
    rw [readVarint_isVarint hp.1, Option.map_some, fromWire]
    have : (if n = 0 then 0 else 1) = n := by split <;> omega
    rw [this]
  case u64 => rw [readVarint_isVarint hp.1, Option.map_some]; simp only [fromWire]; rw [Nat.mod_eq_of_lt h]
  case i64 => rw [readVarint_isVarint hp.1, Option.map_some]; simp only [fromWire]; rw [Nat.mod_eq_of_lt h]

theorem encNum_ne {k : Kind} {n : Nat} {p : Bytes} (hp : EncNum k n p) : p ≠ [] := by
  cases k <;> simp only [EncNum] at hp
  case f64 => rw [hp]; simp [List.range_succ]
  case f32 => rw [hp]; simp [List.range_succ]
  all_goals exact isVarint_ne hp.1

theorem readNums_enc {k : Kind} : ∀ {l : List Nat} {b : Bytes}, EncNums k l b → (∀ n ∈ l, inRange k n) → ∀ fuel, b.length ≤ fuel → readNums k fuel b = some l
  | [], b, h, _, fuel, _ => by
    rw [EncNums] at h
    subst h
    cases fuel <;> rfl
  | n :: l, b, h, hr, fuel, hf => by
    obtain ⟨a, c, ha, hc, rfl⟩ := h
    have h1 := readNum_enc ha (hr n (by simp)) c
    cases hx : a with
    | nil => exact absurd hx (encNum_ne ha)
    | cons y t =>
      rw [hx] at hf h1
      cases fuel with
      | zero => simp at hf
      | succ fuel =>
        have h2 := readNums_enc hc (fun x hx => hr x (by simp [hx])) fuel (by simp at hf; omega)
        rw [List.cons_append] at h1 ⊢
        simp only [readNums, h1, h2, Option.map_some]

theorem readField_delimited {b bs : Bytes} (h : Delimited b bs) (r : Bytes) : readField (bs ++ r) = some (b, r) := by
  obtain ⟨l, hl, rfl⟩ := h
  unfold readField
  rw [List.append_assoc, readVarint_isVarint hl.1]
  simp

theorem delimited_write (b : Bytes) : Delimited b (varint b.length ++ b) := ⟨_, isVar_varint _, rfl⟩

theorem encNums_write (k : Kind) (l : List Nat) (h : ∀ n ∈ l, inRange k n) : EncNums k l (l.flatMap (writeNum k)) := by
  induction l with
  | nil => rfl
  | cons n l ih => exact ⟨_, _, encNum_write k n (h n (by simp)), ih fun x hx => h x (by simp [hx]), List.flatMap_cons⟩

theorem flatMap_length {α : Type} (f : α → Bytes) (g : α → Nat) (h : ∀ a, (f a).length = g a) (l : List α) :
    (l.flatMap f).length = (l.map g).sum := by
  induction l with
  | nil => rfl
  | cons a l ih => simp [List.flatMap_cons, h, ih]

/-! ### One field -/

/-- What follows the tag. -/
def pay {M : Type} (sz : Nat → M → Nat) (wr : Nat → M → Bytes) (f : Field) : V M → Bytes
  | .num n => writeNum f.wk n
  | .bytes b => varint b.length ++ b
  | .nums l => varint (l.map (sizeNum f.wk)).sum ++ l.flatMap (writeNum f.wk)
  | .msg m =>
    match f.wk with
    | .msg ix => varint (sz ix m) ++ wr ix m
    | _ => []

theorem wt_eq (k : Kind) : k.wt = wireType k := by cases k <;> rfl

theorem ok_parts {f : Field} (h : f.ok = true) : f.wk = f.rk ∧ f.tag = tagOf f.sig ∧ 8 ≤ f.tag ∧ f.tag < 2 ^ 32 ∧ f.dflt = 0 := by
  simp only [Field.ok, Bool.and_eq_true, decide_eq_true_eq] at h
  exact ⟨h.1.1.1.1.1.1.1.1, h.1.1.1.1.1.1.1.2, h.1.1.1.1.1.1.2, h.1.1.1.1.1.2, h.1.1.1.1.2⟩

theorem ok_wtag {f : Field} (h : f.ok = true) : f.wtag = f.tag := by
  obtain ⟨h1, h2, _⟩ := ok_parts h
  simp only [Field.ok, Bool.and_eq_true] at h
  have hw := h.1.1.1.2
  unfold Field.wtag
  cases hf : f.w with
  | num n =>
    rw [hf] at hw
    have hw := of_decide_eq_true hw
    subst hw
    dsimp only
    rw [h1, wt_eq]
    exact h2.symm
  | tag t =>
    rw [hf] at hw
    exact of_decide_eq_true hw

theorem varintSize_eq (n : Nat) : varintSize n = if n < 128 then 1 else varintSize (n / 128) + 1 := by
  conv => lhs; rw [varintSize]

theorem tagBytes_eq {t : Nat} (h : t < 2 ^ 32) : tagBytes t = varintSize t := by
  unfold tagBytes
  rw [varintSize_eq t, varintSize_eq (t / 128), varintSize_eq (t / 128 / 128), varintSize_eq (t / 128 / 128 / 128), varintSize_eq (t / 128 / 128 / 128 / 128)]
  repeat' split
  all_goals omega

variable {M : Type} {sz : Nat → M → Nat} {wr : Nat → M → Bytes} {rd : Nat → Bytes → Option M} {fm : Nat → M → Prop} {utf8 : Bytes → Bool}
  {enc : Nat → M → Bytes → Prop}

theorem writeV_eq {f : Field} (hok : f.ok = true) {v : V M} (hv : FitsV fm utf8 f.sig v) : writeV sz wr f v = varint f.tag ++ pay sz wr f v := by
  obtain ⟨h1, _⟩ := ok_parts hok
  have h2 := ok_wtag hok
  cases v with
  | num n => simp [writeV, pay, h2]
  | bytes b => simp [writeV, pay, h2]
  | nums l => simp [writeV, pay, h2]
  | msg m =>
    obtain ⟨_, ix, e, _⟩ := hv
    have e : f.rk = .msg ix := e
    simp [writeV, pay, h1, e, h2]

theorem tag_size {f : Field} (n : Nat) (h : n = f.tag / 8) : tagSize n = varintSize f.tag := by
  have := @varintSize_add (f.tag / 8) (f.tag % 8) (by omega)
  rw [show 8 * (f.tag / 8) + f.tag % 8 = f.tag by omega] at this
  rw [tagSize, h, this]

theorem sizeV_eq (H : ∀ ix m, fm ix m → sz ix m = (wr ix m).length) {f : Field} (hok : f.ok = true) {v : V M} (hv : FitsV fm utf8 f.sig v) :
    sizeV sz f v = (writeV sz wr f v).length := by
  rw [writeV_eq hok hv]
  obtain ⟨h1, _, _, h2, _⟩ := ok_parts hok
  simp only [Field.ok, Bool.and_eq_true] at hok
  have hs := hok.1.1.2
  rw [List.length_append, varint_length]
  cases hfs : f.s with
  | num n =>
    rw [hfs] at hs
    simp only [Bool.and_eq_true, decide_eq_true_eq, Bool.not_eq_true'] at hs
    have ht := tag_size n hs.1.1
    cases v with
    | num x => simp only [sizeV, hfs, hs.1.2, pay, writeNum_length, h1, ht]
    | bytes b => simp only [sizeV, hfs, hs.1.2, pay, List.length_append, varint_length, ht]; omega
    | nums l =>
      simp only [sizeV, hfs, hs.1.2, pay, List.length_append, varint_length, ht, h1]
      rw [flatMap_length _ _ (writeNum_length f.rk)]
      omega
    | msg m =>
      obtain ⟨_, ix, e, _⟩ := hv
      have e : f.rk = .msg ix := e
      rw [e] at hs
      cases hs.2
  | lit n =>
    rw [hfs] at hs
    simp only [Bool.and_eq_true, decide_eq_true_eq] at hs
    cases hk : f.rk with
    | msg ix =>
      cases v with
      | num x => have this : inRange f.rk x := hv.2.1; rw [hk] at this; exact this.elim
      | bytes b => have this : f.rk = .bytes ∨ f.rk = .str ∧ utf8 b = true := hv.2.1; rw [hk] at this; simp at this
      | nums l =>
        obtain ⟨_, hne, hall⟩ := hv
        cases l with
        | nil => exact absurd rfl hne
        | cons a l => have this : inRange f.rk a := hall a (by simp); rw [hk] at this; exact this.elim
      | msg m =>
        obtain ⟨_, ix', e, hm⟩ := hv
        have e : f.rk = .msg ix' := e
        rw [hk] at e
        cases e
        simp only [sizeV, hfs, hs.1.2, hk, pay, h1, List.length_append, varint_length, ← H ix m hm, hs.1.1, tagBytes_eq h2]
        omega
    | _ => rw [hk] at hs; cases hs.2
  | fix a b =>
    rw [hfs] at hs
    simp only [Bool.and_eq_true, Bool.or_eq_true, decide_eq_true_eq] at hs
    obtain ⟨⟨ha, hb⟩, hp⟩ := hs
    simp only [sizeV, hfs, ha, tagBytes_eq h2]
    have hx : ∀ x, v = .num x → b = (pay sz wr f v).length := by
      intro x e
      subst e
      simp only [pay, h1, writeNum_length]
      rcases hb with (⟨e, rfl⟩ | ⟨e, rfl⟩) | ⟨e, rfl⟩
      · have this : inRange f.rk x := hv.2.1
        rw [e] at this ⊢
        simp only [inRange] at this
        simp only [sizeNum, toWire]
        rw [varintSize, if_pos (by omega)]
      · rw [e]; rfl
      · rw [e]; rfl
    cases v with
    | num x => rw [← hx x rfl]
    | bytes y => have this : f.rk = .bytes ∨ f.rk = .str ∧ utf8 y = true := hv.2.1; rcases hb with (⟨e, _⟩ | ⟨e, _⟩) | ⟨e, _⟩ <;> (rw [e] at this; simp at this)
    | nums l => exact absurd hv.1 hp
    | msg m =>
      obtain ⟨_, ix, e', _⟩ := hv
      have e' : f.rk = .msg ix := e'
      rcases hb with (⟨e, _⟩ | ⟨e, _⟩) | ⟨e, _⟩ <;> (rw [e] at e'; cases e')

theorem pay_enc (H : ∀ ix m, fm ix m → sz ix m = (wr ix m).length ∧ enc ix m (wr ix m)) {f : Field} (hok : f.ok = true) {v : V M} (hv : FitsV fm utf8 f.sig v) :
    EncPay enc f.sig v (pay sz wr f v) := by
  obtain ⟨h1, _⟩ := ok_parts hok
  cases v with
  | num n => exact ⟨hv.1, by rw [pay, h1]; exact encNum_write _ _ hv.2.1⟩
  | bytes b => exact ⟨hv.1, delimited_write b⟩
  | nums l =>
    refine ⟨hv.1, _, encNums_write f.rk l hv.2.2, ?_⟩
    rw [pay, h1, ← flatMap_length _ _ (writeNum_length f.rk)]
    exact delimited_write _
  | msg m =>
    obtain ⟨hp, ix, e, hm⟩ := hv
    have e : f.rk = .msg ix := e
    refine ⟨hp, ix, _, e, (H ix m hm).2, ?_⟩
    simp only [pay, h1, e, (H ix m hm).1]
    exact delimited_write _

/-- What is asked of a value that is read: part of a value that fits. -/
def PartV (fm : Nat → M → Prop) (utf8 : Bytes → Bool) (s : SField) (v : V M) : Prop :=
  (s.label ≠ .packed ∧ FitsV fm utf8 s v) ∨ (s.label = .packed ∧ ∃ l, v = .nums l ∧ ∀ n ∈ l, inRange s.kind n)

theorem readV_typed (H : ∀ ix m b, fm ix m → enc ix m b → rd ix b = some m) {f : Field} {v : V M} (hv : Typed fm utf8 f.sig v) {p : Bytes}
    (hp : EncPay enc f.sig v p) (r : Bytes) : readV utf8 rd f false (p ++ r) = some (v, r) := by
  cases v with
  | num n =>
    have hl : f.label ≠ .packed := hv.1
    have hr : inRange f.rk n := hv.2
    have hp : EncNum f.rk n p := hp.2
    have := readNum_enc hp hr r
    simp only [readV, hl, if_false]
    cases hk : f.rk <;> rw [hk] at this hr <;> simp only [inRange] at hr <;> simp only [this, Option.map_some]
  | bytes b =>
    have hl : f.label ≠ .packed := hv.1
    have hr : f.rk = .bytes ∨ f.rk = .str ∧ utf8 b = true := hv.2
    simp only [readV, hl, if_false, readField_delimited hp.2]
    rcases hr with e | ⟨e, hu⟩
    · rw [e]; rfl
    · rw [e]; simp [hu]
  | nums l =>
    have hl : f.label = .packed := hv.1
    have hr := hv.2
    obtain ⟨_, b, hb, hd⟩ := hp
    have hb : EncNums f.rk l b := hb
    simp only [readV, hl, if_true, Bool.false_eq_true, if_false, readField_delimited hd, readNums_enc hb hr _ (Nat.le_refl _), Option.map_some]
  | msg m =>
    obtain ⟨hl, ix, e, hm⟩ := hv
    obtain ⟨_, ix', b, e', he, hd⟩ := hp
    rw [e] at e'
    cases e'
    have hl : f.label ≠ .packed := hl
    have e : f.rk = .msg ix := e
    simp only [readV, hl, if_false, e, readField_delimited hd, H ix m b hm he, Option.map_some]

theorem part_typed {s : SField} {v : V M} (hv : PartV fm utf8 s v) : Typed fm utf8 s v := by
  rcases hv with ⟨hl, hv⟩ | ⟨hl, l, rfl, hr⟩
  · cases v with
    | num n => exact ⟨hv.1, hv.2.1⟩
    | bytes b => exact ⟨hv.1, hv.2.1⟩
    | nums l => exact ⟨hv.1, hv.2.2⟩
    | msg m => exact hv
  · exact ⟨hl, hr⟩

theorem readV_pay (H : ∀ ix m b, fm ix m → enc ix m b → rd ix b = some m) {f : Field} {v : V M} (hv : PartV fm utf8 f.sig v) {p : Bytes}
    (hp : EncPay enc f.sig v p) (r : Bytes) : readV utf8 rd f false (p ++ r) = some (v, r) := readV_typed H (part_typed hv) hp r

theorem readV_single {f : Field} (hl : f.label = .packed) {n : Nat} {p : Bytes} (hp : EncNum f.rk n p) (hr : inRange f.rk n) (r : Bytes) :
    readV (M := M) utf8 rd f true (p ++ r) = some (.nums [n], r) := by
  simp only [readV, hl, if_true, readNum_enc hp hr r, Option.map_some]

/-! ### The arms -/

theorem findArm_some : ∀ {fs : List Field} {k i : Nat} {f : Field}, (tags fs).Nodup → fs[i]? = some f → findArm fs k f.tag = some (k + i, f, false)
  | [], _, _, _, _, h => by simp at h
  | g :: fs, k, 0, f, _, h => by
    simp only [List.getElem?_cons_zero, Option.some.injEq] at h
    subst h
    simp [findArm]
  | g :: fs, k, i + 1, f, hn, h => by
    simp only [List.getElem?_cons_succ] at h
    simp only [tags, List.flatMap_cons] at hn
    rw [List.nodup_append] at hn
    obtain ⟨_, hn2, hn3⟩ := hn
    have hm : f.tag ∈ tags fs := by
      simp only [tags, List.mem_flatMap]
      exact ⟨f, List.mem_of_getElem? h, by simp⟩
    have h1 : g.tag ≠ f.tag := fun e => hn3 g.tag (by simp) f.tag hm e
    have h2 : g.alt ≠ some f.tag := fun e => hn3 f.tag (by simp [e]) f.tag hm rfl
    rw [findArm, if_neg h1, if_neg h2, findArm_some hn2 h]
    congr 2
    omega

theorem findArm_alt : ∀ {fs : List Field} {k i t : Nat} {f : Field}, (tags fs).Nodup → fs[i]? = some f → f.alt = some t → findArm fs k t = some (k + i, f, true)
  | [], _, _, _, _, _, h, _ => by simp at h
  | g :: fs, k, 0, t, f, hn, h, ha => by
    simp only [List.getElem?_cons_zero, Option.some.injEq] at h
    subst h
    have h1 : g.tag ≠ t := by
      simp only [tags, List.flatMap_cons, ha] at hn
      rw [List.nodup_append] at hn
      have := hn.1
      simp at this
      exact this
    simp [findArm, h1, ha]
  | g :: fs, k, i + 1, t, f, hn, h, ha => by
    simp only [List.getElem?_cons_succ] at h
    simp only [tags, List.flatMap_cons] at hn
    rw [List.nodup_append] at hn
    obtain ⟨_, hn2, hn3⟩ := hn
    have hm : t ∈ tags fs := by
      simp only [tags, List.mem_flatMap]
      exact ⟨f, List.mem_of_getElem? h, by simp [ha]⟩
    have h1 : g.tag ≠ t := fun e => hn3 g.tag (by simp) t hm e
    have h2 : g.alt ≠ some t := fun e => hn3 t (by simp [e]) t hm rfl
    rw [findArm, if_neg h1, if_neg h2, findArm_alt hn2 h ha]
    congr 2
    omega

theorem findArm_none : ∀ {fs : List Field} {k t : Nat}, (∀ f ∈ fs, f.tag ≠ t ∧ f.alt ≠ some t) → findArm fs k t = none
  | [], _, _, _ => rfl
  | g :: fs, k, t, h => by
    rw [findArm, if_neg (h g (by simp)).1, if_neg (h g (by simp)).2, findArm_none fun f hf => h f (by simp [hf])]

theorem ok_alt {f : Field} (h : f.ok = true) : (f.label = .packed → f.alt = some (8 * f.sig.num + wireType f.rk)) ∧ (f.label ≠ .packed → f.alt = none) := by
  simp only [Field.ok, Bool.and_eq_true] at h
  have ha := h.1.2
  constructor
  · intro hl
    rw [if_pos hl] at ha
    simp only [Bool.and_eq_true, decide_eq_true_eq] at ha
    exact ha.2
  · intro hl
    rw [if_neg hl] at ha
    exact of_decide_eq_true ha

theorem unknown_arm {fs : List Field} (hok : ∀ f ∈ fs, f.ok = true) {u : Nat × Raw} (hu : FitsU (fs.map Field.sig) u) : findArm fs 0 (8 * u.1 + rawType u.2) = none := by
  apply findArm_none
  intro f hf
  obtain ⟨h1, h2⟩ := hu.2.1 f.sig (List.mem_map_of_mem hf)
  obtain ⟨_, ht, _⟩ := ok_parts (hok f hf)
  refine ⟨fun e => h1 (by rw [← e, ht]), ?_⟩
  by_cases hl : f.label = .packed
  · rw [(ok_alt (hok f hf)).1 hl]
    intro e
    exact h2 hl (Option.some.inj e).symm
  · rw [(ok_alt (hok f hf)).2 hl]; nofun

theorem readRaw_enc {ss : List SField} {u : Nat × Raw} (h : FitsU ss u) {t p : Bytes} (he : match u.2 with
    | .varint n => IsVar n p
    | .f64 n => IsLe 8 n p
    | .len b => Delimited b p
    | .f32 n => IsLe 4 n p) (r : Bytes) : readRaw (8 * u.1 + rawType u.2) (p ++ r) = some (u, r) := by
  obtain ⟨num, raw⟩ := u
  obtain ⟨h1, _, h3⟩ := h
  dsimp only at h1 h3 he
  cases raw with
  | varint n =>
    dsimp only at he
    simp only [rawType]
    rw [readRaw, if_neg (by omega), if_pos (by omega), readVarint_isVarint he.1]
    simp
  | f64 n =>
    dsimp only at he h3
    simp only [rawType]
    rw [readRaw, if_neg (by omega), if_neg (by omega), if_pos (by omega), he, ← le_eq, readLe_le 8 n r (by simpa using h3)]
    simp; omega
  | len b =>
    dsimp only at he
    simp only [rawType]
    rw [readRaw, if_neg (by omega), if_neg (by omega), if_neg (by omega), if_pos (by omega), readField_delimited he]
    simp; omega
  | f32 n =>
    dsimp only at he h3
    simp only [rawType]
    rw [readRaw, if_neg (by omega), if_neg (by omega), if_neg (by omega), if_neg (by omega), if_pos (by omega), he, ← le_eq, readLe_le 4 n r (by simpa using h3)]
    simp; omega

theorem writeRaw_enc (u : Nat × Raw) : EncRaw u (writeRaw u) := by
  obtain ⟨num, raw⟩ := u
  cases raw with
  | varint n => exact ⟨_, _, rfl, isVar_varint _, isVar_varint n⟩
  | f64 n => exact ⟨_, _, rfl, isVar_varint _, isLe_le 8 n⟩
  | len b => exact ⟨_, _, List.append_assoc .., isVar_varint _, delimited_write b⟩
  | f32 n => exact ⟨_, _, rfl, isVar_varint _, isLe_le 4 n⟩

theorem sizeRaw_eq (u : Nat × Raw) : sizeRaw u = (writeRaw u).length := by
  obtain ⟨num, raw⟩ := u
  cases raw <;> simp only [sizeRaw, writeRaw, tagSize, List.length_append, varint_length, le_length]
  · rw [varintSize_add (by omega)]
  · rw [varintSize_add (by omega)]
  · rw [varintSize_add (by omega)]

/-! ### The struct -/

theorem takeWhile_all {α : Type} (p : α → Bool) : ∀ {l : List α}, (∀ x ∈ l, p x = true) → l.takeWhile p = l ∧ l.dropWhile p = []
  | [], _ => ⟨rfl, rfl⟩
  | a :: l, h => by
    have ih := takeWhile_all p (fun x hx => h x (List.mem_cons_of_mem _ hx))
    simp [List.takeWhile_cons, List.dropWhile_cons, h a (by simp), ih.1, ih.2]

/-- In the order of the fields. -/
def Sorted (l : List (Nat × V M)) : Prop := l.Pairwise fun x y => x.1 ≤ y.1

abbrev at' (j : Nat) (l : List (Nat × V M)) : List (Nat × V M) := l.filter fun x => x.1 = j

theorem ins_cons {i : Nat} {v : V M} (a : Nat × V M) (l : List (Nat × V M)) : ins i v (a :: l) = if a.1 ≤ i then a :: ins i v l else (i, v) :: a :: l := by
  unfold ins
  by_cases h : a.1 ≤ i
  · simp [h]
  · simp [h]

theorem mem_ins {i : Nat} {v : V M} {x : Nat × V M} : ∀ {l : List (Nat × V M)}, x ∈ ins i v l ↔ x = (i, v) ∨ x ∈ l
  | [] => by simp [ins]
  | a :: l => by
    rw [ins_cons]
    split
    · rw [List.mem_cons, mem_ins, List.mem_cons]
      constructor
      · rintro (h | h | h) <;> simp [h]
      · rintro (h | h | h) <;> simp [h]
    · simp

theorem sorted_ins {i : Nat} {v : V M} : ∀ {l : List (Nat × V M)}, Sorted l → Sorted (ins i v l)
  | [], _ => by simp [ins, Sorted]
  | a :: l, h => by
    have h' := List.pairwise_cons.1 h
    rw [ins_cons]
    split
    · rename_i ha
      refine List.pairwise_cons.2 ⟨?_, sorted_ins h'.2⟩
      intro x hx
      rcases mem_ins.1 hx with rfl | hx
      · exact ha
      · exact h'.1 x hx
    · rename_i ha
      refine List.pairwise_cons.2 ⟨?_, h⟩
      intro x hx
      rcases List.mem_cons.1 hx with rfl | hx
      · show i ≤ x.1; omega
      · have := h'.1 x hx
        show i ≤ x.1; omega

theorem at_ins {i j : Nat} {v : V M} : ∀ {l : List (Nat × V M)}, Sorted l → at' j (ins i v l) = at' j l ++ (if i = j then [(i, v)] else [])
  | [], _ => by simp only [ins, at', List.takeWhile_nil, List.dropWhile_nil, List.nil_append, List.filter_cons, List.filter_nil]; split <;> simp_all
  | a :: l, h => by
    have h' := List.pairwise_cons.1 h
    rw [ins_cons]
    split
    · have := at_ins (i := i) (j := j) (v := v) h'.2
      simp only [at'] at this ⊢
      rw [List.filter_cons, List.filter_cons, this]
      split <;> simp
    · rename_i ha
      simp only [at']
      by_cases e : i = j
      · subst e
        have : (a :: l).filter (fun x => decide (x.1 = i)) = [] := by
          rw [List.filter_eq_nil_iff]
          intro x hx
          rcases List.mem_cons.1 hx with rfl | hx
          · simp; omega
          · have := h'.1 x hx
            simp; omega
        rw [List.filter_cons, this]
        simp
      · rw [List.filter_cons]
        simp [e]

theorem sorted_ext : ∀ {l l' : List (Nat × V M)}, Sorted l → Sorted l' → (∀ j, at' j l = at' j l') → l = l'
  | [], [], _, _, _ => rfl
  | [], b :: l', _, _, h => by have := h b.1; simp [at'] at this
  | a :: l, [], _, _, h => by have := h a.1; simp [at'] at this
  | a :: l, b :: l', h1, h2, h => by
    have h1' := List.pairwise_cons.1 h1
    have h2' := List.pairwise_cons.1 h2
    have e : a.1 = b.1 := by
      apply Nat.le_antisymm
      · have hb : b ∈ at' b.1 (a :: l) := by rw [h b.1]; simp [at']
        rcases List.mem_cons.1 (List.mem_filter.1 hb).1 with rfl | hm
        · exact Nat.le_refl _
        · exact h1'.1 b hm
      · have ha : a ∈ at' a.1 (b :: l') := by rw [← h a.1]; simp [at']
        rcases List.mem_cons.1 (List.mem_filter.1 ha).1 with rfl | hm
        · exact Nat.le_refl _
        · exact h2'.1 a hm
    have hh := h a.1
    simp only [at'] at hh
    rw [List.filter_cons_of_pos (by simp), List.filter_cons_of_pos (by simp [e])] at hh
    obtain ⟨hab, _⟩ := List.cons.inj hh
    subst hab
    congr 1
    apply sorted_ext h1'.2 h2'.2
    intro j
    have hj := h j
    simp only [at'] at hj ⊢
    rw [List.filter_cons, List.filter_cons] at hj
    split at hj
    · exact (List.cons.inj hj).2
    · exact hj

theorem sorted_filter {l : List (Nat × V M)} (p : Nat × V M → Bool) (h : Sorted l) : Sorted (l.filter p) := h.filter p

/-- Whether the `j`-th field is packed. -/
def Packed (ss : List SField) (j : Nat) : Prop := ∃ s, ss[j]? = some s ∧ s.label = .packed

theorem mem_gather {ss : List SField} {j : Nat} {l : List (Nat × V M)} {x : Nat × V M} (h : x ∈ gather ss j l) :
    x.1 = j ∧ (∃ y ∈ l, y.1 = j) ∧ (¬ Packed ss j → x ∈ l) := by
  unfold gather at h
  split at h
  · rename_i hp
    split at h
    · cases h
    · rename_i hne
      rw [List.mem_singleton] at h
      subst h
      refine ⟨rfl, ?_, fun hn => absurd hp hn⟩
      cases hf : l.filter (fun x => decide (x.1 = j)) with
      | nil => rw [hf] at hne; simp at hne
      | cons y _ =>
        have : y ∈ l.filter (fun x => decide (x.1 = j)) := by rw [hf]; simp
        rw [List.mem_filter] at this
        exact ⟨y, this.1, by simpa using this.2⟩
  · rw [List.mem_filter] at h
    have : x.1 = j := by simpa using h.2
    exact ⟨this, ⟨x, h.1, this⟩, fun _ => h.1⟩

theorem gather_snoc_ne {ss : List SField} {j i : Nat} {v : V M} {l : List (Nat × V M)} (h : i ≠ j) : gather ss j (l ++ [(i, v)]) = gather ss j l := by
  unfold gather
  rw [List.filter_append, List.filter_cons_of_neg (by simpa using h), List.filter_nil, List.append_nil]

theorem gather_snoc {ss : List SField} {i : Nat} {v : V M} {l : List (Nat × V M)} (h : ¬ Packed ss i) : gather ss i (l ++ [(i, v)]) = gather ss i l ++ [(i, v)] := by
  unfold gather
  unfold Packed at h
  rw [if_neg h, if_neg h, List.filter_append, List.filter_cons_of_pos (by simp), List.filter_nil]

/-- The elements of a packed field so far. -/
def sofar (i : Nat) (l : List (Nat × V M)) : List Nat := (l.filter fun x => x.1 = i).flatMap fun x => elems x.2

theorem gather_packed {ss : List SField} {i : Nat} {l : List (Nat × V M)} (h : Packed ss i) : gather ss i l = if sofar i l = [] then [] else [(i, .nums (sofar i l))] := by
  unfold gather sofar
  unfold Packed at h
  rw [if_pos h]

theorem sofar_snoc {i : Nat} {v : V M} {l : List (Nat × V M)} : sofar i (l ++ [(i, v)]) = sofar i l ++ elems v := by
  unfold sofar
  rw [List.filter_append, List.filter_cons_of_pos (by simp), List.filter_nil, List.flatMap_append, List.flatMap_cons, List.flatMap_nil, List.append_nil]

theorem held_eq {i : Nat} {K : List (Nat × V M)} {n : List Nat} (h : at' i K = if n = [] then [] else [(i, .nums n)]) : held i K = n := by
  unfold held
  rw [← List.head?_filter]
  have : K.filter (fun x => decide (x.1 = i)) = if n = [] then [] else [(i, V.nums n)] := h
  rw [this]
  split
  · rename_i heq
    split at heq
    · simp at heq
    · simp at heq; exact heq.2.symm
  · rename_i heq
    split at heq
    · rename_i e; exact e.symm
    · exact absurd rfl (heq _ _)

/-- One arm, whatever came before. -/
theorem absorb_any {key : M → Option Bytes} {hk : M → Bytes → Prop} (Hk : ∀ m b, hk m b → key m = some b) {fs : List Field} {i : Nat} {f : Field} (hf : fs[i]? = some f)
    (hok : f.ok = true) {v : V M} (hv : PartV fm utf8 f.sig v) {done K : List (Nat × V M)} (hb : ∀ x ∈ done, Compat hk (fs.map Field.sig) x (i, v))
    (hs : Sorted K) (hg : ∀ j, at' j K = gather (fs.map Field.sig) j done) :
    Sorted (absorb key fs i f v K) ∧ ∀ j, at' j (absorb key fs i f v K) = gather (fs.map Field.sig) j (done ++ [(i, v)]) := by
  have hfi : (fs.map Field.sig)[i]? = some f.sig := by rw [List.getElem?_map, hf]; rfl
  have hsig : ∀ {j : Nat} {s : SField}, (fs.map Field.sig)[j]? = some s → ∃ g, fs[j]? = some g ∧ g.sig = s := by
    intro j s h
    rw [List.getElem?_map] at h
    cases hj : fs[j]? with
    | none => rw [hj] at h; cases h
    | some g => rw [hj] at h; exact ⟨g, rfl, Option.some.inj h⟩
  have hfrom : ∀ x ∈ K, (∃ y ∈ done, y.1 = x.1) ∧ (¬ Packed (fs.map Field.sig) x.1 → x ∈ done) := by
    intro x hx
    have : x ∈ at' x.1 K := by simp [at', hx]
    rw [hg] at this
    exact (mem_gather this).2
  by_cases hl : f.label = .packed
  · have hp : Packed (fs.map Field.sig) i := ⟨f.sig, hfi, hl⟩
    have hi := hg i
    rw [gather_packed hp] at hi
    have hh := held_eq hi
    have hl' : f.sig.label = .packed := hl
    rcases hv with ⟨hn, _⟩ | ⟨_, l, rfl, _⟩
    · exact absurd hl' hn
    simp only [absorb, hl, hh, numsOf]
    have hfil : Sorted (K.filter fun x => decide (x.1 ≠ i)) := sorted_filter _ hs
    have hat : ∀ j, at' j (K.filter fun x => decide (x.1 ≠ i)) = if i = j then [] else at' j K := by
      intro j
      simp only [at', List.filter_filter]
      split
      · rename_i e
        subst e
        rw [List.filter_eq_nil_iff]
        intro x _
        simp
      · rename_i e
        apply List.filter_congr
        intro x _
        by_cases h : x.1 = j
        · simp [h, Ne.symm e]
        · simp [h]
    have hgi : gather (fs.map Field.sig) i (done ++ [(i, .nums l)]) = if sofar i done ++ l = [] then [] else [(i, .nums (sofar i done ++ l))] := by
      rw [gather_packed hp, sofar_snoc]
      rfl
    by_cases he : sofar i done ++ l = []
    · have : (sofar i done ++ l).isEmpty = true := by rw [he]; rfl
      rw [if_pos this]
      refine ⟨hfil, fun j => ?_⟩
      rw [hat]
      split
      · rename_i e
        subst e
        rw [hgi, if_pos he]
      · rename_i e
        rw [gather_snoc_ne e, hg]
    · have : ¬ (sofar i done ++ l).isEmpty = true := by simpa using he
      rw [if_neg this]
      refine ⟨sorted_ins hfil, fun j => ?_⟩
      rw [at_ins hfil, hat]
      split
      · rename_i e
        subst e
        rw [hgi, if_neg he, List.nil_append]
      · rename_i e
        rw [gather_snoc_ne e, hg, List.append_nil]
  · have hnp : ¬ Packed (fs.map Field.sig) i := by
      rintro ⟨s, hs', hls⟩
      rw [hfi] at hs'
      cases hs'
      exact hl hls
    have hins : absorb key fs i f v K = ins i v K → Sorted (absorb key fs i f v K) ∧
        ∀ j, at' j (absorb key fs i f v K) = gather (fs.map Field.sig) j (done ++ [(i, v)]) := by
      intro e
      rw [e]
      refine ⟨sorted_ins hs, fun j => ?_⟩
      rw [at_ins hs, hg]
      split
      · rename_i e
        subst e
        rw [gather_snoc hnp]
      · rename_i e
        rw [gather_snoc_ne e, List.append_nil]
    apply hins
    have hv : FitsV fm utf8 f.sig v := by
      rcases hv with ⟨_, h⟩ | ⟨h, _⟩
      · exact h
      · exact absurd h hl
    have hne : (f.label ≠ .rep ∧ f.label ≠ .map) → ∀ x ∈ K, x.1 ≠ i := by
      intro hl' x hx e
      obtain ⟨⟨y, hy, hyx⟩, _⟩ := hfrom x hx
      rcases hb y hy with ⟨h, _⟩ | ⟨_, s, hs', h⟩
      · exact h (hyx.trans e)
      · rw [hyx, e, hfi] at hs'
        cases hs'
        rcases h with h | h | h
        · exact hl'.1 h
        · exact hl h
        · exact hl'.2 h.1
    have hfil : (f.label ≠ .rep ∧ f.label ≠ .map) → (K.filter fun x => decide (x.1 ≠ i)) = K := by
      intro hl'
      rw [List.filter_eq_self]
      intro x hx
      simpa using hne hl' x hx
    unfold absorb
    cases hlab : f.label with
    | packed => exact absurd hlab hl
    | plain =>
      have hlab' : f.sig.label = .plain := hlab
      have hd : isDefault f v = false := by
        obtain ⟨_, _, _, _, h0⟩ := ok_parts hok
        cases v with
        | num n =>
          have this : n ≠ 0 ∧ (f.rk = .f64 → n ≠ 2 ^ 63) ∧ (f.rk = .f32 → n ≠ 2 ^ 31) := hv.2.2 hlab'
          simp only [isDefault, h0, Bool.or_eq_false_iff, decide_eq_false_iff_not, Bool.and_eq_false_iff]
          refine ⟨⟨this.1, ?_⟩, ?_⟩
          · by_cases e : f.rk = .f64
            · exact Or.inr (this.2.1 e)
            · exact Or.inl e
          · by_cases e : f.rk = .f32
            · exact Or.inr (this.2.2 e)
            · exact Or.inl e
        | bytes b =>
          have := hv.2.2 hlab'
          simpa [isDefault] using this
        | nums l => exact absurd hv.1 (by rw [hlab']; nofun)
        | msg m => rfl
      simp only [hd, Bool.false_eq_true, if_false]
      rw [hfil (by rw [hlab]; exact ⟨nofun, nofun⟩)]
    | opt => dsimp only; rw [hfil (by rw [hlab]; exact ⟨nofun, nofun⟩)]
    | always => dsimp only; rw [hfil (by rw [hlab]; exact ⟨nofun, nofun⟩)]
    | rep => rfl
    | map =>
      dsimp only
      have : (K.filter fun x => !(decide (x.1 = i) && decide (vkey key x.2 = vkey key v))) = K := by
        rw [List.filter_eq_self]
        intro x hx
        by_cases e : x.1 = i
        · have hxd := (hfrom x hx).2 (by rw [e]; exact hnp)
          rcases hb x hxd with ⟨h, _⟩ | ⟨_, s, hs', h⟩
          · exact absurd e h
          · rw [e, hfi] at hs'
            cases hs'
            have hlab' : f.sig.label = .map := hlab
            rcases h with h | h | ⟨_, m, m', b, b', e1, e2, k1, k2, hbb⟩
            · rw [hlab'] at h; cases h
            · rw [hlab'] at h; cases h
            · dsimp only at e2
              rw [e1, e2]
              simp [vkey, Hk m b k1, Hk m' b' k2, hbb]
        · simp [e]
      rw [this]
    | one g =>
      dsimp only
      have : (K.filter fun x => decide (group fs x.1 ≠ some g)) = K := by
        rw [List.filter_eq_self]
        intro x hx
        rw [decide_eq_true_eq]
        intro hgx
        have hxi := hne (by rw [hlab]; exact ⟨nofun, nofun⟩) x hx
        obtain ⟨⟨y, hy, hyx⟩, _⟩ := hfrom x hx
        rcases hb y hy with ⟨_, h⟩ | ⟨h, _⟩
        · unfold group at hgx
          cases hfx : fs[x.1]? with
          | none => rw [hfx] at hgx; cases hgx
          | some f' =>
            rw [hfx] at hgx
            dsimp only at hgx
            cases hl' : f'.label with
            | one g' =>
              rw [hl'] at hgx
              cases hgx
              exact h f'.sig f.sig g (by rw [hyx, List.getElem?_map, hfx]; rfl) hfi hl' hlab
            | _ => rw [hl'] at hgx; cases hgx
        · exact hxi (hyx ▸ h)
      rw [this]

/-! ### The loop -/

theorem loop_step {key : M → Option Bytes} {fs : List Field} {n : Nat} {m : MsgF M} {tag : Nat} {t p : Bytes} (ht : IsVarint tag t) :
    loop utf8 key rd fs (n + 1) m (t ++ p) =
      match findArm fs 0 tag with
      | some (i, f, single) =>
        match readV utf8 rd f single p with
        | none => none
        | some (v, r) => loop utf8 key rd fs n { m with known := absorb key fs i f v m.known } r
      | none =>
        match readRaw tag p with
        | none => none
        | some (u, r) => loop utf8 key rd fs n { m with unknown := m.unknown ++ [u] } r := by
  have := readVarint_isVarint ht p
  cases e : t ++ p with
  | nil => exact absurd (List.append_eq_nil_iff.1 e).1 (isVarint_ne ht)
  | cons b s =>
    rw [e] at this
    rw [loop, this]
    · rfl
    · nofun

theorem fuel_step {tag n : Nat} {t p r : Bytes} (ht : IsVarint tag t) (h : ((t ++ p) ++ r).length ≤ n) : ∃ n', n = n' + 1 ∧ r.length ≤ n' := by
  have : 0 < t.length := List.length_pos_iff.2 (isVarint_ne ht)
  simp only [List.length_append] at h
  exact ⟨n - 1, by omega, by omega⟩

theorem loop_enc (H : ∀ ix m b, fm ix m → enc ix m b → rd ix b = some m) {key : M → Option Bytes} {hk : M → Bytes → Prop} (Hk : ∀ m b, hk m b → key m = some b)
    {fs : List Field} (hok : ∀ f ∈ fs, f.ok = true) (hn : (tags fs).Nodup) : ∀ (items : List (Item M)) (done K : List (Nat × V M)) (U : List (Nat × Raw)) (n : Nat) (bs : Bytes),
      EncItems enc (fs.map Field.sig) items bs →
      (∀ x ∈ knowns items, ∀ s, (fs.map Field.sig)[x.1]? = some s → PartV fm utf8 s x.2) →
      (∀ u ∈ unknowns items, FitsU (fs.map Field.sig) u) →
      (∀ x ∈ done, ∀ y ∈ knowns items, Compat hk (fs.map Field.sig) x y) → (knowns items).Pairwise (Compat hk (fs.map Field.sig)) →
      Sorted K → (∀ j, at' j K = gather (fs.map Field.sig) j done) → bs.length ≤ n →
      ∃ K', loop utf8 key rd fs n ⟨K, U⟩ bs = some ⟨K', U ++ unknowns items⟩ ∧ Sorted K' ∧ ∀ j, at' j K' = gather (fs.map Field.sig) j (done ++ knowns items)
  | [], done, K, U, n, bs, he, _, _, _, _, hs, hg, _ => by
    rw [EncItems] at he
    subst he
    refine ⟨K, ?_, hs, ?_⟩
    · cases n <;> simp [loop, unknowns]
    · simpa [knowns] using hg
  | .inr u :: items, done, K, U, n, bs, he, hv, hu, hd, hp, hs, hg, hlen => by
    obtain ⟨a, b, ⟨t, p, rfl, ht, hraw⟩, hb, rfl⟩ := he
    obtain ⟨n', rfl, hlen'⟩ := fuel_step ht.1 hlen
    have hku : knowns (.inr u :: items) = knowns items := rfl
    have huu : unknowns (.inr u :: items) = u :: unknowns items := rfl
    rw [hku] at hv hd hp ⊢
    rw [huu] at hu ⊢
    have hfu := hu u (by simp)
    rw [List.append_assoc, loop_step ht.1, unknown_arm hok hfu]
    simp only [readRaw_enc (t := t) hfu hraw]
    obtain ⟨K', e, h1, h2⟩ := loop_enc H Hk hok hn items done K (U ++ [u]) n' b hb hv (fun x hx => hu x (by simp [hx])) hd hp hs hg hlen'
    exact ⟨K', by rw [e, List.append_assoc]; rfl, h1, h2⟩
  | .inl (i, v) :: items, done, K, U, n, bs, he, hv, hu, hd, hp, hs, hg, hlen => by
    obtain ⟨a, b, ⟨s, hsi, t, p, rfl, hcase⟩, hb, rfl⟩ := he
    have hku : knowns (.inl (i, v) :: items) = (i, v) :: knowns items := rfl
    have huu : unknowns (.inl (i, v) :: items) = unknowns items := rfl
    rw [hku] at hv hd hp ⊢
    rw [huu] at hu ⊢
    have hpv := hv (i, v) (by simp) s hsi
    rw [List.getElem?_map] at hsi
    cases hfi : fs[i]? with
    | none => dsimp only at hsi; rw [hfi] at hsi; cases hsi
    | some f =>
    dsimp only at hsi
    rw [hfi] at hsi
    have hsf : f.sig = s := Option.some.inj hsi
    subst hsf
    have hfo := hok f (List.mem_of_getElem? hfi)
    obtain ⟨_, htag, _⟩ := ok_parts hfo
    have hp' := List.pairwise_cons.1 hp
    obtain ⟨hs', hg'⟩ := absorb_any (key := key) Hk hfi hfo hpv (fun x hx => hd x hx (i, v) (by simp)) hs hg
    have hrec : ∀ n', b.length ≤ n' → ∃ K', loop utf8 key rd fs n' ⟨absorb key fs i f v K, U⟩ b = some ⟨K', U ++ unknowns items⟩ ∧ Sorted K' ∧
        ∀ j, at' j K' = gather (fs.map Field.sig) j (done ++ (i, v) :: knowns items) := by
      intro n' hl
      obtain ⟨K', e, h1, h2⟩ := loop_enc H Hk hok hn items (done ++ [(i, v)]) _ U n' b hb (fun x hx => hv x (by simp [hx])) hu
        (fun x hx y hy => by
          rcases List.mem_append.1 hx with hx | hx
          · exact hd x hx y (by simp [hy])
          · rw [List.mem_singleton] at hx
            subst hx
            exact hp'.1 y hy) hp'.2 hs' hg' hl
      refine ⟨K', e, h1, fun j => ?_⟩
      rw [h2, List.append_assoc]
      rfl
    rcases hcase with ⟨ht, hpay⟩ | ⟨hl, ht, x, rfl, hx⟩
    · obtain ⟨n', rfl, hlen'⟩ := fuel_step ht.1 hlen
      obtain ⟨K', e, h⟩ := hrec n' hlen'
      refine ⟨K', ?_, h⟩
      rw [List.append_assoc, loop_step ht.1, ← htag, findArm_some hn hfi]
      simp only [readV_pay H hpv hpay, Nat.zero_add]
      exact e
    · obtain ⟨n', rfl, hlen'⟩ := fuel_step ht.1 hlen
      obtain ⟨K', e, h⟩ := hrec n' hlen'
      refine ⟨K', ?_, h⟩
      have hxr : inRange f.rk x := by
        rcases hpv with ⟨hn', _⟩ | ⟨_, l, e, hr⟩
        · exact absurd hl hn'
        · cases e; exact hr x (by simp)
      have hl : f.label = .packed := hl
      have hx : EncNum f.rk x p := hx
      have ha : f.alt = some (8 * f.sig.num + wireType f.sig.kind) := (ok_alt hfo).1 hl
      rw [List.append_assoc, loop_step ht.1, findArm_alt hn hfi ha]
      simp only [readV_single hl hx hxr, Nat.zero_add]
      exact e

/-! ### Messages -/

theorem key_of (d : Nat) (m : Msg d) (b : Bytes) (h : HasKey d m b) : keyOf d m = some b := by
  cases d with
  | zero => exact h.elim
  | succ d =>
    obtain ⟨rest, e⟩ := h
    simp [keyOf, e]

theorem fields_ok {T : Table} (h : T.ok = true) (ix : Nat) : (∀ f ∈ T.fields ix, f.ok = true) ∧ (tags (T.fields ix)).Nodup := by
  unfold Table.fields
  cases hx : T[ix]? with
  | none => exact ⟨fun f hf => by simp at hf, by simp [tags]⟩
  | some fs =>
    have := List.all_eq_true.1 h fs (List.mem_of_getElem? hx)
    simp only [Bool.and_eq_true, List.all_eq_true, decide_eq_true_eq] at this
    exact this

theorem fields_for {T : Table} {S : Schema} (h : T.isFor S) (ix : Nat) : (T.fields ix).map Field.sig = S.fields ix := by
  subst h
  unfold Table.fields Schema.fields
  rw [List.getElem?_map]
  cases T[ix]? <;> rfl

theorem before_sorted {hk : M → Bytes → Prop} {ss : List SField} {l : List (Nat × V M)} (h : l.Pairwise (Before hk ss)) : Sorted l := by
  refine List.Pairwise.imp ?_ h
  intro x y hxy
  rcases hxy with ⟨h, _⟩ | ⟨h, _⟩
  · exact Nat.le_of_lt h
  · exact Nat.le_of_eq h

theorem before_compat {hk : M → Bytes → Prop} {ss : List SField} {l : List (Nat × V M)} (h : l.Pairwise (Before hk ss)) : l.Pairwise (Compat hk ss) := by
  refine List.Pairwise.imp ?_ h
  intro x y hxy
  rcases hxy with ⟨h, h'⟩ | ⟨h, s, hs, h' | h'⟩
  · exact Or.inl ⟨Nat.ne_of_lt h, h'⟩
  · exact Or.inr ⟨h, s, hs, Or.inl h'⟩
  · exact Or.inr ⟨h, s, hs, Or.inr (Or.inr h')⟩

/-- The items of an encoding are parts of the message. -/
theorem items_part {hk : M → Bytes → Prop} {ss : List SField} {m : MsgF M} (hm : FitsF fm hk utf8 ss m) {items : List (Item M)} {bs : Bytes}
    (he : EncItems enc ss items bs) (hg : ∀ j, gather ss j (knowns items) = m.known.filter fun x => x.1 = j) :
    ∀ x ∈ knowns items, ∀ s, ss[x.1]? = some s → PartV fm utf8 s x.2 := by
  intro x hx s hs
  have hv : s.label = .packed → ∃ l, x.2 = .nums l := by
    have : ∀ (items : List (Item M)) (bs : Bytes), EncItems enc ss items bs → x ∈ knowns items → s.label = .packed → ∃ l, x.2 = .nums l := by
      intro items
      induction items with
      | nil => intro bs _ h; simp [knowns] at h
      | cons it items ih =>
        intro bs he h hl
        obtain ⟨a, b, h1, h2, _⟩ := he
        cases it with
        | inr u => exact ih b h2 (by simpa [knowns] using h) hl
        | inl y =>
          rcases List.mem_cons.1 (show x ∈ y :: knowns items by simpa [knowns] using h) with rfl | h
          · obtain ⟨s', hs', t, p, _, hc⟩ := h1
            rw [hs] at hs'
            cases hs'
            rcases hc with ⟨_, hpay⟩ | ⟨_, _, n, e, _⟩
            · cases hx2 : x.2 with
              | num n => rw [hx2] at hpay; exact absurd hl hpay.1
              | bytes n => rw [hx2] at hpay; exact absurd hl hpay.1
              | nums n => exact ⟨n, rfl⟩
              | msg n => rw [hx2] at hpay; exact absurd hl hpay.1
            · exact ⟨[n], e⟩
          · exact ih b h2 h hl
    exact this items bs he hx
  by_cases hl : s.label = .packed
  · refine Or.inr ⟨hl, ?_⟩
    obtain ⟨l, e⟩ := hv hl
    refine ⟨l, e, fun n hnl => ?_⟩
    have hgj := hg x.1
    have hp : Packed ss x.1 := ⟨s, hs, hl⟩
    rw [gather_packed hp] at hgj
    have hmem : n ∈ sofar x.1 (knowns items) := by
      unfold sofar
      rw [List.mem_flatMap]
      exact ⟨x, by simp [hx], by rw [e]; exact hnl⟩
    have hne : sofar x.1 (knowns items) ≠ [] := by
      intro h0
      rw [h0] at hmem
      cases hmem
    rw [if_neg hne] at hgj
    have hmm : (x.1, V.nums (sofar x.1 (knowns items))) ∈ m.known := by
      have : (x.1, V.nums (sofar x.1 (knowns items))) ∈ m.known.filter fun y => y.1 = x.1 := by rw [← hgj]; simp
      exact (List.mem_filter.1 this).1
    obtain ⟨s', hs', hfit⟩ := hm.1 _ hmm
    dsimp only at hs' hfit
    rw [hs] at hs'
    cases hs'
    exact hfit.2.2 n hmem
  · refine Or.inl ⟨hl, ?_⟩
    have hgj := hg x.1
    have hnp : ¬ ∃ s, ss[x.1]? = some s ∧ s.label = .packed := by
      rintro ⟨s', hs', h'⟩
      rw [hs] at hs'
      cases hs'
      exact hl h'
    rw [gather, if_neg hnp] at hgj
    have hmm : x ∈ m.known := by
      have : x ∈ m.known.filter fun y => y.1 = x.1 := by rw [← hgj]; simp [hx]
      exact (List.mem_filter.1 this).1
    obtain ⟨s', hs', hfit⟩ := hm.1 _ hmm
    rw [hs] at hs'
    cases hs'
    exact hfit

theorem sizeF_eq (H : ∀ ix m, fm ix m → sz ix m = (wr ix m).length) {hk : M → Bytes → Prop} {fs : List Field} (hok : ∀ f ∈ fs, f.ok = true) {m : MsgF M}
    (hm : FitsF fm hk utf8 (fs.map Field.sig) m) : sizeF sz fs m = (writeF sz wr fs m).length := by
  have h1 : ∀ l : List (Nat × V M), (∀ x ∈ l, ∃ s, (fs.map Field.sig)[x.1]? = some s ∧ FitsV fm utf8 s x.2) →
      (l.map (sizeKnown sz fs)).sum = (l.flatMap (writeKnown sz wr fs)).length := by
    intro l
    induction l with
    | nil => intro _; rfl
    | cons x l ih =>
      intro h
      obtain ⟨s, hs, hv⟩ := h x (by simp)
      rw [List.getElem?_map] at hs
      cases hf : fs[x.1]? with
      | none => rw [hf] at hs; cases hs
      | some f =>
        rw [hf] at hs
        cases hs
        rw [List.map_cons, List.sum_cons, List.flatMap_cons, List.length_append, ih fun y hy => h y (by simp [hy])]
        congr 1
        simp only [sizeKnown, writeKnown, hf]
        exact sizeV_eq H (hok f (List.mem_of_getElem? hf)) hv
  rw [sizeF, writeF, List.length_append, h1 _ hm.1, flatMap_length _ _ fun u => (sizeRaw_eq u).symm]

/-- The fields of a message in their order say what they are. -/
theorem gather_known {hk : M → Bytes → Prop} {ss : List SField} {m : MsgF M} (hm : FitsF fm hk utf8 ss m) (j : Nat) :
    gather ss j m.known = m.known.filter fun x => x.1 = j := by
  unfold gather
  split
  · rename_i hp
    obtain ⟨s, hs, hl⟩ := hp
    -- a packed field occurs at most once, with its list
    have hone : ∀ l : List (Nat × V M), (∀ x ∈ l, ∃ s, ss[x.1]? = some s ∧ FitsV fm utf8 s x.2) → l.Pairwise (Before hk ss) →
        l.filter (fun x => decide (x.1 = j)) = [] ∨ ∃ n, n ≠ [] ∧ l.filter (fun x => decide (x.1 = j)) = [(j, .nums n)] := by
      intro l
      induction l with
      | nil => intro _ _; exact Or.inl rfl
      | cons x l ih =>
        intro hf hp
        have hp' := List.pairwise_cons.1 hp
        rcases ih (fun y hy => hf y (by simp [hy])) hp'.2 with h0 | ⟨n, hn, h0⟩
        · by_cases e : x.1 = j
          · rw [List.filter_cons_of_pos (by simpa using e), h0]
            obtain ⟨s', hs', hv⟩ := hf x (by simp)
            rw [e, hs] at hs'
            cases hs'
            obtain ⟨i, v⟩ := x
            dsimp only at e hv
            subst e
            cases v with
            | nums n => exact Or.inr ⟨n, hv.2.1, rfl⟩
            | num n => exact absurd hl hv.1
            | bytes n => exact absurd hl hv.1
            | msg n => exact absurd hl hv.1
          · rw [List.filter_cons_of_neg (by simpa using e)]
            exact Or.inl h0
        · by_cases e : x.1 = j
          · exfalso
            have hy : (j, V.nums n) ∈ l := by
              have : (j, V.nums n) ∈ l.filter (fun x => decide (x.1 = j)) := by rw [h0]; simp
              exact (List.mem_filter.1 this).1
            rcases hp'.1 _ hy with ⟨h, _⟩ | ⟨_, s', hs', h | h⟩
            · dsimp only at h; omega
            · rw [e, hs] at hs'
              cases hs'
              rw [hl] at h; cases h
            · rw [e, hs] at hs'
              cases hs'
              rw [hl] at h; cases h.1
          · rw [List.filter_cons_of_neg (by simpa using e)]
            exact Or.inr ⟨n, hn, h0⟩
    rcases hone m.known hm.1 hm.2.1 with h0 | ⟨n, hn, h0⟩
    · rw [h0]; rfl
    · rw [h0]
      simp [elems, hn]
  · rfl

/-- The fields of a message in the order of writing. -/
theorem writeF_items (H : ∀ ix m, fm ix m → sz ix m = (wr ix m).length ∧ enc ix m (wr ix m)) {hk : M → Bytes → Prop} {fs : List Field} (hok : ∀ f ∈ fs, f.ok = true) {m : MsgF M}
    (hm : FitsF fm hk utf8 (fs.map Field.sig) m) : EncItems enc (fs.map Field.sig) (m.known.map .inl ++ m.unknown.map .inr) (writeF sz wr fs m) := by
  have h2 : ∀ l : List (Nat × Raw), EncItems enc (fs.map Field.sig) (l.map Sum.inr) (l.flatMap writeRaw) := by
    intro l
    induction l with
    | nil => rfl
    | cons u l ih => exact ⟨_, _, writeRaw_enc u, ih, List.flatMap_cons⟩
  have h1 : ∀ l : List (Nat × V M), (∀ x ∈ l, ∃ s, (fs.map Field.sig)[x.1]? = some s ∧ FitsV fm utf8 s x.2) →
      EncItems enc (fs.map Field.sig) (l.map Sum.inl ++ m.unknown.map Sum.inr) (l.flatMap (writeKnown sz wr fs) ++ m.unknown.flatMap writeRaw) := by
    intro l
    induction l with
    | nil => intro _; exact h2 m.unknown
    | cons x l ih =>
      intro h
      obtain ⟨s, hs, hv⟩ := h x (by simp)
      refine ⟨_, _, ⟨s, hs, ?_⟩, ih fun y hy => h y (by simp [hy]), by rw [List.flatMap_cons, List.append_assoc]⟩
      rw [List.getElem?_map] at hs
      cases hf : fs[x.1]? with
      | none => rw [hf] at hs; cases hs
      | some f =>
        rw [hf] at hs
        cases hs
        have hfo := hok f (List.mem_of_getElem? hf)
        simp only [writeKnown, hf]
        obtain ⟨_, htag, _⟩ := ok_parts hfo
        refine ⟨_, _, writeV_eq hfo hv, Or.inl ⟨?_, pay_enc H hfo hv⟩⟩
        rw [htag]
        exact isVar_varint _
  exact h1 m.known hm.1

theorem knowns_plain (a : List (Nat × V M)) (b : List (Nat × Raw)) : knowns (a.map Sum.inl ++ b.map Sum.inr) = a := by
  simp [knowns, List.filterMap_append, List.filterMap_map, Function.comp_def]

theorem unknowns_plain (a : List (Nat × V M)) (b : List (Nat × Raw)) : unknowns (a.map Sum.inl ++ b.map Sum.inr) = b := by
  simp [unknowns, List.filterMap_append, List.filterMap_map, Function.comp_def]

/-- Written in their order they are an encoding. -/
theorem plain_enc {hk : M → Bytes → Prop} {ss : List SField} {m : MsgF M} (hm : FitsF fm hk utf8 ss m) {bs : Bytes}
    (h : EncItems enc ss (m.known.map .inl ++ m.unknown.map .inr) bs) : EncF enc hk ss m bs :=
  ⟨_, h, by rw [knowns_plain]; exact before_compat hm.2.1, fun j => by rw [knowns_plain]; exact gather_known hm j, unknowns_plain _ _⟩

theorem writeF_enc (H : ∀ ix m, fm ix m → sz ix m = (wr ix m).length ∧ enc ix m (wr ix m)) {hk : M → Bytes → Prop} {fs : List Field} (hok : ∀ f ∈ fs, f.ok = true) {m : MsgF M}
    (hm : FitsF fm hk utf8 (fs.map Field.sig) m) : EncF enc hk (fs.map Field.sig) m (writeF sz wr fs m) := plain_enc hm (writeF_items H hok hm)

/-! ### C103 -/

/-- **C103.** The cached size of a message is the number of bytes it is written with. -/
theorem C103_size {T : Table} {S : Schema} (hT : T.ok = true) (hS : T.isFor S) (utf8 : Bytes → Bool) (d ix : Nat) (m : Msg d) (h : Fits S utf8 d ix m) :
    size T d ix m = (write T d ix m).length := by
  induction d generalizing ix with
  | zero => exact h.elim
  | succ d ih =>
    obtain ⟨hok, _⟩ := fields_ok hT ix
    have hF : FitsF (Fits S utf8 d) (HasKey d) utf8 ((T.fields ix).map Field.sig) m := by rw [fields_for hS]; exact h
    exact sizeF_eq (fun ix m h => ih ix m h) hok hF

/-- **C103.** What the code writes is an encoding under the schema. -/
theorem C103_conforming {T : Table} {S : Schema} (hT : T.ok = true) (hS : T.isFor S) (utf8 : Bytes → Bool) (d ix : Nat) (m : Msg d) (h : Fits S utf8 d ix m) :
    Enc S d ix m (write T d ix m) := by
  induction d generalizing ix with
  | zero => exact h.elim
  | succ d ih =>
    obtain ⟨hok, _⟩ := fields_ok hT ix
    have hF : FitsF (Fits S utf8 d) (HasKey d) utf8 ((T.fields ix).map Field.sig) m := by rw [fields_for hS]; exact h
    have := writeF_enc (enc := Enc S d) (fun ix m h => ⟨C103_size hT hS utf8 d ix m h, ih ix m h⟩) hok hF
    rw [fields_for hS] at this
    exact this

/-- **C103.** The code reads every encoding: fields in any order, unknown ones between them, packed ones in pieces, numbers not in the
shortest form. -/
theorem C103_any_encoding {T : Table} {S : Schema} (hT : T.ok = true) (hS : T.isFor S) (utf8 : Bytes → Bool) (d ix : Nat) (m : Msg d) (bs : Bytes) (h : Fits S utf8 d ix m)
    (he : Enc S d ix m bs) : read T utf8 d ix bs = some m := by
  induction d generalizing ix bs with
  | zero => exact h.elim
  | succ d ih =>
    obtain ⟨hok, hn⟩ := fields_ok hT ix
    have hF : FitsF (Fits S utf8 d) (HasKey d) utf8 ((T.fields ix).map Field.sig) m := by rw [fields_for hS]; exact h
    have he' : EncF (Enc S d) (HasKey d) ((T.fields ix).map Field.sig) m bs := by rw [fields_for hS]; exact he
    obtain ⟨items, he, hc, hg, hu⟩ := he'
    obtain ⟨K, e, hs, hK⟩ := loop_enc (fun ix m b h he => ih ix m b h he) (key_of d) hok hn items [] [] [] bs.length bs he (items_part hF he hg)
      (fun u hx => hF.2.2.1 u (hu ▸ hx)) (fun x hx => by cases hx) hc List.Pairwise.nil (fun j => by unfold gather; split <;> simp [at']) (Nat.le_refl _)
    show loop utf8 (keyOf d) (read T utf8 d) (T.fields ix) bs.length ⟨[], []⟩ bs = some m
    rw [e, List.nil_append, hu]
    have : K = MsgF.known m := sorted_ext hs (before_sorted hF.2.1) fun j => by rw [hK, List.nil_append]; exact hg j
    rw [this]
    rfl

/-- **C103.** A message survives the wire. -/
theorem C103_roundtrip {T : Table} {S : Schema} (hT : T.ok = true) (hS : T.isFor S) (utf8 : Bytes → Bool) (d ix : Nat) (m : Msg d) (h : Fits S utf8 d ix m) :
    read T utf8 d ix (write T d ix m) = some m :=
  C103_any_encoding hT hS utf8 d ix m _ h (C103_conforming hT hS utf8 d ix m h)

/-- **C103.** Two messages do not have an encoding in common. -/
theorem C103_unique {T : Table} {S : Schema} (hT : T.ok = true) (hS : T.isFor S) (utf8 : Bytes → Bool) (d ix : Nat) (m m' : Msg d) (bs : Bytes) (h : Fits S utf8 d ix m)
    (h' : Fits S utf8 d ix m') (he : Enc S d ix m bs) (he' : Enc S d ix m' bs) : m = m' := by
  have h1 := C103_any_encoding hT hS utf8 d ix m bs h he
  rw [C103_any_encoding hT hS utf8 d ix m' bs h' he'] at h1
  exact (Option.some.inj h1).symm

/-- **C103.** The generated code of every message of the repository is for its embedded descriptor, and its three functions agree. -/
theorem C103_tables : table.ok = true ∧ table.isFor schema := by
  constructor
  · decide +kernel
  · unfold Table.isFor
    decide +kernel

/-! ### A case: a `LogUploadRequest` of one log, "a" as the identifier, and a field 9 of a later version -/

def exM : Msg 1 := ⟨[(0, .bytes [97]), (1, .bytes [1, 2])], [(9, .varint 300)]⟩

theorem exM_fits : Fits schema (fun _ => true) 1 ixLogUploadRequest exM := by
  have e : schema.fields ixLogUploadRequest = s15 := by decide +kernel
  show FitsF _ _ _ (schema.fields ixLogUploadRequest) _
  rw [e]
  refine ⟨?_, ?_, ?_⟩
  · simp [exM, s15, FitsV]
  · simp [exM, s15, Before]
    rintro _ _ g rfl rfl h
    simp at h
  · simp [exM, s15, FitsU, rawType, tagOf, wireType]

/-- As the code writes it. -/
example : write table 1 ixLogUploadRequest exM = [10, 1, 97, 18, 2, 1, 2, 72, 172, 2] := by decide +kernel

/-- In another order, with two bytes for the tag 10 and three for the number 300. -/
theorem exM_enc : Enc schema 1 ixLogUploadRequest exM [18, 2, 1, 2, 72, 172, 130, 0, 138, 0, 1, 97] := by
  have e : schema.fields ixLogUploadRequest = s15 := by decide +kernel
  show EncF _ _ (schema.fields ixLogUploadRequest) _ _
  rw [e]
  refine ⟨[.inl (1, .bytes [1, 2]), .inr (9, .varint 300), .inl (0, .bytes [97])], ?_, ?_, ?_, rfl⟩
  · refine ⟨[18, 2, 1, 2], [72, 172, 130, 0, 138, 0, 1, 97], ⟨⟨2, .bytes, .rep⟩, rfl, [18], [2, 1, 2], rfl, Or.inl ⟨⟨.last 18 (by decide), by decide⟩, nofun,
      [2], ⟨.last 2 (by decide), by decide⟩, rfl⟩⟩, ?_, rfl⟩
    refine ⟨[72, 172, 130, 0], [138, 0, 1, 97], ⟨[72], [172, 130, 0], rfl, ⟨.last 72 (by decide), by decide⟩, ?_⟩, ?_, rfl⟩
    · exact ⟨.more 44 2 [130, 0] (by decide) (.more 2 0 [0] (by decide) (.last 0 (by decide))), by decide⟩
    · refine ⟨[138, 0, 1, 97], [], ⟨⟨1, .str, .plain⟩, rfl, [138, 0], [1, 97], rfl, Or.inl ⟨?_, nofun, [1], ⟨.last 1 (by decide), by decide⟩, rfl⟩⟩, rfl, rfl⟩
      exact ⟨.more 10 0 [0] (by decide) (.last 0 (by decide)), by decide⟩
  · have ek : knowns [.inl (1, .bytes [1, 2]), .inr (9, .varint 300), .inl (0, .bytes [97])] = [(1, V.bytes (M := Msg 0) [1, 2]), (0, .bytes [97])] := rfl
    rw [ek]
    simp [Compat, s15]
    rintro _ _ g rfl rfl h
    simp at h
  · intro j
    have ek : knowns [.inl (1, .bytes [1, 2]), .inr (9, .varint 300), .inl (0, .bytes [97])] = [(1, V.bytes (M := Msg 0) [1, 2]), (0, .bytes [97])] := rfl
    rw [ek]
    match j with
    | 0 => simp [gather, s15, exM]
    | 1 => simp [gather, s15, exM]
    | 2 => simp [gather, s15, exM]
    | j + 3 => simp [gather, s15, exM]

example : read table (fun _ => true) 1 ixLogUploadRequest [18, 2, 1, 2, 72, 172, 130, 0, 138, 0, 1, 97] = some exM :=
  C103_any_encoding C103_tables.1 C103_tables.2 _ 1 _ _ _ exM_fits exM_enc

end Verif.Wire
