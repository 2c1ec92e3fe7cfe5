import Verif.Buffer.Crc32
import Verif.Buffer.NVCorruptProps
import Verif.Buffer.NVCrashProps

/-! C101: the checksums of the file detect every short error. -/
namespace Verif.Crc32

open Verif.Buffer

/-! ### One bit -/

theorem shift_top (x : BitVec 32) : (shift x).getLsbD 31 = x.getLsbD 0 := by
  unfold shift
  have hp : poly.getLsbD 31 = true := by decide
  split
  · rename_i h
    rw [BitVec.getLsbD_xor, BitVec.getLsbD_ushiftRight, hp, h]
    have : x.getLsbD (1 + 31) = false := BitVec.getLsbD_of_ge _ _ (by omega)
    rw [this]; rfl
  · rename_i h
    rw [BitVec.getLsbD_ushiftRight]
    have : x.getLsbD (1 + 31) = false := BitVec.getLsbD_of_ge _ _ (by omega)
    rw [this]
    simpa using h

theorem xor_cancel {x y z : BitVec 32} (h : x ^^^ z = y ^^^ z) : x = y := by
  have : x ^^^ z ^^^ z = y ^^^ z ^^^ z := by rw [h]
  rwa [BitVec.xor_assoc, BitVec.xor_assoc, BitVec.xor_self, BitVec.xor_zero, BitVec.xor_zero] at this

theorem shift_inj {x y : BitVec 32} (h : shift x = shift y) : x = y := by
  have h0 : x.getLsbD 0 = y.getLsbD 0 := by rw [← shift_top, ← shift_top, h]
  have hs : x >>> 1 = y >>> 1 := by
    unfold shift at h
    rw [← h0] at h
    split at h
    · exact xor_cancel h
    · exact h
  apply BitVec.eq_of_getLsbD_eq
  intro i hi
  cases i with
  | zero => exact h0
  | succ j =>
    have := congrArg (fun z => z.getLsbD j) hs
    simp only [BitVec.getLsbD_ushiftRight] at this
    rwa [Nat.add_comm] at this

/-- The inverse of `shift`. -/
def unshift (y : BitVec 32) : BitVec 32 := if y.getLsbD 31 then ((y ^^^ poly) <<< 1) ^^^ 1#32 else y <<< 1

theorem shift_unshift (y : BitVec 32) : shift (unshift y) = y := by
  have hone : ∀ j, (1#32).getLsbD (1 + j) = false := by
    intro j
    rw [BitVec.getLsbD_one]
    simp
  have hp : poly.getLsbD 31 = true := by decide
  unfold shift unshift
  by_cases h : y.getLsbD 31 = true
  · have h0 : (((y ^^^ poly) <<< 1) ^^^ 1#32).getLsbD 0 = true := by
      rw [BitVec.getLsbD_xor, BitVec.getLsbD_shiftLeft]
      simp
    rw [if_pos h, if_pos h0]
    apply BitVec.eq_of_getLsbD_eq
    intro i hi
    rw [BitVec.getLsbD_xor, BitVec.getLsbD_ushiftRight, BitVec.getLsbD_xor, hone, BitVec.getLsbD_shiftLeft]
    by_cases hi' : i = 31
    · subst hi'
      rw [h, hp]; simp
    · have h1 : 1 + i < 32 := by omega
      have h2 : 1 + i - 1 = i := by omega
      simp [h1, h2]
  · have h0 : ¬ ((y <<< 1).getLsbD 0 = true) := by
      rw [BitVec.getLsbD_shiftLeft]; simp
    rw [if_neg h, if_neg h0]
    apply BitVec.eq_of_getLsbD_eq
    intro i hi
    rw [BitVec.getLsbD_ushiftRight, BitVec.getLsbD_shiftLeft]
    by_cases hi' : i = 31
    · subst hi'
      simpa using h
    · have h1 : 1 + i < 32 := by omega
      have h2 : 1 + i - 1 = i := by omega
      simp [h1, h2]

/-- A change above the lowest bit passes through. -/
theorem shift_xor (x : BitVec 32) (b : Bool) (n : Nat) (hn : n < 31) :
    shift (x ^^^ (bit b <<< (n + 1))) = shift x ^^^ (bit b <<< n) := by
  have h0 : (x ^^^ (bit b <<< (n + 1))).getLsbD 0 = x.getLsbD 0 := by
    rw [BitVec.getLsbD_xor, BitVec.getLsbD_shiftLeft]; simp
  have hs : (x ^^^ (bit b <<< (n + 1))) >>> 1 = (x >>> 1) ^^^ (bit b <<< n) := by
    apply BitVec.eq_of_getLsbD_eq
    intro i hi
    simp only [BitVec.getLsbD_ushiftRight, BitVec.getLsbD_xor, BitVec.getLsbD_shiftLeft]
    congr 1
    by_cases hi' : i = 31
    · subst hi'
      have : (bit b).getLsbD (31 - n) = false := by
        cases b
        · simp [bit]
        · simp only [bit, if_true]
          rw [BitVec.getLsbD_one]
          have : ¬ (31 - n = 0) := by omega
          simp [this]
      simp [this]
    · have e1 : 1 + i - (n + 1) = i - n := by omega
      have e2 : (1 + i < 32) = (i < 32) := by simp; omega
      have e3 : (1 + i < n + 1) = (i < n) := by simp; omega
      simp [e1, hi, e3, show 1 + i < 32 by omega]
  unfold shift
  rw [h0, hs]
  split
  · rw [BitVec.xor_assoc, BitVec.xor_comm (bit b <<< n) poly, ← BitVec.xor_assoc]
  · rfl

/-- `shift` many times. -/
def shifts : Nat → BitVec 32 → BitVec 32
  | 0, x => x
  | n + 1, x => shifts n (shift x)

theorem shifts_succ (n : Nat) : ∀ x, shifts (n + 1) x = shift (shifts n x) := by
  induction n with
  | zero => intro x; rfl
  | succ n ih => intro x; exact ih _

theorem shifts_inj (n : Nat) : ∀ {x y}, shifts n x = shifts n y → x = y := by
  induction n with
  | zero => intro x y h; exact h
  | succ n ih => intro x y h; exact shift_inj (ih h)

theorem shifts_xor (n : Nat) : ∀ (x : BitVec 32) (b : Bool), n < 32 → shifts n (x ^^^ (bit b <<< n)) = shifts n x ^^^ bit b := by
  induction n with
  | zero => intro x b _; simp [shifts]
  | succ n ih =>
    intro x b hn
    show shifts n (shift _) = shifts n (shift x) ^^^ bit b
    rw [shift_xor x b n (by omega), ih _ _ (by omega)]

/-- The bits as a word, the first in the lowest place. -/
def word : List Bool → Nat → BitVec 32
  | [], _ => 0#32
  | b :: l, n => (bit b <<< n) ^^^ word l (n + 1)

theorem word_append (l m : List Bool) : ∀ n, word (l ++ m) n = word l n ^^^ word m (n + l.length) := by
  induction l with
  | nil => intro n; simp [word]
  | cons b l ih =>
    intro n
    simp only [List.cons_append, word, ih, List.length_cons, BitVec.xor_assoc]
    rw [show n + 1 + l.length = n + (l.length + 1) by omega]

/-- Up to 32 bits: the state is that of the word. -/
theorem fold_word (m : List Bool) : ∀ (n : Nat) (s : BitVec 32) (x : BitVec 32), n + m.length ≤ 32 → s = shifts n x →
    m.foldl step s = shifts (n + m.length) (x ^^^ word m n) := by
  induction m with
  | nil => intro n s x _ h; simpa [word] using h
  | cons b m ih =>
    intro n s x hn h
    simp only [List.length_cons] at hn
    have h1 : step s b = shifts (n + 1) (x ^^^ (bit b <<< n)) := by
      rw [shifts_succ, shifts_xor n x b (by omega), ← h]
      rfl
    rw [List.foldl_cons, ih (n + 1) _ _ (by omega) h1]
    simp only [word, List.length_cons, BitVec.xor_assoc]
    rw [show n + 1 + m.length = n + (m.length + 1) by omega]

theorem bit_get (b : Bool) (i : Nat) : (bit b).getLsbD i = (b && decide (i = 0)) := by
  cases b
  · simp [bit]
  · simp only [bit, if_true]
    rw [BitVec.getLsbD_one]
    simp

theorem word_get (l : List Bool) : ∀ (n i : Nat), i < 32 → (word l n).getLsbD i = if n ≤ i then l.getD (i - n) false else false := by
  induction l with
  | nil => intro n i _; simp [word]
  | cons b l ih =>
    intro n i hi
    simp only [word, BitVec.getLsbD_xor, BitVec.getLsbD_shiftLeft, hi, decide_true, Bool.true_and, bit_get, ih (n + 1) i hi]
    by_cases h1 : i < n
    · have h2 : ¬ n ≤ i := by omega
      have h3 : ¬ n + 1 ≤ i := by omega
      simp [h1, h2, h3]
    · by_cases h4 : i = n
      · subst h4
        simp [show ¬ i + 1 ≤ i by omega]
      · have h2 : n ≤ i := by omega
        have h3 : n + 1 ≤ i := by omega
        have h5 : ¬ (i - n = 0) := by omega
        have h6 : i - n = (i - (n + 1)) + 1 := by omega
        rw [if_pos h3, if_pos h2]
        simp only [h1, decide_false, Bool.not_false, Bool.true_and, h5, Bool.and_false, Bool.false_xor]
        rw [h6, List.getD_cons_succ]

theorem word_inj {l m : List Bool} (hl : l.length = m.length) (h32 : l.length ≤ 32) (h : word l 0 = word m 0) : l = m := by
  apply List.ext_getElem hl
  intro i h1 h2
  have := congrArg (fun z => z.getLsbD i) h
  simp only [word_get _ _ _ (show i < 32 by omega), Nat.zero_le, if_true, Nat.sub_zero] at this
  simpa [List.getD_eq_getElem?_getD, h1, h2] using this

/-! ### Sequences of bits -/

theorem step_inj {s t : BitVec 32} {b : Bool} (h : step s b = step t b) : s = t := xor_cancel (shift_inj h)

theorem fold_inj (l : List Bool) : ∀ {s t : BitVec 32}, l.foldl step s = l.foldl step t → s = t := by
  induction l with
  | nil => intro s t h; exact h
  | cons b l ih => intro s t h; exact step_inj (ih h)

theorem fold_burst (s : BitVec 32) (m m' : List Bool) (hl : m.length = m'.length) (h32 : m.length ≤ 32)
    (h : m.foldl step s = m'.foldl step s) : m = m' := by
  rw [fold_word m 0 s s (by omega) rfl, fold_word m' 0 s s (by omega) rfl, hl] at h
  have := shifts_inj _ h
  rw [BitVec.xor_comm s, BitVec.xor_comm s] at this
  exact word_inj hl h32 (xor_cancel this)

theorem crcBits_inj {l m : List Bool} (h : crcBits l = crcBits m) : l.foldl step (BitVec.allOnes 32) = m.foldl step (BitVec.allOnes 32) := by
  unfold crcBits at h
  have := congrArg (fun z => ~~~ z) h
  simpa using this

/-- C101, bursts: two sequences of bits of any length that differ, but only within 32 consecutive bits, have different checksums. -/
theorem C101_burst (pre m m' post : List Bool) (hl : m.length = m'.length) (h32 : m.length ≤ 32) (hne : m ≠ m') :
    crcBits (pre ++ m ++ post) ≠ crcBits (pre ++ m' ++ post) := by
  intro h
  have h1 := crcBits_inj h
  simp only [List.foldl_append] at h1
  exact hne (fold_burst _ m m' hl h32 (fold_inj post h1))

theorem unstep (b : Bool) (t : BitVec 32) : ∃ s, step s b = t :=
  ⟨unshift t ^^^ bit b, by
    unfold step
    rw [BitVec.xor_assoc, BitVec.xor_self, BitVec.xor_zero, shift_unshift]⟩

theorem fold_surj (l : List Bool) : ∀ t : BitVec 32, ∃ s, l.foldl step s = t := by
  induction l with
  | nil => intro t; exact ⟨t, rfl⟩
  | cons b l ih =>
    intro t
    obtain ⟨s, hs⟩ := ih t
    obtain ⟨s', hs'⟩ := unstep b s
    exact ⟨s', by rw [List.foldl_cons, hs', hs]⟩

theorem shifts_surj (n : Nat) : ∀ t, ∃ x, shifts n x = t := by
  induction n with
  | zero => intro t; exact ⟨t, rfl⟩
  | succ n ih =>
    intro t
    obtain ⟨x, hx⟩ := ih t
    exact ⟨unshift x, by show shifts n (shift (unshift x)) = t; rw [shift_unshift, hx]⟩

theorem word_surj (x : BitVec 32) : ∃ m : List Bool, m.length = 32 ∧ word m 0 = x := by
  refine ⟨(List.range 32).map fun i => x.getLsbD i, by simp, ?_⟩
  apply BitVec.eq_of_getLsbD_eq
  intro i hi
  rw [word_get _ _ _ hi]
  simp [hi]

theorem fold_fill (s t : BitVec 32) : ∃ m : List Bool, m.length = 32 ∧ m.foldl step s = t := by
  obtain ⟨x, hx⟩ := shifts_surj 32 t
  obtain ⟨m, hm, hw⟩ := word_surj (s ^^^ x)
  refine ⟨m, hm, ?_⟩
  rw [fold_word m 0 s s (by omega) rfl, hm, hw, ← BitVec.xor_assoc, BitVec.xor_self, BitVec.zero_xor]
  exact hx

/-! ### Bytes -/

theorem bitsOf_length (b : UInt8) : (bitsOf b).length = 8 := rfl

theorem bitsOf_inj {a b : UInt8} (h : bitsOf a = bitsOf b) : a = b := by
  apply UInt8.toNat_inj.1
  apply Nat.eq_of_testBit_eq
  intro i
  by_cases hi : i < 8
  · have := congrArg (fun l => l[i]?) h
    simpa [bitsOf, hi] using this
  · rw [Nat.testBit_lt_two_pow, Nat.testBit_lt_two_pow]
    · exact Nat.lt_of_lt_of_le b.toNat_lt (Nat.pow_le_pow_right (by omega) (by omega))
    · exact Nat.lt_of_lt_of_le a.toNat_lt (Nat.pow_le_pow_right (by omega) (by omega))

theorem bits_length (l : List UInt8) : (l.flatMap bitsOf).length = 8 * l.length := by
  induction l with
  | nil => rfl
  | cons b l ih => simp only [List.flatMap_cons, List.length_append, ih, bitsOf_length, List.length_cons]; omega

theorem bits_inj : ∀ {l m : List UInt8}, l.flatMap bitsOf = m.flatMap bitsOf → l = m
  | [], [], _ => rfl
  | [], b :: m, h => by
    have := congrArg List.length h
    rw [bits_length, bits_length] at this
    simp at this
  | a :: l, [], h => by
    have := congrArg List.length h
    rw [bits_length, bits_length] at this
    simp at this
  | a :: l, b :: m, h => by
    simp only [List.flatMap_cons] at h
    obtain ⟨h1, h2⟩ := List.append_inj h (by rw [bitsOf_length, bitsOf_length])
    rw [bitsOf_inj h1, bits_inj h2]

theorem byte_of (m : List Bool) (h : m.length = 8) : ∃ b : UInt8, bitsOf b = m := by
  have hlt : Nat.ofBits (fun i : Fin 8 => m.getD i false) < 256 := Nat.ofBits_lt_two_pow _
  refine ⟨UInt8.ofNat (Nat.ofBits (fun i : Fin 8 => m.getD i false)), ?_⟩
  apply List.ext_getElem (by rw [bitsOf_length, h])
  intro i h1 h2
  rw [bitsOf_length] at h1
  simp only [bitsOf, List.getElem_map, List.getElem_range]
  rw [UInt8.toNat_ofNat_of_lt' hlt, Nat.testBit_ofBits_lt _ _ h1]
  simp [List.getD_eq_getElem?_getD, h2]

theorem bytes_of : ∀ (n : Nat) (m : List Bool), m.length = 8 * n → ∃ l : List UInt8, l.length = n ∧ l.flatMap bitsOf = m
  | 0, m, h => ⟨[], rfl, by
      have : m = [] := List.eq_nil_of_length_eq_zero (by omega)
      rw [this]; rfl⟩
  | n + 1, m, h => by
    obtain ⟨b, hb⟩ := byte_of (m.take 8) (by rw [List.length_take]; omega)
    obtain ⟨l, hl, hm⟩ := bytes_of n (m.drop 8) (by rw [List.length_drop]; omega)
    exact ⟨b :: l, by rw [List.length_cons, hl], by rw [List.flatMap_cons, hb, hm, List.take_append_drop]⟩

/-- C101, bytes: so have two sequences of bytes that differ, but only within four consecutive bytes. -/
theorem C101_bytes (pre m m' post : List UInt8) (hl : m.length = m'.length) (h4 : m.length ≤ 4) (hne : m ≠ m') :
    crc32 (pre ++ m ++ post) ≠ crc32 (pre ++ m' ++ post) := by
  intro h
  have h1 := BitVec.eq_of_toNat_eq h
  simp only [List.flatMap_append] at h1
  refine C101_burst _ _ _ _ ?_ ?_ ?_ h1
  · rw [bits_length, bits_length, hl]
  · rw [bits_length]; omega
  · exact fun e => hne (bits_inj e)

/-- C101, what is not detected: whatever the bytes around them, four bytes can be chosen in exactly one way to give a checksum. -/
theorem C101_exact (pre post : List UInt8) (t : Nat) (ht : t < 2 ^ 32) :
    ∃ m : List UInt8, m.length = 4 ∧ crc32 (pre ++ m ++ post) = t ∧
      ∀ m' : List UInt8, m'.length = 4 → crc32 (pre ++ m' ++ post) = t → m' = m := by
  obtain ⟨s1, h1⟩ := fold_surj (post.flatMap bitsOf) (~~~ (BitVec.ofNat 32 t))
  obtain ⟨mb, hm, hf⟩ := fold_fill ((pre.flatMap bitsOf).foldl step (BitVec.allOnes 32)) s1
  obtain ⟨m, hl, hb⟩ := bytes_of 4 mb hm
  have hc : crc32 (pre ++ m ++ post) = t := by
    unfold crc32 crcBits
    simp only [List.flatMap_append, List.foldl_append, hb, hf, h1]
    rw [BitVec.not_not, BitVec.toNat_ofNat, Nat.mod_eq_of_lt ht]
  refine ⟨m, hl, hc, ?_⟩
  intro m' hl' hc'
  by_cases he : m' = m
  · exact he
  · exact absurd (hc'.trans hc.symm) (C101_bytes pre m' m post (by omega) (by omega) he)

/-- The check value of CRC-32: "123456789". -/
example : crc32 [0x31, 0x32, 0x33, 0x34, 0x35, 0x36, 0x37, 0x38, 0x39] = 0xCBF43926 := by decide +kernel

/-! ### Records -/

/-- The bytes `bs` are stored at `a`. -/
def burst (a : Nat) : List UInt8 → List (Nat × UInt8)
  | [] => []
  | b :: bs => (a, b) :: burst (a + 1) bs

theorem burst_mem {p : Nat × UInt8} : ∀ {bs : List UInt8} {a : Nat}, p ∈ burst a bs → a ≤ p.1 ∧ p.1 < a + bs.length
  | [], _, h => by cases h
  | b :: bs, a, h => by
    rcases List.mem_cons.1 h with rfl | h
    · simp
    · have := burst_mem h
      simp only [List.length_cons]
      omega

theorem alterBytes_burst (bs : List UInt8) : ∀ (a base : Nat) (xs : List UInt8), base ≤ a → a + bs.length ≤ base + xs.length →
    alterBytes (burst a bs) base xs = xs.take (a - base) ++ bs ++ xs.drop (a - base + bs.length) := by
  induction bs with
  | nil => intro a base xs _ _; simp [burst, alterBytes]
  | cons b bs ih =>
    intro a base xs h1 h2
    simp only [List.length_cons] at h2
    show alterBytes (burst (a + 1) bs) base (if base ≤ a ∧ a < base + xs.length then xs.set (a - base) b else xs) = _
    rw [if_pos (by omega), ih (a + 1) base _ (by omega) (by rw [List.length_set]; omega)]
    have e : a + 1 - base = a - base + 1 := by omega
    have hl : (xs.take (a - base)).length = a - base := by rw [List.length_take]; omega
    rw [e, List.set_eq_take_append_cons_drop, if_pos (by omega)]
    have t1 : (xs.take (a - base) ++ b :: xs.drop (a - base + 1)).take (a - base + 1) = xs.take (a - base) ++ [b] := by
      rw [List.take_append, hl, List.take_of_length_le (by omega)]
      simp
    have t2 : (xs.take (a - base) ++ b :: xs.drop (a - base + 1)).drop (a - base + 1 + bs.length) =
        xs.drop (a - base + (b :: bs).length) := by
      rw [List.drop_append, hl, List.drop_of_length_le (by omega), show a - base + 1 + bs.length - (a - base) = bs.length + 1 by omega,
        List.drop_succ_cons, List.drop_drop, List.nil_append]
      congr 1
      simp only [List.length_cons]; omega
    rw [t1, t2]
    simp

theorem alterBytes_outs (L : List (Nat × UInt8)) (base : Nat) : ∀ xs : List UInt8, (∀ p ∈ L, ¬ (base ≤ p.1 ∧ p.1 < base + xs.length)) →
    alterBytes L base xs = xs := by
  induction L with
  | nil => intro xs _; rfl
  | cons p L ih =>
    intro xs h
    show alterBytes L base (if base ≤ p.1 ∧ p.1 < base + xs.length then _ else xs) = xs
    rw [if_neg (h p List.mem_cons_self)]
    exact ih xs fun q hq => h q (List.mem_cons_of_mem _ hq)

/-- A record that does not survive is the only one lost. -/
theorem lose_one (K : Crc) (len : Nat) (hlen : len < 2 ^ 32) (overwrite blockOnRead : Bool)
    (ops : List NOp) (ht : ∀ op ∈ ops, op.tame = true) (L : List (Nat × UInt8))
    (A B : List (Range × List UInt8)) (x : Range × List UInt8)
    (hu : (nvAfter K len true overwrite blockOnRead ops).unread K = A ++ x :: B)
    (hL : ∀ p ∈ L, hits p.1 x)
    (hd : x.2.length = x.1.size → 8 ≤ x.1.start → survive K L x = none) :
    (nvAfter K len true overwrite blockOnRead (ops ++ L.map fun p => .alter p.1 p.2)).unread K = A ++ B := by
  obtain ⟨q, h, hb, hc, _⟩ := tame_run ops (NVSim.new K len true overwrite blockOnRead hlen) ht
    (fun n e => by cases e) rfl
  have h : NVSim K (nvAfter K len true overwrite blockOnRead ops) q := h
  have hc : q.crc = true := hc
  have hs := C08_skips_partial K len hlen overwrite blockOnRead ops ht L (by
    intro p hp
    exact ⟨x, by rw [hu]; simp, hL p hp⟩)
  rw [hu] at hs
  rw [hs]
  have hun := unread_nv h
  rw [hu] at hun
  have hpw : ((q.items.filter (q.passes K)).map q.slice).Pairwise (fun x y =>
      x.1.start + x.1.size + 8 ≤ y.1.start ∨ y.1.start + y.1.size + 8 ≤ x.1.start) := by
    rw [List.pairwise_map]
    refine List.Pairwise.filter _ ?_
    have hp := h.core.layout.pairwise
    rw [List.pairwise_map] at hp
    have hi : q.items.Sublist q.live := by
      unfold PQ.live
      exact (List.sublist_append_left _ _).trans (List.sublist_append_left _ _)
    refine (hp.sublist hi).imp ?_
    intro u v huv
    simp only [Disj, Range.stop, Item.range, q.hb_crc hc] at huv
    simp only [PQ.slice, q.hb_crc hc]
    omega
  have hlen' : ∀ y ∈ A ++ x :: B, y.2.length = y.1.size ∧ 8 ≤ y.1.start := by
    intro y hy
    rw [hun] at hy
    obtain ⟨it, hit, rfl⟩ := List.mem_map.1 hy
    have hit := (List.mem_filter.1 hit).1
    have hm := h.core.mem it (by simp [PQ.live, hit])
    refine ⟨by show it.data.length = it.size; rw [← hm.1, readMem_length], ?_⟩
    show 8 ≤ it.start + q.hb
    rw [q.hb_crc hc]; omega
  rw [← hun] at hpw
  have hother : ∀ y, (y ∈ A ∨ y ∈ B) → survive K L y = some y := by
    intro y hy
    have hmem : y ∈ A ++ x :: B := by rcases hy with hy | hy <;> simp [hy]
    obtain ⟨l1, l2⟩ := hlen' y hmem
    have l4 := (hlen' x (by simp)).2
    have hdisj : y.1.start + y.1.size + 8 ≤ x.1.start ∨ x.1.start + x.1.size + 8 ≤ y.1.start := by
      rw [List.pairwise_append] at hpw
      rcases hy with hy | hy
      · exact hpw.2.2 y hy x (by simp)
      · exact ((List.pairwise_cons.1 hpw.2.1).1 y hy).symm
    have l3 : (le32 (K.sum (le32 y.1.size ++ y.2))).length = 4 := rfl
    unfold survive
    rw [alterBytes_outs L _ _ (fun p hp => by have := hL p hp; unfold hits at this; omega),
      alterBytes_outs L _ _ (fun p hp => by have := hL p hp; unfold hits at this; rw [l3]; omega), ofLe32_le32 _ (K.sum_lt _), if_pos rfl]
  have hx : survive K L x = none := by
    obtain ⟨l1, l2⟩ := hlen' x (by simp)
    exact hd l1 l2
  have hall : ∀ l : List (Range × List UInt8), (∀ y ∈ l, survive K L y = some y) → l.filterMap (survive K L) = l := by
    intro l hl
    induction l with
    | nil => rfl
    | cons y l ih =>
      rw [List.filterMap_cons_some (hl y (by simp)), ih (fun z hz => hl z (by simp [hz]))]
  rw [List.filterMap_append, List.filterMap_cons_none hx, hall A (fun y hy => hother y (Or.inl hy)),
    hall B (fun y hy => hother y (Or.inr hy))]

/-- C101, records: if up to four consecutive bytes of the contents of an unread record are replaced by others, exactly that record is lost. -/
theorem C101_record (w len : Nat) (hlen : len < 2 ^ 32) (overwrite blockOnRead : Bool)
    (ops : List NOp) (ht : ∀ op ∈ ops, op.tame = true) (a : Nat) (bs : List UInt8)
    (A B : List (Range × List UInt8)) (x : Range × List UInt8)
    (hu : (nvAfter (crc w) len true overwrite blockOnRead ops).unread (crc w) = A ++ x :: B)
    (ha : x.1.start ≤ a ∧ a + bs.length ≤ x.1.start + x.1.size) (h4 : bs.length ≤ 4)
    (hne : bs ≠ (x.2.drop (a - x.1.start)).take bs.length) :
    (nvAfter (crc w) len true overwrite blockOnRead (ops ++ (burst a bs).map fun p => .alter p.1 p.2)).unread (crc w) = A ++ B := by
  refine lose_one (crc w) len hlen overwrite blockOnRead ops ht (burst a bs) A B x hu ?_ ?_
  · intro p hp
    have := burst_mem hp
    exact Or.inl (by omega)
  · intro l1 l2
    have l3 : (le32 ((crc w).sum (le32 x.1.size ++ x.2))).length = 4 := rfl
    unfold survive
    rw [alterBytes_outs _ (x.1.start - 8) _ (fun p hp => by have := burst_mem hp; rw [l3]; omega), ofLe32_le32 _ ((crc w).sum_lt _),
      alterBytes_burst bs a _ _ ha.1 (by omega)]
    refine if_neg ?_
    have e : x.2 = x.2.take (a - x.1.start) ++ (x.2.drop (a - x.1.start)).take bs.length ++ x.2.drop (a - x.1.start + bs.length) := by
      rw [List.append_assoc, ← List.drop_drop, List.take_append_drop, List.take_append_drop]
    have := C101_bytes (le32 x.1.size ++ x.2.take (a - x.1.start)) bs ((x.2.drop (a - x.1.start)).take bs.length)
      (x.2.drop (a - x.1.start + bs.length)) (by rw [List.length_take, List.length_drop]; omega) h4 hne
    intro h
    apply this
    show crc32 _ = crc32 _
    have h' : crc32 (le32 x.1.size ++ (x.2.take (a - x.1.start) ++ bs ++ x.2.drop (a - x.1.start + bs.length))) = crc32 (le32 x.1.size ++ x.2) := h
    rw [show le32 x.1.size ++ x.2.take (a - x.1.start) ++ bs ++ x.2.drop (a - x.1.start + bs.length) =
      le32 x.1.size ++ (x.2.take (a - x.1.start) ++ bs ++ x.2.drop (a - x.1.start + bs.length)) by simp, h']
    congr 1
    rw [List.append_assoc (le32 x.1.size), List.append_assoc (le32 x.1.size), ← e]

/-- C101, stored checksums: the same if bytes of its checksum are replaced. -/
theorem C101_stored (w len : Nat) (hlen : len < 2 ^ 32) (overwrite blockOnRead : Bool)
    (ops : List NOp) (ht : ∀ op ∈ ops, op.tame = true) (bs : List UInt8) (i : Nat)
    (A B : List (Range × List UInt8)) (x : Range × List UInt8)
    (hu : (nvAfter (crc w) len true overwrite blockOnRead ops).unread (crc w) = A ++ x :: B)
    (hi : i + bs.length ≤ 4) (hne : bs ≠ ((le32 (crc32 (le32 x.1.size ++ x.2))).drop i).take bs.length) :
    (nvAfter (crc w) len true overwrite blockOnRead (ops ++ (burst (x.1.start - 8 + i) bs).map fun p => .alter p.1 p.2)).unread (crc w) =
      A ++ B := by
  have hst : ∀ y ∈ A ++ x :: B, 8 ≤ y.1.start := by
    obtain ⟨q, h, hb, hc, _⟩ := tame_run ops (NVSim.new (crc w) len true overwrite blockOnRead hlen) ht (fun n e => by cases e) rfl
    have h : NVSim (crc w) (nvAfter (crc w) len true overwrite blockOnRead ops) q := h
    have hun := unread_nv h
    rw [hu] at hun
    intro y hy
    rw [hun] at hy
    obtain ⟨it, hit, rfl⟩ := List.mem_map.1 hy
    show 8 ≤ it.start + q.hb
    have hc : q.crc = true := hc
    rw [q.hb_crc hc]; omega
  have h8 := hst x (by simp)
  refine lose_one (crc w) len hlen overwrite blockOnRead ops ht _ A B x hu ?_ ?_
  · intro p hp
    have := burst_mem hp
    exact Or.inr (by omega)
  · intro l1 l2
    have l3 : (le32 ((crc w).sum (le32 x.1.size ++ x.2))).length = 4 := rfl
    unfold survive
    rw [alterBytes_outs _ x.1.start _ (fun p hp => by have := burst_mem hp; omega),
      alterBytes_burst bs _ _ _ (by omega) (by rw [l3]; omega)]
    refine if_neg ?_
    rw [show x.1.start - 8 + i - (x.1.start - 8) = i by omega]
    intro h
    have hlen4 : ((le32 ((crc w).sum (le32 x.1.size ++ x.2))).take i ++ bs ++ (le32 ((crc w).sum (le32 x.1.size ++ x.2))).drop (i + bs.length)).length = 4 := by
      simp only [List.length_append, List.length_take, List.length_drop, l3]; omega
    have h2 := congrArg le32 h
    rw [le32_ofLe32 _ hlen4] at h2
    have h3 := congrArg (fun l => (l.drop i).take bs.length) h2
    rw [List.append_assoc, List.drop_left' (by rw [List.length_take, l3]; omega), List.take_left'] at h3
    · exact hne h3.symm
    · rfl

/-! ### The header -/

theorem bounds {c : Core} {U O : List Range} (h : CoreInv c U O) :
    c.nws < 2 ^ 32 ∧ (∀ a, c.cws = some a → a < 2 ^ 32) ∧ (∀ a, c.lweb = some a → a < 2 ^ 32) ∧ (∀ a, c.nrs = some a → a < 2 ^ 32) := by
  have l32 := h.len32
  have hm : ∀ r ∈ U, r.start < 2 ^ 32 := by
    intro r hr
    have := (h.layout.mem (List.mem_append_left O hr)).1
    simp only [Range.stop] at this
    omega
  refine ⟨Nat.lt_of_le_of_lt h.layout.1 l32, ?_, ?_, ?_⟩
  · intro a ha
    rw [h.cws] at ha
    obtain ⟨r, hr, rfl⟩ := Option.map_eq_some_iff.1 ha
    exact hm r (List.mem_of_getLast? hr)
  · intro a ha
    have := (h.layout.2.1 a ha).2
    omega
  · intro a ha
    rw [h.nrs] at ha
    obtain ⟨r, hr, rfl⟩ := Option.map_eq_some_iff.1 ha
    exact hm r (List.mem_of_head? hr)


theorem le32_inj {a b : Nat} (ha : a < 2 ^ 32) (hb : b < 2 ^ 32) (h : le32 a = le32 b) : a = b := by
  rw [← ofLe32_le32 a ha, h, ofLe32_le32 b hb]

theorem crc_word (pre post : List UInt8) {a b : Nat} (ha : a < 2 ^ 32) (hb : b < 2 ^ 32)
    (h : crc32 (pre ++ le32 a ++ post) = crc32 (pre ++ le32 b ++ post)) : a = b := by
  by_cases he : le32 a = le32 b
  · exact le32_inj ha hb he
  · exact absurd h (C101_bytes pre (le32 a) (le32 b) post rfl (by simp [le32]) he)

/-- C101, the header: each of the four indexes is determined by the checksum and the others. -/
theorem C101_header (w : Nat) (n : Nat) (c l r : Option Nat) :
    (∀ a b, a < 2 ^ 32 → b < 2 ^ 32 → (crc w).hdr a c l r = (crc w).hdr b c l r → a = b) ∧
    (∀ a b, a < 2 ^ 32 → b < 2 ^ 32 → (crc w).hdr n (some a) l r = (crc w).hdr n (some b) l r → a = b) ∧
    (∀ a b, a < 2 ^ 32 → b < 2 ^ 32 → (crc w).hdr n c (some a) r = (crc w).hdr n c (some b) r → a = b) ∧
    (∀ a b, a < 2 ^ 32 → b < 2 ^ 32 → (crc w).hdr n c l (some a) = (crc w).hdr n c l (some b) → a = b) := by
  have key : ∀ (pre post : List UInt8) (f : Nat → List UInt8), (∀ v, f v = pre ++ le32 v ++ post) → ∀ a b, a < 2 ^ 32 → b < 2 ^ 32 →
      crc32 (f a) = crc32 (f b) → a = b := by
    intro pre post f hf a b ha hb h
    rw [hf, hf] at h
    exact crc_word pre post ha hb h
  refine ⟨?_, ?_, ?_, ?_⟩
  · exact key [] (optBytes w c ++ optBytes w l ++ optBytes w r) (fun v => hdrBytes w v c l r) (by intro v; simp [hdrBytes])
  · exact key (le32 n ++ 1 :: List.replicate (w - 1) 0) (optBytes w l ++ optBytes w r) (fun v => hdrBytes w n (some v) l r)
      (by intro v; simp [hdrBytes, optBytes])
  · exact key (le32 n ++ optBytes w c ++ 1 :: List.replicate (w - 1) 0) (optBytes w r) (fun v => hdrBytes w n c (some v) r)
      (by intro v; simp [hdrBytes, optBytes])
  · exact key (le32 n ++ optBytes w c ++ optBytes w l ++ 1 :: List.replicate (w - 1) 0) [] (fun v => hdrBytes w n c l (some v))
      (by intro v; simp [hdrBytes, optBytes])

/-- C101, opening: after any history, if one of the four indexes in the header, or the checksum itself, is replaced by another value, opening the file
reports data loss. -/
theorem C101_open (w len : Nat) (hlen : len < 2 ^ 32) (c overwrite blockOnRead : Bool) (ops : List NOp) (ht : ∀ op ∈ ops, op.tame = true) (v : Nat)
    (hv : v < 2 ^ 32) :
    let s := nvAfter (crc w) len c overwrite blockOnRead ops
    (v ≠ s.core.nws → NV.reopen (crc w) { s with core := { s.core with nws := v } } = none) ∧
    (∀ a, s.core.cws = some a → v ≠ a → NV.reopen (crc w) { s with core := { s.core with cws := some v } } = none) ∧
    (∀ a, s.core.lweb = some a → v ≠ a → NV.reopen (crc w) { s with core := { s.core with lweb := some v } } = none) ∧
    (∀ a, s.core.nrs = some a → v ≠ a → NV.reopen (crc w) { s with core := { s.core with nrs := some v } } = none) ∧
    (v ≠ s.hdrCrc → NV.reopen (crc w) { s with hdrCrc := v } = none) := by
  intro s
  obtain ⟨q, h, _⟩ := tame_run ops (NVSim.new (crc w) len c overwrite blockOnRead hlen) ht (fun n e => by cases e) rfl
  have h : NVSim (crc w) s q := h
  obtain ⟨b1, b2, b3, b4⟩ := bounds h.core.inv
  obtain ⟨k1, k2, k3, k4⟩ := C101_header w s.core.nws s.core.cws s.core.lweb s.core.nrs
  have hh := h.hdr
  refine ⟨?_, ?_, ?_, ?_, ?_⟩
  · intro hne
    unfold NV.reopen
    refine if_pos ?_
    dsimp only
    rw [hh]
    exact fun e => hne (k1 _ _ hv b1 e)
  · intro a ha hne
    unfold NV.reopen
    refine if_pos ?_
    dsimp only
    rw [hh, ha]
    exact fun e => hne (k2 _ _ hv (b2 a ha) e)
  · intro a ha hne
    unfold NV.reopen
    refine if_pos ?_
    dsimp only
    rw [hh, ha]
    exact fun e => hne (k3 _ _ hv (b3 a ha) e)
  · intro a ha hne
    unfold NV.reopen
    refine if_pos ?_
    dsimp only
    rw [hh, ha]
    exact fun e => hne (k4 _ _ hv (b4 a ha) e)
  · intro hne
    unfold NV.reopen
    refine if_pos ?_
    dsimp only
    rw [← hh]
    exact fun e => hne e.symm

/-! ### Crashes -/

/-- The stores change at most one of the indexes, and do not set or unset one. -/
inductive Single (f : File) (l : List Store) : Prop
  | nws : f.nws < 2 ^ 32 → (∀ x ∈ l, (∃ v, x = .nws v ∧ v < 2 ^ 32) ∨ (∃ v, x = .hdr v) ∨ ∃ a b, x = .byte a b) → Single f l
  | cws (a : Nat) : f.cws = some a → a < 2 ^ 32 → (∀ x ∈ l, (∃ v, x = .cws (some v) ∧ v < 2 ^ 32) ∨ (∃ v, x = .hdr v) ∨ ∃ a b, x = .byte a b) → Single f l
  | lweb (a : Nat) : f.lweb = some a → a < 2 ^ 32 → (∀ x ∈ l, (∃ v, x = .lweb (some v) ∧ v < 2 ^ 32) ∨ (∃ v, x = .hdr v) ∨ ∃ a b, x = .byte a b) → Single f l
  | nrs (a : Nat) : f.nrs = some a → a < 2 ^ 32 → (∀ x ∈ l, (∃ v, x = .nrs (some v) ∧ v < 2 ^ 32) ∨ (∃ v, x = .hdr v) ∨ ∃ a b, x = .byte a b) → Single f l

theorem single_take {l : List Store} {P : Store → Prop} (h : ∀ x ∈ l, P x) (i : Nat) : ∀ x ∈ l.take i, P x :=
  fun x hx => h x (List.mem_of_mem_take hx)

theorem apply_nws (l : List Store) : ∀ f : File, f.nws < 2 ^ 32 → (∀ x ∈ l, (∃ v, x = .nws v ∧ v < 2 ^ 32) ∨ (∃ v, x = .hdr v) ∨ ∃ a b, x = .byte a b) →
    (applyAll l f).nws < 2 ^ 32 ∧ (applyAll l f).cws = f.cws ∧ (applyAll l f).lweb = f.lweb ∧ (applyAll l f).nrs = f.nrs := by
  induction l with
  | nil => intro f h _; exact ⟨h, rfl, rfl, rfl⟩
  | cons x l ih =>
    intro f h hl
    have h1 := hl x List.mem_cons_self
    have h2 := fun y hy => hl y (List.mem_cons_of_mem _ hy)
    rcases h1 with ⟨v, rfl, hv⟩ | ⟨v, rfl⟩ | ⟨a, b, rfl⟩
    · exact ih _ hv h2
    · exact ih (Store.apply (.hdr v) f) h h2
    · exact ih (Store.apply (.byte a b) f) h h2

theorem apply_cws (l : List Store) : ∀ f : File, (∃ a, f.cws = some a ∧ a < 2 ^ 32) →
    (∀ x ∈ l, (∃ v, x = .cws (some v) ∧ v < 2 ^ 32) ∨ (∃ v, x = .hdr v) ∨ ∃ a b, x = .byte a b) →
    (∃ a, (applyAll l f).cws = some a ∧ a < 2 ^ 32) ∧ (applyAll l f).nws = f.nws ∧ (applyAll l f).lweb = f.lweb ∧ (applyAll l f).nrs = f.nrs := by
  induction l with
  | nil => intro f h _; exact ⟨h, rfl, rfl, rfl⟩
  | cons x l ih =>
    intro f h hl
    have h1 := hl x List.mem_cons_self
    have h2 := fun y hy => hl y (List.mem_cons_of_mem _ hy)
    rcases h1 with ⟨v, rfl, hv⟩ | ⟨v, rfl⟩ | ⟨a, b, rfl⟩
    · exact ih (Store.apply (.cws (some v)) f) ⟨v, rfl, hv⟩ h2
    · exact ih (Store.apply (.hdr v) f) h h2
    · exact ih (Store.apply (.byte a b) f) h h2

theorem apply_lweb (l : List Store) : ∀ f : File, (∃ a, f.lweb = some a ∧ a < 2 ^ 32) →
    (∀ x ∈ l, (∃ v, x = .lweb (some v) ∧ v < 2 ^ 32) ∨ (∃ v, x = .hdr v) ∨ ∃ a b, x = .byte a b) →
    (∃ a, (applyAll l f).lweb = some a ∧ a < 2 ^ 32) ∧ (applyAll l f).nws = f.nws ∧ (applyAll l f).cws = f.cws ∧ (applyAll l f).nrs = f.nrs := by
  induction l with
  | nil => intro f h _; exact ⟨h, rfl, rfl, rfl⟩
  | cons x l ih =>
    intro f h hl
    have h1 := hl x List.mem_cons_self
    have h2 := fun y hy => hl y (List.mem_cons_of_mem _ hy)
    rcases h1 with ⟨v, rfl, hv⟩ | ⟨v, rfl⟩ | ⟨a, b, rfl⟩
    · exact ih (Store.apply (.lweb (some v)) f) ⟨v, rfl, hv⟩ h2
    · exact ih (Store.apply (.hdr v) f) h h2
    · exact ih (Store.apply (.byte a b) f) h h2

theorem apply_nrs (l : List Store) : ∀ f : File, (∃ a, f.nrs = some a ∧ a < 2 ^ 32) →
    (∀ x ∈ l, (∃ v, x = .nrs (some v) ∧ v < 2 ^ 32) ∨ (∃ v, x = .hdr v) ∨ ∃ a b, x = .byte a b) →
    (∃ a, (applyAll l f).nrs = some a ∧ a < 2 ^ 32) ∧ (applyAll l f).nws = f.nws ∧ (applyAll l f).cws = f.cws ∧ (applyAll l f).lweb = f.lweb := by
  induction l with
  | nil => intro f h _; exact ⟨h, rfl, rfl, rfl⟩
  | cons x l ih =>
    intro f h hl
    have h1 := hl x List.mem_cons_self
    have h2 := fun y hy => hl y (List.mem_cons_of_mem _ hy)
    rcases h1 with ⟨v, rfl, hv⟩ | ⟨v, rfl⟩ | ⟨a, b, rfl⟩
    · exact ih (Store.apply (.nrs (some v)) f) ⟨v, rfl, hv⟩ h2
    · exact ih (Store.apply (.hdr v) f) h h2
    · exact ih (Store.apply (.byte a b) f) h h2

theorem Single.noCollide {f : File} {l : List Store} (w : Nat) (h : Single f l) : NoCollide (crc w) l f := by
  intro i j hs
  unfold File.sum at hs
  cases h with
  | nws h1 h2 =>
    obtain ⟨a1, a2, a3, a4⟩ := apply_nws (l.take i) f h1 (single_take h2 i)
    obtain ⟨b1, b2, b3, b4⟩ := apply_nws (l.take j) f h1 (single_take h2 j)
    rw [a2, a3, a4, b2, b3, b4] at hs
    unfold File.fields
    rw [a2, a3, a4, b2, b3, b4, (C101_header w 0 _ _ _).1 _ _ a1 b1 hs]
  | cws a h0 h1 h2 =>
    obtain ⟨⟨x, a1, ax⟩, a2, a3, a4⟩ := apply_cws (l.take i) f ⟨a, h0, h1⟩ (single_take h2 i)
    obtain ⟨⟨y, b1, bx⟩, b2, b3, b4⟩ := apply_cws (l.take j) f ⟨a, h0, h1⟩ (single_take h2 j)
    rw [a1, a2, a3, a4, b1, b2, b3, b4] at hs
    unfold File.fields
    rw [a1, a2, a3, a4, b1, b2, b3, b4, (C101_header w _ none _ _).2.1 _ _ ax bx hs]
  | lweb a h0 h1 h2 =>
    obtain ⟨⟨x, a1, ax⟩, a2, a3, a4⟩ := apply_lweb (l.take i) f ⟨a, h0, h1⟩ (single_take h2 i)
    obtain ⟨⟨y, b1, bx⟩, b2, b3, b4⟩ := apply_lweb (l.take j) f ⟨a, h0, h1⟩ (single_take h2 j)
    rw [a1, a2, a3, a4, b1, b2, b3, b4] at hs
    unfold File.fields
    rw [a1, a2, a3, a4, b1, b2, b3, b4, (C101_header w _ _ none _).2.2.1 _ _ ax bx hs]
  | nrs a h0 h1 h2 =>
    obtain ⟨⟨x, a1, ax⟩, a2, a3, a4⟩ := apply_nrs (l.take i) f ⟨a, h0, h1⟩ (single_take h2 i)
    obtain ⟨⟨y, b1, bx⟩, b2, b3, b4⟩ := apply_nrs (l.take j) f ⟨a, h0, h1⟩ (single_take h2 j)
    rw [a1, a2, a3, a4, b1, b2, b3, b4] at hs
    unfold File.fields
    rw [a1, a2, a3, a4, b1, b2, b3, b4, (C101_header w _ _ _ none).2.2.2 _ _ ax bx hs]

/-- The calls that did not return changed at most one index. -/
def Singles (w len : Nat) (c overwrite blockOnRead : Bool) : NV → List Event → Prop
  | _, [] => True
  | s, e :: es =>
    (match e with
      | .call _ => True
      | .crash op _ => Single s.file (s.stores (crc w) op)) ∧
    Singles w len c overwrite blockOnRead (s.event (crc w) len c overwrite blockOnRead e) es

theorem Singles.distinct (w len : Nat) (c overwrite blockOnRead : Bool) (es : List Event) : ∀ s, Singles w len c overwrite blockOnRead s es →
    Distinct (crc w) len c overwrite blockOnRead s es := by
  induction es with
  | nil => intro s _; trivial
  | cons e es ih =>
    intro s h
    refine ⟨?_, ih _ h.2⟩
    cases e with
    | call op => trivial
    | crash op k => exact Single.noCollide w h.1

/-- C101, crashes, if the interrupted calls change at most one index and do not set or unset one: the next process reports data loss, or finds what
a consumer could have read before the call, or after it (or an overwriting reservation has already taken the oldest record); nothing is assumed
about the checksum.  What is missing: calls that change several indexes, see `C101_crash_violated`. -/
theorem C101_crash_partial (w len : Nat) (hlen : len < 2 ^ 32) (c overwrite blockOnRead : Bool)
    (es : List Event) (ht : ∀ e ∈ es, e.op.tame = true)
    (hd : Singles w len c overwrite blockOnRead (NV.new (crc w) len c overwrite blockOnRead) es)
    (op : NOp) (hop : op.tame = true) (k : Nat) :
    let s := nvLife (crc w) len c overwrite blockOnRead es
    Single s.file (s.stores (crc w) op) →
    ∀ s1, (s.crash (crc w) op k).reopen (crc w) = some s1 →
      s1.unread (crc w) = s.unread (crc w) ∨ s1.unread (crc w) = (s.step (crc w) op).1.unread (crc w) ∨
      (s.core.overwrite = true ∧ s.crc = true ∧ op.reserves = true ∧ ∃ x, s.unread (crc w) = x :: s1.unread (crc w)) := by
  intro s h
  exact C07_crash (crc w) len hlen c overwrite blockOnRead es ht (Singles.distinct w len c overwrite blockOnRead es _ hd) op hop k (Single.noCollide w h)

theorem bytesAt_mem {x : Store} : ∀ {bs : List UInt8} {a : Nat}, x ∈ bytesAt a bs → ∃ a b, x = .byte a b
  | [], _, h => by cases h
  | b :: bs, a, h => by
    rcases List.mem_cons.1 h with rfl | h
    · exact ⟨_, _, rfl⟩
    · exact bytesAt_mem h

theorem finishRead_bound {K : Crc} {s : NV} {q : PQ} (h : NVSim K s q) {r : Range} (hr : s.consumer = some (.plain (some r))) {n : Nat}
    (hn : s.core.nrs = some n) : n + r.size < 2 ^ 32 := by
  have hq := h.reader
  unfold readerOk at hq
  split at hq
  · rw [hr] at hq; cases hq
  · rw [hr] at hq; cases hq
  · obtain ⟨h1, h2⟩ := hq
    cases hi : q.items with
    | nil => exact absurd hi h1
    | cons it rest =>
      rw [hi, hr] at h2
      simp only [List.head?_cons, Option.map_some, Option.some.injEq, Cons.plain.injEq] at h2
      have h3 := (h.core.cwsSome hi).1
      rw [hn, Option.some.injEq] at h3
      have h4 := (h.core.layout.mem (List.mem_map_of_mem (f := Item.range q.hb) (PQ.items_live (q := q) (it := it) (by rw [hi]; simp)))).1
      have := h.core.inv.len32
      subst h2
      simp only [Range.stop, Item.range] at h4 ⊢
      omega
  · rw [hr] at hq; simp at hq

theorem make_nil {c : Core} {t : Temp} (h : c.overwrite = false) : ∀ {fuel : Nat}, c.makeStores t fuel = []
  | 0 => rfl
  | fuel + 1 => by
    simp only [Core.makeStores, h]
    split
    · rfl
    · split
      · rfl
      · split <;> simp

theorem advance_same {c c1 : Core} {busy block : Bool} {t : Temp} {fuel : Nat} (h : c.overwrite = false)
    (h1 : c.advanceForWrite busy t block fuel = (c1, .ok ())) : c1.lweb = c.lweb ∧ c1.xb = c.xb := by
  cases fuel with
  | zero => cases h1
  | succ fuel =>
    simp only [Core.advanceForWrite] at h1
    repeat' split at h1
    all_goals first
      | (cases h1; exact ⟨rfl, rfl⟩)
      | (cases h1; done)
      | (simp_all)

/-- C101, which calls these are, in any state a history without other alterations leads to: writing a record; committing one while others are unread; finishing a read that
leaves something unread and is not the last before the wrap; reserving behind the last record in a buffer that does not overwrite, unless the end of the lap before is passed. -/
theorem C101_single (w len : Nat) (hlen : len < 2 ^ 32) (c overwrite blockOnRead : Bool) (ops : List NOp) (ht : ∀ op ∈ ops, op.tame = true) :
    let s := nvAfter (crc w) len c overwrite blockOnRead ops
    (∀ off bytes, Single s.file (s.stores (crc w) (.write off bytes))) ∧
    (s.core.nrs ≠ none → Single s.file (s.stores (crc w) .commit)) ∧
    (∀ r, s.consumer = some (.plain (some r)) → s.core.nrs ≠ s.core.cws → s.core.lweb ≠ s.core.nrs.map (· + r.size - 1) →
      Single s.file (s.stores (crc w) .finishRead)) ∧
    (∀ size block, s.core.overwrite = false → s.core.nws + (size + s.core.xb) ≤ s.core.len →
      (∀ e, s.core.lweb = some e → s.core.nws + size + s.core.xb ≤ e + 1) → Single s.file (s.stores (crc w) (.reserve size block))) := by
  intro s
  obtain ⟨q, h, _⟩ := tame_run ops (NVSim.new (crc w) len c overwrite blockOnRead hlen) ht (fun n e => by cases e) rfl
  have h : NVSim (crc w) s q := h
  obtain ⟨b1, b2, b3, b4⟩ := bounds h.core.inv
  refine ⟨?_, ?_, ?_, ?_⟩
  · intro off bytes
    refine .nws b1 ?_
    intro x hx
    refine Or.inr (Or.inr ?_)
    unfold NV.stores at hx
    split at hx
    · cases hx
    · simp only [NV.stores', NV.writeStores] at hx
      split at hx
      · split at hx
        · exact bytesAt_mem hx
        · cases hx
      · cases hx
  · intro hn
    have hcw : ∃ a, s.core.cws = some a := by
      have e1 := h.core.inv.nrs
      have e2 := h.core.inv.cws
      cases hU : q.items.map (Item.range q.hb) with
      | nil => rw [hU] at e1; exact absurd e1 hn
      | cons r U =>
        rw [hU] at e2
        rw [List.getLast?_eq_some_getLast (List.cons_ne_nil _ _)] at e2
        exact ⟨_, e2⟩
    obtain ⟨a, ha⟩ := hcw
    refine .cws a ha (b2 a ha) ?_
    intro x hx
    unfold NV.stores at hx
    split at hx
    · cases hx
    · simp only [NV.stores', NV.commitStores] at hx
      split at hx
      · rename_i r hr
        have hrb : r.start < 2 ^ 32 := by
          have hp := h.producer
          rw [hr] at hp
          cases hq : q.producer with
          | none => rw [hq] at hp; cases hp
          | some p =>
            cases p with
            | none => rw [hq] at hp; cases hp
            | some it =>
              rw [hq] at hp
              simp only [Option.map_some, Option.some.injEq] at hp
              have hm : Item.range q.hb it ∈ q.items.map (Item.range q.hb) ++ (q.holes ++ q.pend).map (Item.range q.hb) := by
                refine List.mem_append_right _ (List.mem_map_of_mem (List.mem_append_right _ ?_))
                simp [PQ.pend, hq]
              have := h.core.inv.layout.mem hm
              have l32 := h.core.inv.len32
              rw [hp]
              simp only [Range.stop] at this
              omega
        cases hnr : s.core.nrs with
        | none => exact absurd hnr hn
        | some y =>
          rw [hnr] at hx
          simp only [List.append_nil, List.mem_append, List.mem_singleton] at hx
          rcases hx with (rfl | hx) | rfl
          · exact Or.inl ⟨_, rfl, hrb⟩
          · split at hx
            · exact Or.inr (Or.inr (bytesAt_mem hx))
            · cases hx
          · exact Or.inr (Or.inl ⟨_, rfl⟩)
      · cases hx
  · intro r hr hne hl
    cases hn : s.core.nrs with
    | none =>
      have e1 := h.core.inv.nrs
      have e2 := h.core.inv.cws
      cases hU : q.items.map (Item.range q.hb) with
      | nil => rw [hU] at e2; rw [hn, e2] at hne; exact absurd rfl hne
      | cons r U => rw [hU, hn] at e1; cases e1
    | some n =>
      refine .nrs n hn (b4 n hn) ?_
      have hfin := finishRead_bound h hr hn
      intro x hx
      unfold NV.stores at hx
      simp only [NOp.usesProducer, Bool.and_false, Bool.false_eq_true, if_false, NV.stores', NV.finishReadStores, hr, Core.finishStores,
        List.mem_append, List.mem_singleton] at hx
      rcases hx with hx | rfl
      · simp only [Core.advStores, hn] at hx
        split at hx
        · rename_i n' w' e1 e2
          cases e1
          rw [if_pos (by intro e; rw [hn, e2, e] at hne; exact hne rfl)] at hx
          rw [hn] at hl
          rw [if_neg (c := s.core.lweb = some (n + r.size - 1)) hl] at hx
          simp only [List.mem_singleton] at hx
          exact Or.inl ⟨_, hx, hfin⟩
        · cases hx
      · exact Or.inr (Or.inl ⟨_, rfl⟩)
  · intro size block ho hfit hle
    refine .nws b1 ?_
    intro x hx
    unfold NV.stores at hx
    split at hx
    · cases hx
    · simp only [NV.stores', NV.reserveStores] at hx
      split at hx
      · split at hx
        · rename_i c' n hst
          obtain ⟨rfl, rfl, h0, _⟩ := startReserve_ok hst
          simp only [NV.passStores] at hx
          split at hx
          · cases hx
          · simp only [NV.takeStores] at hx
            split at hx
            · rename_i c1 hc1
              have hmk : s.core.makeStores (s.core.calcNextWriteStart (size + s.core.xb)) s.core.advanceFuel = [] := make_nil ho
              have hsame := advance_same ho hc1
              rw [hmk, List.nil_append, List.mem_append, List.mem_singleton] at hx
              rcases hx with hx | rfl
              · unfold Core.calcNextWriteStart at hx
                rw [if_pos hfit] at hx
                simp only [Core.grantStores, List.append_nil, List.mem_append, List.mem_singleton] at hx
                rw [hsame.1, hsame.2] at hx
                rcases hx with ((rfl | hx) | hx) | hx
                · exact Or.inl ⟨_, rfl, by have := h.core.inv.len32; omega⟩
                · exact Or.inr (Or.inr (bytesAt_mem hx))
                · exact Or.inr (Or.inr (bytesAt_mem hx))
                · split at hx
                  · rename_i e he
                    have := hle e he
                    rw [if_neg (by omega)] at hx
                    cases hx
                  · cases hx
              · exact Or.inr (Or.inl ⟨_, rfl⟩)
            · cases hx
        · cases hx
      · cases hx

/-! ### What is not detected -/

def ranges (l : List (Range × List UInt8)) : List (Nat × Nat) := l.map fun x => (x.1.start, x.1.size)

/-- Two records; the first is read; two more in the next lap; the second is being read. -/
def lap : List NOp :=
  [.registerProducer, .reserve 2596 false, .commit, .reserve 623 false, .commit, .registerConsumer, .startRead false, .finishRead,
    .reserve 676 false, .commit, .reserve 1814 false, .commit, .startRead false]

/-- C101, the headers of the next theorem. -/
theorem C101_collision_violated (n : Option Nat) :
    (crc 8).hdr 2498 (some 680) (some 3226) n = (crc 8).hdr 2498 (some 680) none n := by
  show crc32 (hdrBytes 8 2498 (some 680) (some 3226) n) = crc32 (hdrBytes 8 2498 (some 680) none n)
  have hpre : ((le32 2498 ++ optBytes 8 (some 680) ++ optBytes 8 (some 3226)).flatMap bitsOf).foldl step (BitVec.allOnes 32) =
      ((le32 2498 ++ optBytes 8 (some 680) ++ optBytes 8 none).flatMap bitsOf).foldl step (BitVec.allOnes 32) := by decide +kernel
  unfold hdrBytes crc32 crcBits
  rw [List.flatMap_append, List.foldl_append, hpre, ← List.foldl_append, ← List.flatMap_append]

/-- C101, a crash that goes unnoticed: in a file of 3400 bytes three records are unread.  The process dies inside the call that finishes reading the oldest, after the first of
its stores.  The checksum of the header matches although the header has changed; the next process opens the file without an error, reads the
oldest record again, and never finds the other two. -/
theorem C101_crash_violated : ∃ (len : Nat) (ops : List NOp) (s1 : NV), len < 2 ^ 32 ∧ (∀ op ∈ ops, op.tame = true) ∧
    let s := nvAfter (crc 8) len false false true ops
    (s.crash (crc 8) .finishRead 1).reopen (crc 8) = some s1 ∧
    ranges (s.unread (crc 8)) = [(2604, 623), (4, 676), (684, 1814)] ∧
    ranges ((s.step (crc 8) .finishRead).1.unread (crc 8)) = [(4, 676), (684, 1814)] ∧
    ranges (s1.unread (crc 8)) = [(2604, 623)] := by
  have h : let s := nvAfter (crc 8) 3400 false false true lap
      ranges (s.unread (crc 8)) = [(2604, 623), (4, 676), (684, 1814)] ∧
      ranges ((s.step (crc 8) .finishRead).1.unread (crc 8)) = [(4, 676), (684, 1814)] ∧
      ((s.crash (crc 8) .finishRead 1).reopen (crc 8)).map (fun s1 => ranges (s1.unread (crc 8))) = some [(2604, 623)] := by
    decide +kernel
  obtain ⟨s1, h1, h2⟩ := Option.map_eq_some_iff.1 h.2.2
  exact ⟨3400, lap, s1, by omega, by decide, h1, h.1, h.2.1, h2⟩

/-! ### Examples -/

/-- A record in which two bytes are changed, and one whose checksum is. -/
example :
    let ops := [.registerProducer] ++ put [1, 2] ++ put [3, 4, 5] ++ put [6]
    (∀ op ∈ ops, op.tame = true) ∧
    ((nvAfter (crc 8) 64 true true true ops).unread (crc 8)) = [(⟨8, 2⟩, [1, 2]), (⟨18, 3⟩, [3, 4, 5]), (⟨29, 1⟩, [6])] ∧
    ((nvAfter (crc 8) 64 true true true (ops ++ (burst 19 [5, 4]).map fun p => .alter p.1 p.2)).unread (crc 8)).map (·.2) = [[1, 2], [6]] ∧
    ((nvAfter (crc 8) 64 true true true (ops ++ (burst 10 [0]).map fun p => .alter p.1 p.2)).unread (crc 8)).map (·.2) = [[1, 2], [6]] := by
  decide +kernel

/-- A header with all four indexes, and the same with another write start. -/
example :
    let s := nvAfter (crc 8) 3400 false false true lap
    (s.core.nws, s.core.cws, s.core.lweb, s.core.nrs) = (2498, some 680, some 3226, some 2600) ∧
    (NV.reopen (crc 8) s).isSome = true ∧
    (NV.reopen (crc 8) { s with core := { s.core with nws := 2499 } }).isSome = false := by
  decide +kernel

/-- Finishing a read with more to read. -/
example :
    let ops := [.registerProducer] ++ put [1, 2] ++ put [3, 4, 5] ++ [.registerConsumer, .startRead false]
    let s := nvAfter (crc 8) 64 true true true ops
    s.consumer = some (.plain (some ⟨0, 10⟩)) ∧ s.core.nrs = some 0 ∧ s.core.cws = some 10 ∧ s.core.lweb = none ∧
    ((s.crash (crc 8) .finishRead 1).reopen (crc 8)).isSome = false ∧
    ((s.crash (crc 8) .finishRead 2).reopen (crc 8)).map (fun s1 => (s1.unread (crc 8)).map (·.2)) = some [[3, 4, 5]] := by
  decide +kernel

end Verif.Crc32
