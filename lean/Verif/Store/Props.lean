import Verif.Store.Model
/-
C78: a stored value is read back.  C79: the device identifier is stable.
-/
namespace Verif.Store

/-! ### base64 -/

theorem unsym_sym {n : Nat} (h : n < 64) : unsym (sym n) = some n := by
  unfold sym unsym
  repeat' split
  all_goals first | omega | (simp only [Option.some.injEq]; omega)

theorem sym_ne_pad {n : Nat} (h : n < 64) : sym n ≠ 61 := by
  unfold sym
  repeat' split
  all_goals omega

theorem sym_unsym {c n : Nat} (h : unsym c = some n) : sym n = c ∧ n < 64 := by
  unfold unsym at h
  unfold sym
  repeat' split at h
  all_goals first | (cases h; done) | (simp only [Option.some.injEq] at h; (repeat' split) <;> omega)

theorem b64_roundtrip : ∀ l : List Nat, (∀ b ∈ l, b < 256) → b64d (b64e l) = some l
  | [], _ => rfl
  | [a], h => by
    have ha : a < 256 := h a (by simp)
    simp only [b64e, b64d, if_true]
    rw [unsym_sym (by omega), unsym_sym (by omega)]
    dsimp only
    rw [if_pos (by omega)]
    simp only [Option.some.injEq, List.cons.injEq, and_true]
    omega
  | [a, b], h => by
    have ha : a < 256 := h a (by simp)
    have hb : b < 256 := h b (by simp)
    simp only [b64e, b64d, if_true]
    rw [if_neg (sym_ne_pad (by omega)), unsym_sym (by omega), unsym_sym (by omega),
      unsym_sym (by omega)]
    dsimp only
    rw [if_pos (by omega)]
    simp only [Option.some.injEq, List.cons.injEq, and_true]
    constructor <;> omega
  | a :: b :: c :: r, h => by
    have ha : a < 256 := h a (by simp)
    have hb : b < 256 := h b (by simp)
    have hc : c < 256 := h c (by simp)
    have ih := b64_roundtrip r (fun x hx => h x (by simp [hx]))
    simp only [b64e, b64d]
    rw [if_neg (sym_ne_pad (by omega)), unsym_sym (by omega), unsym_sym (by omega),
      unsym_sym (by omega), unsym_sym (by omega), ih]
    simp only [Option.some.injEq, List.cons.injEq, and_true]
    refine ⟨?_, ?_, ?_⟩ <;> omega

/-- Every accepted text is the encoding of what it decodes to. -/
theorem b64_canonical : ∀ (t l : List Nat), b64d t = some l → b64e l = t ∧ ∀ b ∈ l, b < 256
  | [], l, h => by
    simp only [b64d, Option.some.injEq] at h
    subst h; exact ⟨rfl, by simp⟩
  | [_], l, h => by simp [b64d] at h
  | [_, _], l, h => by simp [b64d] at h
  | [_, _, _], l, h => by simp [b64d] at h
  | w :: x :: y :: z :: r, l, h => by
    simp only [b64d] at h
    split at h
    · rename_i hz
      split at h
      · cases h
      · split at h
        · rename_i hy
          split at h
          · rename_i p q hp hq
            split at h
            · rename_i h0
              cases h
              have hp' := sym_unsym hp
              have hq' := sym_unsym hq
              constructor
              · simp only [b64e]
                rw [show (p * 4 + q / 16) / 4 = p by omega,
                  show (p * 4 + q / 16) % 4 * 16 = q by omega, hp'.1, hq'.1, hz, hy]
              · simp only [List.mem_singleton, forall_eq]; omega
            · cases h
          · cases h
        · split at h
          · rename_i p q s hp hq hs
            split at h
            · rename_i h0
              cases h
              have hp' := sym_unsym hp
              have hq' := sym_unsym hq
              have hs' := sym_unsym hs
              constructor
              · simp only [b64e]
                rw [show (p * 4 + q / 16) / 4 = p by omega,
                  show (p * 4 + q / 16) % 4 * 16 + (q % 16 * 16 + s / 4) / 16 = q by omega,
                  show (q % 16 * 16 + s / 4) % 16 * 4 = s by omega, hp'.1, hq'.1, hs'.1, hz]
              · intro b hb
                simp only [List.mem_cons, List.not_mem_nil, or_false] at hb
                omega
            · cases h
          · cases h
    · split at h
      · rename_i p q s t l' hp hq hs ht hl
        cases h
        have hp' := sym_unsym hp
        have hq' := sym_unsym hq
        have hs' := sym_unsym hs
        have ht' := sym_unsym ht
        have ih := b64_canonical r l' hl
        constructor
        · simp only [b64e]
          rw [show (p * 4 + q / 16) / 4 = p by omega,
            show (p * 4 + q / 16) % 4 * 16 + (q % 16 * 16 + s / 4) / 16 = q by omega,
            show (q % 16 * 16 + s / 4) % 16 * 4 + (s % 4 * 64 + t) / 64 = s by omega,
            show (s % 4 * 64 + t) % 64 = t by omega, hp'.1, hq'.1, hs'.1, ht'.1, ih.1]
        · intro b hb
          simp only [List.mem_cons] at hb
          rcases hb with hb | hb | hb | hb
          · omega
          · omega
          · omega
          · exact ih.2 b hb
      · cases h

/-! ### bincode -/

theorem le_length : ∀ k n, (le k n).length = k
  | 0, _ => rfl
  | k + 1, n => by simp [le, le_length k]

theorem le_lt : ∀ k n, ∀ b ∈ le k n, b < 256
  | 0, _ => by simp [le]
  | k + 1, n => by
    intro b hb
    simp only [le, List.mem_cons] at hb
    rcases hb with hb | hb
    · omega
    · exact le_lt k _ b hb

theorem unle_le : ∀ k n, n < 256 ^ k → unle (le k n) = n
  | 0, n, h => by simp at h; subst h; rfl
  | k + 1, n, h => by
    have := unle_le k (n / 256) (by rw [Nat.pow_succ] at h; omega)
    simp only [le, unle, this]
    omega

theorem takeN_append {k : Nat} {a r : List Nat} (h : a.length = k) :
    takeN k (a ++ r) = .ok a r := by
  subst h
  unfold takeN
  rw [if_pos (by simp)]
  simp

theorem encStr_lt (s : List Nat) (h : ∀ b ∈ s, b < 256) : ∀ b ∈ encStr s, b < 256 := by
  intro b hb
  simp only [encStr, List.mem_append] at hb
  rcases hb with hb | hb
  · exact le_lt _ _ b hb
  · exact h b hb

theorem enc_lt (utf8 : List Nat → Bool) (mem : Nat) :
    ∀ (t : Ty) (v : t.Val), t.Ok utf8 mem v → ∀ b ∈ enc t v, b < 256
  | .unit, _, _ => by simp [enc]
  | .str, s, h => encStr_lt s (show StrOk utf8 mem s from h).1
  | .i64, n, _ => fun b hb => le_lt 8 _ b hb
  | .pair a c, v, h => by
    intro b hb
    simp only [enc, List.mem_append] at hb
    rcases hb with hb | hb
    · exact enc_lt utf8 mem a _ h.1 b hb
    · exact enc_lt utf8 mem c _ h.2 b hb
  | .alt a c, .inl v, h => by
    intro b hb
    simp only [enc, List.mem_append] at hb
    rcases hb with hb | hb
    · exact le_lt _ _ b hb
    · exact enc_lt utf8 mem a v h b hb
  | .alt a c, .inr v, h => by
    intro b hb
    simp only [enc, List.mem_append] at hb
    rcases hb with hb | hb
    · exact le_lt _ _ b hb
    · exact enc_lt utf8 mem c v h b hb

theorem str_roundtrip (utf8 : List Nat → Bool) (mem : Nat) (s r : List Nat)
    (h : StrOk utf8 mem s) : dec utf8 mem .str (encStr s ++ r) = .ok s r := by
  obtain ⟨_, h2, h3, h4⟩ := h
  have hs : s.length < 256 ^ 8 := by omega
  simp only [dec, encStr]
  rw [List.append_assoc, takeN_append (le_length _ _)]
  simp only [Dec.bind, unle_le 8 _ hs]
  rw [if_neg (by omega), takeN_append rfl]
  simp only [h2, if_true]

theorem i64_roundtrip (utf8 : List Nat → Bool) (mem : Nat) (n : Int) (r : List Nat)
    (h : I64Ok n) : dec utf8 mem .i64 (encI64 n ++ r) = .ok n r := by
  obtain ⟨h1, h2⟩ := h
  simp only [dec, encI64]
  rw [takeN_append (le_length _ _)]
  simp only [Dec.bind]
  have e : unle (le 8 (n % 2 ^ 64).toNat) = (n % 2 ^ 64).toNat := unle_le 8 _ (by omega)
  rw [e]
  have e2 : signed (n % 2 ^ 64).toNat = n := by
    unfold signed
    split <;> omega
  rw [e2]

/-- A value that was written is read back, whatever follows it. -/
theorem bincode_roundtrip (utf8 : List Nat → Bool) (mem : Nat) :
    ∀ (t : Ty) (v : t.Val) (r : List Nat), t.Ok utf8 mem v →
      dec utf8 mem t (enc t v ++ r) = .ok v r
  | .unit, _, _, _ => rfl
  | .str, s, r, h => str_roundtrip utf8 mem s r h
  | .i64, n, r, h => i64_roundtrip utf8 mem n r h
  | .pair a c, v, r, h => by
    simp only [enc, dec]
    rw [List.append_assoc, bincode_roundtrip utf8 mem a v.1 _ h.1]
    simp only [Dec.bind]
    rw [bincode_roundtrip utf8 mem c v.2 _ h.2]
    rfl
  | .alt a c, .inl v, r, h => by
    simp only [enc, dec]
    rw [List.append_assoc, takeN_append (le_length _ _)]
    simp only [Dec.bind, unle_le 4 0 (by omega), if_true]
    rw [bincode_roundtrip utf8 mem a v _ h]
  | .alt a c, .inr v, r, h => by
    simp only [enc, dec]
    rw [List.append_assoc, takeN_append (le_length _ _)]
    simp only [Dec.bind, unle_le 4 1 (by omega)]
    rw [bincode_roundtrip utf8 mem c v _ h]
    simp

/-! ### C78 -/

/-- **C78** the text written for a value is read back as this value, by the same type. -/
theorem C78_format (utf8 : List Nat → Bool) (mem : Nat) (t : Ty) (v : t.Val) (h : t.Ok utf8 mem v) :
    ∃ bytes, b64d (b64e (enc t v)) = some bytes ∧ dec utf8 mem t bytes = .ok v [] := by
  refine ⟨enc t v, b64_roundtrip _ (enc_lt utf8 mem t v h), ?_⟩
  have := bincode_roundtrip utf8 mem t v [] h
  rwa [List.append_nil] at this

/-- **C78** an accepted base64 text is the only text of its bytes. -/
theorem C78_canonical (a b l : List Nat) (ha : b64d a = some l) (hb : b64d b = some l) : a = b := by
  rw [← (b64_canonical a l ha).1, ← (b64_canonical b l hb).1]

theorem put_same (d : Disk) (k : String) (v) : (d.put k v) k = v := by simp [Disk.put]
theorem put_other (d : Disk) {k k' : String} (v) (h : k' ≠ k) : (d.put k v) k' = d k' := by
  simp [Disk.put, h]

/-- The key an operation works on. -/
def Op.key : Op → String
  | .set _ k _ _ => k
  | .get _ k _ _ => k

/-- **C78** an operation changes no other key. -/
theorem C78_frame (utf8 : List Nat → Bool) (mem : Nat) (d : Disk) (op : Op) (k : String)
    (h : op.key ≠ k) : op.run utf8 mem d k = d k := by
  cases op with
  | set t k' v w =>
    have h' : k ≠ k' := fun e => h e.symm
    cases w <;> simp [Op.run, set, put_other _ _ h']
  | get t k' rf df =>
    have h' : k ≠ k' := fun e => h e.symm
    simp only [Op.run, get]
    split
    · rfl
    · split
      · rfl
      · exact put_other _ _ h'

/-- Operations that are allowed between a write and a read of key `k` with type `t`: anything on
other keys, failing writes without effect, and reads with the right type that the platform serves
(or whose deletion the platform refuses). -/
def Harmless (t : Ty) (k : String) : Op → Prop
  | .set _ k' _ w => k' = k → w = .lost
  | .get t' k' rf df => k' = k → (t' = t ∧ rf = false) ∨ df = true

theorem getInternal_of_text {utf8 : List Nat → Bool} {mem : Nat} {t : Ty} {v : t.Val}
    (h : t.Ok utf8 mem v) {d : Disk} {k : String} (hd : d k = some (b64e (enc t v))) :
    getInternal utf8 mem t d k false = some (.val (some v)) := by
  have hb := b64_roundtrip _ (enc_lt utf8 mem t v h)
  have hr := bincode_roundtrip utf8 mem t v [] h
  rw [List.append_nil] at hr
  simp only [getInternal, Bool.false_eq_true, if_false, hd, hb, hr]

theorem harmless_keeps {utf8 : List Nat → Bool} {mem : Nat} {t : Ty} {v : t.Val}
    (h : t.Ok utf8 mem v) {k : String} {op : Op} (ho : Harmless t k op) {d : Disk}
    (hd : d k = some (b64e (enc t v))) : op.run utf8 mem d k = some (b64e (enc t v)) := by
  by_cases hk : op.key = k
  · cases op with
    | set t' k' v' w =>
      have := ho hk
      subst this
      exact hd
    | get t' k' rf df =>
      have hk' : k' = k := hk
      subst hk'
      rcases ho rfl with ⟨rfl, rfl⟩ | rfl
      · simp only [Op.run, get, getInternal_of_text h hd]; exact hd
      · simp only [Op.run, get]
        split
        · exact hd
        · simpa using hd
  · rw [C78_frame utf8 mem d op k hk, hd]

/-- **C78 (partial)** a value whose write took effect is returned by every later read of the key
with the same type, whatever happened to other keys in between, if the platform served the reads of
this key.  Missing: reads the platform refuses once, see `C78_transient_read_violated`. -/
theorem C78_read_back_partial (utf8 : List Nat → Bool) (mem : Nat) (t : Ty) (d : Disk) (k : String)
    (v : t.Val) (h : t.Ok utf8 mem v) (w : Wr) (hw : w ≠ .lost) (ops : List Op)
    (ho : ∀ op ∈ ops, Harmless t k op) (df : Bool) :
    (get utf8 mem t (ops.foldl (Op.run utf8 mem) (set t d k v w)) k false df).2
      = .val (some v) := by
  have key : ∀ (ops : List Op) (d' : Disk), (∀ op ∈ ops, Harmless t k op) →
      d' k = some (b64e (enc t v)) → (ops.foldl (Op.run utf8 mem) d') k = some (b64e (enc t v)) := by
    intro ops
    induction ops with
    | nil => intro d' _ hd; exact hd
    | cons o os ih =>
      intro d' ho hd
      exact ih _ (fun x hx => ho x (by simp [hx])) (harmless_keeps h (ho o (by simp)) hd)
  have hd : (set t d k v w) k = some (b64e (enc t v)) := by
    cases w with
    | ok => exact put_same _ _ _
    | kept => exact put_same _ _ _
    | lost => exact absurd rfl hw
  have := key ops _ ho hd
  simp only [get, getInternal_of_text h this]

/-- **C78** a key that was never written reads as absent, and reading it changes nothing. -/
theorem C78_absent (utf8 : List Nat → Bool) (mem : Nat) (t : Ty) (d : Disk) (k : String)
    (h : d k = none) (df : Bool) : get utf8 mem t d k false df = (d, .val none) := by
  simp [get, getInternal, h]

/-- **C78** a read never invents a value: what it returns is encoded in the stored text. -/
theorem C78_only_stored (utf8 : List Nat → Bool) (mem : Nat) (t : Ty) (d : Disk) (k : String)
    (rf df : Bool) (v : t.Val) (h : (get utf8 mem t d k rf df).2 = .val (some v)) :
    rf = false ∧ ∃ txt bytes rest, d k = some txt ∧ b64d txt = some bytes ∧
      dec utf8 mem t bytes = .ok v rest := by
  unfold get at h
  split at h
  · rename_i g hg
    simp only at h
    subst h
    unfold getInternal at hg
    split at hg
    · cases hg
    · rename_i hrf
      refine ⟨by simpa using hrf, ?_⟩
      split at hg
      · cases hg
      · rename_i txt htxt
        split at hg
        · cases hg
        · rename_i bytes hb
          split at hg
          · rename_i v' rest hdec
            simp only [Option.some.injEq, Got.val.injEq] at hg
            subst hg
            exact ⟨txt, bytes, rest, htxt, hb, hdec⟩
          · cases hg
          · cases hg
  · cases h

/-- **C78 violated**: one refused read deletes the stored value for ever, although the platform
still has it. -/
theorem C78_transient_read_violated (utf8 : List Nat → Bool) (mem : Nat) (t : Ty) (d : Disk)
    (k : String) (v : t.Val) :
    (get utf8 mem t (get utf8 mem t (set t d k v .ok) k true false).1 k false false).2
      = .val none := by
  simp [get, getInternal, put_same]

/-- The text `//////////8=`: eight bytes of ones. -/
def hugeText : List Nat := b64e [255, 255, 255, 255, 255, 255, 255, 255]

/-- **C78 violated**: a damaged text that announces a long string ends the process, and it stays in
the storage, so the next process ends in the same way. -/
theorem C78_damaged_text_violated (utf8 : List Nat → Bool) (mem : Nat) (hm : mem < 2 ^ 64 - 1)
    (d : Disk) (k : String) (df : Bool) (h : d k = some hugeText) :
    get utf8 mem .str d k false df = (d, .abort) := by
  have h1 : b64d hugeText = some [255, 255, 255, 255, 255, 255, 255, 255] := by
    decide +kernel
  have h2 : dec utf8 mem .str [255, 255, 255, 255, 255, 255, 255, 255] = .big := by
    have e : takeN 8 [255, 255, 255, 255, 255, 255, 255, 255]
        = .ok [255, 255, 255, 255, 255, 255, 255, 255] [] := rfl
    have u : unle [255, 255, 255, 255, 255, 255, 255, 255] = 2 ^ 64 - 1 := rfl
    simp only [dec, e, Dec.bind, u]
    split
    · rfl
    · omega
  simp only [get, getInternal, Bool.false_eq_true, if_false, h, h1, h2]

example : ∃ bytes, b64d (b64e (enc (.pair .str (.alt .i64 .str))
      (([49, 46, 50] : List Nat), .inl (-7 : Int)))) = some bytes ∧
    dec (fun _ => true) 100 (.pair .str (.alt .i64 .str)) bytes
      = .ok (([49, 46, 50] : List Nat), .inl (-7 : Int)) [] :=
  C78_format (fun _ => true) 100 (.pair .str (.alt .i64 .str))
    (([49, 46, 50] : List Nat), .inl (-7 : Int))
    ⟨⟨by decide, rfl, by decide, by decide⟩, ⟨by decide, by decide⟩⟩

/-- The text of the string `"hi"`: `AgAAAAAAAABoaQ==`. -/
example : b64e (enc .str [104, 105])
    = "AgAAAAAAAABoaQ==".toList.map Char.toNat := by decide +kernel

end Verif.Store
