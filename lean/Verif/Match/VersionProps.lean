import Verif.Match.Version

/-
C30: comparison of versions.
-/
namespace Verif.Match

/-! ### Strings -/

theorem natcmp_swap (a b : Nat) : compare b a = (compare a b).swap := by
  simp only [Nat.compare_eq_ite_lt]
  split <;> split <;> (try split) <;> first | rfl | omega

theorem cmpStr_swap : ∀ a b : Str, cmpStr b a = (cmpStr a b).swap := by
  intro a
  induction a with
  | nil => intro b; cases b <;> rfl
  | cons x a ih =>
    intro b
    cases b with
    | nil => rfl
    | cons y b =>
      simp only [cmpStr, ih b, natcmp_swap x.toNat y.toNat]
      cases compare x.toNat y.toNat <;> rfl

theorem cmpStr_refl : ∀ a : Str, cmpStr a a = .eq := by
  intro a
  induction a with
  | nil => rfl
  | cons x a ih => simp [cmpStr, ih]

theorem char_eq_of_toNat {a b : Char} (h : a.toNat = b.toNat) : a = b := by
  apply Char.ext
  exact UInt32.toNat.inj h

theorem cmpStr_eq : ∀ {a b : Str}, cmpStr a b = .eq → a = b := by
  intro a
  induction a with
  | nil => intro b h; cases b <;> simp_all [cmpStr]
  | cons x a ih =>
    intro b h
    cases b with
    | nil => simp [cmpStr] at h
    | cons y b =>
      simp only [cmpStr] at h
      cases hc : compare x.toNat y.toNat with
      | lt => rw [hc] at h; cases h
      | gt => rw [hc] at h; cases h
      | eq =>
        rw [hc] at h
        have hxy := char_eq_of_toNat (Nat.compare_eq_eq.mp hc)
        have := ih (b := b) h
        rw [hxy, this]

theorem cmpStr_le_trans : ∀ {a b c : Str}, cmpStr a b ≠ .gt → cmpStr b c ≠ .gt → cmpStr a c ≠ .gt := by
  intro a
  induction a with
  | nil => intro b c _ _; cases c <;> simp [cmpStr]
  | cons x a ih =>
    intro b c h1 h2
    cases b with
    | nil => simp [cmpStr] at h1
    | cons y b =>
      cases c with
      | nil => simp [cmpStr] at h2
      | cons z c =>
        simp only [cmpStr, Nat.compare_eq_ite_lt] at h1 h2 ⊢
        by_cases hxy : x.toNat < y.toNat
        · by_cases hyz : z.toNat < y.toNat
          · have h3 : ¬ y.toNat < z.toNat := by omega
            simp [hyz, h3] at h2
          · have : x.toNat < z.toNat := by omega
            simp [this]
        · by_cases hyx : y.toNat < x.toNat
          · simp [hxy, hyx] at h1
          · have e : x.toNat = y.toNat := by omega
            rw [e]
            simp only [hxy, hyx, if_false, Ordering.eq_then] at h1
            by_cases hyz : y.toNat < z.toNat
            · simp [hyz]
            · by_cases hzy : z.toNat < y.toNat
              · simp [hyz, hzy] at h2
              · simp only [hyz, hzy, if_false, Ordering.eq_then] at h2 ⊢
                exact ih h1 h2

/-! ### Numbers and their digits -/

theorem digit_toNat {n : Nat} (h : n < 10) : (Char.ofNat (48 + n)).toNat = 48 + n := by
  have : n = 0 ∨ n = 1 ∨ n = 2 ∨ n = 3 ∨ n = 4 ∨ n = 5 ∨ n = 6 ∨ n = 7 ∨ n = 8 ∨ n = 9 := by omega
  rcases this with h | h | h | h | h | h | h | h | h | h <;> subst h <;> decide

theorem readDigits_append (a b : Str) : ∀ acc,
    readDigits (a ++ b) acc = (readDigits a acc).bind (readDigits b) := by
  induction a with
  | nil => intro acc; rfl
  | cons c a ih =>
    intro acc
    simp only [List.cons_append, readDigits]
    split
    · exact ih _
    · rfl

theorem readDigits_digitsF (f : Nat) : ∀ n, n ≤ f + 9 → readDigits (digitsF f n) 0 = some n := by
  induction f with
  | zero =>
    intro n h
    simp only [digitsF, readDigits, digit_toNat (show n < 10 by omega)]
    rw [if_pos (by omega)]
    congr 1; omega
  | succ f ih =>
    intro n hn
    unfold digitsF
    split
    · rename_i h
      simp only [readDigits, digit_toNat h]
      rw [if_pos (by omega)]
      congr 1; omega
    · rename_i h
      have hm : n % 10 < 10 := Nat.mod_lt _ (by decide)
      rw [readDigits_append, ih (n / 10) (by omega)]
      simp only [Option.bind_some, readDigits, digit_toNat hm]
      rw [if_pos (by omega)]
      congr 1; omega

theorem readDigits_digits (n : Nat) : readDigits (digits n) 0 = some n :=
  readDigits_digitsF n n (by omega)

theorem digits_ne_nil (n : Nat) : digits n ≠ [] := by
  unfold digits
  cases n <;> unfold digitsF <;> (try split) <;> simp

theorem parseU32_digits {n : Nat} (h : n < 2 ^ 32) : parseU32 (digits n) = some n := by
  simp only [parseU32, digits_ne_nil, if_false, readDigits_digits, h, if_true]

/-- Segments as `from_str` makes them. -/
def Seg.Valid : Seg → Prop
  | .int n => n < 2 ^ 32
  | .str s => parseU32 s = none

theorem Seg.valid_ofStr (s : Str) : (Seg.ofStr s).Valid := by
  unfold Seg.ofStr
  split
  · rename_i n h
    simp only [Seg.Valid]
    simp only [parseU32] at h
    split at h
    · cases h
    · split at h
      · split at h
        · cases h; assumption
        · cases h
      · cases h
  · rename_i h; exact h

/-! ### Segments -/

theorem Seg.cmp_swap (a b : Seg) : b.cmp a = (a.cmp b).swap := by
  cases a <;> cases b <;> simp only [Seg.cmp]
  · exact natcmp_swap _ _
  · exact cmpStr_swap _ _
  · exact cmpStr_swap _ _
  · exact cmpStr_swap _ _

theorem Seg.cmp_refl (a : Seg) : a.cmp a = .eq := by
  cases a <;> simp [Seg.cmp, cmpStr_refl]

theorem Seg.cmp_eq {a b : Seg} (ha : a.Valid) (hb : b.Valid) (h : a.cmp b = .eq) : a = b := by
  cases a <;> cases b <;> simp only [Seg.cmp] at h
  · rw [Nat.compare_eq_eq.mp h]
  · rename_i n s
    have := cmpStr_eq h
    simp only [Seg.Valid] at ha hb
    rw [← this, parseU32_digits ha] at hb
    cases hb
  · rename_i s n
    have := cmpStr_eq h
    simp only [Seg.Valid] at ha hb
    rw [this, parseU32_digits hb] at ha
    cases ha
  · rw [cmpStr_eq h]

def Seg.isInt : Seg → Bool
  | .int _ => true
  | .str _ => false

/-- Not two numbers and one string. -/
def Seg.TriOk (a b c : Seg) : Prop := a.isInt.toNat + b.isInt.toNat + c.isInt.toNat ≠ 2

theorem Seg.le_trans {a b c : Seg} (ht : Seg.TriOk a b c) (h1 : a.cmp b ≠ .gt) (h2 : b.cmp c ≠ .gt) :
    a.cmp c ≠ .gt := by
  cases a <;> cases b <;> cases c <;> simp only [Seg.cmp, Seg.TriOk, Seg.isInt, Bool.toNat_true, Bool.toNat_false] at *
  · rw [Nat.compare_ne_gt] at *; omega
  all_goals first | omega | exact cmpStr_le_trans h1 h2

/-! ### Lists of segments -/

def hd (l : List Seg) : Seg := l.headD Seg.zero

theorem cmpSegs_hd (a b : List Seg) : cmpSegs a b = ((hd a).cmp (hd b)).then (cmpSegs a.tail b.tail) := by
  cases a <;> cases b <;> simp only [cmpSegs, zeroVs, hd, List.headD_nil, List.headD_cons, List.tail_nil, List.tail_cons]
  · rfl
  all_goals (split <;> simp_all)
  all_goals (rename_i h; cases h' : Seg.cmp _ _ <;> simp_all)

theorem cmpSegs_swap_aux : ∀ n (a b : List Seg), a.length + b.length ≤ n → cmpSegs b a = (cmpSegs a b).swap := by
  intro n
  induction n with
  | zero =>
    intro a b h
    have ha : a = [] := List.length_eq_zero_iff.mp (by omega)
    have hb : b = [] := List.length_eq_zero_iff.mp (by omega)
    subst ha; subst hb; rfl
  | succ n ih =>
    intro a b h
    by_cases he : a = [] ∧ b = []
    · rw [he.1, he.2]; rfl
    · rw [cmpSegs_hd b a, cmpSegs_hd a b, Seg.cmp_swap (hd a) (hd b), ih a.tail b.tail]
      · cases (hd a).cmp (hd b) <;> rfl
      · have : 0 < a.length ∨ 0 < b.length := by
          simp only [List.length_pos_iff]
          by_cases ha : a = []
          · exact Or.inr fun hb => he ⟨ha, hb⟩
          · exact Or.inl ha
        simp only [List.length_tail]; omega

theorem cmpSegs_swap (a b : List Seg) : cmpSegs b a = (cmpSegs a b).swap :=
  cmpSegs_swap_aux _ a b (Nat.le_refl _)

theorem hd_valid {l : List Seg} (h : ∀ s ∈ l, s.Valid) : (hd l).Valid := by
  cases l with
  | nil => simp [hd, Seg.zero, Seg.Valid]
  | cons x l => exact h x List.mem_cons_self

theorem tail_valid {l : List Seg} (h : ∀ s ∈ l, s.Valid) : ∀ s ∈ l.tail, s.Valid :=
  fun s hs => h s (List.mem_of_mem_tail hs)

theorem cmpSegs_trans_aux : ∀ n (a b c : List Seg), a.length + b.length + c.length ≤ n →
    (∀ s ∈ a, s.Valid) → (∀ s ∈ b, s.Valid) → (∀ s ∈ c, s.Valid) →
    (∀ i, Seg.TriOk (a.getD i .zero) (b.getD i .zero) (c.getD i .zero)) →
    cmpSegs a b ≠ .gt → cmpSegs b c ≠ .gt → cmpSegs a c ≠ .gt := by
  intro n
  induction n with
  | zero =>
    intro a b c h _ _ _ _ _ _
    have ha : a = [] := List.length_eq_zero_iff.mp (by omega)
    have hc : c = [] := List.length_eq_zero_iff.mp (by omega)
    subst ha; subst hc; simp [cmpSegs, zeroVs]
  | succ n ih =>
    intro a b c h va vb vc ht h1 h2
    by_cases hac : a = [] ∧ c = []
    · rw [hac.1, hac.2]; simp [cmpSegs, zeroVs]
    · rw [cmpSegs_hd] at h1 h2 ⊢
      have hhd : ∀ l : List Seg, hd l = l.getD 0 .zero := by intro l; cases l <;> rfl
      have ht0 : Seg.TriOk (hd a) (hd b) (hd c) := by rw [hhd, hhd, hhd]; exact ht 0
      have g1 : (hd a).cmp (hd b) ≠ .gt := fun h => by rw [h] at h1; exact h1 rfl
      have g2 : (hd b).cmp (hd c) ≠ .gt := fun h => by rw [h] at h2; exact h2 rfl
      have g3 := Seg.le_trans ht0 g1 g2
      cases e3 : (hd a).cmp (hd c) with
      | gt => exact absurd e3 g3
      | lt => simp
      | eq =>
        have eac := Seg.cmp_eq (hd_valid va) (hd_valid vc) e3
        have eab : (hd a).cmp (hd b) = .eq := by
          have hsw := Seg.cmp_swap (hd b) (hd c)
          rw [← eac] at hsw g2
          cases hx : (hd a).cmp (hd b) with
          | eq => rfl
          | gt => exact absurd hx g1
          | lt =>
            rw [hx] at hsw
            cases hy : (hd b).cmp (hd a) <;> rw [hy] at hsw g2 <;> first | exact absurd rfl g2 | cases hsw
        have ebc : (hd b).cmp (hd c) = .eq := by
          rw [← eac, Seg.cmp_swap (hd a) (hd b), eab]; rfl
        rw [eab] at h1; rw [ebc] at h2
        have htl : ∀ (l : List Seg) i, l.tail.getD i Seg.zero = l.getD (i + 1) .zero := by
          intro l i; cases l <;> rfl
        refine ih a.tail b.tail c.tail ?_ (tail_valid va) (tail_valid vb) (tail_valid vc) ?_ h1 h2
        · have : 0 < a.length ∨ 0 < c.length := by
            simp only [List.length_pos_iff]
            by_cases ha : a = []
            · exact Or.inr fun hb => hac ⟨ha, hb⟩
            · exact Or.inl ha
          simp only [List.length_tail]; omega
        · intro i; rw [htl, htl, htl]; exact ht (i + 1)

/-- The segments without trailing zeros. -/
def strip : List Seg → List Seg
  | [] => []
  | s :: l => match strip l with
    | [] => if s = .zero then [] else [s]
    | t :: l' => s :: t :: l'

theorem strip_hd_tl (l : List Seg) : strip l = if strip l.tail = [] ∧ hd l = .zero then [] else hd l :: strip l.tail := by
  cases l with
  | nil => rfl
  | cons s l =>
    show (match strip l with
      | [] => if s = .zero then [] else [s]
      | t :: l' => s :: t :: l') = if strip l = [] ∧ s = .zero then [] else s :: strip l
    split
    · rename_i h
      by_cases hs : s = .zero
      · rw [if_pos hs, if_pos ⟨h, hs⟩]
      · rw [if_neg hs, if_neg fun x => hs x.2, h]
    · rename_i t l' h
      rw [if_neg (fun x => by rw [h] at x; exact nomatch x.1), h]

theorem cmpSegs_eq_iff_aux : ∀ n (a b : List Seg), a.length + b.length ≤ n →
    (∀ s ∈ a, s.Valid) → (∀ s ∈ b, s.Valid) → (cmpSegs a b = .eq ↔ strip a = strip b) := by
  intro n
  induction n with
  | zero =>
    intro a b h _ _
    have ha : a = [] := List.length_eq_zero_iff.mp (by omega)
    have hb : b = [] := List.length_eq_zero_iff.mp (by omega)
    subst ha; subst hb; simp [cmpSegs, zeroVs]
  | succ n ih =>
    intro a b h va vb
    by_cases he : a = [] ∧ b = []
    · rw [he.1, he.2]; simp [cmpSegs, zeroVs]
    · have hlen : a.tail.length + b.tail.length ≤ n := by
        have : 0 < a.length ∨ 0 < b.length := by
          simp only [List.length_pos_iff]
          by_cases ha : a = []
          · exact Or.inr fun hb => he ⟨ha, hb⟩
          · exact Or.inl ha
        simp only [List.length_tail]; omega
      have hi := ih a.tail b.tail hlen (tail_valid va) (tail_valid vb)
      rw [cmpSegs_hd, strip_hd_tl a, strip_hd_tl b]
      constructor
      · intro hc
        cases e : (hd a).cmp (hd b) with
        | lt => rw [e] at hc; cases hc
        | gt => rw [e] at hc; cases hc
        | eq =>
          rw [e] at hc
          rw [Seg.cmp_eq (hd_valid va) (hd_valid vb) e, hi.mp hc]
      · intro hs
        have : hd a = hd b ∧ strip a.tail = strip b.tail := by
          by_cases h1 : strip a.tail = [] ∧ hd a = .zero
          · by_cases h2 : strip b.tail = [] ∧ hd b = .zero
            · exact ⟨by rw [h1.2, h2.2], by rw [h1.1, h2.1]⟩
            · rw [if_pos h1, if_neg h2] at hs; cases hs
          · by_cases h2 : strip b.tail = [] ∧ hd b = .zero
            · rw [if_neg h1, if_pos h2] at hs; cases hs
            · rw [if_neg h1, if_neg h2] at hs
              injection hs with x y
              exact ⟨x, y⟩
        rw [this.1, Seg.cmp_refl]
        exact hi.mpr this.2

theorem segs_valid (s : Str) : ∀ x ∈ (Version.ofStr s).segments, x.Valid := by
  intro x hx
  simp only [Version.ofStr, List.mem_map] at hx
  obtain ⟨t, _, rfl⟩ := hx
  exact Seg.valid_ofStr t

/-! ### The property -/

/-- C30: swapping the versions swaps the answer, so `a < b` exactly when `b > a`. -/
theorem C30_swap (a b : Str) :
    (Version.ofStr b).cmp (Version.ofStr a) = ((Version.ofStr a).cmp (Version.ofStr b)).swap :=
  cmpSegs_swap _ _

/-- C30: two versions compare equal exactly when they have the same segments up to trailing zeros. -/
theorem C30_equal_iff (a b : Str) :
    (Version.ofStr a).cmp (Version.ofStr b) = .eq ↔
      strip (Version.ofStr a).segments = strip (Version.ofStr b).segments :=
  cmpSegs_eq_iff_aux _ _ _ (Nat.le_refl _) (segs_valid a) (segs_valid b)

/-- C30: for every pair exactly one of less, equal and greater holds, and the other three operators are
the disjunctions and negation their names say. -/
theorem C30_operators (a b : Version) :
    ((Comparator.lt.compare a b = true ∧ Comparator.eq.compare a b = false ∧ Comparator.gt.compare a b = false) ∨
     (Comparator.lt.compare a b = false ∧ Comparator.eq.compare a b = true ∧ Comparator.gt.compare a b = false) ∨
     (Comparator.lt.compare a b = false ∧ Comparator.eq.compare a b = false ∧ Comparator.gt.compare a b = true)) ∧
    Comparator.le.compare a b = (Comparator.lt.compare a b || Comparator.eq.compare a b) ∧
    Comparator.ge.compare a b = (Comparator.gt.compare a b || Comparator.eq.compare a b) ∧
    Comparator.ne.compare a b = !Comparator.eq.compare a b ∧
    Comparator.lt.compare a b = Comparator.gt.compare b a ∧
    Comparator.le.compare a b = Comparator.ge.compare b a ∧
    Comparator.eq.compare a b = Comparator.eq.compare b a := by
  simp only [Comparator.compare, Version.cmp, cmpSegs_swap a.segments b.segments]
  cases cmpSegs a.segments b.segments <;> decide

theorem takeWhile_append_stop (p : Char → Bool) (s t : Str) (c : Char) (hs : ∀ x ∈ s, p x = true) (hc : p c = false) :
    (s ++ c :: t).takeWhile p = s ∧ (s ++ c :: t).dropWhile p = c :: t := by
  induction s with
  | nil => simp [hc]
  | cons x s ih =>
    have := ih fun y hy => hs y (List.mem_cons_of_mem _ hy)
    simp [hs x List.mem_cons_self, this]

theorem splitOnce_none {c : Char} {s : Str} (h : c ∉ s) : splitOnce c s = (s, none) := by
  have : s.dropWhile (· ≠ c) = [] := by
    induction s with
    | nil => rfl
    | cons x s ih =>
      simp only [List.mem_cons, not_or] at h
      simp [Ne.symm h.1]
      simpa using ih h.2
  simp only [splitOnce, this]

theorem splitOnce_some {c : Char} {s t : Str} (h : c ∉ s) : splitOnce c (s ++ c :: t) = (s, some t) := by
  have hh := takeWhile_append_stop (· ≠ c) s t c
    (fun x hx => by simp only [ne_eq, decide_eq_true_eq]; intro he; exact h (he ▸ hx)) (by simp)
  simp only [splitOnce, hh.1, hh.2]

theorem splitOnce_fst_subset {c : Char} (s : Str) : ∀ x ∈ (splitOnce c s).1, x ∈ s := by
  intro x hx
  unfold splitOnce at hx
  split at hx
  · exact hx
  · exact (List.takeWhile_sublist _).subset hx

/-- C30: what follows the first `-` or `+` does not matter. -/
theorem C30_suffix_ignored (s t : Str) (c : Char) (hc : c = '-' ∨ c = '+') (h1 : '-' ∉ s) (h2 : '+' ∉ s) :
    (Version.ofStr (s ++ c :: t)).segments = (Version.ofStr s).segments ∧
    ∀ v, (Version.ofStr (s ++ c :: t)).cmp v = (Version.ofStr s).cmp v := by
  have key : (Version.ofStr (s ++ c :: t)).segments = (Version.ofStr s).segments := by
    have hs : (Version.ofStr s).segments = (splitDot s).map Seg.ofStr := by
      simp only [Version.ofStr, splitOnce_none h1, splitOnce_none h2]
    rw [hs]
    rcases hc with rfl | rfl
    · simp only [Version.ofStr, splitOnce_some h1, splitOnce_none h2]
    · simp only [Version.ofStr]
      by_cases ht : '-' ∈ t
      · obtain ⟨t1, t2, rfl, ht1⟩ := List.eq_append_cons_of_mem ht
        have : s ++ '+' :: (t1 ++ '-' :: t2) = (s ++ '+' :: t1) ++ '-' :: t2 := by simp
        rw [this, splitOnce_some (by simp [h1, ht1])]
        simp only [splitOnce_some h2]
      · have hn : splitOnce '-' (s ++ '+' :: t) = (s ++ '+' :: t, none) := splitOnce_none (by simp [h1, ht])
        simp only [hn, splitOnce_some h2]
  exact ⟨key, fun v => by simp only [Version.cmp, key]⟩

theorem splitDot_append (s t : Str) : splitDot (s ++ '.' :: t) = splitDot s ++ splitDot t := by
  induction s with
  | nil => simp [splitDot]
  | cons c s ih =>
    simp only [List.cons_append, splitDot]
    by_cases hc : c = '.'
    · simp [hc, ih]
    · simp only [hc, if_false, ih]
      cases h : splitDot s with
      | nil =>
        exfalso
        cases s with
        | nil => simp [splitDot] at h
        | cons d s => simp only [splitDot] at h; split at h <;> (try cases h) ; split at h <;> cases h
      | cons x l => rfl

theorem strip_append_zero (l : List Seg) : strip (l ++ [.zero]) = strip l := by
  induction l with
  | nil => rfl
  | cons s l ih => simp only [List.cons_append, strip, ih]

theorem cmpSegs_append_zero (l m : List Seg) : cmpSegs (l ++ [.zero]) m = cmpSegs l m := by
  induction l generalizing m with
  | nil =>
    rw [cmpSegs_hd, cmpSegs_hd []]; rfl
  | cons s l ih =>
    rw [cmpSegs_hd, cmpSegs_hd (s :: l)]
    simp only [List.cons_append, List.tail_cons, ih]; rfl

/-- C30: appending a zero segment changes no comparison. -/
theorem C30_trailing_zero (s : Str) (h1 : '-' ∉ s) (h2 : '+' ∉ s) (v : Version) :
    (Version.ofStr (s ++ ['.', '0'])).cmp v = (Version.ofStr s).cmp v := by
  have : (Version.ofStr (s ++ ['.', '0'])).segments = (Version.ofStr s).segments ++ [.zero] := by
    simp only [Version.ofStr, splitOnce_none h1, splitOnce_none h2,
      splitOnce_none (c := '-') (s := s ++ ['.', '0']) (by simp [h1]),
      splitOnce_none (c := '+') (s := s ++ ['.', '0']) (by simp [h2])]
    rw [splitDot_append, List.map_append]
    rfl
  simp only [Version.cmp, this, cmpSegs_append_zero]

/-- C30 (part): the comparison is transitive on versions that nowhere mix two numbers with one string at
the same position (a missing segment counts as the number 0).  Missing: transitivity for all versions,
which fails, see `C30_trans_violated`. -/
theorem C30_trans_partial (a b c : Str)
    (hmix : ∀ i, Seg.TriOk ((Version.ofStr a).segments.getD i .zero) ((Version.ofStr b).segments.getD i .zero)
      ((Version.ofStr c).segments.getD i .zero))
    (h1 : Comparator.le.compare (Version.ofStr a) (Version.ofStr b) = true)
    (h2 : Comparator.le.compare (Version.ofStr b) (Version.ofStr c) = true) :
    Comparator.le.compare (Version.ofStr a) (Version.ofStr c) = true := by
  have conv : ∀ x y : Version, Comparator.le.compare x y = true ↔ x.cmp y ≠ .gt := by
    intro x y
    simp only [Comparator.compare]
    cases x.cmp y <;> decide
  rw [conv] at h1 h2 ⊢
  exact cmpSegs_trans_aux _ _ _ _ (Nat.le_refl _) (segs_valid a) (segs_valid b) (segs_valid c) hmix h1 h2

/-- C30: in particular versions made of numbers only are totally ordered. -/
theorem C30_numeric (a b c : Str)
    (ha : ∀ s ∈ (Version.ofStr a).segments, s.isInt = true) (hb : ∀ s ∈ (Version.ofStr b).segments, s.isInt = true)
    (hc : ∀ s ∈ (Version.ofStr c).segments, s.isInt = true)
    (h1 : Comparator.le.compare (Version.ofStr a) (Version.ofStr b) = true)
    (h2 : Comparator.le.compare (Version.ofStr b) (Version.ofStr c) = true) :
    Comparator.le.compare (Version.ofStr a) (Version.ofStr c) = true := by
  refine C30_trans_partial a b c ?_ h1 h2
  have : ∀ (l : List Seg) i, (∀ s ∈ l, s.isInt = true) → (l.getD i Seg.zero).isInt = true := by
    intro l i hl
    rw [List.getD_eq_getElem?_getD]
    cases h : l[i]? with
    | none => rfl
    | some x => exact hl x (List.mem_of_getElem? h)
  intro i
  simp only [Seg.TriOk, this _ i ha, this _ i hb, this _ i hc]; decide

/-- C30, violation: 9 < 10, 10 < 1a and 1a < 9. -/
theorem C30_trans_violated :
    Comparator.lt.compare (Version.ofStr "9".toList) (Version.ofStr "10".toList) = true ∧
    Comparator.lt.compare (Version.ofStr "10".toList) (Version.ofStr "1a".toList) = true ∧
    Comparator.lt.compare (Version.ofStr "1a".toList) (Version.ofStr "9".toList) = true := by
  decide

example :
    (Version.ofStr "1.02.foo-rc1+7".toList).segments = [.int 1, .int 2, .str "foo".toList] ∧
    (Version.ofStr "1.2".toList).cmp (Version.ofStr "1.2.0.0-beta".toList) = .eq ∧
    (Version.ofStr "1.2.10".toList).cmp (Version.ofStr "1.2.4-alpha".toList) = .gt := by
  decide

end Verif.Match
