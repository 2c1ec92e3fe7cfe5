import Verif.Flags.Model

/-
C48: feature flags enable the configured fraction.
-/
namespace Verif.Flags

/-- How many of the random outcomes `0, …, total - 1` enable the flag. -/
def enabledCount (f : Flags) (name : String) (d : Bool) (total : Nat) : Nat :=
  ((List.range total).filter (featureEnabled f name d)).length

theorem count_lt (n m : Nat) : ((List.range m).filter (fun r => decide (r < n))).length = min n m := by
  induction m with
  | zero => simp
  | succ m ih =>
    rw [List.range_succ, List.filter_append, List.length_append, ih]
    by_cases h : m < n
    · simp [h]; omega
    · simp [h]; omega

theorem count_mod (M n : Nat) (hn : n ≤ M) (k j : Nat) (hj : j ≤ M) :
    ((List.range (M * k + j)).filter (fun r => decide (r % M < n))).length = n * k + min n j := by
  induction k generalizing j with
  | zero =>
    simp only [Nat.mul_zero, Nat.zero_add]
    rw [← count_lt n j]
    congr 1
    apply List.filter_congr
    intro r hr
    rw [List.mem_range] at hr
    rw [Nat.mod_eq_of_lt (Nat.lt_of_lt_of_le hr hj)]
  | succ k ih =>
    have h1 : M * (k + 1) + j = (M * k + M) + j := by rw [Nat.mul_succ]
    rw [h1, List.range_add, List.filter_append, List.length_append, ih M (Nat.le_refl _)]
    rw [List.filter_map, List.length_map]
    have h2 : ((List.range j).filter ((fun r => decide (r % M < n)) ∘ fun x => M * k + M + x)).length
        = min n j := by
      rw [← count_lt n j]
      congr 1
      apply List.filter_congr
      intro r hr
      rw [List.mem_range] at hr
      show decide ((M * k + M + r) % M < n) = _
      have : M * k + M + r = r + M * (k + 1) := by rw [Nat.mul_succ]; omega
      rw [this, Nat.add_mul_mod_self_left, Nat.mod_eq_of_lt (Nat.lt_of_lt_of_le hr hj)]
    rw [h2, Nat.min_eq_left hn, Nat.mul_succ]

/-- C48: a flag with the integer value `n` is enabled for exactly `n` of every 10000 consecutive random
numbers (for all of them if `n` is 10000 or more), and for exactly that share of all `10000·k + j` numbers
up to the incomplete last block; with `k = 2^64 / 10000` and `j = 1616` this is the whole range of the
generator. -/
theorem C48_fraction (f : Flags) (name : String) (d : Bool) (n : Nat) (h : f.lookup name = some (.int n))
    (k j : Nat) (hj : j ≤ 10000) :
    enabledCount f name d (10000 * k + j) = min n 10000 * k + min (min n 10000) j := by
  unfold enabledCount
  by_cases hn : n ≤ 10000
  · rw [Nat.min_eq_left hn, ← count_mod 10000 n hn k j hj]
    congr 1
    apply List.filter_congr
    intro r _
    simp only [featureEnabled, h]
    by_cases h0 : n = 0
    · simp [h0]
    · by_cases h1 : n ≤ 9999
      · simp [h0, h1]
      · have : n = 10000 := by omega
        subst this
        simp [Nat.mod_lt]
  · have : ((List.range (10000 * k + j)).filter (featureEnabled f name d)) = List.range (10000 * k + j) := by
      rw [List.filter_eq_self]
      intro r _
      simp only [featureEnabled, h]
      rw [if_neg (by omega), if_neg (by omega)]
    rw [this, List.length_range, Nat.min_eq_right (show 10000 ≤ n by omega), Nat.min_eq_right hj]

/-- C48: 0 never enables, 10000 or more always, and a flag that is missing or no integer gives the
default. -/
theorem C48_edges (f : Flags) (name : String) (d : Bool) (r : Nat) :
    (f.lookup name = some (.int 0) → featureEnabled f name d r = false) ∧
    (∀ n, 10000 ≤ n → f.lookup name = some (.int n) → featureEnabled f name d r = true) ∧
    ((∀ n, f.lookup name ≠ some (.int n)) → featureEnabled f name d r = d) := by
  refine ⟨fun h => by simp [featureEnabled, h], fun n hn h => ?_, fun h => ?_⟩
  · simp only [featureEnabled, h]
    rw [if_neg (by omega), if_neg (by omega)]
  · unfold featureEnabled
    split
    · rename_i i hi; exact absurd hi (h i)
    · rfl

/-- C48: the typed getters return the value exactly when it has the type asked for. -/
theorem C48_getters (f : Flags) (name : String) :
    (∀ b d, f.lookup name = some (.bool b) → getBool f name d = b) ∧
    (∀ n d, f.lookup name = some (.int n) → getInteger f name d = n) ∧
    (∀ s d, f.lookup name = some (.str s) → getString f name d = s) ∧
    (∀ d, (∀ b, f.lookup name ≠ some (.bool b)) → getBool f name d = d) ∧
    (∀ d, (∀ b, f.lookup name ≠ some (.int b)) → getInteger f name d = d) ∧
    (∀ d, (∀ b, f.lookup name ≠ some (.str b)) → getString f name d = d) := by
  refine ⟨fun b d h => by simp [getBool, h], fun b d h => by simp [getInteger, h],
    fun b d h => by simp [getString, h], fun d h => ?_, fun d h => ?_, fun d h => ?_⟩
  · unfold getBool; split
    · rename_i b hb; exact absurd hb (h b)
    · rfl
  · unfold getInteger; split
    · rename_i b hb; exact absurd hb (h b)
    · rfl
  · unfold getString; split
    · rename_i b hb; exact absurd hb (h b)
    · rfl

example : let f : Flags := [("a", .int 2500), ("b", .bool true)]
    f.lookup "a" = some (.int 2500) ∧ featureEnabled f "a" false 2499 = true ∧
    featureEnabled f "a" true 12500 = false ∧ featureEnabled f "b" true 9999 = true := by decide

end Verif.Flags
