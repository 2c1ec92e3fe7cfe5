import Verif.Time.Model

/-
C47: rounding of times and conversion to protobuf.
-/
namespace Verif.Time

/-- A representable time. -/
def Valid (t : Int) : Prop := minSec * nano ≤ t ∧ t < (maxSec + 1) * nano

/-- `m` is a multiple of `k` seconds (as nanoseconds). -/
def Multiple (k m : Int) : Prop := ∃ q : Int, m = q * (k * nano)

theorem unix_bounds (t : Int) : unixTimestamp t * nano ≤ t ∧ t < (unixTimestamp t + 1) * nano := by
  unfold unixTimestamp nano
  omega

theorem emod_facts (u k : Int) (hk : 0 < k) : 0 ≤ u % k ∧ u % k < k ∧ ∃ q, u - u % k = q * k := by
  refine ⟨Int.emod_nonneg u (by omega), Int.emod_lt_of_pos u hk, u / k, ?_⟩
  have h2 : u % k = u - k * (u / k) := Int.emod_def u k
  rw [h2, Int.mul_comm k]
  omega

/-- C47: rounding down returns the latest multiple of the interval (in whole seconds) that is not after
the time; it fails only if that multiple is outside the representable range. -/
theorem C47_floor (t interval r : Int) (hk : 0 < wholeSeconds interval) :
    floor t interval = some r →
      Multiple (wholeSeconds interval) r ∧ r ≤ t ∧
      ∀ m, Multiple (wholeSeconds interval) m → m ≤ t → m ≤ r := by
  intro h
  unfold floor at h
  rw [if_neg (by omega)] at h
  obtain ⟨h0, h1, q, hq⟩ := emod_facts (unixTimestamp t) (wholeSeconds interval) hk
  obtain ⟨hb1, hb2⟩ := unix_bounds t
  generalize wholeSeconds interval = k at *
  generalize unixTimestamp t = u at *
  rw [hq] at h
  unfold fromUnix at h
  split at h
  · simp at h
    subst h
    refine ⟨⟨q, by rw [Int.mul_assoc]⟩, ?_, ?_⟩
    · have : q * k ≤ u := by omega
      have : q * k * nano ≤ u * nano := Int.mul_le_mul_of_nonneg_right this (by decide)
      omega
    · rintro m ⟨p, rfl⟩ hm
      have hlt : p * (k * nano) < (u + 1) * nano := by omega
      rw [← Int.mul_assoc] at hlt ⊢
      have h3 : p * k < u + 1 := Int.lt_of_mul_lt_mul_right hlt (by decide)
      have h4 : p * k < (q + 1) * k := by rw [Int.add_mul]; omega
      have h5 : p < q + 1 := Int.lt_of_mul_lt_mul_right h4 (by omega)
      have h6 : p * k ≤ q * k := Int.mul_le_mul_of_nonneg_right (by omega) (by omega)
      exact Int.mul_le_mul_of_nonneg_right h6 (by decide)
  · simp at h

/-- C47: rounding down succeeds unless the result is before the year -9999. -/
theorem C47_floor_total (t interval : Int) (ht : Valid t) (hk : 0 < wholeSeconds interval)
    (h : minSec + wholeSeconds interval ≤ unixTimestamp t) : (floor t interval).isSome = true := by
  unfold floor
  rw [if_neg (by omega)]
  obtain ⟨h0, h1, _⟩ := emod_facts (unixTimestamp t) (wholeSeconds interval) hk
  have hmax : unixTimestamp t ≤ maxSec := by
    have := (unix_bounds t).1
    have h2 := ht.2
    have : unixTimestamp t * nano < (maxSec + 1) * nano := by omega
    have := Int.lt_of_mul_lt_mul_right this (by decide)
    omega
  unfold fromUnix
  rw [if_pos (by constructor <;> omega)]
  rfl

/-- C47: rounding up a time of whole seconds (or any time not within the first second after a multiple)
returns the earliest multiple that is not before the time. -/
theorem C47_ceil_partial (t interval r : Int) (hk : 0 < wholeSeconds interval)
    (hsec : t = unixTimestamp t * nano ∨ unixTimestamp t % wholeSeconds interval ≠ 0) :
    ceil t interval = some r →
      Multiple (wholeSeconds interval) r ∧ t ≤ r ∧
      ∀ m, Multiple (wholeSeconds interval) m → t ≤ m → r ≤ m := by
  intro h
  unfold ceil at h
  rw [if_neg (by omega)] at h
  obtain ⟨h0, h1, q, hq⟩ := emod_facts (unixTimestamp t) (wholeSeconds interval) hk
  obtain ⟨hb1, hb2⟩ := unix_bounds t
  generalize hkk : wholeSeconds interval = k at *
  generalize huu : unixTimestamp t = u at *
  split at h
  · rename_i hz
    simp at h
    subst h
    rw [hz] at hq
    have hu : u = q * k := by omega
    have htt : t = u * nano := by
      rcases hsec with h | h
      · exact h
      · exact absurd hz h
    refine ⟨⟨q, ?_⟩, Int.le_refl _, fun m _ h => h⟩
    rw [htt, hu, Int.mul_assoc]
  · rename_i hz
    have hr : u + k - u % k = (q + 1) * k := by rw [Int.add_mul]; omega
    rw [hr] at h
    unfold fromUnix at h
    split at h
    · simp at h
      subst h
      refine ⟨⟨q + 1, by rw [Int.mul_assoc]⟩, ?_, ?_⟩
      · have h2 : u + 1 ≤ (q + 1) * k := by omega
        have : (u + 1) * nano ≤ (q + 1) * k * nano := Int.mul_le_mul_of_nonneg_right h2 (by decide)
        omega
      · rintro m ⟨p, rfl⟩ hm
        have hle : u * nano ≤ p * (k * nano) := by omega
        rw [← Int.mul_assoc] at hle ⊢
        have h3 : u ≤ p * k := Int.le_of_mul_le_mul_right hle (by decide)
        have hpos : u % k ≠ 0 := hz
        have h4 : q * k < p * k := by omega
        have h5 : q < p := Int.lt_of_mul_lt_mul_right h4 (by omega)
        have h6 : (q + 1) * k ≤ p * k := Int.mul_le_mul_of_nonneg_right (by omega) (by omega)
        exact Int.mul_le_mul_of_nonneg_right h6 (by decide)
    · simp at h

/-- C47, violation: half a second after a multiple, rounding up returns the time itself, which is not a
multiple (interval 5 minutes). -/
theorem C47_ceil_violated :
    let t : Int := 1700000100 * nano + 500000000
    let i : Int := 300 * nano
    ceil t i = some t ∧ ¬ Multiple (wholeSeconds i) t := by
  refine ⟨by decide, ?_⟩
  rintro ⟨q, hq⟩
  have : wholeSeconds (300 * nano) = 300 := by decide
  rw [this] at hq
  unfold nano at hq
  omega

/-- Rounding up never goes back in time and stays below the next multiple plus one second, in every
case. -/
theorem C47_ceil_bound (t interval r : Int) (hk : 0 < wholeSeconds interval) :
    ceil t interval = some r → t ≤ r ∧ r - t ≤ wholeSeconds interval * nano := by
  intro h
  by_cases hz : unixTimestamp t % wholeSeconds interval = 0
  · unfold ceil at h
    rw [if_neg (by omega), if_pos hz] at h
    simp at h
    subst h
    refine ⟨Int.le_refl _, ?_⟩
    rw [Int.sub_self]
    exact Int.mul_nonneg (by omega) (by decide)
  · obtain ⟨_, h1, _⟩ := C47_ceil_partial t interval r hk (Or.inr hz) h
    refine ⟨h1, ?_⟩
    unfold ceil at h
    rw [if_neg (by omega), if_neg hz] at h
    obtain ⟨h0, h2, q, hq⟩ := emod_facts (unixTimestamp t) (wholeSeconds interval) hk
    unfold fromUnix at h
    split at h
    · simp at h
      subst h
      have := (unix_bounds t).1
      generalize wholeSeconds interval = k at *
      generalize unixTimestamp t = u at *
      generalize u % k = e at *
      have : (u + k - e) * nano ≤ (u + k) * nano := Int.mul_le_mul_of_nonneg_right (by omega) (by decide)
      rw [Int.add_mul] at this
      omega
    · simp at h

/-- C47: a time survives the trip to protobuf and back exactly, and the nanosecond part sent is in
range. -/
theorem C47_time_roundtrip (t : Int) (ht : Valid t) :
    protoToTime (timeToProto t) = some t ∧ 0 ≤ (timeToProto t).nanos ∧ (timeToProto t).nanos < 1000000000 := by
  obtain ⟨hb1, hb2⟩ := unix_bounds t
  have hr1 : minSec ≤ unixTimestamp t := by
    have : minSec * nano < (unixTimestamp t + 1) * nano := by have := ht.1; omega
    have := Int.lt_of_mul_lt_mul_right this (by decide)
    omega
  have hr2 : unixTimestamp t ≤ maxSec := by
    have : unixTimestamp t * nano < (maxSec + 1) * nano := by have := ht.2; omega
    have := Int.lt_of_mul_lt_mul_right this (by decide)
    omega
  have hn : nano = 1000000000 := rfl
  refine ⟨?_, ?_, ?_⟩
  · have h1 : fromUnix (timeToProto t).seconds = some (unixTimestamp t * nano) := if_pos ⟨hr1, hr2⟩
    have h2 : (if (timeToProto t).nanos < 0 then 0 else (timeToProto t).nanos) = t - unixTimestamp t * nano :=
      if_neg (show ¬ t - unixTimestamp t * nano < 0 by omega)
    unfold protoToTime
    rw [h1, h2]
    simp only [Option.map_some, Option.some.injEq]
    omega
  · simp only [timeToProto]; omega
  · simp only [timeToProto]; rw [Int.add_mul] at hb2; omega

/-- C47: what a timestamp message stands for: its seconds and nanoseconds, where negative nanoseconds count as none; outside the years
-9999 to 9999 the conversion panics. -/
theorem C47_time_from (p : Proto) :
    (-377705116800 ≤ p.seconds → p.seconds ≤ 253402300799 → protoToTime p = some (p.seconds * 1000000000 + max 0 p.nanos)) ∧
    (p.seconds < -377705116800 ∨ 253402300799 < p.seconds → protoToTime p = none) := by
  constructor
  · intro h1 h2
    have : fromUnix p.seconds = some (p.seconds * 1000000000) := if_pos ⟨h1, h2⟩
    unfold protoToTime
    rw [this, Option.map_some, Option.some.injEq]
    split <;> omega
  · intro h
    have : fromUnix p.seconds = none := if_neg (fun hh => by
      obtain ⟨h1, h2⟩ := hh
      unfold minSec at h1
      unfold maxSec at h2
      omega)
    unfold protoToTime
    rw [this]
    rfl

example : protoToTime ⟨-1, -5⟩ = some (-1000000000) ∧ protoToTime ⟨3, 7⟩ = some 3000000007 ∧ protoToTime ⟨253402300800, 0⟩ = none := by decide

/-- C47: a duration, also a negative one, survives the trip to protobuf and back. -/
theorem C47_duration_roundtrip (d : Int) : protoToDur (durToProto d) = d := by
  simp only [protoToDur, durToProto, wholeSeconds, subsecNanos]
  have := Int.tmod_def d nano
  rw [this, Int.mul_comm nano]
  omega

/-- C47: the absolute and the checked conversion of a converted duration are its absolute value, and
itself or a failure if it is negative. -/
theorem C47_duration_std (d : Int) :
    protoToAbs (durToProto d) = d.natAbs ∧
    protoToChecked (durToProto d) = if d < 0 then none else some d.natAbs := by
  have key : (d < 0 → (d.tdiv nano ≤ 0 ∧ d.tmod nano ≤ 0)) ∧ (0 ≤ d → (0 ≤ d.tdiv nano ∧ 0 ≤ d.tmod nano)) ∧
      d.tdiv nano * nano + d.tmod nano = d := by
    refine ⟨fun h => ⟨?_, ?_⟩, fun h => ⟨Int.tdiv_nonneg h (by decide), Int.tmod_nonneg _ h⟩, C47_duration_roundtrip d⟩
    · have : 0 ≤ (-d).tdiv nano := Int.tdiv_nonneg (by omega) (by decide)
      rw [Int.neg_tdiv] at this; omega
    · have : 0 ≤ (-d).tmod nano := Int.tmod_nonneg _ (by omega)
      rw [Int.neg_tmod] at this; omega
  have hn : nano = 1000000000 := rfl
  have hs : (durToProto d).seconds = d.tdiv nano := rfl
  have hm : (durToProto d).nanos = d.tmod nano := rfl
  unfold protoToAbs protoToChecked
  rw [hs, hm]
  unfold protoToAbs
  rw [hs, hm]
  generalize d.tdiv nano = a at *
  generalize d.tmod nano = b at *
  rw [hn] at key
  have h1 : a.natAbs * 1000000000 + b.natAbs = d.natAbs := by omega
  refine ⟨h1, ?_⟩
  rw [h1]
  by_cases hd : d < 0
  · rw [if_pos hd]
    by_cases hs : a < 0
    · rw [if_pos hs]
    · rw [if_neg hs, if_pos (by omega)]
  · rw [if_neg hd, if_neg (by omega), if_neg (by omega)]

/-- C47: milliseconds since the epoch, rounded towards the past. -/
theorem C47_millis (t : Int) : unixTimestampMs t = t / 1000000 := by
  simp only [unixTimestampMs, unixTimestamp, nano]
  omega

example : floor (1700000123 * nano + 7) (300 * nano) = some (1700000100 * nano) ∧
    ceil (1700000123 * nano + 7) (300 * nano) = some (1700000400 * nano) ∧
    floor (-7 * nano) (5 * nano) = some (-10 * nano) ∧
    Valid (1700000123 * nano + 7) ∧ 0 < wholeSeconds (300 * nano) ∧
    durToProto (-1500000000) = ⟨-1, -500000000⟩ ∧ protoToChecked (durToProto (-500000000)) = none := by
  unfold Valid; decide

end Verif.Time
