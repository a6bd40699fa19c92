import Verif.Props.GenBubble
import Mathlib.Algebra.Order.Field.Power

/-!
# C84: the number of the bubble of a point, in single precision
-/
namespace Verif
namespace Gen
variable {K : Type} [Field K] [LinearOrder K] [IsStrictOrderedRing K] [FloorRing K]

/-! ### Single precision -/

theorem rne_int (k : Int) : rne (k : K) = k := by
  simp [rne]

theorem rne_err (q : K) : |(rne q : K) - q| ≤ 1 / 2 := by
  have h1 := Int.floor_le q
  have h2 := Int.lt_floor_add_one q
  unfold rne
  rw [abs_le]
  split_ifs <;> push_cast <;> constructor <;> linarith

theorem fl24_err (x : K) : |fl24 x - x| ≤ |x| / 2 ^ 24 := by
  rcases eq_or_ne x 0 with rfl | hx
  · have : rne (0 : K) = 0 := by simpa using rne_int (K := K) 0
    simp [fl24, this]
  · simp only [fl24]
    have hu : (0 : K) < 2 ^ (Int.log 2 |x| - 23) := by positivity
    have hle : (2 : K) ^ Int.log 2 |x| ≤ |x| := by
      have := Int.zpow_log_le_self (b := 2) (r := |x|) (by norm_num) (abs_pos.mpr hx)
      exact_mod_cast this
    have h2 : (2 : K) ^ (Int.log 2 |x| - 23) = 2 ^ Int.log 2 |x| / 2 ^ 23 := by
      rw [zpow_sub₀ (by norm_num)]
      norm_cast
    have h3 : (rne (x / 2 ^ (Int.log 2 |x| - 23)) : K) * 2 ^ (Int.log 2 |x| - 23) - x =
        ((rne (x / 2 ^ (Int.log 2 |x| - 23)) : K) - x / 2 ^ (Int.log 2 |x| - 23)) * 2 ^ (Int.log 2 |x| - 23) := by
      rw [sub_mul, div_mul_cancel₀ _ hu.ne']
    rw [h3, abs_mul, abs_of_pos hu]
    calc _ ≤ 1 / 2 * (2 : K) ^ (Int.log 2 |x| - 23) := mul_le_mul_of_nonneg_right (rne_err _) hu.le
      _ = 2 ^ Int.log 2 |x| / 2 ^ 24 := by rw [h2]; ring
      _ ≤ |x| / 2 ^ 24 := div_le_div_of_nonneg_right hle (by positivity)

/-- Numbers with at most 24 bits are not rounded. -/
theorem fl24_exact (k : Int) (j : Int) (hk : |k| < 2 ^ 24) : fl24 ((k : K) * 2 ^ j) = (k : K) * 2 ^ j := by
  rcases eq_or_ne k 0 with rfl | hk0
  · have : rne (0 : K) = 0 := by simpa using rne_int (K := K) 0
    simp [fl24, this]
  · have hpos : 0 < |(k : K) * 2 ^ j| := abs_pos.mpr (mul_ne_zero (Int.cast_ne_zero.mpr hk0) (by positivity))
    have hlog : Int.log 2 |(k : K) * 2 ^ j| < 24 + j := by
      rw [← Int.lt_zpow_iff_log_lt (by norm_num) hpos, abs_mul, abs_of_pos (show (0 : K) < 2 ^ j by positivity)]
      push_cast
      rw [zpow_add₀ (by norm_num)]
      refine mul_lt_mul_of_pos_right ?_ (by positivity)
      rw [← Int.cast_abs]
      exact_mod_cast hk
    obtain ⟨t, ht⟩ : ∃ t : Nat, j - (Int.log 2 |(k : K) * 2 ^ j| - 23) = t := ⟨(j - (Int.log 2 |(k : K) * 2 ^ j| - 23)).toNat, by omega⟩
    simp only [fl24]
    have hq : (k : K) * 2 ^ j / 2 ^ (Int.log 2 |(k : K) * 2 ^ j| - 23) = ((k * 2 ^ t : Int) : K) := by
      rw [mul_div_assoc, ← zpow_sub₀ (by norm_num), ht]
      push_cast
      rw [zpow_natCast]
    rw [hq, rne_int, ← hq, div_mul_cancel₀ _ (by positivity)]

theorem fl24_nat (k : Nat) (hk : k ≤ 2 ^ 24) : fl24 (k : K) = k := by
  rcases Nat.lt_or_eq_of_le hk with h | rfl
  · have := fl24_exact (K := K) k 0 (by rw [abs_of_nonneg (Int.natCast_nonneg k)]; exact_mod_cast h)
    simpa using this
  · have := fl24_exact (K := K) 1 24 (by norm_num)
    rw [Int.cast_one, one_mul] at this
    have e : (((2 ^ 24 : Nat)) : K) = 2 ^ (24 : Int) := by norm_cast
    rw [e]
    exact this

/-- `2^24 + 1` is rounded to `2^24`. -/
theorem fl24_tie : fl24 (((2 ^ 24 + 1 : Nat)) : K) = 2 ^ 24 := by
  have hpos : 0 < |(((2 ^ 24 + 1 : Nat)) : K)| := abs_pos.mpr (by positivity)
  have hlog : Int.log 2 |(((2 ^ 24 + 1 : Nat)) : K)| = 24 := by
    apply le_antisymm
    · rw [← Int.lt_add_one_iff, ← Int.lt_zpow_iff_log_lt (by norm_num) hpos, abs_of_pos (by positivity)]
      norm_cast
    · rw [← Int.zpow_le_iff_le_log (by norm_num) hpos, abs_of_pos (by positivity)]
      norm_cast
  simp only [fl24, hlog]
  have hq : ((((2 ^ 24 + 1 : Nat)) : K)) / 2 ^ ((24 : Int) - 23) = 8388608 + 1 / 2 := by norm_num
  have hf : ⌊(8388608 + 1 / 2 : K)⌋ = 8388608 := by
    rw [Int.floor_eq_iff]; norm_num
  have hr : rne (8388608 + 1 / 2 : K) = 8388608 := by
    simp only [rne, hf]
    norm_num
    decide
  rw [hq, hr]
  norm_num

/-! ### The number of the bubble -/

/-- **C84.** For up to `2^23` points every point belongs to one of the bubbles. -/
theorem C84_partial (fl : K → K) (herr : ∀ x, |fl x - x| ≤ |x| / 2 ^ 24) (hex : ∀ k : Nat, k ≤ 2 ^ 24 → fl k = k)
    (m n i : Nat) (hm : 1 ≤ m) (hm2 : m ≤ 2 ^ 24) (hn : n ≤ 2 ^ 23) (hi : i < n) : centerIndex fl m n i < m := by
  have hn0 : (0 : K) < n := by exact_mod_cast (by omega : 0 < n)
  have hm0 : (0 : K) < m := by exact_mod_cast hm
  have hi0 : (0 : K) ≤ i := by positivity
  rw [centerIndex, hex m hm2, hex n (by omega), hex i (by omega)]
  have hq : 0 < (m : K) / n := div_pos hm0 hn0
  have e1 := abs_le.mp (herr (m / n))
  rw [abs_of_pos hq] at e1
  have hfq0 : 0 ≤ fl (m / n) := by
    have : (m : K) / n / 2 ^ 24 ≤ m / n := div_le_self hq.le (by norm_num)
    linarith [e1.1]
  have hfq : fl (m / n) ≤ m / n * (1 + 1 / 2 ^ 24) := by linarith [e1.2]
  have hx0 : 0 ≤ (i : K) * fl (m / n) := mul_nonneg hi0 hfq0
  have e2 := abs_le.mp (herr (i * fl (m / n)))
  rw [abs_of_nonneg hx0] at e2
  have hin : (i : K) ≤ n - 1 := by
    have : ((i + 1 : Nat) : K) ≤ n := by exact_mod_cast hi
    push_cast at this
    linarith
  have hx1 : (i : K) * fl (m / n) ≤ (n - 1) * (m / n * (1 + 1 / 2 ^ 24)) :=
    mul_le_mul hin hfq hfq0 (by linarith)
  have hinv : 1 / 2 ^ 23 ≤ 1 / (n : K) := by
    apply one_div_le_one_div_of_le hn0
    exact_mod_cast hn
  have hx2 : ((n : K) - 1) * (m / n * (1 + 1 / 2 ^ 24)) = m * (1 - 1 / n) * (1 + 1 / 2 ^ 24) := by
    field_simp
  have hx3 : (m : K) * (1 - 1 / n) * (1 + 1 / 2 ^ 24) ≤ m * (1 - 1 / 2 ^ 23) * (1 + 1 / 2 ^ 24) := by
    apply mul_le_mul_of_nonneg_right _ (by positivity)
    apply mul_le_mul_of_nonneg_left _ hm0.le
    linarith
  have hfl : fl (i * fl (m / n)) < m := by
    have h1 : fl (i * fl (m / n)) ≤ i * fl (m / n) * (1 + 1 / 2 ^ 24) := by linarith [e2.2]
    have h2 : (i : K) * fl (m / n) * (1 + 1 / 2 ^ 24) ≤ m * (1 - 1 / 2 ^ 23) * (1 + 1 / 2 ^ 24) * (1 + 1 / 2 ^ 24) :=
      mul_le_mul_of_nonneg_right (by rw [← hx2] at hx3; linarith) (by positivity)
    have h3 : (m : K) * (1 - 1 / 2 ^ 23) * (1 + 1 / 2 ^ 24) * (1 + 1 / 2 ^ 24) < m := by
      have : (m : K) * ((1 - 1 / 2 ^ 23) * (1 + 1 / 2 ^ 24) * (1 + 1 / 2 ^ 24)) < m * 1 :=
        mul_lt_mul_of_pos_left (by norm_num) hm0
      linarith
    linarith
  have hflr : ⌊fl (i * fl (m / n))⌋ < (m : Int) := by
    rw [Int.floor_lt]
    exact_mod_cast hfl
  omega

/-- Up to `2^23` points in single precision. -/
theorem C84_single_partial (m n i : Nat) (hm : 1 ≤ m) (hm2 : m ≤ 2 ^ 24) (hn : n ≤ 2 ^ 23) (hi : i < n) :
    centerIndex (fl24 : K → K) m n i < m := C84_partial fl24 fl24_err fl24_nat m n i hm hm2 hn hi

/-- **C84 is violated.** With `2^24 + 1` points the last point belongs to a bubble that does not exist, for any number of
bubbles. -/
theorem C84_violated (m : Nat) (hm : m ≤ 2 ^ 24) : centerIndex (fl24 : K → K) m (2 ^ 24 + 1) (2 ^ 24) = m := by
  rw [centerIndex, fl24_tie, fl24_nat m hm, fl24_nat (2 ^ 24) (le_refl _)]
  have h : fl24 ((m : K) / 2 ^ 24) = (m : K) / 2 ^ 24 := by
    have e : (m : K) / 2 ^ 24 = (m : K) * 2 ^ (-24 : Int) := by
      rw [zpow_neg, div_eq_mul_inv]; norm_cast
    rcases Nat.lt_or_eq_of_le hm with h | h
    · rw [e]
      have := fl24_exact (K := K) m (-24) (by rw [abs_of_nonneg (Int.natCast_nonneg m)]; exact_mod_cast h)
      exact_mod_cast this
    · have h1 : (m : K) / 2 ^ 24 = ((1 : Nat) : K) := by
        rw [h]; norm_num
      rw [h1]
      exact fl24_nat 1 (by norm_num)
  rw [h]
  have h2 : (((2 ^ 24 : Nat)) : K) * (m / 2 ^ 24) = m := by
    rw [Nat.cast_pow, Nat.cast_ofNat]
    exact mul_div_cancel₀ _ (pow_ne_zero 24 (two_ne_zero (α := K)))
  rw [h2, fl24_nat m hm, Int.floor_natCast, Int.toNat_natCast]

/-- Ten points and three bubbles: the bubbles have four, three and three points. -/
example : ∀ i < 10, centerIndex (fl24 : ℚ → ℚ) 3 10 i < 3 :=
  fun i hi => C84_single_partial 3 10 i (by norm_num) (by norm_num) (by norm_num) hi

end Gen
end Verif
