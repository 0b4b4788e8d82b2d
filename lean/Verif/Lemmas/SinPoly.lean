import Mathlib.Analysis.Complex.Trigonometric
import Mathlib.Analysis.Complex.Exponential

/-!
# Taylor bounds for sine and cosine
-/

namespace Verif

/-- partial sums of the exponential series on the imaginary axis -/
theorem sincos_taylor (y : ℝ) (hy : |y| ≤ 1) (n : ℕ) (hn : 0 < n) (s c : ℝ)
    (h : ∑ m ∈ Finset.range n, ((y : ℂ) * Complex.I) ^ m / (m.factorial : ℂ) = (c : ℂ) + s * Complex.I) :
    |Real.sin y - s| ≤ |y| ^ n * (n.succ * (n.factorial * n : ℝ)⁻¹) ∧ |Real.cos y - c| ≤ |y| ^ n * (n.succ * (n.factorial * n : ℝ)⁻¹) := by
  have hnorm : ‖(y : ℂ) * Complex.I‖ = |y| := by simp
  have hb := Complex.exp_bound (x := (y : ℂ) * Complex.I) (by rw [hnorm]; exact hy) hn
  rw [h, hnorm] at hb
  have he : Complex.exp ((y : ℂ) * Complex.I) - ((c : ℂ) + s * Complex.I) = ((Real.cos y - c : ℝ) : ℂ) + ((Real.sin y - s : ℝ) : ℂ) * Complex.I := by
    rw [Complex.exp_mul_I, ← Complex.ofReal_cos, ← Complex.ofReal_sin]; push_cast; ring
  rw [he] at hb
  have key : ∀ a b : ℝ, |a| ≤ ‖(a : ℂ) + (b : ℂ) * Complex.I‖ ∧ |b| ≤ ‖(a : ℂ) + (b : ℂ) * Complex.I‖ := by
    intro a b
    have h1 := Complex.abs_re_le_norm ((a : ℂ) + (b : ℂ) * Complex.I)
    have h2 := Complex.abs_im_le_norm ((a : ℂ) + (b : ℂ) * Complex.I)
    constructor
    · simpa using h1
    · simpa using h2
  exact ⟨le_trans (key _ _).2 hb, le_trans (key _ _).1 hb⟩

theorem sin_taylor13 (y : ℝ) (hy : |y| ≤ 1) :
    |Real.sin y - (y - y ^ 3 / 6 + y ^ 5 / 120 - y ^ 7 / 5040 + y ^ 9 / 362880 - y ^ 11 / 39916800)| ≤ |y| ^ 13 * (14 / (6227020800 * 13)) := by
  refine le_trans (sincos_taylor y hy 13 (by norm_num) _ (1 - y ^ 2 / 2 + y ^ 4 / 24 - y ^ 6 / 720 + y ^ 8 / 40320 - y ^ 10 / 3628800 + y ^ 12 / 479001600) ?_).1
    (le_of_eq ?_)
  · simp only [Finset.sum_range_succ, Finset.sum_range_zero, Nat.factorial, mul_pow]
    have i2 : Complex.I ^ 2 = -1 := Complex.I_sq
    have i3 : Complex.I ^ 3 = -Complex.I := by rw [pow_succ, i2]; ring
    have i4 : Complex.I ^ 4 = 1 := by rw [pow_succ, i3]; simp
    have i5 : Complex.I ^ 5 = Complex.I := by rw [pow_succ, i4]; ring
    have i6 : Complex.I ^ 6 = -1 := by rw [pow_succ, i5]; simp
    have i7 : Complex.I ^ 7 = -Complex.I := by rw [pow_succ, i6]; ring
    have i8 : Complex.I ^ 8 = 1 := by rw [pow_succ, i7]; simp
    have i9 : Complex.I ^ 9 = Complex.I := by rw [pow_succ, i8]; ring
    have i10 : Complex.I ^ 10 = -1 := by rw [pow_succ, i9]; simp
    have i11 : Complex.I ^ 11 = -Complex.I := by rw [pow_succ, i10]; ring
    have i12 : Complex.I ^ 12 = 1 := by rw [pow_succ, i11]; simp
    rw [i2, i3, i4, i5, i6, i7, i8, i9, i10, i11, i12]
    push_cast
    ring
  · norm_num [Nat.factorial]

theorem cos_taylor12 (y : ℝ) (hy : |y| ≤ 1) :
    |Real.cos y - (1 - y ^ 2 / 2 + y ^ 4 / 24 - y ^ 6 / 720 + y ^ 8 / 40320 - y ^ 10 / 3628800)| ≤ |y| ^ 12 * (13 / (479001600 * 12)) := by
  refine le_trans (sincos_taylor y hy 12 (by norm_num) (y - y ^ 3 / 6 + y ^ 5 / 120 - y ^ 7 / 5040 + y ^ 9 / 362880 - y ^ 11 / 39916800) _ ?_).2
    (le_of_eq ?_)
  · simp only [Finset.sum_range_succ, Finset.sum_range_zero, Nat.factorial, mul_pow]
    have i2 : Complex.I ^ 2 = -1 := Complex.I_sq
    have i3 : Complex.I ^ 3 = -Complex.I := by rw [pow_succ, i2]; ring
    have i4 : Complex.I ^ 4 = 1 := by rw [pow_succ, i3]; simp
    have i5 : Complex.I ^ 5 = Complex.I := by rw [pow_succ, i4]; ring
    have i6 : Complex.I ^ 6 = -1 := by rw [pow_succ, i5]; simp
    have i7 : Complex.I ^ 7 = -Complex.I := by rw [pow_succ, i6]; ring
    have i8 : Complex.I ^ 8 = 1 := by rw [pow_succ, i7]; simp
    have i9 : Complex.I ^ 9 = Complex.I := by rw [pow_succ, i8]; ring
    have i10 : Complex.I ^ 10 = -1 := by rw [pow_succ, i9]; simp
    have i11 : Complex.I ^ 11 = -Complex.I := by rw [pow_succ, i10]; ring
    rw [i2, i3, i4, i5, i6, i7, i8, i9, i10, i11]
    push_cast
    ring
  · norm_num [Nat.factorial]

end Verif
