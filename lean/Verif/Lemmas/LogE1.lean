import Verif.Lemmas.LogD4

/-!
# The double base-2 logarithm: splitting `r` by clearing the low 32 bits
-/

namespace Verif
open Fmt Real

theorem mask_lo32 {t : ℕ} (h : t < 2 ^ 64) : t &&& (2 ^ 64 - 2 ^ 32) = t / 2 ^ 32 * 2 ^ 32 := by
  have e : (2 ^ 64 - 2 ^ 32 : ℕ) = 2 ^ 32 * (2 ^ 32 - 1) + 0 := by decide
  have e2 : t = 2 ^ 32 * (t / 2 ^ 32) + t % 2 ^ 32 := by omega
  conv_lhs => rw [e, e2]
  rw [CC.and_split 32 _ _ _ _ (by omega) (by norm_num), Nat.and_two_pow_sub_one_eq_mod, Nat.and_zero]
  omega

theorem split32 {r : ℕ} (hr : binary64.Finite r) :
    let rh := r &&& (2 ^ 64 - 2 ^ 32)
    binary64.Finite rh ∧ |binary64.val rh - binary64.val r| ≤ |binary64.val r| / 2 ^ 20 + 2 ^ 32 * eta ∧
      (1 / 2 ^ 60 ≤ |binary64.val r| → ∃ n E : ℤ, binary64.val rh = n * (2 : ℝ) ^ E ∧ |n| < 2 ^ 21 ∧ -1000 ≤ E) := by
  have hf := (binary64.finite_iff r).1 hr
  have hinf : binary64.infMag = 2047 * 2 ^ 52 := by decide +kernel
  have hv : r < 2 ^ 64 := hf.1
  have hm : r % 2 ^ 63 < 2047 * 2 ^ 52 := by have := hf.2; rw [hinf] at this; exact this
  dsimp only
  rw [mask_lo32 hv]
  obtain ⟨m, hmm⟩ : ∃ m, r % 2 ^ 63 = m := ⟨_, rfl⟩
  have mag_r : binary64.mag r = m := hmm
  have mag_h : binary64.mag (r / 2 ^ 32 * 2 ^ 32) = m / 2 ^ 32 * 2 ^ 32 := by
    show (r / 2 ^ 32 * 2 ^ 32) % 2 ^ 63 = _; omega
  have sgn_h : binary64.sgn (r / 2 ^ 32 * 2 ^ 32) = binary64.sgn r := by
    show decide _ = decide _; congr 1; rw [eq_iff_iff]; show 2 ^ 63 ≤ _ ↔ 2 ^ 63 ≤ _; omega
  rw [hmm] at hm
  have eeta : eta = binary64.minSub := rfl
  have hms := binary64.minSub_pos
  refine ⟨(binary64.finite_iff _).2 ⟨by show _ < 2 ^ 64; omega, by rw [mag_h, hinf]; omega⟩, ?_⟩
  rw [binary64.val_eq, binary64.val_eq, sgn_h, mag_r, mag_h, ← mul_sub, ← sub_mul, abs_mul, abs_mul, abs_mul, abs_mul, abs_sg, one_mul, one_mul, abs_of_pos hms, eeta]
  by_cases he : m < 2 ^ 52
  · have u1 : binary64.umag m = m := by
      have := binary64.umag_of (k := 0) (s := m) (by show m < 2 ^ 53; omega) (Or.inl rfl)
      simpa using this
    have u2 : binary64.umag (m / 2 ^ 32 * 2 ^ 32) = m / 2 ^ 32 * 2 ^ 32 := by
      have := binary64.umag_of (k := 0) (s := m / 2 ^ 32 * 2 ^ 32) (by show _ < 2 ^ 53; omega) (Or.inl rfl)
      simpa using this
    rw [u1, u2]
    constructor
    · have h1 : |((m / 2 ^ 32 * 2 ^ 32 : ℕ) : ℝ) - m| ≤ 2 ^ 32 := by
        have a1 : ((m / 2 ^ 32 * 2 ^ 32 : ℕ) : ℝ) ≤ m := by exact_mod_cast (show m / 2 ^ 32 * 2 ^ 32 ≤ m by omega)
        have a2 : (m : ℝ) ≤ ((m / 2 ^ 32 * 2 ^ 32 : ℕ) : ℝ) + 2 ^ 32 := by exact_mod_cast (show m ≤ m / 2 ^ 32 * 2 ^ 32 + 2 ^ 32 by omega)
        rw [abs_le]; constructor <;> linarith
      have h2 := mul_le_mul_of_nonneg_right h1 hms.le
      have h3 : 0 ≤ |(m : ℝ)| * binary64.minSub / 2 ^ 20 := by positivity
      linarith
    · intro hb
      exfalso
      have h1 : |(m : ℝ)| ≤ 2 ^ 52 := by rw [abs_of_nonneg (by positivity)]; exact_mod_cast he.le
      have h2 := mul_le_mul_of_nonneg_right h1 hms.le
      have h3 : binary64.minSub ≤ 1 / 2 ^ 200 := eta_le
      have h4 := mul_le_mul_of_nonneg_left h3 (show (0 : ℝ) ≤ 2 ^ 52 by positivity)
      have h5 := hb.trans (h2.trans h4)
      norm_num at h5
  · obtain ⟨e, f, hf, hef, he0⟩ : ∃ e f, f < 2 ^ 52 ∧ m = e * 2 ^ 52 + (2 ^ 52 + f) ∧ e ≤ 2045 := ⟨m / 2 ^ 52 - 1, m % 2 ^ 52, by omega, by omega, by omega⟩
    have u1 : binary64.umag m = (2 ^ 52 + f) * 2 ^ e := by
      rw [hef]; exact binary64.umag_of (by show _ < 2 ^ 53; omega) (Or.inr (by show 2 ^ 52 ≤ _; omega))
    have u2 : binary64.umag (m / 2 ^ 32 * 2 ^ 32) = (2 ^ 52 + f / 2 ^ 32 * 2 ^ 32) * 2 ^ e := by
      have : m / 2 ^ 32 * 2 ^ 32 = e * 2 ^ 52 + (2 ^ 52 + f / 2 ^ 32 * 2 ^ 32) := by omega
      rw [this]; exact binary64.umag_of (by show _ < 2 ^ 53; omega) (Or.inr (by show 2 ^ 52 ≤ _; omega))
    rw [u1, u2]
    constructor
    · have h1 : |(((2 ^ 52 + f / 2 ^ 32 * 2 ^ 32) * 2 ^ e : ℕ) : ℝ) - (((2 ^ 52 + f) * 2 ^ e : ℕ) : ℝ)| ≤ |(((2 ^ 52 + f) * 2 ^ e : ℕ) : ℝ)| / 2 ^ 20 := by
        have a1 : ((f / 2 ^ 32 * 2 ^ 32 : ℕ) : ℝ) ≤ f := by exact_mod_cast (show f / 2 ^ 32 * 2 ^ 32 ≤ f by omega)
        have a2 : (f : ℝ) ≤ ((f / 2 ^ 32 * 2 ^ 32 : ℕ) : ℝ) + 2 ^ 32 := by exact_mod_cast (show f ≤ f / 2 ^ 32 * 2 ^ 32 + 2 ^ 32 by omega)
        rw [Nat.cast_mul, Nat.cast_mul, ← sub_mul, Nat.cast_add, Nat.cast_add, add_sub_add_left_eq_sub, abs_mul, abs_mul, mul_div_right_comm]
        refine mul_le_mul_of_nonneg_right ?_ (abs_nonneg _)
        have h3 : |((2 ^ 52 : ℕ) : ℝ) + f| = (2 ^ 52 : ℕ) + f := abs_of_nonneg (by positivity)
        rw [h3, abs_le]
        generalize ((f / 2 ^ 32 * 2 ^ 32 : ℕ) : ℝ) = g at *
        have hf0 : (0 : ℝ) ≤ f := by positivity
        push_cast
        constructor <;> norm_num at a2 ⊢ <;> linarith
      have h2 := mul_le_mul_of_nonneg_right h1 hms.le
      have h3 : 0 ≤ 2 ^ 32 * binary64.minSub := by positivity
      have h4 : |(((2 ^ 52 + f) * 2 ^ e : ℕ) : ℝ)| / 2 ^ 20 * binary64.minSub = |(((2 ^ 52 + f) * 2 ^ e : ℕ) : ℝ)| * binary64.minSub / 2 ^ 20 := by ring
      linarith
    · intro hb
      have hmz : binary64.minSub = (2 : ℝ) ^ (-1074 : ℤ) := eta_eq
      refine ⟨(if binary64.sgn r then -1 else 1) * ((2 ^ 20 + f / 2 ^ 32 : ℕ) : ℤ), (e : ℤ) + 32 - 1074, ?_, ?_, ?_⟩
      · rw [hmz, show ((e : ℤ) + 32 - 1074) = (e : ℤ) + 32 + -1074 by ring, zpow_add₀ (by norm_num), zpow_add₀ (by norm_num), zpow_natCast]
        have : (2 ^ 52 + f / 2 ^ 32 * 2 ^ 32) = (2 ^ 20 + f / 2 ^ 32) * 2 ^ 32 := by omega
        rw [this, Int.cast_mul, Int.cast_natCast, Nat.cast_mul, Nat.cast_mul, Nat.cast_pow, Nat.cast_pow, Nat.cast_ofNat]
        have hsg : ((if binary64.sgn r then -1 else 1 : ℤ) : ℝ) = sg (binary64.sgn r) := by cases binary64.sgn r <;> simp [sg]
        rw [hsg]
        have h32 : ((2 : ℝ) ^ (32 : ℤ)) = 2 ^ 32 := by norm_cast
        rw [h32]
        ring
      · have : (2 ^ 20 + f / 2 ^ 32) < 2 ^ 21 := by omega
        rw [abs_mul, Nat.abs_cast]
        have h1 : |(if binary64.sgn r = true then -1 else 1 : ℤ)| = 1 := by split_ifs <;> rfl
        rw [h1, one_mul]
        exact_mod_cast this
      · by_contra hc
        have he' : e ≤ 41 := by omega
        have h1 : |(((2 ^ 52 + f) * 2 ^ e : ℕ) : ℝ)| ≤ 2 ^ 53 * 2 ^ 41 := by
          rw [abs_of_nonneg (by positivity), Nat.cast_mul]
          refine mul_le_mul (by exact_mod_cast (show 2 ^ 52 + f ≤ 2 ^ 53 by omega)) ?_ (by positivity) (by positivity)
          exact_mod_cast Nat.pow_le_pow_right (by norm_num) he'
        have h2 := mul_le_mul_of_nonneg_right h1 hms.le
        have h3 : binary64.minSub ≤ 1 / 2 ^ 200 := eta_le
        have h4 := mul_le_mul_of_nonneg_left h3 (show (0 : ℝ) ≤ 2 ^ 53 * 2 ^ 41 by positivity)
        have h5 := hb.trans (h2.trans h4)
        norm_num at h5

end Verif
