import Verif.Model.Pow
import Verif.Props.IntUtil
import Verif.Lemmas.Bits
import Verif.Lemmas.Manip

namespace Verif
open Fmt

theorem odd_part {N t : ℕ} (h0 : ∀ i < t, N.testBit i = false) (h1 : N.testBit t = true) : ∃ q, N = 2 ^ t * (2 * q + 1) := by
  have hm : N % 2 ^ t = 0 := by
    apply Nat.eq_of_testBit_eq
    intro i
    rw [Nat.testBit_mod_two_pow]
    by_cases hi : i < t
    · simp [h0 i hi]
    · simp [hi]
  have ho : N / 2 ^ t % 2 = 1 := by
    rw [Nat.testBit_eq_decide_div_mod_eq] at h1
    simpa using h1
  refine ⟨N / 2 ^ t / 2, ?_⟩
  have e1 := Nat.div_add_mod N (2 ^ t)
  have e2 := Nat.div_add_mod (N / 2 ^ t) 2
  rw [hm] at e1; rw [ho] at e2
  rw [e2]; omega

theorem odd_mul_zpow_int {o d : ℤ} (ho : o % 2 = 1) : (∃ k : ℤ, (o : ℝ) * (2 : ℝ) ^ d = k) ↔ 0 ≤ d := by
  constructor
  · rintro ⟨k, hk⟩
    by_contra hd
    obtain ⟨n, hn⟩ : ∃ n : ℕ, -d = n + 1 := ⟨(-d - 1).toNat, by omega⟩
    have : (o : ℝ) = k * 2 ^ (n + 1) := by
      rw [← hk, show d = -((n : ℤ) + 1) by omega, zpow_neg, mul_assoc]
      rw [show ((n : ℤ) + 1) = ((n + 1 : ℕ) : ℤ) by push_cast; rfl, zpow_natCast, inv_mul_cancel₀ (by positivity), mul_one]
    have h2 : o = k * 2 ^ (n + 1) := by exact_mod_cast this
    rw [pow_succ, ← mul_assoc] at h2
    omega
  · intro hd
    obtain ⟨n, rfl⟩ := Int.eq_ofNat_of_zero_le hd
    exact ⟨o * 2 ^ n, by push_cast; rfl⟩

theorem odd_mul_zpow_odd {o d : ℤ} (ho : o % 2 = 1) : (∃ k : ℤ, (o : ℝ) * (2 : ℝ) ^ d = 2 * k + 1) ↔ d = 0 := by
  constructor
  · rintro ⟨k, hk⟩
    have h1 : 0 ≤ d := (odd_mul_zpow_int ho).1 ⟨2 * k + 1, by rw [hk]; push_cast; rfl⟩
    by_contra hd
    obtain ⟨n, hn⟩ : ∃ n : ℕ, d = ((n + 1 : ℕ) : ℤ) := ⟨(d - 1).toNat, by omega⟩
    rw [hn, zpow_natCast] at hk
    have h2 : o * 2 ^ (n + 1) = 2 * k + 1 := by exact_mod_cast hk
    rw [pow_succ, ← mul_assoc] at h2
    omega
  · rintro rfl
    refine ⟨o / 2, ?_⟩
    have : o = 2 * (o / 2) + 1 := by omega
    rw [zpow_zero, mul_one]
    exact_mod_cast this

/-- the two fields read by the integer tests -/
theorem oddTest_spec {x : ℕ} (hx : binary64.Valid x) :
    (x &&& FPBits.expMask binary64) >>> 52 = binary64.bexp x ∧
    ∃ t, CC.countrZero 64 (x ||| FPBits.expMask binary64) = t ∧ t ≤ 52 ∧ ∃ q, 2 ^ 52 + binary64.frac x = 2 ^ t * (2 * q + 1) := by
  have hv : x < 2 ^ 64 := hx
  have hmask : FPBits.expMask binary64 = 2 ^ 52 * (2 ^ 11 - 1) := by decide
  have hmb : ∀ i, (FPBits.expMask binary64).testBit i = (decide (52 ≤ i) && decide (i < 63)) := by
    intro i
    rw [hmask, Nat.testBit_two_pow_mul, Nat.testBit_two_pow_sub_one]
    by_cases h : 52 ≤ i
    · simp [h]; omega
    · simp [h]
  refine ⟨?_, ?_⟩
  · exact FPBits.biasedExp_eq binary64 x
  · have hlt : x ||| FPBits.expMask binary64 < 2 ^ 2 ^ 6 := Nat.or_lt_two_pow hv (by rw [hmask]; norm_num)
    obtain ⟨h1, h2, h3⟩ := C34_countr_zero 6 (x ||| FPBits.expMask binary64) hlt
    have h64 : (2 : ℕ) ^ 6 = 64 := by norm_num
    rw [h64] at h1 h2 h3
    generalize CC.countrZero 64 (x ||| FPBits.expMask binary64) = t at *
    have ht : t ≤ 52 := by
      by_contra hc
      have := h2 52 (by omega)
      rw [Nat.testBit_or, hmb] at this
      simp at this
    refine ⟨t, rfl, ht, ?_⟩
    have hfr : binary64.frac x < 2 ^ 52 := Nat.mod_lt _ (by norm_num)
    have hNb : ∀ i < 52, (2 ^ 52 + binary64.frac x).testBit i = x.testBit i := by
      intro i hi
      rw [Nat.testBit_two_pow_add_gt hi]
      show (x % 2 ^ 52).testBit i = _
      rw [Nat.testBit_mod_two_pow]; simp [hi]
    apply odd_part
    · intro i hi
      have := h2 i hi
      rw [Nat.testBit_or, hmb] at this
      rw [hNb i (by omega)]
      simp at this
      exact this.1
    · rcases Nat.lt_or_ge t 52 with h | h
      · have := h3 (by omega)
        rw [Nat.testBit_or, hmb] at this
        rw [hNb t h]
        simpa [show ¬ 52 ≤ t by omega] using this
      · have : t = 52 := by omega
        subst this
        rw [Nat.testBit_two_pow_add_eq]
        rw [Nat.testBit_lt_two_pow hfr]; rfl

end Verif
