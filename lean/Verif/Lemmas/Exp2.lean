import Verif.Lemmas.ExpTab

/-!
# The scale `2^(k/128)` built by the exponential functions
-/

namespace Verif
open Fmt Real

/-- index of the table entry -/
def kIdx (k : ℤ) : ℕ := (k % 128).toNat

theorem kIdx_lt (k : ℤ) : kIdx k < 128 := by unfold kIdx; omega
theorem kIdx_eq (k : ℤ) : k = 128 * (k / 128) + kIdx k := by unfold kIdx; omega

/-- `sign_bits` -/
def sBits (ki : ℕ) : ℕ := (CC.expTab.getD (2 * (ki % 128) + 1) 0 + (ki <<< 45) % 2 ^ 64) % 2 ^ 64

theorem ki_mod {ki : ℕ} {k : ℤ} (j : ℕ) (hj : j ≤ 10) (h : (ki : ℤ) = (0x433 - j) * 2 ^ 52 + 2 ^ 51 + k) : ki % 128 = kIdx k := by
  unfold kIdx; omega

theorem ki_shift {ki : ℕ} {k : ℤ} (j : ℕ) (hj : j ≤ 10) (h : (ki : ℤ) = (0x433 - j) * 2 ^ 52 + 2 ^ 51 + k) :
    (((ki <<< 45) % 2 ^ 64 : ℕ) : ℤ) = (k * 2 ^ 45) % 2 ^ 64 := by
  rw [Nat.shiftLeft_eq]
  omega

theorem sBits_mod {ki : ℕ} {k : ℤ} (j : ℕ) (hj : j ≤ 10) (h : (ki : ℤ) = (0x433 - j) * 2 ^ 52 + 2 ^ 51 + k) :
    (sBits ki : ℤ) = ((1022 + k / 128) * 2 ^ 52 + tabH (kIdx k)) % 2 ^ 64 := by
  have h1 := ki_shift j hj h
  obtain ⟨a1, a2, a3, -⟩ := tab_spec (kIdx_lt k)
  have h2 := kIdx_eq k
  unfold sBits
  rw [ki_mod j hj h]
  generalize (ki <<< 45) % 2 ^ 64 = s at *
  generalize CC.expTab.getD (2 * kIdx k + 1) 0 = t at *
  generalize tabH (kIdx k) = m at *
  generalize kIdx k = i at *
  have h3 : k * 2 ^ 45 = (k / 128) * 2 ^ 52 + i * 2 ^ 45 := by rw [h2]; omega
  have h4 : (t : ℤ) + i * 2 ^ 45 = 1022 * 2 ^ 52 + m := by exact_mod_cast a3
  omega

/-- the scale: `sign_bits` with `c` added to the exponent field -/
theorem scale64 {n : ℕ} {k c : ℤ} (h : (n : ℤ) = ((1022 + k / 128 + c) * 2 ^ 52 + tabH (kIdx k)) % 2 ^ 64) (h1 : 0 ≤ 1022 + k / 128 + c)
    (h2 : 1022 + k / 128 + c ≤ 2045) :
    binary64.Finite n ∧ binary64.val n = (tabH (kIdx k) : ℝ) / 2 ^ 52 * (2 : ℝ) ^ (k / 128 + c) := by
  obtain ⟨a1, a2, -⟩ := tab_spec (kIdx_lt k)
  obtain ⟨e, he⟩ : ∃ e : ℕ, (e : ℤ) = 1022 + k / 128 + c := ⟨(1022 + k / 128 + c).toNat, by omega⟩
  have hn : n = e * 2 ^ 52 + tabH (kIdx k) := by omega
  obtain ⟨b1, b2⟩ := bits64 (e := e) a1 a2 (by omega)
  rw [hn]
  refine ⟨b1, ?_⟩
  rw [b2, show (e : ℤ) - 1074 = (k / 128 + c) + (-52) by omega, zpow_add₀ (by norm_num)]
  have : (2 : ℝ) ^ (-52 : ℤ) = 1 / 2 ^ 52 := by norm_num
  rw [this]; ring

/-- `2^(k/128)` is head times `1 + tail`, to `2^-104` -/
theorem scale_exp (k : ℤ) :
    |exp (k * (log 2 / 128)) - (tabH (kIdx k) : ℝ) / 2 ^ 52 * (2 : ℝ) ^ (k / 128) * (1 + binary64.val (tabT (kIdx k)))| ≤
      (tabH (kIdx k) : ℝ) / 2 ^ 52 * (2 : ℝ) ^ (k / 128) * (1 / 2 ^ 104) := by
  obtain ⟨a1, a2, -, -, a5, a6⟩ := tab_spec (kIdx_lt k)
  have e : exp (k * (log 2 / 128)) = (2 : ℝ) ^ (k / 128) * exp (kIdx k * (log 2 / 128)) := by
    have : (k : ℝ) * (log 2 / 128) = ((k / 128 : ℤ) : ℝ) * log 2 + kIdx k * (log 2 / 128) := by
      have h : (k : ℝ) = 128 * ((k / 128 : ℤ) : ℝ) + kIdx k := by exact_mod_cast kIdx_eq k
      rw [h]; push_cast
      have : ((128 * (k / 128) + (kIdx k : ℤ)) / 128 : ℤ) = k / 128 := by rw [← kIdx_eq k]
      ring
    rw [this, Real.exp_add]
    congr 1
    rw [mul_comm, Real.exp_mul, Real.exp_log (by norm_num), Real.rpow_intCast]
  rw [e]
  set T := binary64.val (tabT (kIdx k))
  set H := (tabH (kIdx k) : ℝ) / 2 ^ 52
  set z := (2 : ℝ) ^ (k / 128) with hz
  have hzp : 0 < z := two_zpow_pos _
  have hH : 0 ≤ H := by positivity
  have e2 : z * exp (kIdx k * (log 2 / 128)) - H * z * (1 + T) = z * (exp (kIdx k * (log 2 / 128)) - H * (1 + T)) := by ring
  rw [e2, abs_mul, abs_of_pos hzp]
  refine le_trans (mul_le_mul_of_nonneg_left a6 hzp.le) ?_
  have hT : 1 + T ≤ 2 := by
    have := (abs_le.1 a5).2
    have h3 : (1 : ℝ) / 2 ^ 53 ≤ 1 := by norm_num
    linarith
  have : H * (1 + T) * (1 / 2 ^ 105) ≤ H * 2 * (1 / 2 ^ 105) := by gcongr
  calc z * (H * (1 + T) * (1 / 2 ^ 105)) ≤ z * (H * 2 * (1 / 2 ^ 105)) := mul_le_mul_of_nonneg_left this hzp.le
    _ = H * z * (1 / 2 ^ 104) := by ring

end Verif
