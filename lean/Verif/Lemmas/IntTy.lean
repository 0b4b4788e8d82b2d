import Verif.Model.IntUtil
import Verif.Lemmas.Bits
import Verif.Lemmas.IntUtil

/-! # Lemmas about C++ integer types (`ITy`) -/

namespace Verif.ITy

theorem two_pow_N {t : ITy} (hN : 1 ≤ t.N) : (2 : ℤ) ^ t.N = 2 * 2 ^ (t.N - 1) := by
  rw [← pow_succ']; congr 1; omega

theorem two_pow_N_nat {t : ITy} (hN : 1 ≤ t.N) : 2 ^ t.N = 2 * 2 ^ (t.N - 1) := by
  rw [← pow_succ']; congr 1; omega

theorem has_signed {t : ITy} (hs : t.signed = true) (z : ℤ) : t.Has z ↔ -2 ^ (t.N - 1) ≤ z ∧ z < 2 ^ (t.N - 1) := by
  simp only [Has, min, max, hs, if_true]; constructor <;> rintro ⟨h1, h2⟩ <;> constructor <;> omega

theorem has_unsigned {t : ITy} (hs : t.signed = false) (z : ℤ) : t.Has z ↔ 0 ≤ z ∧ z < 2 ^ t.N := by
  simp only [Has, min, max, hs, Bool.false_eq_true, if_false]; constructor <;> rintro ⟨h1, h2⟩ <;> constructor <;> omega

theorem conv_emod (t : ITy) (z : ℤ) : t.conv (z % 2 ^ t.N) = t.conv z := by
  unfold conv
  split
  · have := Int.emod_bmod z (2 ^ t.N)
    push_cast at this
    exact this
  · exact Int.emod_emod _ _

theorem conv_eq {t : ITy} (hN : 1 ≤ t.N) {z : ℤ} (hz : t.Has z) : t.conv z = z := by
  unfold conv
  by_cases hs : t.signed = true
  · rw [if_pos hs]
    rw [has_signed hs] at hz
    have h2 := two_pow_N hN
    apply Int.bmod_eq_of_le_mul_two <;> push_cast <;> rw [h2] <;> omega
  · rw [if_neg hs]
    simp only [Bool.not_eq_true] at hs
    rw [has_unsigned hs] at hz
    exact Int.emod_eq_of_lt hz.1 hz.2

theorem conv_congr {t : ITy} {a b : ℤ} (h : a % 2 ^ t.N = b % 2 ^ t.N) : t.conv a = t.conv b := by
  rw [← conv_emod, h, conv_emod]

/-- a conversion is the value of the type congruent modulo `2^N` -/
theorem conv_unique {t : ITy} (hN : 1 ≤ t.N) {a z : ℤ} (hz : t.Has z) (h : (2 : ℤ) ^ t.N ∣ a - z) : t.conv a = z := by
  rw [← conv_eq hN hz]
  exact conv_congr (Int.emod_eq_emod_iff_emod_sub_eq_zero.2 (Int.emod_eq_zero_of_dvd h))

theorem has_conv {t : ITy} (hN : 1 ≤ t.N) (z : ℤ) : t.Has (t.conv z) := by
  by_cases hs : t.signed = true
  · rw [has_signed hs, conv, if_pos hs]
    have h2 := two_pow_N hN
    have hp : 0 < 2 ^ t.N := Nat.pow_pos (by decide)
    have l := @Int.le_bmod z (2 ^ t.N) hp
    have u := @Int.bmod_lt z (2 ^ t.N) hp
    push_cast at l u
    rw [h2] at l u
    constructor <;> omega
  · have hs' := hs
    simp only [Bool.not_eq_true] at hs'
    rw [has_unsigned hs', conv, if_neg hs]
    exact ⟨Int.emod_nonneg _ (by positivity), Int.emod_lt_of_pos _ (by positivity)⟩

theorem conv_dvd (t : ITy) (z : ℤ) : (2 : ℤ) ^ t.N ∣ t.conv z - z := by
  unfold conv
  split
  · have h : (z.bmod (2 ^ t.N)) % ((2 ^ t.N : ℕ) : ℤ) = z % ((2 ^ t.N : ℕ) : ℤ) := Int.bmod_emod
    push_cast at h
    exact Int.dvd_of_emod_eq_zero (Int.emod_eq_emod_iff_emod_sub_eq_zero.1 h)
  · have h : (z % 2 ^ t.N) % 2 ^ t.N = z % 2 ^ t.N := Int.emod_emod _ _
    exact Int.dvd_of_emod_eq_zero (Int.emod_eq_emod_iff_emod_sub_eq_zero.1 h)

theorem arith_eq {t : ITy} {z : ℤ} (hz : t.Has z) : t.arith z = some z := by
  unfold arith
  by_cases hs : t.signed = true
  · rw [if_pos hs, if_pos hz]
  · rw [if_neg hs]
    simp only [Bool.not_eq_true] at hs
    rw [has_unsigned hs] at hz
    rw [Int.emod_eq_of_lt hz.1 hz.2]

theorem repr_cast (t : ITy) (z : ℤ) : ((t.repr z : ℕ) : ℤ) = z % 2 ^ t.N :=
  Int.toNat_of_nonneg (Int.emod_nonneg _ (by positivity))

theorem repr_lt (t : ITy) (z : ℤ) : t.repr z < 2 ^ t.N := by
  have := Int.emod_lt_of_pos z (show (0 : ℤ) < 2 ^ t.N by positivity)
  rw [← repr_cast] at this
  exact_mod_cast this

theorem repr_of {t : ITy} (hN : 1 ≤ t.N) {z : ℤ} (hz : t.Has z) :
    ((t.repr z : ℕ) : ℤ) = if z < 0 then z + 2 * 2 ^ (t.N - 1) else z := by
  rw [repr_cast]
  have h2 := two_pow_N hN
  have hp : (0 : ℤ) < 2 ^ (t.N - 1) := by positivity
  by_cases hs : t.signed = true
  · rw [has_signed hs] at hz
    rw [h2]
    split
    · rw [← Int.add_emod_right]; exact Int.emod_eq_of_lt (by omega) (by omega)
    · exact Int.emod_eq_of_lt (by omega) (by omega)
  · simp only [Bool.not_eq_true] at hs
    rw [has_unsigned hs] at hz
    rw [if_neg (by omega)]
    exact Int.emod_eq_of_lt hz.1 hz.2

theorem promote_N {t : ITy} (hN : 1 ≤ t.N) : 1 ≤ t.promote.N ∧ t.N ≤ t.promote.N := by
  unfold promote; split
  · exact ⟨by decide, by change t.N ≤ 32; omega⟩
  · exact ⟨hN, le_rfl⟩

theorem has_promote {t : ITy} {z : ℤ} (hz : t.Has z) : t.promote.Has z := by
  unfold promote
  split
  · rename_i h
    rw [has_signed rfl]
    change -2 ^ 31 ≤ z ∧ z < 2 ^ 31
    by_cases hs : t.signed = true
    · rw [has_signed hs] at hz
      have : (2 : ℤ) ^ (t.N - 1) ≤ 2 ^ 31 := pow_le_pow_right₀ (by norm_num) (by omega)
      constructor <;> omega
    · simp only [Bool.not_eq_true] at hs
      rw [has_unsigned hs] at hz
      have : (2 : ℤ) ^ t.N ≤ 2 ^ 31 := pow_le_pow_right₀ (by norm_num) (by omega)
      constructor <;> omega
  · exact hz

theorem has_pow {t : ITy} (hN : 1 ≤ t.N) {k : ℕ} (hk : t.Has (2 ^ k)) : k < t.N := by
  by_contra h
  have h1 : (2 : ℤ) ^ t.N ≤ 2 ^ k := pow_le_pow_right₀ (by norm_num) (by omega)
  have h2 := two_pow_N hN
  have hp : (0 : ℤ) < 2 ^ (t.N - 1) := by positivity
  by_cases hs : t.signed = true
  · rw [has_signed hs] at hk; omega
  · simp only [Bool.not_eq_true] at hs
    rw [has_unsigned hs] at hk; omega

theorem and_high {x N k : ℕ} (hx : x < 2 ^ N) (hk : k ≤ N) : x &&& (2 ^ N - 2 ^ k) = 2 ^ k * (x / 2 ^ k) := by
  have e : 2 ^ N - 2 ^ k = 2 ^ k * (2 ^ (N - k) - 1) + 0 := by
    rw [Nat.mul_sub, ← pow_add, Nat.add_sub_cancel' hk]; simp
  have hxd : x = 2 ^ k * (x / 2 ^ k) + x % 2 ^ k := (Nat.div_add_mod _ _).symm
  conv_lhs => rw [e, hxd]
  rw [CC.and_split _ _ _ _ _ (Nat.mod_lt _ (Nat.pow_pos (by decide))) (Nat.pow_pos (by decide)), Nat.and_two_pow_sub_one_eq_mod,
    Nat.and_zero, Nat.add_zero, Nat.mod_eq_of_lt]
  rw [Nat.div_lt_iff_lt_mul (Nat.pow_pos (by decide)), ← pow_add, Nat.sub_add_cancel hk]
  exact hx

/-- masking with `~(2^k - 1)` removes the remainder modulo `2^k` -/
theorem band_mask {t : ITy} {k : ℕ} (hk : k ≤ t.N) (s : ℤ) :
    t.band s (t.bnot (2 ^ k - 1)) = t.conv (s - s % 2 ^ k) := by
  have hr : t.repr (t.bnot (2 ^ k - 1)) = 2 ^ t.N - 2 ^ k := by
    have hle : 2 ^ k ≤ 2 ^ t.N := Nat.pow_le_pow_right (by decide) hk
    have : ((t.repr (t.bnot (2 ^ k - 1)) : ℕ) : ℤ) = ((2 ^ t.N - 2 ^ k : ℕ) : ℤ) := by
      rw [repr_cast, bnot]
      have h1 := conv_dvd t (-(2 ^ k - 1) - 1)
      obtain ⟨c, hc⟩ := h1
      have hc' : t.conv (-(2 ^ k - 1) - 1) = (2 ^ t.N - 2 ^ k) + 2 ^ t.N * (c - 1) := by linarith
      rw [hc', Int.add_mul_emod_self_left, Nat.cast_sub hle]
      push_cast
      have hp : (0 : ℤ) < 2 ^ k := by positivity
      have hle' : (2 : ℤ) ^ k ≤ 2 ^ t.N := by exact_mod_cast hle
      exact Int.emod_eq_of_lt (by omega) (by omega)
    exact_mod_cast this
  unfold band
  rw [hr, and_high (repr_lt t s) hk]
  apply conv_congr
  have hs : ((t.repr s : ℕ) : ℤ) % 2 ^ k = s % 2 ^ k := by
    rw [repr_cast]; exact Int.emod_emod_of_dvd _ (pow_dvd_pow 2 hk)
  have e : ((2 ^ k * (t.repr s / 2 ^ k) : ℕ) : ℤ) = (t.repr s : ℤ) - s % 2 ^ k := by
    rw [← hs]
    push_cast
    have := Int.emod_add_mul_ediv (t.repr s : ℤ) (2 ^ k)
    linarith
  rw [e, repr_cast, Int.emod_sub_emod]

end Verif.ITy
