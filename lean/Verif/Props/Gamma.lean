import Verif.Lemmas.Gamma
import Verif.Lemmas.SinCos4
import Verif.Props.Pow
import Verif.Props.Nearest
import Verif.Props.Fma

/-!
# C50 (special arguments of `tgamma`) and C68 (`tgamma` near zero and at positive integers), binary64
-/

namespace Verif
open Fmt Real

/-- **C50.** Zeros, infinities and NaNs: `tgamma(±0) = ±∞`, `tgamma(+∞) = +∞`, `tgamma(-∞)` and `tgamma(NaN)` are NaNs. -/
theorem C50_special (ce fused : Bool) (md : Mode) :
    CC.gammaDouble ce fused md 0 = some 0x7FF0000000000000 ∧ CC.gammaDouble ce fused md 0x8000000000000000 = some 0xFFF0000000000000 ∧
      CC.gammaDouble ce fused md 0x7FF0000000000000 = some 0x7FF0000000000000 ∧
      (∃ r, CC.gammaDouble ce fused md 0xFFF0000000000000 = some r ∧ binary64.IsNaN r) ∧
      ∀ x, binary64.IsNaN x → ∃ r, CC.gammaDouble ce fused md x = some r ∧ binary64.IsNaN r := by
  have hq : binary64.IsNaN (FPBits.quietNaN binary64 false 0) := by decide +kernel
  refine ⟨rfl, rfl, rfl, ⟨_, rfl, hq⟩, ?_⟩
  intro x hx
  have h1 : binary64.nanB x = true := (binary64.nanB_iff hx.1).2 hx
  unfold CC.gammaDouble
  rw [if_pos (by rw [FPBits.isNan_eq, h1]; rfl)]
  split_ifs
  · exact ⟨_, rfl, hq⟩
  · exact ⟨_, rfl, hq⟩
  · exact ⟨_, rfl, hx⟩

example : binary64.IsNaN 0x7FF0000000000001 := by decide +kernel

theorem gm_not_special {x : ℕ} (hx : binary64.Finite x) : (FPBits.isNan binary64 x || FPBits.isInf binary64 x) = false := by
  obtain ⟨b1, b2⟩ := binary64.finite_B hx
  rw [FPBits.isNan_eq, FPBits.isInf_eq, b1, b2]; rfl

theorem gm_not_zero {x : ℕ} (h : binary64.val x ≠ 0) : FPBits.isZero binary64 x = false := by
  rw [FPBits.isZero_eq]
  rw [zeroB, decide_eq_false_iff_not, ← val_eq_zero_iff]
  exact h

theorem val_pm53 : binary64.val 0x3CA0000000000000 = 1 / 2 ^ 53 ∧ binary64.val 0xBCA0000000000000 = -(1 / 2 ^ 53) := by
  constructor
  · rw [lit64 false (2 ^ 52) 105 (by decide +kernel) (by decide +kernel) (by decide +kernel) (by decide +kernel)]; norm_num [sg]
  · rw [lit64 true (2 ^ 52) 105 (by decide +kernel) (by decide +kernel) (by decide +kernel) (by decide +kernel)]; norm_num [sg]

theorem gm_tiny_iff {x : ℕ} (hx : binary64.Finite x) : (binary64.hle x 0x3CA0000000000000 && binary64.hge x 0xBCA0000000000000) = true ↔ |binary64.val x| ≤ 1 / 2 ^ 53 := by
  have f1 : binary64.Finite 0x3CA0000000000000 := by decide +kernel
  have f2 : binary64.Finite 0xBCA0000000000000 := by decide +kernel
  unfold hge
  rw [Bool.and_eq_true, CC.hle_finite binary64 hx f1, CC.hle_finite binary64 f2 hx, val_pm53.1, val_pm53.2, abs_le]
  tauto

/-- an integer is returned unchanged (as a number) by `floor` -/
theorem gm_floor (md : Mode) {x : ℕ} (hx : binary64.Finite x) {n : ℤ} (hn : binary64.val x = n) :
    binary64.Finite (CC.floor binary64 md x) ∧ binary64.val (CC.floor binary64 md x) = n := by
  obtain ⟨h1, -, k, h2, h3⟩ := (C07_floor binary64 binary64_wide md).finite hx
  rw [hn, Int.floor_intCast] at h3
  exact ⟨h1, by rw [h2, h3]⟩

theorem toInt32_none {k : ℕ} {n : ℤ} (hk : binary64.Finite k) (hv : binary64.val k = n) (h : n < -2 ^ 31 ∨ 2 ^ 31 ≤ n) : CC.toInt32 binary64 k = none := by
  obtain ⟨b1, b2⟩ := binary64.finite_B hk
  have hU := binary64.uscale_pos
  have e : binary64.ival k = n * binary64.uscale := by
    rw [binary64.val_eq_ival] at hv
    have hUm := binary64.uscale_minSub
    have : (binary64.ival k : ℝ) = n * binary64.uscale := by
      calc (binary64.ival k : ℝ) = binary64.ival k * (binary64.uscale * binary64.minSub) := by rw [hUm, mul_one]
        _ = (binary64.ival k * binary64.minSub) * binary64.uscale := by ring
        _ = _ := by rw [hv]
    exact_mod_cast this
  unfold CC.toInt32
  rw [b1, b2]
  simp only [Bool.or_self, Bool.false_eq_true, if_false]
  have e2 : (binary64.ival k).tdiv binary64.uscale = n := by
    rw [e]; exact Int.mul_tdiv_cancel _ (by exact_mod_cast hU.ne')
  rw [e2, if_neg (by omega)]

/-- what `tgamma` does with a negative integer -/
theorem gm_negInt (ce fused : Bool) (md : Mode) {x : ℕ} (hx : binary64.Finite x) {n : ℤ} (hn : binary64.val x = n) (h0 : n < 0) :
    CC.gammaDouble ce fused md x = (CC.toInt32 binary64 (CC.floor binary64 md x)).map fun _ => FPBits.quietNaN binary64 false 0 := by
  have h1 : (n : ℝ) ≤ -1 := by exact_mod_cast (by omega : n ≤ -1)
  have hv : binary64.val x < 0 := by rw [hn]; linarith
  have hs : FPBits.isNeg binary64 x = true := by rw [FPBits.isNeg_eq _ hx.valid]; exact sgn_of_neg _ hv
  unfold CC.gammaDouble
  rw [gm_not_special hx, gm_not_zero hv.ne, hs]
  have ht : ¬ ((binary64.hle x 0x3CA0000000000000 && binary64.hge x 0xBCA0000000000000) = true) := by
    rw [gm_tiny_iff hx, hn, abs_of_neg (by linarith)]
    have : (1 : ℝ) / 2 ^ 53 < 1 := by norm_num
    linarith
  rw [if_neg (by simp), if_neg (by simp), if_neg ht, if_neg (by simp), if_pos ((C26_is_integer_partial hx hv.ne).2 ⟨n, hn⟩)]
  cases CC.toInt32 binary64 (CC.floor binary64 md x) <;> simp

/-- **C50.** Every negative integer from `-2^31` on gives a NaN. What is missing: below `-2^31` the conversion to `int32` is undefined, see
`C50_negative_integer_wrong`. -/
theorem C50_negative_integer_partial (ce fused : Bool) (md : Mode) {x : ℕ} (hx : binary64.Finite x) {n : ℤ} (hn : binary64.val x = n) (h0 : n < 0) (h1 : -2 ^ 31 ≤ n) :
    ∃ r, CC.gammaDouble ce fused md x = some r ∧ binary64.IsNaN r := by
  obtain ⟨f, v⟩ := gm_floor md hx hn
  rw [gm_negInt ce fused md hx hn h0, toInt32_spec f v h1 (by omega)]
  have hq : binary64.IsNaN (FPBits.quietNaN binary64 false 0) := by decide +kernel
  exact ⟨_, rfl, hq⟩

-- -3 and -2^31
example : binary64.Finite 0xC008000000000000 ∧ (CC.gammaDouble true false .nearest 0xC008000000000000).isSome = true ∧
    (CC.gammaDouble true false .nearest 0xC1E0000000000000).isSome = true := by decide +kernel

/-- **C50, violated.** For every negative integer below `-2^31` (in particular for every finite double below `-2^52`) the behaviour is undefined: `floor(x)` is
converted to `int32` before the test for negative arguments. -/
theorem C50_negative_integer_wrong (ce fused : Bool) (md : Mode) {x : ℕ} (hx : binary64.Finite x) {n : ℤ} (hn : binary64.val x = n) (h1 : n < -2 ^ 31) :
    CC.gammaDouble ce fused md x = none := by
  obtain ⟨f, v⟩ := gm_floor md hx hn
  rw [gm_negInt ce fused md hx hn (by omega), toInt32_none f v (Or.inl h1)]
  rfl

-- -2^31 - 1 and -10^300
example : binary64.Finite 0xC1E0000000200000 ∧ CC.gammaDouble true false .nearest 0xC1E0000000200000 = none := by decide +kernel
example : binary64.Finite 0xFE37E43C8800759C ∧ CC.gammaDouble true false .nearest 0xFE37E43C8800759C = none := by decide +kernel

theorem val_gmax : 171 < binary64.val 0x4065740B36960EB4 := by
  rw [lit64 false 0x15740B36960EB4 45 (by decide +kernel) (by decide +kernel) (by decide +kernel) (by decide +kernel)]; norm_num [sg]

/-- what `tgamma` does with an integer between 1 and 171 -/
theorem gm_posInt (ce fused : Bool) (md : Mode) {x : ℕ} (hx : binary64.Finite x) {k : ℤ} (hk : binary64.val x = k) (h1 : 1 ≤ k) (h2 : k ≤ 170) :
    CC.gammaDouble ce fused md x = some (CC.positiveFactorial md k) := by
  have h1' : (1 : ℝ) ≤ k := by exact_mod_cast h1
  have h2' : (k : ℝ) ≤ 170 := by exact_mod_cast h2
  have hv : 0 < binary64.val x := by rw [hk]; linarith
  have hs : FPBits.isNeg binary64 x = false := by rw [FPBits.isNeg_eq _ hx.valid]; exact sgn_of_pos _ hv
  unfold CC.gammaDouble
  rw [gm_not_special hx, gm_not_zero hv.ne', hs]
  have ht : ¬ ((binary64.hle x 0x3CA0000000000000 && binary64.hge x 0xBCA0000000000000) = true) := by
    rw [gm_tiny_iff hx, hk, abs_of_pos (by linarith)]
    have : (1 : ℝ) / 2 ^ 53 < 1 := by norm_num
    linarith
  have hm : ¬ ((!false && binary64.hge x 0x4065740B36960EB4) = true) := by
    unfold hge
    rw [Bool.not_false, Bool.true_and, CC.hle_finite binary64 (by decide +kernel) hx, hk]
    have := val_gmax
    linarith
  obtain ⟨f, v⟩ := gm_floor md hx hk
  rw [if_neg (by simp), if_neg (by simp), if_neg ht, if_neg hm, if_pos ((C26_is_integer_partial hx hv.ne').2 ⟨k, hk⟩),
    toInt32_spec f v (by omega) (by omega)]
  simp only [Bool.false_eq_true, if_false]
  rw [if_pos ⟨h1, h2⟩]

/-- **C68.** At every integer `k` from 1 to 170 `tgamma` is finite and within a relative error of `1.01 (k - 23) ru` of `(k - 1)!`, where `ru` is `2^-53` in
round-to-nearest and `2^-52` otherwise; up to 23 it is exact in every mode (`k - 23` is the difference of naturals, that is 0 then). What is missing: `k = 171`, see `C68_tgamma_wrong`. -/
theorem C68_tgamma_integer_partial (ce fused : Bool) (md : Mode) {x : ℕ} (hx : binary64.Finite x) {k : ℕ} (hk : binary64.val x = k) (h1 : 1 ≤ k) (h2 : k ≤ 170) :
    ∃ r, CC.gammaDouble ce fused md x = some r ∧ binary64.Finite r ∧
      |binary64.val r - Real.Gamma k| ≤ ((k - 23 : ℕ) : ℝ) * (1.01 * if md = .nearest then 1 / 2 ^ 53 else 1 / 2 ^ 52) * Real.Gamma k := by
  refine ⟨_, gm_posInt ce fused md hx (k := k) (by exact_mod_cast hk) (by exact_mod_cast h1) (by exact_mod_cast h2), ?_⟩
  have hr : (if md = .nearest then 1 / 2 ^ 53 else 1 / 2 ^ 52) = ru md := rfl
  have hG : Real.Gamma k = ((k - 1).factorial : ℕ) := by
    have := Real.Gamma_nat_eq_factorial (k - 1)
    rw [← this]; congr 1
    rw [Nat.cast_sub h1]; simp
  rw [hr, hG]
  unfold CC.positiveFactorial
  have c : (1.01 : ℝ) = 101 / 100 := by norm_num
  rw [c]
  rcases Nat.lt_or_ge k 2 with h | h
  · obtain rfl : k = 1 := by omega
    obtain ⟨a, b⟩ := fact_exact md (n := 0) (by norm_num)
    refine ⟨a, ?_⟩
    change |binary64.val (CC.factLoop md 0) - _| ≤ _
    rw [b]; simp
  · obtain ⟨a, b⟩ := fact_err md (k - 2) (by omega)
    have e1 : ((k : ℤ) - 2).toNat = k - 2 := by omega
    have e2 : k - 2 + 1 = k - 1 := by omega
    have e3 : k - 2 + 1 - 22 = k - 23 := by omega
    rw [e1]
    rw [e3, e2] at b
    exact ⟨a, b⟩

-- tgamma(6) = 120
example : binary64.Finite 0x4018000000000000 ∧ CC.gammaDouble true false .up 0x4018000000000000 = some 0x405E000000000000 := by decide +kernel

/-- the reals of the branch for tiny arguments -/
theorem gm_tiny_aux {u η q Q d r G : ℝ} (hu : 0 < u) (hu2 : u ≤ 1 / 2 ^ 52) (hu3 : 1 / 2 ^ 53 ≤ u) (hη0 : 0 ≤ η) (hη : η ≤ 1 / 2 ^ 200) (hq : 2 ^ 53 ≤ |q|)
    (hQ : |Q - q| ≤ u * |q| + η) (hd : |d| ≤ 6 / 10) (hr : |r - (Q + d)| ≤ u * |Q + d| + η) (hG : |G - q| ≤ 1546 / 1000) :
    |r - G| ≤ 5 * u * |G| := by
  have hu1 : u ≤ 1 / 10 ^ 6 := le_trans hu2 (by norm_num)
  have hq1 : 1 ≤ u * |q| := by
    have := mul_le_mul hu3 hq (by positivity) hu.le
    have c : (1 : ℝ) / 2 ^ 53 * 2 ^ 53 = 1 := by norm_num
    linarith
  have c200 : (1 : ℝ) / 2 ^ 200 ≤ 1 / 10 ^ 6 := by norm_num
  have h1 : |Q + d - q| ≤ u * |q| + η + 6 / 10 := by
    rw [show Q + d - q = (Q - q) + d by ring]; exact abs_add_le' hQ hd
  have h2 := abs_near h1 le_rfl
  have h3 : u * |Q + d| ≤ u * (|q| + (u * |q| + η + 6 / 10)) := mul_le_mul_of_nonneg_left h2 hu.le
  have h4 : u * (u * |q|) ≤ 1 / 10 ^ 6 * (u * |q|) := mul_le_mul_of_nonneg_right hu1 (by positivity)
  have h5 := abs_tri hr h1
  have h6 : |q - G| ≤ 1546 / 1000 := by rw [abs_sub_comm]; exact hG
  have h7 := abs_tri h5 h6
  have h8 : |q| ≤ |G| + 1546 / 1000 := by
    have h9 : |q - G| ≥ |q| - |G| := abs_sub_abs_le_abs_sub _ _
    linarith
  have h10 := mul_le_mul_of_nonneg_left h8 hu.le
  have h11 : u * (η + 6 / 10) ≤ 1 / 10 ^ 6 * 1 := mul_le_mul hu1 (by linarith) (by positivity) (by norm_num)
  linarith

/-- **C68.** For every `x` with `2^-1023 ≤ |x| ≤ 2^-53`, of either sign and in every rounding mode, `tgamma` is finite and within a relative error of `5 ru` of
`Γ(x)`, where `ru` is `2^-53` in round-to-nearest and `2^-52` otherwise. -/
theorem C68_tgamma_tiny (ce fused : Bool) (md : Mode) {x : ℕ} (hx : binary64.Finite x) (h1 : (2 : ℝ) ^ (-1023 : ℤ) ≤ |binary64.val x|) (h2 : |binary64.val x| ≤ 1 / 2 ^ 53) :
    ∃ r, CC.gammaDouble ce fused md x = some r ∧ binary64.Finite r ∧
      |binary64.val r - Real.Gamma (binary64.val x)| ≤ 5 * (if md = .nearest then 1 / 2 ^ 53 else 1 / 2 ^ 52) * |Real.Gamma (binary64.val x)| := by
  have hr : (if md = .nearest then 1 / 2 ^ 53 else 1 / 2 ^ 52) = ru md := rfl
  rw [hr]
  have hp := two_zpow_pos (-1023)
  have hX0 : 0 < |binary64.val x| := by linarith
  have hv : binary64.val x ≠ 0 := abs_pos.1 hX0
  unfold CC.gammaDouble
  rw [gm_not_special hx, gm_not_zero hv, if_neg (by simp), if_neg (by simp), if_pos ((gm_tiny_iff hx).2 h2)]
  refine ⟨_, rfl, ?_⟩
  have hu := ru_pos md
  have hu2 := ru_le md
  have hη := eta_le
  have hη0 := eta_pos
  have c53 : (1 : ℝ) / 2 ^ 53 ≤ 1 / 10 ^ 6 := by norm_num
  have c52 : (1 : ℝ) / 2 ^ 52 ≤ 1 / 10 ^ 6 := by norm_num
  have c200 : (1 : ℝ) / 2 ^ 200 ≤ 1 / 10 ^ 6 := by norm_num
  have b200 : (10 : ℝ) ≤ 2 ^ 200 := by norm_num
  have hu1 : ru md ≤ 1 / 10 ^ 6 := le_trans hu2 c52
  have hX : |binary64.val x| ≤ 1 / 10 ^ 6 := le_trans h2 c53
  have fA : binary64.Finite CC.gammaTinyA := by decide +kernel
  have fB : binary64.Finite CC.gammaTinyB := by decide +kernel
  have fC : binary64.Finite CC.gammaTinyC := by decide +kernel
  have f1 : binary64.Finite 0x3FF0000000000000 := by decide +kernel
  have vA : |binary64.val CC.gammaTinyA| ≤ 1 := by
    rw [CC.gammaTinyA, lit64 false 0x1FA658C23B1578 53 (by decide +kernel) (by decide +kernel) (by decide +kernel) (by decide +kernel)]; norm_num [sg, abs_le]
  have vB : |binary64.val CC.gammaTinyB| ≤ 1 := by
    rw [CC.gammaTinyB, lit64 false 0x1D0A118F324B63 53 (by decide +kernel) (by decide +kernel) (by decide +kernel) (by decide +kernel)]; norm_num [sg, abs_le]
  have vC : |binary64.val CC.gammaTinyC| ≤ 58 / 100 := by
    rw [CC.gammaTinyC, lit64 false 0x12788CFC6FB619 53 (by decide +kernel) (by decide +kernel) (by decide +kernel) (by decide +kernel)]; norm_num [sg, abs_le]
  have hd : binary64.Finite (binary64.hsub md (binary64.hmul md (binary64.hsub md CC.gammaTinyA (binary64.hmul md CC.gammaTinyB x)) x) CC.gammaTinyC) ∧
      |binary64.val (binary64.hsub md (binary64.hmul md (binary64.hsub md CC.gammaTinyA (binary64.hmul md CC.gammaTinyB x)) x) CC.gammaTinyC)| ≤ 6 / 10 := by
    have step : ∀ {zs : Bool} {v : ℝ} {b : ℕ} {B : ℝ}, binary64.RoundsTo md zs v b → |v| ≤ B → B ≤ 2 → binary64.Finite b ∧ |binary64.val b| ≤ B + 1 / 10 ^ 5 := by
      intro zs v b B R hB hB2
      obtain ⟨g1, g2⟩ := err64 R (by linarith)
      refine ⟨g1, le_trans (abs_near g2 hB) ?_⟩
      have := mul_le_mul hu1 (le_trans hB hB2) (abs_nonneg _) (by norm_num)
      linarith
    obtain ⟨g1, e1⟩ := step (binary64.hmul_spec md fB hx) (abs_mul_le vB hX) (by norm_num)
    obtain ⟨g2, e2⟩ := step (B := 1 + (1 * (1 / 10 ^ 6) + 1 / 10 ^ 5)) (binary64.hsub_spec md fA g1) (by rw [sub_eq_add_neg]; exact abs_add_le' vA (by rw [abs_neg]; exact e1)) (by norm_num)
    obtain ⟨g3, e3⟩ := step (binary64.hmul_spec md g2 hx) (abs_mul_le e2 hX) (by norm_num)
    obtain ⟨g4, e4⟩ := step (B := 2 / 10 ^ 5 + 58 / 100) (binary64.hsub_spec md g3 fC) (by rw [sub_eq_add_neg]; exact abs_add_le' (le_trans e3 (by norm_num)) (by rw [abs_neg]; exact vC)) (by norm_num)
    exact ⟨g4, le_trans e4 (by norm_num)⟩
  obtain ⟨fd, ed⟩ := hd
  generalize binary64.hsub md (binary64.hmul md (binary64.hsub md CC.gammaTinyA (binary64.hmul md CC.gammaTinyB x)) x) CC.gammaTinyC = d at fd ed ⊢
  have R := binary64.hdiv_spec md f1 hx hv
  have v1 : binary64.val 0x3FF0000000000000 = 1 := one64_val.2
  rw [v1] at R
  have hqabs : |1 / binary64.val x| = 1 / |binary64.val x| := by rw [abs_div, abs_one]
  have hqle : |1 / binary64.val x| ≤ (2 : ℝ) ^ (1023 : ℤ) := by
    rw [hqabs, div_le_iff₀ hX0]
    have := mul_le_mul_of_nonneg_left h1 (two_zpow_pos 1023).le
    rw [← zpow_add₀ (by norm_num), show (1023 : ℤ) + -1023 = 0 by norm_num, zpow_zero] at this
    exact this
  have hqge : 2 ^ 53 ≤ |1 / binary64.val x| := by
    rw [hqabs, le_div_iff₀ hX0]
    have := mul_le_mul_of_nonneg_left h2 (show (0 : ℝ) ≤ 2 ^ 53 by positivity)
    have c : (2 : ℝ) ^ 53 * (1 / 2 ^ 53) = 1 := by norm_num
    linarith
  have hbig : (10 : ℝ) ≤ (2 : ℝ) ^ (1023 : ℤ) := by
    have h := two_zpow_le (show (10 : ℤ) ≤ 1023 by norm_num)
    have c : (10 : ℝ) ≤ (2 : ℝ) ^ (10 : ℤ) := by norm_num
    exact le_trans c h
  obtain ⟨fQ, eQ⟩ := err64c R (le_trans hqle (by generalize (2 : ℝ) ^ (1023 : ℤ) = y at hbig; clear h1 hp hqle; linarith))
  generalize binary64.hdiv md 0x3FF0000000000000 x = Q at fQ eQ ⊢
  have hQb : |binary64.val Q + binary64.val d| ≤ 3 / 2 * (2 : ℝ) ^ (1023 : ℤ) := by
    have a := abs_near eQ hqle
    have b := mul_le_mul hu1 hqle (abs_nonneg _) (by norm_num)
    refine le_trans (abs_add_le' a ed) ?_
    generalize (2 : ℝ) ^ (1023 : ℤ) = y at *
    linarith
  obtain ⟨fr, er⟩ := err64c (binary64.hadd_spec md fQ fd) hQb
  refine ⟨fr, ?_⟩
  refine gm_tiny_aux hu hu2 (ru_ge md) hη0.le hη hqge eQ ed er ?_
  have hg := gamma_near_one (x := binary64.val x) (by linarith)
  rw [Real.Gamma_add_one hv] at hg
  have e : Real.Gamma (binary64.val x) - 1 / binary64.val x = (binary64.val x * Real.Gamma (binary64.val x) - 1) / binary64.val x := by
    field_simp
  rw [e, abs_div, div_le_iff₀ hX0]
  exact hg

example : binary64.Finite 0xBC670EF54646D497 ∧ (CC.gammaDouble true false .nearest 0xBC670EF54646D497).isSome = true := by decide +kernel

/-- **C68, violated.** `tgamma(171)`, which is `170!`, is off by more than 2^25 units of `2^-53` relative: the polynomial of degree 7 used by the general branch is good
to eight digits only. -/
theorem C68_tgamma_wrong : ∃ r, CC.gammaDouble true false .nearest 0x4065600000000000 = some r ∧ binary64.val 0x4065600000000000 = 171 ∧
    2 ^ 25 / 2 ^ 53 * Real.Gamma 171 < |binary64.val r - Real.Gamma 171| := by
  have e : CC.gammaDouble true false .nearest 0x4065600000000000 = some 0x7FA4AB786672E879 := by decide +kernel
  refine ⟨_, e, ?_, ?_⟩
  · rw [one64_val.val_of_ival' (a := 171) (by decide +kernel)]; norm_num
  · have hv : binary64.val 0x7FA4AB786672E879 = ((5818033137444985 * 2 ^ 967 : ℕ) : ℝ) := by
      rw [one64_val.val_of_ival' (a := ((5818033137444985 * 2 ^ 967 : ℕ) : ℤ)) (by decide +kernel)]; rw [Int.cast_natCast]
    have hG : Real.Gamma 171 = ((170).factorial : ℕ) := by
      rw [← Real.Gamma_nat_eq_factorial]; norm_num
    have hk : (2 ^ 28 + 1) * (170).factorial < 2 ^ 28 * (5818033137444985 * 2 ^ 967) := by decide +kernel
    rw [hv, hG]
    generalize 5818033137444985 * 2 ^ 967 = A at hk
    generalize (170).factorial = B at hk
    have hk' : ((2 : ℝ) ^ 28 + 1) * B < 2 ^ 28 * A := by exact_mod_cast hk
    have hB : (0 : ℝ) ≤ B := Nat.cast_nonneg _
    refine lt_of_lt_of_le ?_ (le_abs_self _)
    norm_num at hk' ⊢
    linarith

/-- C68: `tgamma(1/2)` is `√π` to `2^-14` in every mode: below its base interval the general branch divides by the product instead of multiplying. -/
theorem C68_tgamma_half (ce fused : Bool) (md : Mode) : ∃ r, CC.gammaDouble ce fused md 0x3FE0000000000000 = some r ∧ |binary64.val r - Real.Gamma (1 / 2)| ≤ 1 / 2 ^ 14 := by
  have h : ∃ r, CC.gammaDouble ce fused md 0x3FE0000000000000 = some r ∧ (binary64.mag r < binary64.infMag ∧ r < 2 ^ 64) ∧ binary64.hle 0x3FFC5BC000000000 r = true ∧
      binary64.hle r 0x3FFC5C0000000000 = true := by
    have : (CC.gammaDouble ce fused md 0x3FE0000000000000).any (fun r => decide ((binary64.mag r < binary64.infMag ∧ r < 2 ^ 64) ∧ binary64.hle 0x3FFC5BC000000000 r = true ∧
      binary64.hle r 0x3FFC5C0000000000 = true)) = true := by cases ce <;> cases fused <;> cases md <;> decide +kernel
    obtain ⟨r, h1, h2⟩ := (Option.any_eq_true _ _).1 this
    exact ⟨r, h1, of_decide_eq_true h2⟩
  obtain ⟨r, h1, ⟨h2, h3⟩, h4, h5⟩ := h
  refine ⟨r, h1, ?_⟩
  have hr : binary64.Finite r := (finite_iff _ _).2 ⟨h3, h2⟩
  have v1 : binary64.val 0x3FFC5BC000000000 = 116156 / 65536 := by
    rw [lit64 (x := 0x3FFC5BC000000000) false 0x1C5BC000000000 52 (by decide +kernel) (by decide +kernel) (by decide +kernel) (by decide +kernel), sg_false]; norm_num
  have v2 : binary64.val 0x3FFC5C0000000000 = 116160 / 65536 := by
    rw [lit64 (x := 0x3FFC5C0000000000) false 0x1C5C0000000000 52 (by decide +kernel) (by decide +kernel) (by decide +kernel) (by decide +kernel), sg_false]; norm_num
  rw [CC.hle_finite binary64 (by rw [finite_iff]; decide +kernel) hr, v1] at h4
  rw [CC.hle_finite binary64 hr (by rw [finite_iff]; decide +kernel), v2] at h5
  have p1 := Real.pi_gt_d4
  have p2 := Real.pi_lt_d4
  have s1 : (116156 / 65536 : ℝ) ≤ √π := Real.le_sqrt_of_sq_le (by norm_num; linarith)
  have s2 : √π ≤ (116160 / 65536 : ℝ) := Real.sqrt_le_iff.2 ⟨by norm_num, by norm_num; linarith⟩
  rw [Real.Gamma_one_half_eq, abs_le]
  norm_num at *
  constructor <;> linarith

end Verif
