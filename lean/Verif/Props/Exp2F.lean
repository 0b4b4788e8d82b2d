import Verif.Props.ExpF
import Verif.Props.Exp2

/-!
# Properties of the float `exp2` (C66)
-/

namespace Verif
open Fmt Real

/-- the part of `exp2Float` after the tests -/
def exp2fMain (md : Mode) (x : ℕ) : ℕ :=
  let xd := binary64.hcvt binary32 md x
  let ki := binary64.hadd md xd CC.exp2Shiftf
  let r := binary64.hsub md xd (binary64.hsub md ki CC.exp2Shiftf)
  let y := binary64.hadd md (binary64.hmul md (binary64.hadd md (binary64.hmul md CC.exp2Cf0 r) CC.exp2Cf1) (binary64.hmul md r r))
    (binary64.hadd md (binary64.hmul md CC.exp2Cf2 r) 0x3FF0000000000000)
  binary32.hcvt binary64 md (binary64.hmul md y (sBitsf ki))

theorem absTopf_ge128 {x : ℕ} (hx : x < 2 ^ 32) : 0x430 ≤ (x >>> 20) &&& 0x7ff ↔ 128 ≤ |binary32.val x| := by
  have v : binary32.val 0x43000000 = 128 := by
    rw [lit32 false 0x800000 16 (by decide +kernel) (by decide +kernel) (by decide +kernel) (by decide +kernel)]; norm_num [sg]
  have h := magf_le_iff (x := x) (y := 0x43000000) (by decide +kernel) (by rw [v]; norm_num)
  rw [v] at h
  rw [absTopf hx, ← h]
  omega

theorem val_m150 : binary32.val 0xC3160000 = -150 := by
  rw [lit32 true 0x960000 16 (by decide +kernel) (by decide +kernel) (by decide +kernel) (by decide +kernel)]; norm_num [sg]
theorem val_m149 : binary32.val 0xC3150000 = -149 := by
  rw [lit32 true 0x950000 16 (by decide +kernel) (by decide +kernel) (by decide +kernel) (by decide +kernel)]; norm_num [sg]
theorem val_z32 : binary32.val 0 = 0 := (binary32.val_eq_zero_iff _).2 (by decide +kernel)

theorem exp2Float_cases (md : Mode) {x : ℕ} (hx : binary32.Finite x) :
    (128 ≤ binary32.val x → CC.exp2Float md x = CC.exp2fOverflow md) ∧
    (binary32.val x < -149 → CC.exp2Float md x = CC.exp2fUnderflow md) ∧
    (-149 ≤ binary32.val x → binary32.val x < 128 → CC.exp2Float md x = exp2fMain md x) := by
  have f0 : binary32.Finite 0 := by decide +kernel
  have f1 : binary32.Finite 0xC3160000 := by decide +kernel
  have f2 : binary32.Finite 0xC3150000 := by decide +kernel
  have hT := absTopf_ge128 hx.valid
  have hi : FPBits.isInf binary32 x = false := by
    rw [FPBits.isInf_eq]; unfold infB
    have := ((binary32.finite_iff x).1 hx).2
    simp; omega
  have hn : FPBits.isNan binary32 x = false := by
    rw [FPBits.isNan_eq]; unfold nanB
    have := ((binary32.finite_iff x).1 hx).2
    simp; omega
  unfold CC.exp2Float
  simp only [hi, hn]
  rw [if_neg (by simp), if_neg (by simp)]
  refine ⟨fun h => ?_, fun h => ?_, fun h1 h2 => ?_⟩
  · rw [if_pos ⟨hT.2 (by rw [abs_of_pos (by linarith)]; exact h), by
      unfold hgt; rw [CC.hlt_finite binary32 f0 hx, val_z32]; linarith⟩]
  · have hT' := hT.2 (by rw [abs_of_neg (by linarith)]; linarith)
    rw [if_neg (by
      rintro ⟨-, hc⟩
      unfold hgt at hc; rw [CC.hlt_finite binary32 f0 hx, val_z32] at hc; linarith)]
    by_cases h3 : binary32.val x ≤ -150
    · rw [if_pos ⟨hT', by rw [CC.hle_finite binary32 hx f1, val_m150]; exact h3⟩]
    · rw [if_neg (by rintro ⟨-, hc⟩; rw [CC.hle_finite binary32 hx f1, val_m150] at hc; exact h3 hc),
        if_pos ⟨hT', by rw [CC.hlt_finite binary32 hx f2, val_m149]; exact h⟩]
  · rw [if_neg (by
      rintro ⟨hc1, hc⟩
      unfold hgt at hc; rw [CC.hlt_finite binary32 f0 hx, val_z32] at hc
      have := hT.1 hc1
      rw [abs_of_pos hc] at this; linarith), if_neg (by
      rintro ⟨-, hc⟩; rw [CC.hle_finite binary32 hx f1, val_m150] at hc; linarith), if_neg (by
      rintro ⟨-, hc⟩; rw [CC.hlt_finite binary32 hx f2, val_m149] at hc; linarith)]
    rfl

theorem prod_errf {md : Mode} {zs : Bool} {V E : ℝ} {b : ℕ} (R : binary64.RoundsTo md zs V b) (hV : |V - E| ≤ E * (1022 / 1000 * pf md + 1 / 2 ^ 45))
    (hE1 : 1 / 2 ^ 151 ≤ E) (hE2 : E ≤ 2 ^ 151) : binary64.Finite b ∧ |binary64.val b - E| ≤ E * (1022 / 1000 * pf md + 1 / 2 ^ 42) := by
  have hp := pf_le md
  have hp0 := pf_nonneg md
  have hE : 0 < E := lt_of_lt_of_le (by positivity) hE1
  have hu := ru_pos md
  have hu2 := ru_le md
  have hV2 : |V| ≤ E * 2 := by
    refine le_trans (abs_near hV (abs_of_pos hE).le) ?_
    have h4 : E * (1022 / 1000 * pf md + 1 / 2 ^ 45) ≤ E * (1 / 100) := mul_le_mul_of_nonneg_left (by
      have c : (1022 : ℝ) / 1000 * (1125 / 10 ^ 11) + 1 / 2 ^ 45 ≤ 1 / 100 := by norm_num
      linarith) hE.le
    linarith
  obtain ⟨g1, g2⟩ := err64 R (le_trans hV2 (by
    have c : (2 : ℝ) ^ 151 * 2 ≤ 2 ^ 200 := by norm_num
    linarith))
  refine ⟨g1, le_trans (abs_tri g2 hV) ?_⟩
  have h7 : ru md * |V| ≤ 1 / 2 ^ 52 * (E * 2) := mul_le_mul hu2 hV2 (abs_nonneg _) (by positivity)
  have h8 : eta ≤ E * (1 / 2 ^ 49) := by
    refine le_trans eta_le ?_
    have : (1 : ℝ) / 2 ^ 151 * (1 / 2 ^ 49) ≤ E * (1 / 2 ^ 49) := mul_le_mul_of_nonneg_right hE1 (by positivity)
    have c : (1 : ℝ) / 2 ^ 200 ≤ 1 / 2 ^ 151 * (1 / 2 ^ 49) := by norm_num
    linarith
  have h10 : E * (1 / 2 ^ 51 + 1 / 2 ^ 49 + 1 / 2 ^ 45) ≤ E * (1 / 2 ^ 42) := mul_le_mul_of_nonneg_left (by norm_num) hE.le
  linarith

theorem exp2f_max {X : ℝ} {x : ℕ} (hX : X = binary32.val x) (h : X < 128) : exp (X * log 2) ≤ 2 ^ 128 * (1 - 1 / 2 ^ 20) := by
  have h1 : X ≤ 128 - 1 / 2 ^ 17 := by
    by_cases hs : 64 ≤ |X|
    · by_cases h0 : 0 ≤ X
      · rw [hX] at hs
        obtain ⟨a, ha⟩ := mult17 hs
        rw [hX, ha] at h ⊢
        rw [div_lt_iff₀ (by norm_num)] at h
        have h2 : a < 128 * 2 ^ 17 := by exact_mod_cast h
        have h3 : a ≤ 128 * 2 ^ 17 - 1 := by omega
        have h4 : (a : ℝ) ≤ 128 * 2 ^ 17 - 1 := by exact_mod_cast h3
        rw [div_le_iff₀ (by norm_num)]
        linarith
      · have : (1 : ℝ) / 2 ^ 17 ≤ 1 := by norm_num
        linarith
    · have : (1 : ℝ) / 2 ^ 17 ≤ 1 := by norm_num
      have := (abs_lt.1 (not_le.1 hs)).2
      linarith
  obtain ⟨l1, l2⟩ := log2_bd
  have h2 : X * log 2 ≤ ((128 : ℤ) : ℝ) * log 2 + -(1 / 2 ^ 18) := by
    have h3 := mul_le_mul_of_nonneg_right h1 (show 0 ≤ log 2 by linarith)
    have h4 := mul_le_mul_of_nonneg_left l1 (show (0 : ℝ) ≤ 1 / 2 ^ 17 by positivity)
    have c : (1 : ℝ) / 2 ^ 18 ≤ 1 / 2 ^ 17 * (693147 / 10 ^ 6) := by norm_num
    push_cast; linarith
  refine le_trans (Real.exp_le_exp.2 h2) ?_
  rw [Real.exp_add, exp_int_log]
  have e : (2 : ℝ) ^ (128 : ℤ) = 2 ^ 128 := by norm_cast
  rw [e]
  refine mul_le_mul_of_nonneg_left ?_ (by positivity)
  have := (abs_le.1 (Real.abs_exp_sub_one_sub_id_le (x := -(1 / 2 ^ 18)) (by norm_num))).2
  norm_num at this ⊢
  linarith

/-- **C66.** For every finite float `x` from -149 up to, but not including, 128, `exp2(x)` is finite, not negative and within a relative error of
`1.02 · 2^-24` (round to nearest; `1.1 · 2^-23` in the directed modes) of `2^x`, plus half (once) the least subnormal.
Missing: the same bound between -150 and -149, where it does not hold in round-to-nearest (`C66_exp2f_underflow_wrong`). -/
theorem C66_exp2f_accuracy_partial (md : Mode) {x : ℕ} (hx : binary32.Finite x) (h1 : -149 ≤ binary32.val x) (h2 : binary32.val x < 128) :
    binary32.Finite (CC.exp2Float md x) ∧ 0 ≤ binary32.val (CC.exp2Float md x) ∧
      |binary32.val (CC.exp2Float md x) - (2 : ℝ) ^ (binary32.val x)| ≤
        (if md = .nearest then 1.02 / 2 ^ 24 else 1.1 / 2 ^ 23) * (2 : ℝ) ^ (binary32.val x) + (if md = .nearest then 1 / 2 else 1) * (2 : ℝ) ^ (-149 : ℤ) := by
  rw [(exp2Float_cases md hx).2.2 h1 h2, rpow_exp]
  obtain ⟨fx, vx⟩ := cvt_up md hx
  unfold exp2fMain
  simp only
  generalize binary64.hcvt binary32 md x = xd at *
  obtain ⟨c1, c2, c3⟩ := expf_core md 5 (z := xd) (sh := CC.exp2Shiftf) (a0 := CC.exp2Cf0) (a1 := CC.exp2Cf1) (a2 := CC.exp2Cf2) (w := 1) (by norm_num) (by decide +kernel)
    (by norm_num) (by norm_num) (by norm_num) (by decide +kernel) (by decide +kernel) (by decide +kernel) (by norm_num) (by norm_num) (by norm_num) fx
    (by rw [vx, abs_le]; constructor <;> linarith) (by rw [vx, mul_one, abs_le]; constructor <;> linarith)
  rw [mul_one, vx] at c3
  have hE1 : 1 / 2 ^ 151 ≤ exp (binary32.val x * log 2) := by
    obtain ⟨l1, l2⟩ := log2_bd
    have h : ((-151 : ℤ) : ℝ) * log 2 ≤ binary32.val x * log 2 := mul_le_mul_of_nonneg_right (by push_cast; linarith) (by linarith)
    have := Real.exp_le_exp.2 h
    rw [exp_int_log] at this
    refine le_trans (le_of_eq ?_) this
    rw [zpow_neg, one_div]; norm_cast
  have hE3 := exp2f_max rfl h2
  obtain ⟨d1, d2⟩ := prod_errf (binary64.hmul_spec md c2 c1) (by rw [mul_comm (binary64.val _)]; exact c3) hE1 (le_trans hE3 (by norm_num))
  obtain ⟨g1, g2, g3⟩ := expf_final (CC.hcvt_spec binary32 binary64 md d1) (Real.exp_pos _) d2 hE3
  refine ⟨g1, g2, le_trans g3 (le_of_eq ?_)⟩
  rw [← mul_assoc, ruf_K, etaf_eq, hf]

-- exp2(0.5), exp2(-148.5), exp2(127.99999)
example : CC.exp2Float .nearest 0x3F000000 = 0x3FB504F3 ∧ CC.exp2Float .nearest 0xC3148000 = 1 ∧ CC.exp2Float .nearest 0x42FFFFFF = 0x7F7FFFA7 := by decide +kernel

/-- **C66.** From 128 on `2^x` is at least `2^128`, and the result is the overflow result of the rounding mode. -/
theorem C66_exp2f_overflow (md : Mode) {x : ℕ} (hx : binary32.Finite x) (h : 128 ≤ binary32.val x) :
    CC.exp2Float md x = if md = .nearest ∨ md = .up then 0x7F800000 else 0x7F7FFFFF := by
  rw [(exp2Float_cases md hx).1 h]
  cases md <;> decide +kernel

example : CC.exp2Float .nearest 0x43000000 = 0x7F800000 ∧ CC.exp2Float .zero 0x43000000 = 0x7F7FFFFF := by decide +kernel

/-- **C66.** Up to -150 the result is the correctly rounded one: `2^x` is positive and at most half the least subnormal, and the result is the least subnormal
in the mode upward, otherwise zero. -/
theorem C66_exp2f_underflow (md : Mode) {x : ℕ} (hx : binary32.Finite x) (h : binary32.val x ≤ -150) :
    (2 : ℝ) ^ (binary32.val x) ≤ 2 ^ (-150 : ℤ) ∧ CC.exp2Float md x = if md = .up then 1 else 0 := by
  constructor
  · rw [← Real.rpow_intCast]
    exact Real.rpow_le_rpow_of_exponent_le (by norm_num) (by push_cast; exact h)
  · rw [(exp2Float_cases md hx).2.1 (by linarith)]
    cases md <;> decide +kernel

/-- **C66, negation.** Between -150 and -149 the result is zero in round-to-nearest although the least subnormal is nearer to `2^x`. -/
theorem C66_exp2f_underflow_wrong {x : ℕ} (hx : binary32.Finite x) (h1 : -150 < binary32.val x) (h2 : binary32.val x < -149) :
    CC.exp2Float .nearest x = 0 ∧ |binary32.val 1 - (2 : ℝ) ^ (binary32.val x)| < |binary32.val 0 - (2 : ℝ) ^ (binary32.val x)| := by
  refine ⟨by rw [(exp2Float_cases _ hx).2.1 h2]; decide +kernel, ?_⟩
  have e1 : (2 : ℝ) ^ (-150 : ℤ) < 2 ^ (binary32.val x) := by
    rw [← Real.rpow_intCast]
    exact Real.rpow_lt_rpow_of_exponent_lt (by norm_num) (by push_cast; exact h1)
  have e2 : (2 : ℝ) ^ (binary32.val x) < 2 ^ (-149 : ℤ) := by
    rw [← Real.rpow_intCast]
    exact Real.rpow_lt_rpow_of_exponent_lt (by norm_num) (by push_cast; exact h2)
  have e : (2 : ℝ) ^ (-149 : ℤ) = 2 * 2 ^ (-150 : ℤ) := by
    rw [show (-149 : ℤ) = -150 + 1 by norm_num, two_zpow_succ]
  have h3 : (0 : ℝ) < 2 ^ (binary32.val x) := by positivity
  rw [val_z32, val_one_sub, zero_sub, abs_neg, abs_of_pos h3, abs_of_pos (by linarith)]
  linarith

-- -149.5
example : binary32.Finite 0xC3158000 ∧ binary32.hlt 0xC3160000 0xC3158000 = true ∧ binary32.hlt 0xC3158000 0xC3150000 = true ∧ CC.exp2Float .nearest 0xC3158000 = 0 := by decide +kernel

/-- **C66.** For an integer argument whose power of two is representable, `exp2` returns that power exactly, in every rounding mode. -/
theorem C66_exp2f_integer (md : Mode) {x : ℕ} {n : ℤ} (hx : binary32.Finite x) (hn : binary32.val x = n) (h1 : -149 ≤ n) (h2 : n ≤ 127) :
    binary32.Finite (CC.exp2Float md x) ∧ binary32.val (CC.exp2Float md x) = (2 : ℝ) ^ n := by
  have hR1 : (-149 : ℝ) ≤ n := by exact_mod_cast h1
  have hR2 : (n : ℝ) ≤ 127 := by exact_mod_cast h2
  rw [(exp2Float_cases md hx).2.2 (by rw [hn]; exact hR1) (by rw [hn]; linarith)]
  obtain ⟨fx, vx⟩ := cvt_up md hx
  unfold exp2fMain
  simp only
  generalize binary64.hcvt binary32 md x = xd at *
  rw [hn] at vx
  obtain ⟨k, k1, -, k3, k4, k5⟩ := shift64' md 5 (by norm_num) (sh := CC.exp2Shiftf) fx (by decide +kernel) (by rw [vx, abs_le]; constructor <;> linarith)
  have e5 : (2 : ℝ) ^ (-((5 : ℕ) : ℤ)) = 1 / 32 := by norm_num
  rw [e5] at k4 k5
  have hk : k = 32 * n := by
    rw [vx] at k5
    have e : (n : ℝ) - k * (1 / 32) = ((32 * n - k : ℤ) : ℝ) * (1 / 32) := by push_cast; ring
    rw [e, abs_mul, abs_of_pos (show (0 : ℝ) < 1 / 32 by norm_num)] at k5
    have h1 : |((32 * n - k : ℤ) : ℝ)| < 1 := by linarith
    have h2 : |32 * n - k| < 1 := by exact_mod_cast h1
    have := abs_lt.1 h2
    omega
  have hsb := sBitsf_mod (k := k) 5 (by norm_num) k1
  rw [hk, show 4 * (32 * n) = 128 * n by ring] at hsb
  obtain ⟨fs, vs⟩ := scale_int hsb (by omega) (by omega)
  rw [add_zero] at vs
  obtain ⟨fr, vr⟩ := zsub (md := md) fx k3 (by rw [k4, vx, hk]; push_cast; ring)
  generalize binary64.hsub md xd (binary64.hsub md (binary64.hadd md xd CC.exp2Shiftf) CC.exp2Shiftf) = r at *
  generalize sBitsf (binary64.hadd md xd CC.exp2Shiftf) = S at *
  have fC0 : binary64.Finite CC.exp2Cf0 := by decide +kernel
  have fC1 : binary64.Finite CC.exp2Cf1 := by decide +kernel
  have fC2 : binary64.Finite CC.exp2Cf2 := by decide +kernel
  have fone : binary64.Finite 0x3FF0000000000000 := by decide +kernel
  obtain ⟨a1, b1⟩ := zmul (md := md) fC0 fr (by rw [vr, mul_zero])
  obtain ⟨a2, b2⟩ := zmul (md := md) fC2 fr (by rw [vr, mul_zero])
  obtain ⟨a3, b3⟩ := zmul (md := md) fr fr (by rw [vr, mul_zero])
  have f4 : binary64.Finite (binary64.hadd md (binary64.hmul md CC.exp2Cf0 r) CC.exp2Cf1) := by
    have R := binary64.hadd_spec md a1 fC1
    rw [b1, zero_add] at R
    exact (RoundsTo.exact binary64 fC1 rfl R).1
  obtain ⟨a5, b5⟩ := zmul (md := md) f4 a3 (by rw [b3, mul_zero])
  have h6 : binary64.Finite (binary64.hadd md (binary64.hmul md CC.exp2Cf2 r) 0x3FF0000000000000) ∧
      binary64.val (binary64.hadd md (binary64.hmul md CC.exp2Cf2 r) 0x3FF0000000000000) = 1 := by
    have R := binary64.hadd_spec md a2 fone
    rw [b2, zero_add] at R
    obtain ⟨c, d⟩ := RoundsTo.exact binary64 fone rfl R
    exact ⟨c, by rw [d, val_one64]⟩
  obtain ⟨a6, b6⟩ := h6
  have h7 : ∀ a b, binary64.Finite a → binary64.Finite b → binary64.val a = 0 → binary64.val b = 1 → binary64.Finite (binary64.hadd md a b) ∧ binary64.val (binary64.hadd md a b) = 1 := by
    intro a b fa fb va vb
    have R := binary64.hadd_spec md fa fb
    rw [va, zero_add] at R
    obtain ⟨c, d⟩ := RoundsTo.exact binary64 fb rfl R
    exact ⟨c, by rw [d, vb]⟩
  obtain ⟨a7, b7⟩ := h7 _ _ a5 a6 b5 b6
  have R8 := binary64.hmul_spec md a7 fs
  rw [b7, one_mul] at R8
  obtain ⟨a8, b8⟩ := RoundsTo.exact binary64 fs rfl R8
  rw [vs] at b8
  have R9 := CC.hcvt_spec binary32 binary64 md a8
  rw [b8] at R9
  obtain ⟨c, c1, c2⟩ := binary32.rep (g := n) (v := (2 : ℝ) ^ n) ⟨1, by simp⟩ h1 (by
    rw [abs_of_pos (two_zpow_pos _)]; exact two_zpow_le (by omega)) (by
    rw [abs_of_pos (two_zpow_pos _)]
    exact two_zpow_lt (show n < 128 by omega))
  exact RoundsTo.exact binary32 c1 c2 R9

-- 10, -149 and 127
example : binary32.val 0x41200000 = ((10 : ℤ) : ℝ) := by
  rw [lit32 false 0xA00000 20 (by decide +kernel) (by decide +kernel) (by decide +kernel) (by decide +kernel)]; norm_num [sg]
example : CC.exp2Float .up 0x41200000 = 0x44800000 ∧ CC.exp2Float .down 0xC3150000 = 1 ∧ CC.exp2Float .nearest 0x42FE0000 = 0x7F000000 := by decide +kernel

/-- **C66.** Special arguments: `exp2(±0) = 1`, `exp2(+∞) = +∞`, `exp2(-∞) = +0`, and a NaN gives a NaN. -/
theorem C66_exp2f_special (md : Mode) :
    CC.exp2Float md 0 = 0x3F800000 ∧ CC.exp2Float md 0x80000000 = 0x3F800000 ∧ CC.exp2Float md 0x7F800000 = 0x7F800000 ∧ CC.exp2Float md 0xFF800000 = 0 ∧
      ∀ x, binary32.IsNaN x → binary32.IsNaN (CC.exp2Float md x) := by
  refine ⟨by cases md <;> decide +kernel, by cases md <;> decide +kernel, by cases md <;> decide +kernel, by cases md <;> decide +kernel, ?_⟩
  intro x hx
  have hT : binary32.bexp x = 255 := hx.2.1
  have hT' : 0x7f8 ≤ (x >>> 20) &&& 0x7ff := by
    rw [absTopf hx.1]
    have h2 : binary32.bexp x = binary32.mag x / 2 ^ 23 := rfl
    omega
  have hnb := (binary32.nanB_iff hx.1).2 hx
  unfold CC.exp2Float
  simp only
  rw [if_neg (by
    rintro ⟨-, hc⟩
    rw [FPBits.isInf_eq] at hc
    unfold infB at hc
    unfold nanB at hnb
    simp at hc hnb
    omega), if_pos ⟨by omega, by rw [FPBits.isNan_eq]; exact hnb⟩]
  unfold hadd
  rw [if_pos (by rw [hnb]; simp)]
  exact binary32.isNaN_qnan

end Verif
