import Verif.Lemmas.SinCos6
import Verif.Props.Trig
import Verif.Props.Fma

/-!
# Properties of the double sine, cosine and tangent (C58, C59)

`ce` is constant evaluation (which is always in round-to-nearest, hypothesis `hce`), `fused` whether `multiply_add` is a fused operation, `md` the
rounding mode.  Errors are measured in `u = 2^-53` in round-to-nearest and `u = 2^-52` in the other modes.
-/

namespace Verif
open Fmt

theorem abs_val_lt_pat {x c : ℕ} (h : binary64.mag x < binary64.mag c) : |binary64.val x| < |binary64.val c| := by
  rw [binary64.abs_val, binary64.abs_val]
  have : binary64.umag (binary64.mag x) < binary64.umag (binary64.mag c) := binary64.umag_lt_iff.2 h
  exact mul_lt_mul_of_pos_right (by exact_mod_cast this) binary64.minSub_pos

theorem abs_val_le_pat {x c : ℕ} (h : binary64.mag x ≤ binary64.mag c) : |binary64.val x| ≤ |binary64.val c| := by
  rw [binary64.abs_val, binary64.abs_val]
  have : binary64.umag (binary64.mag x) ≤ binary64.umag (binary64.mag c) := binary64.umag_le_iff.2 h
  exact mul_le_mul_of_nonneg_right (by exact_mod_cast this) binary64.minSub_pos.le

theorem val_2p20 : |binary64.val 0x4130000000000000| = 2 ^ 20 := by
  rw [lit64 false (2 ^ 52) 32 (by decide +kernel) (by decide +kernel) (by decide +kernel) (by decide +kernel)]
  norm_num [sg]

/-- both results for any finite argument -/
theorem sincosEval_spec (ce fused : Bool) (md : Mode) (hce : ce = true → md = .nearest) {x : ℕ} (hx : binary64.Finite x) :
    (∃ r, CC.sincosEval true ce fused md x = some r ∧ binary64.Finite r ∧ |binary64.val r - Real.sin (binary64.val x)| ≤ 5.5 * ru md ∧
      |binary64.val r - Real.sin (binary64.val x)| ≤ 30 * ru md * |Real.sin (binary64.val x)| + 1 / 2 ^ 95 ∧
      |binary64.val r - Real.sin (binary64.val x)| ≤ 600 * ru md * |Real.sin (binary64.val x)| + 12 * eta) ∧
    (∃ r, CC.sincosEval false ce fused md x = some r ∧ binary64.Finite r ∧ |binary64.val r - Real.cos (binary64.val x)| ≤ 5.5 * ru md ∧
      |binary64.val r - Real.cos (binary64.val x)| ≤ 30 * ru md * |Real.cos (binary64.val x)| + 1 / 2 ^ 95 ∧
      |binary64.val r - Real.cos (binary64.val x)| ≤ 600 * ru md * |Real.cos (binary64.val x)| + 12 * eta) := by
  have hu := ru_pos md
  have em : x &&& 0x7fffffffffffffff = binary64.mag x := Nat.and_two_pow_sub_one_eq_mod x 63
  obtain ⟨p1, p2⟩ := pi_near
  have hm := ((binary64.finite_iff x).1 hx).2
  have hi : binary64.infMag = 0x7ff0000000000000 := by decide +kernel
  rw [hi] at hm
  unfold CC.sincosEval
  dsimp only
  rw [em]
  by_cases h0 : binary64.mag x = 0
  · have hv := (binary64.val_eq_zero_iff x).2 h0
    obtain ⟨q1, q2⟩ := pow2_64 false 0 (by norm_num) (by norm_num)
    have q3 : binary64.val (CC.pow2 binary64 false 0) = 1 := by rw [q2]; simp [sg]
    rw [if_pos h0, if_pos h0, hv]
    refine ⟨⟨x, rfl, hx, ?_⟩, _, rfl, q1, ?_⟩
    · rw [hv, Real.sin_zero, sub_zero, abs_zero]
      have := eta_pos
      refine ⟨?_, ?_, ?_⟩ <;> positivity
    · rw [if_neg (by simp), q3, Real.cos_zero, sub_self, abs_zero]
      have := eta_pos
      refine ⟨?_, ?_, ?_⟩ <;> positivity
  rw [if_neg h0, if_neg h0]
  by_cases h1 : binary64.mag x < 0x4130000000000000
  · rw [if_pos h1, if_pos h1]
    have hb : |binary64.val x| < 2 ^ 20 := by
      rw [← val_2p20]
      exact (abs_val_lt_pat (c := 0x4130000000000000) (by
        rw [show binary64.mag 0x4130000000000000 = 0x4130000000000000 from by decide +kernel]; exact h1))
    obtain ⟨K, y, e1, fy, d1, d0, d2, bK⟩ := sincosSmall_spec ce fused md hce hx hb.le
    rw [e1]
    have hk : (K % 2 ^ 32).toNat < 2 ^ 32 := by omega
    have hK : K % 16 = (((K % 2 ^ 32).toNat % 16 : ℕ) : ℤ) := by omega
    have hY : |binary64.val x - K * (Real.pi / 8)| ≤ 0.197 := by
      refine le_trans d1 ?_
      have : (1 / 2 + 1 / 2 ^ 28) * (Real.pi / 8) ≤ (1 / 2 + 1 / 2 ^ 28) * (3.1416 / 8) := mul_le_mul_of_nonneg_left (by linarith) (by norm_num)
      exact le_trans this (by norm_num)
    have d3 : |binary64.val y - (binary64.val x - K * (Real.pi / 8))| ≤
        (2 + 1 / 2 ^ 20) * ru md * |binary64.val x - K * (Real.pi / 8)| + 1 / 2 ^ 96 := by
      refine le_trans d2 (add_le_add le_rfl ?_)
      have : |(K : ℝ)| * ru md ≤ 2 ^ 22 * (1 / 2 ^ 52) := mul_le_mul bK (ru_le md) hu.le (by norm_num)
      linarith
    obtain ⟨a, b⟩ := core64 fused md hk hK fy hY d3 (by
      intro h4
      by_cases hK0 : K = 0
      · have := d0 hK0
        rw [this, hK0]
        have e : binary64.val x - (binary64.val x - ((0 : ℤ) : ℝ) * (Real.pi / 8)) = 0 := by push_cast; ring
        rw [e, abs_zero]; positivity
      · have hk4 : (4 : ℝ) ≤ |(K : ℝ)| := by
          have : 4 ≤ |K| := by
            rcases abs_cases K with ⟨h, h'⟩ | ⟨h, h'⟩ <;> rw [h] <;> omega
          exact_mod_cast this
        have hd : |(K : ℝ)| * (Real.pi / 8) ≤ |binary64.val x| + 0.197 := by
          have h2 : |(K : ℝ) * (Real.pi / 8)| ≤ |binary64.val x| + 0.197 := abs_near (by rw [abs_sub_comm]; exact hY) le_rfl
          rwa [abs_mul, abs_of_pos (by linarith : 0 < Real.pi / 8)] at h2
        have l := halfpi64_small hx (by nlinarith) hb (K / 4)
        rw [← axis_eq h4] at l
        exact small_axis_d hu hd hk4 l d2)
    exact ⟨⟨_, rfl, a⟩, _, rfl, b⟩
  · rw [if_neg h1, if_neg h1, if_neg (by omega), if_neg (by omega)]
    have hb20 : (2 : ℝ) ^ 20 ≤ |binary64.val x| := by
      rw [← val_2p20]
      refine abs_val_le_pat ?_
      rw [show binary64.mag 0x4130000000000000 = 0x4130000000000000 from by decide +kernel]; omega
    have hb : 1 / 2 ^ 201 ≤ |binary64.val x| := le_trans (by norm_num) hb20
    have hx8 : 1 / 8 ≤ |binary64.val x| := le_trans (by norm_num) hb20
    obtain ⟨fy, K, e1, d1, d2⟩ := payneHanek_spec fused md hx (bexp_of_ge hb)
    have hY : |binary64.val x - K * (Real.pi / 8)| ≤ 0.197 := by
      refine le_trans d1 ?_
      have : (1 / 2 + 1 / 2 ^ 200) * (Real.pi / 8) ≤ (1 / 2 + 1 / 2 ^ 200) * (3.1416 / 8) := mul_le_mul_of_nonneg_left (by linarith) (by norm_num)
      exact le_trans this (by norm_num)
    have d3 : |binary64.val (CC.payneHanek fused md x).2 - (binary64.val x - K * (Real.pi / 8))| ≤
        (2 + 1 / 2 ^ 20) * ru md * |binary64.val x - K * (Real.pi / 8)| + 1 / 2 ^ 96 := by
      refine le_trans d2 (add_le_add (mul_le_mul_of_nonneg_right (mul_le_mul_of_nonneg_right (by norm_num) hu.le) (abs_nonneg _)) (by
        have := ru_le md; linarith))
    obtain ⟨a, b⟩ := core64 fused md (k := (CC.payneHanek fused md x).1) (by omega) (by omega) fy hY d3 (by
      intro h4
      have l := halfpi64 hx hx8 (K / 4)
      rw [← axis_eq h4] at l
      exact ph_axis_d hu l d2)
    exact ⟨⟨_, rfl, a⟩, _, rfl, b⟩

/-- C58: for every finite double, in every rounding mode and with or without a fused multiply-add, `sin` returns a finite number within `5.5 u` of the
mathematical sine. -/
theorem C58_sin_absolute (ce fused : Bool) (md : Mode) (hce : ce = true → md = .nearest) {x : ℕ} (hx : binary64.Finite x) :
    ∃ r, CC.sincosEval true ce fused md x = some r ∧ binary64.Finite r ∧
      |binary64.val r - Real.sin (binary64.val x)| ≤ 5.5 * (if md = .nearest then 1 / 2 ^ 53 else 1 / 2 ^ 52) := by
  obtain ⟨⟨r, a, b, c, -, -⟩, -⟩ := sincosEval_spec ce fused md hce hx
  exact ⟨r, a, b, c⟩

/-- C58: the same for `cos`. -/
theorem C58_cos_absolute (ce fused : Bool) (md : Mode) (hce : ce = true → md = .nearest) {x : ℕ} (hx : binary64.Finite x) :
    ∃ r, CC.sincosEval false ce fused md x = some r ∧ binary64.Finite r ∧
      |binary64.val r - Real.cos (binary64.val x)| ≤ 5.5 * (if md = .nearest then 1 / 2 ^ 53 else 1 / 2 ^ 52) := by
  obtain ⟨-, r, a, b, c, -, -⟩ := sincosEval_spec ce fused md hce hx
  exact ⟨r, a, b, c⟩

/-- `1e22`, reduced by Payne-Hanek, and `cos 1` -/
example : binary64.Finite 0x4480F0CF064DD592 ∧ CC.sincosEval true false true .nearest 0x4480F0CF064DD592 = some 0xBFEB453AB76BF397 ∧
    CC.sincosEval false true false .nearest 0x3FF0000000000000 = some 0x3FE14A280FB5068C := by decide +kernel

/-- C58, error of `sin` relative to the result, for every finite double: at most `600 u` and twelve least subnormals.  `C58_relative_attained` shows that
a bound below `48 u` does not hold. -/
theorem C58_sin_relative (ce fused : Bool) (md : Mode) (hce : ce = true → md = .nearest) {x : ℕ} (hx : binary64.Finite x) :
    ∃ r, CC.sincosEval true ce fused md x = some r ∧ binary64.Finite r ∧ |binary64.val r - Real.sin (binary64.val x)| ≤
      600 * (if md = .nearest then 1 / 2 ^ 53 else 1 / 2 ^ 52) * |Real.sin (binary64.val x)| + 12 * binary64.minSub := by
  obtain ⟨⟨r, a, b, -, -, c⟩, -⟩ := sincosEval_spec ce fused md hce hx
  exact ⟨r, a, b, c⟩

/-- C58, error of `sin` relative to the result up to `2^-95`: at most `30 u`. -/
theorem C58_sin_mixed (ce fused : Bool) (md : Mode) (hce : ce = true → md = .nearest) {x : ℕ} (hx : binary64.Finite x) :
    ∃ r, CC.sincosEval true ce fused md x = some r ∧ binary64.Finite r ∧ |binary64.val r - Real.sin (binary64.val x)| ≤
      30 * (if md = .nearest then 1 / 2 ^ 53 else 1 / 2 ^ 52) * |Real.sin (binary64.val x)| + 1 / 2 ^ 95 := by
  obtain ⟨⟨r, a, b, -, c, -⟩, -⟩ := sincosEval_spec ce fused md hce hx
  exact ⟨r, a, b, c⟩

/-- C58, error of `cos` relative to the result, for every finite double: at most `600 u` and twelve least subnormals.  `C58_relative_attained` shows that
a bound below `48 u` does not hold. -/
theorem C58_cos_relative (ce fused : Bool) (md : Mode) (hce : ce = true → md = .nearest) {x : ℕ} (hx : binary64.Finite x) :
    ∃ r, CC.sincosEval false ce fused md x = some r ∧ binary64.Finite r ∧ |binary64.val r - Real.cos (binary64.val x)| ≤
      600 * (if md = .nearest then 1 / 2 ^ 53 else 1 / 2 ^ 52) * |Real.cos (binary64.val x)| + 12 * binary64.minSub := by
  obtain ⟨-, r, a, b, -, -, c⟩ := sincosEval_spec ce fused md hce hx
  exact ⟨r, a, b, c⟩

/-- C58, error of `cos` relative to the result up to `2^-95`: at most `30 u`. -/
theorem C58_cos_mixed (ce fused : Bool) (md : Mode) (hce : ce = true → md = .nearest) {x : ℕ} (hx : binary64.Finite x) :
    ∃ r, CC.sincosEval false ce fused md x = some r ∧ binary64.Finite r ∧ |binary64.val r - Real.cos (binary64.val x)| ≤
      30 * (if md = .nearest then 1 / 2 ^ 53 else 1 / 2 ^ 52) * |Real.cos (binary64.val x)| + 1 / 2 ^ 95 := by
  obtain ⟨-, r, a, b, -, c, -⟩ := sincosEval_spec ce fused md hce hx
  exact ⟨r, a, b, c⟩

/-- the double nearest to `π` -/
example : binary64.Finite 0x400921FB54442D18 ∧ CC.sincosEval true false false .nearest 0x400921FB54442D18 = some 0x3CA1A62633145C07 := by decide +kernel

theorem sincosEval_ge {isSin ce fused : Bool} {md : Mode} {x : ℕ} (h : 0x7ff0000000000000 ≤ binary64.mag x) :
    CC.sincosEval isSin ce fused md x = some (FPBits.quietNaN binary64 false 0) ∨ CC.sincosEval isSin ce fused md x = some binary64.qnan := by
  have em : x &&& 0x7fffffffffffffff = binary64.mag x := Nat.and_two_pow_sub_one_eq_mod x 63
  unfold CC.sincosEval
  dsimp only
  rw [em, if_neg (by omega), if_neg (by omega), if_pos h]
  split_ifs
  · exact Or.inl rfl
  · right
    have : binary64.nanB (FPBits.quietNaN binary64 false 0) = true := by decide +kernel
    unfold Fmt.hadd
    rw [this, Bool.or_true, if_pos rfl]

/-- C58: an infinity or any NaN gives a quiet NaN. -/
theorem C58_nonfinite (isSin ce fused : Bool) (md : Mode) {x : ℕ} (hx : binary64.IsInf x ∨ binary64.IsNaN x) :
    ∃ r, CC.sincosEval isSin ce fused md x = some r ∧ IsQuietNaN binary64 r := by
  have hi : binary64.infMag = 0x7ff0000000000000 := by decide +kernel
  have h : 0x7ff0000000000000 ≤ binary64.mag x := by
    rcases hx with h | h
    · have := (binary64.infB_iff h.1).2 h
      unfold infB at this
      simp at this
      omega
    · have := ((binary64.isNaN_iff x).1 h).2
      omega
  have hq : IsQuietNaN binary64 binary64.qnan := by
    constructor <;> decide +kernel
  rcases sincosEval_ge (isSin := isSin) (ce := ce) (fused := fused) (md := md) h with e | e
  · exact ⟨_, e, quietNaN_quiet binary64 false 0⟩
  · exact ⟨_, e, hq⟩

/-- a signaling NaN -/
example : binary64.IsNaN 0x7FF0000000000001 ∧ CC.sincosEval true false true .nearest 0x7FF0000000000001 = some 0x7FF8000000000000 := by decide +kernel

/-- C58: `sin(±0)` is the argument, sign included, and `cos(±0) = 1`. -/
theorem C58_zero (ce fused : Bool) (md : Mode) (s : Bool) :
    CC.sincosEval true ce fused md (binary64.zero s) = some (binary64.zero s) ∧
    CC.sincosEval false ce fused md (binary64.zero s) = some 0x3FF0000000000000 := by
  have h1 : ∀ s, binary64.zero s &&& 0x7fffffffffffffff = 0 := by decide +kernel
  have h2 : CC.pow2 binary64 false 0 = 0x3FF0000000000000 := by decide +kernel
  unfold CC.sincosEval
  dsimp only
  rw [h1, if_pos rfl, if_pos rfl, h2]
  exact ⟨rfl, rfl⟩

/-- C58: no argument of either function leads to undefined behaviour (the conversion of the quotient to `int` is always in range). -/
theorem C58_defined (isSin ce fused : Bool) (md : Mode) (hce : ce = true → md = .nearest) {x : ℕ} (hx : binary64.Valid x) :
    (CC.sincosEval isSin ce fused md x).isSome := by
  by_cases hf : binary64.Finite x
  · obtain ⟨⟨r, a, -⟩, r', a', -⟩ := sincosEval_spec ce fused md hce hf
    cases isSin
    · rw [a']; rfl
    · rw [a]; rfl
  · have hi : binary64.infMag = 0x7ff0000000000000 := by decide +kernel
    rw [binary64.finite_iff] at hf
    rcases sincosEval_ge (isSin := isSin) (ce := ce) (fused := fused) (md := md) (x := x) (by
      by_contra hc; exact hf ⟨hx, by omega⟩) with e | e <;> rw [e] <;> rfl

/-- the largest argument of the small reduction -/
example : binary64.Valid 0xC12FFFFFFFFFFFFF ∧ CC.toInt32 binary64 (CC.nearestInteger binary64 false .up (binary64.hmul .up 0xC12FFFFFFFFFFFFF CC.oneOverPi)) =
    some (-2670177) := by decide +kernel

/-- C58, small arguments: up to `3/16` no reduction takes place, and the error of `sin` is at most `3.3 u` relative (plus an underflow term). -/
theorem C58_sin_small (ce fused : Bool) (md : Mode) (hce : ce = true → md = .nearest) {x : ℕ} (hx : binary64.Finite x)
    (hs : |binary64.val x| ≤ 3 / 16) :
    ∃ r, CC.sincosEval true ce fused md x = some r ∧ binary64.Finite r ∧ |binary64.val r - Real.sin (binary64.val x)| ≤
      3.3 * (if md = .nearest then 1 / 2 ^ 53 else 1 / 2 ^ 52) * |Real.sin (binary64.val x)| + 12 * binary64.minSub := by
  change ∃ r, _ ∧ _ ∧ _ ≤ 3.3 * ru md * _ + 12 * eta
  have hu := ru_pos md
  have hη := eta_pos
  have em : x &&& 0x7fffffffffffffff = binary64.mag x := Nat.and_two_pow_sub_one_eq_mod x 63
  obtain ⟨p1, p2⟩ := pi_near
  unfold CC.sincosEval
  dsimp only
  rw [em]
  by_cases h0 : binary64.mag x = 0
  · have hv := (binary64.val_eq_zero_iff x).2 h0
    rw [if_pos h0, hv]
    refine ⟨x, rfl, hx, ?_⟩
    rw [hv, Real.sin_zero, sub_zero, abs_zero]
    positivity
  rw [if_neg h0]
  have h1 : binary64.mag x < 0x4130000000000000 := by
    by_contra hc
    have : (2 : ℝ) ^ 20 ≤ |binary64.val x| := by
      rw [← val_2p20]
      refine abs_val_le_pat ?_
      rw [show binary64.mag 0x4130000000000000 = 0x4130000000000000 from by decide +kernel]; omega
    have : (2 : ℝ) ^ 20 ≤ 3 / 16 := le_trans this hs
    norm_num at this
  rw [if_pos h1]
  obtain ⟨K, y, e1, fy, d1, d0, -, -⟩ := sincosSmall_spec ce fused md hce hx (le_trans hs (by norm_num))
  have hK : K = 0 := by
    by_contra hc
    have h1 : 1 ≤ |(K : ℝ)| := by
      have := Int.one_le_abs hc
      exact_mod_cast this
    have h2 : |(K : ℝ) * (Real.pi / 8)| ≤ 3 / 16 + (1 / 2 + 1 / 2 ^ 28) * (Real.pi / 8) := abs_near (by rw [abs_sub_comm]; exact d1) hs
    rw [abs_mul, abs_of_pos (by linarith : 0 < Real.pi / 8)] at h2
    nlinarith
  subst hK
  rw [e1]
  have hv := d0 rfl
  obtain ⟨⟨s1, -, s3⟩, -⟩ := poly64 fused md (k := 0) (y := y) (by norm_num) fy (by rw [hv]; exact le_trans hs (by norm_num))
  refine ⟨_, rfl, s1, ?_⟩
  have s3 := s3 (by norm_num)
  rw [hv] at s3
  have e0 : (((0 % 16 : ℕ) : ℝ)) * (Real.pi / 8) + binary64.val x = binary64.val x := by norm_num
  rw [e0] at s3
  refine le_trans s3 ?_
  have := abs_le_sin (Y := binary64.val x) (le_trans hs (by norm_num))
  have := mul_le_mul_of_nonneg_left this hu.le
  have : 0 ≤ ru md * |Real.sin (binary64.val x)| := by positivity
  nlinarith

/-- the least subnormal is returned unchanged in round-to-nearest -/
example : |binary64.val 1| ≤ 3 / 16 ∧ CC.sincosEval true false false .nearest 1 = some 1 := by
  refine ⟨?_, by decide +kernel⟩
  have : |binary64.val 1| ≤ |binary64.val 0x3FC8000000000000| := abs_val_le_pat (by decide +kernel)
  refine le_trans this ?_
  rw [lit64 false 0x18000000000000 55 (by decide +kernel) (by decide +kernel) (by decide +kernel) (by decide +kernel)]
  norm_num [sg]

/-- C58: the sine of `204551 π` rounded to double is wrong in its last six bits: the result of the code is more than `48 * 2^-53` away from the sine
relative to the sine with a fused multiply-add, and more than `78 * 2^-53` without. -/
theorem C58_relative_attained :
    binary64.Finite 0x41239C6FD67805A7 ∧
    (∀ r, CC.sincosEval true false true .nearest 0x41239C6FD67805A7 = some r →
      48 * (1 / 2 ^ 53) * |Real.sin (binary64.val 0x41239C6FD67805A7)| < |binary64.val r - Real.sin (binary64.val 0x41239C6FD67805A7)|) ∧
    (∀ r, CC.sincosEval true false false .nearest 0x41239C6FD67805A7 = some r →
      78 * (1 / 2 ^ 53) * |Real.sin (binary64.val 0x41239C6FD67805A7)| < |binary64.val r - Real.sin (binary64.val 0x41239C6FD67805A7)|) := by
  have hv : binary64.val 0x41239C6FD67805A7 = 0x139c6fd67805a7 / 2 ^ 33 := by
    rw [lit64 false 0x139c6fd67805a7 33 (by decide +kernel) (by decide +kernel) (by decide +kernel) (by decide +kernel)]
    simp [sg]
  have hr1 : binary64.val 0x3C9988EFE18FF817 = 0x1988efe18ff817 / 2 ^ 106 := by
    rw [lit64 false 0x1988efe18ff817 106 (by decide +kernel) (by decide +kernel) (by decide +kernel) (by decide +kernel)]
    simp [sg]
  have hr2 : binary64.val 0x3C9988EFE18FF800 = 0x1988efe18ff800 / 2 ^ 106 := by
    rw [lit64 false 0x1988efe18ff800 106 (by decide +kernel) (by decide +kernel) (by decide +kernel) (by decide +kernel)]
    simp [sg]
  obtain ⟨p1, p2⟩ := pi_250
  -- the distance to the multiple of `π`
  obtain ⟨Y, hY⟩ : ∃ Y : ℝ, Y = 204551 * Real.pi - 0x139c6fd67805a7 / 2 ^ 33 := ⟨_, rfl⟩
  have y1 : 0x1988efe18ff83e / 2 ^ 106 ≤ Y := by rw [hY]; linarith
  have y2 : Y ≤ 0x1988efe18ff840 / 2 ^ 106 := by rw [hY]; linarith
  have hs : Real.sin (binary64.val 0x41239C6FD67805A7) = Real.sin Y := by
    have e : binary64.val 0x41239C6FD67805A7 = 204551 * Real.pi - Y := by rw [hv, hY]; ring
    rw [e]
    have := Real.sin_nat_mul_pi_sub Y 204551
    rw [show ((204551 : ℕ) : ℝ) = 204551 by norm_num] at this
    rw [this]
    have : (-1 : ℝ) ^ 204551 = -1 := Odd.neg_one_pow (by decide)
    rw [this]; ring
  have yp : 0 < Y := lt_of_lt_of_le (by positivity) y1
  have s1 := Real.sin_gt_sub_cube yp
  have s2 := Real.sin_lt yp
  have hc : Y ^ 3 / 6 ≤ 1 / 2 ^ 108 := by
    have : Y ≤ 1 / 2 ^ 53 := le_trans y2 (by norm_num)
    have : Y ^ 3 ≤ (1 / 2 ^ 53) ^ 3 := pow_le_pow_left₀ yp.le this 3
    refine le_trans (div_le_div_of_nonneg_right this (by norm_num)) (by norm_num)
  have s3 : 0x1988efe18ff83d / 2 ^ 106 ≤ Real.sin Y := by linarith
  have s4 : Real.sin Y ≤ 0x1988efe18ff840 / 2 ^ 106 := by linarith
  rw [hs]
  generalize Real.sin Y = S at *
  have sp : 0 < S := lt_of_lt_of_le (by positivity) s3
  refine ⟨by decide +kernel, ?_, ?_⟩
  · intro r hr
    rw [show CC.sincosEval true false true .nearest 0x41239C6FD67805A7 = some 0x3C9988EFE18FF817 by decide +kernel] at hr
    rw [← Option.some.inj hr, hr1, abs_of_pos sp, abs_sub_comm]
    refine lt_of_lt_of_le ?_ (le_abs_self _)
    linarith
  · intro r hr
    rw [show CC.sincosEval true false false .nearest 0x41239C6FD67805A7 = some 0x3C9988EFE18FF800 by decide +kernel] at hr
    rw [← Option.some.inj hr, hr2, abs_of_pos sp, abs_sub_comm]
    refine lt_of_lt_of_le ?_ (le_abs_self _)
    linarith

/-- C59, tangent: for every finite double the result is finite with error at most `1202 u` relative to the tangent, and thirty least subnormals. -/
theorem C59_tan (ce fused : Bool) (md : Mode) (hce : ce = true → md = .nearest) {x : ℕ} (hx : binary64.Finite x) :
    ∃ r, CC.tanGen ce fused md x = some r ∧ binary64.Finite r ∧ |binary64.val r - Real.tan (binary64.val x)| ≤
      1202 * (if md = .nearest then 1 / 2 ^ 53 else 1 / 2 ^ 52) * |Real.tan (binary64.val x)| + 30 * binary64.minSub := by
  change ∃ r, _ ∧ _ ∧ _ ≤ 1202 * ru md * _ + 30 * eta
  have hu := ru_pos md
  have hu2 := ru_le md
  have hul := ru_ge md
  have hη := eta_pos
  have hη2 := eta_le
  obtain ⟨⟨s, es, fs, -, -, hs⟩, c, ec, fc, -, -, hcc⟩ := sincosEval_spec ce fused md hce hx
  have hc := cos_lower_d hx
  have hS1 := Real.abs_sin_le_one (binary64.val x)
  have hSC := Real.sin_sq_add_cos_sq (binary64.val x)
  have cb : 1 / 2 ^ 63 ≤ |binary64.val c| := by
    have h1 : |Real.cos (binary64.val x)| ≤ |binary64.val c| + (600 * ru md * |Real.cos (binary64.val x)| + 12 * eta) :=
      abs_near (by rw [abs_sub_comm]; exact hcc) le_rfl
    have h2 : 600 * ru md * |Real.cos (binary64.val x)| ≤ 1 / 4 * |Real.cos (binary64.val x)| :=
      mul_le_mul_of_nonneg_right (by linarith) (abs_nonneg _)
    linarith
  have c0 : binary64.val c ≠ 0 := by
    intro h
    rw [h, abs_zero] at cb
    norm_num at cb
  have sb : |binary64.val s| ≤ 2 := by
    refine le_trans (abs_near hs hS1) ?_
    have h2 : 600 * ru md * |Real.sin (binary64.val x)| ≤ 1 / 4 * 1 := mul_le_mul (by linarith) hS1 (abs_nonneg _) (by norm_num)
    linarith
  have qb : |binary64.val s / binary64.val c| ≤ 2 ^ 200 := by
    rw [abs_div, div_le_iff₀ (abs_pos.2 c0)]
    have : (2 : ℝ) ^ 200 * (1 / 2 ^ 63) ≤ 2 ^ 200 * |binary64.val c| := mul_le_mul_of_nonneg_left cb (by positivity)
    refine le_trans sb (le_trans ?_ this)
    norm_num
  obtain ⟨fr, er⟩ := err64 (binary64.hdiv_spec md fs fc c0) qb
  refine ⟨binary64.hdiv md s c, ?_, fr, ?_⟩
  · unfold CC.tanGen
    rw [es, ec]
    have : binary64.heq c (binary64.zero false) = false := by
      have hz : binary64.Finite (binary64.zero false) := by decide +kernel
      have hz2 : binary64.val (binary64.zero false) = 0 := (binary64.val_eq_zero_iff _).2 (by decide +kernel)
      rw [← Bool.not_eq_true, CC.heq_finite binary64 fc hz, hz2]
      exact c0
    simp [this]
  · rw [Real.tan_eq_sin_div_cos]
    exact tan_aux' hu hu2 hul hη hη2 hs hcc hc hSC er

/-- `tan 1`: two units in the last place from the correctly rounded value `0x3FF8EB245CBEE3A6`; the double nearest to `π/2`; the double nearest to an odd multiple of `π/2` -/
example : CC.tanGen false true .nearest 0x3FF0000000000000 = some 0x3FF8EB245CBEE3A4 ∧
    CC.tanGen false true .nearest 0x3FF921FB54442D18 = some 0x434D02967C31CDB5 ∧
    CC.sincosEval false false true .nearest 0x7506AC5B262CA1FF = some 0xBC214AE72E6BA22F := by decide +kernel

/-- C59: the tangent of a zero is the zero with its sign in every mode; of an infinity or NaN it is a quiet NaN. -/
theorem C59_special (ce fused : Bool) (md : Mode) {x : ℕ} :
    (∀ s, CC.tanGen ce fused md (binary64.zero s) = some (binary64.zero s)) ∧
    (binary64.IsInf x ∨ binary64.IsNaN x → ∃ r, CC.tanGen ce fused md x = some r ∧ IsQuietNaN binary64 r) := by
  have hq : IsQuietNaN binary64 binary64.qnan := by
    constructor <;> decide +kernel
  constructor
  · intro s
    obtain ⟨a, b⟩ := C58_zero ce fused md s
    unfold CC.tanGen
    rw [a, b]
    clear a b
    have : ∀ md : Mode, ∀ s, binary64.hdiv md (binary64.zero s) 0x3FF0000000000000 = binary64.zero s := by
      intro md; cases md <;> decide +kernel
    have h2 : binary64.heq 0x3FF0000000000000 (binary64.zero false) = false := by decide +kernel
    simp [this, h2]
  · intro h
    obtain ⟨r, e1, q1⟩ := C58_nonfinite true ce fused md h
    obtain ⟨c, e2, q2⟩ := C58_nonfinite false ce fused md h
    unfold CC.tanGen
    rw [e1, e2]
    have h1 : binary64.nanB r = true := (binary64.nanB_iff q1.1.1).2 q1.1
    refine ⟨binary64.qnan, ?_, hq⟩
    have h2 : binary64.hdiv md r c = binary64.qnan := by
      unfold Fmt.hdiv; rw [h1]; simp
    simp [h2]

example : CC.tanGen false true .down 0x8000000000000000 = some 0x8000000000000000 ∧ CC.tanGen false true .down 0xFFF0000000000000 = some 0x7FF8000000000000 := by
  decide +kernel

end Verif
