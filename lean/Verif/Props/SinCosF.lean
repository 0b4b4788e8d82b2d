import Verif.Lemmas.SinCosF4
import Verif.Props.Fma

/-!
# Properties of the float sine, cosine and tangent (C60, C61)

`ce` is constant evaluation (always in round-to-nearest, hypothesis `hce`), `fused` whether `multiply_add` is a fused operation, `md` the rounding mode.
Errors are measured in `u = 2^-24` in round-to-nearest and `u = 2^-23` in the other modes.

The argument reduction below `2^18` is accurate only with a fused operation (or up to 31 in magnitude): hypothesis `hf`, and `C60_unfused_wrong`.
-/

namespace Verif
open Fmt

/-- C60, sine, absolute error, for every finite float.  The full claim would also cover `31 < |x| < 2^18` without a fused multiply-add, where it is false
(`C60_unfused_wrong`). -/
theorem C60_sin_absolute_partial (ce fused : Bool) (md : Mode) (hce : ce = true → md = .nearest) {x : ℕ} (hx : binary32.Finite x)
    (hf : fused = true ∨ |binary32.val x| ≤ 31 ∨ 2 ^ 18 ≤ |binary32.val x|) :
    ∃ r, CC.sincosfEval true ce fused md x = some r ∧ binary32.Finite r ∧
      |binary32.val r - Real.sin (binary32.val x)| ≤ 7.2 * (if md = .nearest then 1 / 2 ^ 24 else 1 / 2 ^ 23) := by
  obtain ⟨⟨r, a, b, c, -⟩, -⟩ := sincosfEval_spec ce fused md hce hx hf
  exact ⟨r, a, b, c⟩

/-- C60, cosine, absolute error (same restriction). -/
theorem C60_cos_absolute_partial (ce fused : Bool) (md : Mode) (hce : ce = true → md = .nearest) {x : ℕ} (hx : binary32.Finite x)
    (hf : fused = true ∨ |binary32.val x| ≤ 31 ∨ 2 ^ 18 ≤ |binary32.val x|) :
    ∃ r, CC.sincosfEval false ce fused md x = some r ∧ binary32.Finite r ∧
      |binary32.val r - Real.cos (binary32.val x)| ≤ 7.2 * (if md = .nearest then 1 / 2 ^ 24 else 1 / 2 ^ 23) := by
  obtain ⟨-, r, a, b, c, -⟩ := sincosfEval_spec ce fused md hce hx hf
  exact ⟨r, a, b, c⟩

/-- `1` and the largest finite float, reduced by Payne-Hanek -/
example : CC.sincosfEval true false true .nearest 0x3F800000 = some 0x3F576AA3 ∧ CC.sincosfEval false true false .nearest 0x3F800000 = some 0x3F0A5140 ∧
    binary32.Finite 0x7F7FFFFF ∧ CC.sincosfEval true false false .nearest 0x7F7FFFFF = some 0xBF0599B3 := by decide +kernel

/-- C60, sine, error relative to the sine, with an underflow term of 12 least subnormals: no float is close enough to a multiple of `π/2` for the reduction
to lose its relative accuracy (same restriction). -/
theorem C60_sin_relative_partial (ce fused : Bool) (md : Mode) (hce : ce = true → md = .nearest) {x : ℕ} (hx : binary32.Finite x)
    (hf : fused = true ∨ |binary32.val x| ≤ 31 ∨ 2 ^ 18 ≤ |binary32.val x|) :
    ∃ r, CC.sincosfEval true ce fused md x = some r ∧ binary32.Finite r ∧ |binary32.val r - Real.sin (binary32.val x)| ≤
      49 * (if md = .nearest then 1 / 2 ^ 24 else 1 / 2 ^ 23) * |Real.sin (binary32.val x)| + 12 * binary32.minSub := by
  obtain ⟨⟨r, a, b, -, c⟩, -⟩ := sincosfEval_spec ce fused md hce hx hf
  exact ⟨r, a, b, c⟩

/-- C60, cosine, error relative to the cosine. -/
theorem C60_cos_relative_partial (ce fused : Bool) (md : Mode) (hce : ce = true → md = .nearest) {x : ℕ} (hx : binary32.Finite x)
    (hf : fused = true ∨ |binary32.val x| ≤ 31 ∨ 2 ^ 18 ≤ |binary32.val x|) :
    ∃ r, CC.sincosfEval false ce fused md x = some r ∧ binary32.Finite r ∧ |binary32.val r - Real.cos (binary32.val x)| ≤
      49 * (if md = .nearest then 1 / 2 ^ 24 else 1 / 2 ^ 23) * |Real.cos (binary32.val x)| + 12 * binary32.minSub := by
  obtain ⟨-, r, a, b, -, c⟩ := sincosfEval_spec ce fused md hce hx hf
  exact ⟨r, a, b, c⟩

/-- the float nearest to `π` -/
example : binary32.Finite 0x40490FDB ∧ CC.sincosfEval true false false .nearest 0x40490FDB = some 0xB3BBBD2E := by decide +kernel

/-- C60: without a fused multiply-add the sine of the float `230014.84375` is off by more than `0.0078`, which is more than its own size and more than
130000 units `2^-24`; the same in constant evaluation. -/
theorem C60_unfused_wrong :
    binary32.Finite 0x48609FB6 ∧ ∀ ce r, CC.sincosfEval true ce false .nearest 0x48609FB6 = some r →
      0.0078 < |binary32.val r - Real.sin (binary32.val 0x48609FB6)| ∧ |Real.sin (binary32.val 0x48609FB6)| < 0.004 := by
  have hv : binary32.val 0x48609FB6 = 0xe09fb6 / 2 ^ 6 := by
    rw [lit32 false 0xe09fb6 6 (by decide +kernel) (by decide +kernel) (by decide +kernel) (by decide +kernel)]
    simp [sg]
  have hr1 : binary32.val 0x3B7B7A8C = 0xfb7a8c / 2 ^ 32 := by
    rw [lit32 false 0xfb7a8c 32 (by decide +kernel) (by decide +kernel) (by decide +kernel) (by decide +kernel)]
    simp [sg]
  obtain ⟨p1, p2⟩ := pi_250
  obtain ⟨Y, hY⟩ : ∃ Y : ℝ, Y = 73216 * Real.pi - 0xe09fb6 / 2 ^ 6 := ⟨_, rfl⟩
  have y1 : 0.003975 ≤ Y := by rw [hY]; linarith
  have y2 : Y ≤ 0.003976 := by rw [hY]; linarith
  have hs : Real.sin (binary32.val 0x48609FB6) = -Real.sin Y := by
    have e : binary32.val 0x48609FB6 = 73216 * Real.pi - Y := by rw [hv, hY]; ring
    rw [e]
    have := Real.sin_nat_mul_pi_sub Y 73216
    rw [show ((73216 : ℕ) : ℝ) = 73216 by norm_num] at this
    rw [this]
    have : (-1 : ℝ) ^ 73216 = 1 := Even.neg_one_pow (by decide)
    rw [this]; ring
  have yp : 0 < Y := by linarith
  have s1 := Real.sin_gt_sub_cube yp
  have s2 := Real.sin_lt yp
  have hc : Y ^ 3 / 6 ≤ 1 / 10 ^ 7 := by
    have : Y ^ 3 ≤ 0.003976 ^ 3 := pow_le_pow_left₀ yp.le y2 3
    norm_num at this ⊢
    linarith
  rw [hs]
  generalize Real.sin Y = S at *
  refine ⟨by decide +kernel, fun ce r hr => ?_⟩
  have e : CC.sincosfEval true ce false .nearest 0x48609FB6 = some 0x3B7B7A8C := by cases ce <;> decide +kernel
  rw [e] at hr
  rw [← Option.some.inj hr, hr1]
  constructor
  · refine lt_of_lt_of_le ?_ (le_abs_self _)
    norm_num
    linarith
  · rw [abs_neg, abs_of_pos (by linarith)]
    linarith

theorem sincosfEval_ge {isSin ce fused : Bool} {md : Mode} {x : ℕ} (h : 0x7f800000 ≤ binary32.mag x) :
    CC.sincosfEval isSin ce fused md x = some (FPBits.quietNaN binary32 false 0) ∨ CC.sincosfEval isSin ce fused md x = some binary32.qnan := by
  have em : x &&& 0x7fffffff = binary32.mag x := Nat.and_two_pow_sub_one_eq_mod x 31
  unfold CC.sincosfEval
  dsimp only
  rw [em, if_neg (by omega), if_neg (by omega), if_pos h]
  split_ifs
  · exact Or.inl rfl
  · right
    have : binary32.nanB (FPBits.quietNaN binary32 false 0) = true := by decide +kernel
    unfold Fmt.hadd
    rw [this, Bool.or_true, if_pos rfl]

/-- C60: an infinity or any NaN gives a quiet NaN. -/
theorem C60_nonfinite (isSin ce fused : Bool) (md : Mode) {x : ℕ} (hx : binary32.IsInf x ∨ binary32.IsNaN x) :
    ∃ r, CC.sincosfEval isSin ce fused md x = some r ∧ IsQuietNaN binary32 r := by
  have hi : binary32.infMag = 0x7f800000 := by decide +kernel
  have h : 0x7f800000 ≤ binary32.mag x := by
    rcases hx with h | h
    · have := (binary32.infB_iff h.1).2 h
      unfold infB at this
      simp at this
      omega
    · have := ((binary32.isNaN_iff x).1 h).2
      omega
  have hq : IsQuietNaN binary32 binary32.qnan := by
    constructor <;> decide +kernel
  rcases sincosfEval_ge (isSin := isSin) (ce := ce) (fused := fused) (md := md) h with e | e
  · exact ⟨_, e, quietNaN_quiet binary32 false 0⟩
  · exact ⟨_, e, hq⟩

/-- a signaling NaN -/
example : binary32.IsNaN 0x7F800001 ∧ CC.sincosfEval true false true .nearest 0x7F800001 = some 0x7FC00000 := by decide +kernel

/-- C60: `sin(±0)` is the argument, sign included, and `cos(±0) = 1`. -/
theorem C60_zero (ce fused : Bool) (md : Mode) (s : Bool) :
    CC.sincosfEval true ce fused md (binary32.zero s) = some (binary32.zero s) ∧
    CC.sincosfEval false ce fused md (binary32.zero s) = some 0x3F800000 := by
  have h1 : ∀ s, binary32.zero s &&& 0x7fffffff = 0 := by decide +kernel
  have h2 : CC.pow2 binary32 false 0 = 0x3F800000 := by decide +kernel
  unfold CC.sincosfEval
  dsimp only
  rw [h1, if_pos rfl, if_pos rfl, h2]
  exact ⟨rfl, rfl⟩

/-- C60: no argument leads to undefined behaviour, with or without a fused multiply-add (the conversion of the quotient to `int` is always in range). -/
theorem C60_defined (isSin ce fused : Bool) (md : Mode) (hce : ce = true → md = .nearest) {x : ℕ} (hx : binary32.Valid x) :
    (CC.sincosfEval isSin ce fused md x).isSome := by
  have hi : binary32.infMag = 0x7f800000 := by decide +kernel
  have em : x &&& 0x7fffffff = binary32.mag x := Nat.and_two_pow_sub_one_eq_mod x 31
  unfold CC.sincosfEval
  dsimp only
  rw [em]
  by_cases h0 : binary32.mag x = 0
  · rw [if_pos h0]; rfl
  rw [if_neg h0]
  by_cases h1 : binary32.mag x < 0x48800000
  · rw [if_pos h1, Option.isSome_map]
    have fx : binary32.Finite x := (binary32.finite_iff x).2 ⟨hx, by omega⟩
    have hb : |binary32.val x| < 2 ^ 18 := by
      rw [← val_2p18f]
      exact abs_val_lt_patf (c := 0x48800000) (by
        rw [show binary32.mag 0x48800000 = 0x48800000 from by decide +kernel]; exact h1)
    have fO : binary32.Finite CC.oneOverPif := by decide +kernel
    have bO : |binary32.val CC.oneOverPif| ≤ 2.547 := by rw [val_oopf, abs_of_pos (by positivity)]; norm_num
    have bXO := abs_mul_le hb.le bO
    obtain ⟨fP, eP⟩ := mul32_err md fx fO (le_trans bXO (by norm_num))
    have bP : |binary32.val (binary32.hmul md x CC.oneOverPif)| ≤ 2 ^ 21 := by
      refine le_trans (abs_near eP bXO) ?_
      have : ruf md * |binary32.val x * binary32.val CC.oneOverPif| ≤ 1 / 2 ^ 23 * (2 ^ 18 * 2.547) :=
        mul_le_mul (ruf_le md) bXO (abs_nonneg _) (by positivity)
      have := etaf_le
      have : (2 : ℝ) ^ 18 * 2.547 + (1 / 2 ^ 23 * (2 ^ 18 * 2.547) + 1 / 2 ^ 100) ≤ 2 ^ 21 := by norm_num
      linarith
    obtain ⟨fk, n, vk, en⟩ := ni32 ce md hce fP bP
    have bn : |(n : ℝ)| ≤ 2 ^ 22 := by
      have : |(n : ℝ) - binary32.val (binary32.hmul md x CC.oneOverPif)| ≤ 1 / 2 + 1 / 2 ^ 24 := by rw [abs_sub_comm]; exact en
      exact le_trans (abs_near this bP) (by norm_num)
    have bnz : |n| ≤ 2 ^ 22 := by exact_mod_cast bn
    unfold CC.sincosfSmall
    dsimp only
    rw [toInt32f_spec fk vk (by have := (abs_le.1 bnz).1; omega) (by have := (abs_le.1 bnz).2; omega)]
    rfl
  · rw [if_neg h1]
    split_ifs <;> rfl

/-- the largest argument of the small reduction -/
example : binary32.Valid 0xC87FFFFF ∧ CC.toInt32 binary32 (CC.nearestInteger binary32 false .up (binary32.hmul .up 0xC87FFFFF CC.oneOverPif)) =
    some (-667544) := by decide +kernel

theorem tanf_aux {u η s c S C r : ℝ} (hu : 0 < u) (hu2 : u ≤ 1 / 2 ^ 23) (hul : 1 / 2 ^ 24 ≤ u) (hη : 0 < η) (hη2 : η ≤ 1 / 2 ^ 100)
    (h1 : |s - S| ≤ 49 * u * |S| + 12 * η) (h2 : |c - C| ≤ 49 * u * |C| + 12 * η) (hC : 1 / 2 ^ 32 ≤ |C|) (hSC : S ^ 2 + C ^ 2 = 1)
    (hr : |r - s / c| ≤ u * |s / c| + η) : |r - S / C| ≤ 100 * u * |S / C| + 30 * η := by
  have cp : 0 < |C| := lt_of_lt_of_le (by positivity) hC
  have hC0 : C ≠ 0 := abs_pos.1 cp
  have hsC : S / C * C = S := div_mul_cancel₀ _ hC0
  obtain ⟨T, hT⟩ : ∃ T, T = S / C := ⟨_, rfl⟩
  rw [← hT] at hsC ⊢
  have hST : |S| = |T| * |C| := by rw [← hsC, abs_mul]
  have tp := abs_nonneg T
  have key : ∀ {a : ℝ}, 1 / 2 ^ 32 ≤ a → 12 * η ≤ 1 / 1000 * u * a := by
    intro a ha
    have : 1 / 1000 * (1 / 2 ^ 24) * (1 / 2 ^ 32) ≤ 1 / 1000 * u * a :=
      mul_le_mul (mul_le_mul_of_nonneg_left hul (by norm_num)) ha (by positivity) (by positivity)
    have : (12 : ℝ) * (1 / 2 ^ 100) ≤ 1 / 1000 * (1 / 2 ^ 24) * (1 / 2 ^ 32) := by norm_num
    linarith
  have hcC : |c - C| ≤ 49.001 * u * |C| := by
    have := key hC
    linarith
  have hc1 : (1 - 1 / 2 ^ 17) * |C| ≤ |c| := by
    have : |C| ≤ |c| + 49.001 * u * |C| := abs_near (by rw [abs_sub_comm]; exact hcC) le_rfl
    have : 49.001 * u * |C| ≤ 1 / 2 ^ 17 * |C| := mul_le_mul_of_nonneg_right (by linarith) cp.le
    linarith
  have cp' : 0 < |c| := lt_of_lt_of_le (mul_pos (by norm_num) cp) hc1
  have hc0 : c ≠ 0 := abs_pos.1 cp'
  have hsS : |s - S| ≤ (49.001 * u * |T| + 24 * η) * |C| := by
    rcases le_total (1 / 2) |S| with h | h
    · have := key (le_trans (by norm_num) h)
      rw [hST] at this h1
      have : 0 ≤ 24 * η * |C| := by positivity
      linarith
    · rw [hST] at h1
      have hS2 : S ^ 2 ≤ (1 / 2) ^ 2 := by rw [← sq_abs]; exact pow_le_pow_left₀ (abs_nonneg _) h 2
      have hC2 : (1 : ℝ) / 2 ≤ |C| := by
        by_contra hc
        rw [not_le] at hc
        have : C ^ 2 ≤ (1 / 2) ^ 2 := by rw [← sq_abs]; exact pow_le_pow_left₀ (abs_nonneg _) hc.le 2
        norm_num at hS2 this
        linarith
      have k1 : 24 * η * (1 / 2) ≤ 24 * η * |C| := mul_le_mul_of_nonneg_left hC2 (by positivity)
      have k2 : 0 ≤ u * (|T| * |C|) := by positivity
      nlinarith
  have hd : |s / c - T| ≤ 98.01 * u * |T| + 25 * η := by
    have e : s / c - T = ((s - S) - T * (c - C)) / c := by
      field_simp
      rw [← hsC]; ring
    rw [e, abs_div, div_le_iff₀ cp']
    have h3 : |(s - S) - T * (c - C)| ≤ (49.001 * u * |T| + 24 * η) * |C| + |T| * (49.001 * u * |C|) := by
      rw [sub_eq_add_neg]
      refine abs_add_le' hsS ?_
      rw [abs_neg, abs_mul]; exact mul_le_mul_of_nonneg_left hcC tp
    refine le_trans h3 ?_
    have k1 : 0 ≤ u * |T| := by positivity
    have k2 : (98.01 * u * |T| + 25 * η) * ((1 - 1 / 2 ^ 17) * |C|) ≤ (98.01 * u * |T| + 25 * η) * |c| :=
      mul_le_mul_of_nonneg_left hc1 (by positivity)
    refine le_trans ?_ k2
    have e2 : (49.001 * u * |T| + 24 * η) * |C| + |T| * (49.001 * u * |C|) = (98.002 * (u * |T|) + 24 * η) * |C| := by ring
    rw [e2, ← mul_assoc (98.01 * u * |T| + 25 * η)]
    refine mul_le_mul_of_nonneg_right ?_ cp.le
    nlinarith
  have hsc : |s / c| ≤ |T| + (98.01 * u * |T| + 25 * η) := abs_near hd le_rfl
  have h4 := abs_tri hr hd
  refine le_trans h4 ?_
  have h5 := mul_le_mul_of_nonneg_left hsc hu.le
  have k1 : 0 ≤ u * |T| := by positivity
  have k2 : u * (u * |T|) ≤ 1 / 2 ^ 23 * (u * |T|) := mul_le_mul_of_nonneg_right hu2 k1
  have k3 : u * η ≤ 1 / 2 ^ 23 * η := mul_le_mul_of_nonneg_right hu2 hη.le
  nlinarith

/-- the cosine of no float is zero or very small -/
theorem cos_lower_f {x : ℕ} (hx : binary32.Finite x) : 1 / 2 ^ 32 ≤ |Real.cos (binary32.val x)| := by
  obtain ⟨p1, p2⟩ := pi_near
  rcases le_total (1 / 8) |binary32.val x| with h | h
  · obtain ⟨n, hn⟩ : ∃ n : ℤ, n = round ((binary32.val x - Real.pi / 2) / Real.pi) := ⟨_, rfl⟩
    have h1 := abs_sub_round ((binary32.val x - Real.pi / 2) / Real.pi)
    rw [← hn] at h1
    obtain ⟨Z, hZ⟩ : ∃ Z : ℝ, Z = binary32.val x - Real.pi / 2 - n * Real.pi := ⟨_, rfl⟩
    have hZ2 : |Z| ≤ Real.pi / 2 := by
      have e : Z = ((binary32.val x - Real.pi / 2) / Real.pi - n) * Real.pi := by rw [hZ]; field_simp
      rw [e, abs_mul, abs_of_pos Real.pi_pos]
      have := mul_le_mul_of_nonneg_right h1 Real.pi_pos.le
      linarith
    have l := halfpi32 hx h (2 * n + 1)
    have e3 : binary32.val x - ((2 * n + 1 : ℤ) : ℝ) * (Real.pi / 2) = Z := by rw [hZ]; push_cast; ring
    rw [e3] at l
    have e4 : |Real.cos (binary32.val x)| = |Real.sin Z| := by
      have : binary32.val x = (Z + Real.pi / 2) + n * Real.pi := by rw [hZ]; ring
      rw [this, Real.cos_add_int_mul_pi, abs_mul, Real.cos_add_pi_div_two, abs_neg]
      rcases Int.even_or_odd n with h | h
      · rw [h.neg_one_zpow]; simp
      · rw [h.neg_one_zpow]; simp
    rw [e4]
    have h5 : 2 / Real.pi * |Z| ≤ |Real.sin Z| := Real.mul_abs_le_abs_sin hZ2
    refine le_trans ?_ h5
    have : 2 / Real.pi * (1 / 2 ^ 30 * (Real.pi / 2)) ≤ 2 / Real.pi * |Z| := mul_le_mul_of_nonneg_left l (by positivity)
    refine le_trans ?_ this
    have : 2 / Real.pi * (1 / 2 ^ 30 * (Real.pi / 2)) = 1 / 2 ^ 30 := by field_simp
    rw [this]; norm_num
  · have := Real.one_sub_sq_div_two_le_cos (x := binary32.val x)
    have h2 : binary32.val x ^ 2 ≤ (1 / 8) ^ 2 := by rw [← sq_abs]; exact pow_le_pow_left₀ (abs_nonneg _) h 2
    refine le_trans ?_ (le_abs_self _)
    norm_num at h2 ⊢
    linarith

/-- C61, tangent of any finite float, relative error (restricted as C60 is). -/
theorem C61_tan_partial (ce fused : Bool) (md : Mode) (hce : ce = true → md = .nearest) {x : ℕ} (hx : binary32.Finite x)
    (hf : fused = true ∨ |binary32.val x| ≤ 31 ∨ 2 ^ 18 ≤ |binary32.val x|) :
    ∃ r, CC.tanfGen ce fused md x = some r ∧ binary32.Finite r ∧ |binary32.val r - Real.tan (binary32.val x)| ≤
      100 * (if md = .nearest then 1 / 2 ^ 24 else 1 / 2 ^ 23) * |Real.tan (binary32.val x)| + 30 * binary32.minSub := by
  change ∃ r, _ ∧ _ ∧ _ ≤ 100 * ruf md * _ + 30 * etaf
  have hu := ruf_pos md
  have hu2 := ruf_le md
  have hul := ruf_ge md
  have hη := etaf_pos
  have hη2 := etaf_le
  have hc := cos_lower_f hx
  obtain ⟨⟨s, es, fs, -, hs⟩, c, ec, fc, -, hcc⟩ := sincosfEval_spec ce fused md hce hx hf
  have hS1 := Real.abs_sin_le_one (binary32.val x)
  have hSC := Real.sin_sq_add_cos_sq (binary32.val x)
  have cb : 1 / 2 ^ 33 ≤ |binary32.val c| := by
    have h1 : |Real.cos (binary32.val x)| ≤ |binary32.val c| + (49 * ruf md * |Real.cos (binary32.val x)| + 12 * etaf) :=
      abs_near (by rw [abs_sub_comm]; exact hcc) le_rfl
    have h2 : 49 * ruf md * |Real.cos (binary32.val x)| ≤ 1 / 4 * |Real.cos (binary32.val x)| :=
      mul_le_mul_of_nonneg_right (by linarith) (abs_nonneg _)
    linarith
  have c0 : binary32.val c ≠ 0 := by
    intro h
    rw [h, abs_zero] at cb
    norm_num at cb
  have sb : |binary32.val s| ≤ 2 := by
    refine le_trans (abs_near hs hS1) ?_
    have h2 : 49 * ruf md * |Real.sin (binary32.val x)| ≤ 1 / 4 * 1 := mul_le_mul (by linarith) hS1 (abs_nonneg _) (by norm_num)
    linarith
  have qb : |binary32.val s / binary32.val c| ≤ 2 ^ 100 := by
    rw [abs_div, div_le_iff₀ (abs_pos.2 c0)]
    have : (2 : ℝ) ^ 100 * (1 / 2 ^ 33) ≤ 2 ^ 100 * |binary32.val c| := mul_le_mul_of_nonneg_left cb (by positivity)
    refine le_trans sb (le_trans ?_ this)
    norm_num
  obtain ⟨fr, er⟩ := err32 (binary32.hdiv_spec md fs fc c0) qb
  refine ⟨binary32.hdiv md s c, ?_, fr, ?_⟩
  · unfold CC.tanfGen
    rw [es, ec]
    have : binary32.heq c (binary32.zero false) = false := by
      have hz : binary32.Finite (binary32.zero false) := by decide +kernel
      have hz2 : binary32.val (binary32.zero false) = 0 := (binary32.val_eq_zero_iff _).2 (by decide +kernel)
      rw [← Bool.not_eq_true, CC.heq_finite binary32 fc hz, hz2]
      exact c0
    simp [this]
  · rw [Real.tan_eq_sin_div_cos]
    exact tanf_aux hu hu2 hul hη hη2 hs hcc hc hSC er

/-- `tan 1` and the tangent of the float nearest to `π/2` -/
example : CC.tanfGen true false .nearest 0x3F800000 = some 0x3FC75922 ∧ CC.tanfGen false true .nearest 0x3FC90FDB = some 0xCBAE8A4B := by
  decide +kernel

/-- C61: the tangent of a zero is the zero with its sign in every mode; of an infinity or NaN it is a quiet NaN. -/
theorem C61_special (ce fused : Bool) (md : Mode) {x : ℕ} :
    (∀ s, CC.tanfGen ce fused md (binary32.zero s) = some (binary32.zero s)) ∧
    (binary32.IsInf x ∨ binary32.IsNaN x → ∃ r, CC.tanfGen ce fused md x = some r ∧ IsQuietNaN binary32 r) := by
  have hq : IsQuietNaN binary32 binary32.qnan := by
    constructor <;> decide +kernel
  constructor
  · intro s
    obtain ⟨a, b⟩ := C60_zero ce fused md s
    unfold CC.tanfGen
    rw [a, b]
    clear a b
    have : ∀ md : Mode, ∀ s, binary32.hdiv md (binary32.zero s) 0x3F800000 = binary32.zero s := by
      intro md; cases md <;> decide +kernel
    have h2 : binary32.heq 0x3F800000 (binary32.zero false) = false := by decide +kernel
    simp [this, h2]
  · intro h
    obtain ⟨r, e1, q1⟩ := C60_nonfinite true ce fused md h
    obtain ⟨c, e2, q2⟩ := C60_nonfinite false ce fused md h
    unfold CC.tanfGen
    rw [e1, e2]
    have h1 : binary32.nanB r = true := (binary32.nanB_iff q1.1.1).2 q1.1
    refine ⟨binary32.qnan, ?_, hq⟩
    have h2 : binary32.hdiv md r c = binary32.qnan := by
      unfold Fmt.hdiv; rw [h1]; simp
    simp [h2]

example : CC.tanfGen false true .down 0x80000000 = some 0x80000000 ∧ CC.tanfGen false true .down 0xFF800000 = some 0x7FC00000 := by
  decide +kernel

end Verif
