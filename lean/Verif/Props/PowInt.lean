import Verif.Lemmas.Ipow5

/-!
# C85, C86: integer powers

`pow(x, n)` for a normal `x` and an integer `1 ≤ |n| ≤ 1024`, whatever the logarithm/exponential kernel does.
-/

namespace Verif
open Fmt Real

variable (kernel : ℕ → ℕ → Bool → Option (ℕ × CC.PowEff)) (m : Mode)

/-- rounding a normal value -/
theorem err64n {m : Mode} {zs : Bool} {v : ℝ} {b : ℕ} (R : binary64.RoundsTo m zs v b) (h1 : (2 : ℝ) ^ (-1022 : ℤ) ≤ |v|) (h2 : |v| ≤ binary64.maxFin) :
    |binary64.val b - v| ≤ ru m * |v| := by
  have hF : (2 : ℝ) ^ (-(binary64.F : ℤ)) = 1 / 2 ^ 52 := by rw [zpow_neg, one_div, zpow_natCast]; rfl
  have hg : binary64.gapBound v ≤ 1 / 2 ^ 52 * |v| := by
    unfold gapBound; rw [hF]
    refine max_le le_rfl ?_
    change eta ≤ _
    rw [eta_eq, show (-1074 : ℤ) = -52 + -1022 by norm_num, zpow_add₀ (by norm_num)]
    have : (2 : ℝ) ^ (-52 : ℤ) = 1 / 2 ^ 52 := by rw [zpow_neg, one_div]; norm_cast
    rw [this]; exact mul_le_mul_of_nonneg_left h1 (by norm_num)
  unfold ru
  split_ifs with h
  · subst h
    have h3 := RoundsTo.err_nearest R h2
    have e : (1 : ℝ) / 2 ^ 53 * |v| = 1 / 2 ^ 52 * |v| / 2 := by ring
    rw [e]; linarith
  · exact le_trans (RoundsTo.err R h2) hg

/-- a value between `2^-100` and `2^100` is in the range of the theorems below -/
theorem powInt_range {v : ℝ} (h1 : 1 / 2 ^ 100 ≤ |v|) (h2 : |v| ≤ 2 ^ 100) : (2 : ℝ) ^ (-1021 : ℤ) ≤ |v| ∧ |v| ≤ (1 - 1 / 2 ^ 50) * 2 ^ (1024 : ℤ) := by
  constructor
  · have e : (2 : ℝ) ^ (-1021 : ℤ) ≤ 2 ^ (-100 : ℤ) := two_zpow_le (by norm_num)
    refine e.trans (le_trans ?_ h1)
    rw [zpow_neg, one_div]; norm_cast
  · have e : (2 : ℝ) ^ (101 : ℤ) ≤ 2 ^ (1024 : ℤ) := two_zpow_le (by norm_num)
    have e' : (2 : ℝ) ^ (101 : ℤ) = 2 * 2 ^ 100 := by rw [show (101 : ℤ) = (101 : ℕ) by rfl, zpow_natCast]; norm_num
    rw [e'] at e
    generalize (2 : ℝ) ^ (1024 : ℤ) = z at *
    norm_num at h2 e ⊢; linarith

theorem powInt_core {x y : ℕ} {n : ℤ} (hx : binary64.Finite x) (hx1 : (2 : ℝ) ^ (-1022 : ℤ) ≤ |binary64.val x|) (hy : binary64.Finite y)
    (hyn : binary64.val y = n) (hn0 : n ≠ 0) (hn1 : |n| ≤ 1024) (h1 : (2 : ℝ) ^ (-1021 : ℤ) ≤ |binary64.val x ^ n|)
    (h2 : |binary64.val x ^ n| ≤ (1 - 1 / 2 ^ 50) * 2 ^ (1024 : ℤ)) :
    ∃ r w, CC.powImpl kernel m x y = some (r, {}) ∧ binary64.Finite r ∧ |w - binary64.val x ^ n| ≤ |binary64.val x ^ n| / 2 ^ 83 ∧ binary64.RoundsTo m false w r ∧
      ∀ sp, CC.ipowScaled m (CC.loadScaled m { hi := binary64.mag x, lo := 0 }) n.natAbs = some sp →
        (0 ≤ n → (binary64.val sp.mantissa.hi + binary64.val sp.mantissa.lo) * 2 ^ sp.exp2 = |binary64.val x| ^ n.natAbs → w = binary64.val x ^ n) ∧
        (binary64.val sp.mantissa.lo = 0 → binary64.val sp.mantissa.hi * 2 ^ sp.exp2 = |binary64.val x| ^ n.natAbs → w = binary64.val x ^ n) := by
  by_cases hone : x = CC.one64
  · have o := one64_val
    refine ⟨CC.one64, 1, ?_, o.1, ?_, ?_, ?_⟩
    · have hy0 : binary64.val y ≠ 0 := by rw [hyn]; exact_mod_cast hn0
      have hym : binary64.mag y ≠ 0 := fun h => hy0 ((binary64.val_eq_zero_iff y).2 h)
      have ny : ¬ binary64.IsNaN y := by rw [isNaN_iff]; have := ((binary64.finite_iff y).1 hy).2; omega
      have nx : ¬ binary64.IsNaN x := by rw [isNaN_iff]; have := ((binary64.finite_iff x).1 hx).2; omega
      obtain ⟨-, e1, e2, e3, e4⟩ := powImpl_ord hx.1 hy.1 nx ny hym
      unfold CC.powImpl
      simp only [e1, e3, if_pos hone, Bool.false_eq_true, if_false]
    · rw [hone, o.2]; simp
    · have := binary64.exists_roundsTo m false 1
      obtain ⟨b, R⟩ := this
      have := RoundsTo.exact_eq binary64 o.1 (by rw [o.2]; exact R) (fun h => by rw [o.2] at h; norm_num at h)
      rw [this] at R; exact R
    · intro sp _
      rw [hone, o.2]; simp
  have px : 0 < |binary64.val x| := lt_of_lt_of_le (two_zpow_pos _) hx1
  have hx0 : binary64.val x ≠ 0 := abs_pos.1 px
  have vm : binary64.val (binary64.mag x) = |binary64.val x| := CC.val_mag binary64 x
  have fm : binary64.Finite (binary64.mag x) := (binary64.finite_iff _).2 ⟨CC.valid_mag _ _, by rw [CC.mag_mag]; exact ((binary64.finite_iff x).1 hx).2⟩
  have bm : binary64.bexp (binary64.mag x) ≠ 0 := fun hb => absurd (abs_val_subnormal hb) (not_lt.2 (by rw [vm, abs_abs]; exact hx1))
  rw [abs_zpow, ← vm] at h1 h2
  obtain ⟨r, w, g1, g2, g3, g4, sp, g5, g6, g7⟩ := powIntPath_err m fm (by rw [vm]; exact px) bm hy hyn hn0 hn1 (decide (binary64.val x < 0) && CC.isOddInteger y) h1 h2
  have hsg : sg (decide (binary64.val x < 0) && CC.isOddInteger y) * |binary64.val x| ^ n = binary64.val x ^ n := by
    have hodd : CC.isOddInteger y = true ↔ Odd n := by
      rw [C26_is_odd_integer hy, hyn]
      constructor
      · rintro ⟨k, hk⟩; exact ⟨k, by exact_mod_cast hk⟩
      · rintro ⟨k, hk⟩; exact ⟨k, by rw [hk]; push_cast; rfl⟩
    by_cases hneg : binary64.val x < 0
    · by_cases ho : Odd n
      · rw [hodd.2 ho, abs_of_neg hneg, ho.neg_zpow]; simp [hneg]
      · have : CC.isOddInteger y = false := by rw [← Bool.not_eq_true, hodd]; exact ho
        rw [this, abs_of_neg hneg, (Int.not_odd_iff_even.1 ho).neg_zpow]; simp
    · rw [abs_of_nonneg (not_lt.1 hneg)]; simp [hneg]
  rw [vm, hsg] at g3
  refine ⟨r, w, powImpl_path kernel m hx hx0 hone hy hyn hn0 g1, g2, by rw [abs_zpow]; exact g3, g4, ?_⟩
  have hzp : 0 ≤ n → |binary64.val x| ^ n = |binary64.val x| ^ n.natAbs := fun h => by rw [← zpow_natCast]; congr 1; omega
  have hzn : n < 0 → |binary64.val x| ^ n = (|binary64.val x| ^ n.natAbs)⁻¹ := fun h => by rw [← zpow_natCast, ← zpow_neg]; congr 1; omega
  intro sp' hsp'
  rw [g5] at hsp'
  obtain rfl := Option.some.inj hsp'
  have pos : 0 ≤ n → (binary64.val sp.mantissa.hi + binary64.val sp.mantissa.lo) * 2 ^ sp.exp2 = |binary64.val x| ^ n.natAbs → w = binary64.val x ^ n := fun h h' => by
    rw [g6 h, h', ← hzp h, hsg]
  refine ⟨pos, fun h0 h' => ?_⟩
  rcases lt_or_ge n 0 with h | h
  · rw [g7 h h0, h', ← hzn h, hsg]
  · exact pos h (by rw [h0, add_zero]; exact h')

/-- C85: for a normal `x` and a non-zero integer `n` with `|n| ≤ 1024`, if `2^-1021 ≤ |x^n| ≤ (1 - 2^-50)·2^1024` then `pow(x, n)` is the correctly rounded
value, in the current mode, of a number that differs from `x^n` by less than one part in `2^83`; `errno` and the flags raised by explicit calls stay
untouched.  Hence the result is the correctly rounded power unless the power lies that close to a rounding boundary. -/
theorem C85_pow_int {x y : ℕ} {n : ℤ} (hx : binary64.Finite x) (hx1 : (2 : ℝ) ^ (-1022 : ℤ) ≤ |binary64.val x|) (hy : binary64.Finite y)
    (hyn : binary64.val y = n) (hn0 : n ≠ 0) (hn1 : |n| ≤ 1024) (h1 : (2 : ℝ) ^ (-1021 : ℤ) ≤ |binary64.val x ^ n|)
    (h2 : |binary64.val x ^ n| ≤ (1 - 1 / 2 ^ 50) * 2 ^ (1024 : ℤ)) :
    ∃ r w, CC.powImpl kernel m x y = some (r, {}) ∧ binary64.Finite r ∧ |w - binary64.val x ^ n| ≤ |binary64.val x ^ n| / 2 ^ 83 ∧ binary64.RoundsTo m false w r := by
  obtain ⟨r, w, g1, g2, g3, g4, -⟩ := powInt_core kernel m hx hx1 hy hyn hn0 hn1 h1 h2
  exact ⟨r, w, g1, g2, g3, g4⟩

/-- one rounding on top of a relative error of `2^-83` -/
theorem finish_err {m : Mode} {r : ℕ} {w X : ℝ} (g4 : binary64.RoundsTo m false w r) (g3 : |w - X| ≤ |X| / 2 ^ 83) (h1 : (2 : ℝ) ^ (-1021 : ℤ) ≤ |X|)
    (h2 : |X| ≤ (1 - 1 / 2 ^ 50) * 2 ^ (1024 : ℤ)) :
    |binary64.val r - X| ≤ ((if m = .nearest then 1 / 2 ^ 53 else 1 / 2 ^ 52) + 1 / 2 ^ 82) * |X| := by
  change _ ≤ (ru m + _) * _
  have X0 := abs_nonneg X
  have t1 := abs_sub_abs_le_abs_sub X w
  have t2 := abs_sub_abs_le_abs_sub w X
  rw [abs_sub_comm] at t1
  have e83 : |X| / 2 ^ 83 ≤ |X| / 2 ^ 60 := div_le_div_of_nonneg_left X0 (by norm_num) (by norm_num)
  have l : (2 : ℝ) ^ (-1022 : ℤ) ≤ |w| := by
    rw [show (-1021 : ℤ) = -1022 + 1 by norm_num, zpow_add_one₀ (by norm_num)] at h1
    generalize (2 : ℝ) ^ (-1022 : ℤ) = z at *
    norm_num at e83; linarith
  have u : |w| ≤ binary64.maxFin := by
    have hm := binary64.maxFin_add
    have e1 : ((binary64.bias : ℤ) + 1) = 1024 := by decide
    have e2 : ((binary64.bias : ℤ) - binary64.F) = 971 := by decide
    rw [e1, e2] at hm
    have e3 : (2 : ℝ) ^ (971 : ℤ) = 2 ^ (1024 : ℤ) * (1 / 2 ^ 53) := by
      rw [show (971 : ℤ) = 1024 + -53 by norm_num, zpow_add₀ (by norm_num)]; norm_num
    rw [e3] at hm
    have pz := two_zpow_pos 1024
    generalize (2 : ℝ) ^ (1024 : ℤ) = z at *
    norm_num at h2 hm e83 ⊢; linarith
  have e := err64n g4 l u
  have hu := ru_le m
  have hu0 := ru_pos m
  have t3 : ru m * |w| ≤ ru m * |X| + 1 / 2 ^ 52 * (|X| / 2 ^ 83) := by
    have h3 := mul_le_mul_of_nonneg_left (show |w| ≤ |X| + |X| / 2 ^ 83 by linarith) hu0.le
    have h4 := mul_le_mul_of_nonneg_right hu (div_nonneg X0 (by norm_num : (0 : ℝ) ≤ 2 ^ 83))
    linarith
  rw [show binary64.val r - X = (binary64.val r - w) + (w - X) by ring]
  refine (abs_add_le' e g3).trans ?_
  have : |X| / 2 ^ 83 + 1 / 2 ^ 52 * (|X| / 2 ^ 83) ≤ 1 / 2 ^ 82 * |X| := by
    have : |X| / 2 ^ 83 + 1 / 2 ^ 52 * (|X| / 2 ^ 83) = (1 / 2 ^ 83 + 1 / 2 ^ 52 * (1 / 2 ^ 83)) * |X| := by ring
    rw [this]; exact mul_le_mul_of_nonneg_right (by norm_num) X0
  linarith

/-- C85: the relative error is at most one rounding (`2^-53` to nearest, `2^-52` in the other modes) plus `2^-82`. -/
theorem C85_pow_int_error {x y : ℕ} {n : ℤ} (hx : binary64.Finite x) (hx1 : (2 : ℝ) ^ (-1022 : ℤ) ≤ |binary64.val x|) (hy : binary64.Finite y)
    (hyn : binary64.val y = n) (hn0 : n ≠ 0) (hn1 : |n| ≤ 1024) (h1 : (2 : ℝ) ^ (-1021 : ℤ) ≤ |binary64.val x ^ n|)
    (h2 : |binary64.val x ^ n| ≤ (1 - 1 / 2 ^ 50) * 2 ^ (1024 : ℤ)) :
    ∃ r, CC.powImpl kernel m x y = some (r, {}) ∧ binary64.Finite r ∧
      |binary64.val r - binary64.val x ^ n| ≤ ((if m = .nearest then 1 / 2 ^ 53 else 1 / 2 ^ 52) + 1 / 2 ^ 82) * |binary64.val x ^ n| := by
  obtain ⟨r, w, g1, g2, g3, g4⟩ := C85_pow_int kernel m hx hx1 hy hyn hn0 hn1 h1 h2
  exact ⟨r, g1, g2, finish_err g4 g3 h1 h2⟩

/-- C86: if `|x|` is `o·2^g` and `o^|n| ≤ 2^53`, then `pow(x, n)` is the correctly rounded `x^n` in every mode (same range as `C85_pow_int`).  Every `x` is of this
form for `n = ±1`, small integers and their multiples by powers of two are for larger `n`. -/
theorem C86_pow_rounded {x y o : ℕ} {n g : ℤ} (hx : binary64.Finite x) (hx1 : (2 : ℝ) ^ (-1022 : ℤ) ≤ |binary64.val x|) (hy : binary64.Finite y)
    (hyn : binary64.val y = n) (hn0 : n ≠ 0) (hn1 : |n| ≤ 1024) (ho : |binary64.val x| = (o : ℝ) * 2 ^ g) (hon : o ^ n.natAbs ≤ 2 ^ 53)
    (h1 : (2 : ℝ) ^ (-1021 : ℤ) ≤ |binary64.val x ^ n|) (h2 : |binary64.val x ^ n| ≤ (1 - 1 / 2 ^ 50) * 2 ^ (1024 : ℤ)) :
    ∃ r, CC.powImpl kernel m x y = some (r, {}) ∧ binary64.RoundsTo m false (binary64.val x ^ n) r := by
  obtain ⟨r, w, g1, g2, g3, g4, g5⟩ := powInt_core kernel m hx hx1 hy hyn hn0 hn1 h1 h2
  refine ⟨r, g1, ?_⟩
  have px : 0 < |binary64.val x| := lt_of_lt_of_le (two_zpow_pos _) hx1
  have vm : binary64.val (binary64.mag x) = |binary64.val x| := CC.val_mag binary64 x
  have fm : binary64.Finite (binary64.mag x) := (binary64.finite_iff _).2 ⟨CC.valid_mag _ _, by rw [CC.mag_mag]; exact ((binary64.finite_iff x).1 hx).2⟩
  have bm : binary64.bexp (binary64.mag x) ≠ 0 := fun hb => absurd (abs_val_subnormal hb) (not_lt.2 (by rw [vm, abs_abs]; exact hx1))
  have hab : n.natAbs ≤ 1024 := by rw [Int.abs_eq_natAbs] at hn1; omega
  obtain ⟨sp, k1, k2⟩ := ipow_exact m (n := n.natAbs) fm (by rw [vm]; exact px) bm (by rw [vm]; exact ho) (by omega) hon
  obtain ⟨-, -, l0, -, -, k3⟩ := k2
  rw [vm] at k3
  have := (g5 sp k1).2 l0 k3
  rw [this] at g4; exact g4

/-- C86: a representable power is returned exactly: if `|x| = o·2^g`, `n ≥ 1` and `o^n ≤ 2^53`, then `pow(x, n)` is exactly `x^n`, in every mode. -/
theorem C86_pow_exact {x y o n : ℕ} {g : ℤ} (hx : binary64.Finite x) (hx1 : (2 : ℝ) ^ (-1022 : ℤ) ≤ |binary64.val x|) (hy : binary64.Finite y)
    (hyn : binary64.val y = n) (hn0 : 1 ≤ n) (hn1 : n ≤ 1024) (ho : |binary64.val x| = (o : ℝ) * 2 ^ g) (hon : o ^ n ≤ 2 ^ 53)
    (h1 : (2 : ℝ) ^ (-1021 : ℤ) ≤ |binary64.val x ^ n|) (h2 : |binary64.val x ^ n| ≤ (1 - 1 / 2 ^ 50) * 2 ^ (1024 : ℤ)) :
    ∃ r, CC.powImpl kernel m x y = some (r, {}) ∧ binary64.Finite r ∧ binary64.val r = binary64.val x ^ n := by
  obtain ⟨r, g1, g2⟩ := C86_pow_rounded kernel m (n := n) hx hx1 hy (by rw [hyn]; norm_cast) (by omega) (by rw [abs_of_nonneg (Int.natCast_nonneg n)]; exact_mod_cast hn1) ho (by rw [Int.natAbs_natCast]; exact hon)
    (by rw [zpow_natCast]; exact h1) (by rw [zpow_natCast]; exact h2)
  rw [zpow_natCast] at g2
  refine ⟨r, g1, RoundsTo.exact_of g2 ?_⟩
  have px : 0 < |binary64.val x| := lt_of_lt_of_le (two_zpow_pos _) hx1
  have o1 : 1 ≤ o := by
    rcases Nat.eq_zero_or_pos o with h | h
    · rw [h] at ho; simp at ho; rw [ho] at px; simp at px
    · exact h
  have h3 : |binary64.val x ^ n| < 2 ^ (1024 : ℤ) := by
    refine lt_of_le_of_lt h2 ?_
    have := two_zpow_pos 1024
    generalize (2 : ℝ) ^ (1024 : ℤ) = z at *
    norm_num; linarith
  obtain ⟨c, fc, vc⟩ := ex_rep (v := |binary64.val x ^ n|) (a := g * n) (k := n) (by rw [abs_pow, ho, mul_pow, zpow_mul, zpow_natCast]) hon le_rfl o1 (by rw [abs_abs]; exact h1) (by rw [abs_abs]; exact h3)
  rcases abs_choice (binary64.val x ^ n) with h | h
  · exact ⟨c, fc, by rw [vc, h]⟩
  · exact ⟨binary64.hneg c, binary64.finite_hneg fc, by rw [val_hneg, vc, h, neg_neg]⟩

/-- C86: `pow(x, 2)` is the correctly rounded square in every mode. -/
theorem C86_pow_square {x y : ℕ} (hx : binary64.Finite x) (hx1 : (2 : ℝ) ^ (-1022 : ℤ) ≤ |binary64.val x|) (hy : binary64.Finite y)
    (hyn : binary64.val y = 2) (h1 : (2 : ℝ) ^ (-1021 : ℤ) ≤ binary64.val x ^ 2) (h2 : binary64.val x ^ 2 ≤ (1 - 1 / 2 ^ 50) * 2 ^ (1024 : ℤ)) :
    ∃ r, CC.powImpl kernel m x y = some (r, {}) ∧ binary64.RoundsTo m false (binary64.val x ^ 2) r := by
  have hz : binary64.val x ^ (2 : ℤ) = binary64.val x ^ 2 := by norm_cast
  have ha : |binary64.val x ^ (2 : ℤ)| = binary64.val x ^ 2 := by rw [hz, abs_of_nonneg (by positivity)]
  obtain ⟨r, w, g1, g2, g3, g4, g5⟩ := powInt_core kernel m (n := 2) hx hx1 hy (by rw [hyn]; norm_num) (by norm_num) (by norm_num) (by rw [ha]; exact h1) (by rw [ha]; exact h2)
  refine ⟨r, g1, ?_⟩
  have px : 0 < |binary64.val x| := lt_of_lt_of_le (two_zpow_pos _) hx1
  have vm : binary64.val (binary64.mag x) = |binary64.val x| := CC.val_mag binary64 x
  have fm : binary64.Finite (binary64.mag x) := (binary64.finite_iff _).2 ⟨CC.valid_mag _ _, by rw [CC.mag_mag]; exact ((binary64.finite_iff x).1 hx).2⟩
  have bm : binary64.bexp (binary64.mag x) ≠ 0 := fun hb => absurd (abs_val_subnormal hb) (not_lt.2 (by rw [vm, abs_abs]; exact hx1))
  obtain ⟨sp, k1, k2⟩ := ipow_sq m fm (by rw [vm]; exact px) bm
  rw [vm] at k2
  have := (g5 sp k1).1 (by norm_num) k2
  rw [this, hz] at g4; exact g4

/-- C86: `pow(x, 1)` is `x` and `pow(x, -1)` is the correctly rounded reciprocal, for every normal `x` (with `1/x` in the same range). -/
theorem C86_pow_one {x y : ℕ} (hx : binary64.Finite x) (hx1 : (2 : ℝ) ^ (-1021 : ℤ) ≤ |binary64.val x|) (hx2 : |binary64.val x| ≤ (1 - 1 / 2 ^ 50) * 2 ^ (1021 : ℤ)) (hy : binary64.Finite y) :
    (binary64.val y = 1 → CC.powImpl kernel m x y = some (x, {})) ∧
    (binary64.val y = -1 → ∃ r, CC.powImpl kernel m x y = some (r, {}) ∧ binary64.RoundsTo m false (binary64.val x)⁻¹ r) := by
  have hx0 : (2 : ℝ) ^ (-1022 : ℤ) ≤ |binary64.val x| := (two_zpow_le (by norm_num)).trans hx1
  have px : 0 < |binary64.val x| := lt_of_lt_of_le (two_zpow_pos _) hx1
  obtain ⟨a, hval, ha, -⟩ := binary64.val_ce x
  have ho : |binary64.val x| = (a.natAbs : ℝ) * 2 ^ binary64.ce x := by
    rw [hval, abs_mul, abs_of_pos (two_zpow_pos _), Nat.cast_natAbs]; push_cast; rfl
  have ha' : a.natAbs ^ 1 ≤ 2 ^ 53 := by
    rw [pow_one]
    have : (a.natAbs : ℤ) < 2 ^ 53 := by rw [← Int.abs_eq_natAbs]; exact ha
    exact_mod_cast this.le
  constructor
  · intro h
    have hu : |binary64.val x| ≤ (1 - 1 / 2 ^ 50) * 2 ^ (1024 : ℤ) :=
      hx2.trans (mul_le_mul_of_nonneg_left (two_zpow_le (by norm_num)) (by norm_num))
    obtain ⟨r, g1, g2⟩ := C86_pow_rounded kernel m (n := 1) hx hx0 hy (by rw [h]; norm_num) (by norm_num) (by norm_num) ho ha'
      (by rw [zpow_one]; exact hx1) (by rw [zpow_one]; exact hu)
    rw [zpow_one] at g2
    rw [g1, RoundsTo.exact_eq binary64 hx g2 (fun h => absurd h (abs_pos.1 px))]
  · intro h
    have e1 : |binary64.val x ^ (-1 : ℤ)| = |binary64.val x|⁻¹ := by rw [zpow_neg_one, abs_inv]
    obtain ⟨r, g1, g2⟩ := C86_pow_rounded kernel m (n := -1) hx hx0 hy (by rw [h]; norm_num) (by norm_num) (by norm_num) ho (by rw [show (-1 : ℤ).natAbs = 1 from rfl]; exact ha')
      (by
        rw [e1, zpow_neg]
        refine inv_anti₀ px (hx2.trans ?_)
        have := two_zpow_pos 1021
        generalize (2 : ℝ) ^ (1021 : ℤ) = z at *
        norm_num; linarith)
      (by
        rw [e1]
        have h3 : |binary64.val x|⁻¹ ≤ 2 ^ (1021 : ℤ) := by
          rw [show (1021 : ℤ) = - -1021 by norm_num, zpow_neg]
          exact inv_anti₀ (two_zpow_pos _) hx1
        refine h3.trans ?_
        rw [show (1024 : ℤ) = 1021 + 3 by norm_num, zpow_add₀ (by norm_num)]
        have := two_zpow_pos 1021
        generalize (2 : ℝ) ^ (1021 : ℤ) = z at *
        norm_num; linarith)
    rw [zpow_neg_one] at g2
    exact ⟨r, g1, g2⟩

/-- the constants of the examples -/
theorem powInt_consts : (binary64.Finite 0xC008000000000000 ∧ binary64.val 0xC008000000000000 = -3) ∧ (binary64.Finite 0x4014000000000000 ∧ binary64.val 0x4014000000000000 = 5) ∧
    (binary64.Finite 0x4000000000000000 ∧ binary64.val 0x4000000000000000 = 2) ∧ (binary64.Finite 0xC014000000000000 ∧ binary64.val 0xC014000000000000 = -5) ∧
    (2 : ℝ) ^ (-1022 : ℤ) ≤ 1 := by
  refine ⟨⟨by rw [finite_iff]; decide +kernel, ?_⟩, ⟨by rw [finite_iff]; decide +kernel, ?_⟩, ⟨by rw [finite_iff]; decide +kernel, ?_⟩, ⟨by rw [finite_iff]; decide +kernel, ?_⟩,
    ?_⟩
  · rw [one64_val.val_of_ival' (a := -3) (by decide +kernel)]; norm_num
  · rw [one64_val.val_of_ival' (a := 5) (by decide +kernel)]; norm_num
  · rw [one64_val.val_of_ival' (a := 2) (by decide +kernel)]; norm_num
  · rw [one64_val.val_of_ival' (a := -5) (by decide +kernel)]; norm_num
  · rw [show (1 : ℝ) = 2 ^ (0 : ℤ) by norm_num]; exact two_zpow_le (by norm_num)

/-- non-vacuity of C85: `(-3)^-5` -/
example : ∃ r w, CC.powImpl kernel m 0xC008000000000000 0xC014000000000000 = some (r, {}) ∧ binary64.Finite r ∧ |w - (-3 : ℝ) ^ (-5 : ℤ)| ≤ |(-3 : ℝ) ^ (-5 : ℤ)| / 2 ^ 83 ∧
    binary64.RoundsTo m false w r := by
  obtain ⟨⟨f3, v3⟩, -, -, ⟨f5, v5⟩, h⟩ := powInt_consts
  have hr := powInt_range (v := (-3 : ℝ) ^ (-5 : ℤ)) (by norm_num [abs_of_nonneg, abs_of_neg]) (by norm_num [abs_of_nonneg, abs_of_neg])
  have := C85_pow_int kernel m (n := -5) f3 (by rw [v3]; exact h.trans (by norm_num)) f5 (by rw [v5]; norm_num) (by norm_num) (by norm_num) (by rw [v3]; exact hr.1) (by rw [v3]; exact hr.2)
  rw [v3] at this; exact this

/-- non-vacuity of C86: `(-3)^5 = -243`, and the correctly rounded `(-3)^-5` -/
example : ∃ r, CC.powImpl kernel m 0xC008000000000000 0x4014000000000000 = some (r, {}) ∧ binary64.Finite r ∧ binary64.val r = -243 := by
  obtain ⟨⟨f3, v3⟩, ⟨f5, v5⟩, -, -, h⟩ := powInt_consts
  have hr := powInt_range (v := (-3 : ℝ) ^ 5) (by norm_num) (by norm_num)
  obtain ⟨r, g1, g2, g3⟩ := C86_pow_exact kernel m (o := 3) (n := 5) (g := 0) f3 (by rw [v3]; exact h.trans (by norm_num)) f5 (by rw [v5]; norm_num) (by norm_num) (by norm_num)
    (by rw [v3]; norm_num) (by norm_num) (by rw [v3]; exact hr.1) (by rw [v3]; exact hr.2)
  exact ⟨r, g1, g2, by rw [g3, v3]; norm_num⟩

example : ∃ r, CC.powImpl kernel m 0xC008000000000000 0xC014000000000000 = some (r, {}) ∧ binary64.RoundsTo m false (-1 / 243) r := by
  obtain ⟨⟨f3, v3⟩, -, -, ⟨f5, v5⟩, h⟩ := powInt_consts
  have hr := powInt_range (v := (-3 : ℝ) ^ (-5 : ℤ)) (by norm_num [abs_of_nonneg, abs_of_neg]) (by norm_num [abs_of_nonneg, abs_of_neg])
  obtain ⟨r, g1, g2⟩ := C86_pow_rounded kernel m (o := 3) (n := -5) (g := 0) f3 (by rw [v3]; exact h.trans (by norm_num)) f5 (by rw [v5]; norm_num) (by norm_num) (by norm_num)
    (by rw [v3]; norm_num) (by norm_num) (by rw [v3]; exact hr.1) (by rw [v3]; exact hr.2)
  rw [v3] at g2
  exact ⟨r, g1, by norm_num at g2 ⊢; exact g2⟩

/-- non-vacuity of the square: `(-3)^2` -/
example : ∃ r, CC.powImpl kernel m 0xC008000000000000 0x4000000000000000 = some (r, {}) ∧ binary64.RoundsTo m false ((-3 : ℝ) ^ 2) r := by
  obtain ⟨⟨f3, v3⟩, -, ⟨f2, v2⟩, -, h⟩ := powInt_consts
  have hr := powInt_range (v := (-3 : ℝ) ^ 2) (by norm_num) (by norm_num)
  rw [abs_of_nonneg (by positivity)] at hr
  have := C86_pow_square kernel m f3 (by rw [v3]; exact h.trans (by norm_num)) f2 v2 (by rw [v3]; exact hr.1) (by rw [v3]; exact hr.2)
  rw [v3] at this; exact this

/-- C86: below the normal range the square is not always correctly rounded: for `x = (2^25 + 2^-27)·2^-537` the code returns `2^50·2^-1074` to nearest although
`(2^50 + 1)·2^-1074` is nearer to `x^2 = (2^50 + 1/2 + 2^-54)·2^-1074`: the remainder beyond half a unit is rounded away before the comparison with one half. -/
theorem C86_square_subnormal_wrong :
    CC.powImpl kernel .nearest 0x1FF0000000000001 0x4000000000000000 = some (2 ^ 50, { errno := some .erange, underflow := true }) ∧
      |binary64.val (2 ^ 50 + 1) - binary64.val 0x1FF0000000000001 ^ 2| < |binary64.val (2 ^ 50) - binary64.val 0x1FF0000000000001 ^ 2| ∧
      ¬ binary64.RoundsTo .nearest false (binary64.val 0x1FF0000000000001 ^ 2) (2 ^ 50) := by
  obtain ⟨-, -, ⟨f2, v2⟩, -, h⟩ := powInt_consts
  have ms : binary64.minSub = 2 ^ (-1074 : ℤ) := by rw [minSub_eq_zpow, emin64]
  have hx : binary64.Finite 0x1FF0000000000001 := by rw [finite_iff]; decide +kernel
  have f1 : binary64.Finite (2 ^ 50 + 1) := by rw [finite_iff]; decide +kernel
  have vx : binary64.val 0x1FF0000000000001 = (2 ^ 52 + 1) * 2 ^ (-564 : ℤ) := by
    rw [val_eq_ival, show binary64.ival 0x1FF0000000000001 = (2 ^ 52 + 1) * 2 ^ 510 by decide +kernel, ms, show (-564 : ℤ) = 510 + -1074 by norm_num, zpow_add₀ (by norm_num)]
    push_cast
    rw [← zpow_natCast (2 : ℝ) 510]; push_cast; ring
  have va : binary64.val (2 ^ 50) = 2 ^ 50 * 2 ^ (-1074 : ℤ) := by
    rw [val_eq_ival, show binary64.ival (2 ^ 50) = 2 ^ 50 by decide +kernel, ms]; norm_num
  have vb : binary64.val (2 ^ 50 + 1) = (2 ^ 50 + 1) * 2 ^ (-1074 : ℤ) := by
    rw [val_eq_ival, show binary64.ival (2 ^ 50 + 1) = 2 ^ 50 + 1 by decide +kernel, ms]; norm_num
  have sq : binary64.val 0x1FF0000000000001 ^ 2 = (2 ^ 50 + 1 / 2 + 1 / 2 ^ 54) * 2 ^ (-1074 : ℤ) := by
    rw [vx, mul_pow, ← zpow_natCast ((2 : ℝ) ^ (-564 : ℤ)) 2, ← zpow_mul, show (-564 : ℤ) * (2 : ℕ) = -54 + -1074 by norm_num, zpow_add₀ (by norm_num)]
    have : (2 : ℝ) ^ (-54 : ℤ) = 1 / 2 ^ 54 := by rw [zpow_neg, one_div]; norm_cast
    rw [this]; ring
  have px : 0 < binary64.val 0x1FF0000000000001 := by rw [vx]; exact mul_pos (by norm_num) (two_zpow_pos _)
  have key : |binary64.val (2 ^ 50 + 1) - binary64.val 0x1FF0000000000001 ^ 2| < |binary64.val (2 ^ 50) - binary64.val 0x1FF0000000000001 ^ 2| := by
    have hz := two_zpow_pos (-1074)
    rw [sq, va, vb, ← sub_mul, ← sub_mul, abs_mul, abs_mul, abs_of_pos hz]
    refine mul_lt_mul_of_pos_right ?_ hz
    rw [abs_of_pos (by norm_num), abs_of_neg (by norm_num)]; norm_num
  refine ⟨?_, key, fun R => ?_⟩
  · refine powImpl_path kernel .nearest (n := 2) hx px.ne' (by decide +kernel) f2 (by rw [v2]; norm_num) (by norm_num) ?_
    rw [decide_eq_false (not_lt.2 px.le), Bool.false_and]
    decide +kernel
  · have hV := R.value
    have f0 : ¬ (2 ^ 50 = binary64.inf false) := by decide +kernel
    have f0' : ¬ (2 ^ 50 = binary64.inf true) := by decide +kernel
    unfold RoundValue at hV
    dsimp only at hV
    split_ifs at hV
    · exact f0 hV
    · exact f0' hV
    · exact absurd (hV.best _ f1) (not_le.2 key)

end Verif
