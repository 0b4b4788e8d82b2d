import Verif.Lemmas.Asin4

/-!
# Accuracy of `asin_small_impl` and of the branches of `acos_kernel` (doubles)
-/

namespace Verif
open Fmt Real

/-- one final rounding of a sum `S` that is close to the target `A` -/
theorem fin_round {u η S A a r e c : ℝ} (hu : 0 < u) (hu2 : u ≤ 1 / 2 ^ 52) (h1 : |S - A| ≤ u * (e * a) + c * η) (ha : a ≤ |A|) (h2 : |r - S| ≤ u * |S| + η)
    (he : 0 ≤ e) (he2 : e ≤ 100) (hc : 0 ≤ c) (hc2 : c ≤ 100) (hη : 0 ≤ η) :
    |r - A| ≤ u * ((1 + e + 1 / 10 ^ 6) * |A|) + (1 + c + 1 / 10 ^ 6) * η := by
  have hA := abs_nonneg A
  have h3 : |S - A| ≤ u * (e * |A|) + c * η := le_trans h1 (by
    have := mul_le_mul_of_nonneg_left (mul_le_mul_of_nonneg_left ha he) hu.le
    linarith)
  have h4 := abs_near h3 le_rfl
  have h5 := mul_le_mul_of_nonneg_left h4 hu.le
  have h6 := abs_tri h2 h3
  have u1 : u ≤ 1 / 10 ^ 8 := le_trans hu2 (by norm_num)
  have h7 : u * (u * (e * |A|)) ≤ u * (1 / 10 ^ 6 * |A|) := by
    refine mul_le_mul_of_nonneg_left ?_ hu.le
    have : u * e ≤ 1 / 10 ^ 8 * 100 := mul_le_mul u1 he2 he (by norm_num)
    rw [← mul_assoc]
    exact mul_le_mul_of_nonneg_right (le_trans this (by norm_num)) hA
  have h8 : u * (c * η) ≤ 1 / 10 ^ 6 * η := by
    have : u * c ≤ 1 / 10 ^ 8 * 100 := mul_le_mul u1 hc2 hc (by norm_num)
    rw [← mul_assoc]
    exact mul_le_mul_of_nonneg_right (le_trans this (by norm_num)) hη
  have e1 : u * ((1 + e + 1 / 10 ^ 6) * |A|) = u * |A| + u * (e * |A|) + u * (1 / 10 ^ 6 * |A|) := by ring
  rw [e1]
  rw [mul_add, mul_add] at h5
  linarith

theorem fval_half64 : binary64.Finite 0x3FE0000000000000 ∧ binary64.val 0x3FE0000000000000 = 1 / 2 := by
  refine ⟨by decide +kernel, ?_⟩
  rw [lit64 false 4503599627370496 53 (by decide +kernel) (by decide +kernel) (by decide +kernel) (by decide +kernel)]; norm_num [sg]
theorem val_m10 : binary64.Finite 0x3F50000000000000 ∧ binary64.val 0x3F50000000000000 = 1 / 2 ^ 10 := by
  refine ⟨by decide +kernel, ?_⟩
  rw [lit64 false 4503599627370496 62 (by decide +kernel) (by decide +kernel) (by decide +kernel) (by decide +kernel)]; norm_num [sg]
theorem fval_m14 : binary64.Finite 0x3F10000000000000 ∧ binary64.val 0x3F10000000000000 = 1 / 2 ^ 14 := by
  refine ⟨by decide +kernel, ?_⟩
  rw [lit64 false 4503599627370496 66 (by decide +kernel) (by decide +kernel) (by decide +kernel) (by decide +kernel)]; norm_num [sg]
theorem val_sixth : binary64.Finite 0x3FC5555555555555 ∧ binary64.val 0x3FC5555555555555 = 6004799503160661 / 2 ^ 55 := by
  refine ⟨by decide +kernel, ?_⟩
  rw [lit64 false 6004799503160661 55 (by decide +kernel) (by decide +kernel) (by decide +kernel) (by decide +kernel)]; norm_num [sg]
theorem val_zero64 : binary64.Finite 0 ∧ binary64.val 0 = 0 := ⟨by decide +kernel, by rw [binary64.val_eq_zero_iff]; decide⟩

/-- the cubic approximation of arcsine for small arguments -/
theorem arcsin_cubic {X : ℝ} {k : ℝ} (h : |X| ≤ 1 / 2 ^ 10) (hk : |k - 1 / 6| ≤ 1 / 2 ^ 53) : |X + X * (X ^ 2 * k) - arcsin X| ≤ (X ^ 2 * (11 / 100 * X ^ 2 + 1 / 2 ^ 42) + 1 / 5 / 2 ^ 53) * |X| := by
  have h1 := asinP_arcsin_abs (le_trans h (by norm_num))
  have hs : X ^ 2 ≤ 1 / 4 := by
    have := abs_mul_le h h
    rw [← pow_two, abs_of_nonneg (sq_nonneg X)] at this
    exact le_trans this (by norm_num)
  obtain ⟨-, h2⟩ := asinP_lip (X ^ 2) 0 (sq_nonneg _) hs le_rfl (by norm_num)
  have h3 : |asinP 0 - 1 / 6| ≤ 1 / 2 ^ 43 := by unfold asinP; norm_num [abs_le]
  have h4 := abs_tri h2 h3
  rw [sub_zero, abs_of_nonneg (sq_nonneg X)] at h4
  have h5 : |k - asinP (X ^ 2)| ≤ 106 / 1000 * X ^ 2 + 1 / 2 ^ 42 := by
    rw [abs_sub_comm] at h4
    have := abs_tri hk h4
    refine le_trans this ?_
    have c : (1 : ℝ) / 2 ^ 53 + 1 / 2 ^ 43 ≤ 1 / 2 ^ 42 := by norm_num
    linarith
  have h6 : |X * (X ^ 2 * (k - asinP (X ^ 2)))| ≤ |X| * (X ^ 2 * (106 / 1000 * X ^ 2 + 1 / 2 ^ 42)) :=
    abs_mul_le le_rfl (abs_mul_le (by rw [abs_of_nonneg (sq_nonneg X)]) h5)
  have e : X + X * (X ^ 2 * k) - arcsin X = X * (X ^ 2 * (k - asinP (X ^ 2))) + (X + X * (X ^ 2 * asinP (X ^ 2)) - arcsin X) := by ring
  rw [e]
  refine le_trans (abs_add_le' h6 h1) ?_
  have h7 : |X| * (X ^ 2 * (106 / 1000 * X ^ 2 + 1 / 2 ^ 42)) ≤ |X| * (X ^ 2 * (11 / 100 * X ^ 2 + 1 / 2 ^ 42)) :=
    mul_le_mul_of_nonneg_left (mul_le_mul_of_nonneg_left (by have := sq_nonneg X; linarith) (sq_nonneg X)) (abs_nonneg X)
  linarith

theorem asin_tiny_aux {u η X q w t K : ℝ} (hu : 0 < u) (hu2 : u ≤ 1 / 2 ^ 52) (hη : 0 ≤ η) (hη2 : η ≤ 1 / 2 ^ 200) (hX : |X| ≤ 1 / 2 ^ 14) (hK : |K| ≤ 1 / 6)
    (hq : |q - X * X| ≤ u * |X * X| + η) (hw : |w - q * X| ≤ u * |q * X| + η) (ht : |t - w * K| ≤ u * |w * K| + η) :
    |t - X * (X ^ 2 * K)| ≤ u * (1 / 2 ^ 20 * |X|) + 12 / 10 * η := by
  have hX0 := abs_nonneg X
  have a1 : |X * X| ≤ 1 / 2 ^ 14 * |X| := abs_mul_le hX le_rfl
  have a1' : |X * X| ≤ 1 / 2 ^ 28 := le_trans (abs_mul_le hX hX) (by norm_num)
  have q1 : |q - X * X| ≤ u * (1 / 2 ^ 14 * |X|) + η := le_trans hq (by have := mul_le_mul_of_nonneg_left a1 hu.le; linarith)
  have c1 : (1 : ℝ) / 2 ^ 52 * (1 / 2 ^ 14 * (1 / 2 ^ 14)) + 1 / 2 ^ 200 + 1 / 2 ^ 28 ≤ 1 / 2 ^ 27 := by norm_num
  have q2 : |q| ≤ 1 / 2 ^ 27 := by
    have := abs_near q1 a1'
    have b : u * (1 / 2 ^ 14 * |X|) ≤ 1 / 2 ^ 52 * (1 / 2 ^ 14 * (1 / 2 ^ 14)) := mul_le_mul hu2 (mul_le_mul_of_nonneg_left hX (by positivity)) (by positivity) (by positivity)
    linarith
  have w0 : |q * X| ≤ 1 / 2 ^ 27 * |X| := abs_mul_le q2 le_rfl
  have w1 : |w - q * X| ≤ u * (1 / 2 ^ 27 * |X|) + η := le_trans hw (by have := mul_le_mul_of_nonneg_left w0 hu.le; linarith)
  have w2 : |q * X - X * X * X| ≤ (u * (1 / 2 ^ 14 * |X|) + η) * (1 / 2 ^ 14) := by
    rw [← sub_mul]; exact abs_mul_le q1 hX
  have w3 := abs_tri w1 w2
  have w4 : |w| ≤ 1 / 2 ^ 26 * |X| + η := by
    have := abs_near w1 w0
    have b : u * (1 / 2 ^ 27 * |X|) ≤ 1 * (1 / 2 ^ 27 * |X|) := mul_le_mul_of_nonneg_right (le_trans hu2 (by norm_num)) (by positivity)
    have c : (1 : ℝ) * (1 / 2 ^ 27 * |X|) + 1 / 2 ^ 27 * |X| = 1 / 2 ^ 26 * |X| := by ring
    linarith
  have t0 := abs_mul_le w4 hK
  have t1 := mul_le_mul_of_nonneg_left t0 hu.le
  have t2 : |w * K - X * X * X * K| ≤ (u * (1 / 2 ^ 27 * |X|) + η + (u * (1 / 2 ^ 14 * |X|) + η) * (1 / 2 ^ 14)) * (1 / 6) := by
    rw [← sub_mul]; exact abs_mul_le w3 hK
  have t3 := abs_tri ht t2
  rw [show X * (X ^ 2 * K) = X * X * X * K by ring]
  refine le_trans t3 ?_
  have hz : u * η ≤ 1 / 2 ^ 52 * η := mul_le_mul_of_nonneg_right hu2 hη
  have hz0 : 0 ≤ u * |X| := by positivity
  have t4 : u * |w * K| ≤ u * |X| * (1 / 2 ^ 26 * (1 / 6)) + u * η * (1 / 6) := le_trans t1 (by linarith)
  have e1 : u * (1 / 2 ^ 27 * |X|) = u * |X| * (1 / 2 ^ 27) := by ring
  have e2 : u * (1 / 2 ^ 14 * |X|) = u * |X| * (1 / 2 ^ 14) := by ring
  have e3 : u * (1 / 2 ^ 20 * |X|) = u * |X| * (1 / 2 ^ 20) := by ring
  rw [e1, e2, e3]
  generalize u * |X| = A at *
  generalize u * η = C at *
  clear t1 t3 t2 t0 w4 w3 w2 w1 w0 q1 q2 a1 a1' hq hw ht
  norm_num at *
  linarith

/-- `asin_small_impl`: relative error at most 1.55 rounding units (plus 3 least subnormals) -/
theorem asinSmall_spec (fused : Bool) (md : Mode) {x : ℕ} (hx : binary64.Finite x) (h : |binary64.val x| ≤ 1 / 2) :
    binary64.Finite (CC.asinSmall fused md x) ∧
      |binary64.val (CC.asinSmall fused md x) - arcsin (binary64.val x)| ≤ ru md * (155 / 100 * |arcsin (binary64.val x)|) + 3 * eta := by
  have hu := ru_pos md
  have hu2 := ru_le md
  have hu3 := ru_ge md
  have hη := eta_le
  have hη0 := eta_pos
  obtain ⟨fa, va, -⟩ := C03_fabs_value binary64 hx
  have hXA := abs_le_arcsin (x := binary64.val x) (le_trans h (by norm_num))
  have b200 : (1 : ℝ) ≤ 2 ^ 200 := by norm_num
  unfold CC.asinSmall
  by_cases hlt : binary64.hlt (CC.abs binary64 x) 0x3F10000000000000 = true
  · rw [if_pos hlt]
    rw [CC.hlt_finite binary64 fa fval_m14.1, va, fval_m14.2] at hlt
    have hX := hlt.le
    obtain ⟨fq, eq⟩ := mul64_err md hx hx (le_trans (abs_mul_le hX hX) (by norm_num))
    have hq2 : |binary64.val (binary64.hmul md x x)| ≤ 1 := by
      refine le_trans (abs_near eq (abs_mul_le hX hX)) ?_
      have := mul_le_mul hu2 (abs_mul_le hX hX) (abs_nonneg _) (by positivity)
      norm_num at *
      linarith
    obtain ⟨fw, ew⟩ := mul64_err md fq hx (le_trans (abs_mul_le hq2 hX) (by norm_num))
    have hw2 : |binary64.val (binary64.hmul md (binary64.hmul md x x) x)| ≤ 1 := by
      refine le_trans (abs_near ew (abs_mul_le hq2 hX)) ?_
      have := mul_le_mul hu2 (abs_mul_le hq2 hX) (abs_nonneg _) (by positivity)
      norm_num at *
      linarith
    have hK : |binary64.val 0x3FC5555555555555| ≤ 1 / 6 := by rw [val_sixth.2]; norm_num [abs_le]
    obtain ⟨ft, et⟩ := mul64_err md fw val_sixth.1 (le_trans (abs_mul_le hw2 hK) (by norm_num))
    have key := asin_tiny_aux hu hu2 hη0.le hη hX hK eq ew et
    generalize binary64.hmul md (binary64.hmul md (binary64.hmul md x x) x) 0x3FC5555555555555 = t at *
    clear eq ew et hq2 hw2 fq fw
    have hk6 : |binary64.val 0x3FC5555555555555 - 1 / 6| ≤ 1 / 2 ^ 53 := by rw [val_sixth.2]; norm_num [abs_le]
    have cub := arcsin_cubic (X := binary64.val x) (le_trans hX (by norm_num)) hk6
    generalize binary64.val 0x3FC5555555555555 = K at *
    generalize hXe : binary64.val x = X at *
    have hs : X ^ 2 ≤ 1 / 2 ^ 28 := by
      have := abs_mul_le hX hX
      rw [← pow_two, abs_of_nonneg (sq_nonneg X)] at this
      exact le_trans this (by norm_num)
    have cub2 : |X + X * (X ^ 2 * K) - arcsin X| ≤ ru md * (1 / 4 * |X|) := by
      refine le_trans cub ?_
      rw [← mul_assoc]
      refine mul_le_mul_of_nonneg_right ?_ (abs_nonneg X)
      have a : X ^ 2 * (11 / 100 * X ^ 2 + 1 / 2 ^ 42) ≤ 1 / 2 ^ 28 * (11 / 100 * (1 / 2 ^ 28) + 1 / 2 ^ 42) :=
        mul_le_mul hs (by linarith) (by positivity) (by positivity)
      have b := mul_le_mul_of_nonneg_right hu3 (show (0 : ℝ) ≤ 1 / 4 by norm_num)
      norm_num at *
      linarith
    have hS : |X + binary64.val t - arcsin X| ≤ ru md * (26 / 100 * |X|) + 12 / 10 * eta := by
      rw [show X + binary64.val t - arcsin X = (binary64.val t - X * (X ^ 2 * K)) + (X + X * (X ^ 2 * K) - arcsin X) by ring]
      refine le_trans (abs_add_le' key cub2) ?_
      have : ru md * (1 / 2 ^ 20 * |X|) + ru md * (1 / 4 * |X|) ≤ ru md * (26 / 100 * |X|) := by
        rw [← mul_add]
        refine mul_le_mul_of_nonneg_left ?_ hu.le
        rw [← add_mul]
        exact mul_le_mul_of_nonneg_right (by norm_num) (abs_nonneg X)
      linarith
    have hSb : |X + binary64.val t| ≤ 10 := by
      have h1 := abs_near (A := 1) key (by
        refine le_trans (abs_mul_le hX (abs_mul_le (show |X ^ 2| ≤ 1 by rw [abs_of_nonneg (sq_nonneg X)]; exact le_trans hs (by norm_num)) hK)) (by norm_num))
      have h2 : ru md * (1 / 2 ^ 20 * |X|) ≤ 1 * 1 := mul_le_mul (le_trans hu2 (by norm_num)) (by norm_num at *; linarith) (by positivity) (by norm_num)
      have h3 : eta ≤ 1 := le_trans hη (by norm_num)
      refine le_trans (abs_add_le' hX h1) ?_
      norm_num at *
      linarith
    obtain ⟨fr, er⟩ := add64_err md hx ft (by rw [hXe]; exact le_trans hSb (by norm_num))
    rw [hXe] at er
    refine ⟨fr, le_trans (fin_round hu hu2 hS hXA er (by norm_num) (by norm_num) (by norm_num) (by norm_num) hη0.le) ?_⟩
    have h1 : ru md * ((1 + 26 / 100 + 1 / 10 ^ 6) * |arcsin X|) ≤ ru md * (155 / 100 * |arcsin X|) :=
      mul_le_mul_of_nonneg_left (mul_le_mul_of_nonneg_right (by norm_num) (abs_nonneg _)) hu.le
    have h2 : (1 + 12 / 10 + 1 / 10 ^ 6) * eta ≤ 3 * eta := mul_le_mul_of_nonneg_right (by norm_num) hη0.le
    linarith
  · rw [if_neg hlt]
    rw [CC.hlt_finite binary64 fa fval_m14.1, va, fval_m14.2, not_lt] at hlt
    have h20 : 1 / 2 ^ 20 ≤ |binary64.val x| := le_trans (by norm_num) hlt
    obtain ⟨f3, fr, br, b3, key⟩ := asin_cube fused md hx h20 h
    dsimp only
    generalize binary64.hmul md x (binary64.hmul md x x) = x3 at *
    generalize CC.asinEval fused md (binary64.hmul md x x) = r at *
    have pol := asinP_arcsin_abs h
    generalize hXe : binary64.val x = X at *
    have hX0 := abs_nonneg X
    have hprod : |binary64.val x3 * binary64.val r| ≤ 48 / 1000 * |X| := by
      refine le_trans (abs_mul_le b3 br) (le_of_eq_of_le (show _ = (251 / 1000 * (19 / 100)) * |X| by ring) (mul_le_mul_of_nonneg_right (by norm_num) hX0))
    obtain ⟨ft, et⟩ := mul64_err md f3 fr (le_trans hprod (by norm_num at *; linarith))
    generalize binary64.hmul md x3 r = t at *
    have hη1 : eta ≤ ru md * (1 / 10 ^ 6 * |X|) := by
      have a : (1 : ℝ) / 2 ^ 200 ≤ 1 / 2 ^ 53 * (1 / 10 ^ 6 * (1 / 2 ^ 20)) := by norm_num
      have b : 1 / 2 ^ 53 * (1 / 10 ^ 6 * (1 / 2 ^ 20)) ≤ ru md * (1 / 10 ^ 6 * |X|) :=
        mul_le_mul hu3 (mul_le_mul_of_nonneg_left h20 (by positivity)) (by positivity) hu.le
      linarith
    have et2 : |binary64.val t - binary64.val x3 * binary64.val r| ≤ ru md * (49 / 1000 * |X|) := by
      refine le_trans et ?_
      have := mul_le_mul_of_nonneg_left hprod hu.le
      have e : ru md * (48 / 1000 * |X|) + ru md * (1 / 10 ^ 6 * |X|) ≤ ru md * (49 / 1000 * |X|) := by
        rw [← mul_add, ← add_mul]
        exact mul_le_mul_of_nonneg_left (mul_le_mul_of_nonneg_right (by norm_num) hX0) hu.le
      linarith
    have pol2 : |X + X * (X ^ 2 * asinP (X ^ 2)) - arcsin X| ≤ ru md * (1 / 5 * |X|) := by
      refine le_trans pol ?_
      rw [← mul_assoc]
      refine mul_le_mul_of_nonneg_right ?_ hX0
      have := mul_le_mul_of_nonneg_right hu3 (show (0 : ℝ) ≤ 1 / 5 by norm_num)
      linarith
    have hS : |X + binary64.val t - arcsin X| ≤ ru md * (51 / 100 * |X|) + 0 * eta := by
      rw [show X + binary64.val t - arcsin X = (binary64.val t - X * (X ^ 2 * asinP (X ^ 2))) + (X + X * (X ^ 2 * asinP (X ^ 2)) - arcsin X) by ring]
      refine le_trans (abs_add_le' (abs_tri et2 key) pol2) ?_
      rw [← mul_add, ← mul_add, zero_mul, add_zero, ← add_mul, ← add_mul]
      exact mul_le_mul_of_nonneg_left (mul_le_mul_of_nonneg_right (by norm_num) hX0) hu.le
    have hSb : |X + binary64.val t| ≤ 10 := by
      have h1 := abs_near et2 hprod
      have h2 : ru md * (49 / 1000 * |X|) ≤ 1 * 1 := mul_le_mul (le_trans hu2 (by norm_num)) (by linarith) (by positivity) (by norm_num)
      refine le_trans (abs_add_le' h h1) ?_
      linarith
    obtain ⟨fo, er⟩ := add64_err md hx ft (by rw [hXe]; exact le_trans hSb (by norm_num))
    rw [hXe] at er
    refine ⟨fo, le_trans (fin_round hu hu2 hS hXA er (by norm_num) (by norm_num) (by norm_num) (by norm_num) hη0.le) ?_⟩
    have h1 : ru md * ((1 + 51 / 100 + 1 / 10 ^ 6) * |arcsin X|) ≤ ru md * (155 / 100 * |arcsin X|) :=
      mul_le_mul_of_nonneg_left (mul_le_mul_of_nonneg_right (by norm_num) (abs_nonneg _)) hu.le
    have h2 : (1 + 0 + 1 / 10 ^ 6) * eta ≤ 3 * eta := mul_le_mul_of_nonneg_right (by norm_num) hη0.le
    linarith

end Verif
