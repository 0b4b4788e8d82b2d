import Verif.Lemmas.Asin7
import Mathlib.Analysis.SpecialFunctions.Trigonometric.Arctan
import Mathlib.Analysis.SpecialFunctions.Trigonometric.ArctanDeriv
import Mathlib.Analysis.SpecialFunctions.Trigonometric.InverseDeriv
import Mathlib.Analysis.Calculus.MeanValue

/-!
# Accuracy of double `asin` and the ingredients of `atan`
-/

namespace Verif
open Fmt Real

/-- double `asin` on its domain -/
theorem asinDouble_spec (fused : Bool) (md : Mode) {x : ℕ} (hx : binary64.Finite x) (h : |binary64.val x| ≤ 1) :
    binary64.Finite (CC.asinDouble fused md x) ∧
      (|binary64.val x| ≤ 1 / 2 → |binary64.val (CC.asinDouble fused md x) - arcsin (binary64.val x)| ≤ ru md * (155 / 100 * |arcsin (binary64.val x)|) + 3 * eta) ∧
      (1 / 2 < binary64.val x → |binary64.val (CC.asinDouble fused md x) - arcsin (binary64.val x)| ≤ ru md * (8 * |arcsin (binary64.val x)|)) ∧
      (binary64.val x < -(1 / 2) → |binary64.val (CC.asinDouble fused md x) - arcsin (binary64.val x)| ≤ ru md * (14 * |arcsin (binary64.val x)|)) := by
  have hu := ru_pos md
  have hη0 := eta_pos
  obtain ⟨fa, va, -⟩ := C03_fabs_value binary64 hx
  unfold CC.asinDouble
  split_ifs with c1 c2
  · rw [CC.heq_finite binary64 hx val_zero64.1, val_zero64.2] at c1
    refine ⟨hx, fun _ => ?_, fun h => ?_, fun h => ?_⟩
    · rw [c1, Real.arcsin_zero]; simp; exact hη0.le
    · rw [c1] at h; norm_num at h
    · rw [c1] at h; norm_num at h
  · rw [CC.hle_finite binary64 fa fval_half64.1, va, fval_half64.2] at c2
    obtain ⟨f1, e1⟩ := asinSmall_spec fused md hx c2
    have := abs_le.1 c2
    exact ⟨f1, fun _ => e1, fun h => absurd h (by linarith), fun h => absurd h (by linarith)⟩
  · rw [CC.hle_finite binary64 fa fval_half64.1, va, fval_half64.2] at c2
    obtain ⟨f1, e1⟩ := acosDouble_spec fused md hx h
    rw [pi_div_two]
    have hpi1 := Real.pi_gt_d20
    have hpi2 := Real.pi_lt_d20
    have hle := Real.arccos_le_pi (binary64.val x)
    have h0 := Real.arccos_nonneg (binary64.val x)
    have hA : arcsin (binary64.val x) = π / 2 - arccos (binary64.val x) := by rw [arccos]; ring
    have ap : Ap md _ (arccos (binary64.val x)) 4 (281 / 100 * arccos (binary64.val x)) := ⟨f1, e1, by rw [abs_of_nonneg h0]; norm_num at *; linarith⟩
    have s := Ap.sub (ap_pi2 md) ap (S := |arcsin (binary64.val x)|) (B := |arcsin (binary64.val x)|)
      (e := 561 / 1000 + 281 / 100 * arccos (binary64.val x) + |arcsin (binary64.val x)|) (by rw [hA]) le_rfl
      (by norm_num at *; linarith) (by
        have := Real.arcsin_le_pi_div_two (binary64.val x)
        have := Real.neg_pi_div_two_le_arcsin (binary64.val x)
        have : |arcsin (binary64.val x)| ≤ 2 := abs_le.2 (by constructor <;> norm_num at * <;> linarith)
        norm_num at *; linarith)
    have er := s.err
    rw [← hA] at er
    refine ⟨s.fin, fun h => absurd h c2, fun hp => ?_, fun hn => ?_⟩
    · refine le_trans er (mul_le_mul_of_nonneg_left ?_ hu.le)
      have g := arcsin_half_ge hp.le
      rw [abs_of_nonneg (by linarith [Real.pi_pos])]
      clear er s ap
      norm_num at *; linarith
    · refine le_trans er (mul_le_mul_of_nonneg_left ?_ hu.le)
      have g := arcsin_half_ge (X := -binary64.val x) (by linarith)
      rw [Real.arcsin_neg] at g
      rw [abs_of_nonpos (by linarith [Real.pi_pos])]
      clear er s ap
      norm_num at *; linarith

/-- the three cases together -/
theorem asinDouble_all (fused : Bool) (md : Mode) {x : ℕ} (hx : binary64.Finite x) (h : |binary64.val x| ≤ 1) :
    binary64.Finite (CC.asinDouble fused md x) ∧ |binary64.val (CC.asinDouble fused md x) - arcsin (binary64.val x)| ≤ ru md * (14 * |arcsin (binary64.val x)|) + 3 * eta ∧
      (0 ≤ binary64.val x → |binary64.val (CC.asinDouble fused md x) - arcsin (binary64.val x)| ≤ ru md * (8 * |arcsin (binary64.val x)|) + 3 * eta) := by
  obtain ⟨f1, e1, e2, e3⟩ := asinDouble_spec fused md hx h
  have hη0 := eta_pos
  have hu := ru_pos md
  have k : ∀ c d : ℝ, c ≤ d → ru md * (c * |arcsin (binary64.val x)|) ≤ ru md * (d * |arcsin (binary64.val x)|) := fun c d h =>
    mul_le_mul_of_nonneg_left (mul_le_mul_of_nonneg_right h (abs_nonneg _)) hu.le
  rcases le_or_gt |binary64.val x| (1 / 2) with c | c
  · have a := e1 c
    exact ⟨f1, le_trans a (by linarith [k (155 / 100) 14 (by norm_num)]), fun _ => le_trans a (by linarith [k (155 / 100) 8 (by norm_num)])⟩
  · rcases lt_abs.1 c with c | c
    · have a := e2 c
      exact ⟨f1, le_trans a (by linarith [k 8 14 (by norm_num)]), fun _ => le_trans a (by linarith)⟩
    · have a := e3 (by linarith)
      exact ⟨f1, le_trans a (by linarith), fun h => absurd h (by linarith)⟩

theorem atan_tiny_aux {u η X q w t K : ℝ} (hu : 0 < u) (hu2 : u ≤ 1 / 2 ^ 52) (hη : 0 ≤ η) (hη2 : η ≤ 1 / 2 ^ 200) (hX : |X| ≤ 1 / 2 ^ 14) (hK : |K| ≤ 1 / 3)
    (hq : |q - X * X| ≤ u * |X * X| + η) (hw : |w - q * X| ≤ u * |q * X| + η) (ht : |t - w * K| ≤ u * |w * K| + η) :
    |t - X * (X ^ 2 * K)| ≤ u * (1 / 2 ^ 20 * |X|) + 14 / 10 * η := by
  have hX0 := abs_nonneg X
  have a1 : |X * X| ≤ 1 / 2 ^ 14 * |X| := abs_mul_le hX le_rfl
  have a1' : |X * X| ≤ 1 / 2 ^ 28 := le_trans (abs_mul_le hX hX) (by norm_num)
  have q1 : |q - X * X| ≤ u * (1 / 2 ^ 14 * |X|) + η := le_trans hq (by have := mul_le_mul_of_nonneg_left a1 hu.le; linarith)
  have c1 : (1 : ℝ) / 2 ^ 52 * (1 / 2 ^ 14 * (1 / 2 ^ 14)) + 1 / 2 ^ 200 + 1 / 2 ^ 28 ≤ 1 / 2 ^ 27 := by norm_num
  have q2 : |q| ≤ 1 / 2 ^ 27 := by
    have := abs_near q1 a1'
    have b : u * (1 / 2 ^ 14 * |X|) ≤ 1 / 2 ^ 52 * (1 / 2 ^ 14 * (1 / 2 ^ 14)) := mul_le_mul hu2 (mul_le_mul_of_nonneg_left hX (by positivity)) (by positivity) (by positivity)
    linarith
  have w0 : |q * X| ≤ 1 / 2 ^ 27 * |X| := abs_mul_le q2 le_rfl
  have w1 : |w - q * X| ≤ u * (1 / 2 ^ 27 * |X|) + η := le_trans hw (by have := mul_le_mul_of_nonneg_left w0 hu.le; linarith)
  have w2 : |q * X - X * X * X| ≤ (u * (1 / 2 ^ 14 * |X|) + η) * (1 / 2 ^ 14) := by
    rw [← sub_mul]; exact abs_mul_le q1 hX
  have w3 := abs_tri w1 w2
  have w4 : |w| ≤ 1 / 2 ^ 26 * |X| + η := by
    have := abs_near w1 w0
    have b : u * (1 / 2 ^ 27 * |X|) ≤ 1 * (1 / 2 ^ 27 * |X|) := mul_le_mul_of_nonneg_right (le_trans hu2 (by norm_num)) (by positivity)
    have c : (1 : ℝ) * (1 / 2 ^ 27 * |X|) + 1 / 2 ^ 27 * |X| = 1 / 2 ^ 26 * |X| := by ring
    linarith
  have t0 := abs_mul_le w4 hK
  have t1 := mul_le_mul_of_nonneg_left t0 hu.le
  have t2 : |w * K - X * X * X * K| ≤ (u * (1 / 2 ^ 27 * |X|) + η + (u * (1 / 2 ^ 14 * |X|) + η) * (1 / 2 ^ 14)) * (1 / 3) := by
    rw [← sub_mul]; exact abs_mul_le w3 hK
  have t3 := abs_tri ht t2
  rw [show X * (X ^ 2 * K) = X * X * X * K by ring]
  refine le_trans t3 ?_
  have hz : u * η ≤ 1 / 2 ^ 52 * η := mul_le_mul_of_nonneg_right hu2 hη
  have hz0 : 0 ≤ u * |X| := by positivity
  have t4 : u * |w * K| ≤ u * |X| * (1 / 2 ^ 26 * (1 / 3)) + u * η * (1 / 3) := le_trans t1 (by linarith)
  have e1 : u * (1 / 2 ^ 27 * |X|) = u * |X| * (1 / 2 ^ 27) := by ring
  have e2 : u * (1 / 2 ^ 14 * |X|) = u * |X| * (1 / 2 ^ 14) := by ring
  have e3 : u * (1 / 2 ^ 20 * |X|) = u * |X| * (1 / 2 ^ 20) := by ring
  rw [e1, e2, e3]
  generalize u * |X| = A at *
  generalize u * η = C at *
  clear t1 t3 t2 t0 w4 w3 w2 w1 w0 q1 q2 a1 a1' hq hw ht
  norm_num at *
  linarith


theorem val_mthird : binary64.Finite 0xBFD5555555555555 ∧ binary64.val 0xBFD5555555555555 = -(6004799503160661 / 2 ^ 54) := by
  refine ⟨by decide +kernel, ?_⟩
  rw [lit64 true 6004799503160661 54 (by decide +kernel) (by decide +kernel) (by decide +kernel) (by decide +kernel)]; norm_num [sg]

/-- the cubic approximation of the arctangent -/
theorem arctan_cubic {z : ℝ} (h0 : 0 ≤ z) : 0 ≤ arctan z - (z - z ^ 3 / 3) ∧ arctan z - (z - z ^ 3 / 3) ≤ z ^ 5 / 5 := by
  have d1 : ∀ y : ℝ, HasDerivAt (fun y => arctan y - (y - y ^ 3 / 3)) (1 / (1 + y ^ 2) - (1 - y ^ 2)) y := by
    intro y
    refine ((Real.hasDerivAt_arctan y).sub ((hasDerivAt_id y).sub ((hasDerivAt_pow 3 y).div_const 3))).congr_deriv ?_
    norm_num
  have d2 : ∀ y : ℝ, HasDerivAt (fun y => y ^ 5 / 5 - (arctan y - (y - y ^ 3 / 3))) (y ^ 4 - (1 / (1 + y ^ 2) - (1 - y ^ 2))) y := by
    intro y
    refine (((hasDerivAt_pow 5 y).div_const 5).sub (d1 y)).congr_deriv ?_
    norm_num
  have p : ∀ y : ℝ, 1 / (1 + y ^ 2) - (1 - y ^ 2) = y ^ 4 / (1 + y ^ 2) := by
    intro y
    have : (1 + y ^ 2 : ℝ) ≠ 0 := by positivity
    field_simp; ring
  have m1 : Monotone (fun y : ℝ => arctan y - (y - y ^ 3 / 3)) := monotone_of_hasDerivAt_nonneg d1 (fun y => by rw [p]; positivity)
  have m2 : Monotone (fun y : ℝ => y ^ 5 / 5 - (arctan y - (y - y ^ 3 / 3))) := monotone_of_hasDerivAt_nonneg d2 (fun y => by
    show 0 ≤ y ^ 4 - (1 / (1 + y ^ 2) - (1 - y ^ 2))
    rw [p, sub_nonneg, div_le_iff₀ (by positivity)]
    nlinarith [sq_nonneg y, sq_nonneg (y ^ 3)])
  have a := m1 h0
  have b := m2 h0
  simp at a b
  constructor <;> linarith

/-- arctangent has slope at most 1 -/
theorem arctan_lip (s t : ℝ) : |arctan s - arctan t| ≤ |s - t| := by
  have := Convex.norm_image_sub_le_of_norm_hasDerivWithin_le (f := arctan) (f' := fun x => 1 / (1 + x ^ 2)) (C := 1) (s := Set.univ)
    (fun x _ => (Real.hasDerivAt_arctan x).hasDerivWithinAt)
    (fun x _ => by
      rw [Real.norm_eq_abs, abs_of_nonneg (by positivity), div_le_iff₀ (by positivity)]
      nlinarith [sq_nonneg x]) convex_univ (Set.mem_univ t) (Set.mem_univ s)
  simpa [Real.norm_eq_abs] using this
theorem arctan_le_self' {z : ℝ} (h0 : 0 ≤ z) : arctan z ≤ z := by
  have := arctan_lip z 0
  rw [Real.arctan_zero, sub_zero, sub_zero, abs_of_nonneg h0] at this
  exact le_trans (le_abs_self _) this

theorem le_arctan {z : ℝ} (h0 : 0 ≤ z) (h1 : z ≤ 1 / 2 ^ 13) : z * (1 - 1 / 2 ^ 20) ≤ arctan z := by
  have := (arctan_cubic h0).1
  have h2 : z ^ 2 ≤ (1 / 2 ^ 13) ^ 2 := pow_le_pow_left₀ h0 h1 2
  have h3 : z ^ 3 ≤ z * (1 / 2 ^ 26) := by
    rw [show z ^ 3 = z * z ^ 2 by ring]; exact mul_le_mul_of_nonneg_left (le_trans h2 (by norm_num)) h0
  norm_num at *; linarith

/-- the branch for small positive arguments -/
theorem atan_tiny (md : Mode) {x : ℕ} (hx : binary64.Finite x) (h0 : 0 ≤ binary64.val x) (hX : binary64.val x ≤ 1 / 2 ^ 14) :
    let r := binary64.hadd md x (binary64.hmul md (binary64.hmul md (binary64.hmul md x x) x) 0xBFD5555555555555)
    binary64.Finite r ∧ |binary64.val r - arctan (binary64.val x)| ≤ ru md * (11 / 10 * arctan (binary64.val x)) + 3 * eta := by
  intro r
  have hu := ru_pos md
  have hu2 := ru_le md
  have hu3 := ru_ge md
  have hη := eta_le
  have hη0 := eta_pos
  have hXa : |binary64.val x| ≤ 1 / 2 ^ 14 := by rwa [abs_of_nonneg h0]
  obtain ⟨fq, eq⟩ := mul64_err md hx hx (le_trans (abs_mul_le hXa hXa) (by norm_num))
  have hq2 : |binary64.val (binary64.hmul md x x)| ≤ 1 := by
    refine le_trans (abs_near eq (abs_mul_le hXa hXa)) ?_
    have := mul_le_mul hu2 (abs_mul_le hXa hXa) (abs_nonneg _) (by positivity)
    norm_num at *
    linarith
  obtain ⟨fw, ew⟩ := mul64_err md fq hx (le_trans (abs_mul_le hq2 hXa) (by norm_num))
  have hw2 : |binary64.val (binary64.hmul md (binary64.hmul md x x) x)| ≤ 1 := by
    refine le_trans (abs_near ew (abs_mul_le hq2 hXa)) ?_
    have := mul_le_mul hu2 (abs_mul_le hq2 hXa) (abs_nonneg _) (by positivity)
    norm_num at *
    linarith
  have hK : |binary64.val 0xBFD5555555555555| ≤ 1 / 3 := by rw [val_mthird.2]; norm_num [abs_le]
  obtain ⟨ft, et⟩ := mul64_err md fw val_mthird.1 (le_trans (abs_mul_le hw2 hK) (by norm_num))
  have key := atan_tiny_aux hu hu2 hη0.le hη hXa hK eq ew et
  change binary64.Finite (binary64.hadd md x (binary64.hmul md (binary64.hmul md (binary64.hmul md x x) x) 0xBFD5555555555555)) ∧
    |binary64.val (binary64.hadd md x (binary64.hmul md (binary64.hmul md (binary64.hmul md x x) x) 0xBFD5555555555555)) - _| ≤ _
  generalize binary64.hmul md (binary64.hmul md (binary64.hmul md x x) x) 0xBFD5555555555555 = t at *
  clear eq ew et hq2 hw2 fq fw r
  have hk3 : |binary64.val 0xBFD5555555555555 - -(1 / 3)| ≤ 1 / 2 ^ 53 := by rw [val_mthird.2]; norm_num [abs_le]
  have cub := arctan_cubic h0
  have hge := le_arctan h0 (le_trans hX (by norm_num))
  generalize binary64.val 0xBFD5555555555555 = K at *
  generalize hXe : binary64.val x = X at *
  generalize hA : arctan X = A at *
  have hs : X ^ 2 ≤ 1 / 2 ^ 28 := le_trans (pow_le_pow_left₀ h0 hX 2) (by norm_num)
  have cub2 : |X + X * (X ^ 2 * K) - A| ≤ ru md * (5 / 100 * X) := by
    have h5 : X ^ 5 / 5 ≤ 1 / 2 ^ 53 * (1 / 5 * (1 / 8) * X) := by
      have : X ^ 4 ≤ 1 / 2 ^ 56 := by
        rw [show X ^ 4 = X ^ 2 * X ^ 2 by ring]; exact le_trans (mul_le_mul hs hs (sq_nonneg X) (by positivity)) (by norm_num)
      have := mul_le_mul_of_nonneg_right this h0
      rw [show X ^ 5 = X ^ 4 * X by ring]
      linarith
    have h6 : |X * (X ^ 2 * (K - -(1 / 3)))| ≤ X * (1 / 2 ^ 28 * (1 / 2 ^ 53)) :=
      abs_mul_le (le_of_eq (abs_of_nonneg h0)) (abs_mul_le (by rwa [abs_of_nonneg (sq_nonneg X)]) hk3)
    have h7 : |A - (X - X ^ 3 / 3)| ≤ 1 / 2 ^ 53 * (1 / 5 * (1 / 8) * X) := by rw [abs_of_nonneg cub.1]; exact le_trans cub.2 h5
    rw [show X + X * (X ^ 2 * K) - A = X * (X ^ 2 * (K - -(1 / 3))) + -(A - (X - X ^ 3 / 3)) by ring]
    refine le_trans (abs_add_le' h6 (abs_neg_le h7)) ?_
    have h8 := mul_le_mul_of_nonneg_right hu3 (show 0 ≤ 5 / 100 * X by positivity)
    refine le_trans ?_ h8
    have e : X * (1 / 2 ^ 28 * (1 / 2 ^ 53)) + 1 / 2 ^ 53 * (1 / 5 * (1 / 8) * X) = 1 / 2 ^ 53 * ((1 / 2 ^ 28 + 1 / 40) * X) := by ring
    rw [e]
    exact mul_le_mul_of_nonneg_left (mul_le_mul_of_nonneg_right (by norm_num) h0) (by positivity)
  have hA0 : 0 ≤ A := le_trans (mul_nonneg h0 (by norm_num)) hge
  have hS : |X + binary64.val t - A| ≤ ru md * (6 / 100 * (X * (1 - 1 / 2 ^ 20))) + 14 / 10 * eta := by
    rw [show X + binary64.val t - A = (binary64.val t - X * (X ^ 2 * K)) + (X + X * (X ^ 2 * K) - A) by ring]
    rw [abs_of_nonneg h0] at key
    refine le_trans (abs_add_le' key cub2) ?_
    have a : ru md * (1 / 2 ^ 20 * X) + ru md * (5 / 100 * X) ≤ ru md * (6 / 100 * (X * (1 - 1 / 2 ^ 20))) := by
      rw [← mul_add]
      refine mul_le_mul_of_nonneg_left ?_ hu.le
      norm_num; linarith
    linarith
  have hta : |X + binary64.val t| ≤ 2 ^ 200 := by
    have h1 : |A| ≤ 1 := by
      rw [← hA, abs_of_nonneg (by rw [hA]; exact hA0)]
      have := arctan_le_self' h0
      norm_num at hX; linarith
    refine le_trans (abs_near hS h1) ?_
    have h2 : ru md * (6 / 100 * (X * (1 - 1 / 2 ^ 20))) ≤ 1 * 1 := mul_le_mul (le_trans hu2 (by norm_num)) (by norm_num at *; linarith) (mul_nonneg (by norm_num) (mul_nonneg h0 (by norm_num))) (by norm_num)
    have h3 : eta ≤ 1 := le_trans hη (by norm_num)
    have h4 : (10 : ℝ) ≤ 2 ^ 200 := by norm_num
    linarith
  obtain ⟨fo, er⟩ := add64_err md hx ft (by rw [hXe]; exact hta)
  rw [hXe] at er
  refine ⟨fo, le_trans (fin_round hu hu2 hS (by rw [abs_of_nonneg hA0]; exact hge) er (by norm_num) (by norm_num) (by norm_num) (by norm_num) hη0.le) ?_⟩
  rw [abs_of_nonneg hA0]
  have h1 : ru md * ((1 + 6 / 100 + 1 / 10 ^ 6) * A) ≤ ru md * (11 / 10 * A) := mul_le_mul_of_nonneg_left (mul_le_mul_of_nonneg_right (by norm_num) hA0) hu.le
  have h2 : (1 + 14 / 10 + 1 / 10 ^ 6) * eta ≤ 3 * eta := mul_le_mul_of_nonneg_right (by norm_num) hη0.le
  linarith

/-- arcsine has slope at most 1.417 between -0.708 and 0.708 -/
theorem arcsin_lip {s t : ℝ} (hs : |s| ≤ 708 / 1000) (ht : |t| ≤ 708 / 1000) : |arcsin s - arcsin t| ≤ 1417 / 1000 * |s - t| := by
  have hs' := abs_le.1 hs
  have ht' := abs_le.1 ht
  have := Convex.norm_image_sub_le_of_norm_hasDerivWithin_le (f := arcsin) (f' := fun x => 1 / √(1 - x ^ 2)) (C := 1417 / 1000) (s := Set.Icc (-(708 / 1000)) (708 / 1000))
    (fun x hx => (Real.hasDerivAt_arcsin (by have := hx.1; intro h; rw [h] at this; norm_num at this) (by have := hx.2; intro h; rw [h] at this; norm_num at this)).hasDerivWithinAt)
    (fun x hx => by
      have hx2 : x ^ 2 ≤ (708 / 1000) ^ 2 := by exact sq_le_sq' hx.1 hx.2
      have h1 : 1000 / 1417 ≤ √(1 - x ^ 2) := by
        apply Real.le_sqrt_of_sq_le; norm_num at hx2 ⊢; linarith
      rw [Real.norm_eq_abs, abs_of_nonneg (by positivity), div_le_iff₀ (by linarith)]
      linarith) (convex_Icc _ _) ht' hs'
  simpa [Real.norm_eq_abs] using this

end Verif
