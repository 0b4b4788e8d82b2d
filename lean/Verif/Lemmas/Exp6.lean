import Verif.Lemmas.Exp5

/-!
# `exp`: scaling the polynomial
-/

namespace Verif
open Fmt Real

/-- One rounding, for values up to `2^1000`. -/
theorem err64b {m : Mode} {zs : Bool} {v : ℝ} {b : ℕ} (R : binary64.RoundsTo m zs v b) (hv : |v| ≤ (2 : ℝ) ^ (1000 : ℤ)) :
    binary64.Finite b ∧ |binary64.val b - v| ≤ ru m * |v| + eta := by
  have hv' : |v| ≤ binary64.maxFin := le_trans hv big_le
  refine ⟨(RoundsTo.ulp R hv').1, ?_⟩
  have hF : (2 : ℝ) ^ (-(binary64.F : ℤ)) = 1 / 2 ^ 52 := by rw [zpow_neg, one_div, zpow_natCast]; rfl
  have hg : binary64.gapBound v ≤ 1 / 2 ^ 52 * |v| + eta := by
    unfold gapBound; rw [hF]
    refine max_le ?_ ?_
    · have := eta_pos; linarith
    · have : (0 : ℝ) ≤ 1 / 2 ^ 52 * |v| := by positivity
      change eta ≤ _; linarith
  unfold ru
  split_ifs with h
  · subst h
    have h1 := RoundsTo.err_nearest R hv'
    have := eta_pos
    have e : (1 : ℝ) / 2 ^ 53 * |v| = 1 / 2 ^ 52 * |v| / 2 := by ring
    rw [e]; linarith
  · exact le_trans (RoundsTo.err R hv') hg

/-- One rounding, for values up to `3 / 2 * 2^1023`. -/
theorem err64c {m : Mode} {zs : Bool} {v : ℝ} {b : ℕ} (R : binary64.RoundsTo m zs v b) (hv : |v| ≤ 3 / 2 * (2 : ℝ) ^ (1023 : ℤ)) :
    binary64.Finite b ∧ |binary64.val b - v| ≤ ru m * |v| + eta := by
  have hv' : |v| ≤ binary64.maxFin := le_trans hv (by
    have h1 := binary64.maxFin_add
    have e1 : ((binary64.bias : ℤ) + 1) = 1024 := by decide
    have e2 : ((binary64.bias : ℤ) - binary64.F) = 971 := by decide
    rw [e1, e2] at h1
    have h3 : (2 : ℝ) ^ (971 : ℤ) ≤ 2 ^ (1022 : ℤ) := two_zpow_le (by norm_num)
    have h4 : (2 : ℝ) ^ (1024 : ℤ) = 2 * 2 ^ (1023 : ℤ) := two_zpow_succ 1023
    have h5 : (2 : ℝ) ^ (1023 : ℤ) = 2 * 2 ^ (1022 : ℤ) := two_zpow_succ 1022
    generalize (2 : ℝ) ^ (1024 : ℤ) = a at *
    generalize (2 : ℝ) ^ (1023 : ℤ) = b at *
    generalize (2 : ℝ) ^ (1022 : ℤ) = c at *
    generalize (2 : ℝ) ^ (971 : ℤ) = d at *
    linarith)
  refine ⟨(RoundsTo.ulp R hv').1, ?_⟩
  have hF : (2 : ℝ) ^ (-(binary64.F : ℤ)) = 1 / 2 ^ 52 := by rw [zpow_neg, one_div, zpow_natCast]; rfl
  have hg : binary64.gapBound v ≤ 1 / 2 ^ 52 * |v| + eta := by
    unfold gapBound; rw [hF]
    refine max_le ?_ ?_
    · have := eta_pos; linarith
    · have : (0 : ℝ) ≤ 1 / 2 ^ 52 * |v| := by positivity
      change eta ≤ _; linarith
  unfold ru
  split_ifs with h
  · subst h
    have h1 := RoundsTo.err_nearest R hv'
    have := eta_pos
    have e : (1 : ℝ) / 2 ^ 53 * |v| = 1 / 2 ^ 52 * |v| / 2 := by ring
    rw [e]; linarith
  · exact le_trans (RoundsTo.err R hv') hg

/-- `scale + scale * tmp` -/
theorem scale_round (md : Mode) {sc tmp : ℕ} (fs : binary64.Finite sc) (ft : binary64.Finite tmp) (h1 : (2 : ℝ) ^ (-960 : ℤ) ≤ binary64.val sc)
    (h2 : binary64.val sc ≤ 11 / 10 * (2 : ℝ) ^ (1023 : ℤ)) (hM : |binary64.val tmp| ≤ 57 / 10000) :
    binary64.Finite (binary64.hmul md sc tmp) ∧ binary64.Finite (binary64.hadd md sc (binary64.hmul md sc tmp)) ∧
      |binary64.val (binary64.hmul md sc tmp) - binary64.val sc * binary64.val tmp| ≤ ru md * (binary64.val sc * (571 / 100000)) ∧
      |binary64.val (binary64.hmul md sc tmp)| ≤ binary64.val sc * (58 / 10000) ∧
      |binary64.val (binary64.hadd md sc (binary64.hmul md sc tmp)) - (binary64.val sc + binary64.val (binary64.hmul md sc tmp))| ≤
        ru md * |binary64.val sc + binary64.val (binary64.hmul md sc tmp)| + eta ∧
      eta ≤ ru md * (binary64.val sc * (1 / 10 ^ 9)) := by
  have hu := ru_pos md
  have hu2 := ru_le md
  have hu3 := ru_ge md
  have hsp : 0 < binary64.val sc := lt_of_lt_of_le (two_zpow_pos _) h1
  have hη : eta ≤ 1 / 2 ^ 110 * binary64.val sc := by
    rw [eta_eq, show (-1074 : ℤ) = -110 + (-964) from rfl, zpow_add₀ (by norm_num)]
    have e1 : (2 : ℝ) ^ (-110 : ℤ) = 1 / 2 ^ 110 := by rw [zpow_neg, one_div]; norm_cast
    rw [e1]
    refine mul_le_mul_of_nonneg_left (le_trans (two_zpow_le (by norm_num)) h1) (by positivity)
  have hη2 : eta ≤ ru md * (binary64.val sc * (1 / 10 ^ 9)) := by
    refine le_trans hη ?_
    have : (1 : ℝ) / 2 ^ 110 ≤ ru md * (1 / 10 ^ 9) := by
      refine le_trans ?_ (mul_le_mul_of_nonneg_right hu3 (by positivity)); norm_num
    have := mul_le_mul_of_nonneg_right this hsp.le
    linarith
  have hbig : ∀ v : ℝ, |v| ≤ 12 / 10 * binary64.val sc → |v| ≤ 3 / 2 * (2 : ℝ) ^ (1023 : ℤ) := fun v hv => by
    refine le_trans hv ?_
    have h3 := two_zpow_pos 1023
    generalize (2 : ℝ) ^ (1023 : ℤ) = w at *
    linarith
  set s := binary64.val sc
  have hp : |s * binary64.val tmp| ≤ s * (57 / 10000) := by rw [abs_mul, abs_of_pos hsp]; exact mul_le_mul_of_nonneg_left hM hsp.le
  obtain ⟨f1, e1⟩ := err64c (binary64.hmul_spec md fs ft) (hbig _ (by linarith))
  have e1' : |binary64.val (binary64.hmul md sc tmp) - s * binary64.val tmp| ≤ ru md * (s * (571 / 100000)) := by
    have := mul_le_mul_of_nonneg_left hp hu.le
    have h3 : 0 ≤ ru md * s := by positivity
    refine le_trans e1 ?_
    linarith
  have ht : |binary64.val (binary64.hmul md sc tmp)| ≤ s * (58 / 10000) := by
    refine le_trans (abs_near e1' hp) ?_
    have : ru md * (s * (571 / 100000)) ≤ 1 / 2 ^ 52 * (s * (571 / 100000)) := mul_le_mul_of_nonneg_right hu2 (by positivity)
    have h3 : (1 : ℝ) / 2 ^ 52 * (s * (571 / 100000)) ≤ s * (1 / 10000) := by
      have : (1 : ℝ) / 2 ^ 52 * (571 / 100000) ≤ 1 / 10000 := by norm_num
      have := mul_le_mul_of_nonneg_left this hsp.le
      linarith
    linarith
  obtain ⟨f2, e2⟩ := err64c (binary64.hadd_spec md fs f1) (hbig _ (by
    refine le_trans (abs_add_le _ _) ?_
    rw [abs_of_pos hsp]; linarith))
  exact ⟨f1, f2, e1', ht, e2, hη2⟩

/-- `s + t` against the exponential `A` -/
theorem exp_sum {u D s T p M t A : ℝ} (hu : 0 < u) (hu2 : u ≤ 1 / 2 ^ 52) (hu3 : 1 / 2 ^ 53 ≤ u) (hs : 0 < s) (hA : |A - s * (1 + T) * (1 + p)| ≤ s * (1 / 2 ^ 103)) (hT : |T| ≤ 1 / 2 ^ 53)
    (hp : |p| ≤ 5446 / 10 ^ 6) (hD : 0 ≤ D) (hD2 : D ≤ 1200) (hM : |M - (T + p)| ≤ u * D) (ht : |t - s * M| ≤ u * (s * (571 / 100000))) :
    s * (994 / 1000) ≤ A ∧ A ≤ s * (1006 / 1000) ∧ |s + t - A| ≤ u * (s * (D + 1117 / 10 ^ 5)) ∧ |s + t - A| ≤ u * (A * (1006 / 1000 * D + 1124 / 10 ^ 5)) := by
  have hTp : |T * p| ≤ 1 / 2 ^ 53 * (5446 / 10 ^ 6) := abs_mul_le hT hp
  have e : s + t - A = (t - s * M) + s * (M - (T + p)) - s * (T * p) - (A - s * (1 + T) * (1 + p)) := by ring
  have h1 : |s * (M - (T + p))| ≤ s * (u * D) := by rw [abs_mul, abs_of_pos hs]; exact mul_le_mul_of_nonneg_left hM hs.le
  have h2 : |s * (T * p)| ≤ s * (1 / 2 ^ 53 * (5446 / 10 ^ 6)) := by rw [abs_mul, abs_of_pos hs]; exact mul_le_mul_of_nonneg_left hTp hs.le
  have h3 : |s + t - A| ≤ u * (s * (571 / 100000)) + s * (u * D) + s * (1 / 2 ^ 53 * (5446 / 10 ^ 6)) + s * (1 / 2 ^ 103) := by
    rw [e]
    refine le_trans (abs_sub _ _) (add_le_add (le_trans (abs_sub _ _) (add_le_add (le_trans (abs_add_le _ _) (add_le_add ht h1)) h2)) hA)
  have hus : 1 / 2 ^ 53 * s ≤ u * s := mul_le_mul_of_nonneg_right hu3 hs.le
  have h4 : |s + t - A| ≤ u * (s * (D + 1117 / 10 ^ 5)) := by
    have : s * (1 / 2 ^ 103) ≤ 1 / 2 ^ 53 * s * (1 / 10 ^ 6) := by
      have : (1 : ℝ) / 2 ^ 103 ≤ 1 / 2 ^ 53 * (1 / 10 ^ 6) := by norm_num
      have := mul_le_mul_of_nonneg_left this hs.le
      linarith
    have h5 : s * (1 / 2 ^ 53 * (5446 / 10 ^ 6)) = 1 / 2 ^ 53 * s * (5446 / 10 ^ 6) := by ring
    rw [h5] at h3
    have h6 : u * (s * (D + 1117 / 10 ^ 5)) = u * s * D + u * s * (1117 / 10 ^ 5) := by ring
    rw [h6]
    have h7 : s * (u * D) = u * s * D := by ring
    rw [h7] at h3
    linarith
  have hAs : |A - s| ≤ s * (545 / 10 ^ 5) := by
    have e2 : A - s = (A - s * (1 + T) * (1 + p)) + s * (T + p + T * p) := by ring
    rw [e2]
    have h5 : |T + p + T * p| ≤ 5447 / 10 ^ 6 := by
      refine le_trans (abs_add_le' (abs_add_le' hT hp) hTp) (by norm_num)
    have h6 : |s * (T + p + T * p)| ≤ s * (5447 / 10 ^ 6) := by rw [abs_mul, abs_of_pos hs]; exact mul_le_mul_of_nonneg_left h5 hs.le
    have h7 : s * (1 / 2 ^ 103) ≤ s * (1 / 10 ^ 6) := mul_le_mul_of_nonneg_left (by norm_num) hs.le
    refine le_trans (abs_add_le' hA h6) ?_
    linarith
  rw [abs_le] at hAs
  have hs2 : s ≤ A * (10055 / 10000) := by linarith [hAs.1]
  refine ⟨by linarith [hAs.1], by linarith [hAs.2], h4, le_trans h4 (mul_le_mul_of_nonneg_left ?_ hu.le)⟩
  have h8 : s * (D + 1117 / 10 ^ 5) ≤ A * (10055 / 10000) * (D + 1117 / 10 ^ 5) := mul_le_mul_of_nonneg_right hs2 (by linarith)
  have hA0 : 0 < A := by linarith [hAs.1]
  have h9 : 0 ≤ A * D := by positivity
  have e3 : A * (10055 / 10000) * (D + 1117 / 10 ^ 5) = 10055 / 10000 * (A * D) + A * (10055 / 10000 * (1117 / 10 ^ 5)) := by ring
  have e4 : A * (1006 / 1000 * D + 1124 / 10 ^ 5) = 1006 / 1000 * (A * D) + A * (1124 / 10 ^ 5) := by ring
  rw [e3] at h8
  rw [e4]
  linarith

/-- the rounded sum against the exponential -/
theorem exp_rel {u η D s t res A : ℝ} (hu : 0 < u) (hu2 : u ≤ 1 / 2 ^ 52) (hA1 : s * (994 / 1000) ≤ A) (hs : 0 < s) (hD : 0 ≤ D) (hD2 : D ≤ 1200)
    (h1 : |s + t - A| ≤ u * (A * (1006 / 1000 * D + 1124 / 10 ^ 5))) (h2 : |res - (s + t)| ≤ u * |s + t| + η) (hη : η ≤ u * (s * (1 / 10 ^ 9))) :
    |res - A| ≤ u * (A * (1 + 1006 / 1000 * D + 1130 / 10 ^ 5)) := by
  have hA0 : 0 < A := lt_of_lt_of_le (by positivity) hA1
  have h3 : |s + t| ≤ A + u * (A * (1006 / 1000 * D + 1124 / 10 ^ 5)) := abs_near h1 (abs_of_pos hA0).le |>.trans le_rfl
  have h4 := mul_le_mul_of_nonneg_left h3 hu.le
  have h5 : u * (A * (1006 / 1000 * D + 1124 / 10 ^ 5)) ≤ 1 / 2 ^ 52 * (A * 1300) := by
    refine mul_le_mul hu2 (mul_le_mul_of_nonneg_left (by linarith) hA0.le) (by positivity) (by positivity)
  have h6 := mul_le_mul_of_nonneg_left h5 hu.le
  have h7 := abs_tri h2 h1
  have h8 : s ≤ A * (1007 / 1000) := by linarith
  have h9 := mul_le_mul_of_nonneg_left h8 hu.le
  have e1 : u * (1 / 2 ^ 52 * (A * 1300)) = u * A * (1 / 2 ^ 52 * 1300) := by ring
  rw [e1] at h6
  have h10 : u * A * (1 / 2 ^ 52 * 1300) ≤ u * A * (1 / 10 ^ 7) := mul_le_mul_of_nonneg_left (by norm_num) (by positivity)
  have e2 : u * (A * (1 + 1006 / 1000 * D + 1130 / 10 ^ 5)) = u * A + u * (A * (1006 / 1000 * D + 1124 / 10 ^ 5)) + u * A * (6 / 10 ^ 5) := by ring
  rw [e2]
  have h11 : 0 < u * A := by positivity
  linarith

end Verif
