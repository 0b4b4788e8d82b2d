import Verif.Lemmas.FErr

/-!
# Rounding errors of float arithmetic in the form `u |v| + η`
-/

namespace Verif
open Fmt

/-- Relative error of one rounding: `2^-24` in nearest mode, `2^-23` otherwise. -/
noncomputable def ruf (m : Mode) : ℝ := if m = .nearest then 1 / 2 ^ 24 else 1 / 2 ^ 23

/-- least positive float -/
noncomputable def etaf : ℝ := binary32.minSub

theorem ruf_pos (m : Mode) : 0 < ruf m := by unfold ruf; split_ifs <;> positivity
theorem ruf_le (m : Mode) : ruf m ≤ 1 / 2 ^ 23 := by unfold ruf; split_ifs <;> norm_num
theorem ruf_ge (m : Mode) : 1 / 2 ^ 24 ≤ ruf m := by unfold ruf; split_ifs <;> norm_num
theorem etaf_pos : 0 < etaf := binary32.minSub_pos
theorem etaf_eq : etaf = (2 : ℝ) ^ (-149 : ℤ) := by unfold etaf; rw [binary32.minSub_eq_zpow]; rfl
theorem etaf_le : etaf ≤ 1 / 2 ^ 100 := by
  rw [etaf_eq]
  calc (2 : ℝ) ^ (-149 : ℤ) ≤ (2 : ℝ) ^ (-100 : ℤ) := two_zpow_le (by norm_num)
    _ = 1 / 2 ^ 100 := by rw [zpow_neg, one_div]; norm_cast

theorem bigf_le : (2 : ℝ) ^ (110 : ℤ) ≤ binary32.maxFin := by
  have h1 := binary32.maxFin_add
  have e1 : ((binary32.bias : ℤ) + 1) = 128 := by decide
  have e2 : ((binary32.bias : ℤ) - binary32.F) = 104 := by decide
  rw [e1, e2] at h1
  have h2 : (2 : ℝ) ^ (110 : ℤ) ≤ 2 ^ (127 : ℤ) := two_zpow_le (by norm_num)
  have h3 : (2 : ℝ) ^ (104 : ℤ) ≤ 2 ^ (127 : ℤ) := two_zpow_le (by norm_num)
  have h4 : (2 : ℝ) ^ (128 : ℤ) = 2 * 2 ^ (127 : ℤ) := two_zpow_succ 127
  generalize (2 : ℝ) ^ (110 : ℤ) = a at *
  generalize (2 : ℝ) ^ (127 : ℤ) = b at *
  generalize (2 : ℝ) ^ (128 : ℤ) = c at *
  generalize (2 : ℝ) ^ (104 : ℤ) = d at *
  linarith

theorem bigf_ge {a : ℝ} (h : a ≤ 2 ^ 100) : a ≤ (2 : ℝ) ^ (110 : ℤ) := by
  refine le_trans h ?_
  rw [← zpow_natCast]; exact two_zpow_le (by norm_num)

/-- One rounding. -/
theorem err32 {m : Mode} {zs : Bool} {v : ℝ} {b : ℕ} (R : binary32.RoundsTo m zs v b) (hv : |v| ≤ 2 ^ 100) :
    binary32.Finite b ∧ |binary32.val b - v| ≤ ruf m * |v| + etaf := by
  have hv' : |v| ≤ binary32.maxFin := le_trans (bigf_ge hv) bigf_le
  refine ⟨(RoundsTo.ulp R hv').1, ?_⟩
  have hF : (2 : ℝ) ^ (-(binary32.F : ℤ)) = 1 / 2 ^ 23 := by rw [zpow_neg, one_div, zpow_natCast]; rfl
  have hg : binary32.gapBound v ≤ 1 / 2 ^ 23 * |v| + etaf := by
    unfold gapBound; rw [hF]
    refine max_le ?_ ?_
    · have := etaf_pos; linarith
    · have : (0 : ℝ) ≤ 1 / 2 ^ 23 * |v| := by positivity
      change etaf ≤ _; linarith
  unfold ruf
  split_ifs with h
  · subst h
    have h1 := RoundsTo.err_nearest R hv'
    have := etaf_pos
    have e : (1 : ℝ) / 2 ^ 24 * |v| = 1 / 2 ^ 23 * |v| / 2 := by ring
    rw [e]; linarith
  · exact le_trans (RoundsTo.err R hv') hg

theorem mul32_err (m : Mode) {x y : ℕ} (hx : binary32.Finite x) (hy : binary32.Finite y) (hb : |binary32.val x * binary32.val y| ≤ 2 ^ 100) :
    binary32.Finite (binary32.hmul m x y) ∧
      |binary32.val (binary32.hmul m x y) - binary32.val x * binary32.val y| ≤ ruf m * |binary32.val x * binary32.val y| + etaf :=
  err32 (binary32.hmul_spec m hx hy) hb

theorem add32_err (m : Mode) {x y : ℕ} (hx : binary32.Finite x) (hy : binary32.Finite y) (hb : |binary32.val x + binary32.val y| ≤ 2 ^ 100) :
    binary32.Finite (binary32.hadd m x y) ∧
      |binary32.val (binary32.hadd m x y) - (binary32.val x + binary32.val y)| ≤ ruf m * |binary32.val x + binary32.val y| + etaf :=
  err32 (binary32.hadd_spec m hx hy) hb

theorem maf_aux (u η p P z r : ℝ) (hu : 0 < u) (hu2 : u ≤ 1 / 2 ^ 23) (hη : 0 < η) (h1 : |p - P| ≤ u * |P| + η)
    (h2 : |r - (p + z)| ≤ u * |p + z| + η) :
    |r - (P + z)| ≤ u * |P + z| + (1 + 1 / 2 ^ 20) * u * |P| + 3 * η := by
  have h3 : |p + z| ≤ |P + z| + (u * |P| + η) := by
    have : p + z = (P + z) + (p - P) := by ring
    rw [this]; exact le_trans (abs_add_le _ _) (by linarith)
  have h4 : |r - (P + z)| ≤ |r - (p + z)| + |p - P| := by
    have : r - (P + z) = (r - (p + z)) + (p - P) := by ring
    rw [this]; exact abs_add_le _ _
  have h5 := mul_le_mul_of_nonneg_left h3 hu.le
  have hP := abs_nonneg P
  have h6 : u * (u * |P| + η) ≤ 1 / 2 ^ 23 * (u * |P| + η) := mul_le_mul_of_nonneg_right hu2 (by positivity)
  have h7 : 0 ≤ u * |P| := by positivity
  have e : (1 + 1 / 2 ^ 20) * u * |P| = u * |P| + 1 / 2 ^ 20 * (u * |P|) := by ring
  rw [e]
  have : (1 : ℝ) / 2 ^ 23 * (u * |P| + η) ≤ 1 / 2 ^ 20 * (u * |P|) + η := by
    have : (1 : ℝ) / 2 ^ 23 * η ≤ η := by rw [div_mul_eq_mul_div, one_mul]; exact div_le_self hη.le (by norm_num)
    have : (1 : ℝ) / 2 ^ 23 * (u * |P|) ≤ 1 / 2 ^ 20 * (u * |P|) := mul_le_mul_of_nonneg_right (by norm_num) h7
    linarith
  linarith

/-- `multiply_add`, fused or not. -/
theorem ma32_err (fused : Bool) (m : Mode) {x y z : ℕ} (hx : binary32.Finite x) (hy : binary32.Finite y) (hz : binary32.Finite z)
    (h1 : |binary32.val x * binary32.val y| ≤ 2 ^ 40) (h2 : |binary32.val z| ≤ 2 ^ 40) :
    binary32.Finite (CC.multiplyAdd binary32 fused m x y z) ∧
      |binary32.val (CC.multiplyAdd binary32 fused m x y z) - (binary32.val x * binary32.val y + binary32.val z)| ≤
        ruf m * |binary32.val x * binary32.val y + binary32.val z| + (1 + 1 / 2 ^ 20) * ruf m * |binary32.val x * binary32.val y| + 3 * etaf := by
  have hη := etaf_pos
  have hu := ruf_pos m
  have hu2 := ruf_le m
  unfold CC.multiplyAdd
  cases fused
  · simp only [Bool.false_eq_true, if_false]
    obtain ⟨a1, a2⟩ := mul32_err m hx hy (le_trans h1 (by norm_num))
    set p := binary32.val (binary32.hmul m x y)
    set P := binary32.val x * binary32.val y
    have hp : |p| ≤ 2 ^ 42 := by
      have : p = P + (p - P) := by ring
      have h3 : |p| ≤ |P| + |p - P| := by conv_lhs => rw [this]
                                          exact abs_add_le _ _
      have h4 : ruf m * |P| ≤ 1 / 2 ^ 23 * 2 ^ 40 := mul_le_mul hu2 h1 (abs_nonneg _) (by positivity)
      have := etaf_le
      have h5 : (1 : ℝ) / 2 ^ 23 * 2 ^ 40 + 1 / 2 ^ 100 + 2 ^ 40 ≤ 2 ^ 42 := by norm_num
      linarith
    obtain ⟨b1, b2⟩ := add32_err m a1 hz (by
      refine le_trans (abs_add_le _ _) ?_
      have h5 : (2 : ℝ) ^ 42 + 2 ^ 40 ≤ 2 ^ 100 := by norm_num
      linarith)
    exact ⟨b1, maf_aux _ _ _ _ _ _ hu hu2 hη a2 b2⟩
  · simp only [if_true]
    obtain ⟨a1, a2⟩ := err32 (hfma_spec binary32 (x := x) (y := y) (z := z) m) (by
      refine le_trans (abs_add_le _ _) ?_
      have h5 : (2 : ℝ) ^ 40 + 2 ^ 40 ≤ 2 ^ 100 := by norm_num
      linarith)
    refine ⟨a1, le_trans a2 ?_⟩
    have : 0 ≤ (1 + 1 / 2 ^ 20) * ruf m * |binary32.val x * binary32.val y| := by positivity
    linarith

/-- value of a normal float literal `± m / 2^k` -/
theorem lit32 {x : ℕ} (s : Bool) (m k : ℕ) (h1 : binary32.sgn x = s) (h2 : binary32.bexp x ≠ 0) (h3 : 2 ^ 23 + binary32.frac x = m)
    (h4 : binary32.bexp x + k = 150) : binary32.val x = sg s * ((m : ℝ) / 2 ^ k) := by
  have := CC.val_normal binary32 (x := x) (k := (binary32.bexp x : ℤ) - 127) h2 (by
    unfold FPBits.getExponent; rw [FPBits.biasedExp_eq]; congr 1)
  rw [CC.val_eq_sg_abs binary32 x, h1, this]
  have hF : binary32.F = 23 := rfl
  rw [hF, h3]
  have e : (binary32.bexp x : ℤ) - 127 - ((23 : ℕ) : ℤ) = -(k : ℤ) := by push_cast; omega
  rw [e, zpow_neg, zpow_natCast, inv_mul_eq_div]

/-- A representable value is returned exactly. -/
theorem ex32 {m : Mode} {zs : Bool} {v : ℝ} {b : ℕ} (g : ℤ) (R : binary32.RoundsTo m zs v b) (hm : Mult g v) (hg : -149 ≤ g)
    (h1 : |v| ≤ (2 : ℝ) ^ (g + 24)) (h2 : |v| ≤ 2 ^ 100) : binary32.Finite b ∧ binary32.val b = v := by
  obtain ⟨c, hc, hv⟩ := binary32.rep (g := g) hm (by exact hg) (by
    have : g + (binary32.F : ℤ) + 1 = g + 24 := by have : binary32.F = 23 := rfl
                                                   rw [this]; push_cast; ring
    rw [this]; exact h1) (by
    have := bigf_ge h2
    refine lt_of_le_of_lt this (two_zpow_lt ?_)
    decide)
  exact RoundsTo.exact binary32 hc hv R

/-- integers up to `2^24` are converted exactly -/
theorem ofInt_ex32 (m : Mode) {z : ℤ} (h : |z| ≤ 2 ^ 24) : binary32.Finite (binary32.ofInt m z) ∧ binary32.val (binary32.ofInt m z) = z := by
  have h' : |(z : ℝ)| ≤ 2 ^ 24 := by exact_mod_cast h
  refine ex32 0 (ofInt_spec binary32 m z) ⟨z, by simp⟩ (by norm_num) ?_ (le_trans h' (by norm_num))
  refine le_trans h' ?_
  norm_num

theorem pow2_32 (s : Bool) (k : ℤ) (h1 : -127 < k) (h2 : k ≤ 127) :
    binary32.Finite (CC.pow2 binary32 s k) ∧ binary32.val (CC.pow2 binary32 s k) = sg s * (2 : ℝ) ^ k :=
  pow2_spec binary32 s h1 h2

end Verif
