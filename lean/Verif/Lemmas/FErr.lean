import Verif.Lemmas.RelErr
import Verif.Lemmas.Ulp
import Verif.Lemmas.Dyadic
import Verif.Lemmas.FpSupport
import Verif.Props.Manip

/-!
# Rounding errors of double arithmetic in the form `u |v| + η`
-/

namespace Verif
open Fmt

/-- Relative error of one rounding: `2^-53` in nearest mode, `2^-52` otherwise. -/
noncomputable def ru (m : Mode) : ℝ := if m = .nearest then 1 / 2 ^ 53 else 1 / 2 ^ 52

/-- least positive double -/
noncomputable def eta : ℝ := binary64.minSub

theorem ru_pos (m : Mode) : 0 < ru m := by unfold ru; split_ifs <;> positivity
theorem ru_le (m : Mode) : ru m ≤ 1 / 2 ^ 52 := by unfold ru; split_ifs <;> norm_num
theorem ru_ge (m : Mode) : 1 / 2 ^ 53 ≤ ru m := by unfold ru; split_ifs <;> norm_num
theorem eta_pos : 0 < eta := binary64.minSub_pos
theorem eta_eq : eta = (2 : ℝ) ^ (-1074 : ℤ) := by unfold eta; rw [binary64.minSub_eq_zpow]; rfl
theorem eta_le : eta ≤ 1 / 2 ^ 200 := by
  rw [eta_eq]
  calc (2 : ℝ) ^ (-1074 : ℤ) ≤ (2 : ℝ) ^ (-200 : ℤ) := two_zpow_le (by norm_num)
    _ = 1 / 2 ^ 200 := by rw [zpow_neg, one_div]; norm_cast

theorem big_le : (2 : ℝ) ^ (1000 : ℤ) ≤ binary64.maxFin := by
  have h1 := binary64.maxFin_add
  have e1 : ((binary64.bias : ℤ) + 1) = 1024 := by decide
  have e2 : ((binary64.bias : ℤ) - binary64.F) = 971 := by decide
  rw [e1, e2] at h1
  have h2 : (2 : ℝ) ^ (1000 : ℤ) ≤ 2 ^ (1023 : ℤ) := two_zpow_le (by norm_num)
  have h3 : (2 : ℝ) ^ (971 : ℤ) ≤ 2 ^ (1023 : ℤ) := two_zpow_le (by norm_num)
  have h4 : (2 : ℝ) ^ (1024 : ℤ) = 2 * 2 ^ (1023 : ℤ) := two_zpow_succ 1023
  generalize (2 : ℝ) ^ (1000 : ℤ) = a at *
  generalize (2 : ℝ) ^ (1023 : ℤ) = b at *
  generalize (2 : ℝ) ^ (1024 : ℤ) = c at *
  generalize (2 : ℝ) ^ (971 : ℤ) = d at *
  linarith

theorem big_ge {a : ℝ} (h : a ≤ 2 ^ 200) : a ≤ (2 : ℝ) ^ (1000 : ℤ) := by
  refine le_trans h ?_
  rw [← zpow_natCast]; exact two_zpow_le (by norm_num)

/-- One rounding. -/
theorem err64 {m : Mode} {zs : Bool} {v : ℝ} {b : ℕ} (R : binary64.RoundsTo m zs v b) (hv : |v| ≤ 2 ^ 200) :
    binary64.Finite b ∧ |binary64.val b - v| ≤ ru m * |v| + eta := by
  have hv' : |v| ≤ binary64.maxFin := le_trans (big_ge hv) big_le
  refine ⟨(RoundsTo.ulp R hv').1, ?_⟩
  have hF : (2 : ℝ) ^ (-(binary64.F : ℤ)) = 1 / 2 ^ 52 := by rw [zpow_neg, one_div, zpow_natCast]; rfl
  have hg : binary64.gapBound v ≤ 1 / 2 ^ 52 * |v| + eta := by
    unfold gapBound; rw [hF]
    refine max_le ?_ ?_
    · have := eta_pos; linarith
    · have : (0 : ℝ) ≤ 1 / 2 ^ 52 * |v| := by positivity
      change eta ≤ _; linarith
  unfold ru
  split_ifs with h
  · subst h
    have h1 := RoundsTo.err_nearest R hv'
    have := eta_pos
    have e : (1 : ℝ) / 2 ^ 53 * |v| = 1 / 2 ^ 52 * |v| / 2 := by ring
    rw [e]; linarith
  · exact le_trans (RoundsTo.err R hv') hg

theorem mul64_err (m : Mode) {x y : ℕ} (hx : binary64.Finite x) (hy : binary64.Finite y) (hb : |binary64.val x * binary64.val y| ≤ 2 ^ 200) :
    binary64.Finite (binary64.hmul m x y) ∧
      |binary64.val (binary64.hmul m x y) - binary64.val x * binary64.val y| ≤ ru m * |binary64.val x * binary64.val y| + eta :=
  err64 (binary64.hmul_spec m hx hy) hb

theorem add64_err (m : Mode) {x y : ℕ} (hx : binary64.Finite x) (hy : binary64.Finite y) (hb : |binary64.val x + binary64.val y| ≤ 2 ^ 200) :
    binary64.Finite (binary64.hadd m x y) ∧
      |binary64.val (binary64.hadd m x y) - (binary64.val x + binary64.val y)| ≤ ru m * |binary64.val x + binary64.val y| + eta :=
  err64 (binary64.hadd_spec m hx hy) hb

theorem ma_aux (u η p P z r : ℝ) (hu : 0 < u) (hu2 : u ≤ 1 / 2 ^ 52) (hη : 0 < η) (h1 : |p - P| ≤ u * |P| + η)
    (h2 : |r - (p + z)| ≤ u * |p + z| + η) :
    |r - (P + z)| ≤ u * |P + z| + (1 + 1 / 2 ^ 50) * u * |P| + 3 * η := by
  have h3 : |p + z| ≤ |P + z| + (u * |P| + η) := by
    have : p + z = (P + z) + (p - P) := by ring
    rw [this]; exact le_trans (abs_add_le _ _) (by linarith)
  have h4 : |r - (P + z)| ≤ |r - (p + z)| + |p - P| := by
    have : r - (P + z) = (r - (p + z)) + (p - P) := by ring
    rw [this]; exact abs_add_le _ _
  have h5 := mul_le_mul_of_nonneg_left h3 hu.le
  have hP := abs_nonneg P
  have h6 : u * (u * |P| + η) ≤ 1 / 2 ^ 52 * (u * |P| + η) := mul_le_mul_of_nonneg_right hu2 (by positivity)
  have h7 : 0 ≤ u * |P| := by positivity
  have e : (1 + 1 / 2 ^ 50) * u * |P| = u * |P| + 1 / 2 ^ 50 * (u * |P|) := by ring
  rw [e]
  have : (1 : ℝ) / 2 ^ 52 * (u * |P| + η) ≤ 1 / 2 ^ 50 * (u * |P|) + η := by
    have : (1 : ℝ) / 2 ^ 52 * η ≤ η := by rw [div_mul_eq_mul_div, one_mul]; exact div_le_self hη.le (by norm_num)
    have : (1 : ℝ) / 2 ^ 52 * (u * |P|) ≤ 1 / 2 ^ 50 * (u * |P|) := mul_le_mul_of_nonneg_right (by norm_num) h7
    linarith
  linarith

/-- `multiply_add`, fused or not. -/
theorem ma64_err (fused : Bool) (m : Mode) {x y z : ℕ} (hx : binary64.Finite x) (hy : binary64.Finite y) (hz : binary64.Finite z)
    (h1 : |binary64.val x * binary64.val y| ≤ 2 ^ 100) (h2 : |binary64.val z| ≤ 2 ^ 100) :
    binary64.Finite (CC.multiplyAdd binary64 fused m x y z) ∧
      |binary64.val (CC.multiplyAdd binary64 fused m x y z) - (binary64.val x * binary64.val y + binary64.val z)| ≤
        ru m * |binary64.val x * binary64.val y + binary64.val z| + (1 + 1 / 2 ^ 50) * ru m * |binary64.val x * binary64.val y| + 3 * eta := by
  have hη := eta_pos
  have hu := ru_pos m
  have hu2 := ru_le m
  unfold CC.multiplyAdd
  cases fused
  · simp only [Bool.false_eq_true, if_false]
    obtain ⟨a1, a2⟩ := mul64_err m hx hy (le_trans h1 (by norm_num))
    set p := binary64.val (binary64.hmul m x y)
    set P := binary64.val x * binary64.val y
    have hp : |p| ≤ 2 ^ 102 := by
      have : p = P + (p - P) := by ring
      have h3 : |p| ≤ |P| + |p - P| := by conv_lhs => rw [this]
                                          exact abs_add_le _ _
      have h4 : ru m * |P| ≤ 1 / 2 ^ 52 * 2 ^ 100 := mul_le_mul hu2 h1 (abs_nonneg _) (by positivity)
      have := eta_le
      have h5 : (1 : ℝ) / 2 ^ 52 * 2 ^ 100 + 1 / 2 ^ 200 + 2 ^ 100 ≤ 2 ^ 102 := by norm_num
      linarith
    obtain ⟨b1, b2⟩ := add64_err m a1 hz (by
      refine le_trans (abs_add_le _ _) ?_
      have h5 : (2 : ℝ) ^ 102 + 2 ^ 100 ≤ 2 ^ 200 := by norm_num
      linarith)
    exact ⟨b1, ma_aux _ _ _ _ _ _ hu hu2 hη a2 b2⟩
  · simp only [if_true]
    obtain ⟨a1, a2⟩ := err64 (hfma_spec binary64 (x := x) (y := y) (z := z) m) (by
      refine le_trans (abs_add_le _ _) ?_
      have h5 : (2 : ℝ) ^ 100 + 2 ^ 100 ≤ 2 ^ 200 := by norm_num
      linarith)
    refine ⟨a1, le_trans a2 ?_⟩
    have : 0 ≤ (1 + 1 / 2 ^ 50) * ru m * |binary64.val x * binary64.val y| := by positivity
    linarith

theorem abs_mul_le {a b A B : ℝ} (ha : |a| ≤ A) (hb : |b| ≤ B) : |a * b| ≤ A * B := by
  rw [abs_mul]; exact mul_le_mul ha hb (abs_nonneg _) (le_trans (abs_nonneg _) ha)

theorem abs_add_le' {a b A B : ℝ} (ha : |a| ≤ A) (hb : |b| ≤ B) : |a + b| ≤ A + B := le_trans (abs_add_le a b) (add_le_add ha hb)

theorem abs_near {a b A e : ℝ} (h : |a - b| ≤ e) (hb : |b| ≤ A) : |a| ≤ A + e := by
  have : a = b + (a - b) := by ring
  rw [this]; exact abs_add_le' hb h

theorem abs_tri {a b c d e : ℝ} (h1 : |a - b| ≤ d) (h2 : |b - c| ≤ e) : |a - c| ≤ d + e := by
  have : a - c = (a - b) + (b - c) := by ring
  rw [this]; exact abs_add_le' h1 h2

/-- value of a normal double literal `± m / 2^k` -/
theorem lit64 {x : ℕ} (s : Bool) (m k : ℕ) (h1 : binary64.sgn x = s) (h2 : binary64.bexp x ≠ 0) (h3 : 2 ^ 52 + binary64.frac x = m)
    (h4 : binary64.bexp x + k = 1075) : binary64.val x = sg s * ((m : ℝ) / 2 ^ k) := by
  have := CC.val_normal binary64 (x := x) (k := (binary64.bexp x : ℤ) - 1023) h2 (by
    unfold FPBits.getExponent; rw [FPBits.biasedExp_eq]; congr 1)
  rw [CC.val_eq_sg_abs binary64 x, h1, this]
  have hF : binary64.F = 52 := rfl
  rw [hF, h3]
  have e : (binary64.bexp x : ℤ) - 1023 - ((52 : ℕ) : ℤ) = -(k : ℤ) := by push_cast; omega
  rw [e, zpow_neg, zpow_natCast, inv_mul_eq_div]

/-- A representable value is returned exactly. -/
theorem ex64 {m : Mode} {zs : Bool} {v : ℝ} {b : ℕ} (g : ℤ) (R : binary64.RoundsTo m zs v b) (hm : Mult g v) (hg : -1074 ≤ g)
    (h1 : |v| ≤ (2 : ℝ) ^ (g + 53)) (h2 : |v| ≤ 2 ^ 200) : binary64.Finite b ∧ binary64.val b = v := by
  obtain ⟨c, hc, hv⟩ := binary64.rep (g := g) hm (by exact hg) (by
    have : g + (binary64.F : ℤ) + 1 = g + 53 := by have : binary64.F = 52 := rfl
                                                   rw [this]; push_cast; ring
    rw [this]; exact h1) (by
    have := big_ge h2
    refine lt_of_le_of_lt this (two_zpow_lt ?_)
    decide)
  exact RoundsTo.exact binary64 hc hv R

/-- integers up to `2^53` are converted exactly -/
theorem ofInt_ex64 (m : Mode) {z : ℤ} (h : |z| ≤ 2 ^ 53) : binary64.Finite (binary64.ofInt m z) ∧ binary64.val (binary64.ofInt m z) = z := by
  have h' : |(z : ℝ)| ≤ 2 ^ 53 := by exact_mod_cast h
  refine ex64 0 (ofInt_spec binary64 m z) ⟨z, by simp⟩ (by norm_num) ?_ (le_trans h' (by norm_num))
  refine le_trans h' ?_
  norm_num

theorem pow2_64 (s : Bool) (k : ℤ) (h1 : -1023 < k) (h2 : k ≤ 1023) :
    binary64.Finite (CC.pow2 binary64 s k) ∧ binary64.val (CC.pow2 binary64 s k) = sg s * (2 : ℝ) ^ k :=
  pow2_spec binary64 s h1 h2

end Verif
