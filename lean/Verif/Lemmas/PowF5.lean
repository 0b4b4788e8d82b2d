import Verif.Lemmas.PowF4

/-!
# The float pow kernel: the double-double path and the whole kernel
-/

namespace Verif
open Fmt Real

set_option maxHeartbeats 1000000 in
/-- the double-double path -/
theorem powfDD_spec {ce fused : Bool} {m : Mode} (hc : ce = false ∨ m = .nearest) {idx dx y6 lo6Hi : ℕ} {e : CC.Pair} (hi : idx < 128) (fd : binary64.Finite dx) (md : Mult (-31) (binary64.val dx))
    (d1 : -(1 / 2 ^ 8) ≤ binary64.val dx) (d2 : binary64.val dx ≤ 1 / 2 ^ 7) (fy : binary64.Finite y6) (N1 : 1 / 2 ^ 200 ≤ |binary64.val y6|) (N2 : |binary64.val y6| ≤ 2 ^ 40)
    {L a M l ℓ T σ : ℝ} (hM : M = binary64.val (CC.powLogMid.getD idx 0)) (hl : l = binary64.val (CC.powLogLo.getD idx 0)) (hℓ : ℓ = log (1 + binary64.val dx) / log 2)
    (hD : |binary64.val dx| ≤ 2 * |L|) (hMb : |M| ≤ 1 / 2 ^ 12 * |L|) (hs : |L - (a + M + ℓ)| ≤ 1 / 2 ^ 60 * |L|) (hs' : |L - (a + (M + l + ℓ))| ≤ 1 / 2 ^ 90 * |L|)
    (L2 : |L| ≤ 1100) (hab : |a| ≤ 5 * |L|)
    (hT : T = binary64.val y6 * L) (hTb : |T| ≤ 32000) {n : ℤ} (hn : |n| ≤ 32001) (hTn : |T - n| ≤ 1 / 2 + 1 / 2 ^ 20) (flh : binary64.Finite lo6Hi)
    (elh : |binary64.val lo6Hi - (binary64.val y6 * a - n)| ≤ 1 / 2 ^ 48 * |T| + 1 / 2 ^ 51) (hσ : |σ| = 1) (fe : binary64.Finite e.hi) (fe' : binary64.Finite e.lo)
    (e1 : |binary64.val e.hi - σ * exp (n * (log 2 / 64))| ≤ (1 / 2 ^ 50 + 1 / 2 ^ 98) * exp (n * (log 2 / 64))) (e2 : |binary64.val e.lo| ≤ 1 / 2 ^ 50 * exp (n * (log 2 / 64))) :
    ∃ d, CC.powfDoubleDouble ce fused m idx dx y6 lo6Hi e = some d ∧ binary64.Finite d ∧ |binary64.val d - σ * exp (T * (log 2 / 64))| ≤ (1 / 2 ^ 45 * |T| + 1 / 2 ^ 46) * exp (T * (log 2 / 64)) := by
  have L0 := abs_nonneg L
  have T0 := abs_nonneg T
  have N0 := abs_nonneg (binary64.val y6)
  have hTN : |binary64.val y6| * |L| = |T| := by rw [hT, abs_mul]
  have l2 := log2_lo
  obtain ⟨r, hr, fr, fr', er, er'⟩ := powfLogDD_spec (fused := fused) hc hi fd md d1 d2 (S := M + l + ℓ) (by rw [hM, hl, hℓ])
  have Da : |binary64.val dx| ≤ 1 / 2 ^ 7 := by rw [abs_le]; constructor <;> linarith
  have g2 := log_upper Da
  rw [← hℓ] at g2
  have hlb : |l| ≤ 1 / 2 ^ 59 * |L| := by
    rw [show l = (L - (a + M + ℓ)) + -(L - (a + (M + l + ℓ))) by ring]
    exact (abs_add_le' hs ((abs_neg _).trans_le hs')).trans (by linarith)
  have hS : |M + l + ℓ| ≤ 31 / 10 * |L| := (abs_add_le' (abs_add_le' hMb hlb) g2).trans (by linarith)
  set S := M + l + ℓ
  have S0 := abs_nonneg S
  have hrh : |binary64.val r.hi| ≤ 4 * |L| + 1 / 2 ^ 44 := by
    rw [show binary64.val r.hi = (pairV r - S) + S + -binary64.val r.lo by unfold pairV; ring]
    refine (abs_add_le' (abs_add_le' er hS) ((abs_neg _).trans_le er')).trans ?_
    linarith
  have XY : |binary64.val y6| * (4 * |L| + 1 / 2 ^ 44) ≤ 4 * |T| + 1 / 2 ^ 4 := by
    rw [mul_add, show |binary64.val y6| * (4 * |L|) = 4 * (|binary64.val y6| * |L|) by ring, hTN]
    have := mul_le_mul_of_nonneg_right N2 (by norm_num : (0 : ℝ) ≤ 1 / 2 ^ 44)
    linarith
  obtain ⟨q, hq, fq, fq', eq, q1, q2⟩ := quickMultD_abs m fy fr fr' (X := |binary64.val y6|) (Y := 4 * |L| + 1 / 2 ^ 44) le_rfl hrh (by linarith)
    (by
      have h1 : (1 : ℝ) / 2 ^ 200 * (1 / 2 ^ 44) ≤ |binary64.val y6| * (4 * |L| + 1 / 2 ^ 44) := mul_le_mul N1 (by linarith) (by norm_num) N0
      refine le_trans ?_ h1
      rw [show (1 : ℝ) / 2 ^ 200 * (1 / 2 ^ 44) = 2 ^ (-244 : ℤ) by norm_num]
      exact two_zpow_le (by norm_num)) (by linarith) (by linarith)
  have XY0 : 0 ≤ |binary64.val y6| * (4 * |L| + 1 / 2 ^ 44) := mul_nonneg N0 (by linarith)
  generalize |binary64.val y6| * (4 * |L| + 1 / 2 ^ 44) = Z at *
  have eqT : |pairV q - (T - binary64.val y6 * a)| ≤ 1 / 2 ^ 43 := by
    rw [show pairV q - (T - binary64.val y6 * a) = (binary64.val q.hi + binary64.val q.lo - binary64.val y6 * (binary64.val r.hi + binary64.val r.lo)) + binary64.val y6 * (pairV r - S) +
      -(binary64.val y6 * (L - (a + S))) by rw [hT]; unfold pairV; ring]
    have h1 : |binary64.val y6 * (pairV r - S)| ≤ 2 ^ 40 * (1 / 2 ^ 84) := by rw [abs_mul]; exact mul_le_mul N2 er (abs_nonneg _) (by norm_num)
    have h2 : |binary64.val y6 * (L - (a + S))| ≤ 1 / 2 ^ 90 * |T| := by
      rw [abs_mul, ← hTN]
      exact (mul_le_mul_of_nonneg_left hs' N0).trans (le_of_eq (by ring))
    refine (abs_add_le' (abs_add_le' eq h1) ((abs_neg _).trans_le h2)).trans ?_
    linarith
  have hla : |binary64.val lo6Hi| ≤ 2 ^ 20 := by
    have h1 : |binary64.val y6 * a| ≤ 5 * |T| := by
      rw [abs_mul]
      exact (mul_le_mul_of_nonneg_left hab N0).trans (by linarith)
    rw [show binary64.val lo6Hi = (binary64.val lo6Hi - (binary64.val y6 * a - n)) + binary64.val y6 * a + (T - n) + -T by ring]
    refine (abs_add_le' (abs_add_le' (abs_add_le' elh h1) hTn) ((abs_neg _).trans_le hTb)).trans ?_
    linarith
  have f0 : binary64.Finite 0 := by decide +kernel
  obtain ⟨ft, ft', et, et'⟩ := ddSel_any m (a := q) (b := { hi := lo6Hi, lo := 0 }) fq fq' flh f0 (M := 2 ^ 20) (by
    refine le_trans (b := (2 : ℝ) ^ (20 : ℤ)) (two_zpow_le (by norm_num)) (by norm_num)) (by norm_num) (by linarith) hla (by linarith) (by simp only [val64_zero, abs_zero]; norm_num)
  have hsum : pairV q + pairV { hi := lo6Hi, lo := 0 } = pairV q + binary64.val lo6Hi := by unfold pairV; simp only [val64_zero, add_zero]
  rw [hsum] at et et'
  have esum : |pairV q + binary64.val lo6Hi - (T - n)| ≤ 1 / 2 ^ 48 * |T| + 1 / 2 ^ 51 + 1 / 2 ^ 43 := by
    rw [show pairV q + binary64.val lo6Hi - (T - n) = (binary64.val lo6Hi - (binary64.val y6 * a - n)) + (pairV q - (T - binary64.val y6 * a)) by ring]
    exact abs_add_le' elh eqT
  set t := ddSel m q { hi := lo6Hi, lo := 0 } with ht
  have b1 := abs_le.1 esum
  have b2 := abs_le.1 hTn
  have asum : |pairV q + binary64.val lo6Hi| ≤ 51 / 100 := by rw [abs_le]; constructor <;> linarith
  have ett : |pairV t - (T - n)| ≤ 1 / 2 ^ 48 * |T| + 1 / 2 ^ 42 := by
    rw [show pairV t - (T - n) = (pairV t - (pairV q + binary64.val lo6Hi)) + (pairV q + binary64.val lo6Hi - (T - n)) by ring]
    exact (abs_add_le' et esum).trans (by linarith)
  have tlo : |binary64.val t.lo| ≤ 1 / 2 ^ 49 := et'.trans (by linarith)
  have b3 := abs_le.1 ett
  have b4 := abs_le.1 tlo
  have tv : |pairV t| ≤ 51 / 100 := by rw [abs_le]; constructor <;> linarith
  have thi : |binary64.val t.hi| ≤ 9 / 16 := by
    have b5 := abs_le.1 tv
    unfold pairV at b5
    rw [abs_le]; constructor <;> linarith
  obtain ⟨p, hp, fp, fp', p1, p2, p3⟩ := powExpPoly_err m ft ft' thi tlo (tv.trans (by norm_num))
  have en := ecPoly_near (tv.trans (by norm_num))
  have eo := exp_near_one (tv.trans (by norm_num))
  -- the last product
  obtain ⟨G1, G2⟩ := powf_exp_range hn
  have W : exp (T * (log 2 / 64)) = exp (n * (log 2 / 64)) * exp ((T - n) * (log 2 / 64)) := by rw [← exp_add]; congr 1; ring
  have hU := exp_near_one (hTn.trans (by norm_num))
  have c0 : 0 < log 2 / 64 := by linarith
  have c1 : log 2 / 64 ≤ 1 / 92 := by linarith
  have hd : |pairV t * (log 2 / 64) - (T - n) * (log 2 / 64)| ≤ (1 / 2 ^ 48 * |T| + 1 / 2 ^ 42) * (1 / 92) := by
    rw [← sub_mul, abs_mul, abs_of_pos c0]
    exact mul_le_mul ett c1 c0.le (add_nonneg (mul_nonneg (by norm_num) T0) (by norm_num))
  have pe := exp_perturb20 hd (by linarith)
  rw [W]
  have G0 : 0 < exp (n * (log 2 / 64)) := exp_pos _
  set G := exp (n * (log 2 / 64))
  set U := exp ((T - n) * (log 2 / 64))
  set P := exp (pairV t * (log 2 / 64))
  have bU := abs_le.1 hU
  have σ2 : σ * σ = 1 := by rw [← abs_mul_abs_self, hσ, one_mul]
  have eG : |σ * pairV e - G| ≤ (1 / 2 ^ 49 + 1 / 2 ^ 98) * G := by
    rw [show σ * pairV e - G = σ * (binary64.val e.hi - σ * G) + σ * binary64.val e.lo by unfold pairV; linear_combination G * σ2]
    have h1 : |σ * (binary64.val e.hi - σ * G)| ≤ (1 / 2 ^ 50 + 1 / 2 ^ 98) * G := by rw [abs_mul, hσ, one_mul]; exact e1
    have h2 : |σ * binary64.val e.lo| ≤ 1 / 2 ^ 50 * G := by rw [abs_mul, hσ, one_mul]; exact e2
    exact (abs_add_le' h1 h2).trans (by clear G1 G2; linarith)
  set G' := σ * pairV e with hG'
  have bG := abs_le.1 eG
  have aσG : |σ * G| = G := by rw [abs_mul, hσ, one_mul, abs_of_pos G0]
  have x1 := abs_sub_abs_le_abs_sub (binary64.val e.hi) (σ * G)
  have x2 := abs_sub_abs_le_abs_sub (σ * G) (binary64.val e.hi)
  rw [abs_sub_comm (σ * G)] at x2
  rw [aσG] at x1 x2
  have w1 : (2 : ℝ) * 2 ^ (-626 : ℤ) ≤ 2 ^ (-510 : ℤ) := by rw [← two_zpow_succ]; exact two_zpow_le (by norm_num)
  have w2 : (2 : ℝ) * 2 ^ (510 : ℤ) ≤ 2 ^ (628 : ℤ) := by rw [← two_zpow_succ]; exact two_zpow_le (by norm_num)
  have y1 : (2 : ℝ) ^ (-626 : ℤ) ≤ G' := by
    have h0 : 1 / 2 * G ≤ G' := by clear G1 G2 w1 w2; linarith
    have h1 := mul_le_mul_of_nonneg_left (w1.trans G1) (by norm_num : (0 : ℝ) ≤ 1 / 2)
    rw [← mul_assoc, show (1 / 2 * 2 : ℝ) = 1 by norm_num, one_mul] at h1
    exact h1.trans h0
  have y2 : G' ≤ (2 : ℝ) ^ (628 : ℤ) := by
    have h0 : G' ≤ 2 * G := by clear G1 G2 w1 w2; linarith
    exact h0.trans ((mul_le_mul_of_nonneg_left G2 (by norm_num)).trans w2)
  obtain ⟨v, hv, fv, fv', ev⟩ := powExpMul m (σ := σ) (G := G') (P := P) fe fe' fp fp' hσ y1 y2 (by clear G1 G2 w1 w2 y1 y2; linarith) (by clear G1 G2 w1 w2 y1 y2; linarith)
    (by clear G1 G2 w1 w2 y1 y2; linarith)
    (by
      rw [hG', show pairV e - σ * (σ * pairV e) = 0 by linear_combination (-pairV e) * σ2, abs_zero]
      have : 0 ≤ G' := (two_zpow_pos _).le.trans y1
      rw [← hG']; exact mul_nonneg (by norm_num) this) eo
    (by
      rw [show pairV p - P = (pairV p - ecPoly (pairV t)) + (ecPoly (pairV t) - P) by ring]
      exact (abs_add_le' p3 en).trans (by norm_num)) (p2.trans (by norm_num))
  clear y1 y2
  have evv : |pairV v - σ * (G * U)| ≤ ((1 / 2 ^ 48 * |T| + 1 / 2 ^ 42) * (1 / 90) + 1 / 2 ^ 48) * (G * U) := by
    rw [show pairV v - σ * (G * U) = (pairV v - σ * G' * P) + σ * (G' - G) * P + σ * G * (P - U) by ring]
    have bP := abs_le.1 eo
    have h2 : |σ * (G' - G) * P| ≤ (1 / 2 ^ 49 + 1 / 2 ^ 98) * G * (101 / 100) := by
      rw [abs_mul, abs_mul, hσ, one_mul, abs_of_pos (exp_pos _)]
      exact mul_le_mul eG (by linarith) (exp_pos _).le (mul_nonneg (by norm_num) G0.le)
    have h3 : |σ * G * (P - U)| ≤ G * ((1 + 1 / 2 ^ 19) * ((1 / 2 ^ 48 * |T| + 1 / 2 ^ 42) * (1 / 92)) * U) := by
      rw [abs_mul, aσG]
      exact mul_le_mul_of_nonneg_left pe G0.le
    refine (abs_add_le' (abs_add_le' ev h2) h3).trans ?_
    clear G1 G2 w1 w2 hd pe
    have h4 : G * (99 / 100) ≤ G * U := mul_le_mul_of_nonneg_left (by linarith) G0.le
    have h5 : (1 + 1 / 2 ^ 19) * ((1 / 2 ^ 48 * |T| + 1 / 2 ^ 42) * (1 / 92)) ≤ (1 / 2 ^ 48 * |T| + 1 / 2 ^ 42) * (1 / 90) := by linarith
    have h6 := mul_le_mul_of_nonneg_right h5 (by linarith : 0 ≤ G * U)
    have h7 : G' ≤ 2 * G := by linarith
    rw [add_mul, show G * ((1 + 1 / 2 ^ 19) * ((1 / 2 ^ 48 * |T| + 1 / 2 ^ 42) * (1 / 92)) * U) = (1 + 1 / 2 ^ 19) * ((1 / 2 ^ 48 * |T| + 1 / 2 ^ 42) * (1 / 92)) * (G * U) by ring]
    linarith
  have GU1 : G * (99 / 100) ≤ G * U := mul_le_mul_of_nonneg_left (by linarith) G0.le
  have GU2 : G * U ≤ G * (101 / 100) := mul_le_mul_of_nonneg_left (by linarith) G0.le
  have aGU : |σ * (G * U)| = G * U := by rw [abs_mul, hσ, one_mul, abs_of_pos (mul_pos G0 (by linarith))]
  have sm : (1 / 2 ^ 48 * |T| + 1 / 2 ^ 42) * (1 / 90) + 1 / 2 ^ 48 ≤ (1 : ℝ) / 100 := by clear G1 G2 w1 w2; linarith
  have ev' : |pairV v - σ * (G * U)| ≤ 1 / 100 * (G * U) := evv.trans (mul_le_mul_of_nonneg_right sm (by linarith))
  have z1 := abs_sub_abs_le_abs_sub (pairV v) (σ * (G * U))
  have z2 := abs_sub_abs_le_abs_sub (σ * (G * U)) (pairV v)
  rw [abs_sub_comm (σ * (G * U))] at z2
  rw [aGU] at z1 z2
  have k1 : |pairV v| ≤ 101 / 100 * (G * U) := by linarith
  have u1 : (2 : ℝ) ^ (-900 : ℤ) ≤ |pairV v| := by
    have h0 : 1 / 2 * G ≤ |pairV v| := by clear G1 G2 w1 w2; linarith
    have h1 := mul_le_mul_of_nonneg_left (w1.trans G1) (by norm_num : (0 : ℝ) ≤ 1 / 2)
    rw [← mul_assoc, show (1 / 2 * 2 : ℝ) = 1 by norm_num, one_mul] at h1
    exact (two_zpow_le (by norm_num)).trans (h1.trans h0)
  have u2 : |pairV v| ≤ (2 : ℝ) ^ (900 : ℤ) := by
    have h0 : |pairV v| ≤ 2 * G := by clear G1 G2 w1 w2; linarith
    exact h0.trans (((mul_le_mul_of_nonneg_left G2 (by norm_num)).trans w2).trans (two_zpow_le (by norm_num)))
  obtain ⟨fR, eR⟩ := powfRoundOdd_spec m fv fv' u1 u2
  refine ⟨CC.powfRoundOdd m v, ?_, fR, ?_⟩
  · unfold CC.powfDoubleDouble
    have hsel : CC.ddOrdered m q { hi := lo6Hi, lo := 0 } = t := rfl
    simp only [hr, hq, hsel, hp, hv, Option.bind_eq_bind, Option.bind_some, pure]
  · rw [show binary64.val (CC.powfRoundOdd m v) - σ * (G * U) = (binary64.val (CC.powfRoundOdd m v) - pairV v) + (pairV v - σ * (G * U)) by ring]
    refine (abs_add_le' eR evv).trans ?_
    clear G1 G2 w1 w2 u1 u2 evv eR
    have h5 : |T| * (G * U) ≥ 0 := mul_nonneg T0 (by linarith)
    rw [show ((1 / 2 ^ 48 * |T| + 1 / 2 ^ 42) * (1 / 90) + 1 / 2 ^ 48) * (G * U) = 1 / 2 ^ 48 / 90 * (|T| * (G * U)) + (1 / 2 ^ 42 / 90 + 1 / 2 ^ 48) * (G * U) by ring,
      show (1 / 2 ^ 45 * |T| + 1 / 2 ^ 46) * (G * U) = 1 / 2 ^ 45 * (|T| * (G * U)) + 1 / 2 ^ 46 * (G * U) by ring]
    linarith

/-- the accuracy test of the fast path and the selection of the result -/
theorem powfFinish_spec (fused : Bool) (m : Mode) {r d : ℕ} {σ W ρ : ℝ} (fr : binary64.Finite r) (fd : binary64.Finite d) (hσ : |σ| = 1) (W1 : (2 : ℝ) ^ (-511 : ℤ) ≤ W) (W2 : W ≤ 2 ^ (511 : ℤ))
    (hρ : ρ ≤ 1 / 100) (er : |binary64.val r - σ * W| ≤ ρ * W) (ed : |binary64.val d - σ * W| ≤ ρ * W) :
    ∃ b eff, CC.powfFinish fused m r (some d) = some (b, eff) ∧ ∃ zs v, binary32.RoundsTo m zs v b ∧ |v - σ * W| ≤ (ρ + 1 / 2 ^ 43) * W := by
  have W0 : 0 < W := lt_of_lt_of_le (two_zpow_pos _) W1
  have aW : |σ * W| = W := by rw [abs_mul, hσ, one_mul, abs_of_pos W0]
  have x1 := abs_sub_abs_le_abs_sub (binary64.val r) (σ * W)
  have x2 := abs_sub_abs_le_abs_sub (σ * W) (binary64.val r)
  rw [abs_sub_comm (σ * W)] at x2
  rw [aW] at x1 x2
  have hρW := mul_le_mul_of_nonneg_right hρ W0.le
  have w1 : (2 : ℝ) * 2 ^ (-1000 : ℤ) ≤ 2 ^ (-511 : ℤ) := by rw [← two_zpow_succ]; exact two_zpow_le (by norm_num)
  have w2 : (2 : ℝ) * 2 ^ (511 : ℤ) ≤ 2 ^ (1000 : ℤ) := by rw [← two_zpow_succ]; exact two_zpow_le (by norm_num)
  have u1 : (2 : ℝ) ^ (-1000 : ℤ) ≤ |binary64.val r| := by
    have h0 : 1 / 2 * W ≤ |binary64.val r| := by clear W1 W2 w1 w2; linarith
    have h1 := mul_le_mul_of_nonneg_left (w1.trans W1) (by norm_num : (0 : ℝ) ≤ 1 / 2)
    rw [← mul_assoc, show (1 / 2 * 2 : ℝ) = 1 by norm_num, one_mul] at h1
    exact h1.trans h0
  have k1 : |binary64.val r| ≤ 2 * W := by clear W1 W2 w1 w2; linarith
  have u2 : |binary64.val r| ≤ (2 : ℝ) ^ (1000 : ℤ) := k1.trans ((mul_le_mul_of_nonneg_left W2 (by norm_num)).trans w2)
  obtain ⟨fu, eu⟩ := bits_up (k := if fused then 64 else 128) fr u1 u2 (by split_ifs <;> norm_num)
  clear w1 w2 W1 W2 u1 u2
  have eu' : |binary64.val ((r + if fused then 64 else 128) % 2 ^ 64) - binary64.val r| ≤ 1 / 2 ^ 43 * W := by
    refine eu.trans ?_
    have h1 : (((if fused then 64 else 128 : ℕ) : ℝ)) / 2 ^ 51 ≤ 1 / 2 ^ 44 := by cases fused <;> norm_num
    exact (mul_le_mul h1 k1 (abs_nonneg _) (by norm_num)).trans (by linarith)
  unfold CC.powfFinish
  simp only []
  generalize (if fused then 64 else 128 : ℕ) = tol at *
  have eU : |binary64.val ((r + tol) % 2 ^ 64) - σ * W| ≤ (ρ + 1 / 2 ^ 43) * W := by
    rw [show binary64.val ((r + tol) % 2 ^ 64) - σ * W = (binary64.val ((r + tol) % 2 ^ 64) - binary64.val r) + (binary64.val r - σ * W) by ring]
    refine (abs_add_le' eu' er).trans ?_
    linarith
  have RU := CC.hcvt_spec binary32 binary64 m fu
  by_cases h : binary32.heq (binary32.hcvt binary64 m ((r + tol) % 2 ^ 64)) (binary32.hcvt binary64 m ((r + (2 ^ 64 - tol)) % 2 ^ 64)) = true
  · rw [if_pos h]
    exact ⟨_, _, rfl, _, _, RU, eU⟩
  · rw [if_neg h]
    exact ⟨_, _, rfl, _, _, CC.hcvt_spec binary32 binary64 m fd, ed.trans (mul_le_mul_of_nonneg_right (by norm_num) W0.le)⟩

theorem c64_32 : binary32.Finite 0x42800000 ∧ binary32.val 0x42800000 = 2 ^ (6 : ℤ) := by
  refine ⟨by decide +kernel, ?_⟩
  rw [val_of_ival binary32 (x := 0x42800000) (a := 64) (by decide +kernel)]; norm_num

set_option maxHeartbeats 1000000 in
/-- the whole kernel for powers between `2^-500` and `2^500` -/
theorem powfKernel_spec {ce fused : Bool} {m : Mode} (hc : ce = false ∨ m = .nearest) (sign : Bool) {x y : ℕ} {ex0 E : ℤ} (hE : ex0 + ((x >>> 23 : ℕ) : ℤ) = E) (hEb : |E| ≤ 200)
    (hy : binary32.Finite y) (hy0 : binary32.val y ≠ 0) (hyb : |binary32.val y| ≤ 2 ^ 33) {X T : ℝ} (hX : X = (1 + ((x % 2 ^ 23 : ℕ) : ℝ) / 2 ^ 23) * 2 ^ E)
    (hT : T = 64 * binary32.val y * (log X / log 2)) (hTb : |T| ≤ 32000) :
    ∃ b eff, CC.powfKernel ce fused m x y ex0 sign = some (b, eff) ∧ ∃ zs v, binary32.RoundsTo m zs v b ∧
      |v - (if sign then -1 else 1) * exp (binary32.val y * log X)| ≤ (1 / 2 ^ 45 * |T| + 1 / 2 ^ 42) * exp (binary32.val y * log X) := by
  have l2 := log2_lo
  have l20 : 0 < log 2 := by linarith
  have hex : exp (binary32.val y * log X) = exp (T * (log 2 / 64)) := by rw [hT]; congr 1; field_simp
  rw [hex]
  have hmant : x &&& FPBits.fracMask binary32 = x % 2 ^ 23 := FPBits.fracMask_and binary32 x
  have hw : x % 2 ^ 23 < 2 ^ 23 := Nat.mod_lt _ (by norm_num)
  unfold CC.powfKernel
  simp only [hE, hmant]
  generalize x % 2 ^ 23 = w at *
  obtain ⟨hi, dx, hdx, fd, vd, md, d1, d2⟩ := powfDx_spec fused m hw
  obtain ⟨hE1, hE2⟩ := abs_le.1 hEb
  generalize hidx : w >>> 16 = idx at *
  set D := binary64.val dx with hD
  set L := log X / log 2 with hL
  obtain ⟨F1, F2, F3, F4, F5, F6, F7⟩ := powf_facts hw hX hidx.symm hi vd d1 d2 hE1 hE2 hL rfl rfl rfl rfl
  obtain ⟨r1, r2, r3, r4, r5, r6, r7, r8, r9, r10, r11, r12, H0, H1, bM, bL, eR⟩ := powRow_spec hi
  obtain ⟨-, -, flr, -, -, glr⟩ := powfRow_spec hi
  obtain ⟨gh, gm, gl, -, -⟩ := powRow_get hi
  obtain ⟨fex, vex⟩ := ofInt_ex64 m (z := E) (hEb.trans (by norm_num))
  have Da : |D| ≤ 1 / 2 ^ 7 := by rw [abs_le]; constructor <;> linarith
  obtain ⟨fp, ep⟩ := powfLogPoly_err fused m fd Da
  -- the exponent
  have hYb : |binary32.val y * 2 ^ (6 : ℤ)| ≤ 2 ^ (40 : ℤ) := by
    rw [abs_mul, show |(2 : ℝ) ^ (6 : ℤ)| = 64 by norm_num]
    norm_num at hyb ⊢; linarith
  have Ry := hmul_spec binary32 m hy c64_32.1
  rw [c64_32.2] at Ry
  obtain ⟨fy, vy⟩ := RoundsTo.exact_of Ry (by
    obtain ⟨c, hc1, hc2, -⟩ := binary32.scale_exact (x := y) (k := 6) (Or.inl (by norm_num)) (lt_of_le_of_lt hYb (two_zpow_lt (by decide)))
    exact ⟨c, hc1, hc2⟩)
  obtain ⟨fy6, vy6⟩ := cvt_up m fy
  rw [vy] at vy6
  set y6 := binary64.hcvt binary32 m (binary32.hmul m y 0x42800000)
  have N2 : |binary64.val y6| ≤ 2 ^ 40 := by rw [vy6]; refine hYb.trans (le_of_eq (by norm_num))
  have N1 : 1 / 2 ^ 200 ≤ |binary64.val y6| := by
    have h1 := mult_emin binary32 y
    obtain ⟨k, hk⟩ := h1
    have hk0 : k ≠ 0 := by rintro rfl; rw [Int.cast_zero, zero_mul] at hk; exact hy0 hk
    have hk1 : (1 : ℝ) ≤ |(k : ℝ)| := by exact_mod_cast Int.one_le_abs hk0
    rw [vy6, hk, show binary32.emin = -149 by decide +kernel, mul_assoc, ← zpow_add₀ (by norm_num), abs_mul, abs_of_pos (two_zpow_pos _)]
    have h2 : (1 : ℝ) / 2 ^ 200 ≤ 2 ^ (-149 + 6 : ℤ) := by norm_num
    refine h2.trans ?_
    exact le_mul_of_one_le_left (two_zpow_pos _).le hk1
  have hT' : T = binary64.val y6 * L := by rw [hT, vy6, show (2 : ℝ) ^ (6 : ℤ) = 64 by norm_num]; ring
  obtain ⟨n, hn, hcast, hTn, flh, elh, fl, el⟩ := powfFast (ce := ce) (fused := fused) (m := m) hc fd fp flr fex (lrHi := CC.powLogHi.getD idx 0) (lrMid := CC.powLogMid.getD idx 0) (by assumption) (by assumption) fy6 vex hEb rfl rfl (by assumption) H0 H1
    ep (log_upper Da) F1 F2 F3 F4 F5 F7 N2 hT' hTb rfl rfl rfl rfl
  obtain ⟨n1, n2⟩ := abs_le.1 hn
  obtain ⟨eh, heh, a1, a2, a3, a4, a5, a6, -, -⟩ := powExpHm_spec sign (n := n) (by omega) (by omega)
  obtain ⟨e0, he0, -, c2, -, -, c5, -, -, -⟩ := powExpHm_spec false (n := n) (by omega) (by omega)
  have hclamp : (if n > 2 ^ 15 then 2 ^ 15 else if n < -2 ^ 15 then -2 ^ 15 else n) = n := by
    rw [if_neg (by omega), if_neg (by omega)]
  have hσ : |(if sign then -1 else 1 : ℝ)| = 1 := by cases sign <;> simp
  generalize (if sign then -1 else 1 : ℝ) = σ at *
  have G0 : 0 < exp (n * (log 2 / 64)) := exp_pos _
  have ehi : |binary64.val eh.hi - σ * exp (n * (log 2 / 64))| ≤ (1 / 2 ^ 50 + 1 / 2 ^ 98) * exp (n * (log 2 / 64)) := by
    rw [show binary64.val eh.hi - σ * exp (n * (log 2 / 64)) = -binary64.val eh.lo + (pairV eh - σ * exp (n * (log 2 / 64))) by unfold pairV; ring]
    refine (abs_add_le' ((abs_neg _).trans_le a5) a6).trans (le_of_eq (by ring))
  obtain ⟨fR, eR'⟩ := powfFastR fused m fl hn el hTb hTn a1 hσ (ehi.trans (mul_le_mul_of_nonneg_right (by norm_num) G0.le))
  obtain ⟨d, hd, fdd, ed⟩ := powfDD_spec (fused := fused) hc (e := { hi := eh.hi, lo := e0.lo }) hi fd md d1 d2 fy6 N1 N2 rfl rfl rfl F2 F3 F5 F6 F1 F4 hT' hTb hn hTn flh elh hσ a1 c2 ehi c5
  have hU := exp_near_one (hTn.trans (by norm_num))
  have W : exp (T * (log 2 / 64)) = exp (n * (log 2 / 64)) * exp ((T - n) * (log 2 / 64)) := by rw [← exp_add]; congr 1; ring
  obtain ⟨G1, G2⟩ := powf_exp_range hn
  have bU := abs_le.1 hU
  have W1 : (2 : ℝ) ^ (-511 : ℤ) ≤ exp (T * (log 2 / 64)) := by
    rw [W, show (-511 : ℤ) = -510 + -1 by norm_num, zpow_add₀ (by norm_num)]
    exact mul_le_mul G1 (by rw [show (2 : ℝ) ^ (-1 : ℤ) = 1 / 2 by norm_num]; linarith) (by norm_num) G0.le
  have W2 : exp (T * (log 2 / 64)) ≤ (2 : ℝ) ^ (511 : ℤ) := by
    rw [W, show (511 : ℤ) = 510 + 1 by norm_num, zpow_add₀ (by norm_num)]
    exact mul_le_mul G2 (by rw [zpow_one]; linarith) (exp_pos _).le (two_zpow_pos _).le
  obtain ⟨b, eff, hb, zs, v, hv, ev⟩ := powfFinish_spec fused m fR fdd hσ W1 W2 (by have := abs_nonneg T; linarith) eR' ed
  refine ⟨b, eff, ?_, zs, v, hv, ev.trans (mul_le_mul_of_nonneg_right (by linarith) (exp_pos _).le)⟩
  simp only [hdx, glr, gh, gm, hcast, hclamp, heh, he0, hd, Option.bind_eq_bind, Option.bind_some]
  exact hb

end Verif
