import Verif.Lemmas.PowK8

/-!
# The double-double evaluation of the pow kernel: `2^(64 y log2 x / 64)` scaled and rounded once
-/

namespace Verif
open Fmt Real

/-- the final scaling by a power of two is exact when the target is normal -/
theorem mulscale_finish (m : Mode) {zs : Bool} {v X : ℝ} {h s : ℕ} {k : ℤ} (R : binary64.RoundsTo m zs v h) (v1 : (2 : ℝ) ^ (-700 : ℤ) ≤ |v|) (v2 : |v| ≤ 2 ^ (700 : ℤ))
    (fs : binary64.Finite s) (vs : binary64.val s = 2 ^ k) (ss : binary64.sgn s = false)
    (hX : |v * 2 ^ k - X| ≤ |X| / 2 ^ 58) (X1 : (2 : ℝ) ^ (-1021 : ℤ) ≤ |X|) (X2 : |X| ≤ (1 - 1 / 2 ^ 50) * 2 ^ (1024 : ℤ)) :
    binary64.Finite (binary64.hmul m h s) ∧ binary64.RoundsTo m zs (v * 2 ^ k) (binary64.hmul m h s) ∧
      (2 : ℝ) ^ (-1022 : ℤ) ≤ |binary64.val (binary64.hmul m h s)| := by
  obtain ⟨fh, eh2⟩ := rnd_rel (C := |v|) R le_rfl ((two_zpow_le (by norm_num)).trans v1) (v2.trans (two_zpow_le (by norm_num)))
  have pk := two_zpow_pos k
  have X0 : 0 < |X| := lt_of_lt_of_le (two_zpow_pos _) X1
  have eh3 : |binary64.val h * 2 ^ k - v * 2 ^ k| ≤ |v * 2 ^ k| * (1 / 2 ^ 52 + 1 / 2 ^ 200) := by
    rw [← sub_mul, abs_mul, abs_mul, abs_of_pos pk]
    have := mul_le_mul_of_nonneg_right eh2 pk.le
    linarith
  have b1 : |v * 2 ^ k| ≤ |X| * (1 + 1 / 2 ^ 58) := by
    have := abs_sub_abs_le_abs_sub (v * 2 ^ k) X
    linarith
  have b2 : |X| * (1 - 1 / 2 ^ 58) ≤ |v * 2 ^ k| := by
    have := abs_sub_abs_le_abs_sub X (v * 2 ^ k)
    rw [abs_sub_comm] at this
    linarith
  have t1 := abs_sub_abs_le_abs_sub (binary64.val h * 2 ^ k) (v * 2 ^ k)
  have t2 := abs_sub_abs_le_abs_sub (v * 2 ^ k) (binary64.val h * 2 ^ k)
  rw [abs_sub_comm] at t2
  have c1 : |binary64.val h * 2 ^ k| ≤ |X| * (1 + 1 / 2 ^ 51) := by
    have h1 := mul_le_mul_of_nonneg_right b1 (show (0 : ℝ) ≤ 1 + (1 / 2 ^ 52 + 1 / 2 ^ 200) by norm_num)
    have h2 : |X| * (1 + 1 / 2 ^ 58) * (1 + (1 / 2 ^ 52 + 1 / 2 ^ 200)) ≤ |X| * (1 + 1 / 2 ^ 51) := by
      rw [mul_assoc]; exact mul_le_mul_of_nonneg_left (by norm_num) X0.le
    linarith
  have c2 : |X| / 2 ≤ |binary64.val h * 2 ^ k| := by
    have h1 := mul_le_mul_of_nonneg_right b2 (show (0 : ℝ) ≤ 1 - (1 / 2 ^ 52 + 1 / 2 ^ 200) by norm_num)
    have h2 : |X| * (1 / 2) ≤ |X| * (1 - 1 / 2 ^ 58) * (1 - (1 / 2 ^ 52 + 1 / 2 ^ 200)) := by
      rw [mul_assoc]; exact mul_le_mul_of_nonneg_left (by norm_num) X0.le
    linarith
  have hmn : binary64.minNormal = (2 : ℝ) ^ (-1022 : ℤ) := by
    have : (1 : ℤ) - binary64.bias = -1022 := by decide
    unfold Fmt.minNormal; rw [this]
  have hbb : (binary64.bias : ℤ) + 1 = 1024 := by decide
  have half : (2 : ℝ) ^ (-1022 : ℤ) ≤ |X| / 2 := by
    rw [show (-1021 : ℤ) = -1022 + 1 by norm_num, zpow_add_one₀ (by norm_num)] at X1
    generalize (2 : ℝ) ^ (-1022 : ℤ) = z at *
    linarith
  have d1 : binary64.minNormal ≤ |binary64.val h * 2 ^ k| := by rw [hmn]; exact half.trans c2
  have d2 : |binary64.val h * 2 ^ k| < 2 ^ ((binary64.bias : ℤ) + 1) := by
    rw [hbb]
    refine lt_of_le_of_lt (c1.trans (mul_le_mul_of_nonneg_right X2 (by norm_num))) ?_
    have := two_zpow_pos 1024
    generalize (2 : ℝ) ^ (1024 : ℤ) = z at *
    have : (1 - 1 / 2 ^ 50) * z * (1 + 1 / 2 ^ 51) = z * ((1 - 1 / 2 ^ 50) * (1 + 1 / 2 ^ 51)) := by ring
    rw [this]
    have h3 : ((1 : ℝ) - 1 / 2 ^ 50) * (1 + 1 / 2 ^ 51) < 1 := by norm_num
    have := mul_lt_mul_of_pos_left h3 ‹0 < z›
    linarith
  obtain ⟨c, fc, vc, sc⟩ := binary64.scale_exact (x := h) (k := k) (Or.inr d1) d2
  have R' := hmul_spec binary64 m fh fs
  rw [vs, ← vc] at R'
  have hne : binary64.val c ≠ 0 := by
    rw [vc]; intro h0; rw [h0, abs_zero, hmn] at d1; exact absurd d1 (not_le.2 (two_zpow_pos _))
  rw [RoundsTo.exact_eq binary64 fc R' (fun h0 => absurd h0 hne)]
  refine ⟨fc, RoundsTo.scale binary64 (by decide) R k ?_ ?_ ?_ fh fc vc sc, ?_⟩
  · rw [hmn]
    exact (two_zpow_le (by norm_num)).trans v1
  · rw [hbb]
    exact lt_of_le_of_lt v2 (two_zpow_lt (by norm_num))
  · rw [hmn]
    refine half.trans (le_trans ?_ b2)
    have h2 : |X| * (1 / 2) ≤ |X| * (1 - 1 / 2 ^ 58) := mul_le_mul_of_nonneg_left (by norm_num) X0.le
    linarith
  · rw [vc]; exact half.trans c2

/-- the product `64 y * log2 x` as a pair -/
theorem powY6 (m : Mode) {y6 : ℕ} {r : CC.Pair} {L : ℝ} (fy : binary64.Finite y6) (f1 : binary64.Finite r.hi) (f2 : binary64.Finite r.lo) (L1 : 1 / 2 ^ 54 ≤ |L|) (L2 : |L| ≤ 1100)
    (e1 : |pairV r - L| ≤ 1 / 2 ^ 70 * |L|) (e2 : |binary64.val r.lo| ≤ 1 / 2 ^ 50 * |L|) (hT : |binary64.val y6 * L| ≤ 66000) :
    ∃ q, CC.quickMultD m y6 r = some q ∧ binary64.Finite q.hi ∧ binary64.Finite q.lo ∧ |pairV q - binary64.val y6 * L| ≤ 14 / 10 / 2 ^ 54 ∧
      |binary64.val q.lo| ≤ 1 / 2 ^ 29 := by
  have L0 : 0 < |L| := lt_of_lt_of_le (by norm_num) L1
  have hy : |binary64.val y6| ≤ 2 ^ 72 := by
    rw [abs_mul] at hT
    by_contra h
    push_neg at h
    have : (2 : ℝ) ^ 72 * (1 / 2 ^ 54) ≤ |binary64.val y6| * |L| := mul_le_mul h.le L1 (by norm_num) (abs_nonneg _)
    norm_num at this hT
    linarith
  have hh : |binary64.val r.hi| ≤ 101 / 100 * |L| := by
    have := abs_le.1 e1
    have := abs_le.1 e2
    have h3 : |binary64.val r.hi - L| ≤ 1 / 100 * |L| := by
      unfold pairV at *
      rw [abs_le]; constructor <;> linarith
    have := abs_sub_abs_le_abs_sub (binary64.val r.hi) L
    linarith
  obtain ⟨q, hq, g1, g2, g3, g4, -⟩ := quickMultD_abs m fy f1 f2 (X := |binary64.val y6| + 1 / 2 ^ 200) (Y := 101 / 100 * |L|) (by norm_num) hh (e2.trans (by linarith))
    (by
      have : (1 : ℝ) / 2 ^ 200 * (101 / 100 * (1 / 2 ^ 54)) ≤ (|binary64.val y6| + 1 / 2 ^ 200) * (101 / 100 * |L|) :=
        mul_le_mul (by linarith [abs_nonneg (binary64.val y6)]) (by linarith) (by norm_num) (by positivity)
      refine le_trans (le_trans (b := (2 : ℝ) ^ (-255 : ℤ)) (two_zpow_le (by norm_num)) ?_) this
      norm_num)
    (le_trans (add_le_add_left hy _) (by norm_num)) (le_trans (by linarith : _ ≤ (2000 : ℝ)) (by norm_num))
  have hP : (|binary64.val y6| + 1 / 2 ^ 200) * (101 / 100 * |L|) ≤ 66661 := by
    rw [abs_mul] at hT
    have : (1 : ℝ) / 2 ^ 200 * (101 / 100 * |L|) ≤ 1 / 2 ^ 200 * 2000 := by gcongr; linarith
    norm_num at this ⊢
    linarith
  generalize (|binary64.val y6| + 1 / 2 ^ 200) * (101 / 100 * |L|) = P at *
  refine ⟨q, hq, g1, g2, ?_, ?_⟩
  · have t1 : |binary64.val y6 * (pairV r - L)| ≤ 1 / 2 ^ 70 * 66000 := by
      rw [abs_mul]
      rw [abs_mul] at hT
      have := mul_le_mul_of_nonneg_left e1 (abs_nonneg (binary64.val y6))
      linarith
    have t2 : |pairV q - binary64.val y6 * pairV r| ≤ (1 / 2 ^ 72 + 1 / 2 ^ 93) * P := g3
    rw [show pairV q - binary64.val y6 * L = (pairV q - binary64.val y6 * pairV r) + binary64.val y6 * (pairV r - L) by ring]
    refine (abs_add_le' t2 t1).trans ?_
    linarith
  · refine g4.trans ?_
    linarith

theorem pow32768_val : binary64.Finite CC.pow32768 ∧ binary64.val CC.pow32768 = 32768 := by
  refine ⟨by decide +kernel, ?_⟩
  have := val_of_ival binary64 (x := CC.pow32768) (a := 32768) (by decide +kernel)
  rw [this]; norm_num

/-- adding `±32768` to a number of about that size is exact -/
theorem shift32768 {m : Mode} {x c : ℕ} {s : ℝ} (fx : binary64.Finite x) (fc : binary64.Finite c) (vc : binary64.val c = -s * 32768) (hs : s = 1 ∨ s = -1)
    (h1 : 16384 ≤ s * binary64.val x) (h2 : s * binary64.val x ≤ 66100) :
    binary64.Finite (binary64.hadd m x c) ∧ binary64.val (binary64.hadd m x c) = binary64.val x - s * 32768 := by
  have R := hadd_spec binary64 m fx fc
  rw [vc] at R
  have hx : |binary64.val x| = s * binary64.val x := by
    rcases hs with rfl | rfl
    · rw [abs_of_pos (by linarith)]; ring
    · rw [abs_of_neg (by linarith)]; ring
  have m1 : ∀ g : ℤ, g ≤ 15 → Mult g (-s * 32768) := by
    intro g hg
    have : Mult 15 (-s * 32768) := by
      rcases hs with rfl | rfl
      · exact ⟨-1, by norm_num⟩
      · exact ⟨1, by norm_num⟩
    exact this.weaken hg
  have e : binary64.val x + -s * 32768 = binary64.val x - s * 32768 := by ring
  have av : |binary64.val x + -s * 32768| = |s * binary64.val x - 32768| := by
    rcases hs with rfl | rfl
    · congr 1; ring
    · rw [← abs_neg]; congr 1; ring
  rcases le_or_gt (2 ^ (15 : ℤ)) |binary64.val x| with h | h
  · have m2 := (mult_of_ge h).add (m1 _ (by norm_num))
    have b : |binary64.val x + -s * 32768| ≤ 2 ^ (16 : ℤ) := by
      rw [hx] at h; rw [av, abs_le]; norm_num at h ⊢; constructor <;> linarith
    have := rep_exact R m2 (by norm_num) b (by norm_num) (by norm_num)
    rwa [e] at this
  · have h' : (2 : ℝ) ^ (14 : ℤ) ≤ |binary64.val x| := by rw [hx]; norm_num; linarith
    have m2 := (mult_of_ge h').add (m1 _ (by norm_num))
    have b : |binary64.val x + -s * 32768| ≤ 2 ^ (15 : ℤ) := by
      rw [hx] at h; rw [av, abs_le]; norm_num at h ⊢; constructor <;> linarith
    have := rep_exact R m2 (by norm_num) b (by norm_num) (by norm_num)
    rwa [e] at this

/-- the exponential, its sum and the scaling: one rounding of a value within `2^-58` -/
theorem powFinish {ce : Bool} {m : Mode} (hc : ce = false ∨ m = .nearest) (sign : Bool) {y : CC.Pair} {T : ℝ} {s : ℕ} {k : ℤ} (f1 : binary64.Finite y.hi) (f2 : binary64.Finite y.lo)
    (h2 : |binary64.val y.lo| ≤ 1 / 2 ^ 29) (hT : |pairV y - (T - 64 * k)| ≤ 14 / 10 / 2 ^ 54) (hT2 : |T - 64 * k| ≤ 36000)
    (fs : binary64.Finite s) (vs : binary64.val s = 2 ^ k) (ss : binary64.sgn s = false)
    (X1 : (2 : ℝ) ^ (-1021 : ℤ) ≤ exp (T * (log 2 / 64))) (X2 : exp (T * (log 2 / 64)) ≤ (1 - 1 / 2 ^ 50) * 2 ^ (1024 : ℤ)) :
    ∃ q, CC.powExp2 ce m y sign = some q ∧ binary64.Finite (binary64.hmul m (binary64.hadd m q.hi q.lo) s) ∧
      (2 : ℝ) ^ (-1022 : ℤ) ≤ |binary64.val (binary64.hmul m (binary64.hadd m q.hi q.lo) s)| ∧
      ∃ zs w, binary64.RoundsTo m zs w (binary64.hmul m (binary64.hadd m q.hi q.lo) s) ∧
        |w - (if sign then -1 else 1) * exp (T * (log 2 / 64))| ≤ 1 / 2 ^ 58 * exp (T * (log 2 / 64)) := by
  have h1 : |binary64.val y.hi| ≤ 40000 := by
    have := abs_le.1 hT
    have := abs_le.1 hT2
    have := abs_le.1 h2
    unfold pairV at *
    rw [abs_le]; constructor <;> linarith
  obtain ⟨q, hq, g1, g2, g3⟩ := powExp2_spec hc sign f1 f2 h1 h2
  have R := hadd_spec binary64 m g1 g2
  have hl := log2_lo
  have hσ : |(if sign then -1 else 1 : ℝ)| = 1 := by cases sign <;> simp
  generalize (if sign then -1 else 1 : ℝ) = σ at *
  have hV : exp (T * (log 2 / 64)) = exp ((T - 64 * k) * (log 2 / 64)) * 2 ^ k := by
    have h2k : (2 : ℝ) ^ k = exp (k * log 2) := by rw [mul_comm, ← Real.rpow_def_of_pos (by norm_num), Real.rpow_intCast]
    rw [h2k, ← exp_add]; congr 1; ring
  have p1 : |pairV y * (log 2 / 64) - (T - 64 * k) * (log 2 / 64)| ≤ 14 / 10 / 2 ^ 54 * (6932 / 10000 / 64) := by
    rw [← sub_mul, abs_mul, abs_of_pos (by linarith : 0 < log 2 / 64)]
    exact mul_le_mul hT (by linarith) (by linarith) (by norm_num)
  have p2 := exp_perturb p1 (by norm_num)
  have u1 : exp ((T - 64 * k) * (log 2 / 64)) ≤ 2 ^ (600 : ℤ) := by
    rw [show (2 : ℝ) ^ (600 : ℤ) = exp (600 * log 2) by rw [← Real.rpow_intCast, Real.rpow_def_of_pos (by norm_num), mul_comm]; norm_num]
    refine exp_le_exp.2 ?_
    have := (abs_le.1 hT2).2
    nlinarith
  have u2 : (2 : ℝ) ^ (-600 : ℤ) ≤ exp ((T - 64 * k) * (log 2 / 64)) := by
    rw [show (2 : ℝ) ^ (-600 : ℤ) = exp (-600 * log 2) by rw [← Real.rpow_intCast, Real.rpow_def_of_pos (by norm_num), mul_comm]; norm_num]
    refine exp_le_exp.2 ?_
    have := (abs_le.1 hT2).1
    nlinarith
  have hE0 := exp_pos ((T - 64 * k) * (log 2 / 64))
  have hE1 := exp_pos (pairV y * (log 2 / 64))
  have pk := two_zpow_pos k
  have hpv : binary64.val q.hi + binary64.val q.lo = pairV q := rfl
  rw [hpv] at R
  rw [hV] at X1 X2 ⊢
  generalize exp ((T - 64 * k) * (log 2 / 64)) = G at *
  generalize exp (pairV y * (log 2 / 64)) = H at *
  have g4 : |pairV q - σ * G| ≤ 9 / 10 / 2 ^ 58 * G := by
    have a1 := abs_le.1 p2
    have a2 : |σ * H - σ * G| ≤ 14 / 10 / 2 ^ 54 * (110 / 10000) * G := by
      rw [← mul_sub, abs_mul, hσ, one_mul]
      exact p2.trans (mul_le_mul_of_nonneg_right (by norm_num) hE0.le)
    rw [show pairV q - σ * G = (pairV q - σ * H) + (σ * H - σ * G) by ring]
    refine (abs_add_le' g3 a2).trans ?_
    linarith
  have aX : |σ * (G * 2 ^ k)| = G * 2 ^ k := by rw [abs_mul, hσ, one_mul, abs_of_pos (by positivity)]
  have g5 : |pairV q * 2 ^ k - σ * (G * 2 ^ k)| ≤ 1 / 2 ^ 58 * (G * 2 ^ k) := by
    rw [show pairV q * 2 ^ k - σ * (G * 2 ^ k) = (pairV q - σ * G) * 2 ^ k by ring, abs_mul, abs_of_pos pk]
    have := mul_le_mul_of_nonneg_right g4 pk.le
    refine this.trans ?_
    have : 0 < G * 2 ^ k := by positivity
    linarith
  have aq : |pairV q| ≤ 2 * G ∧ G ≤ 2 * |pairV q| := by
    have t1 := abs_sub_abs_le_abs_sub (pairV q) (σ * G)
    have t2 := abs_sub_abs_le_abs_sub (σ * G) (pairV q)
    rw [abs_sub_comm] at t2
    have : |σ * G| = G := by rw [abs_mul, hσ, one_mul, abs_of_pos hE0]
    constructor <;> linarith
  obtain ⟨r1, r2, r3⟩ := mulscale_finish m (X := σ * (G * 2 ^ k)) R
    (by
      have := two_zpow_succ (-700)
      have h3 : (2 : ℝ) ^ (-700 + 1 : ℤ) ≤ 2 ^ (-600 : ℤ) := two_zpow_le (by norm_num)
      linarith only [this, h3, u2, aq.2])
    (by
      have := two_zpow_succ 600
      have h3 : (2 : ℝ) ^ (600 + 1 : ℤ) ≤ 2 ^ (700 : ℤ) := two_zpow_le (by norm_num)
      refine aq.1.trans (le_trans ?_ h3)
      rw [this]
      exact mul_le_mul_of_nonneg_left u1 (by norm_num)) fs vs ss (by rw [aX]; refine g5.trans (le_of_eq ?_); ring) (by rw [aX]; exact X1) (by rw [aX]; exact X2)
  exact ⟨q, hq, r1, r3, _, _, r2, g5⟩

end Verif
