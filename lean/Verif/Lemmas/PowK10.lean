import Verif.Lemmas.PowK9
import Verif.Lemmas.Ipow3

/-!
# The pow kernel: its double-double path, its fast logarithm and its reduction
-/

namespace Verif
open Fmt Real

theorem powScale_val : (binary64.Finite CC.powScaleUp ∧ binary64.val CC.powScaleUp = 2 ^ (512 : ℤ) ∧ binary64.sgn CC.powScaleUp = false) ∧
    (binary64.Finite CC.powScaleDown ∧ binary64.val CC.powScaleDown = 2 ^ (-512 : ℤ) ∧ binary64.sgn CC.powScaleDown = false) := by
  have h1 := bits64 (e := 1534) (m := 2 ^ 52) (by norm_num) (by norm_num) (by norm_num)
  have h2 := bits64 (e := 510) (m := 2 ^ 52) (by norm_num) (by norm_num) (by norm_num)
  have e1 : CC.powScaleUp = 1534 * 2 ^ 52 + 2 ^ 52 := by decide +kernel
  have e2 : CC.powScaleDown = 510 * 2 ^ 52 + 2 ^ 52 := by decide +kernel
  have p : ∀ a b : ℤ, 52 + a = b → ((2 ^ 52 : ℕ) : ℝ) * 2 ^ a = 2 ^ b := by
    intro a b h
    rw [← h, zpow_add₀ (by norm_num), Nat.cast_pow]; norm_cast
  refine ⟨⟨by decide +kernel, ?_, by decide +kernel⟩, by decide +kernel, ?_, by decide +kernel⟩
  · rw [e1, h1.2]; exact p _ _ (by norm_num)
  · rw [e2, h2.2]; exact p _ _ (by norm_num)

/-- `pow_double_double`: one rounding of a value within `2^-58` of `±2^(T/64)`, `T = y6 * L` -/
theorem powDD_spec {ce fused : Bool} {m : Mode} (hc : ce = false ∨ m = .nearest) (sign : Bool) {idx dx ex y6 s : ℕ} {E : ℤ} {L : ℝ} (hi : idx < 128) (fd : binary64.Finite dx)
    (md : Mult (-60) (binary64.val dx)) (d1 : -(1 / 2 ^ 8) ≤ binary64.val dx) (d2 : binary64.val dx ≤ 1 / 2 ^ 7) (fe : binary64.Finite ex) (ve : binary64.val ex = E) (hE : |E| ≤ 1100)
    (hL : L = E + (log (1 + binary64.val dx) - log (binary64.val (CC.powRD.getD idx 0))) / log 2)
    (hcase : (E = 0 ∧ idx = 0) ∨ (E = -1 ∧ idx = 127) ∨ 1 / 2 ^ 8 ≤ |L|) (L1 : 1 / 2 ^ 54 ≤ |L|) (L2 : |L| ≤ 1100) (fy : binary64.Finite y6) {T : ℝ} (hT : T = binary64.val y6 * L)
    (hs : (s = CC.one64 ∧ -34000 ≤ T ∧ T ≤ 34000) ∨ (s = CC.powScaleUp ∧ 32000 ≤ T ∧ T ≤ 66000) ∨ (s = CC.powScaleDown ∧ -66000 ≤ T ∧ T ≤ -32000))
    (X1 : (2 : ℝ) ^ (-1021 : ℤ) ≤ exp (T * (log 2 / 64))) (X2 : exp (T * (log 2 / 64)) ≤ (1 - 1 / 2 ^ 50) * 2 ^ (1024 : ℤ)) :
    ∃ r, CC.powDoubleDouble ce fused m idx dx ex y6 sign s = some r ∧ binary64.Finite r ∧ (2 : ℝ) ^ (-1022 : ℤ) ≤ |binary64.val r| ∧
      ∃ zs w, binary64.RoundsTo m zs w r ∧ |w - (if sign then -1 else 1) * exp (T * (log 2 / 64))| ≤ 1 / 2 ^ 58 * exp (T * (log 2 / 64)) := by
  have hne : L ≠ 0 := fun h => by rw [h, abs_zero] at L1; norm_num at L1
  obtain ⟨l, hl, g1, g2, g3, g4⟩ := powLog2_spec (fused := fused) hc hi fd md d1 d2 fe ve hE hL hne hcase
  have hT2 : |T| ≤ 66000 := by
    rw [abs_le]
    rcases hs with ⟨-, a, b⟩ | ⟨-, a, b⟩ | ⟨-, a, b⟩ <;> constructor <;> linarith
  obtain ⟨q, hq, g5, g6, g7, g8⟩ := powY6 m fy g1 g2 L1 L2 g3 g4 (by rw [← hT]; exact hT2)
  rw [← hT] at g7
  obtain ⟨⟨su1, su2, su3⟩, sd1, sd2, sd3⟩ := powScale_val
  obtain ⟨p1, p2⟩ := pow32768_val
  have hqh : |binary64.val q.hi - T| ≤ 1 := by
    have a1 := abs_le.1 g7
    have a2 := abs_le.1 g8
    unfold pairV at a1
    rw [abs_le]; constructor <;> linarith
  have hqa := abs_le.1 hqh
  rcases hs with ⟨rfl, a, b⟩ | ⟨rfl, a, b⟩ | ⟨rfl, a, b⟩
  · obtain ⟨r, hr, fr, br, zs, w, R, e⟩ := powFinish (k := 0) hc sign (y := q) g5 g6 g8 (by simpa using g7) (by simp only [Int.cast_zero, mul_zero, sub_zero]; exact abs_le.2 ⟨by linarith, by linarith⟩) one64_val.1
      (by rw [one64_val.2, zpow_zero]) (by decide +kernel) X1 X2
    refine ⟨_, ?_, fr, br, zs, w, R, e⟩
    unfold CC.powDoubleDouble
    have h0 : binary64.hlt CC.one64 CC.one64 = false := by decide +kernel
    simp only [hl, hq, Option.bind_eq_bind, Option.bind_some, ne_eq, not_true_eq_false, if_false, hr, h0, Bool.false_and, Bool.false_eq_true, pure]
  · obtain ⟨h1, h2⟩ := shift32768 (m := m) (x := q.hi) (c := binary64.hneg CC.pow32768) (s := 1) g5 (binary64.finite_hneg p1) (by rw [binary64.val_hneg, p2]; norm_num) (Or.inl rfl) (by linarith) (by linarith)
    obtain ⟨r, hr, fr, br, zs, w, R, e⟩ := powFinish (k := 512) hc sign (T := T) (y := { q with hi := binary64.hadd m q.hi (binary64.hneg CC.pow32768) }) h1 g6 g8 (by
        have a1 := abs_le.1 g7
        unfold pairV at *
        simp only []
        rw [h2, abs_le]; push_cast; constructor <;> linarith) (by push_cast; rw [abs_le]; constructor <;> linarith) su1 su2 su3 X1 X2
    refine ⟨_, ?_, fr, br, zs, w, R, e⟩
    unfold CC.powDoubleDouble
    have h0 : binary64.hlt CC.powScaleUp CC.one64 = false := by decide +kernel
    have h3 : binary64.hgt CC.powScaleUp CC.one64 = true := by decide +kernel
    have h4 : CC.powScaleUp ≠ CC.one64 := by decide +kernel
    simp only [hl, hq, Option.bind_eq_bind, Option.bind_some, if_pos h4, h3, if_true, hr, h0, Bool.false_and, Bool.false_eq_true, if_false, pure]
  · obtain ⟨h1, h2⟩ := shift32768 (m := m) (x := q.hi) (c := CC.pow32768) (s := -1) g5 p1 (by rw [p2]; norm_num) (Or.inr rfl) (by linarith) (by linarith)
    obtain ⟨r, hr, fr, br, zs, w, R, e⟩ := powFinish (k := -512) hc sign (T := T) (y := { q with hi := binary64.hadd m q.hi CC.pow32768 }) h1 g6 g8 (by
        have a1 := abs_le.1 g7
        unfold pairV at *
        simp only []
        rw [h2, abs_le]; push_cast; constructor <;> linarith) (by push_cast; rw [abs_le]; constructor <;> linarith) sd1 sd2 sd3 X1 X2
    refine ⟨_, ?_, fr, br, zs, w, R, e⟩
    unfold CC.powDoubleDouble
    have h3 : binary64.hgt CC.powScaleDown CC.one64 = false := by decide +kernel
    have h4 : CC.powScaleDown ≠ CC.one64 := by decide +kernel
    obtain ⟨-, n2, n3, -⟩ := normal_flags fr br
    simp only [hl, hq, Option.bind_eq_bind, Option.bind_some, if_pos h4, h3, Bool.false_eq_true, if_false, hr, n2, n3, Bool.or_self, Bool.and_false, pure]

def powLogCOk : Bool :=
  (List.range 7).all (fun i => intsOk 100 (CC.powLogC.getD i 0)) && decide (1442695 * 2 ^ 100 ≤ 1000000 * ints 100 (CC.powLogC.getD 0 0)) &&
    decide (1000000 * ints 100 (CC.powLogC.getD 0 0) ≤ 1442696 * 2 ^ 100) && decide (-721348 * 2 ^ 100 ≤ 1000000 * ints 100 (CC.powLogC.getD 1 0)) &&
    decide (1000000 * ints 100 (CC.powLogC.getD 1 0) ≤ -721347 * 2 ^ 100) && (List.range 5).all (fun i => decide ((ints 100 (CC.powLogC.getD (i + 2) 0)).natAbs ≤ 2 ^ 99))

theorem powLogC_ok : powLogCOk = true := by decide +kernel

theorem powLogC_spec : (∀ i < 7, binary64.Finite (CC.powLogC.getD i 0)) ∧ 1442695 / 1000000 ≤ binary64.val (CC.powLogC.getD 0 0) ∧ binary64.val (CC.powLogC.getD 0 0) ≤ 1442696 / 1000000 ∧
    -(721348 / 1000000) ≤ binary64.val (CC.powLogC.getD 1 0) ∧ binary64.val (CC.powLogC.getD 1 0) ≤ -(721347 / 1000000) ∧
    ∀ i, 2 ≤ i → i < 7 → |binary64.val (CC.powLogC.getD i 0)| ≤ 1 / 2 := by
  have h := powLogC_ok
  simp only [powLogCOk, Bool.and_eq_true, decide_eq_true_eq, List.all_eq_true, List.mem_range] at h
  obtain ⟨⟨⟨⟨⟨h1, h2⟩, h3⟩, h4⟩, h5⟩, h6⟩ := h
  have P : (0 : ℝ) < 2 ^ 100 := by positivity
  refine ⟨fun i hi => (intsOk_spec (h1 i hi)).1, ?_, ?_, ?_, ?_, ?_⟩
  · rw [(intsOk_spec (h1 0 (by norm_num))).2, le_div_iff₀ P]
    have : ((1442695 * 2 ^ 100 : ℤ) : ℝ) ≤ ((1000000 * ints 100 (CC.powLogC.getD 0 0) : ℤ) : ℝ) := Int.cast_le.2 h2
    generalize ints 100 (CC.powLogC.getD 0 0) = z at *
    norm_num at this ⊢; linarith
  · rw [(intsOk_spec (h1 0 (by norm_num))).2, div_le_iff₀ P]
    have : ((1000000 * ints 100 (CC.powLogC.getD 0 0) : ℤ) : ℝ) ≤ ((1442696 * 2 ^ 100 : ℤ) : ℝ) := Int.cast_le.2 h3
    generalize ints 100 (CC.powLogC.getD 0 0) = z at *
    norm_num at this ⊢; linarith
  · rw [(intsOk_spec (h1 1 (by norm_num))).2, le_div_iff₀ P]
    have : ((-721348 * 2 ^ 100 : ℤ) : ℝ) ≤ ((1000000 * ints 100 (CC.powLogC.getD 1 0) : ℤ) : ℝ) := Int.cast_le.2 h4
    generalize ints 100 (CC.powLogC.getD 1 0) = z at *
    norm_num at this ⊢; linarith
  · rw [(intsOk_spec (h1 1 (by norm_num))).2, div_le_iff₀ P]
    have : ((1000000 * ints 100 (CC.powLogC.getD 1 0) : ℤ) : ℝ) ≤ ((-721347 * 2 ^ 100 : ℤ) : ℝ) := Int.cast_le.2 h5
    generalize ints 100 (CC.powLogC.getD 1 0) = z at *
    norm_num at this ⊢; linarith
  · intro i h2i hi
    obtain ⟨j, rfl⟩ : ∃ j, i = j + 2 := ⟨i - 2, by omega⟩
    rw [(intsOk_spec (h1 (j + 2) hi)).2, abs_div, abs_of_pos P, div_le_iff₀ P]
    refine (natAbs_le_real (h6 j (by omega))).trans (by norm_num)

/-- a fused or unfused multiply-add of moderate operands -/
theorem ma_crude (fused : Bool) (m : Mode) {x y z : ℕ} (hx : binary64.Finite x) (hy : binary64.Finite y) (hz : binary64.Finite z) (h1 : |binary64.val x * binary64.val y| ≤ 1)
    (h2 : |binary64.val z| ≤ 1) : binary64.Finite (CC.multiplyAdd binary64 fused m x y z) ∧
      |binary64.val (CC.multiplyAdd binary64 fused m x y z) - (binary64.val x * binary64.val y + binary64.val z)| ≤ 1 / 2 ^ 45 := by
  obtain ⟨f, e⟩ := ma64_err fused m hx hy hz (h1.trans (by norm_num)) (h2.trans (by norm_num))
  refine ⟨f, e.trans ?_⟩
  have h3 := abs_add_le' h1 h2
  have r1 := mul_le_mul (ru_le m) h3 (abs_nonneg _) (by norm_num)
  have r2 := mul_le_mul (ru_le m) h1 (abs_nonneg _) (by norm_num)
  have he := eta_le
  generalize |binary64.val x * binary64.val y| = a at *
  generalize |binary64.val x * binary64.val y + binary64.val z| = b at *
  norm_num at *
  linarith

/-- the polynomial of the fast logarithm is near `-1/(2 log 2)` -/
theorem powFastP (fused : Bool) (m : Mode) {dx : ℕ} (fd : binary64.Finite dx) (hD : |binary64.val dx| ≤ 1 / 2 ^ 7) :
    let c := fun i => CC.powLogC.getD i 0
    let ma := CC.multiplyAdd binary64 fused m
    let dx2 := binary64.hmul m dx dx
    let p := ma dx2 (ma dx2 (ma dx (c 6) (c 5)) (ma dx (c 4) (c 3))) (ma dx (c 2) (c 1))
    binary64.Finite dx2 ∧ |binary64.val dx2 - binary64.val dx ^ 2| ≤ 1 / 2 ^ 52 * binary64.val dx ^ 2 + eta ∧ binary64.Finite p ∧ |binary64.val p + 7213475 / 10000000| ≤ 1 / 200 := by
  intro c ma dx2 p
  obtain ⟨F, -, -, l1, u1, B⟩ := powLogC_spec
  have hz := eta_le
  have hsq : binary64.val dx ^ 2 ≤ 1 / 2 ^ 14 := by
    rw [← sq_abs]; refine (pow_le_pow_left₀ (abs_nonneg _) hD 2).trans (by norm_num)
  have hsq0 : 0 ≤ binary64.val dx ^ 2 := sq_nonneg _
  obtain ⟨f2, e2⟩ := mul64_err m fd fd (by rw [← sq, abs_of_nonneg hsq0]; exact hsq.trans (by norm_num))
  have e2' : |binary64.val dx2 - binary64.val dx ^ 2| ≤ 1 / 2 ^ 52 * binary64.val dx ^ 2 + eta := by
    rw [← sq, abs_of_nonneg hsq0] at e2
    refine e2.trans (add_le_add ?_ le_rfl)
    exact mul_le_mul_of_nonneg_right (ru_le m) hsq0
  refine ⟨f2, e2', ?_⟩
  have hd2 : |binary64.val dx2| ≤ 1 / 2 ^ 13 := by
    have := abs_le.1 e2'
    rw [abs_le]; constructor <;> linarith
  have step : ∀ i j, i < 7 → j < 7 → 2 ≤ i → |binary64.val (c j)| ≤ 8 / 10 → binary64.Finite (ma dx (c i) (c j)) ∧ |binary64.val (ma dx (c i) (c j)) - binary64.val (c j)| ≤ 1 / 255 := by
    intro i j hi hj h2 hj2
    have hb : |binary64.val dx * binary64.val (c i)| ≤ 1 / 2 ^ 7 * (1 / 2) := abs_mul_le hD (B i h2 hi)
    obtain ⟨f, e⟩ := ma_crude fused m fd (F i hi) (F j hj) (hb.trans (by norm_num)) (hj2.trans (by norm_num))
    refine ⟨f, ?_⟩
    have a1 := abs_le.1 e
    have a2 := abs_le.1 hb
    rw [abs_le]; constructor <;> linarith
  obtain ⟨g0, k0⟩ := step 2 1 (by norm_num) (by norm_num) (by norm_num) (by rw [abs_le]; constructor <;> linarith)
  obtain ⟨g1, k1⟩ := step 4 3 (by norm_num) (by norm_num) (by norm_num) ((B 3 (by norm_num) (by norm_num)).trans (by norm_num))
  obtain ⟨g2, k2⟩ := step 6 5 (by norm_num) (by norm_num) (by norm_num) ((B 5 (by norm_num) (by norm_num)).trans (by norm_num))
  have b3 := abs_le.1 (B 3 (by norm_num) (by norm_num))
  have b5 := abs_le.1 (B 5 (by norm_num) (by norm_num))
  have a0 := abs_le.1 k0
  have a1 := abs_le.1 k1
  have a2 := abs_le.1 k2
  have q2 : |binary64.val (ma dx (c 6) (c 5))| ≤ 1 := by rw [abs_le]; constructor <;> linarith
  have q1 : |binary64.val (ma dx (c 4) (c 3))| ≤ 6 / 10 := by rw [abs_le]; constructor <;> linarith
  have q0 : |binary64.val (ma dx (c 2) (c 1))| ≤ 8 / 10 := by rw [abs_le]; constructor <;> linarith
  have w1 : |binary64.val dx2 * binary64.val (ma dx (c 6) (c 5))| ≤ 1 / 2 ^ 13 * 1 := abs_mul_le hd2 q2
  obtain ⟨g3, k3⟩ := ma_crude fused m f2 g2 g1 (w1.trans (by norm_num)) (q1.trans (by norm_num))
  have a3 := abs_le.1 k3
  have a4 := abs_le.1 w1
  have a5 := abs_le.1 q1
  have q3 : |binary64.val (ma dx2 (ma dx (c 6) (c 5)) (ma dx (c 4) (c 3)))| ≤ 1 := by rw [abs_le]; constructor <;> linarith
  have w2 : |binary64.val dx2 * binary64.val (ma dx2 (ma dx (c 6) (c 5)) (ma dx (c 4) (c 3)))| ≤ 1 / 2 ^ 13 * 1 := abs_mul_le hd2 q3
  obtain ⟨g4, k4⟩ := ma_crude fused m f2 g3 g0 (w2.trans (by norm_num)) (q0.trans (by norm_num))
  have a6 := abs_le.1 k4
  have a7 := abs_le.1 w2
  refine ⟨g4, ?_⟩
  rw [abs_le]; constructor <;> linarith

/-- the high part of the fast logarithm: the rounding errors -/
theorem powFastHi (fused : Bool) (m : Mode) {dx a M : ℕ} {p dx2 : ℕ} {A : ℝ} (fd : binary64.Finite dx) (hD : |binary64.val dx| ≤ 1 / 2 ^ 7)
    (f2 : binary64.Finite dx2) (e2 : |binary64.val dx2 - binary64.val dx ^ 2| ≤ 1 / 2 ^ 52 * binary64.val dx ^ 2 + eta) (fp : binary64.Finite p)
    (bp : |binary64.val p| ≤ 3 / 4) (fa : binary64.Finite a) (va : binary64.val a = A) (hA : |A| ≤ 1200) (fM : binary64.Finite M) (hM : |binary64.val M| ≤ 1) :
    let c0 := CC.powLogC.getD 0 0
    let l := binary64.hadd m (binary64.hadd m a (CC.exactMult m c0 dx).hi) (CC.multiplyAdd binary64 fused m dx2 p (binary64.hadd m (CC.exactMult m c0 dx).lo M))
    binary64.Finite l ∧ |binary64.val l - (A + binary64.val c0 * binary64.val dx + binary64.val dx ^ 2 * binary64.val p + binary64.val M)| ≤
      1 / 2 ^ 46 * (|binary64.val dx| + |A| + |binary64.val M|) + 1 / 2 ^ 190 := by
  intro c0 l
  obtain ⟨F, c1, c2, -, -, -⟩ := powLogC_spec
  have f0 := F 0 (by norm_num)
  have hc0 : |binary64.val c0| ≤ 3 / 2 := by rw [abs_le]; constructor <;> linarith
  set D := binary64.val dx with hDd
  have D0 := abs_nonneg D
  have A0 := abs_nonneg A
  have M0 := abs_nonneg (binary64.val M)
  have hcD : |binary64.val c0 * D| ≤ 3 / 2 * |D| := by rw [abs_mul]; exact mul_le_mul_of_nonneg_right hc0 D0
  obtain ⟨x1, x2, x3, x4⟩ := exactMult_abs m (a := c0) (b := dx) f0 fd (hc0.trans (by norm_num)) (hD.trans (by norm_num))
  rw [← hDd] at x3 x4
  have τ : (2 : ℝ) ^ (-700 : ℤ) ≤ 1 / 2 ^ 200 := (two_zpow_le (show (-700 : ℤ) ≤ -200 by norm_num)).trans (by norm_num)
  generalize (2 : ℝ) ^ (-700 : ℤ) = t at *
  have he := eta_le
  have he0 := eta_pos
  generalize eta = η at *
  set ω := |D| + |A| + |binary64.val M| with hω
  set P := binary64.val (CC.exactMult m c0 dx).hi with hP
  set Q := binary64.val (CC.exactMult m c0 dx).lo with hQ
  have s1 : |P - binary64.val c0 * D| ≤ 1 / 2 ^ 51 * ω + 1 / 2 ^ 200 := x4.trans (by linarith)
  have s2 : |Q| ≤ 1 / 2 ^ 50 * ω + 2 / 2 ^ 200 := by
    have h3 := abs_le.1 x3
    have h4 := abs_le.1 x4
    rw [abs_le]; constructor <;> linarith
  have hsq : D ^ 2 ≤ 1 / 2 ^ 7 * |D| := by rw [← sq_abs, sq]; exact mul_le_mul_of_nonneg_right hD D0
  have hsq0 : 0 ≤ D ^ 2 := sq_nonneg _
  have hω0 : 0 ≤ ω := by positivity
  have hωle : ω ≤ 1300 := by linarith
  have s3 : |binary64.val dx2 * binary64.val p - D ^ 2 * binary64.val p| ≤ 1 / 2 ^ 58 * ω + 1 / 2 ^ 200 := by
    rw [← sub_mul]
    refine (abs_mul_le e2 bp).trans ?_
    linarith
  have s3' : |binary64.val dx2 * binary64.val p| ≤ 1 / 2 ^ 6 * ω + 1 / 2 ^ 200 := by
    have h3 := abs_le.1 s3
    have h4 : |D ^ 2 * binary64.val p| ≤ 1 / 2 ^ 7 * |D| * (3 / 4) := abs_mul_le (by rw [abs_of_nonneg hsq0]; exact hsq) bp
    have h5 := abs_le.1 h4
    rw [abs_le]; constructor <;> linarith
  obtain ⟨fS, s4⟩ := rnd_le (C := 2 * ω + 2 / 2 ^ 200) (hadd_spec binary64 m x2 fM) (by
    refine (abs_add_le' s2 le_rfl).trans ?_
    linarith) (le_trans (by linarith : _ ≤ (3000 : ℝ)) (by norm_num))
  set S := binary64.hadd m (CC.exactMult m c0 dx).lo M with hS
  have s4' : |binary64.val S| ≤ 2 * ω + 1 / 2 ^ 198 := by
    have h3 := abs_le.1 s4
    have h4 := abs_le.1 s2
    have h5 := abs_le.1 (le_refl |binary64.val M|)
    rw [abs_le]; constructor <;> linarith
  obtain ⟨fl, s5⟩ := ma64_err fused m f2 fp fS (s3'.trans (le_trans (by linarith : _ ≤ (3000 : ℝ)) (by norm_num))) (s4'.trans (le_trans (by linarith : _ ≤ (3000 : ℝ)) (by norm_num)))
  set lo := CC.multiplyAdd binary64 fused m dx2 p S with hlo
  have s5' : |binary64.val lo - (binary64.val dx2 * binary64.val p + binary64.val S)| ≤ 1 / 2 ^ 50 * ω + 1 / 2 ^ 197 := by
    refine s5.trans ?_
    have r1 := mul_le_mul (ru_le m) (abs_add_le' s3' s4') (abs_nonneg _) (by norm_num)
    have r2 := mul_le_mul (ru_le m) s3' (abs_nonneg _) (by norm_num)
    have he' := eta_le
    linarith
  obtain ⟨fh, s6⟩ := rnd_le (C := 2 * ω + 1 / 2 ^ 199) (hadd_spec binary64 m fa x1) (by
    have h3 := abs_le.1 s1
    have h4 := abs_le.1 hcD
    have h5 := abs_le.1 (le_refl |A|)
    rw [va, abs_le]; constructor <;> linarith) (le_trans (by linarith : _ ≤ (3000 : ℝ)) (by norm_num))
  rw [va] at s6
  set h := binary64.hadd m a (CC.exactMult m c0 dx).hi with hh
  obtain ⟨fL, s7⟩ := rnd_le (C := 5 * ω + 1 / 2 ^ 195) (hadd_spec binary64 m fh fl) (by
    have h3 := abs_le.1 s6
    have h4 := abs_le.1 hcD
    have h5 := abs_le.1 (le_refl |A|)
    have h6 := abs_le.1 s1
    have h7 := abs_le.1 s5'
    have h8 := abs_le.1 s3'
    have h9 := abs_le.1 s4'
    rw [abs_le]; constructor <;> linarith) (le_trans (by linarith : _ ≤ (7000 : ℝ)) (by norm_num))
  refine ⟨fL, ?_⟩
  have h1 := abs_le.1 s1
  have h2 := abs_le.1 s2
  have h3 := abs_le.1 s3
  have h4 := abs_le.1 s4
  have h5 := abs_le.1 s5'
  have h6 := abs_le.1 s6
  have h7 := abs_le.1 s7
  rw [abs_le]; constructor <;> linarith

theorem log_quad {d : ℝ} (h : |d| ≤ 1 / 2 ^ 7) : |log (1 + d) - d + d ^ 2 / 2| ≤ 101 / 100 * (1 / 2 ^ 7) * d ^ 2 := by
  have hb := abs_le.1 h
  have k := Real.abs_log_sub_add_sum_range_le (x := -d) (by rw [abs_neg]; exact lt_of_le_of_lt h (by norm_num)) 2
  rw [Finset.sum_range_succ, Finset.sum_range_succ, Finset.sum_range_zero, abs_neg, sub_neg_eq_add] at k
  have e : 0 + (-d) ^ (0 + 1) / ((0 : ℕ) + 1 : ℝ) + (-d) ^ (1 + 1) / ((1 : ℕ) + 1 : ℝ) + log (1 + d) = log (1 + d) - d + d ^ 2 / 2 := by push_cast; ring
  rw [e] at k
  refine k.trans ?_
  rw [div_le_iff₀ (by linarith)]
  rw [show |d| ^ (2 + 1) = |d| * d ^ 2 by rw [pow_succ, sq_abs]; ring]
  have : |d| * d ^ 2 ≤ 1 / 2 ^ 7 * d ^ 2 := mul_le_mul_of_nonneg_right h (sq_nonneg _)
  nlinarith [sq_nonneg d, abs_nonneg d]

theorem powFast_core {l A M B D p c0 lam lg δ W : ℝ} (hq : |lg - D + D ^ 2 / 2| ≤ 101 / 100 * (1 / 2 ^ 7) * D ^ 2) (lam1 : 1442695 / 1000000 ≤ lam) (lam2 : lam ≤ 1442696 / 1000000)
    (c1 : 1442695 / 1000000 ≤ c0) (c2 : c0 ≤ 1442696 / 1000000) (ep : |p + 7213475 / 10000000| ≤ 1 / 200) (hδ : |A + M - B| ≤ δ) (el : |l - (A + c0 * D + D ^ 2 * p + M)| ≤ W) :
    |l - (B + lg * lam)| ≤ 17 / 1000 * D ^ 2 + 1 / 2 ^ 19 * |D| + δ + W := by
  have k1 : |(lg - D + D ^ 2 / 2) * lam| ≤ 101 / 100 * (1 / 2 ^ 7) * D ^ 2 * (1442696 / 1000000) := abs_mul_le hq (by rw [abs_of_pos (by linarith)]; exact lam2)
  have k2 : |(c0 - lam) * D| ≤ 1 / 2 ^ 19 * |D| := by
    rw [abs_mul]; refine mul_le_mul_of_nonneg_right ?_ (abs_nonneg _)
    rw [abs_le]; constructor <;> linarith
  have k3 : |D ^ 2 * (p + lam / 2)| ≤ D ^ 2 * (51 / 10000) := by
    rw [abs_mul, abs_of_nonneg (sq_nonneg D)]
    refine mul_le_mul_of_nonneg_left ?_ (sq_nonneg _)
    have := abs_le.1 ep
    rw [abs_le]; constructor <;> linarith
  have := sq_nonneg D
  rw [show l - (B + lg * lam) = (l - (A + c0 * D + D ^ 2 * p + M)) + (A + M - B) + (c0 - lam) * D + D ^ 2 * (p + lam / 2) + -((lg - D + D ^ 2 / 2) * lam) by ring]
  refine (abs_add_le' (abs_add_le' (abs_add_le' (abs_add_le' el hδ) k2) k3) ((abs_neg _).trans_le k1)).trans ?_
  linarith

set_option maxHeartbeats 1000000 in
/-- the fast logarithm is within `2^-11` -/
theorem powFastLog_spec (fused : Bool) (m : Mode) {idx dx ex : ℕ} {E : ℤ} {L : ℝ} (hi : idx < 128) (fd : binary64.Finite dx)
    (d1 : -(1 / 2 ^ 8) ≤ binary64.val dx) (d2 : binary64.val dx ≤ 1 / 2 ^ 7) (fe : binary64.Finite ex) (ve : binary64.val ex = E) (hE : |E| ≤ 1100)
    (hL : L = E + (log (1 + binary64.val dx) - log (binary64.val (CC.powRD.getD idx 0))) / log 2)
    (hcase : (E = 0 ∧ idx = 0) ∨ (E = -1 ∧ idx = 127) ∨ 1 / 2 ^ 8 ≤ |L|) (L1 : 1 / 2 ^ 54 ≤ |L|) :
    ∃ r, CC.powFastLog fused m idx dx ex = some r ∧ binary64.Finite r.hi ∧ |binary64.val r.hi - L| ≤ 1 / 2 ^ 11 * |L| := by
  have hD : |binary64.val dx| ≤ 1 / 2 ^ 7 := by rw [abs_le]; constructor <;> linarith
  obtain ⟨-, -, fH, fM, fLo, -, RD1, RD2, -, -, -, mH, H0, H1, bM, bL, eR⟩ := powRow_spec hi
  obtain ⟨t1, t2, t3, -, -⟩ := powRow_get hi
  obtain ⟨h1, -, h3, -⟩ := powHi_exact m fe ve hE fH mH H0 H1
  have hex : (CC.exactAdd binary64 m ex (CC.powLogHi.getD idx 0)).hi = binary64.hadd m ex (CC.powLogHi.getD idx 0) := rfl
  rw [hex] at h1 h3
  obtain ⟨f2, e2, fp, ep⟩ := powFastP fused m fd hD
  set p := CC.multiplyAdd binary64 fused m (binary64.hmul m dx dx) (CC.multiplyAdd binary64 fused m (binary64.hmul m dx dx) (CC.multiplyAdd binary64 fused m dx (CC.powLogC.getD 6 0) (CC.powLogC.getD 5 0)) (CC.multiplyAdd binary64 fused m dx (CC.powLogC.getD 4 0) (CC.powLogC.getD 3 0))) (CC.multiplyAdd binary64 fused m dx (CC.powLogC.getD 2 0) (CC.powLogC.getD 1 0)) with hp
  have hEr : |(E : ℝ)| ≤ 1100 := by rw [← Int.cast_abs]; exact_mod_cast hE
  have hE2 := abs_le.1 hEr
  have hA : |(E : ℝ) + binary64.val (CC.powLogHi.getD idx 0)| ≤ 1101 := by rw [abs_le]; constructor <;> linarith
  obtain ⟨fl, el⟩ := powFastHi fused m (A := (E : ℝ) + binary64.val (CC.powLogHi.getD idx 0)) fd hD f2 e2 fp (by
    have := abs_le.1 ep; rw [abs_le]; constructor <;> linarith) h1 h3 (hA.trans (by norm_num)) fM (bM.trans (by norm_num))
  obtain ⟨-, c1, c2, -, -, -⟩ := powLogC_spec
  refine ⟨_, by
    unfold CC.powFastLog
    simp only [t1, t2, t3, Option.bind_eq_bind, Option.bind_some, pure]
    rfl, ?_, ?_⟩
  · exact fl
  · change |binary64.val (binary64.hadd m (binary64.hadd m (binary64.hadd m ex (CC.powLogHi.getD idx 0)) (CC.exactMult m (CC.powLogC.getD 0 0) dx).hi)
      (CC.multiplyAdd binary64 fused m (binary64.hmul m dx dx) p (binary64.hadd m (CC.exactMult m (CC.powLogC.getD 0 0) dx).lo (CC.powLogMid.getD idx 0)))) - L| ≤ _
    generalize (binary64.hadd m (binary64.hadd m (binary64.hadd m ex (CC.powLogHi.getD idx 0)) (CC.exactMult m (CC.powLogC.getD 0 0) dx).hi)
      (CC.multiplyAdd binary64 fused m (binary64.hmul m dx dx) p (binary64.hadd m (CC.exactMult m (CC.powLogC.getD 0 0) dx).lo (CC.powLogMid.getD idx 0)))) = l at *
    have hq := log_quad hD
    have hlow := log_lower hD
    have l1 : (693147180 : ℝ) / 1000000000 ≤ log 2 ∧ log 2 ≤ 693147181 / 1000000000 := by
      have := ln2_bounds
      constructor
      · refine le_trans ?_ this.1; norm_num
      · refine this.2.trans ?_; norm_num
    obtain ⟨lam, hlam⟩ : ∃ lam : ℝ, lam = 1 / log 2 := ⟨_, rfl⟩
    have hlam1 : lam * log 2 = 1 := by rw [hlam]; field_simp
    have lam1 : 1442695 / 1000000 ≤ lam := by rw [hlam, le_div_iff₀ (by linarith)]; linarith
    have lam2 : lam ≤ 1442696 / 1000000 := by rw [hlam, div_le_iff₀ (by linarith)]; linarith
    -- the table: `A + M = E - log2 RD` up to `δ`
    have core : ∀ δ : ℝ, |(E : ℝ) + binary64.val (CC.powLogHi.getD idx 0) + binary64.val (CC.powLogMid.getD idx 0) - (E - log (binary64.val (CC.powRD.getD idx 0)) * lam)| ≤ δ →
        |binary64.val l - L| ≤ 17 / 1000 * binary64.val dx ^ 2 + 1 / 2 ^ 19 * |binary64.val dx| + δ +
          (1 / 2 ^ 46 * (|binary64.val dx| + |(E : ℝ) + binary64.val (CC.powLogHi.getD idx 0)| + |binary64.val (CC.powLogMid.getD idx 0)|) + 1 / 2 ^ 190) := by
      intro δ hδ
      have hL' : L = E - log (binary64.val (CC.powRD.getD idx 0)) * lam + log (1 + binary64.val dx) * lam := by rw [hL, hlam]; ring
      rw [hL']
      exact powFast_core hq lam1 lam2 c1 c2 ep hδ el
    have near : (E : ℝ) + binary64.val (CC.powLogHi.getD idx 0) = 0 → binary64.val (CC.powLogMid.getD idx 0) = 0 → (E : ℝ) - log (binary64.val (CC.powRD.getD idx 0)) * lam = 0 → |binary64.val l - L| ≤ 1 / 2 ^ 11 * |L| := by
      intro z1 z2 z3
      have k := core 0 (by rw [z1, z2, z3]; norm_num)
      rw [z1, z2, abs_zero] at k
      have hL' : L = log (1 + binary64.val dx) / log 2 := by
        rw [hL]; have : (E : ℝ) = log (binary64.val (CC.powRD.getD idx 0)) * lam := by linarith
        rw [this, hlam]; ring
      rw [← hL'] at hlow
      have hsq : binary64.val dx ^ 2 ≤ 1 / 2 ^ 7 * |binary64.val dx| := by rw [← sq_abs, sq]; exact mul_le_mul_of_nonneg_right hD (abs_nonneg _)
      refine k.trans ?_
      linarith
    rcases hcase with ⟨h0, hi0⟩ | ⟨h0, hi0⟩ | h0
    · obtain ⟨y1, y2, y3, -⟩ := log_tab0
      subst h0 hi0
      refine near ?_ ?_ ?_
      · rw [y2, val64_zero]; norm_num
      · rw [y3, val64_zero]
      · rw [y1, one64_val.2]; norm_num
    · obtain ⟨y1, y2, y3, -⟩ := log_tab127
      subst h0 hi0
      refine near ?_ ?_ ?_
      · rw [y2, one64_val.2]; norm_num
      · rw [y3, val64_zero]
      · rw [y1, half64_val.2, log_inv]; push_cast; linarith
    · have k := core (1 / 2 ^ 69) (by
        have e : (E : ℝ) + binary64.val (CC.powLogHi.getD idx 0) + binary64.val (CC.powLogMid.getD idx 0) - (E - log (binary64.val (CC.powRD.getD idx 0)) * lam) =
            ((binary64.val (CC.powLogHi.getD idx 0) + binary64.val (CC.powLogMid.getD idx 0) + binary64.val (CC.powLogLo.getD idx 0)) * log 2 + log (binary64.val (CC.powRD.getD idx 0))) * lam - binary64.val (CC.powLogLo.getD idx 0) := by
          linear_combination (-(binary64.val (CC.powLogHi.getD idx 0) + binary64.val (CC.powLogMid.getD idx 0) + binary64.val (CC.powLogLo.getD idx 0))) * hlam1
        have hl0 : |lam| ≤ 1442696 / 1000000 := by rw [abs_of_pos (by linarith)]; exact lam2
        rw [e, sub_eq_add_neg]
        refine (abs_add_le' (abs_mul_le eR hl0) ((abs_neg _).trans_le bL)).trans ?_
        norm_num)
      have hsq : binary64.val dx ^ 2 ≤ 1 / 2 ^ 14 := by
        rw [← sq_abs]; refine (pow_le_pow_left₀ (abs_nonneg _) hD 2).trans (by norm_num)
      refine k.trans ?_
      linarith

end Verif
