import Verif.Lemmas.PowF2

/-!
# The float pow kernel: sizes of the parts of the logarithm, fast path and double-double path
-/

namespace Verif
open Fmt Real

theorem powf_facts {X D : ℝ} {w idx : ℕ} {E : ℤ} (hw : w < 2 ^ 23) (hX : X = (1 + (w : ℝ) / 2 ^ 23) * 2 ^ E) (hidx : idx = w >>> 16) (hi : idx < 128)
    (hD : D = binary64.val (CC.powRD.getD idx 0) * (1 + (w : ℝ) / 2 ^ 23) - 1) (D1 : -(1 / 2 ^ 8) ≤ D) (D2 : D ≤ 1 / 2 ^ 7) (E1 : -200 ≤ E) (E2 : E ≤ 200)
    {L a M l ℓ : ℝ} (hL : L = log X / log 2) (ha : a = E + binary64.val (CC.powLogHi.getD idx 0)) (hM : M = binary64.val (CC.powLogMid.getD idx 0)) (hl : l = binary64.val (CC.powLogLo.getD idx 0))
    (hℓ : ℓ = log (1 + D) / log 2) :
    |L| ≤ 1100 ∧ |D| ≤ 2 * |L| ∧ |M| ≤ 1 / 2 ^ 12 * |L| ∧ |a| ≤ 5 * |L| ∧ |L - (a + M + ℓ)| ≤ 1 / 2 ^ 60 * |L| ∧ |L - (a + (M + l + ℓ))| ≤ 1 / 2 ^ 90 * |L| ∧
      |binary64.val (CC.powfLog2R.getD idx 0) + E - (a + M)| ≤ 1 / 2 ^ 42 * |L| := by
  obtain ⟨-, -, -, -, -, -, R1, R2, -, -, -, -, H0, H1, bM, bL, eR⟩ := powRow_spec hi
  obtain ⟨-, -, -, bl, -⟩ := powfRow_spec hi
  have l2 := log2_lo
  have l20 : 0 < log 2 := by linarith
  have Da : |D| ≤ 1 / 2 ^ 7 := by rw [abs_le]; constructor <;> linarith
  have g := log_lower Da
  have g2 := log_upper Da
  rw [← hℓ] at g g2
  have hDp : 0 < 1 + D := by linarith
  have hw2 : ((w * 2 ^ 29 : ℕ) : ℝ) / 2 ^ 52 = (w : ℝ) / 2 ^ 23 := by push_cast; field_simp; norm_num
  have key : L = E + (log (1 + D) - log (binary64.val (CC.powRD.getD idx 0))) / log 2 ∧ ((E = 0 ∧ idx = 0) ∨ (E = -1 ∧ idx = 127) ∨ 1 / 2 ^ 8 ≤ |L|) ∧ |L| ≤ 1100 := by
    by_cases h1 : X = 1
    · have hE : E = 0 := by
        have w0 : (0 : ℝ) ≤ (w : ℝ) / 2 ^ 23 := by positivity
        have w1 : (w : ℝ) / 2 ^ 23 < 1 := by rw [div_lt_one (by positivity)]; exact_mod_cast hw
        have p := two_zpow_pos E
        rw [h1] at hX
        have a1 : (2 : ℝ) ^ E ≤ 2 ^ (0 : ℤ) := by rw [zpow_zero]; nlinarith
        have a2 : (2 : ℝ) ^ (-1 : ℤ) < 2 ^ E := by rw [show (2 : ℝ) ^ (-1 : ℤ) = 1 / 2 by norm_num]; nlinarith
        have b1 := (zpow_le_zpow_iff_right₀ (by norm_num : (1 : ℝ) < 2)).1 a1
        have b2 := two_zpow_lt_iff.1 a2
        omega
      have hw0 : w = 0 := by
        rw [h1, hE, zpow_zero, mul_one] at hX
        have : (w : ℝ) / 2 ^ 23 = 0 := by linarith
        rw [div_eq_zero_iff] at this
        rcases this with h | h
        · exact_mod_cast h
        · norm_num at h
      have hi0 : idx = 0 := by rw [hidx, hw0]; rfl
      have hL0 : L = 0 := by rw [hL, h1, log_one, zero_div]
      refine ⟨?_, Or.inl ⟨hE, hi0⟩, by rw [hL0, abs_zero]; norm_num⟩
      rw [hL0, hE, hD, hw0, hi0, log_tab0.1, one64_val.2]; norm_num
    · obtain ⟨k1, k2, -, k4⟩ := powLog_facts (w := w * 2 ^ 29) (idx := idx) (dx := D) (E := E) (X := X) (RD := binary64.val (CC.powRD.getD idx 0)) (by omega) (by rw [hw2]; exact hX)
        (by rw [hidx, Nat.shiftRight_eq_div_pow, Nat.shiftRight_eq_div_pow]; omega) (by linarith) (by rw [hw2]; exact hD) (by omega) (by omega) h1
      rw [← hL] at k1 k2 k4
      exact ⟨k1, k2, k4⟩
  obtain ⟨eL, hcase, L2⟩ := key
  have hLl : L = E + ℓ - log (binary64.val (CC.powRD.getD idx 0)) / log 2 := by rw [eL, hℓ, sub_div]; ring
  have near : a = 0 → M = 0 → l = 0 → binary64.val (CC.powfLog2R.getD idx 0) + E = 0 → log (binary64.val (CC.powRD.getD idx 0)) / log 2 = E →
      |L| ≤ 1100 ∧ |D| ≤ 2 * |L| ∧ |M| ≤ 1 / 2 ^ 12 * |L| ∧ |a| ≤ 5 * |L| ∧ |L - (a + M + ℓ)| ≤ 1 / 2 ^ 60 * |L| ∧ |L - (a + (M + l + ℓ))| ≤ 1 / 2 ^ 90 * |L| ∧
        |binary64.val (CC.powfLog2R.getD idx 0) + E - (a + M)| ≤ 1 / 2 ^ 42 * |L| := by
    intro a0 M0 l0 c0 hr
    have e : L = ℓ := by rw [hLl, hr]; ring
    rw [a0, M0, l0, c0]
    rw [← e] at g g2 ⊢
    have := abs_nonneg L
    simp only [abs_zero, zero_add, sub_zero, sub_self]
    refine ⟨L2, by linarith, by positivity, by positivity, by positivity, by positivity, by positivity⟩
  rcases hcase with ⟨h1, h2⟩ | ⟨h1, h2⟩ | hfar
  · obtain ⟨t1, t2, t3, t4⟩ := log_tab0
    refine near ?_ ?_ ?_ ?_ ?_
    · rw [ha, h1, h2, t2, val64_zero]; simp
    · rw [hM, h2, t3, val64_zero]
    · rw [hl, h2, t4, val64_zero]
    · rw [h2, powfTab0.1, val64_zero, h1]; simp
    · rw [h2, t1, one64_val.2, h1, log_one]; simp
  · obtain ⟨t1, t2, t3, t4⟩ := log_tab127
    refine near ?_ ?_ ?_ ?_ ?_
    · rw [ha, h1, h2, t2, one64_val.2]; norm_num
    · rw [hM, h2, t3, val64_zero]
    · rw [hl, h2, t4, val64_zero]
    · rw [h2, powfTab0.2, one64_val.2, h1]; norm_num
    · rw [h2, t1, half64_val.2, h1, log_inv, neg_div, div_self l20.ne']; simp
  · have e1 : |L - (a + (M + l + ℓ))| ≤ 1 / 2 ^ 101 := by
      have : L - (a + (M + l + ℓ)) = -(((binary64.val (CC.powLogHi.getD idx 0) + binary64.val (CC.powLogMid.getD idx 0) + binary64.val (CC.powLogLo.getD idx 0)) * log 2 + log (binary64.val (CC.powRD.getD idx 0))) / log 2) := by
        rw [hLl, ha, hM, hl]; field_simp; ring
      rw [this, abs_neg, abs_div, abs_of_pos l20, div_le_iff₀ l20]
      refine eR.trans ?_
      have := mul_le_mul_of_nonneg_left l2.1 (show (0 : ℝ) ≤ 1 / 2 ^ 101 by norm_num)
      linarith
    rw [← hM] at bM
    rw [← hl] at bL
    have e2 : |L - (a + M + ℓ)| ≤ 1 / 2 ^ 69 := by
      rw [show L - (a + M + ℓ) = (L - (a + (M + l + ℓ))) + l by ring]
      exact (abs_add_le' e1 bL).trans (by norm_num)
    refine ⟨L2, by linarith, by linarith, ?_, by linarith, by linarith, ?_⟩
    · rw [show a = L + -(L - (a + M + ℓ)) + -M + -ℓ by ring]
      refine (abs_add_le' (abs_add_le' (abs_add_le' le_rfl ((abs_neg _).trans_le e2)) ((abs_neg _).trans_le bM)) ((abs_neg _).trans_le g2)).trans ?_
      linarith
    · rw [ha, hM, show binary64.val (CC.powfLog2R.getD idx 0) + E - (E + binary64.val (CC.powLogHi.getD idx 0) + binary64.val (CC.powLogMid.getD idx 0)) = binary64.val (CC.powfLog2R.getD idx 0) - (binary64.val (CC.powLogHi.getD idx 0) + binary64.val (CC.powLogMid.getD idx 0)) by ring]
      refine bl.trans ?_
      linarith

theorem add_lin (m : Mode) {x y : ℕ} (hx : binary64.Finite x) (hy : binary64.Finite y) {P : ℝ} (h : |binary64.val x + binary64.val y| ≤ P) (hP : P ≤ 2 ^ 99) :
    binary64.Finite (binary64.hadd m x y) ∧ |binary64.val (binary64.hadd m x y) - (binary64.val x + binary64.val y)| ≤ 1 / 2 ^ 52 * P + 1 / 2 ^ 200 := by
  obtain ⟨f, e⟩ := add64_err m hx hy (h.trans (hP.trans (by norm_num)))
  exact ⟨f, e.trans (add_le_add (mul_le_mul (ru_le m) h (abs_nonneg _) (by norm_num)) eta_le)⟩

theorem mul_lin (m : Mode) {x y : ℕ} (hx : binary64.Finite x) (hy : binary64.Finite y) {P : ℝ} (h : |binary64.val x * binary64.val y| ≤ P) (hP : P ≤ 2 ^ 99) :
    binary64.Finite (binary64.hmul m x y) ∧ |binary64.val (binary64.hmul m x y) - binary64.val x * binary64.val y| ≤ 1 / 2 ^ 52 * P + 1 / 2 ^ 200 := by
  obtain ⟨f, e⟩ := mul64_err m hx hy (h.trans (hP.trans (by norm_num)))
  exact ⟨f, e.trans (add_le_add (mul_le_mul (ru_le m) h (abs_nonneg _) (by norm_num)) eta_le)⟩

/-- the estimate of the logarithm, the integer part of the exponent and the two reduced arguments of the fast path -/
theorem powfFast {ce fused : Bool} {m : Mode} (hc : ce = false ∨ m = .nearest) {dx p lr ex lrHi lrMid y6 : ℕ} (fd : binary64.Finite dx) (fp : binary64.Finite p) (flr : binary64.Finite lr)
    (fex : binary64.Finite ex) (fh : binary64.Finite lrHi) (fm : binary64.Finite lrMid) (fy : binary64.Finite y6) {L a M ℓ T : ℝ} {E : ℤ} (vE : binary64.val ex = E) (hE : |E| ≤ 200)
    (hM : M = binary64.val lrMid) (ha : a = E + binary64.val lrHi) (mh : Mult (-20) (binary64.val lrHi)) (h01 : 0 ≤ binary64.val lrHi) (h02 : binary64.val lrHi ≤ 1)
    (hp : |binary64.val dx * binary64.val p - ℓ| ≤ 1 / 2 ^ 41 * |binary64.val dx|) (hℓ : |ℓ| ≤ 3 / 2 * |binary64.val dx|) (L2 : |L| ≤ 1100) (hD : |binary64.val dx| ≤ 2 * |L|)
    (hMb : |M| ≤ 1 / 2 ^ 12 * |L|) (hab : |a| ≤ 5 * |L|) (hs : |L - (a + M + ℓ)| ≤ 1 / 2 ^ 60 * |L|) (hlr : |binary64.val lr + E - (a + M)| ≤ 1 / 2 ^ 42 * |L|)
    (hN : |binary64.val y6| ≤ 2 ^ 40) (hT : T = binary64.val y6 * L) (hTb : |T| ≤ 32000)
    {s hm lo6Hi lo6 : ℕ} (es : s = CC.multiplyAdd binary64 fused m dx p (binary64.hadd m lr ex)) (ehm : hm = CC.nearestInteger binary64 ce m (binary64.hmul m s y6))
    (elh : lo6Hi = CC.multiplyAdd binary64 fused m y6 (binary64.hadd m ex lrHi) (binary64.hneg hm)) (elo : lo6 = CC.multiplyAdd binary64 fused m y6 (CC.multiplyAdd binary64 fused m dx p lrMid) lo6Hi) :
    ∃ n : ℤ, |n| ≤ 32001 ∧ CC.castInt64 hm = some n ∧ |T - n| ≤ 1 / 2 + 1 / 2 ^ 20 ∧ binary64.Finite lo6Hi ∧ |binary64.val lo6Hi - (binary64.val y6 * a - n)| ≤ 1 / 2 ^ 48 * |T| + 1 / 2 ^ 51 ∧
      binary64.Finite lo6 ∧ |binary64.val lo6 - (T - n)| ≤ 1 / 2 ^ 39 * |T| + 1 / 2 ^ 49 := by
  have L0 := abs_nonneg L
  have hDP : |binary64.val dx * binary64.val p| ≤ 4 * |L| := by
    rw [show binary64.val dx * binary64.val p = (binary64.val dx * binary64.val p - ℓ) + ℓ by ring]
    refine (abs_add_le' hp hℓ).trans ?_
    linarith
  have hTN : |binary64.val y6| * |L| = |T| := by rw [hT, abs_mul]
  have N0 := abs_nonneg (binary64.val y6)
  have T0 := abs_nonneg T
  -- the constant term
  have hce : |binary64.val lr + binary64.val ex| ≤ 6 * |L| := by
    rw [vE, show binary64.val lr + E = (binary64.val lr + E - (a + M)) + (a + M) by ring]
    refine (abs_add_le' hlr (abs_add_le' hab hMb)).trans ?_
    linarith
  obtain ⟨fc, ec⟩ := add_lin m flr fex hce (by linarith)
  rw [vE] at ec
  set c := binary64.hadd m lr ex
  have hcb : |binary64.val c| ≤ 7 * |L| + 1 / 2 ^ 200 := by
    rw [vE] at hce
    rw [show binary64.val c = (binary64.val c - (binary64.val lr + E)) + (binary64.val lr + E) by ring]
    refine (abs_add_le' ec hce).trans ?_
    linarith
  obtain ⟨fs, e_s⟩ := ma_lin fused m fd fp fc hDP hcb (by linarith) (by linarith)
  rw [← es] at fs e_s
  have esL : |binary64.val s - L| ≤ 1 / 2 ^ 39 * |L| + 1 / 2 ^ 190 := by
    rw [show binary64.val s - L = (binary64.val s - (binary64.val dx * binary64.val p + binary64.val c)) + (binary64.val dx * binary64.val p - ℓ) + (binary64.val c - (binary64.val lr + E)) +
      (binary64.val lr + E - (a + M)) + -(L - (a + M + ℓ)) by ring]
    refine (abs_add_le' (abs_add_le' (abs_add_le' (abs_add_le' e_s hp) ec) hlr) ((abs_neg _).trans_le hs)).trans ?_
    linarith
  -- the product with the exponent
  have e1 : |binary64.val s * binary64.val y6 - T| ≤ 1 / 2 ^ 39 * |T| + 1 / 2 ^ 150 := by
    rw [hT, show binary64.val s * binary64.val y6 - binary64.val y6 * L = binary64.val y6 * (binary64.val s - L) by ring, abs_mul, abs_mul]
    have h1 := mul_le_mul_of_nonneg_left esL N0
    have h2 : |binary64.val y6| * (1 / 2 ^ 190) ≤ 2 ^ 40 * (1 / 2 ^ 190) := mul_le_mul_of_nonneg_right hN (by norm_num)
    rw [mul_add] at h1
    refine h1.trans ?_
    rw [show |binary64.val y6| * (1 / 2 ^ 39 * |L|) = 1 / 2 ^ 39 * (|binary64.val y6| * |L|) by ring]
    have : (2 : ℝ) ^ 40 * (1 / 2 ^ 190) = 1 / 2 ^ 150 := by norm_num
    linarith
  have e1b : |binary64.val s * binary64.val y6| ≤ 32001 := by
    rw [show binary64.val s * binary64.val y6 = (binary64.val s * binary64.val y6 - T) + T by ring]
    refine (abs_add_le' e1 hTb).trans ?_
    linarith
  obtain ⟨fsy, esy⟩ := mul_lin m fs fy e1b (by norm_num)
  have e2 : |binary64.val (binary64.hmul m s y6) - T| ≤ 1 / 2 ^ 22 := by
    rw [show binary64.val (binary64.hmul m s y6) - T = (binary64.val (binary64.hmul m s y6) - binary64.val s * binary64.val y6) + (binary64.val s * binary64.val y6 - T) by ring]
    refine (abs_add_le' esy e1).trans ?_
    linarith
  have b2 := abs_le.1 e2
  have bT := abs_le.1 hTb
  obtain ⟨fn, n, vn, en⟩ := nearInt64 hc fsy (by rw [abs_le]; constructor <;> linarith)
  rw [← ehm] at fn vn
  have bn := abs_le.1 en
  have hTn : |T - n| ≤ 1 / 2 + 1 / 2 ^ 20 := by rw [abs_le]; constructor <;> linarith
  have n1 : -32001 ≤ n := by
    have : (-32001 : ℝ) ≤ n := by linarith
    exact_mod_cast this
  have n2 : n ≤ 32001 := by
    have : (n : ℝ) ≤ 32001 := by linarith
    exact_mod_cast this
  have hcast : CC.castInt64 hm = some n := by
    have ht : CC.truncInt hm = n := truncInt_int (by rw [vn])
    unfold CC.castInt64
    rw [ht, if_pos ⟨((binary64.finite_iff _).1 fn).2, by omega, by omega⟩]
  -- the high part
  obtain ⟨fa, -, va, -⟩ := powHi_exact m fex vE (by omega) fh mh h01 h02
  have hxa : (CC.exactAdd binary64 m ex lrHi).hi = binary64.hadd m ex lrHi := rfl
  rw [hxa, ← ha] at va
  rw [hxa] at fa
  have hya : |binary64.val y6 * binary64.val (binary64.hadd m ex lrHi)| ≤ 5 * |T| := by
    rw [va, abs_mul]
    have := mul_le_mul_of_nonneg_left hab N0
    linarith
  have hnb : |(n : ℝ)| ≤ |T| + 1 := by
    rw [show (n : ℝ) = T + -(T - n) by ring]
    exact (abs_add_le' le_rfl ((abs_neg _).trans_le hTn)).trans (by linarith)
  obtain ⟨flh, e_lh⟩ := ma_lin (Q := |T| + 1) fused m fy fa (binary64.finite_hneg fn) hya (by rw [val_hneg, vn, abs_neg]; exact hnb) (by linarith) (by linarith)
  rw [← elh, va, val_hneg, vn] at e_lh
  rw [← elh] at flh
  have e_lh' : |binary64.val lo6Hi - (binary64.val y6 * a - n)| ≤ 1 / 2 ^ 48 * |T| + 1 / 2 ^ 51 := by
    rw [show binary64.val y6 * a - (n : ℝ) = binary64.val y6 * a + -n by ring]
    refine e_lh.trans ?_
    linarith
  -- the low part
  obtain ⟨fq, eq⟩ := ma_lin (Q := 1 / 2 ^ 12 * |L|) fused m fd fp fm hDP (by rw [← hM]; exact hMb) (by linarith) (by linarith)
  rw [← hM] at eq
  set q := CC.multiplyAdd binary64 fused m dx p lrMid
  have eq' : |binary64.val q - (ℓ + M)| ≤ (1 / 2 ^ 40 + 1 / 2 ^ 48) * |L| + 1 / 2 ^ 198 := by
    rw [show binary64.val q - (ℓ + M) = (binary64.val q - (binary64.val dx * binary64.val p + M)) + (binary64.val dx * binary64.val p - ℓ) by ring]
    refine (abs_add_le' eq hp).trans ?_
    linarith
  have eqN : |binary64.val y6 * binary64.val q - binary64.val y6 * (ℓ + M)| ≤ (1 / 2 ^ 40 + 1 / 2 ^ 48) * |T| + 1 / 2 ^ 158 := by
    rw [← mul_sub, abs_mul]
    have h1 := mul_le_mul_of_nonneg_left eq' N0
    have h2 : |binary64.val y6| * (1 / 2 ^ 198) ≤ 2 ^ 40 * (1 / 2 ^ 198) := mul_le_mul_of_nonneg_right hN (by norm_num)
    rw [mul_add, show |binary64.val y6| * ((1 / 2 ^ 40 + 1 / 2 ^ 48) * |L|) = (1 / 2 ^ 40 + 1 / 2 ^ 48) * (|binary64.val y6| * |L|) by ring, hTN] at h1
    have : (2 : ℝ) ^ 40 * (1 / 2 ^ 198) = 1 / 2 ^ 158 := by norm_num
    linarith
  have hlM : |binary64.val y6 * (ℓ + M)| ≤ 31 / 10 * |T| := by
    rw [abs_mul]
    have h1 : |ℓ + M| ≤ 31 / 10 * |L| := (abs_add_le' hℓ hMb).trans (by linarith)
    have := mul_le_mul_of_nonneg_left h1 N0
    linarith
  have hyq : |binary64.val y6 * binary64.val q| ≤ 4 * |T| + 1 / 2 ^ 158 := by
    rw [show binary64.val y6 * binary64.val q = (binary64.val y6 * binary64.val q - binary64.val y6 * (ℓ + M)) + binary64.val y6 * (ℓ + M) by ring]
    refine (abs_add_le' eqN hlM).trans ?_
    linarith
  have hla : |binary64.val y6 * a - n| ≤ 6 * |T| + 1 := by
    rw [va] at hya
    rw [show binary64.val y6 * a - (n : ℝ) = binary64.val y6 * a + -n by ring]
    exact (abs_add_le' hya ((abs_neg _).trans_le hnb)).trans (by linarith)
  have hlh : |binary64.val lo6Hi| ≤ 7 * |T| + 2 := by
    rw [show binary64.val lo6Hi = (binary64.val lo6Hi - (binary64.val y6 * a - n)) + (binary64.val y6 * a - n) by ring]
    refine (abs_add_le' e_lh' hla).trans ?_
    linarith
  obtain ⟨fl, el⟩ := ma_lin fused m fy fq flh hyq hlh (by linarith) (by linarith)
  rw [← elo] at fl el
  refine ⟨n, by rw [abs_le]; constructor <;> omega, hcast, hTn, flh, e_lh', fl, ?_⟩
  have hs' : |binary64.val y6 * (L - (a + M + ℓ))| ≤ 1 / 2 ^ 60 * |T| := by
    rw [abs_mul]
    have := mul_le_mul_of_nonneg_left hs N0
    linarith
  rw [show binary64.val lo6 - (T - n) = (binary64.val lo6 - (binary64.val y6 * binary64.val q + binary64.val lo6Hi)) + (binary64.val y6 * binary64.val q - binary64.val y6 * (ℓ + M)) +
    (binary64.val lo6Hi - (binary64.val y6 * a - n)) + -(binary64.val y6 * (L - (a + M + ℓ))) by rw [hT]; ring]
  refine (abs_add_le' (abs_add_le' (abs_add_le' el eqN) e_lh') ((abs_neg _).trans_le hs')).trans ?_
  linarith

end Verif
