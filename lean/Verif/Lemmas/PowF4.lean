import Verif.Lemmas.PowF3

/-!
# The float pow kernel: result of the fast path, of the double-double path and their selection
-/

namespace Verif
open Fmt Real

theorem exp_perturb20 {a b d : ℝ} (h : |a - b| ≤ d) (hd : d ≤ 1 / 2 ^ 20) : |exp a - exp b| ≤ (1 + 1 / 2 ^ 19) * d * exp b := by
  have h0 : 0 ≤ d := (abs_nonneg _).trans h
  have e : exp a - exp b = exp b * (exp (a - b) - 1) := by rw [mul_sub, ← exp_add]; ring_nf
  have q := Real.abs_exp_sub_one_sub_id_le (x := a - b) (h.trans (hd.trans (by norm_num)))
  have q2 : (a - b) ^ 2 ≤ 1 / 2 ^ 20 * d := by
    rw [← sq_abs]
    nlinarith [abs_nonneg (a - b)]
  have q3 : |exp (a - b) - 1| ≤ (1 + 1 / 2 ^ 19) * d := by
    have q4 := abs_le.1 q
    have h5 := abs_le.1 h
    rw [abs_le]; constructor <;> linarith
  rw [e, abs_mul, abs_of_pos (exp_pos b), mul_comm]
  exact mul_le_mul_of_nonneg_right q3 (exp_pos b).le

/-- a rounding far from the limits of the format has a relative error below one unit -/
theorem rnd_rel1000 {m : Mode} {zs : Bool} {v : ℝ} {b : ℕ} (R : binary64.RoundsTo m zs v b) (h1 : (2 : ℝ) ^ (-1000 : ℤ) ≤ |v|) (h2 : |v| ≤ 2 ^ (1000 : ℤ)) :
    binary64.Finite b ∧ |binary64.val b - v| ≤ 1 / 2 ^ 52 * |v| := by
  have hF : (binary64.F : ℤ) = 52 := by decide +kernel
  have hmx : |v| ≤ binary64.maxFin := by
    have h4 := binary64.maxFin_add
    rw [show (binary64.bias : ℤ) = 1023 by decide +kernel, hF] at h4
    have h5 : (2 : ℝ) ^ (1023 - 52 : ℤ) ≤ 2 ^ (1023 : ℤ) := two_zpow_le (by norm_num)
    have h6 : (2 : ℝ) ^ (1023 + 1 : ℤ) = 2 ^ (1023 : ℤ) + 2 ^ (1023 : ℤ) := by rw [zpow_add₀ (by norm_num)]; ring
    have h7 : |v| ≤ (2 : ℝ) ^ (1023 : ℤ) := h2.trans (two_zpow_le (by norm_num))
    clear h1 h2
    linarith
  refine ⟨RoundsTo.finite_of_le binary64 R hmx, (RoundsTo.err R hmx).trans ?_⟩
  unfold Fmt.gapBound
  rw [hF, show (2 : ℝ) ^ (-(52 : ℤ)) = 1 / 2 ^ 52 by norm_num]
  refine max_le le_rfl ?_
  have e : binary64.minSub = (2 : ℝ) ^ (-1074 : ℤ) := by unfold Fmt.minSub; rw [show (1 - (binary64.bias : ℤ) - (binary64.F : ℤ)) = -1074 by decide +kernel]
  rw [e]
  have h3 : (2 : ℝ) ^ (-1074 : ℤ) ≤ 2 ^ (-52 + -1000 : ℤ) := two_zpow_le (by norm_num)
  rw [zpow_add₀ (by norm_num), show (2 : ℝ) ^ (-52 : ℤ) = 1 / 2 ^ 52 by norm_num] at h3
  exact h3.trans (mul_le_mul_of_nonneg_left h1 (by norm_num))

theorem pv_add_le {n : ℕ} (h : 2 ^ 52 ≤ n) : ∀ k : ℕ, k ≤ 1024 → pv (n + k) ≤ pv n * (1 + k / 2 ^ 51)
  | 0, _ => by simp
  | k + 1, hk => by
    have ih := pv_add_le h k (by omega)
    have s := pv_succ_le (n := n + k) (by omega)
    have hkr : (k : ℝ) ≤ 1024 := by exact_mod_cast (by omega : k ≤ 1024)
    have k0 : (0 : ℝ) ≤ k := Nat.cast_nonneg k
    have p0 := pv_nonneg n
    rw [show n + (k + 1) = n + k + 1 by ring]
    push_cast
    have h1 : pv (n + k + 1) ≤ pv (n + k) * (1 + 1 / 2 ^ 52) := by linarith
    refine h1.trans ((mul_le_mul_of_nonneg_right ih (by norm_num)).trans ?_)
    rw [mul_assoc]
    refine mul_le_mul_of_nonneg_left ?_ p0
    nlinarith

theorem pv_big {n : ℕ} (h1 : (2 : ℝ) ^ (-1000 : ℤ) ≤ pv n) : 2 ^ 52 ≤ n := by
  rw [← pv_le, pv_min]
  exact (two_zpow_le (by norm_num)).trans h1

theorem pv_fin {n : ℕ} (h2 : pv n ≤ 2 * (2 : ℝ) ^ (1000 : ℤ)) : n < binary64.infMag ∧ n < 2 ^ 63 ∧ binary64.Finite n := by
  have h : n < binary64.infMag := by
    rw [← pv_lt, pv_inf]
    refine lt_of_le_of_lt h2 ?_
    rw [← two_zpow_succ]
    exact two_zpow_lt (by norm_num)
  have h3 : n < 2 ^ 63 := lt_of_lt_of_le h (by decide +kernel)
  refine ⟨h, h3, (binary64.finite_iff n).2 ⟨lt_of_lt_of_le h3 (by decide +kernel), ?_⟩⟩
  rw [(pv_val h3).2.2]; exact h

/-- the bits of a double are its magnitude and its sign -/
theorem bits_cases {r : ℕ} (hr : binary64.Finite r) : ∃ n σ, n < 2 ^ 63 ∧ binary64.Finite n ∧ (σ = 1 ∧ r = n ∨ σ = -1 ∧ r = 2 ^ 63 + n) ∧ binary64.val r = σ * pv n ∧ |binary64.val r| = pv n := by
  have hv : r < 2 ^ 64 := hr.1
  by_cases h : r < 2 ^ 63
  · exact ⟨r, 1, h, hr, Or.inl ⟨rfl, rfl⟩, by rw [(pv_val h).1, one_mul], by rw [(pv_val h).1, abs_of_nonneg (pv_nonneg _)]⟩
  · have hn : r - 2 ^ 63 < 2 ^ 63 := by omega
    have e : r = 2 ^ 63 + (r - 2 ^ 63) := by omega
    have hm := ((binary64.finite_iff r).1 hr).2
    have hm' : binary64.mag r = r - 2 ^ 63 := by
      change r % 2 ^ 63 = r - 2 ^ 63
      omega
    have fn : binary64.Finite (r - 2 ^ 63) := (binary64.finite_iff _).2 ⟨lt_of_lt_of_le hn (by decide +kernel), by rw [(pv_val hn).2.2, ← hm']; exact hm⟩
    obtain ⟨-, v⟩ := neg_bits fn hn
    rw [← e, (pv_val hn).1] at v
    exact ⟨_, -1, hn, fn, Or.inr ⟨rfl, e⟩, by rw [v]; ring, by rw [v, abs_neg, abs_of_nonneg (pv_nonneg _)]⟩

/-- adding a small number to the bits of a double -/
theorem bits_up {r k : ℕ} (hr : binary64.Finite r) (h1 : (2 : ℝ) ^ (-1000 : ℤ) ≤ |binary64.val r|) (h2 : |binary64.val r| ≤ 2 ^ (1000 : ℤ)) (hk : k ≤ 1024) :
    binary64.Finite ((r + k) % 2 ^ 64) ∧ |binary64.val ((r + k) % 2 ^ 64) - binary64.val r| ≤ k / 2 ^ 51 * |binary64.val r| := by
  obtain ⟨n, σ, hn, fn, hc, v, av⟩ := bits_cases hr
  rw [av] at h1 h2 ⊢
  have g := pv_add_le (pv_big h1) k hk
  have g2 : pv n ≤ pv (n + k) := pv_le.2 (by omega)
  have p0 := pv_nonneg n
  have hkr : (k : ℝ) ≤ 1024 := by exact_mod_cast hk
  have k0 : (0 : ℝ) ≤ k := Nat.cast_nonneg k
  obtain ⟨i1, i2, i3⟩ := pv_fin (n := n + k) (by
    refine g.trans ?_
    have : (1 + (k : ℝ) / 2 ^ 51) ≤ 2 := by rw [← le_sub_iff_add_le', div_le_iff₀ (by norm_num)]; linarith
    exact (mul_le_mul_of_nonneg_left this p0).trans (by linarith))
  have ee : |pv (n + k) - pv n| ≤ k / 2 ^ 51 * pv n := by rw [abs_of_nonneg (by linarith)]; linarith
  rcases hc with ⟨rfl, rfl⟩ | ⟨rfl, rfl⟩
  · rw [Nat.mod_eq_of_lt (by omega)]
    refine ⟨i3, ?_⟩
    rw [(pv_val i2).1, v, one_mul]; exact ee
  · rw [show (2 ^ 63 + n + k) % 2 ^ 64 = 2 ^ 63 + (n + k) by omega]
    obtain ⟨j1, j2⟩ := neg_bits i3 i2
    refine ⟨j1, ?_⟩
    rw [j2, v, (pv_val i2).1, show -pv (n + k) - -1 * pv n = -(pv (n + k) - pv n) by ring, abs_neg]; exact ee

/-- subtracting one from the bits of a double -/
theorem bits_down {r : ℕ} (hr : binary64.Finite r) (h1 : (2 : ℝ) ^ (-1000 : ℤ) ≤ |binary64.val r|) :
    binary64.Finite (r - 1) ∧ |binary64.val (r - 1) - binary64.val r| ≤ 1 / 2 ^ 51 * |binary64.val r| := by
  obtain ⟨n, σ, hn, fn, hc, v, av⟩ := bits_cases hr
  rw [av] at h1 ⊢
  have hb : 2 ^ 52 < n := by
    rw [← pv_lt, pv_min]
    exact lt_of_lt_of_le (two_zpow_lt (by norm_num)) h1
  obtain ⟨k, rfl⟩ : ∃ k, n = k + 1 := ⟨n - 1, by omega⟩
  have g := pv_succ_le (n := k) (by omega)
  have g2 : pv k ≤ pv (k + 1) := pv_le.2 (by omega)
  have p0 := pv_nonneg k
  have hi : k + 1 < binary64.infMag := by have := ((binary64.finite_iff _).1 fn).2; rwa [(pv_val hn).2.2] at this
  have i3 : binary64.Finite k := (binary64.finite_iff _).2 ⟨lt_of_lt_of_le (by omega : k < 2 ^ 63) (by decide +kernel), by rw [(pv_val (by omega)).2.2]; omega⟩
  have ee : |pv k - pv (k + 1)| ≤ 1 / 2 ^ 51 * pv (k + 1) := by rw [abs_sub_comm, abs_of_nonneg (by linarith)]; linarith
  rcases hc with ⟨rfl, rfl⟩ | ⟨rfl, rfl⟩
  · rw [Nat.add_sub_cancel]
    refine ⟨i3, ?_⟩
    rw [(pv_val (by omega)).1, v, one_mul]; exact ee
  · rw [show 2 ^ 63 + (k + 1) - 1 = 2 ^ 63 + k by omega]
    obtain ⟨j1, j2⟩ := neg_bits i3 (by omega)
    refine ⟨j1, ?_⟩
    rw [j2, v, (pv_val (by omega)).1, show -pv k - -1 * pv (k + 1) = -(pv k - pv (k + 1)) by ring, abs_neg]; exact ee

/-- the sum of the pair, rounded to odd -/
theorem powfRoundOdd_spec (m : Mode) {rr : CC.Pair} (f1 : binary64.Finite rr.hi) (f2 : binary64.Finite rr.lo) (h1 : (2 : ℝ) ^ (-900 : ℤ) ≤ |pairV rr|) (h2 : |pairV rr| ≤ 2 ^ (900 : ℤ)) :
    binary64.Finite (CC.powfRoundOdd m rr) ∧ |binary64.val (CC.powfRoundOdd m rr) - pairV rr| ≤ 1 / 2 ^ 50 * |pairV rr| := by
  have R := hadd_spec binary64 m f1 f2
  rw [show binary64.val rr.hi + binary64.val rr.lo = pairV rr from rfl] at R
  have w1 : (2 : ℝ) * 2 ^ (-1000 : ℤ) ≤ 2 ^ (-900 : ℤ) := by rw [← two_zpow_succ]; exact two_zpow_le (by norm_num)
  have w2 : (2 : ℝ) * 2 ^ (900 : ℤ) ≤ 2 ^ (1000 : ℤ) := by rw [← two_zpow_succ]; exact two_zpow_le (by norm_num)
  have w3 := two_zpow_pos (-1000)
  have w4 := two_zpow_pos 900
  obtain ⟨f, e⟩ := rnd_rel1000 R ((two_zpow_le (by norm_num)).trans h1) (h2.trans (two_zpow_le (by norm_num)))
  have hr : (CC.exactAdd binary64 m rr.hi rr.lo).hi = binary64.hadd m rr.hi rr.lo := rfl
  unfold CC.powfRoundOdd
  simp only [hr]
  set b := binary64.hadd m rr.hi rr.lo
  set V := pairV rr
  have V0 := abs_nonneg V
  have ab := abs_sub_abs_le_abs_sub (binary64.val b) V
  have ba := abs_sub_abs_le_abs_sub V (binary64.val b)
  rw [abs_sub_comm V] at ba
  have k1 : |binary64.val b| ≤ 2 * |V| := by linarith
  have k2 : 1 / 2 * |V| ≤ |binary64.val b| := by linarith
  have k3 : |binary64.val b| ≤ (1 + 1 / 2 ^ 52) * |V| := by linarith
  have E1 : (2 : ℝ) ^ (-1000 : ℤ) ≤ |binary64.val b| := by clear k3 e ab ba w2 w4 h2; linarith
  have E2 : |binary64.val b| ≤ (2 : ℝ) ^ (1000 : ℤ) := k1.trans ((mul_le_mul_of_nonneg_left h2 (by norm_num)).trans w2)
  have fin : ∀ {c : ℕ}, |binary64.val c - binary64.val b| ≤ 1 / 2 ^ 51 * |binary64.val b| → |binary64.val c - V| ≤ 1 / 2 ^ 50 * |V| := by
    intro c hc
    clear E1 E2 h1 h2 w1 w2 w3 w4
    rw [show binary64.val c - V = (binary64.val c - binary64.val b) + (binary64.val b - V) by ring]
    refine (abs_add_le' hc e).trans ?_
    linarith
  split_ifs
  · obtain ⟨g1, g2⟩ := bits_up (k := 1) f E1 E2 (by norm_num)
    exact ⟨g1, fin (by rw [Nat.cast_one] at g2; exact g2)⟩
  · obtain ⟨g1, g2⟩ := bits_down f E1
    exact ⟨g1, fin g2⟩
  all_goals exact ⟨f, fin (c := b) (by rw [sub_self, abs_zero]; exact mul_nonneg (by norm_num) (abs_nonneg _))⟩

theorem powf_exp_range {n : ℤ} (h : |n| ≤ 32001) : (2 : ℝ) ^ (-510 : ℤ) ≤ exp (n * (log 2 / 64)) ∧ exp (n * (log 2 / 64)) ≤ 2 ^ (510 : ℤ) := by
  have l2 := log2_lo
  have e : ∀ k : ℤ, (2 : ℝ) ^ k = exp (k * log 2) := fun k => by rw [mul_comm, ← Real.rpow_def_of_pos (by norm_num), Real.rpow_intCast]
  obtain ⟨a, b⟩ := abs_le.1 h
  have a' : (-32001 : ℝ) ≤ n := by exact_mod_cast a
  have b' : (n : ℝ) ≤ 32001 := by exact_mod_cast b
  rw [e, e, exp_le_exp, exp_le_exp]
  push_cast
  constructor <;> nlinarith

/-- the result of the fast path -/
theorem powfFastR (fused : Bool) (m : Mode) {lo6 eh : ℕ} {n : ℤ} {T σ : ℝ} (fl : binary64.Finite lo6) (hn : |n| ≤ 32001) (e1 : |binary64.val lo6 - (T - n)| ≤ 1 / 2 ^ 39 * |T| + 1 / 2 ^ 49)
    (hTb : |T| ≤ 32000) (hTn : |T - n| ≤ 1 / 2 + 1 / 2 ^ 20) (fe : binary64.Finite eh) (hσ : |σ| = 1) (hE : |binary64.val eh - σ * exp (n * (log 2 / 64))| ≤ 1 / 2 ^ 48 * exp (n * (log 2 / 64))) :
    binary64.Finite (binary64.hmul m (CC.powfExpPoly fused m lo6) eh) ∧
      |binary64.val (binary64.hmul m (CC.powfExpPoly fused m lo6) eh) - σ * exp (T * (log 2 / 64))| ≤ (1 / 2 ^ 45 * |T| + 1 / 2 ^ 46) * exp (T * (log 2 / 64)) := by
  have l2 := log2_lo
  obtain ⟨G1, G2⟩ := powf_exp_range hn
  have T0 := abs_nonneg T
  have c0 : 0 < log 2 / 64 := by linarith
  have c1 : log 2 / 64 ≤ 1 / 92 := by linarith
  have W : exp (T * (log 2 / 64)) = exp (n * (log 2 / 64)) * exp ((T - n) * (log 2 / 64)) := by rw [← exp_add]; congr 1; ring
  have hU := exp_near_one (hTn.trans (by norm_num))
  rw [W]
  have b1 := abs_le.1 e1
  have b2 := abs_le.1 hTn
  have hl : |binary64.val lo6| ≤ 9 / 16 := by rw [abs_le]; constructor <;> linarith
  obtain ⟨fp, -, ep⟩ := powfExpPoly_err fused m fl (hl.trans (by norm_num))
  replace ep := ep hl
  have hd : |binary64.val lo6 * (log 2 / 64) - (T - n) * (log 2 / 64)| ≤ (1 / 2 ^ 39 * |T| + 1 / 2 ^ 49) * (1 / 92) := by
    rw [← sub_mul, abs_mul, abs_of_pos c0]
    exact mul_le_mul e1 c1 c0.le (by positivity)
  have pe := exp_perturb20 hd (by linarith)
  set G := exp (n * (log 2 / 64))
  set U := exp ((T - n) * (log 2 / 64))
  set P := binary64.val (CC.powfExpPoly fused m lo6)
  set H := binary64.val eh
  have G0 : 0 < G := exp_pos _
  have bU := abs_le.1 hU
  have ePU : |P - U| ≤ (1 / 2 ^ 39 * |T|) * (11 / 1000) * U + 1 / 2 ^ 48 := by
    rw [show P - U = (P - exp (binary64.val lo6 * (log 2 / 64))) + (exp (binary64.val lo6 * (log 2 / 64)) - U) by ring]
    refine (abs_add_le' ep pe).trans ?_
    have h1 : (1 + 1 / 2 ^ 19) * ((1 / 2 ^ 39 * |T| + 1 / 2 ^ 49) * (1 / 92)) ≤ 1 / 2 ^ 39 * |T| * (11 / 1000) + 1 / 2 ^ 50 := by linarith
    have h2 := mul_le_mul_of_nonneg_right h1 (by linarith : 0 ≤ U)
    linarith
  have hP : |P| ≤ 103 / 100 := by
    rw [show P = (P - U) + U by ring]
    have h3 : (1 / 2 ^ 39 * |T|) * (11 / 1000) * U ≤ 1 / 2 ^ 20 := by nlinarith
    refine (abs_add_le' ePU (le_of_eq (abs_of_pos (by linarith)))).trans ?_
    linarith
  have ev : |P * H - σ * (G * U)| ≤ (1 / 2 ^ 39 * |T| * (11 / 1000) + 1 / 2 ^ 47 + 1 / 2 ^ 50) * (G * U) := by
    rw [show P * H - σ * (G * U) = P * (H - σ * G) + σ * G * (P - U) by ring]
    have h1 : |P * (H - σ * G)| ≤ 103 / 100 * (1 / 2 ^ 48 * G) := by rw [abs_mul]; exact mul_le_mul hP hE (abs_nonneg _) (by norm_num)
    have h2 : |σ * G * (P - U)| ≤ G * ((1 / 2 ^ 39 * |T|) * (11 / 1000) * U + 1 / 2 ^ 48) := by
      rw [abs_mul, abs_mul, hσ, one_mul, abs_of_pos G0]
      exact mul_le_mul_of_nonneg_left ePU G0.le
    refine (abs_add_le' h1 h2).trans ?_
    have h3 : G * (99 / 100) ≤ G * U := mul_le_mul_of_nonneg_left (by linarith) G0.le
    have h4 : G * ((1 / 2 ^ 39 * |T|) * (11 / 1000) * U) = 1 / 2 ^ 39 * |T| * (11 / 1000) * (G * U) := by ring
    rw [mul_add, h4]
    linarith
  have aGU : |σ * (G * U)| = G * U := by rw [abs_mul, hσ, one_mul, abs_of_pos (mul_pos G0 (by linarith))]
  have GU1 : G * (99 / 100) ≤ G * U := mul_le_mul_of_nonneg_left (by linarith) G0.le
  have GU2 : G * U ≤ G * (101 / 100) := mul_le_mul_of_nonneg_left (by linarith) G0.le
  have sm : (1 / 2 ^ 39 * |T| * (11 / 1000) + 1 / 2 ^ 47 + 1 / 2 ^ 50 : ℝ) ≤ 1 / 100 := by linarith
  have ev' : |P * H - σ * (G * U)| ≤ 1 / 100 * (G * U) := ev.trans (mul_le_mul_of_nonneg_right sm (by linarith))
  have x1 := abs_sub_abs_le_abs_sub (P * H) (σ * (G * U))
  have x2 := abs_sub_abs_le_abs_sub (σ * (G * U)) (P * H)
  rw [abs_sub_comm (σ * (G * U))] at x2
  rw [aGU] at x1 x2
  have w1 : (2 : ℝ) * 2 ^ (-1000 : ℤ) ≤ 2 ^ (-510 : ℤ) := by rw [← two_zpow_succ]; exact two_zpow_le (by norm_num)
  have w2 : (2 : ℝ) * 2 ^ (510 : ℤ) ≤ 2 ^ (1000 : ℤ) := by rw [← two_zpow_succ]; exact two_zpow_le (by norm_num)
  have y1 : (2 : ℝ) ^ (-1000 : ℤ) ≤ |P * H| := by
    have h0 : 1 / 2 * G ≤ |P * H| := by clear G1 G2 w1 w2; linarith
    have h1 := mul_le_mul_of_nonneg_left (w1.trans G1) (by norm_num : (0 : ℝ) ≤ 1 / 2)
    rw [← mul_assoc, show (1 / 2 * 2 : ℝ) = 1 by norm_num, one_mul] at h1
    exact h1.trans h0
  have y2 : |P * H| ≤ (2 : ℝ) ^ (1000 : ℤ) := by
    have h0 : |P * H| ≤ 2 * G := by clear G1 G2 w1 w2; linarith
    exact h0.trans ((mul_le_mul_of_nonneg_left G2 (by norm_num)).trans w2)
  obtain ⟨f, e⟩ := rnd_rel1000 (hmul_spec binary64 m fp fe) y1 y2
  refine ⟨f, ?_⟩
  rw [show binary64.val (binary64.hmul m (CC.powfExpPoly fused m lo6) eh) - σ * (G * U) = (binary64.val (binary64.hmul m (CC.powfExpPoly fused m lo6) eh) - P * H) + (P * H - σ * (G * U)) by ring]
  refine (abs_add_le' e ev).trans ?_
  clear G1 G2 w1 w2 ev e hE e1
  have h5 : |T| * (G * U) ≥ 0 := mul_nonneg T0 (by linarith)
  rw [add_mul, add_mul, add_mul, show 1 / 2 ^ 39 * |T| * (11 / 1000) * (G * U) = 1 / 2 ^ 39 * (11 / 1000) * (|T| * (G * U)) by ring, show 1 / 2 ^ 45 * |T| * (G * U) = 1 / 2 ^ 45 * (|T| * (G * U)) by ring]
  linarith

end Verif
