import Verif.Lemmas.PowK11
import Verif.Lemmas.SinCosF4
import Verif.Lemmas.LogRedF
import Verif.Model.PowF

/-!
# The tables and polynomials of the float pow kernel
-/

namespace Verif
open Fmt Real

/-- what is checked of row `i` of the tables `R` and `LOG2_R` -/
def powfRowOk (i : ℕ) : Bool :=
  decide (binary32.Finite (CC.powfR.getD i 0)) && decide (binary64.hcvt binary32 .nearest (CC.powfR.getD i 0) = CC.powRD.getD i 0) &&
    intsOk 160 (CC.powfLog2R.getD i 0) && intsOk 160 (CC.powLogHi.getD i 0) && intsOk 160 (CC.powLogMid.getD i 0) &&
    decide ((ints 160 (CC.powfLog2R.getD i 0) - (ints 160 (CC.powLogHi.getD i 0) + ints 160 (CC.powLogMid.getD i 0))).natAbs ≤ 2 ^ 110) &&
    decide (CC.powfR[i]? = some (CC.powfR.getD i 0)) && decide (CC.powfLog2R[i]? = some (CC.powfLog2R.getD i 0))

theorem powfRow_ok : ∀ i < 128, powfRowOk i = true := by decide +kernel

theorem powfRow_spec {i : ℕ} (hi : i < 128) :
    binary32.Finite (CC.powfR.getD i 0) ∧ binary32.val (CC.powfR.getD i 0) = binary64.val (CC.powRD.getD i 0) ∧ binary64.Finite (CC.powfLog2R.getD i 0) ∧
      |binary64.val (CC.powfLog2R.getD i 0) - (binary64.val (CC.powLogHi.getD i 0) + binary64.val (CC.powLogMid.getD i 0))| ≤ 1 / 2 ^ 50 ∧
      CC.powfR[i]? = some (CC.powfR.getD i 0) ∧ CC.powfLog2R[i]? = some (CC.powfLog2R.getD i 0) := by
  have h := powfRow_ok i hi
  simp only [powfRowOk, Bool.and_eq_true, decide_eq_true_eq] at h
  obtain ⟨⟨⟨⟨⟨⟨⟨h1, h2⟩, h3⟩, h4⟩, h5⟩, h6⟩, h7⟩, h8⟩ := h
  have f1 : binary32.Finite (CC.powfR.getD i 0) := h1
  obtain ⟨f3, v3⟩ := intsOk_spec h3
  obtain ⟨f4, v4⟩ := intsOk_spec h4
  obtain ⟨f5, v5⟩ := intsOk_spec h5
  refine ⟨f1, ?_, f3, ?_, h7, h8⟩
  · rw [← (cvt_up .nearest f1).2, h2]
  · rw [v3, v4, v5, ← add_div, ← sub_div, abs_div, abs_of_pos (show (0 : ℝ) < 2 ^ 160 by positivity), div_le_iff₀ (by positivity)]
    have := natAbs_le_real h6
    push_cast at this
    refine this.trans (by norm_num)

theorem powfTab0 : CC.powfLog2R.getD 0 0 = 0 ∧ CC.powfLog2R.getD 127 0 = CC.one64 := by decide +kernel

/-- coefficient `k` of the logarithm -/
def flc (k : ℕ) : CC.Pair := { hi := CC.powfLogC.getD k 0, lo := 0 }
/-- coefficient `k` of the exponential -/
def fec (k : ℕ) : CC.Pair := { hi := CC.powExpC.getD k 0, lo := 0 }

def flcOk (k b : ℕ) : Bool :=
  decide ((2 ^ b * ((ints 240 (flc k).hi + ints 240 (flc k).lo) * (k + 1) * ln2N - (-1) ^ k * 2 ^ 400)).natAbs ≤ 2 ^ 400)

theorem flc_fin : coefOk (flc 0) (2 ^ 240) (3 * 2 ^ 239) = true ∧ coefOk (flc 1) (2 ^ 239) (2 ^ 240) = true ∧ coefOk (flc 2) (2 ^ 238) (2 ^ 239) = true ∧
    coefOk (flc 3) (2 ^ 238) (2 ^ 239) = true ∧ coefOk (flc 4) (2 ^ 238) (2 ^ 239) = true ∧ coefOk (flc 5) (2 ^ 237) (2 ^ 239) = true := by decide +kernel

theorem flc_ok : flcOk 0 52 = true ∧ flcOk 1 40 = true ∧ flcOk 2 31 = true ∧ flcOk 3 21 = true ∧ flcOk 4 13 = true ∧ flcOk 5 6 = true := by decide +kernel

theorem flc_near {k b : ℕ} {lo hi : ℕ} (h1 : flcOk k b = true) (h2 : coefOk (flc k) lo hi = true) (hk : k < 6) (hh : hi ≤ 2 ^ 241) :
    |pairV (flc k) * (k + 1) * log 2 - (-1) ^ k| ≤ 1 / 2 ^ b + 1 / 2 ^ 140 := by
  obtain ⟨f1, f2, b1, b2, b3, e⟩ := coefOk_spec h2
  have bp : |pairV (flc k)| ≤ 4 := by
    unfold pairV
    have hh' : (hi : ℝ) / 2 ^ 240 ≤ 2 := by
      rw [div_le_iff₀ (by positivity)]
      have : (hi : ℝ) ≤ 2 ^ 241 := by exact_mod_cast hh
      norm_num at this ⊢; linarith
    refine (abs_add_le' b1 b3).trans ?_
    norm_num at hh' ⊢; linarith
  simp only [flcOk, decide_eq_true_eq] at h1
  have r := natAbs_le_real h1
  rw [e] at *
  generalize ints 240 (flc k).hi + ints 240 (flc k).lo = N at *
  have hn := ln2N_near
  push_cast at r
  have e1 : (N : ℝ) / 2 ^ 240 * (k + 1) * (ln2N / 2 ^ 160) - (-1) ^ k = (2 ^ b * ((N : ℝ) * (k + 1) * ln2N - (-1) ^ k * 2 ^ 400)) / 2 ^ 400 / 2 ^ b := by
    rw [show (2 : ℝ) ^ 400 = 2 ^ 240 * 2 ^ 160 by rw [← pow_add]]
    field_simp
  have e2 : |(N : ℝ) / 2 ^ 240 * (k + 1) * (ln2N / 2 ^ 160) - (-1) ^ k| ≤ 1 / 2 ^ b := by
    rw [e1, abs_div, abs_div, abs_of_pos (show (0 : ℝ) < 2 ^ b by positivity), abs_of_pos (show (0 : ℝ) < 2 ^ 400 by positivity)]
    refine div_le_div_of_nonneg_right ?_ (by positivity)
    rw [div_le_one (by positivity)]
    exact r
  rw [show (N : ℝ) / 2 ^ 240 * (k + 1) * log 2 - (-1) ^ k = ((N : ℝ) / 2 ^ 240 * (k + 1) * (ln2N / 2 ^ 160) - (-1) ^ k) + ((N : ℝ) / 2 ^ 240 * (k + 1)) * (log 2 - ln2N / 2 ^ 160) by ring]
  refine abs_add_le' e2 ?_
  have hk' : |((k : ℝ) + 1)| ≤ 6 := by
    rw [abs_of_nonneg (by positivity)]
    have : (k : ℝ) ≤ 5 := by exact_mod_cast Nat.lt_succ_iff.1 hk
    linarith
  exact (abs_mul_le (abs_mul_le bp hk') hn).trans (by norm_num)

theorem pairV_zero (c : ℕ) : pairV { hi := c, lo := 0 } = binary64.val c := by unfold pairV; rw [val64_zero, add_zero]

/-- the logarithm polynomial -/
noncomputable def flPoly (t : ℝ) : ℝ := pairV (flc 0) + t * (pairV (flc 1) + t * (pairV (flc 2) + t * (pairV (flc 3) + t * (pairV (flc 4) + t * pairV (flc 5)))))

theorem flPoly_near {t : ℝ} (ht : |t| ≤ 1 / 2 ^ 7) : |t * flPoly t * log 2 - log (1 + t)| ≤ 31 / 50 / 2 ^ 41 * |t| := by
  have n0 := flc_near flc_ok.1 flc_fin.1 (by norm_num) (by norm_num)
  have n1 := flc_near flc_ok.2.1 flc_fin.2.1 (by norm_num) (by norm_num)
  have n2 := flc_near flc_ok.2.2.1 flc_fin.2.2.1 (by norm_num) (by norm_num)
  have n3 := flc_near flc_ok.2.2.2.1 flc_fin.2.2.2.1 (by norm_num) (by norm_num)
  have n4 := flc_near flc_ok.2.2.2.2.1 flc_fin.2.2.2.2.1 (by norm_num) (by norm_num)
  have n5 := flc_near flc_ok.2.2.2.2.2 flc_fin.2.2.2.2.2 (by norm_num) (by norm_num)
  have ta : |-t| < 1 := by rw [abs_neg]; linarith
  have T := abs_log_sub_add_sum_range_le ta 7
  rw [abs_neg, sub_neg_eq_add] at T
  simp only [Finset.sum_range_succ, Finset.sum_range_zero] at T
  norm_num at T n0 n1 n2 n3 n4 n5
  have t0 := abs_nonneg t
  have pw : ∀ n : ℕ, |t ^ n| ≤ (1 / 2 ^ 7) ^ n := fun n => by rw [abs_pow]; exact pow_le_pow_left₀ t0 ht n
  have tail : |t| ^ 8 / (1 - |t|) ≤ |t| * (1 / 2 ^ 48) := by
    rw [div_le_iff₀ (by linarith)]
    have h6 : |t| ^ 7 ≤ (1 / 2 ^ 7) ^ 7 := pow_le_pow_left₀ t0 ht 7
    calc |t| ^ 8 = |t| * |t| ^ 7 := by ring
      _ ≤ |t| * (1 / 2 ^ 7) ^ 7 := mul_le_mul_of_nonneg_left h6 t0
      _ ≤ |t| * (1 / 2 ^ 48 * (1 - 1 / 2 ^ 7)) := mul_le_mul_of_nonneg_left (by norm_num) t0
      _ ≤ |t| * (1 / 2 ^ 48 * (1 - |t|)) := mul_le_mul_of_nonneg_left (mul_le_mul_of_nonneg_left (by linarith) (by norm_num)) t0
      _ = _ := by ring
  unfold flPoly
  have id : t * (pairV (flc 0) + t * (pairV (flc 1) + t * (pairV (flc 2) + t * (pairV (flc 3) + t * (pairV (flc 4) + t * pairV (flc 5)))))) * log 2 - log (1 + t) =
      t * ((pairV (flc 0) * log 2 - 1) + t ^ 1 * (1 / 2) * (pairV (flc 1) * 2 * log 2 + 1) + t ^ 2 * (1 / 3) * (pairV (flc 2) * 3 * log 2 - 1) + t ^ 3 * (1 / 4) * (pairV (flc 3) * 4 * log 2 + 1) +
        t ^ 4 * (1 / 5) * (pairV (flc 4) * 5 * log 2 - 1) + t ^ 5 * (1 / 6) * (pairV (flc 5) * 6 * log 2 + 1) + -(t ^ 6 * (1 / 7))) +
      -(-t + t ^ 2 / 2 + (-t) ^ 3 / 3 + (-t) ^ 4 / 4 + (-t) ^ 5 / 5 + (-t) ^ 6 / 6 + (-t) ^ 7 / 7 + log (1 + t)) := by ring
  rw [id]
  have s1 : |t ^ 1 * (1 / 2) * (pairV (flc 1) * 2 * log 2 + 1)| ≤ (1 / 2 ^ 7) ^ 1 * (1 / 2) * _ := abs_mul_le (abs_mul_le (pw 1) (by norm_num)) n1
  have s2 : |t ^ 2 * (1 / 3) * (pairV (flc 2) * 3 * log 2 - 1)| ≤ (1 / 2 ^ 7) ^ 2 * (1 / 3) * _ := abs_mul_le (abs_mul_le (pw 2) (by rw [abs_of_pos] <;> norm_num)) n2
  have s3 : |t ^ 3 * (1 / 4) * (pairV (flc 3) * 4 * log 2 + 1)| ≤ (1 / 2 ^ 7) ^ 3 * (1 / 4) * _ := abs_mul_le (abs_mul_le (pw 3) (by rw [abs_of_pos] <;> norm_num)) n3
  have s4 : |t ^ 4 * (1 / 5) * (pairV (flc 4) * 5 * log 2 - 1)| ≤ (1 / 2 ^ 7) ^ 4 * (1 / 5) * _ := abs_mul_le (abs_mul_le (pw 4) (by rw [abs_of_pos] <;> norm_num)) n4
  have s5 : |t ^ 5 * (1 / 6) * (pairV (flc 5) * 6 * log 2 + 1)| ≤ (1 / 2 ^ 7) ^ 5 * (1 / 6) * _ := abs_mul_le (abs_mul_le (pw 5) (by rw [abs_of_pos] <;> norm_num)) n5
  have s6 : |-(t ^ 6 * (1 / 7))| ≤ (1 / 2 ^ 7) ^ 6 * (1 / 7) := by rw [abs_neg]; exact abs_mul_le (pw 6) (by rw [abs_of_pos] <;> norm_num)
  refine (abs_add_le' (abs_mul_le le_rfl (abs_add_le' (abs_add_le' (abs_add_le' (abs_add_le' (abs_add_le' (abs_add_le' n0 s1) s2) s3) s4) s5) s6)) ((abs_neg _).trans_le (T.trans tail))).trans ?_
  rw [← mul_add, mul_comm]
  refine mul_le_mul_of_nonneg_right ?_ t0
  norm_num

/-- the exponential polynomial -/
noncomputable def fePoly (t : ℝ) : ℝ := pairV (fec 0) + t * (pairV (fec 1) + t * (pairV (fec 2) + t * (pairV (fec 3) + t * (pairV (fec 4) + t * pairV (fec 5)))))

/-- coefficient `k` is within `2^-b` of that of the long polynomial -/
def fecOk (k b : ℕ) : Bool := decide ((2 ^ b * ((ints 240 (fec k).hi + ints 240 (fec k).lo) - (ints 240 (ec k).hi + ints 240 (ec k).lo))).natAbs ≤ 2 ^ 240)

theorem fec_ok : fecOk 0 100 = true ∧ fecOk 1 60 = true ∧ fecOk 2 53 = true ∧ fecOk 3 55 = true ∧ fecOk 4 50 = true ∧ fecOk 5 55 = true := by decide +kernel
theorem fec_fin : coefOk (fec 0) (2 ^ 240) (2 ^ 240) = true ∧ coefOk (fec 1) (2 ^ 233) (2 ^ 234) = true ∧ coefOk (fec 2) (2 ^ 225) (2 ^ 226) = true ∧
    coefOk (fec 3) (2 ^ 217) (2 ^ 218) = true ∧ coefOk (fec 4) (2 ^ 209) (2 ^ 210) = true ∧ coefOk (fec 5) (2 ^ 200) (2 ^ 201) = true := by decide +kernel

theorem fec_near {k b lo hi lo' hi' : ℕ} (h : fecOk k b = true) (h1 : coefOk (fec k) lo hi = true) (h2 : coefOk (ec k) lo' hi' = true) : |pairV (fec k) - pairV (ec k)| ≤ 1 / 2 ^ b := by
  obtain ⟨-, -, -, -, -, e1⟩ := coefOk_spec h1
  obtain ⟨-, -, -, -, -, e2⟩ := coefOk_spec h2
  simp only [fecOk, decide_eq_true_eq] at h
  have r := natAbs_le_real h
  rw [e1, e2, ← sub_div, ← Int.cast_sub]
  generalize (ints 240 (fec k).hi + ints 240 (fec k).lo) - (ints 240 (ec k).hi + ints 240 (ec k).lo) = N at *
  rw [abs_div, abs_of_pos (show (0 : ℝ) < 2 ^ 240 by positivity), div_le_div_iff₀ (by positivity) (by positivity), one_mul]
  push_cast at r
  rw [abs_mul, abs_of_pos (show (0 : ℝ) < 2 ^ b by positivity)] at r
  rw [mul_comm]; refine r.trans (by norm_num)

theorem fePoly_near {t : ℝ} (ht : |t| ≤ 9 / 16) : |fePoly t - exp (t * (log 2 / 64))| ≤ 1 / 2 ^ 51 := by
  obtain ⟨c0, c1, c2, c3, c4, c5, c6, c7, c8, c9⟩ := ec_fin
  obtain ⟨d0, d1, d2, d3, d4, d5⟩ := fec_fin
  obtain ⟨k0, k1, k2, k3, k4, k5⟩ := fec_ok
  have n0 := fec_near k0 d0 c0
  have n1 := fec_near k1 d1 c1
  have n2 := fec_near k2 d2 c2
  have n3 := fec_near k3 d3 c3
  have n4 := fec_near k4 d4 c4
  have n5 := fec_near k5 d5 c5
  have pv : ∀ {q : CC.Pair} {lo hi : ℕ}, coefOk q lo hi = true → |pairV q| ≤ (1 + 1 / 2 ^ 48) * (hi / 2 ^ 240) := by
    intro q lo hi h
    obtain ⟨-, -, b1, -, b3, -⟩ := coefOk_spec h
    unfold pairV
    refine (abs_add_le' b1 b3).trans (by linarith)
  have n6 := pv c6
  have n7 := pv c7
  have n8 := pv c8
  have n9 := pv c9
  have T := ecPoly_near ht
  have t0 := abs_nonneg t
  clear c0 c1 c2 c3 c4 c5 c6 c7 c8 c9 d0 d1 d2 d3 d4 d5 k0 k1 k2 k3 k4 k5 pv
  have pw : ∀ n : ℕ, |t ^ n| ≤ (9 / 16) ^ n := fun n => by rw [abs_pow]; exact pow_le_pow_left₀ t0 ht n
  have s := fun {n : ℕ} {a B : ℝ} (h : |a| ≤ B) => abs_mul_le (pw n) h
  have s' := fun {n : ℕ} {a B : ℝ} (h : |a| ≤ B) => (abs_neg _).trans_le (abs_mul_le (pw n) h)
  have id : fePoly t - exp (t * (log 2 / 64)) =
      t ^ 0 * (pairV (fec 0) - pairV (ec 0)) + t ^ 1 * (pairV (fec 1) - pairV (ec 1)) + t ^ 2 * (pairV (fec 2) - pairV (ec 2)) + t ^ 3 * (pairV (fec 3) - pairV (ec 3)) +
      t ^ 4 * (pairV (fec 4) - pairV (ec 4)) + t ^ 5 * (pairV (fec 5) - pairV (ec 5)) + -(t ^ 6 * pairV (ec 6)) + -(t ^ 7 * pairV (ec 7)) + -(t ^ 8 * pairV (ec 8)) + -(t ^ 9 * pairV (ec 9)) +
      (ecPoly t - exp (t * (log 2 / 64))) := by
    unfold fePoly ecPoly; ring
  rw [id]
  refine (abs_add_le' (abs_add_le' (abs_add_le' (abs_add_le' (abs_add_le' (abs_add_le' (abs_add_le' (abs_add_le' (abs_add_le' (abs_add_le' (s n0) (s n1)) (s n2)) (s n3)) (s n4)) (s n5)) (s' n6)) (s' n7)) (s' n8)) (s' n9)) T).trans ?_
  norm_num

/-- a fused or unfused multiply-add -/
theorem ma_lin (fused : Bool) (m : Mode) {x y z : ℕ} (hx : binary64.Finite x) (hy : binary64.Finite y) (hz : binary64.Finite z) {P Q : ℝ} (h1 : |binary64.val x * binary64.val y| ≤ P)
    (h2 : |binary64.val z| ≤ Q) (hP : P ≤ 2 ^ 99) (hQ : Q ≤ 2 ^ 99) : binary64.Finite (CC.multiplyAdd binary64 fused m x y z) ∧
      |binary64.val (CC.multiplyAdd binary64 fused m x y z) - (binary64.val x * binary64.val y + binary64.val z)| ≤ 1001 / 1000 / 2 ^ 51 * P + 1 / 2 ^ 52 * Q + 1 / 2 ^ 198 := by
  obtain ⟨f, e⟩ := ma64_err fused m hx hy hz (h1.trans (hP.trans (by norm_num))) (h2.trans (hQ.trans (by norm_num)))
  refine ⟨f, e.trans ?_⟩
  have h3 := abs_add_le' h1 h2
  have P0 := (abs_nonneg _).trans h1
  have Q0 := (abs_nonneg _).trans h2
  have r1 := mul_le_mul (ru_le m) h3 (abs_nonneg _) (by norm_num)
  have r2 := mul_le_mul (ru_le m) h1 (abs_nonneg _) (by norm_num)
  have he : 3 * eta ≤ 1 / 2 ^ 198 := by have := eta_le; norm_num at this ⊢; linarith
  generalize |binary64.val x * binary64.val y| = a at *
  generalize |binary64.val x * binary64.val y + binary64.val z| = b at *
  have r3 : (1 + 1 / 2 ^ 50) * ru m * a ≤ (1 + 1 / 2 ^ 50) * (1 / 2 ^ 52 * P) := by rw [mul_assoc]; exact mul_le_mul_of_nonneg_left r2 (by norm_num)
  generalize ru m * b = A at *
  generalize (1 + 1 / 2 ^ 50) * ru m * a = B at *
  generalize 3 * eta = C at *
  clear r2
  norm_num at *
  linarith

/-- Estrin evaluation of a polynomial of degree five -/
theorem estrin6 (fused : Bool) (m : Mode) {d c0 c1 c2 c3 c4 c5 : ℕ} (fd : binary64.Finite d) (f0 : binary64.Finite c0) (f1 : binary64.Finite c1) (f2 : binary64.Finite c2) (f3 : binary64.Finite c3)
    (f4 : binary64.Finite c4) (f5 : binary64.Finite c5) {X B : ℝ} (hd : |binary64.val d| ≤ X) (hX : X ≤ 1) (b0 : |binary64.val c0| ≤ 3 / 2) (b1 : |binary64.val d * binary64.val c1| ≤ 1 / 64)
    (b2 : |binary64.val c2| ≤ B) (b3 : |binary64.val c3| ≤ B) (b4 : |binary64.val c4| ≤ B) (b5 : |binary64.val c5| ≤ B) (hB : X ^ 2 * B ≤ 1 / 2 ^ 14) (hB2 : 1 / 2 ^ 20 ≤ B) (hB1 : B ≤ 1) :
    let ma := CC.multiplyAdd binary64 fused m
    let d2 := binary64.hmul m d d
    let p := ma d2 (ma d2 (ma d c5 c4) (ma d c3 c2)) (ma d c1 c0)
    binary64.Finite p ∧ |binary64.val p - (binary64.val c0 + binary64.val d * (binary64.val c1 + binary64.val d * (binary64.val c2 + binary64.val d * (binary64.val c3 + binary64.val d * (binary64.val c4 + binary64.val d * binary64.val c5)))))| ≤ 1 / 2 ^ 50 := by
  intro ma d2 p
  have X0 : 0 ≤ X := (abs_nonneg _).trans hd
  have B0 : 0 ≤ B := by linarith
  have cB : ∀ {c : ℕ}, |binary64.val c| ≤ B → |binary64.val d * binary64.val c| ≤ B := fun h => (abs_mul_le (hd.trans hX) h).trans (by rw [one_mul])
  obtain ⟨g1, e1⟩ := ma_lin fused m fd f5 f4 (cB b5) b4 (by linarith) (by linarith)
  obtain ⟨g2, e2⟩ := ma_lin fused m fd f3 f2 (cB b3) b2 (by linarith) (by linarith)
  obtain ⟨g3, e3⟩ := ma_lin fused m fd f1 f0 b1 b0 (by norm_num) (by norm_num)
  have hsq : |binary64.val d * binary64.val d| ≤ X * X := abs_mul_le hd hd
  have XX : X * X ≤ 1 := by nlinarith
  obtain ⟨g4, e4⟩ := mul64_err m fd fd (hsq.trans (XX.trans (by norm_num)))
  have e4' : |binary64.val d2 - binary64.val d * binary64.val d| ≤ 1 / 2 ^ 52 * (X * X) + 1 / 2 ^ 200 := by
    refine e4.trans (add_le_add (mul_le_mul (ru_le m) hsq (abs_nonneg _) (by norm_num)) ?_)
    have := eta_le; norm_num at this ⊢; linarith
  have bd2 : |binary64.val d2| ≤ (1 + 1 / 2 ^ 52) * (X * X) + 1 / 2 ^ 200 := by
    have := abs_near e4' hsq; linarith
  have bd2' : |binary64.val d2| ≤ 2 := bd2.trans (by norm_num; linarith)
  have b54 : |binary64.val (ma d c5 c4)| ≤ 3 * B := by
    have := abs_near e1 (abs_add_le' (cB b5) b4); refine this.trans ?_
    norm_num at hB2 ⊢; linarith
  have b32 : |binary64.val (ma d c3 c2)| ≤ 3 * B := by
    have := abs_near e2 (abs_add_le' (cB b3) b2); refine this.trans ?_
    norm_num at hB2 ⊢; linarith
  have b10 : |binary64.val (ma d c1 c0)| ≤ 3 / 2 + 1 / 50 := by
    have := abs_near e3 (abs_add_le' b1 b0); refine this.trans ?_
    norm_num
  obtain ⟨g5, e5⟩ := ma_lin fused m g4 g1 g2 (P := 6 * B) ((abs_mul_le bd2' b54).trans (by linarith)) b32 (by linarith) (by linarith)
  have bin : |binary64.val (ma d2 (ma d c5 c4) (ma d c3 c2))| ≤ 10 * B := by
    have := abs_near e5 (abs_add_le' ((abs_mul_le bd2' b54).trans (show _ ≤ 6 * B by linarith)) b32); refine this.trans ?_
    norm_num at hB2 ⊢; linarith
  have pr : |binary64.val d2 * binary64.val (ma d2 (ma d c5 c4) (ma d c3 c2))| ≤ 11 / 2 ^ 14 := by
    refine (abs_mul_le bd2 bin).trans ?_
    rw [show ((1 + 1 / 2 ^ 52) * (X * X) + 1 / 2 ^ 200) * (10 * B) = 10 * (1 + 1 / 2 ^ 52) * (X ^ 2 * B) + 10 / 2 ^ 200 * B by ring]
    norm_num at hB ⊢; linarith
  obtain ⟨g6, e6⟩ := ma_lin fused m g4 g5 g3 pr b10 (by norm_num) (by norm_num)
  refine ⟨g6, ?_⟩
  change |binary64.val (ma d c5 c4) - _| ≤ _ at e1
  change |binary64.val (ma d c3 c2) - _| ≤ _ at e2
  change |binary64.val (ma d c1 c0) - _| ≤ _ at e3
  change |binary64.val (ma d2 (ma d c5 c4) (ma d c3 c2)) - (binary64.val d2 * binary64.val (ma d c5 c4) + binary64.val (ma d c3 c2))| ≤ _ at e5
  change |binary64.val p - (binary64.val d2 * binary64.val (ma d2 (ma d c5 c4) (ma d c3 c2)) + binary64.val (ma d c1 c0))| ≤ _ at e6
  generalize binary64.val p = vp at *
  generalize binary64.val (ma d2 (ma d c5 c4) (ma d c3 c2)) = vi at *
  generalize binary64.val (ma d c5 c4) = v54 at *
  generalize binary64.val (ma d c3 c2) = v32 at *
  generalize binary64.val (ma d c1 c0) = v10 at *
  generalize binary64.val d2 = vd2 at *
  generalize binary64.val d = D at *
  generalize binary64.val c0 = C0 at *
  generalize binary64.val c1 = C1 at *
  generalize binary64.val c2 = C2 at *
  generalize binary64.val c3 = C3 at *
  generalize binary64.val c4 = C4 at *
  generalize binary64.val c5 = C5 at *
  clear g1 g2 g3 g4 g5 g6 f0 f1 f2 f3 f4 f5 fd e4
  -- the inner polynomial
  have i1 : |vi - (D * D * (C4 + D * C5) + (C2 + D * C3))| ≤ 1 / 2 ^ 46 * B := by
    rw [show vi - (D * D * (C4 + D * C5) + (C2 + D * C3)) = (vi - (vd2 * v54 + v32)) + (vd2 - D * D) * v54 + (D * D) * (v54 - (D * C5 + C4)) + (v32 - (D * C3 + C2)) by ring]
    refine (abs_add_le' (abs_add_le' (abs_add_le' e5 (abs_mul_le e4' b54)) (abs_mul_le (hsq.trans XX) e1)) e2).trans ?_
    have := mul_le_mul_of_nonneg_right XX B0
    norm_num at hB2 ⊢
    linarith
  rw [show vp - (C0 + D * (C1 + D * (C2 + D * (C3 + D * (C4 + D * C5))))) = (vp - (vd2 * vi + v10)) + (vd2 - D * D) * vi + (D * D) * (vi - (D * D * (C4 + D * C5) + (C2 + D * C3))) + (v10 - (D * C1 + C0)) by ring]
  refine (abs_add_le' (abs_add_le' (abs_add_le' e6 (abs_mul_le e4' bin)) (abs_mul_le hsq i1)) e3).trans ?_
  rw [show X * X * (1 / 2 ^ 46 * B) = 1 / 2 ^ 46 * (X ^ 2 * B) by ring, show (1 / 2 ^ 52 * (X * X) + 1 / 2 ^ 200) * (10 * B) = 10 / 2 ^ 52 * (X ^ 2 * B) + 10 / 2 ^ 200 * B by ring]
  norm_num at hB ⊢
  linarith

theorem powfLogPoly_err (fused : Bool) (m : Mode) {dx : ℕ} (fd : binary64.Finite dx) (hd : |binary64.val dx| ≤ 1 / 2 ^ 7) :
    binary64.Finite (CC.powfLogPoly fused m dx) ∧ |binary64.val dx * binary64.val (CC.powfLogPoly fused m dx) - log (1 + binary64.val dx) / log 2| ≤ 1 / 2 ^ 41 * |binary64.val dx| := by
  obtain ⟨c0, c1, c2, c3, c4, c5⟩ := flc_fin
  obtain ⟨f0, -, b0, -⟩ := coefOk_spec c0
  obtain ⟨f1, -, b1, -⟩ := coefOk_spec c1
  obtain ⟨f2, -, b2, -⟩ := coefOk_spec c2
  obtain ⟨f3, -, b3, -⟩ := coefOk_spec c3
  obtain ⟨f4, -, b4, -⟩ := coefOk_spec c4
  obtain ⟨f5, -, b5, -⟩ := coefOk_spec c5
  obtain ⟨F, e⟩ := estrin6 fused m fd f0 f1 f2 f3 f4 f5 hd (by norm_num) (B := 1 / 2) (b0.trans (by norm_num)) ((abs_mul_le hd b1).trans (by norm_num)) (b2.trans (by norm_num)) (b3.trans (by norm_num))
    (b4.trans (by norm_num)) (b5.trans (by norm_num)) (by norm_num) (by norm_num) (by norm_num)
  refine ⟨F, ?_⟩
  have n := flPoly_near hd
  have hl := log2_lo
  have l0 : (0 : ℝ) < log 2 := by linarith
  have hp : flPoly (binary64.val dx) = binary64.val (flc 0).hi + binary64.val dx * (binary64.val (flc 1).hi + binary64.val dx * (binary64.val (flc 2).hi + binary64.val dx * (binary64.val (flc 3).hi + binary64.val dx * (binary64.val (flc 4).hi + binary64.val dx * binary64.val (flc 5).hi)))) := by
    unfold flPoly flc; simp only [pairV_zero]
  rw [← hp] at e
  have n' : |binary64.val dx * flPoly (binary64.val dx) - log (1 + binary64.val dx) / log 2| ≤ 9 / 10 / 2 ^ 41 * |binary64.val dx| := by
    rw [show binary64.val dx * flPoly (binary64.val dx) - log (1 + binary64.val dx) / log 2 = (binary64.val dx * flPoly (binary64.val dx) * log 2 - log (1 + binary64.val dx)) / log 2 by field_simp, abs_div, abs_of_pos l0, div_le_iff₀ l0]
    refine n.trans ?_
    have := mul_le_mul_of_nonneg_left hl.1 (show 0 ≤ 9 / 10 / 2 ^ 41 * |binary64.val dx| by positivity)
    refine le_trans ?_ this
    have := abs_nonneg (binary64.val dx)
    norm_num; linarith
  have e' : |binary64.val dx * (binary64.val (CC.powfLogPoly fused m dx) - flPoly (binary64.val dx))| ≤ |binary64.val dx| * (1 / 2 ^ 50) := abs_mul_le le_rfl e
  rw [show binary64.val dx * binary64.val (CC.powfLogPoly fused m dx) - log (1 + binary64.val dx) / log 2 = binary64.val dx * (binary64.val (CC.powfLogPoly fused m dx) - flPoly (binary64.val dx)) + (binary64.val dx * flPoly (binary64.val dx) - log (1 + binary64.val dx) / log 2) by ring]
  refine (abs_add_le' e' n').trans ?_
  have := abs_nonneg (binary64.val dx)
  norm_num; linarith

theorem fePoly_crude {t : ℝ} (ht : |t| ≤ 1) : |fePoly t - 1| ≤ 1 / 50 := by
  obtain ⟨d0, d1, d2, d3, d4, d5⟩ := fec_fin
  obtain ⟨c0, -⟩ := ec_fin
  obtain ⟨k0, -⟩ := fec_ok
  have pv : ∀ {q : CC.Pair} {lo hi : ℕ}, coefOk q lo hi = true → |pairV q| ≤ (1 + 1 / 2 ^ 48) * (hi / 2 ^ 240) := by
    intro q lo hi h
    obtain ⟨-, -, b1, -, b3, -⟩ := coefOk_spec h
    unfold pairV
    refine (abs_add_le' b1 b3).trans (by linarith)
  have n0 : |pairV (fec 0) - 1| ≤ 1 / 2 ^ 90 := by
    have a := fec_near k0 d0 c0
    have b := ec_near (k := 0) (by norm_num) c0
    norm_num at b
    exact (abs_tri a b).trans (by norm_num)
  have n1 := pv d1
  have n2 := pv d2
  have n3 := pv d3
  have n4 := pv d4
  have n5 := pv d5
  have pw : ∀ n : ℕ, |t ^ n| ≤ 1 := fun n => by rw [abs_pow]; exact pow_le_one₀ (abs_nonneg _) ht
  have s := fun {n : ℕ} {a B : ℝ} (h : |a| ≤ B) => abs_mul_le (pw n) h
  rw [show fePoly t - 1 = (pairV (fec 0) - 1) + t ^ 1 * pairV (fec 1) + t ^ 2 * pairV (fec 2) + t ^ 3 * pairV (fec 3) + t ^ 4 * pairV (fec 4) + t ^ 5 * pairV (fec 5) by unfold fePoly; ring]
  refine (abs_add_le' (abs_add_le' (abs_add_le' (abs_add_le' (abs_add_le' n0 (s n1)) (s n2)) (s n3)) (s n4)) (s n5)).trans ?_
  norm_num

theorem powfExpPoly_err (fused : Bool) (m : Mode) {t : ℕ} (fd : binary64.Finite t) (hd : |binary64.val t| ≤ 1) :
    binary64.Finite (CC.powfExpPoly fused m t) ∧ |binary64.val (CC.powfExpPoly fused m t) - 1| ≤ 1 / 49 ∧
      (|binary64.val t| ≤ 9 / 16 → |binary64.val (CC.powfExpPoly fused m t) - exp (binary64.val t * (log 2 / 64))| ≤ 1 / 2 ^ 49) := by
  obtain ⟨c0, c1, c2, c3, c4, c5⟩ := fec_fin
  obtain ⟨f0, -, b0, -⟩ := coefOk_spec c0
  obtain ⟨f1, -, b1, -⟩ := coefOk_spec c1
  obtain ⟨f2, -, b2, -⟩ := coefOk_spec c2
  obtain ⟨f3, -, b3, -⟩ := coefOk_spec c3
  obtain ⟨f4, -, b4, -⟩ := coefOk_spec c4
  obtain ⟨f5, -, b5, -⟩ := coefOk_spec c5
  obtain ⟨F, e⟩ := estrin6 fused m fd f0 f1 f2 f3 f4 f5 hd (by norm_num) (B := 1 / 2 ^ 14) (b0.trans (by norm_num)) ((abs_mul_le hd b1).trans (by norm_num)) (b2.trans (by norm_num)) (b3.trans (by norm_num))
    (b4.trans (by norm_num)) (b5.trans (by norm_num)) (by norm_num) (by norm_num) (by norm_num)
  have hp : fePoly (binary64.val t) = binary64.val (fec 0).hi + binary64.val t * (binary64.val (fec 1).hi + binary64.val t * (binary64.val (fec 2).hi + binary64.val t * (binary64.val (fec 3).hi + binary64.val t * (binary64.val (fec 4).hi + binary64.val t * binary64.val (fec 5).hi)))) := by
    unfold fePoly fec; simp only [pairV_zero]
  rw [← hp] at e
  change |binary64.val (CC.powfExpPoly fused m t) - _| ≤ _ at e
  refine ⟨F, ?_, fun h => ?_⟩
  · exact (abs_tri e (fePoly_crude hd)).trans (by norm_num)
  · exact (abs_tri e (fePoly_near h)).trans (by norm_num)

end Verif
