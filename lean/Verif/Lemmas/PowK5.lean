import Verif.Lemmas.PowK4

/-!
# The double-double polynomials of the pow kernel
-/

namespace Verif
open Fmt Real

/-- the value of a pair -/
noncomputable def pairV (q : CC.Pair) : ℝ := binary64.val q.hi + binary64.val q.lo

theorem coefOk_spec {q : CC.Pair} {lo hi : ℕ} (h : coefOk q lo hi = true) :
    binary64.Finite q.hi ∧ binary64.Finite q.lo ∧ |binary64.val q.hi| ≤ hi / 2 ^ 240 ∧ (lo : ℝ) / 2 ^ 240 ≤ |binary64.val q.hi| ∧ |binary64.val q.lo| ≤ 1 / 2 ^ 48 * (hi / 2 ^ 240) ∧
      pairV q = ((ints 240 q.hi + ints 240 q.lo : ℤ) : ℝ) / 2 ^ 240 := by
  simp only [coefOk, Bool.and_eq_true, decide_eq_true_eq] at h
  obtain ⟨⟨⟨⟨h1, h2⟩, h3⟩, h4⟩, h5⟩ := h
  obtain ⟨f1, v1⟩ := intsOk_spec h1
  obtain ⟨f2, v2⟩ := intsOk_spec h2
  have a240 : |(2 : ℝ) ^ 240| = 2 ^ 240 := abs_of_pos (by positivity)
  refine ⟨f1, f2, ?_, ?_, ?_, ?_⟩
  · rw [v1, abs_div, a240]; exact div_le_div_of_nonneg_right (natAbs_le_real h3) (by positivity)
  · rw [v1, abs_div, a240]
    refine div_le_div_of_nonneg_right ?_ (by positivity)
    have : (lo : ℝ) ≤ ((ints 240 q.hi).natAbs : ℕ) := by exact_mod_cast h4
    rwa [Nat.cast_natAbs, Int.cast_abs] at this
  · rw [v2, abs_div, a240, ← mul_div_assoc]
    refine div_le_div_of_nonneg_right ?_ (by positivity)
    have : (((ints 240 q.lo).natAbs * 2 ^ 48 : ℕ) : ℝ) ≤ hi := by exact_mod_cast h5
    rw [Nat.cast_mul, Nat.cast_natAbs, Int.cast_abs, Nat.cast_pow, Nat.cast_ofNat] at this
    rw [one_div_mul_eq_div, le_div_iff₀ (by positivity)]; exact this
  · unfold pairV; rw [v1, v2, Int.cast_add, add_div]

/-- coefficient `k` of the logarithm -/
def lc (k : ℕ) : CC.Pair := CC.powDDLogC.getD k { hi := 0, lo := 0 }
/-- coefficient `k` of the exponential -/
def ec (k : ℕ) : CC.Pair := CC.powDDExpC.getD k { hi := 0, lo := 0 }

/-- what is checked of coefficient `k` of the logarithm: within `2^-b` of `(-1)^k / ((k+1) log 2)` -/
def lcOk (k b : ℕ) : Bool :=
  decide ((2 ^ b * ((ints 240 (lc k).hi + ints 240 (lc k).lo) * (k + 1) * ln2N - (-1) ^ k * 2 ^ 400)).natAbs ≤ 2 ^ 400)

/-- what is checked of coefficient `k` of the exponential: within `2^(k-95)` of `(log 2/64)^k / k!` -/
def ecOk (k : ℕ) : Bool :=
  decide ((2 ^ 95 * ((ints 240 (ec k).hi + ints 240 (ec k).lo) * (k.factorial * 64 ^ k * 2 ^ (160 * k)) - ln2N ^ k * 2 ^ 240)).natAbs ≤ 2 ^ (k + 240) * (k.factorial * 64 ^ k * 2 ^ (160 * k)))

theorem lc_fin : coefOk (lc 0) (2 ^ 240) (3 * 2 ^ 239) = true ∧ coefOk (lc 1) (2 ^ 239) (2 ^ 240) = true ∧ coefOk (lc 2) (2 ^ 238) (2 ^ 239) = true ∧
    coefOk (lc 3) (2 ^ 238) (2 ^ 239) = true ∧ coefOk (lc 4) (2 ^ 238) (2 ^ 239) = true ∧ coefOk (lc 5) (2 ^ 237) (2 ^ 239) = true := by decide +kernel

theorem lc_ok : lcOk 0 93 = true ∧ lcOk 1 82 = true ∧ lcOk 2 60 = true ∧ lcOk 3 50 = true ∧ lcOk 4 28 = true ∧ lcOk 5 20 = true := by decide +kernel

theorem ec_ok : ∀ k < 10, ecOk k = true := by decide +kernel

theorem ec_fin : coefOk (ec 0) (2 ^ 240) (2 ^ 240) = true ∧ coefOk (ec 1) (2 ^ 233) (2 ^ 234) = true ∧ coefOk (ec 2) (2 ^ 225) (2 ^ 226) = true ∧
    coefOk (ec 3) (2 ^ 217) (2 ^ 218) = true ∧ coefOk (ec 4) (2 ^ 209) (2 ^ 210) = true ∧ coefOk (ec 5) (2 ^ 200) (2 ^ 201) = true ∧ coefOk (ec 6) (2 ^ 191) (2 ^ 192) = true ∧
    coefOk (ec 7) (2 ^ 181) (2 ^ 183) = true ∧ coefOk (ec 8) (2 ^ 172) (2 ^ 173) = true ∧ coefOk (ec 9) (2 ^ 162) (2 ^ 163) = true := by decide +kernel

theorem lc_near {k b : ℕ} {lo hi : ℕ} (h1 : lcOk k b = true) (h2 : coefOk (lc k) lo hi = true) (hk : k < 6) (hh : hi ≤ 2 ^ 241) :
    |pairV (lc k) * (k + 1) * log 2 - (-1) ^ k| ≤ 1 / 2 ^ b + 1 / 2 ^ 140 := by
  obtain ⟨f1, f2, b1, b2, b3, e⟩ := coefOk_spec h2
  have bp : |pairV (lc k)| ≤ 4 := by
    unfold pairV
    have hh' : (hi : ℝ) / 2 ^ 240 ≤ 2 := by
      rw [div_le_iff₀ (by positivity)]
      have : (hi : ℝ) ≤ 2 ^ 241 := by exact_mod_cast hh
      norm_num at this ⊢; linarith
    refine (abs_add_le' b1 b3).trans ?_
    norm_num at hh' ⊢; linarith
  simp only [lcOk, decide_eq_true_eq] at h1
  have r := natAbs_le_real h1
  rw [e] at *
  generalize ints 240 (lc k).hi + ints 240 (lc k).lo = N at *
  have hn := ln2N_near
  push_cast at r
  have e1 : (N : ℝ) / 2 ^ 240 * (k + 1) * (ln2N / 2 ^ 160) - (-1) ^ k = (2 ^ b * ((N : ℝ) * (k + 1) * ln2N - (-1) ^ k * 2 ^ 400)) / 2 ^ 400 / 2 ^ b := by
    rw [show (2 : ℝ) ^ 400 = 2 ^ 240 * 2 ^ 160 by rw [← pow_add]]
    field_simp
  have e2 : |(N : ℝ) / 2 ^ 240 * (k + 1) * (ln2N / 2 ^ 160) - (-1) ^ k| ≤ 1 / 2 ^ b := by
    rw [e1, abs_div, abs_div, abs_of_pos (show (0 : ℝ) < 2 ^ b by positivity), abs_of_pos (show (0 : ℝ) < 2 ^ 400 by positivity)]
    refine div_le_div_of_nonneg_right ?_ (by positivity)
    rw [div_le_one (by positivity)]
    exact r
  rw [show (N : ℝ) / 2 ^ 240 * (k + 1) * log 2 - (-1) ^ k = ((N : ℝ) / 2 ^ 240 * (k + 1) * (ln2N / 2 ^ 160) - (-1) ^ k) + ((N : ℝ) / 2 ^ 240 * (k + 1)) * (log 2 - ln2N / 2 ^ 160) by ring]
  refine abs_add_le' e2 ?_
  have hk' : |((k : ℝ) + 1)| ≤ 6 := by
    rw [abs_of_nonneg (by positivity)]
    have : (k : ℝ) ≤ 5 := by exact_mod_cast Nat.lt_succ_iff.1 hk
    linarith
  exact (abs_mul_le (abs_mul_le bp hk') hn).trans (by norm_num)

/-- the logarithm polynomial -/
noncomputable def lcPoly (t : ℝ) : ℝ := pairV (lc 0) + t * (pairV (lc 1) + t * (pairV (lc 2) + t * (pairV (lc 3) + t * (pairV (lc 4) + t * pairV (lc 5)))))

theorem lcPoly_near {t : ℝ} (ht : |t| ≤ 1 / 21500) : |t * lcPoly t * log 2 - log (1 + t)| ≤ 1 / 2 ^ 85 * |t| := by
  have n0 := lc_near lc_ok.1 lc_fin.1 (by norm_num) (by norm_num)
  have n1 := lc_near lc_ok.2.1 lc_fin.2.1 (by norm_num) (by norm_num)
  have n2 := lc_near lc_ok.2.2.1 lc_fin.2.2.1 (by norm_num) (by norm_num)
  have n3 := lc_near lc_ok.2.2.2.1 lc_fin.2.2.2.1 (by norm_num) (by norm_num)
  have n4 := lc_near lc_ok.2.2.2.2.1 lc_fin.2.2.2.2.1 (by norm_num) (by norm_num)
  have n5 := lc_near lc_ok.2.2.2.2.2 lc_fin.2.2.2.2.2 (by norm_num) (by norm_num)
  have ta : |-t| < 1 := by rw [abs_neg]; linarith
  have T := abs_log_sub_add_sum_range_le ta 6
  rw [abs_neg, sub_neg_eq_add] at T
  simp only [Finset.sum_range_succ, Finset.sum_range_zero] at T
  norm_num at T n0 n1 n2 n3 n4 n5
  have t0 := abs_nonneg t
  have pw : ∀ n : ℕ, |t ^ n| ≤ (1 / 21500) ^ n := fun n => by rw [abs_pow]; exact pow_le_pow_left₀ t0 ht n
  have tail : |t| ^ 7 / (1 - |t|) ≤ |t| * (1 / 2 ^ 86) := by
    rw [div_le_iff₀ (by linarith)]
    have h6 : |t| ^ 6 ≤ (1 / 21500) ^ 6 := pow_le_pow_left₀ t0 ht 6
    calc |t| ^ 7 = |t| * |t| ^ 6 := by ring
      _ ≤ |t| * (1 / 21500) ^ 6 := mul_le_mul_of_nonneg_left h6 t0
      _ ≤ |t| * (1 / 2 ^ 86 * (1 - 1 / 21500)) := mul_le_mul_of_nonneg_left (by norm_num) t0
      _ ≤ |t| * (1 / 2 ^ 86 * (1 - |t|)) := mul_le_mul_of_nonneg_left (mul_le_mul_of_nonneg_left (by linarith) (by norm_num)) t0
      _ = _ := by ring
  unfold lcPoly
  have id : t * (pairV (lc 0) + t * (pairV (lc 1) + t * (pairV (lc 2) + t * (pairV (lc 3) + t * (pairV (lc 4) + t * pairV (lc 5)))))) * log 2 - log (1 + t) =
      t * ((pairV (lc 0) * log 2 - 1) + t ^ 1 * (1 / 2) * (pairV (lc 1) * 2 * log 2 + 1) + t ^ 2 * (1 / 3) * (pairV (lc 2) * 3 * log 2 - 1) + t ^ 3 * (1 / 4) * (pairV (lc 3) * 4 * log 2 + 1) +
        t ^ 4 * (1 / 5) * (pairV (lc 4) * 5 * log 2 - 1) + t ^ 5 * (1 / 6) * (pairV (lc 5) * 6 * log 2 + 1)) +
      -(-t + t ^ 2 / 2 + (-t) ^ 3 / 3 + (-t) ^ 4 / 4 + (-t) ^ 5 / 5 + (-t) ^ 6 / 6 + log (1 + t)) := by ring
  rw [id]
  have s1 : |t ^ 1 * (1 / 2) * (pairV (lc 1) * 2 * log 2 + 1)| ≤ (1 / 21500) ^ 1 * (1 / 2) * _ := abs_mul_le (abs_mul_le (pw 1) (by norm_num)) n1
  have s2 : |t ^ 2 * (1 / 3) * (pairV (lc 2) * 3 * log 2 - 1)| ≤ (1 / 21500) ^ 2 * (1 / 3) * _ := abs_mul_le (abs_mul_le (pw 2) (by rw [abs_of_pos] <;> norm_num)) n2
  have s3 : |t ^ 3 * (1 / 4) * (pairV (lc 3) * 4 * log 2 + 1)| ≤ (1 / 21500) ^ 3 * (1 / 4) * _ := abs_mul_le (abs_mul_le (pw 3) (by rw [abs_of_pos] <;> norm_num)) n3
  have s4 : |t ^ 4 * (1 / 5) * (pairV (lc 4) * 5 * log 2 - 1)| ≤ (1 / 21500) ^ 4 * (1 / 5) * _ := abs_mul_le (abs_mul_le (pw 4) (by rw [abs_of_pos] <;> norm_num)) n4
  have s5 : |t ^ 5 * (1 / 6) * (pairV (lc 5) * 6 * log 2 + 1)| ≤ (1 / 21500) ^ 5 * (1 / 6) * _ := abs_mul_le (abs_mul_le (pw 5) (by rw [abs_of_pos] <;> norm_num)) n5
  refine (abs_add_le' (abs_mul_le le_rfl (abs_add_le' (abs_add_le' (abs_add_le' (abs_add_le' (abs_add_le' n0 s1) s2) s3) s4) s5)) ((abs_neg _).trans_le (T.trans tail))).trans ?_
  rw [← mul_add, mul_comm]
  refine mul_le_mul_of_nonneg_right ?_ t0
  norm_num

theorem ec_near {k : ℕ} (hk : k < 10) {lo hi : ℕ} (h2 : coefOk (ec k) lo hi = true) : |pairV (ec k) - (log 2 / 64) ^ k / k.factorial| ≤ 2 ^ k / 2 ^ 95 + 1 / 2 ^ 140 := by
  obtain ⟨-, -, -, -, -, e⟩ := coefOk_spec h2
  have h1 := ec_ok k hk
  simp only [ecOk, decide_eq_true_eq] at h1
  have r := natAbs_le_real h1
  clear h1
  rw [e]
  generalize ints 240 (ec k).hi + ints 240 (ec k).lo = N at *
  simp only [Int.cast_mul, Int.cast_sub, Int.cast_pow, Int.cast_ofNat, Int.cast_natCast, Nat.cast_mul, Nat.cast_pow, Nat.cast_ofNat] at r
  have fp : (1 : ℝ) ≤ k.factorial := by exact_mod_cast Nat.one_le_iff_ne_zero.2 (Nat.factorial_ne_zero k)
  have f0 : (0 : ℝ) < k.factorial := by linarith
  generalize (k.factorial : ℝ) = F at *
  have hn := ln2N_near
  have ℓ1 : |(ln2N : ℝ) / 2 ^ 160| ≤ 1 := by
    have : (ln2N : ℝ) ≤ 2 ^ 160 := by
      have h : ln2N ≤ 2 ^ 160 := by decide +kernel
      have h' : ((ln2N : ℕ) : ℝ) ≤ ((2 ^ 160 : ℕ) : ℝ) := Nat.cast_le.2 h
      rwa [Nat.cast_pow, Nat.cast_ofNat] at h'
    rw [abs_of_nonneg (div_nonneg (Nat.cast_nonneg _) (by positivity)), div_le_one (by positivity)]
    exact this
  have l1 : |log 2| ≤ 1 := by have := log2_lo; rw [abs_of_pos (by linarith)]; linarith
  have e1 : (N : ℝ) / 2 ^ 240 - (ln2N / 2 ^ 160 / 64) ^ k / F = (2 ^ 95 * ((N : ℝ) * (F * 64 ^ k * 2 ^ (160 * k)) - ln2N ^ k * 2 ^ 240)) / (2 ^ 240 * (F * 64 ^ k * 2 ^ (160 * k))) / 2 ^ 95 := by
    rw [div_pow, div_pow, ← pow_mul]
    field_simp
  have e2 : |(N : ℝ) / 2 ^ 240 - (ln2N / 2 ^ 160 / 64) ^ k / F| ≤ 2 ^ k / 2 ^ 95 := by
    rw [e1, abs_div, abs_div, abs_of_pos (show (0 : ℝ) < 2 ^ 95 by positivity), abs_of_pos (show (0 : ℝ) < 2 ^ 240 * (F * 64 ^ k * 2 ^ (160 * k)) by positivity)]
    refine div_le_div_of_nonneg_right ?_ (by positivity)
    rw [div_le_iff₀ (by positivity)]
    refine r.trans (le_of_eq ?_)
    rw [pow_add]; ring
  have e3 : |(ln2N / 2 ^ 160 / 64 : ℝ) ^ k / F - (log 2 / 64) ^ k / F| ≤ 1 / 2 ^ 140 := by
    rw [← sub_div, div_pow (_ / _), div_pow (log 2), ← sub_div, abs_div, abs_div, abs_of_pos f0, abs_of_pos (show (0 : ℝ) < 64 ^ k by positivity)]
    have h3 : |((ln2N : ℝ) / 2 ^ 160) ^ k - log 2 ^ k| ≤ 10 * (1 / 2 ^ 150) := by
      have hp : ∀ j : ℕ, |((ln2N : ℝ) / 2 ^ 160) ^ j - log 2 ^ j| ≤ (j : ℝ) * (1 / 2 ^ 150) := by
        intro j
        induction j with
        | zero => simp
        | succ j ih =>
          rw [show ((ln2N : ℝ) / 2 ^ 160) ^ (j + 1) - log 2 ^ (j + 1) = (((ln2N : ℝ) / 2 ^ 160) ^ j - log 2 ^ j) * (ln2N / 2 ^ 160) + -(log 2 ^ j * (log 2 - ln2N / 2 ^ 160)) by ring]
          have hq : |log 2 ^ j| ≤ 1 := by rw [abs_pow]; exact pow_le_one₀ (abs_nonneg _) l1
          refine (abs_add_le' (abs_mul_le ih ℓ1) ((abs_neg _).trans_le (abs_mul_le hq hn))).trans (le_of_eq ?_)
          push_cast; ring
      refine (hp k).trans (mul_le_mul_of_nonneg_right ?_ (by positivity))
      exact_mod_cast hk.le
    refine (div_le_self (by positivity) fp).trans ((div_le_self (abs_nonneg _) (one_le_pow₀ (by norm_num))).trans (h3.trans (by norm_num)))
  exact abs_tri e2 e3

/-- the exponential polynomial -/
noncomputable def ecPoly (t : ℝ) : ℝ :=
  pairV (ec 0) + t * (pairV (ec 1) + t * (pairV (ec 2) + t * (pairV (ec 3) + t * (pairV (ec 4) + t * (pairV (ec 5) + t * (pairV (ec 6) + t * (pairV (ec 7) + t * (pairV (ec 8) + t * pairV (ec 9)))))))))

theorem ecPoly_near {t : ℝ} (ht : |t| ≤ 9 / 16) : |ecPoly t - exp (t * (log 2 / 64))| ≤ 1 / 2 ^ 85 := by
  obtain ⟨c0, c1, c2, c3, c4, c5, c6, c7, c8, c9⟩ := ec_fin
  have n0 := ec_near (by norm_num) c0
  have n1 := ec_near (by norm_num) c1
  have n2 := ec_near (by norm_num) c2
  have n3 := ec_near (by norm_num) c3
  have n4 := ec_near (by norm_num) c4
  have n5 := ec_near (by norm_num) c5
  have n6 := ec_near (by norm_num) c6
  have n7 := ec_near (by norm_num) c7
  have n8 := ec_near (by norm_num) c8
  have n9 := ec_near (by norm_num) c9
  have t0 := abs_nonneg t
  have hl := log2_lo
  have hs : |t * (log 2 / 64)| ≤ 1 / 128 := by
    refine (abs_mul_le ht (b := log 2 / 64) (B := 1 / 90) (by rw [abs_of_pos (by linarith)]; linarith)).trans (by norm_num)
  have T := Real.exp_bound (x := t * (log 2 / 64)) (hs.trans (by norm_num)) (n := 10) (by norm_num)
  have tl : |t * (log 2 / 64)| ^ 10 * (((Nat.succ 10 : ℕ) : ℝ) / (((Nat.factorial 10 : ℕ) : ℝ) * ((10 : ℕ) : ℝ))) ≤ 1 / 2 ^ 90 := by
    refine (mul_le_mul_of_nonneg_right (pow_le_pow_left₀ (abs_nonneg _) hs 10) (by positivity)).trans ?_
    norm_num [Nat.factorial]
  replace T := T.trans tl
  clear tl hs c0 c1 c2 c3 c4 c5 c6 c7 c8 c9
  simp only [Finset.sum_range_succ, Finset.sum_range_zero] at T
  generalize log 2 / 64 = w at *
  clear hl
  have pw : ∀ n : ℕ, |t ^ n| ≤ (9 / 16) ^ n := fun n => by rw [abs_pow]; exact pow_le_pow_left₀ t0 ht n
  have s := fun {n : ℕ} {a B : ℝ} (h : |a| ≤ B) => abs_mul_le (pw n) h
  unfold ecPoly
  rw [abs_sub_comm] at T
  rw [show pairV (ec 0) + t * (pairV (ec 1) + t * (pairV (ec 2) + t * (pairV (ec 3) + t * (pairV (ec 4) + t * (pairV (ec 5) + t * (pairV (ec 6) + t * (pairV (ec 7) + t * (pairV (ec 8) + t * pairV (ec 9))))))))) - exp (t * w) =
    t ^ 0 * (pairV (ec 0) - w ^ 0 / (Nat.factorial 0 : ℕ)) + t ^ 1 * (pairV (ec 1) - w ^ 1 / (Nat.factorial 1 : ℕ)) + t ^ 2 * (pairV (ec 2) - w ^ 2 / (Nat.factorial 2 : ℕ)) +
    t ^ 3 * (pairV (ec 3) - w ^ 3 / (Nat.factorial 3 : ℕ)) + t ^ 4 * (pairV (ec 4) - w ^ 4 / (Nat.factorial 4 : ℕ)) + t ^ 5 * (pairV (ec 5) - w ^ 5 / (Nat.factorial 5 : ℕ)) +
    t ^ 6 * (pairV (ec 6) - w ^ 6 / (Nat.factorial 6 : ℕ)) + t ^ 7 * (pairV (ec 7) - w ^ 7 / (Nat.factorial 7 : ℕ)) + t ^ 8 * (pairV (ec 8) - w ^ 8 / (Nat.factorial 8 : ℕ)) +
    t ^ 9 * (pairV (ec 9) - w ^ 9 / (Nat.factorial 9 : ℕ)) +
    ((0 + (t * w) ^ 0 / (Nat.factorial 0 : ℕ) + (t * w) ^ 1 / (Nat.factorial 1 : ℕ) + (t * w) ^ 2 / (Nat.factorial 2 : ℕ) + (t * w) ^ 3 / (Nat.factorial 3 : ℕ) + (t * w) ^ 4 / (Nat.factorial 4 : ℕ) +
      (t * w) ^ 5 / (Nat.factorial 5 : ℕ) + (t * w) ^ 6 / (Nat.factorial 6 : ℕ) + (t * w) ^ 7 / (Nat.factorial 7 : ℕ) + (t * w) ^ 8 / (Nat.factorial 8 : ℕ) + (t * w) ^ 9 / (Nat.factorial 9 : ℕ)) - exp (t * w)) by ring]
  refine (abs_add_le' (abs_add_le' (abs_add_le' (abs_add_le' (abs_add_le' (abs_add_le' (abs_add_le' (abs_add_le' (abs_add_le' (abs_add_le' (s n0) (s n1)) (s n2)) (s n3)) (s n4)) (s n5)) (s n6)) (s n7)) (s n8)) (s n9)) T).trans ?_
  norm_num

/-- the double-double Horner scheme on the coefficients `as`: value close to `P`, size at most `Y` -/
def DPst (m : Mode) (x : CC.Pair) (as : List CC.Pair) (P Y ε : ℝ) : Prop :=
  ∃ r, CC.ddPoly m x as = some r ∧ binary64.Finite r.hi ∧ binary64.Finite r.lo ∧ |binary64.val r.hi| ≤ Y ∧ |binary64.val r.lo| ≤ 1 / 2 ^ 48 * Y ∧ |pairV r - P| ≤ ε

theorem DPst.step {m : Mode} {x a b : CC.Pair} {as : List CC.Pair} {P Y ε X ξ Y' ε' : ℝ} {lo hi : ℕ} (h : DPst m x (b :: as) P Y ε) (ha : coefOk a lo hi = true)
    (fx : binary64.Finite x.hi) (fx' : binary64.Finite x.lo) (X1 : |binary64.val x.hi| ≤ X) (X2 : |binary64.val x.lo| ≤ 1 / 2 ^ 48 * X)
    (ex : pairV x = ξ) (hξ : |ξ| ≤ X) (ε0 : 0 ≤ ε) (hord : 2 * (X * Y) ≤ (lo : ℝ) / 2 ^ 240) (p1 : (1 : ℝ) / 2 ^ 200 ≤ X * Y) (pX : X ≤ 2 ^ 110) (pY : Y ≤ 2 ^ 110)
    (pM : (hi : ℝ) / 2 ^ 240 ≤ 2 ^ 110) (hY : 8 / 5 * ((hi : ℝ) / 2 ^ 240) ≤ Y') (hε : X * ε + (1 / 2 ^ 72 + 1 / 2 ^ 93) * (X * Y) + 1 / 2 ^ 92 * ((hi : ℝ) / 2 ^ 240) ≤ ε') :
    DPst m x (a :: b :: as) (pairV a + ξ * P) Y' ε' := by
  obtain ⟨r, hr, fr, fr', b1, b2, er⟩ := h
  obtain ⟨fa, fa', a1, a2, a3, -⟩ := coefOk_spec ha
  have M0 : (0 : ℝ) ≤ (hi : ℝ) / 2 ^ 240 := by positivity
  obtain ⟨q, hq, g1, g2, g3, g4, g5⟩ := ddHorner m fx fx' fa fa' fr fr' X1 X2 ex b1 b2 er a1 (a3.trans (mul_le_mul_of_nonneg_right (by norm_num) M0)) (hord.trans a2)
    ((le_trans (by rw [one_div, ← zpow_natCast, ← zpow_neg]; exact two_zpow_le (by norm_num)) p1)) pX pY pM
  refine ⟨CC.ddAdd binary64 m a q, ?_, g1, g2, g4.trans hY, g5.trans (mul_le_mul_of_nonneg_left hY (by norm_num)), ?_⟩
  · unfold CC.ddPoly
    simp only [hr, hq, Option.bind_eq_bind, Option.bind_some, pure]
  · refine g3.trans (le_trans ?_ hε)
    have := mul_le_mul_of_nonneg_right hξ ε0
    linarith

theorem DPst.base {m : Mode} {x a : CC.Pair} {lo hi : ℕ} {Y : ℝ} (ha : coefOk a lo hi = true) (hY : (hi : ℝ) / 2 ^ 240 ≤ Y) : DPst m x [a] (pairV a) Y 0 := by
  obtain ⟨fa, fa', a1, a2, a3, -⟩ := coefOk_spec ha
  exact ⟨a, rfl, fa, fa', a1.trans hY, a3.trans (mul_le_mul_of_nonneg_left hY (by norm_num)), by simp⟩

theorem powLogPoly_err (m : Mode) {x : CC.Pair} (fx : binary64.Finite x.hi) (fx' : binary64.Finite x.lo) (X1 : |binary64.val x.hi| ≤ 1 / 2 ^ 14) (X2 : |binary64.val x.lo| ≤ 1 / 2 ^ 62)
    (hξ : |pairV x| ≤ 1 / 2 ^ 14) : DPst m x CC.powDDLogC (lcPoly (pairV x)) (12 / 5) (1 / 2 ^ 85) := by
  obtain ⟨c0, c1, c2, c3, c4, c5⟩ := lc_fin
  have X2' : |binary64.val x.lo| ≤ 1 / 2 ^ 48 * (1 / 2 ^ 14) := X2.trans (by norm_num)
  have e : CC.powDDLogC = [lc 0, lc 1, lc 2, lc 3, lc 4, lc 5] := rfl
  rw [e]
  have s5 := DPst.base (m := m) (x := x) c5 (Y := 1 / 2) (by norm_num)
  have s4 := s5.step c4 fx fx' X1 X2' rfl hξ (by norm_num) (by norm_num) (by norm_num) (by norm_num) (by norm_num) (by norm_num) (Y' := 4 / 5) (by norm_num) (ε' := 1 / 2 ^ 85) (by norm_num)
  have s3 := s4.step c3 fx fx' X1 X2' rfl hξ (by norm_num) (by norm_num) (by norm_num) (by norm_num) (by norm_num) (by norm_num) (Y' := 4 / 5) (by norm_num) (ε' := 1 / 2 ^ 85) (by norm_num)
  have s2 := s3.step c2 fx fx' X1 X2' rfl hξ (by norm_num) (by norm_num) (by norm_num) (by norm_num) (by norm_num) (by norm_num) (Y' := 4 / 5) (by norm_num) (ε' := 1 / 2 ^ 85) (by norm_num)
  have s1 := s2.step c1 fx fx' X1 X2' rfl hξ (by norm_num) (by norm_num) (by norm_num) (by norm_num) (by norm_num) (by norm_num) (Y' := 8 / 5) (by norm_num) (ε' := 1 / 2 ^ 85) (by norm_num)
  have s0 := s1.step c0 fx fx' X1 X2' rfl hξ (by norm_num) (by norm_num) (by norm_num) (by norm_num) (by norm_num) (by norm_num) (Y' := 12 / 5) (by norm_num) (ε' := 1 / 2 ^ 85) (by norm_num)
  exact s0

theorem powExpPoly_err (m : Mode) {x : CC.Pair} (fx : binary64.Finite x.hi) (fx' : binary64.Finite x.lo) (X1 : |binary64.val x.hi| ≤ 9 / 16) (X2 : |binary64.val x.lo| ≤ 1 / 2 ^ 49)
    (hξ : |pairV x| ≤ 9 / 16) : DPst m x CC.powDDExpC (ecPoly (pairV x)) (8 / 5) (1 / 2 ^ 77) := by
  obtain ⟨c0, c1, c2, c3, c4, c5, c6, c7, c8, c9⟩ := ec_fin
  have X2' : |binary64.val x.lo| ≤ 1 / 2 ^ 48 * (9 / 16) := X2.trans (by norm_num)
  have e : CC.powDDExpC = [ec 0, ec 1, ec 2, ec 3, ec 4, ec 5, ec 6, ec 7, ec 8, ec 9] := rfl
  rw [e]
  have s9 := DPst.base (m := m) (x := x) c9 (Y := 1 / 2 ^ 77) (by norm_num)
  have s8 := s9.step c8 fx fx' X1 X2' rfl hξ (by norm_num) (by norm_num) (by norm_num) (by norm_num) (by norm_num) (by norm_num) (Y' := 8 / 5 / 2 ^ 67) (by norm_num) (ε' := 1 / 2 ^ 90) (by norm_num)
  have s7 := s8.step c7 fx fx' X1 X2' rfl hξ (by norm_num) (by norm_num) (by norm_num) (by norm_num) (by norm_num) (by norm_num) (Y' := 8 / 5 / 2 ^ 57) (by norm_num) (ε' := 1 / 2 ^ 90) (by norm_num)
  have s6 := s7.step c6 fx fx' X1 X2' rfl hξ (by norm_num) (by norm_num) (by norm_num) (by norm_num) (by norm_num) (by norm_num) (Y' := 8 / 5 / 2 ^ 48) (by norm_num) (ε' := 1 / 2 ^ 90) (by norm_num)
  have s5 := s6.step c5 fx fx' X1 X2' rfl hξ (by norm_num) (by norm_num) (by norm_num) (by norm_num) (by norm_num) (by norm_num) (Y' := 8 / 5 / 2 ^ 39) (by norm_num) (ε' := 1 / 2 ^ 90) (by norm_num)
  have s4 := s5.step c4 fx fx' X1 X2' rfl hξ (by norm_num) (by norm_num) (by norm_num) (by norm_num) (by norm_num) (by norm_num) (Y' := 8 / 5 / 2 ^ 30) (by norm_num) (ε' := 1 / 2 ^ 90) (by norm_num)
  have s3 := s4.step c3 fx fx' X1 X2' rfl hξ (by norm_num) (by norm_num) (by norm_num) (by norm_num) (by norm_num) (by norm_num) (Y' := 8 / 5 / 2 ^ 22) (by norm_num) (ε' := 1 / 2 ^ 90) (by norm_num)
  have s2 := s3.step c2 fx fx' X1 X2' rfl hξ (by norm_num) (by norm_num) (by norm_num) (by norm_num) (by norm_num) (by norm_num) (Y' := 8 / 5 / 2 ^ 14) (by norm_num) (ε' := 1 / 2 ^ 90) (by norm_num)
  have s1 := s2.step c1 fx fx' X1 X2' rfl hξ (by norm_num) (by norm_num) (by norm_num) (by norm_num) (by norm_num) (by norm_num) (Y' := 8 / 5 / 2 ^ 6) (by norm_num) (ε' := 1 / 2 ^ 84) (by norm_num)
  have s0 := s1.step c0 fx fx' X1 X2' rfl hξ (by norm_num) (by norm_num) (by norm_num) (by norm_num) (by norm_num) (by norm_num) (Y' := 8 / 5) (by norm_num) (ε' := 1 / 2 ^ 77) (by norm_num)
  exact s0

end Verif
