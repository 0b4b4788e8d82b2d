import Verif.Lemmas.Exact
import Verif.Model.Manip

/-!
# Lemmas for the floating-point manipulation functions
-/

namespace Verif
open Fmt

namespace FPBits
variable (f : Fmt)

theorem setBiasedExp_eq {x e : ℕ} (hx : f.Valid x) (he : e < 2 ^ f.E) :
    setBiasedExp f x e = f.pack (f.sgn x) (e * 2 ^ f.F + f.frac x) := by
  have hfl := f.frac_lt x
  have h2 := f.mag_eq x
  have hp := f.pack_sgn_mag hx
  have hb := f.bexp_lt x
  unfold setBiasedExp
  rw [encodeExp_eq, Nat.mod_eq_of_lt he]
  unfold expMask
  -- compare bit by bit
  apply Nat.eq_of_testBit_eq
  intro i
  have tb : ∀ (s : Bool) (b r : ℕ), b < 2 ^ f.E → r < 2 ^ f.F → (f.pack s (b * 2 ^ f.F + r)).testBit i =
      if i < f.F then r.testBit i else if i < f.E + f.F then b.testBit (i - f.F) else (s && decide (i = f.E + f.F)) := by
    intro s b r hb hr
    have hlt : b * 2 ^ f.F + r < 2 ^ (f.E + f.F) := exp_frac_lt f hb hr
    unfold pack
    by_cases hi : i < f.E + f.F
    · have e1 : ((if s then 2 ^ (f.E + f.F) else 0) + (b * 2 ^ f.F + r)).testBit i = (b * 2 ^ f.F + r).testBit i := by
        cases s
        · simp
        · simp only [if_true]
          rw [Nat.testBit_two_pow_add_gt hi]
      rw [e1, Nat.mul_comm b, Nat.testBit_two_pow_mul_add _ hr]
      by_cases h1 : i < f.F
      · simp [h1]
      · simp [h1, hi]
    · have h1 : ¬ i < f.F := by omega
      rw [if_neg h1, if_neg hi]
      by_cases h3 : i = f.E + f.F
      · subst h3
        cases s
        · simp only [Bool.false_eq_true, if_false, zero_add, Bool.false_and]
          exact Nat.testBit_lt_two_pow hlt
        · simp only [if_true]
          rw [Nat.testBit_two_pow_add_eq, Nat.testBit_lt_two_pow hlt]; simp
      · rw [decide_eq_false h3, Bool.and_false]
        apply Nat.testBit_lt_two_pow
        have : 2 ^ (f.E + f.F + 1) ≤ 2 ^ i := Nat.pow_le_pow_right (by decide) (by omega)
        rw [pow_succ] at this
        split <;> omega
  have hx' : x = f.pack (f.sgn x) (f.bexp x * 2 ^ f.F + f.frac x) := by rw [← h2, hp]
  have ex : x.testBit i = if i < f.F then (f.frac x).testBit i else if i < f.E + f.F then (f.bexp x).testBit (i - f.F) else
      (f.sgn x && decide (i = f.E + f.F)) := by
    conv_lhs => rw [hx']
    exact tb _ _ _ hb hfl
  rw [tb _ _ _ he hfl]
  unfold merge
  simp only [Nat.testBit_xor, Nat.testBit_and, Nat.testBit_shiftLeft, Nat.testBit_two_pow_sub_one]
  rw [ex, Nat.mul_comm e, Nat.testBit_two_pow_mul]
  by_cases h1 : i < f.F
  · have : ¬ f.F ≤ i := by omega
    simp [h1, this]
  · by_cases h3 : i < f.E + f.F
    · have h4 : i - f.F < f.E := by omega
      have h5 : f.F ≤ i := by omega
      simp [h1, h3, h4, h5]
    · have h4 : ¬ i - f.F < f.E := by omega
      have h5 : f.F ≤ i := by omega
      simp [h1, h3, h4]

theorem setSign_zero (s : Bool) : setSign f 0 s = f.pack s 0 := by
  unfold setSign
  have h0 : f.Valid 0 := by unfold Valid; positivity
  rw [isNeg_eq f h0]
  have : f.sgn 0 = false := by unfold sgn; simp
  rw [this]
  unfold signMask pack
  cases s <;> simp [Nat.one_shiftLeft]

end FPBits

namespace CC
variable (f : Fmt)

/-- the fractional part of a representable number is representable -/
theorem frac_exact {x k : ℕ} (hx : f.Finite x) (h1 : (k : ℝ) ≤ |f.val x|) (h2 : |f.val x| < k + 1) :
    ∃ b, f.Finite b ∧ f.val b = sg (f.sgn x) * (|f.val x| - k) ∧ f.sgn b = f.sgn x := by
  have hu := f.minSub_pos
  have hus := f.uscale_minSub
  have hk : (k : ℝ) = ((k * f.uscale : ℕ) : ℝ) * f.minSub := by push_cast; rw [mul_assoc, hus, mul_one]
  have hk1 : (k : ℝ) + 1 = (((k + 1) * f.uscale : ℕ) : ℝ) * f.minSub := by push_cast; rw [mul_assoc, hus, mul_one]
  have hA := abs_val f x
  have hle : k * f.uscale ≤ f.umag (f.mag x) := by
    rw [hk, hA] at h1; exact_mod_cast le_of_mul_le_mul_right h1 hu
  have hlt : f.umag (f.mag x) < (k + 1) * f.uscale := by
    rw [hk1, hA] at h2; exact_mod_cast lt_of_mul_lt_mul_right h2 hu.le
  have hdiff : |f.val x| - k = ((f.umag (f.mag x) - k * f.uscale : ℕ) : ℝ) * f.minSub := by
    rw [Nat.cast_sub hle, sub_mul, ← hA, ← hk]
  have hinf := f.umag_lt_inf hx
  rw [hdiff]
  have hum := umag_eq_gs f (f.mag x)
  have hgs := f.gs_lt (f.mag x)
  rcases le_or_gt (f.gk (f.mag x)) (f.bias + f.F - 1) with hc | hc
  · have : f.umag (f.mag x) - k * f.uscale = (f.gs (f.mag x) - k * 2 ^ (f.bias + f.F - 1 - f.gk (f.mag x))) * 2 ^ f.gk (f.mag x) := by
      rw [hum, Nat.sub_mul]; congr 1
      unfold uscale
      rw [mul_assoc, ← pow_add]; congr 2; omega
    rw [this]
    exact f.exists_exact (f.sgn x) (le_trans (Nat.sub_le _ _) hgs.le) (by rw [← this]; omega)
  · have hd : f.uscale ∣ f.umag (f.mag x) := by
      rw [hum]; exact Dvd.dvd.mul_left (Nat.pow_dvd_pow 2 hc.le) _
    obtain ⟨q, hq⟩ := hd
    have hup := f.uscale_pos
    have : k = q := by
      rw [hq, Nat.mul_comm k] at hle
      rw [hq, Nat.mul_comm (k + 1)] at hlt
      have a1 := Nat.le_of_mul_le_mul_left hle hup
      have a2 := Nat.lt_of_mul_lt_mul_left hlt
      omega
    have h0 : f.umag (f.mag x) - k * f.uscale = 0 := by rw [hq, this, Nat.mul_comm]; omega
    rw [h0]
    refine ⟨f.zero (f.sgn x), f.finite_zero _, by rw [f.val_zero]; simp, f.sgn_zero _⟩

/-- doubling a subnormal -/
theorem hmul_two_sub (hw : f.Wide) (m : Mode) {s : Bool} {n : ℕ} (hn : n < 2 ^ f.F) :
    f.hmul m (f.pack s n) (twoLit f false) = f.pack s (2 * n) := by
  have hp := f.two_pow_F_pos
  have hip := f.infMag_pos
  have h2n : 2 * n < 2 ^ (f.F + 1) := by rw [pow_succ]; omega
  have hlt : 2 * n < f.infMag := by omega
  have hlt1 : n < f.infMag := by omega
  have hmul := f.hmul_spec m (f.finite_pack s hlt1) (two_val f hw false).1
  have hv : f.val (f.pack s n) * f.val (twoLit f false) = f.val (f.pack s (2 * n)) := by
    rw [(two_val f hw false).2.1, val_pack f s (lt_trans hlt1 f.infMag_lt), val_pack f s (lt_trans hlt f.infMag_lt),
      umag_small f h2n, umag_small f (by omega), sg_false]
    push_cast; ring
  rw [hv, (two_val f hw false).2.2, f.sgn_pack s (lt_trans hlt1 f.infMag_lt), Bool.xor_false] at hmul
  exact RoundsTo.exact_eq f (f.finite_pack s hlt) hmul (fun _ => f.sgn_pack s (lt_trans hlt f.infMag_lt))

theorem isSubnormal_pack {s : Bool} {n : ℕ} (hn : n < 2 ^ (f.E + f.F)) : FPBits.isSubnormal f (f.pack s n) = decide (n < 2 ^ f.F) := by
  rw [FPBits.isSubnormal_eq]
  unfold bexp
  rw [mag_pack f s hn]
  congr 1
  rw [Nat.div_eq_zero_iff]
  have := f.two_pow_F_pos
  simp

/-- what the normalisation loop returns -/
theorem frexpLoop_spec (hw : f.Wide) (hm : Mode) (s : Bool) : ∀ (fuel n : ℕ) (e : ℤ), 0 < n → n < 2 ^ (f.F + 1) →
    2 ^ f.F ≤ n * 2 ^ fuel → ∃ j : ℕ, 2 ^ f.F ≤ n * 2 ^ j ∧ n * 2 ^ j < 2 ^ (f.F + 1) ∧
      frexpLoop f hm fuel (f.pack s n) e = some (f.pack s (n * 2 ^ j), e - j) := by
  intro fuel
  induction fuel with
  | zero =>
    intro n e h0 hn hge
    refine ⟨0, by simpa using hge, by simpa using hn, ?_⟩
    have hlt : n < 2 ^ (f.E + f.F) := by have := f.infMag_pos; have := f.infMag_lt; omega
    unfold frexpLoop
    rw [isSubnormal_pack f hlt]
    simp at hge
    simp [hge]
  | succ fuel ih =>
    intro n e h0 hn hge
    have hlt : n < 2 ^ (f.E + f.F) := by have := f.infMag_pos; have := f.infMag_lt; omega
    unfold frexpLoop
    rw [isSubnormal_pack f hlt]
    by_cases h : n < 2 ^ f.F
    · have e1 : decide (n < 2 ^ f.F) = true := by simpa using h
      rw [e1]
      simp only [if_true]
      rw [hmul_two_sub f hw hm h]
      obtain ⟨j, h1, h2, h3⟩ := ih (2 * n) (e - 1) (by omega) (by rw [pow_succ]; omega) (by rw [pow_succ] at hge; nlinarith)
      refine ⟨j + 1, ?_, ?_, ?_⟩
      · rw [pow_succ]; calc _ ≤ _ := h1
          _ = _ := by ring
      · rw [pow_succ 2 j]; calc n * (2 ^ j * 2) = 2 * n * 2 ^ j := by ring
          _ < _ := h2
      · rw [h3]; congr 2
        · congr 1; rw [pow_succ]; ring
        · push_cast; ring
    · refine ⟨0, by simpa using h, by simpa using hn, ?_⟩
      simp [h]

theorem bexp_pack {s : Bool} {e r : ℕ} (he : e < 2 ^ f.E) (hr : r < 2 ^ f.F) : f.bexp (f.pack s (e * 2 ^ f.F + r)) = e := by
  unfold bexp
  rw [mag_pack f s (FPBits.exp_frac_lt f he hr), Nat.mul_comm, Nat.mul_add_div f.two_pow_F_pos, Nat.div_eq_of_lt hr]; rfl
theorem frac_pack {s : Bool} {e r : ℕ} (he : e < 2 ^ f.E) (hr : r < 2 ^ f.F) : f.frac (f.pack s (e * 2 ^ f.F + r)) = r := by
  rw [frac_eq, mag_pack f s (FPBits.exp_frac_lt f he hr), Nat.mul_comm, Nat.mul_add_mod, Nat.mod_eq_of_lt hr]

theorem normal_val {s : Bool} {e r : ℕ} (he : e < 2 ^ f.E) (h0 : e ≠ 0) (hr : r < 2 ^ f.F) :
    f.val (f.pack s (e * 2 ^ f.F + r)) = sg s * ((2 : ℝ) ^ ((e : ℤ) - f.bias) * (1 + (r : ℝ) / 2 ^ f.F)) := by
  unfold val
  rw [bexp_pack f he hr, frac_pack f he hr, if_neg h0, f.sgn_pack s (FPBits.exp_frac_lt f he hr)]; rfl

theorem normal_finite {s : Bool} {e r : ℕ} (he : e < 2 ^ f.E - 1) (hr : r < 2 ^ f.F) : f.Finite (f.pack s (e * 2 ^ f.F + r)) :=
  ⟨f.valid_pack s (FPBits.exp_frac_lt f (by omega) hr), by rw [bexp_pack f (by omega) hr]; omega⟩

theorem bias_lt : 2 * f.bias + 1 = 2 ^ f.E - 1 := by have := f.two_bias; omega

/-- replacing the exponent field by that of `[1/2, 1)` -/
theorem setHalf_spec (hw : f.Wide) {y : ℕ} (hy : f.Finite y) (hb : f.bexp y ≠ 0) :
    let r := FPBits.setBiasedExp f y (f.bias - 1)
    f.Finite r ∧ f.sgn r = f.sgn y ∧ 1 / 2 ≤ |f.val r| ∧ |f.val r| < 1 ∧ f.val y = f.val r * 2 ^ ((f.bexp y : ℤ) - f.bias + 1) := by
  have hbl := bias_lt f
  have h2 := hw.2
  have hF := f.frac_lt y
  intro r
  have hr : r = f.pack (f.sgn y) ((f.bias - 1) * 2 ^ f.F + f.frac y) := FPBits.setBiasedExp_eq f hy.valid (by omega)
  have hv := normal_val f (s := f.sgn y) (e := f.bias - 1) (by omega) (by omega) hF
  rw [← hr] at hv
  have hvy : f.val y = sg (f.sgn y) * ((2 : ℝ) ^ ((f.bexp y : ℤ) - f.bias) * (1 + (f.frac y : ℝ) / 2 ^ f.F)) := by
    unfold val; rw [if_neg hb]; rfl
  have he : (((f.bias - 1 : ℕ) : ℤ) - f.bias) = -1 := by omega
  rw [he] at hv
  have hq : (0 : ℝ) ≤ (f.frac y : ℝ) / 2 ^ f.F := by positivity
  have hq1 : (f.frac y : ℝ) / 2 ^ f.F < 1 := by
    rw [div_lt_one (by positivity)]; exact_mod_cast hF
  have habs : |f.val r| = 1 / 2 * (1 + (f.frac y : ℝ) / 2 ^ f.F) := by
    rw [hv, abs_mul, abs_sg, one_mul, abs_of_nonneg] <;> norm_num
    linarith
  refine ⟨?_, ?_, ?_, ?_, ?_⟩
  · rw [hr]; exact normal_finite f (by omega) hF
  · rw [hr]; exact f.sgn_pack _ (FPBits.exp_frac_lt f (by omega) hF)
  · rw [habs]; linarith
  · rw [habs]; linarith
  · rw [hvy, hv, zpow_add₀ (by norm_num)]; norm_num; ring

/-- the full specification of `frexp_impl` on finite non-zero arguments -/
theorem frexp_spec (hw : f.Wide) (hm : Mode) {x : ℕ} (e0 : ℤ) (hx : f.Finite x) (h0 : f.val x ≠ 0) :
    ∃ r e, frexp f hm x e0 = some (r, e) ∧ f.Finite r ∧ f.sgn r = f.sgn x ∧ 1 / 2 ≤ |f.val r| ∧ |f.val r| < 1 ∧
      f.val x = f.val r * 2 ^ e := by
  have hz : FPBits.isZero f x = false := by
    rw [FPBits.isZero_eq]; unfold zeroB; simpa using fun h => h0 ((f.val_eq_zero_iff x).2 h)
  have hmag : f.mag x ≠ 0 := fun h => h0 ((f.val_eq_zero_iff x).2 h)
  unfold frexp
  rw [hz, isInfOrNan_finite f hx]
  simp only [Bool.false_eq_true, if_false]
  rw [FPBits.isSubnormal_eq]
  by_cases hb : f.bexp x = 0
  · simp only [hb, decide_true, if_true]
    have hme := f.mag_eq x
    rw [hb, zero_mul, zero_add] at hme
    have hF := f.frac_lt x
    have hpk : x = f.pack (f.sgn x) (f.frac x) := by rw [← hme, f.pack_sgn_mag hx.valid]
    have hex : FPBits.explicitExponent f x = 1 - (f.bias : ℤ) := by
      unfold FPBits.explicitExponent
      rw [hz, FPBits.biasedExp_eq, hb]; simp
    obtain ⟨j, h1, h2, h3⟩ := frexpLoop_spec f hw hm (f.sgn x) (f.F + 1) (f.frac x) (1 - (f.bias : ℤ)) (by omega)
      (by rw [pow_succ]; omega) (by
        have : 2 ^ f.F ≤ 2 ^ (f.F + 1) := Nat.pow_le_pow_right (by decide) (by omega)
        exact le_trans this (Nat.le_mul_of_pos_left _ (by omega)))
    rw [← hpk] at h3
    rw [hex, h3]
    have hN : f.frac x * 2 ^ j = 1 * 2 ^ f.F + (f.frac x * 2 ^ j - 2 ^ f.F) := by omega
    have hNr : f.frac x * 2 ^ j - 2 ^ f.F < 2 ^ f.F := by rw [pow_succ] at h2; omega
    have hE := f.two_pow_E
    have hbp := bexp_pack f (s := f.sgn x) (e := 1) (by omega) hNr
    have hfp := normal_finite f (s := f.sgn x) (e := 1) (by omega) hNr
    rw [← hN] at hbp hfp
    have hsp := setHalf_spec f hw hfp (by rw [hbp]; decide)
    simp only at hsp
    rw [hbp] at hsp
    refine ⟨_, _, rfl, hsp.1, ?_, hsp.2.2.1, hsp.2.2.2.1, ?_⟩
    · rw [hsp.2.1]; exact f.sgn_pack _ (by rw [hN]; exact FPBits.exp_frac_lt f (by omega) hNr)
    · have hlt : f.frac x * 2 ^ j < 2 ^ (f.E + f.F) := by rw [hN]; exact FPBits.exp_frac_lt f (by omega) hNr
      have hv := val_pack f (f.sgn x) hlt
      rw [umag_small f h2, hsp.2.2.2.2] at hv
      have hvx : f.val x = sg (f.sgn x) * ((f.frac x : ℝ) * f.minSub) := by
        rw [val_eq, hme, umag_small f (by rw [pow_succ]; omega)]
      have hp : (2 : ℝ) ^ (j : ℤ) ≠ 0 := zpow_ne_zero _ (by norm_num)
      have : f.val x * 2 ^ (j : ℤ) = f.val (FPBits.setBiasedExp f (f.pack (f.sgn x) (f.frac x * 2 ^ j)) (f.bias - 1)) *
          2 ^ (((1 : ℕ) : ℤ) - f.bias + 1) := by
        rw [hv, hvx, zpow_natCast]; push_cast; ring
      have e2 : (1 - (f.bias : ℤ) - j + 1) = (((1 : ℕ) : ℤ) - f.bias + 1) - j := by push_cast; ring
      rw [e2, zpow_sub₀ (by norm_num), ← mul_div_assoc, ← this, mul_div_cancel_right₀ _ hp]
  · simp only [hb, decide_false, Bool.false_eq_true, if_false]
    have hsp := setHalf_spec f hw hx hb
    simp only at hsp
    exact ⟨_, _, rfl, hsp.1, hsp.2.1, hsp.2.2.1, hsp.2.2.2.1, by rw [FPBits.getExponent, FPBits.biasedExp_eq]; exact hsp.2.2.2.2⟩

end CC
end Verif
