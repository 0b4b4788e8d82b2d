import Verif.Model.Nearest
import Verif.Lemmas.Basic
import Mathlib.Algebra.Order.Floor.Ring
import Mathlib.Algebra.Order.Round
import Mathlib.Tactic.FieldSimp

/-! # Helper lemmas for the rounding functions -/

namespace Verif
open Fmt

/-- Every format with at least as much exponent range as precision (all IEEE interchange formats): integers up to `2^F` are
representable and `1/2` is normal. -/
def Fmt.Wide (f : Fmt) : Prop := f.F ≤ f.bias ∧ 2 ≤ f.bias
theorem binary32_wide : binary32.Wide := by unfold Fmt.Wide; decide
theorem binary64_wide : binary64.Wide := by unfold Fmt.Wide; decide

namespace CC
variable (f : Fmt)

theorem val_normal {x : ℕ} {k : ℤ} (hb : f.bexp x ≠ 0) (he : FPBits.getExponent f x = k) :
    |f.val x| = (2 : ℝ) ^ (k - f.F) * ((2 ^ f.F + f.frac x : ℕ) : ℝ) := by
  unfold FPBits.getExponent at he
  rw [FPBits.biasedExp_eq] at he
  unfold val
  rw [abs_mul, if_neg hb]
  have h1 : |(if f.sgn x = true then (-1 : ℝ) else 1)| = 1 := by split <;> simp
  rw [h1, one_mul, he, abs_of_nonneg (mul_nonneg (zpow_pos (by norm_num) _).le (by positivity)), zpow_sub₀ (by norm_num)]
  have : (2 : ℝ) ^ f.F ≠ 0 := by positivity
  push_cast
  rw [zpow_natCast]
  field_simp

theorem bexp_ne_zero_of_exp {x : ℕ} (h : -1 < FPBits.getExponent f x) : f.bexp x ≠ 0 := by
  unfold FPBits.getExponent at h
  rw [FPBits.biasedExp_eq] at h
  have := f.bias_pos
  omega

/-- integers up to `2^F` are representable -/
theorem finite_nat (hw : f.Wide) {q : ℕ} (hq : q ≤ 2 ^ f.F) (s : Bool) :
    ∃ b, f.Finite b ∧ f.val b = sg s * q ∧ f.sgn b = s := by
  have h1 : q ≤ 2 ^ (f.F + 1) := le_trans hq (Nat.pow_le_pow_right (by decide) (by omega))
  have hu := f.umag_floorIdx_of_dvd (k := f.bias + f.F - 1) h1
  have hle : q * 2 ^ (f.bias + f.F - 1) ≤ f.umag (f.infMag - 1) := by
    rw [umag_max]
    have e1 : q * 2 ^ (f.bias + f.F - 1) ≤ 2 ^ f.F * 2 ^ (f.bias + f.F - 1) := Nat.mul_le_mul_right _ hq
    have e2 : 2 ^ (f.bias + f.F - 1) ≤ 2 ^ (2 * f.bias - 1) := Nat.pow_le_pow_right (by decide) (by have := hw.1; omega)
    have e3 : 2 ^ f.F * 2 ^ (f.bias + f.F - 1) ≤ 2 ^ f.F * 2 ^ (2 * f.bias - 1) := Nat.mul_le_mul_left _ e2
    have e4 : 2 ^ (2 * f.bias) = 2 * 2 ^ (2 * f.bias - 1) := by
      rw [← pow_succ']; congr 1; have := hw.2; omega
    rw [e4]
    have e5 : 1 ≤ 2 ^ f.F := f.two_pow_F_pos
    have e6 : 2 ^ (2 * f.bias - 1) ≤ 2 ^ f.F * 2 ^ (2 * f.bias - 1) := Nat.le_mul_of_pos_left _ e5
    have e7 : 2 ^ f.F * (2 * 2 ^ (2 * f.bias - 1)) = 2 * (2 ^ f.F * 2 ^ (2 * f.bias - 1)) := by ring
    omega
  rw [← hu, umag_le_iff] at hle
  have hpos : 0 < 2 ^ (f.F + 1) := by positivity
  have hip := f.infMag_pos
  have hlt : f.floorIdx (q * 2 ^ (f.bias + f.F - 1)) < f.infMag := by omega
  refine ⟨f.pack s _, f.finite_pack s hlt, ?_, f.sgn_pack s (lt_trans hlt f.infMag_lt)⟩
  rw [val_pack f s (lt_trans hlt f.infMag_lt), hu]
  have := f.uscale_minSub
  unfold uscale at this
  push_cast at this ⊢
  rw [mul_assoc, this, mul_one]

/-- adding a unit of the same sign to an integer-valued datum is exact -/
theorem hadd_one (hw : f.Wide) (m : Mode) {x q : ℕ} {s : Bool} (hx : f.Finite x) (hv : f.val x = sg s * q)
    (hq : q < 2 ^ f.F) : f.Finite (f.hadd m x (oneLit f s)) ∧ f.val (f.hadd m x (oneLit f s)) = sg s * ((q + 1 : ℕ) : ℝ) ∧
      f.sgn (f.hadd m x (oneLit f s)) = s := by
  have h := f.hadd_spec m hx (finite_one f s)
  obtain ⟨b, hb, hbv, hbs⟩ := finite_nat f hw (q := q + 1) (by omega) s
  have hsum : f.val x + f.val (oneLit f s) = f.val b := by
    rw [hv, val_one, hbv]; push_cast; ring
  rw [hsum] at h
  have h0 : f.val b ≠ 0 := by
    rw [hbv]; have : (0 : ℝ) < ((q + 1 : ℕ) : ℝ) := by exact_mod_cast Nat.succ_pos q
    exact mul_ne_zero (sg_ne_zero s) this.ne'
  have := RoundsTo.exact_eq f hb h (fun h => absurd h h0)
  rw [this]; exact ⟨hb, hbv, hbs⟩

theorem hneg_one (s : Bool) : f.hneg (oneLit f s) = oneLit f (!s) := by
  unfold hneg; rw [sgn_one, mag_one]; rfl

theorem hsub_one (m : Mode) (x : ℕ) : f.hsub m x (oneLit f false) = f.hadd m x (oneLit f true) := by
  unfold hsub; rw [hneg_one]; rfl

/-- the branch structure of the truncation: what each exponent range means -/
inductive Range (x : ℕ) : Prop
  /-- already integral: `|x| = n` -/
  | integral (n : ℕ) (h : |f.val x| = n) (he : (f.F : ℤ) ≤ FPBits.getExponent f x)
  /-- below one -/
  | small (h : |f.val x| < 1) (he : FPBits.getExponent f x ≤ -1)
  /-- `|x| = (q·2^t + r) / 2^t` -/
  | mid (t q r : ℕ) (ht : 1 ≤ t) (htF : t ≤ f.F) (he : FPBits.getExponent f x = (f.F : ℤ) - t) (hr : r < 2 ^ t)
      (hS : 2 ^ f.F + f.frac x = q * 2 ^ t + r) (hv : |f.val x| = (q : ℝ) + r / 2 ^ t)

theorem range {x : ℕ} : Range f x := by
  rcases le_or_gt (f.F : ℤ) (FPBits.getExponent f x) with h1 | h1
  · have hb := bexp_ne_zero_of_exp f (x := x) (by omega)
    obtain ⟨j, hj⟩ : ∃ j : ℕ, FPBits.getExponent f x - f.F = j := ⟨_, (Int.toNat_of_nonneg (by omega)).symm⟩
    refine .integral (2 ^ j * (2 ^ f.F + f.frac x)) ?_ h1
    rw [val_normal f hb rfl, hj, zpow_natCast]; push_cast; ring
  rcases le_or_gt (FPBits.getExponent f x) (-1) with h2 | h2
  · refine .small ?_ h2
    by_cases hb : f.bexp x = 0
    · unfold val
      rw [abs_mul, if_pos hb]
      have h1' : |(if f.sgn x = true then (-1 : ℝ) else 1)| = 1 := by split <;> simp
      rw [h1', one_mul, abs_of_nonneg (mul_nonneg (zpow_pos (by norm_num) _).le (by positivity))]
      have hF : (f.frac x : ℝ) < 2 ^ f.F := by exact_mod_cast f.frac_lt x
      have hp : (0 : ℝ) < 2 ^ f.F := by positivity
      have h3 : (f.frac x : ℝ) / 2 ^ f.F < 1 := by rw [div_lt_one hp]; exact hF
      have h4 : (2 : ℝ) ^ (1 - (f.bias : ℤ)) ≤ 1 := by
        apply zpow_le_one_of_nonpos₀ (by norm_num); have := f.bias_pos; omega
      have h5 : (0 : ℝ) < (2 : ℝ) ^ (1 - (f.bias : ℤ)) := zpow_pos (by norm_num) _
      calc (2 : ℝ) ^ (1 - (f.bias : ℤ)) * ((f.frac x : ℝ) / 2 ^ f.F)
          < (2 : ℝ) ^ (1 - (f.bias : ℤ)) * 1 := mul_lt_mul_of_pos_left h3 h5
        _ ≤ 1 := by rw [mul_one]; exact h4
    · rw [val_normal f hb rfl]
      have hF : ((2 ^ f.F + f.frac x : ℕ) : ℝ) < (2 : ℝ) ^ ((f.F : ℤ) + 1) := by
        have := f.frac_lt x
        have : 2 ^ f.F + f.frac x < 2 ^ (f.F + 1) := by rw [pow_succ]; omega
        rw [show (f.F : ℤ) + 1 = ((f.F + 1 : ℕ) : ℤ) by push_cast; ring, zpow_natCast]
        exact_mod_cast this
      have h5 : (0 : ℝ) < (2 : ℝ) ^ (FPBits.getExponent f x - f.F) := zpow_pos (by norm_num) _
      calc (2 : ℝ) ^ (FPBits.getExponent f x - f.F) * ((2 ^ f.F + f.frac x : ℕ) : ℝ)
          < (2 : ℝ) ^ (FPBits.getExponent f x - f.F) * (2 : ℝ) ^ ((f.F : ℤ) + 1) := mul_lt_mul_of_pos_left hF h5
        _ = (2 : ℝ) ^ (FPBits.getExponent f x + 1) := by rw [← zpow_add₀ (by norm_num)]; congr 1; ring
        _ ≤ 1 := by apply zpow_le_one_of_nonpos₀ (by norm_num); omega
  · have hb := bexp_ne_zero_of_exp f (x := x) (by omega)
    obtain ⟨t, ht⟩ : ∃ t : ℕ, (f.F : ℤ) - FPBits.getExponent f x = t := ⟨_, (Int.toNat_of_nonneg (by omega)).symm⟩
    have hdm := Nat.div_add_mod (2 ^ f.F + f.frac x) (2 ^ t)
    refine .mid t ((2 ^ f.F + f.frac x) / 2 ^ t) ((2 ^ f.F + f.frac x) % 2 ^ t) (by omega) (by omega) (by omega)
      (Nat.mod_lt _ (by positivity)) (by rw [Nat.mul_comm]; exact hdm.symm) ?_
    rw [val_normal f hb rfl, show FPBits.getExponent f x - (f.F : ℤ) = -(t : ℤ) by omega, zpow_neg, zpow_natCast]
    have hp : (2 : ℝ) ^ t ≠ 0 := by positivity
    have : ((2 ^ f.F + f.frac x : ℕ) : ℝ) = 2 ^ t * (((2 ^ f.F + f.frac x) / 2 ^ t : ℕ) : ℝ) + (((2 ^ f.F + f.frac x) % 2 ^ t : ℕ) : ℝ) := by
      exact_mod_cast hdm.symm
    rw [this]; field_simp

theorem val_eq_sg_abs (x : ℕ) : f.val x = sg (f.sgn x) * |f.val x| := by
  rw [abs_val, val_eq]

/-- the masked pattern of the middle range -/
theorem truncated_spec {x t q r : ℕ} (hx : f.Finite x) (ht : 1 ≤ t) (htF : t ≤ f.F)
    (he : FPBits.getExponent f x = (f.F : ℤ) - t) (hr : r < 2 ^ t) (hS : 2 ^ f.F + f.frac x = q * 2 ^ t + r) :
    let y := FPBits.setMantissa f x ((FPBits.getMantissa f x >>> t) <<< t)
    f.Finite y ∧ f.val y = sg (f.sgn x) * q ∧ f.sgn y = f.sgn x ∧ q < 2 ^ f.F ∧ 1 ≤ q ∧
      f.frac y = f.frac x / 2 ^ t * 2 ^ t ∧ f.bexp y = f.bexp x ∧ f.frac x % 2 ^ t = r := by
  intro y
  have hb := bexp_ne_zero_of_exp f (x := x) (by omega)
  have hfl := f.frac_lt x
  have hm : f.frac x / 2 ^ t * 2 ^ t < 2 ^ f.F := lt_of_le_of_lt (Nat.div_mul_le_self _ _) hfl
  have hy : y = f.pack (f.sgn x) (f.bexp x * 2 ^ f.F + f.frac x / 2 ^ t * 2 ^ t) := by
    show FPBits.setMantissa f x _ = _
    rw [FPBits.getMantissa_eq, Nat.shiftRight_eq_div_pow, Nat.shiftLeft_eq, FPBits.setMantissa_eq f hx.valid hm]
  have hlt : f.bexp x * 2 ^ f.F + f.frac x / 2 ^ t * 2 ^ t < f.infMag := by
    have h1 := ((f.finite_iff x).1 hx).2
    rw [f.mag_eq] at h1
    have := Nat.div_mul_le_self (f.frac x) (2 ^ t)
    omega
  have hlt' := lt_trans hlt f.infMag_lt
  have hmag : f.mag y = f.bexp x * 2 ^ f.F + f.frac x / 2 ^ t * 2 ^ t := by rw [hy]; exact f.mag_pack _ hlt'
  have hsgn : f.sgn y = f.sgn x := by rw [hy]; exact f.sgn_pack _ hlt'
  have hfrac : f.frac y = f.frac x / 2 ^ t * 2 ^ t := by
    rw [frac_eq, hmag, Nat.mul_comm, Nat.mul_add_mod, Nat.mod_eq_of_lt hm]
  have hbexp : f.bexp y = f.bexp x := by
    unfold bexp; rw [hmag, Nat.mul_comm, Nat.mul_add_div f.two_pow_F_pos, Nat.div_eq_of_lt hm]; rfl
  -- q
  have hFt : 2 ^ f.F = 2 ^ (f.F - t) * 2 ^ t := by rw [← pow_add]; congr 1; omega
  have hpos : 0 < 2 ^ t := by positivity
  have hq : q = 2 ^ (f.F - t) + f.frac x / 2 ^ t := by
    have h1 : (2 ^ f.F + f.frac x) / 2 ^ t = 2 ^ (f.F - t) + f.frac x / 2 ^ t := by
      rw [hFt, Nat.add_comm, Nat.add_mul_div_right _ _ hpos, Nat.add_comm]
    rw [hS, Nat.mul_comm q, Nat.mul_add_div hpos, Nat.div_eq_of_lt hr] at h1
    omega
  have hrr : f.frac x % 2 ^ t = r := by
    have h1 : (2 ^ f.F + f.frac x) % 2 ^ t = f.frac x % 2 ^ t := by
      rw [hFt, Nat.add_comm, Nat.add_mul_mod_self_right]
    rw [hS, Nat.mul_comm q, Nat.mul_add_mod, Nat.mod_eq_of_lt hr] at h1
    exact h1.symm
  have hqS : 2 ^ f.F + f.frac y = q * 2 ^ t := by
    rw [hfrac, hq, Nat.add_mul, ← hFt]
  have hqlt : q < 2 ^ f.F := by
    have h2 : q * 2 ^ 1 ≤ q * 2 ^ t := Nat.mul_le_mul_left _ (Nat.pow_le_pow_right (by decide) ht)
    have h3 := f.frac_lt y
    omega
  refine ⟨by rw [hy]; exact f.finite_pack _ hlt, ?_, hsgn, hqlt, ?_, hfrac, hbexp, hrr⟩
  · rw [val_eq_sg_abs, hsgn]
    congr 1
    have he' : FPBits.getExponent f y = (f.F : ℤ) - t := by
      rw [← he]; unfold FPBits.getExponent; rw [FPBits.biasedExp_eq, FPBits.biasedExp_eq, hbexp]
    rw [val_normal f (by rw [hbexp]; exact hb) he', hqS, show (f.F : ℤ) - t - f.F = -(t : ℤ) by ring, zpow_neg, zpow_natCast]
    push_cast
    have hp : (2 : ℝ) ^ t ≠ 0 := by positivity
    field_simp
  · rw [hq]; exact le_trans Nat.one_le_two_pow (Nat.le_add_right _ _)

end CC
end Verif

namespace Verif
open Fmt
namespace CC
variable (f : Fmt)

/-- what integer magnitude `k` each direction selects for the magnitude `u` of a number of sign `s` -/
def MagSpec (d : DMode) (s : Bool) (u : ℝ) (k : ℕ) : Prop :=
  match d with
  | .towardzero => (k : ℝ) ≤ u ∧ u < k + 1
  | .downward => if s then u ≤ k ∧ (k : ℝ) < u + 1 else (k : ℝ) ≤ u ∧ u < k + 1
  | .upward => if s then (k : ℝ) ≤ u ∧ u < k + 1 else u ≤ k ∧ (k : ℝ) < u + 1
  | .tonearestfromzero => |(k : ℝ) - u| ≤ 1 / 2 ∧ (|(k : ℝ) - u| = 1 / 2 → u < k)
  | .tonearest => |(k : ℝ) - u| ≤ 1 / 2 ∧ (|(k : ℝ) - u| = 1 / 2 → Even k)

theorem MagSpec.self (d : DMode) (s : Bool) (k : ℕ) : MagSpec d s k k := by
  cases d <;> cases s <;> simp [MagSpec]

theorem small_half (hw : f.Wide) {x : ℕ} (_hb : FPBits.getExponent f x ≤ -1) :
    (FPBits.getExponent f x < -1 → |f.val x| < 1 / 2) ∧
    (FPBits.getExponent f x = -1 → 1 / 2 ≤ |f.val x| ∧ (f.frac x = 0 → |f.val x| = 1 / 2) ∧ (f.frac x ≠ 0 → 1 / 2 < |f.val x|)) := by
  constructor
  · intro h
    by_cases hb0 : f.bexp x = 0
    · unfold val
      rw [abs_mul, if_pos hb0]
      have h1' : |(if f.sgn x = true then (-1 : ℝ) else 1)| = 1 := by split <;> simp
      rw [h1', one_mul, abs_of_nonneg (mul_nonneg (zpow_pos (by norm_num) _).le (by positivity))]
      have hF : (f.frac x : ℝ) < 2 ^ f.F := by exact_mod_cast f.frac_lt x
      have hp : (0 : ℝ) < 2 ^ f.F := by positivity
      have h3 : (f.frac x : ℝ) / 2 ^ f.F < 1 := by rw [div_lt_one hp]; exact hF
      have h4 : (2 : ℝ) ^ (1 - (f.bias : ℤ)) ≤ (2 : ℝ) ^ (-1 : ℤ) := by
        apply zpow_le_zpow_right₀ (by norm_num); have := hw.2; omega
      have h5 : (0 : ℝ) < (2 : ℝ) ^ (1 - (f.bias : ℤ)) := zpow_pos (by norm_num) _
      calc (2 : ℝ) ^ (1 - (f.bias : ℤ)) * ((f.frac x : ℝ) / 2 ^ f.F)
          < (2 : ℝ) ^ (1 - (f.bias : ℤ)) * 1 := mul_lt_mul_of_pos_left h3 h5
        _ ≤ 1 / 2 := by rw [mul_one]; refine le_trans h4 ?_; norm_num
    · rw [val_normal f hb0 rfl]
      have hF : ((2 ^ f.F + f.frac x : ℕ) : ℝ) < (2 : ℝ) ^ ((f.F : ℤ) + 1) := by
        have := f.frac_lt x
        have : 2 ^ f.F + f.frac x < 2 ^ (f.F + 1) := by rw [pow_succ]; omega
        rw [show (f.F : ℤ) + 1 = ((f.F + 1 : ℕ) : ℤ) by push_cast; ring, zpow_natCast]
        exact_mod_cast this
      have h5 : (0 : ℝ) < (2 : ℝ) ^ (FPBits.getExponent f x - f.F) := zpow_pos (by norm_num) _
      calc (2 : ℝ) ^ (FPBits.getExponent f x - f.F) * ((2 ^ f.F + f.frac x : ℕ) : ℝ)
          < (2 : ℝ) ^ (FPBits.getExponent f x - f.F) * (2 : ℝ) ^ ((f.F : ℤ) + 1) := mul_lt_mul_of_pos_left hF h5
        _ = (2 : ℝ) ^ (FPBits.getExponent f x + 1) := by rw [← zpow_add₀ (by norm_num)]; congr 1; ring
        _ ≤ (2 : ℝ) ^ (-1 : ℤ) := by apply zpow_le_zpow_right₀ (by norm_num); omega
        _ = 1 / 2 := by norm_num
  · intro h
    have hb0 : f.bexp x ≠ 0 := by
      unfold FPBits.getExponent at h; rw [FPBits.biasedExp_eq] at h
      have := hw.2; omega
    have hv : |f.val x| = 1 / 2 + (f.frac x : ℝ) / (2 * 2 ^ f.F) := by
      rw [val_normal f hb0 h, show (-1 : ℤ) - f.F = -((f.F + 1 : ℕ) : ℤ) by push_cast; ring, zpow_neg, zpow_natCast, pow_succ]
      push_cast
      have : (2 : ℝ) ^ f.F ≠ 0 := by positivity
      field_simp
    refine ⟨?_, ?_, ?_⟩
    · rw [hv]; have : (0 : ℝ) ≤ (f.frac x : ℝ) / (2 * 2 ^ f.F) := by positivity
      linarith
    · intro h0; rw [hv, h0]; simp
    · intro h0
      have : (0 : ℝ) < f.frac x := by exact_mod_cast Nat.pos_of_ne_zero h0
      have : (0 : ℝ) < (f.frac x : ℝ) / (2 * 2 ^ f.F) := by positivity
      rw [hv]; linarith

theorem zero_val (s : Bool) : f.Finite (f.zero s) ∧ f.val (f.zero s) = sg s * ((0 : ℕ) : ℝ) ∧ f.sgn (f.zero s) = s :=
  ⟨f.finite_zero s, by rw [f.val_zero]; simp, f.sgn_zero s⟩
theorem one_val (s : Bool) : f.Finite (oneLit f s) ∧ f.val (oneLit f s) = sg s * ((1 : ℕ) : ℝ) ∧ f.sgn (oneLit f s) = s :=
  ⟨finite_one f s, by rw [val_one f]; simp, sgn_one f s⟩

theorem two_val (hw : f.Wide) (s : Bool) : f.Finite (twoLit f s) ∧ f.val (twoLit f s) = sg s * ((2 : ℕ) : ℝ) ∧ f.sgn (twoLit f s) = s := by
  have hlt : (f.bias + 1) * 2 ^ f.F < f.infMag := by
    rw [infMag_eq]
    have h1 := f.two_pow_F_pos
    have : (f.bias + 1) * 2 ^ f.F ≤ 2 * f.bias * 2 ^ f.F := Nat.mul_le_mul_right _ (by have := hw.2; omega)
    omega
  have hlt' := lt_trans hlt f.infMag_lt
  refine ⟨f.finite_pack s hlt, ?_, f.sgn_pack s hlt'⟩
  unfold twoLit
  rw [val_pack f s hlt']
  have hk : (f.bias + 1) * 2 ^ f.F = f.bias * 2 ^ f.F + 2 ^ f.F := by ring
  rw [hk, umag_of f (Nat.pow_lt_pow_right (by decide) (by omega)) (Or.inr le_rfl)]
  have := f.uscale_minSub
  have e : 2 ^ f.F * 2 ^ f.bias = 2 * f.uscale := by
    unfold uscale; rw [← pow_add, ← pow_succ']; congr 1; have := f.bias_pos; omega
  rw [e]; push_cast; rw [mul_assoc, this, mul_one]

theorem isInfOrNan_finite {x : ℕ} (hx : f.Finite x) : FPBits.isInfOrNan f x = false := by
  unfold FPBits.isInfOrNan; rw [FPBits.isFinite_eq]; simp; exact ((f.finite_iff x).1 hx).2

theorem heq_finite {x y : ℕ} (hx : f.Finite x) (hy : f.Finite y) : f.heq x y = true ↔ f.val x = f.val y := by
  unfold heq; rw [(f.finite_B hx).1, (f.finite_B hy).1, val_eq_iff_key]; simp
theorem hlt_finite {x y : ℕ} (hx : f.Finite x) (hy : f.Finite y) : f.hlt x y = true ↔ f.val x < f.val y := by
  unfold hlt; rw [(f.finite_B hx).1, (f.finite_B hy).1, val_lt_iff_key]; simp
theorem hle_finite {x y : ℕ} (hx : f.Finite x) (hy : f.Finite y) : f.hle x y = true ↔ f.val x ≤ f.val y := by
  unfold hle; rw [(f.finite_B hx).1, (f.finite_B hy).1, val_le_iff_key]; simp

theorem trunc_spec {x : ℕ} (hx : f.Finite x) :
    ∃ k : ℕ, f.Finite (trunc f x) ∧ f.val (trunc f x) = sg (f.sgn x) * k ∧ f.sgn (trunc f x) = f.sgn x ∧
      MagSpec .towardzero (f.sgn x) |f.val x| k ∧ (k : ℝ) ≤ 2 ^ f.F ∨ (trunc f x = x ∧ |f.val x| = k) := by
  have hn := isInfOrNan_finite f hx
  unfold trunc
  rw [hn, heq_zero]
  simp only [Bool.false_eq_true, if_false]
  by_cases h0 : f.zeroB x = true
  · rw [if_pos h0]
    refine ⟨0, Or.inr ⟨rfl, ?_⟩⟩
    have : f.val x = 0 := (f.val_eq_zero_iff x).2 (by simpa [zeroB] using h0)
    rw [this]; simp
  rw [if_neg h0]
  rcases range f (x := x) with ⟨n, h, he⟩ | ⟨h, he⟩ | ⟨t, q, r, ht, htF, he, hr, hS, hv⟩
  · rw [if_pos (by exact he)]
    exact ⟨n, Or.inr ⟨rfl, h⟩⟩
  · rw [if_neg (by omega), if_pos he, FPBits.zero_eq, FPBits.isNeg_eq f hx.valid]
    have := zero_val f (f.sgn x)
    refine ⟨0, Or.inl ⟨this.1, this.2.1, this.2.2, ?_, by simp⟩⟩
    simp only [MagSpec]; constructor <;> simp [h]
  · have ht' : ((f.F : ℤ) - FPBits.getExponent f x).toNat = t := by rw [he]; omega
    rw [if_neg (by omega), if_neg (by omega), ht']
    have hT := truncated_spec f hx ht htF he hr hS
    refine ⟨q, Or.inl ⟨hT.1, hT.2.1, hT.2.2.1, ?_, ?_⟩⟩
    · simp only [MagSpec]
      have hp : (0 : ℝ) < 2 ^ t := by positivity
      have h1 : (r : ℝ) / 2 ^ t < 1 := by rw [div_lt_one hp]; exact_mod_cast hr
      have h2 : (0 : ℝ) ≤ (r : ℝ) / 2 ^ t := by positivity
      rw [hv]; constructor <;> linarith
    · exact_mod_cast hT.2.2.2.1.le

theorem directionalRound_spec (hw : f.Wide) (hm : Mode) (d : DMode) {x : ℕ} (hx : f.Finite x) :
    ∃ k : ℕ, f.Finite (directionalRound f hm d x) ∧ f.val (directionalRound f hm d x) = sg (f.sgn x) * k ∧
      f.sgn (directionalRound f hm d x) = f.sgn x ∧ MagSpec d (f.sgn x) |f.val x| k := by
  have hn := isInfOrNan_finite f hx
  unfold directionalRound
  rw [hn, FPBits.isZero_eq, FPBits.isNeg_eq f hx.valid, FPBits.getMantissa_eq]
  simp only [Bool.false_or]
  by_cases h0 : f.zeroB x = true
  · rw [if_pos h0]
    have : f.val x = 0 := (f.val_eq_zero_iff x).2 (by simpa [zeroB] using h0)
    refine ⟨0, hx, by rw [this]; simp, rfl, ?_⟩
    have := MagSpec.self d (f.sgn x) 0
    simpa [*] using this
  rw [if_neg h0]
  have hself : ∀ n : ℕ, |f.val x| = n → f.Finite x ∧ f.val x = sg (f.sgn x) * n ∧ f.sgn x = f.sgn x ∧ MagSpec d (f.sgn x) |f.val x| n := by
    intro n h
    exact ⟨hx, by rw [val_eq_sg_abs, h], rfl, by rw [h]; exact MagSpec.self d _ n⟩
  rcases range f (x := x) with ⟨n, h, he⟩ | ⟨h, he⟩ | ⟨t, q, r, ht, htF, he, hr, hS, hv⟩
  · rw [if_pos (by exact he)]
    exact ⟨n, hself n h⟩
  · rw [if_neg (by omega), if_pos he]
    have hsm := small_half f hw he
    have hpos : 0 < |f.val x| := by
      rw [abs_pos, ne_eq, f.val_eq_zero_iff]; simpa [zeroB] using h0
    have hz := zero_val f
    have ho := one_val f
    have mz : |f.val x| ≤ 1 / 2 → |((0 : ℕ) : ℝ) - (|f.val x|)| ≤ 1 / 2 := by
      intro h; rw [Nat.cast_zero, zero_sub, abs_neg, abs_abs]; exact h
    have mo : 1 / 2 ≤ |f.val x| → |((1 : ℕ) : ℝ) - (|f.val x|)| ≤ 1 / 2 := by
      intro h; rw [Nat.cast_one, abs_of_nonneg (by linarith)]; linarith
    cases d
    · -- nearest even
      simp only [MagSpec]
      split
      · rename_i hc
        refine ⟨0, (hz _).1, (hz _).2.1, (hz _).2.2, mz ?_, fun _ => Even.zero⟩
        rw [Bool.or_eq_true, decide_eq_true_iff, beq_iff_eq] at hc
        rcases hc with hc | hc
        · exact (hsm.1 (by omega)).le
        · by_cases h' : FPBits.getExponent f x = -1
          · exact ((hsm.2 h').2.1 hc).le
          · exact (hsm.1 (by omega)).le
      · rename_i hc
        rw [Bool.or_eq_true, decide_eq_true_iff, beq_iff_eq, not_or] at hc
        have h' : FPBits.getExponent f x = -1 := by omega
        have hgt := (hsm.2 h').2.2 hc.2
        refine ⟨1, (ho _).1, (ho _).2.1, (ho _).2.2, mo hgt.le, ?_⟩
        intro heq
        rw [Nat.cast_one, abs_of_nonneg (by linarith)] at heq; linarith
    · cases hs : f.sgn x <;> simp only [MagSpec, Bool.false_eq_true, if_false, if_true]
      · exact ⟨0, (hz _).1, (hz _).2.1, (hz _).2.2, by push_cast; constructor <;> linarith⟩
      · exact ⟨1, (ho _).1, (ho _).2.1, (ho _).2.2, by push_cast; constructor <;> linarith⟩
    · cases hs : f.sgn x <;> simp only [MagSpec, Bool.false_eq_true, if_false, if_true]
      · exact ⟨1, (ho _).1, (ho _).2.1, (ho _).2.2, by push_cast; constructor <;> linarith⟩
      · exact ⟨0, (hz _).1, (hz _).2.1, (hz _).2.2, by push_cast; constructor <;> linarith⟩
    · cases hs : f.sgn x <;> simp only [MagSpec, Bool.false_eq_true, if_false, if_true] <;>
        exact ⟨0, (hz _).1, (hz _).2.1, (hz _).2.2, by push_cast; constructor <;> linarith⟩
    · simp only [MagSpec]
      split
      · rename_i hc
        have hlt := hsm.1 hc
        refine ⟨0, (hz _).1, (hz _).2.1, (hz _).2.2, mz hlt.le, ?_⟩
        intro heq
        rw [Nat.cast_zero, zero_sub, abs_neg, abs_abs] at heq; linarith
      · rename_i hc
        have h' : FPBits.getExponent f x = -1 := by omega
        refine ⟨1, (ho _).1, (ho _).2.1, (ho _).2.2, mo (hsm.2 h').1, ?_⟩
        intro _; push_cast; exact h
  · have ht' : ((f.F : ℤ) - FPBits.getExponent f x).toNat = t := by rw [he]; omega
    rw [if_neg (by omega), if_neg (by omega), ht']
    have hT := truncated_spec f hx ht htF he hr hS
    rw [FPBits.getMantissa_eq] at hT
    rw [FPBits.getMantissa_eq]
    set y := FPBits.setMantissa f x ((f.frac x >>> t) <<< t) with hy
    obtain ⟨hyf, hyv, hys, hq1, hq2, hyfrac, hybexp, hrr⟩ := hT
    have hp : (0 : ℝ) < 2 ^ t := by positivity
    have hr1 : (r : ℝ) / 2 ^ t < 1 := by rw [div_lt_one hp]; exact_mod_cast hr
    have hr0 : (0 : ℝ) ≤ (r : ℝ) / 2 ^ t := by positivity
    by_cases hrz : r = 0
    · have hEq : f.heq y x = true := by
        rw [heq_finite f hyf hx, hyv, val_eq_sg_abs f x, hv, hrz]; simp
      rw [if_pos hEq]
      exact ⟨q, hself q (by rw [hv, hrz]; simp)⟩
    have hrpos : (0 : ℝ) < (r : ℝ) / 2 ^ t := by
      have : (0 : ℝ) < r := by exact_mod_cast Nat.pos_of_ne_zero hrz
      positivity
    have hNe : ¬ f.heq y x = true := by
      rw [heq_finite f hyf hx, hyv, val_eq_sg_abs f x, hv]
      intro h
      have := mul_left_cancel₀ (sg_ne_zero _) h
      linarith
    rw [if_neg hNe]
    have htrim : f.frac x &&& ((1 <<< t) - 1) = r := by
      rw [Nat.shiftLeft_eq, Nat.one_mul, Nat.and_two_pow_sub_one_eq_mod, hrr]
    have hhalf : 1 <<< (t - 1) = 2 ^ (t - 1) := by rw [Nat.shiftLeft_eq, Nat.one_mul]
    have h2t : 2 ^ t = 2 * 2 ^ (t - 1) := by rw [← pow_succ']; congr 1; omega
    have haway : ∀ z, z = (if f.sgn x = true then f.hsub hm y (oneLit f false) else f.hadd hm y (oneLit f false)) →
        f.Finite z ∧ f.val z = sg (f.sgn x) * ((q + 1 : ℕ) : ℝ) ∧ f.sgn z = f.sgn x := by
      intro z hz
      have := hadd_one f hw hm hyf hyv hq1
      rw [hz]
      cases hs : f.sgn x <;> rw [hs] at this
      · simpa using this
      · simp only [if_true]; rw [hsub_one]; exact this
    have hsub1 : f.sgn x = true → f.Finite (f.hsub hm y (oneLit f false)) ∧
        f.val (f.hsub hm y (oneLit f false)) = sg (f.sgn x) * ((q + 1 : ℕ) : ℝ) ∧ f.sgn (f.hsub hm y (oneLit f false)) = f.sgn x :=
      fun hs => haway _ (by simp [hs])
    have hadd1 : f.sgn x = false → f.Finite (f.hadd hm y (oneLit f false)) ∧
        f.val (f.hadd hm y (oneLit f false)) = sg (f.sgn x) * ((q + 1 : ℕ) : ℝ) ∧ f.sgn (f.hadd hm y (oneLit f false)) = f.sgn x :=
      fun hs => haway _ (by simp [hs])
    have hr2 : (r : ℝ) / 2 ^ t = (r : ℝ) / (2 * 2 ^ (t - 1)) := by
      congr 1; exact_mod_cast h2t
    have hph : (0 : ℝ) < 2 ^ (t - 1) := by positivity
    have hge : 2 ^ (t - 1) ≤ r → 1 / 2 ≤ (r : ℝ) / 2 ^ t := by
      intro h
      have h' : (2 : ℝ) ^ (t - 1) ≤ r := by exact_mod_cast h
      rw [hr2, le_div_iff₀ (by positivity)]; linarith
    have hgt : 2 ^ (t - 1) < r → 1 / 2 < (r : ℝ) / 2 ^ t := by
      intro h
      have h' : (2 : ℝ) ^ (t - 1) < r := by exact_mod_cast h
      rw [hr2, lt_div_iff₀ (by positivity)]; linarith
    have hlt : r < 2 ^ (t - 1) → (r : ℝ) / 2 ^ t < 1 / 2 := by
      intro h
      have h' : (r : ℝ) < (2 : ℝ) ^ (t - 1) := by exact_mod_cast h
      rw [hr2, div_lt_iff₀ (by positivity)]; linarith
    have hdlo : |((q : ℕ) : ℝ) - (|f.val x|)| = (r : ℝ) / 2 ^ t := by
      rw [hv, abs_of_nonpos (by linarith)]; ring
    have hdhi : |((q + 1 : ℕ) : ℝ) - (|f.val x|)| = 1 - (r : ℝ) / 2 ^ t := by
      rw [hv, abs_of_nonneg (by push_cast; linarith)]; push_cast; ring
    rw [htrim, hhalf]
    cases d
    · -- nearest even
      simp only [MagSpec]
      split
      · rename_i hc
        obtain ⟨a, b, c⟩ := haway _ rfl
        refine ⟨q + 1, a, b, c, ?_, ?_⟩
        · rw [hdhi]; have := hgt hc; linarith
        · rw [hdhi]; intro h; have := hgt hc; linarith
      rename_i hc
      split
      · rename_i hc2
        have hval2 : (r : ℝ) / 2 ^ t = 1 / 2 := by
          rw [hr2, hc2]; push_cast; field_simp
        split
        · -- exponent 0
          rename_i hexp
          have htF' : t = f.F := by omega
          have hq1' : q = 1 := by
            have h3 := f.frac_lt x
            subst htF'
            rcases q with _ | _ | q
            · omega
            · rfl
            · exfalso
              have : (q + 1 + 1) * 2 ^ f.F = q * 2 ^ f.F + 2 * 2 ^ f.F := by ring
              omega
          obtain ⟨a, b, c⟩ := two_val f hw (f.sgn x)
          refine ⟨2, a, b, c, ?_, fun _ => by decide⟩
          rw [hv, hq1', hval2]; norm_num
        · rename_i hexp
          have htF' : t < f.F := by omega
          have hodd : (f.frac y &&& 1 <<< t) ≠ 0 ↔ q % 2 = 1 := by
            have h1 : q = 2 ^ (f.F - t) + f.frac x / 2 ^ t := by
              have hqS : (2 ^ f.F + f.frac x) / 2 ^ t = q := by
                rw [hS, Nat.mul_comm q, Nat.mul_add_div (by positivity), Nat.div_eq_of_lt hr]; omega
              rw [← hqS, show 2 ^ f.F = 2 ^ (f.F - t) * 2 ^ t by rw [← pow_add]; congr 1; omega, Nat.add_comm,
                Nat.add_mul_div_right _ _ (by positivity), Nat.add_comm]
            have h2 : 2 ^ (f.F - t) % 2 = 0 := by
              obtain ⟨j, hj⟩ : ∃ j, f.F - t = j + 1 := ⟨f.F - t - 1, by omega⟩
              rw [hj, pow_succ]; omega
            have h3 : (f.frac y &&& 1 <<< t) ≠ 0 ↔ (f.frac x / 2 ^ t) % 2 = 1 := by
              rw [← bne_iff_ne, Nat.shiftLeft_eq, Nat.one_mul, and_two_pow_ne_zero, hyfrac, Nat.testBit_eq_decide_div_mod_eq,
                Nat.mul_div_cancel _ (by positivity), decide_eq_true_iff]
            rw [h3, h1]; omega
          split
          · rename_i ho
            obtain ⟨a, b, c⟩ := haway _ rfl
            refine ⟨q + 1, a, b, c, ?_, ?_⟩
            · rw [hdhi]; linarith
            · intro _; rw [Nat.even_iff]; have := hodd.1 ho; omega
          · rename_i ho
            refine ⟨q, hyf, hyv, hys, ?_, ?_⟩
            · rw [hdlo]; linarith
            · intro _; rw [Nat.even_iff]; have := mt hodd.2 ho; omega
      · rename_i hc2
        have := hlt (by omega)
        refine ⟨q, hyf, hyv, hys, ?_, ?_⟩
        · rw [hdlo]; linarith
        · rw [hdlo]; intro h; linarith
    · cases hs : f.sgn x <;> simp only [MagSpec, Bool.false_eq_true, if_false, if_true]
      · refine ⟨q, hyf, hs ▸ hyv, hs ▸ hys, ?_⟩
        rw [hv]; constructor <;> linarith
      · obtain ⟨a, b, c⟩ := hsub1 hs
        refine ⟨q + 1, a, hs ▸ b, hs ▸ c, ?_⟩
        rw [hv]; push_cast; constructor <;> linarith
    · cases hs : f.sgn x <;> simp only [MagSpec, Bool.false_eq_true, if_false, if_true]
      · obtain ⟨a, b, c⟩ := hadd1 hs
        refine ⟨q + 1, a, hs ▸ b, hs ▸ c, ?_⟩
        rw [hv]; push_cast; constructor <;> linarith
      · refine ⟨q, hyf, hs ▸ hyv, hs ▸ hys, ?_⟩
        rw [hv]; constructor <;> linarith
    · simp only [MagSpec]
      refine ⟨q, hyf, hyv, hys, ?_⟩
      rw [hv]; constructor <;> linarith
    · simp only [MagSpec]
      split
      · rename_i hc
        have := hge hc
        obtain ⟨a, b, c⟩ := haway _ rfl
        refine ⟨q + 1, a, b, c, ?_, ?_⟩
        · rw [hdhi]; linarith
        · intro _; rw [hv]; push_cast; linarith
      · rename_i hc
        have := hlt (by omega)
        refine ⟨q, hyf, hyv, hys, ?_, ?_⟩
        · rw [hdlo]; linarith
        · rw [hdlo]; intro h; linarith

end CC
end Verif
