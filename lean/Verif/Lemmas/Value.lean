import Verif.Lemmas.Grid
import Mathlib.Tactic.LinearCombination

/-! # Fields of a pattern and its value in units of the least subnormal -/

namespace Verif
namespace Fmt
variable (f : Fmt)

/-- pattern with sign `s` and magnitude pattern `n` -/
def pack (s : Bool) (n : ℕ) : ℕ := (if s then 2 ^ (f.E + f.F) else 0) + n

theorem two_pow_E : 4 ≤ 2 ^ f.E := by
  calc 4 = 2 ^ 2 := rfl
    _ ≤ 2 ^ f.E := Nat.pow_le_pow_right (by decide) f.hE

theorem two_bias : 2 * f.bias + 2 = 2 ^ f.E := by
  unfold bias
  have h := f.hE
  obtain ⟨j, hj⟩ : ∃ j, f.E = j + 2 := ⟨f.E - 2, by omega⟩
  rw [hj]
  have h1 : 2 ^ (j + 2) = 2 * (2 * 2 ^ j) := by rw [pow_succ, pow_succ]; ring
  have h2 : 2 ^ (j + 2 - 1) = 2 * 2 ^ j := by
    rw [show j + 2 - 1 = j + 1 from rfl, pow_succ]; ring
  have : 0 < 2 ^ j := Nat.pow_pos (by decide)
  omega

theorem bias_pos : 1 ≤ f.bias := by have := f.two_bias; have := f.two_pow_E; omega

theorem infMag_add : f.infMag + 2 ^ f.F = 2 ^ (f.E + f.F) := by
  unfold infMag
  rw [pow_add, Nat.sub_mul, Nat.one_mul]
  have : 2 ^ f.F ≤ 2 ^ f.E * 2 ^ f.F := Nat.le_mul_of_pos_left _ (Nat.pow_pos (by decide))
  omega

theorem infMag_lt : f.infMag < 2 ^ (f.E + f.F) := by
  have := f.infMag_add; have := f.two_pow_F_pos; omega

theorem infMag_eq : f.infMag = 2 * f.bias * 2 ^ f.F + 2 ^ f.F := by
  unfold infMag
  have h := f.two_bias
  have : 2 ^ f.E - 1 = 2 * f.bias + 1 := by omega
  rw [this]; ring

theorem infMag_pos : 2 ^ (f.F + 1) ≤ f.infMag := by
  rw [infMag_eq, pow_succ]
  have := f.bias_pos
  have h : 1 * 2 ^ f.F ≤ 2 * f.bias * 2 ^ f.F := Nat.mul_le_mul_right _ (by omega)
  omega

theorem two_pow_EF_succ : 2 ^ (f.E + f.F + 1) = 2 * 2 ^ (f.E + f.F) := by rw [pow_succ]; ring

theorem mag_lt (x : ℕ) : f.mag x < 2 ^ (f.E + f.F) := Nat.mod_lt _ (Nat.pow_pos (by decide))

theorem pack_sgn_mag {x : ℕ} (h : f.Valid x) : f.pack (f.sgn x) (f.mag x) = x := by
  unfold Valid at h; rw [two_pow_EF_succ] at h
  unfold pack sgn mag
  by_cases hx : 2 ^ (f.E + f.F) ≤ x
  · simp only [hx, decide_true, if_true]
    rw [Nat.mod_eq_sub_mod hx, Nat.mod_eq_of_lt (by omega)]; omega
  · simp only [hx, decide_false, Bool.false_eq_true, if_false]
    rw [Nat.mod_eq_of_lt (by omega)]; omega

theorem sgn_pack (s : Bool) {n : ℕ} (h : n < 2 ^ (f.E + f.F)) : f.sgn (f.pack s n) = s := by
  unfold sgn pack; cases s <;> (simp; try omega)

theorem mag_pack (s : Bool) {n : ℕ} (h : n < 2 ^ (f.E + f.F)) : f.mag (f.pack s n) = n := by
  unfold mag pack; cases s <;> simp [Nat.mod_eq_of_lt h]

theorem valid_pack (s : Bool) {n : ℕ} (h : n < 2 ^ (f.E + f.F)) : f.Valid (f.pack s n) := by
  unfold Valid pack; rw [two_pow_EF_succ]; split <;> omega

theorem pack_inj {s t : Bool} {a b : ℕ} (ha : a < 2 ^ (f.E + f.F)) (hb : b < 2 ^ (f.E + f.F)) :
    f.pack s a = f.pack t b ↔ s = t ∧ a = b := by
  constructor
  · intro h
    have h1 := congrArg f.sgn h
    have h2 := congrArg f.mag h
    rw [sgn_pack f _ ha, sgn_pack f _ hb] at h1
    rw [mag_pack f _ ha, mag_pack f _ hb] at h2
    exact ⟨h1, h2⟩
  · rintro ⟨rfl, rfl⟩; rfl

theorem frac_eq (x : ℕ) : f.frac x = f.mag x % 2 ^ f.F := by
  unfold frac mag
  rw [Nat.mod_mod_of_dvd]; exact pow_dvd_pow 2 (by omega)

theorem bexp_lt (x : ℕ) : f.bexp x < 2 ^ f.E := by
  unfold bexp
  apply Nat.div_lt_of_lt_mul
  rw [Nat.mul_comm, ← pow_add]; exact f.mag_lt x

theorem mag_eq (x : ℕ) : f.mag x = f.bexp x * 2 ^ f.F + f.frac x := by
  rw [frac_eq]; unfold bexp
  have := Nat.div_add_mod (f.mag x) (2 ^ f.F)
  rw [Nat.mul_comm] at this; exact this.symm

theorem frac_lt (x : ℕ) : f.frac x < 2 ^ f.F := Nat.mod_lt _ f.two_pow_F_pos

theorem bexp_eq_max_iff (x : ℕ) : f.bexp x = 2 ^ f.E - 1 ↔ f.infMag ≤ f.mag x := by
  have h := f.bexp_lt x
  have h2 : f.infMag ≤ f.mag x ↔ 2 ^ f.E - 1 ≤ f.bexp x := by
    unfold infMag bexp; rw [Nat.le_div_iff_mul_le f.two_pow_F_pos]
  rw [h2]; omega

theorem finite_iff (x : ℕ) : f.Finite x ↔ f.Valid x ∧ f.mag x < f.infMag := by
  unfold Finite; rw [Ne, bexp_eq_max_iff]; simp

theorem isNaN_iff (x : ℕ) : f.IsNaN x ↔ f.Valid x ∧ f.infMag < f.mag x := by
  unfold IsNaN; rw [bexp_eq_max_iff]
  have h := f.mag_eq x
  constructor
  · rintro ⟨h1, h2, h3⟩
    refine ⟨h1, ?_⟩
    rw [(f.bexp_eq_max_iff x).2 h2] at h
    have : f.infMag = (2 ^ f.E - 1) * 2 ^ f.F := rfl
    omega
  · rintro ⟨h1, h2⟩
    refine ⟨h1, h2.le, ?_⟩
    rw [(f.bexp_eq_max_iff x).2 h2.le] at h
    have : f.infMag = (2 ^ f.E - 1) * 2 ^ f.F := rfl
    omega

theorem isInf_iff (x : ℕ) : f.IsInf x ↔ f.Valid x ∧ f.mag x = f.infMag := by
  unfold IsInf; rw [bexp_eq_max_iff]
  have h := f.mag_eq x
  constructor
  · rintro ⟨h1, h2, h3⟩
    refine ⟨h1, ?_⟩
    rw [(f.bexp_eq_max_iff x).2 h2] at h
    have : f.infMag = (2 ^ f.E - 1) * 2 ^ f.F := rfl
    omega
  · rintro ⟨h1, h2⟩
    refine ⟨h1, h2.ge, ?_⟩
    rw [(f.bexp_eq_max_iff x).2 h2.ge] at h
    have : f.infMag = (2 ^ f.E - 1) * 2 ^ f.F := rfl
    omega

/-- `±1` -/
def sg (s : Bool) : ℝ := if s then -1 else 1

@[simp] theorem sg_true : sg true = -1 := rfl
@[simp] theorem sg_false : sg false = 1 := rfl
theorem sg_mul_self (s : Bool) : sg s * sg s = 1 := by cases s <;> simp
theorem abs_sg (s : Bool) : |sg s| = 1 := by cases s <;> simp
theorem sg_ne_zero (s : Bool) : sg s ≠ 0 := by cases s <;> simp
theorem sg_not (s : Bool) : sg (!s) = - sg s := by cases s <;> simp

theorem minSub_pos : 0 < f.minSub := by unfold minSub; exact zpow_pos (by norm_num) _

theorem val_eq (x : ℕ) : f.val x = sg (f.sgn x) * ((f.umag (f.mag x) : ℝ) * f.minSub) := by
  unfold val
  have hs : (if f.sgn x then (-1 : ℝ) else 1) = sg (f.sgn x) := rfl
  rw [hs]
  congr 1
  have hm := f.mag_eq x
  have hfr := f.frac_lt x
  have hp : 2 ^ (f.F + 1) = 2 * 2 ^ f.F := by rw [pow_succ]; ring
  have h2F : ((2 : ℝ) ^ f.F) ≠ 0 := by positivity
  unfold minSub
  by_cases h0 : f.bexp x = 0
  · rw [if_pos h0, hm, h0, Nat.zero_mul, Nat.zero_add, umag_small f (by omega)]
    rw [show (1 - (f.bias : ℤ)) = (1 - (f.bias : ℤ) - (f.F : ℤ)) + (f.F : ℤ) by ring]
    rw [zpow_add₀ (by norm_num : (2 : ℝ) ≠ 0), zpow_natCast]
    rw [show (1 - (f.bias : ℤ) - (f.F : ℤ)) + (f.F : ℤ) - (f.F : ℤ) = (1 - (f.bias : ℤ) - (f.F : ℤ)) by ring]
    field_simp
  · rw [if_neg h0, hm]
    obtain ⟨j, hj⟩ : ∃ j, f.bexp x = j + 1 := ⟨f.bexp x - 1, by omega⟩
    have h1 : f.bexp x * 2 ^ f.F + f.frac x = j * 2 ^ f.F + (2 ^ f.F + f.frac x) := by rw [hj]; ring
    rw [h1, umag_of f (by omega) (Or.inr (by omega)), hj]
    push_cast
    rw [show ((j : ℤ) + 1 - (f.bias : ℤ)) = (j : ℤ) + (1 - (f.bias : ℤ) - (f.F : ℤ)) + (f.F : ℤ) by ring]
    rw [zpow_add₀ (by norm_num : (2 : ℝ) ≠ 0), zpow_add₀ (by norm_num : (2 : ℝ) ≠ 0), zpow_natCast, zpow_natCast]
    field_simp

theorem val_pack (s : Bool) {n : ℕ} (h : n < 2 ^ (f.E + f.F)) :
    f.val (f.pack s n) = sg s * ((f.umag n : ℝ) * f.minSub) := by
  rw [val_eq, sgn_pack f s h, mag_pack f s h]

theorem finite_pack (s : Bool) {n : ℕ} (h : n < f.infMag) : f.Finite (f.pack s n) := by
  have h2 := f.infMag_lt
  rw [finite_iff, mag_pack f s (by omega)]
  exact ⟨f.valid_pack s (by omega), h⟩

theorem umag_infMag : f.umag f.infMag = 2 ^ f.F * 2 ^ (2 * f.bias) := by
  rw [infMag_eq]
  exact f.umag_of (by rw [pow_succ]; have := f.two_pow_F_pos; omega) (Or.inr le_rfl)

theorem gk_max : f.gk (f.infMag - 1) = 2 * f.bias - 1 := by
  have hb := f.bias_pos
  have hF := f.two_pow_F_pos
  have h1 : f.infMag - 1 = (2 * f.bias - 1) * 2 ^ f.F + (2 ^ (f.F + 1) - 1) := by
    rw [infMag_eq, pow_succ]
    obtain ⟨j, hj⟩ : ∃ j, f.bias = j + 1 := ⟨f.bias - 1, by omega⟩
    rw [hj, show 2 * (j + 1) - 1 = 2 * j + 1 by omega]
    have : 2 * (j + 1) * 2 ^ f.F = (2 * j + 1) * 2 ^ f.F + 2 ^ f.F := by ring
    omega
  rw [h1]
  exact f.gk_of (by have := Nat.pow_pos (n := f.F + 1) (show 0 < 2 by decide); omega)
    (Or.inr (by rw [pow_succ]; omega))

theorem umag_max : f.umag (f.infMag - 1) = 2 ^ f.F * 2 ^ (2 * f.bias) - 2 ^ (2 * f.bias - 1) := by
  have h := f.umag_succ (f.infMag - 1)
  have h2 := f.infMag_pos
  have h3 : 0 < 2 ^ (f.F + 1) := Nat.pow_pos (by decide)
  rw [show f.infMag - 1 + 1 = f.infMag by omega, umag_infMag, gk_max] at h
  omega

theorem maxFin_eq : f.maxFin = (f.umag (f.infMag - 1) : ℝ) * f.minSub := by
  have hb := f.bias_pos
  have h : 2 ^ (2 * f.bias - 1) ≤ 2 ^ f.F * 2 ^ (2 * f.bias) := by
    rw [← pow_add]; exact Nat.pow_le_pow_right (by decide) (by omega)
  rw [umag_max, Nat.cast_sub h]
  unfold maxFin minSub
  push_cast
  have h1 : (2 : ℝ) ^ (2 * f.bias - 1) = (2 : ℝ) ^ (2 * (f.bias : ℤ) - 1) := by
    rw [← zpow_natCast]; congr 1; omega
  have h2 : (2 : ℝ) ^ (2 * f.bias) = (2 : ℝ) ^ (2 * (f.bias : ℤ)) := by
    rw [← zpow_natCast]; congr 1
  rw [h1, h2, ← zpow_natCast (2 : ℝ) f.F, sub_mul, ← zpow_add₀ (by norm_num), ← zpow_add₀ (by norm_num),
    ← zpow_add₀ (by norm_num), mul_sub, ← zpow_add₀ (by norm_num), ← zpow_add_one₀ (by norm_num)]
  congr 2 <;> ring

theorem threshold_eq : (2 : ℝ) ^ (f.bias : ℤ) * (2 - (2 : ℝ) ^ (-(f.F : ℤ) - 1)) =
    ((f.umag (f.infMag - 1) : ℝ) + f.umag f.infMag) / 2 * f.minSub := by
  have hb := f.bias_pos
  have h : 2 ^ (2 * f.bias - 1) ≤ 2 ^ f.F * 2 ^ (2 * f.bias) := by
    rw [← pow_add]; exact Nat.pow_le_pow_right (by decide) (by omega)
  rw [umag_max, Nat.cast_sub h, umag_infMag]
  unfold minSub
  push_cast
  have h1 : (2 : ℝ) ^ (2 * f.bias - 1) = (2 : ℝ) ^ (2 * (f.bias : ℤ) - 1) := by
    rw [← zpow_natCast]; congr 1; omega
  have h2 : (2 : ℝ) ^ (2 * f.bias) = (2 : ℝ) ^ (2 * (f.bias : ℤ)) := by
    rw [← zpow_natCast]; congr 1
  rw [h1, h2, ← zpow_natCast (2 : ℝ) f.F]
  have e1 : (2 : ℝ) ^ (f.bias : ℤ) * (2 - (2 : ℝ) ^ (-(f.F : ℤ) - 1)) =
      2 * (2 : ℝ) ^ (f.bias : ℤ) - (2 : ℝ) ^ ((f.bias : ℤ) + (-(f.F : ℤ) - 1)) := by
    rw [zpow_add₀ (by norm_num)]; ring
  have e2 : (2 : ℝ) ^ (f.F : ℤ) * (2 : ℝ) ^ (2 * (f.bias : ℤ)) * (2 : ℝ) ^ (1 - (f.bias : ℤ) - (f.F : ℤ)) =
      2 * (2 : ℝ) ^ (f.bias : ℤ) := by
    rw [← zpow_add₀ (by norm_num), ← zpow_add₀ (by norm_num), ← zpow_one_add₀ (by norm_num)]; congr 1; ring
  have e3 : (2 : ℝ) ^ (2 * (f.bias : ℤ) - 1) * (2 : ℝ) ^ (1 - (f.bias : ℤ) - (f.F : ℤ)) =
      2 * (2 : ℝ) ^ ((f.bias : ℤ) + (-(f.F : ℤ) - 1)) := by
    rw [← zpow_add₀ (by norm_num), ← zpow_one_add₀ (by norm_num)]; congr 1; ring
  rw [e1]
  linear_combination (-1 : ℝ) * e2 + (1 / 2 : ℝ) * e3

theorem inf_eq_pack (s : Bool) : f.inf s = f.pack s f.infMag := rfl
theorem zero_eq_pack (s : Bool) : f.zero s = f.pack s 0 := rfl

theorem minNormal_eq : f.minNormal = (f.umag (2 ^ f.F) : ℝ) * f.minSub := by
  rw [umag_small f (by rw [pow_succ]; have := f.two_pow_F_pos; omega)]
  unfold minNormal minSub
  push_cast
  rw [← zpow_natCast, ← zpow_add₀ (by norm_num)]
  congr 1; ring

end Fmt
end Verif
