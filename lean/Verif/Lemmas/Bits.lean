import Verif.Model.FPBits
import Verif.Lemmas.HwSpec
import Mathlib.Data.Nat.Bitwise

/-! # `FPBits` bit operations in terms of fields -/

namespace Verif
open Fmt

theorem and_shiftLeft (x a k : ℕ) : x &&& (a <<< k) = ((x >>> k) &&& a) <<< k := by
  apply Nat.eq_of_testBit_eq
  intro i
  simp only [Nat.testBit_and, Nat.testBit_shiftLeft, Nat.testBit_shiftRight]
  by_cases h : i ≥ k
  · simp [h, Nat.add_sub_cancel' h]
  · simp [h]

theorem or_eq_add_of_lt {a b k : ℕ} (hb : b < 2 ^ k) : (a <<< k) ||| b = a * 2 ^ k + b := by
  rw [Nat.shiftLeft_eq]
  have := Nat.two_pow_add_eq_or_of_lt hb a
  rw [Nat.mul_comm a, ← this]

theorem two_pow_or_eq_add {b k : ℕ} (hb : b < 2 ^ k) : (2 ^ k) ||| b = 2 ^ k + b := by
  have := or_eq_add_of_lt (a := 1) hb
  simpa [Nat.shiftLeft_eq] using this

theorem and_two_pow_ne_zero (x k : ℕ) : ((x &&& 2 ^ k) != 0) = x.testBit k := by
  rw [Nat.and_two_pow]
  cases x.testBit k <;> simp

theorem testBit_top {x k : ℕ} (h : x < 2 ^ (k + 1)) : x.testBit k = decide (2 ^ k ≤ x) := by
  rw [Nat.testBit_eq_decide_div_mod_eq]
  rw [pow_succ] at h
  by_cases hx : 2 ^ k ≤ x
  · have : x / 2 ^ k = 1 := by
      apply Nat.div_eq_of_lt_le <;> omega
    simp [this, hx]
  · have : x / 2 ^ k = 0 := Nat.div_eq_of_lt (by omega)
    simp [this, hx]

theorem merge_low (x m k : ℕ) : FPBits.merge x m (2 ^ k - 1) = x / 2 ^ k * 2 ^ k + m % 2 ^ k := by
  rw [Nat.mul_comm]
  apply Nat.eq_of_testBit_eq
  intro i
  unfold FPBits.merge
  rw [Nat.testBit_two_pow_mul_add _ (Nat.mod_lt _ (Nat.pow_pos (by decide)))]
  simp only [Nat.testBit_xor, Nat.testBit_and, Nat.testBit_two_pow_sub_one, Nat.testBit_mod_two_pow, Nat.testBit_div_two_pow]
  by_cases h : i < k
  · simp [h]
  · simp only [h, decide_false, Bool.and_false, Bool.xor_false, if_false]
    congr 1; omega

namespace FPBits
variable (f : Fmt)

theorem fracMask_and (x : ℕ) : x &&& fracMask f = x % 2 ^ f.F := Nat.and_two_pow_sub_one_eq_mod _ _
theorem expSigBits_eq (x : ℕ) : expSigBits f x = f.mag x := Nat.and_two_pow_sub_one_eq_mod _ _
theorem sigBits_eq (x : ℕ) : sigBits f x = f.frac x := fracMask_and f x
theorem getMantissa_eq (x : ℕ) : getMantissa f x = f.frac x := fracMask_and f x
theorem abs_eq (x : ℕ) : abs f x = f.mag x := expSigBits_eq f x

theorem expBits_eq (x : ℕ) : expBits f x = f.bexp x * 2 ^ f.F := by
  unfold expBits expMask
  rw [and_shiftLeft, Nat.and_two_pow_sub_one_eq_mod, Nat.shiftLeft_eq, Nat.shiftRight_eq_div_pow]
  congr 1
  unfold bexp mag
  rw [pow_add, Nat.mul_comm (2 ^ f.E), Nat.mod_mul_right_div_self]

theorem biasedExp_eq (x : ℕ) : biasedExp f x = f.bexp x := by
  unfold biasedExp
  rw [expBits_eq, Nat.shiftRight_eq_div_pow, Nat.mul_div_cancel _ f.two_pow_F_pos]

theorem encodeExp_eq (e : ℕ) : encodeExp f e = e % 2 ^ f.E * 2 ^ f.F := by
  unfold encodeExp expMask
  rw [and_shiftLeft, Nat.and_two_pow_sub_one_eq_mod, Nat.shiftLeft_eq, Nat.shiftLeft_eq, Nat.shiftRight_eq_div_pow,
    Nat.mul_div_cancel _ f.two_pow_F_pos]

theorem encodeSig_eq (m : ℕ) : encodeSig f m = m % 2 ^ f.F := fracMask_and f m

theorem bInf_eq : bInf f = 2 ^ f.E - 1 := by have := f.two_bias; unfold bInf; omega

theorem encodeExp_inf : encodeExp f (bInf f) = f.infMag := by
  rw [encodeExp_eq, bInf_eq, Nat.mod_eq_of_lt (by have := f.two_pow_E; omega)]; rfl

theorem encode_or (e m : ℕ) : encodeExp f e ||| encodeSig f m = e % 2 ^ f.E * 2 ^ f.F + m % 2 ^ f.F := by
  rw [encodeExp_eq, encodeSig_eq, ← or_eq_add_of_lt (Nat.mod_lt _ f.two_pow_F_pos), Nat.shiftLeft_eq]

theorem exp_frac_lt {e m : ℕ} (he : e < 2 ^ f.E) (hm : m < 2 ^ f.F) : e * 2 ^ f.F + m < 2 ^ (f.E + f.F) := by
  rw [pow_add]
  have : (e + 1) * 2 ^ f.F ≤ 2 ^ f.E * 2 ^ f.F := Nat.mul_le_mul_right _ he
  rw [Nat.add_mul, Nat.one_mul] at this
  omega

theorem encode_eq (s : Bool) (e m : ℕ) : encode f s e m = f.pack s (e % 2 ^ f.E * 2 ^ f.F + m % 2 ^ f.F) := by
  unfold encode pack
  rw [encode_or]
  have h := exp_frac_lt f (Nat.mod_lt e (y := 2 ^ f.E) (Nat.pow_pos (by decide))) (Nat.mod_lt m f.two_pow_F_pos)
  cases s
  · simp
  · simp only [if_true, signMask, Nat.shiftLeft_eq, Nat.one_mul]
    exact two_pow_or_eq_add h

theorem isNeg_eq {x : ℕ} (h : f.Valid x) : isNeg f x = f.sgn x := by
  unfold isNeg signMask sgn
  rw [Nat.shiftLeft_eq, Nat.one_mul, and_two_pow_ne_zero, testBit_top h]

theorem zero_eq (s : Bool) : zero f s = f.pack s 0 := by
  unfold zero bSub; rw [encode_eq]; simp
theorem one_eq (s : Bool) : one f s = f.pack s (f.bias * 2 ^ f.F) := by
  unfold one bZero; rw [encode_eq, Nat.mod_eq_of_lt (by have := f.two_bias; omega)]; simp
theorem inf_eq (s : Bool) : inf f s = f.inf s := by
  unfold inf; rw [encode_eq, bInf_eq, Nat.mod_eq_of_lt (by have := f.two_pow_E; omega)]; simp; rfl
theorem minSubnormal_eq (s : Bool) : minSubnormal f s = f.pack s 1 := by
  unfold minSubnormal bSub; rw [encode_eq]
  have : 1 < 2 ^ f.F := Nat.one_lt_two_pow (by have := f.hF; omega)
  simp [Nat.mod_eq_of_lt this]
theorem maxSubnormal_eq (s : Bool) : maxSubnormal f s = f.pack s (2 ^ f.F - 1) := by
  unfold maxSubnormal bSub fracMask; rw [encode_eq]
  rw [Nat.mod_eq_of_lt (show 2 ^ f.F - 1 < 2 ^ f.F by have := f.two_pow_F_pos; omega)]; simp
theorem minNormal_eq (s : Bool) : minNormal f s = f.pack s (2 ^ f.F) := by
  unfold minNormal bMin; rw [encode_eq, Nat.mod_eq_of_lt (by have := f.two_pow_E; omega)]; simp
theorem maxNormal_eq (s : Bool) : maxNormal f s = f.pack s (f.infMag - 1) := by
  unfold maxNormal bMax fracMask
  have h := f.two_bias
  rw [encode_eq, Nat.mod_eq_of_lt (by omega), Nat.mod_eq_of_lt (show 2 ^ f.F - 1 < 2 ^ f.F by have := f.two_pow_F_pos; omega)]
  congr 1
  rw [infMag_eq]
  have := f.two_pow_F_pos
  rw [show f.bias + f.bias = 2 * f.bias by ring]
  omega
theorem msb_lt : msb f < 2 ^ f.F := by
  unfold msb; rw [Nat.shiftLeft_eq, Nat.one_mul]
  exact Nat.pow_lt_pow_right (by decide) (by have := f.hF; omega)

theorem isZero_eq (x : ℕ) : isZero f x = f.zeroB x := by
  unfold isZero zeroB; rw [expSigBits_eq]; rfl
theorem isNan_eq (x : ℕ) : isNan f x = f.nanB x := by
  unfold isNan nanB; rw [encodeExp_inf, encodeSig_eq, expSigBits_eq]; simp
theorem isInf_eq (x : ℕ) : isInf f x = f.infB x := by
  unfold isInf infB; rw [encodeExp_inf, encodeSig_eq, expSigBits_eq]; simp
  rfl
theorem isFinite_eq (x : ℕ) : isFinite f x = decide (f.mag x < f.infMag) := by
  unfold isFinite
  rw [expBits_eq, encodeExp_inf]
  have h := f.bexp_eq_max_iff x
  have h2 : f.bexp x * 2 ^ f.F = f.infMag ↔ f.bexp x = 2 ^ f.E - 1 := by
    unfold infMag
    constructor
    · intro h; exact Nat.eq_of_mul_eq_mul_right f.two_pow_F_pos h
    · intro h; rw [h]
  by_cases hc : f.infMag ≤ f.mag x
  · have : f.bexp x * 2 ^ f.F = f.infMag := h2.2 (h.2 hc)
    simp [this]; omega
  · have : ¬ f.bexp x * 2 ^ f.F = f.infMag := fun h' => hc (h.1 (h2.1 h'))
    rw [bne, beq_eq_false_iff_ne.2 this, decide_eq_true (by omega)]; rfl
theorem isSubnormal_eq (x : ℕ) : isSubnormal f x = decide (f.bexp x = 0) := by
  unfold isSubnormal bSub
  rw [expBits_eq, encodeExp_eq]
  have := f.two_pow_F_pos
  by_cases h : f.bexp x = 0
  · simp [h]
  · have h2 : f.bexp x * 2 ^ f.F ≠ 0 := Nat.mul_ne_zero h (by omega)
    simp [h]

theorem setMantissa_eq {x m : ℕ} (hx : f.Valid x) (hm : m < 2 ^ f.F) :
    setMantissa f x m = f.pack (f.sgn x) (f.bexp x * 2 ^ f.F + m) := by
  unfold setMantissa fracMask
  rw [merge_low, Nat.mod_eq_of_lt hm]
  have h := f.pack_sgn_mag hx
  have h2 := f.mag_eq x
  have h3 := Nat.div_add_mod x (2 ^ f.F)
  have h4 : x % 2 ^ f.F = f.frac x := rfl
  rw [Nat.mul_comm] at h3
  unfold pack at h ⊢
  omega

end FPBits
end Verif
