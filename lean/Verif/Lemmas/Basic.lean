import Verif.Model.Basic
import Verif.Lemmas.Bits
import Verif.Lemmas.Mono

/-! # Helper facts about the comparison/sign functions -/

namespace Verif
open Fmt
namespace CC
variable (f : Fmt)

theorem isnan_eq (x : ℕ) : isnan f x = f.nanB x := FPBits.isNan_eq f x
theorem isinf_eq (x : ℕ) : isinf f x = f.infB x := FPBits.isInf_eq f x

theorem key_zero (s : Bool) : f.key (f.zero s) = 0 := by
  unfold key; rw [zero_eq_pack, mag_pack f s (Nat.pow_pos (by decide))]; simp
theorem nanB_zero (s : Bool) : f.nanB (f.zero s) = false := (f.finite_B (f.finite_zero s)).1

theorem heq_zero (x : ℕ) : f.heq x (f.zero false) = f.zeroB x := by
  unfold heq zeroB
  rw [key_zero, nanB_zero]
  have hk : f.key x = 0 ↔ f.mag x = 0 := by unfold key; split <;> omega
  have := f.infMag_pos
  have h0 : 0 < 2 ^ (f.F + 1) := by positivity
  by_cases h : f.mag x = 0
  · have : f.nanB x = false := by unfold nanB; simp; omega
    simp [this, h, hk]
  · simp [h, hk]

theorem hlt_zero {x : ℕ} (hn : f.nanB x = false) (h0 : f.mag x ≠ 0) :
    f.hlt x (f.zero false) = f.sgn x := by
  unfold hlt
  rw [key_zero, nanB_zero, hn]
  unfold key
  cases hs : f.sgn x
  · simp
  · simp; omega

theorem abs_eq {x : ℕ} (hx : f.Valid x) : abs f x = if f.nanB x then f.qnan else f.mag x := by
  unfold abs
  rw [FPBits.isNan_eq, FPBits.isZero_eq]
  cases hn : f.nanB x
  · simp only [Bool.false_eq_true, if_false]
    unfold zeroB
    by_cases h0 : f.mag x = 0
    · simp [h0, Fmt.zero]
    · simp only [h0, decide_false, Bool.false_eq_true, if_false]
      rw [hlt_zero f hn h0]
      have hp := f.pack_sgn_mag hx
      cases hs : f.sgn x
      · rw [hs] at hp; simp [pack] at hp ⊢; omega
      · simp [hneg, hs, pack]
  · simp

theorem mag_mag (x : ℕ) : f.mag (f.mag x) = f.mag x := Nat.mod_mod _ _
theorem sgn_mag (x : ℕ) : f.sgn (f.mag x) = false := by
  have := f.mag_lt x; unfold sgn; simp; omega
theorem valid_mag (x : ℕ) : f.Valid (f.mag x) := by
  have := f.mag_lt x; unfold Valid; rw [two_pow_EF_succ]; omega
theorem key_mag (x : ℕ) : f.key (f.mag x) = f.mag x := by unfold key; rw [sgn_mag, mag_mag]; simp
theorem nanB_mag (x : ℕ) : f.nanB (f.mag x) = f.nanB x := by unfold nanB; rw [mag_mag]
theorem val_mag (x : ℕ) : f.val (f.mag x) = |f.val x| := by
  rw [abs_val, val_eq, sgn_mag, mag_mag, sg_false, one_mul]
theorem pack_false (n : ℕ) : f.pack false n = n := by simp [pack]

theorem limMin_lt : limMin f < f.infMag := by
  have := f.infMag_pos; unfold limMin; rw [pow_succ] at this; have := f.two_pow_F_pos; omega
theorem mag_limMin : f.mag (limMin f) = limMin f := Nat.mod_eq_of_lt (lt_trans (limMin_lt f) f.infMag_lt)
theorem key_limMin : f.key (limMin f) = limMin f := by
  have := key_mag f (limMin f); rwa [mag_limMin] at this
theorem nanB_limMin : f.nanB (limMin f) = false := by
  unfold nanB; rw [mag_limMin]; have := limMin_lt f; simp; omega

theorem one_lt : f.bias * 2 ^ f.F < f.infMag := by
  rw [infMag_eq]
  have := f.two_pow_F_pos
  have : f.bias * 2 ^ f.F ≤ 2 * f.bias * 2 ^ f.F := Nat.mul_le_mul_right _ (by omega)
  omega

theorem finite_one (s : Bool) : f.Finite (oneLit f s) := f.finite_pack s (one_lt f)
theorem sgn_one (s : Bool) : f.sgn (oneLit f s) = s := f.sgn_pack s (lt_trans (one_lt f) f.infMag_lt)
theorem mag_one (s : Bool) : f.mag (oneLit f s) = f.bias * 2 ^ f.F := f.mag_pack s (lt_trans (one_lt f) f.infMag_lt)
theorem umag_one : f.umag (f.bias * 2 ^ f.F) = f.uscale := by
  have hb := f.bias_pos
  have : f.bias * 2 ^ f.F = (f.bias - 1) * 2 ^ f.F + 2 ^ f.F := by
    obtain ⟨b, hb⟩ : ∃ b, f.bias = b + 1 := ⟨f.bias - 1, by omega⟩
    rw [hb]; simp; ring
  rw [this, umag_of f (Nat.pow_lt_pow_right (by decide) (by omega)) (Or.inr le_rfl), ← pow_add]
  unfold uscale; congr 1; omega
theorem val_one (s : Bool) : f.val (oneLit f s) = sg s := by
  rw [val_eq, sgn_one, mag_one, umag_one, uscale_minSub, mul_one]

/-- multiplication by `±1` is exact in every mode -/
theorem hmul_one (m : Mode) {x : ℕ} (hx : f.Valid x) (hn : f.nanB x = false) (s : Bool) :
    f.hmul m x (oneLit f s) = f.pack (xor (f.sgn x) s) (f.mag x) := by
  by_cases hi : f.infB x = true
  · have hm : f.mag x = f.infMag := by unfold infB at hi; simpa using hi
    have h1 := f.finite_B (finite_one f s)
    unfold hmul
    rw [hn, h1.1, hi, sgn_one, hm]
    have : f.zeroB (oneLit f s) = false := by
      unfold zeroB; rw [mag_one]; have := f.bias_pos; have := f.two_pow_F_pos; simp; omega
    simp [this]; rfl
  · have hf := f.finite_of_B hx hn (by simpa using hi)
    have h := f.hmul_spec m hf (finite_one f s)
    have hlt : f.mag x < f.infMag := ((f.finite_iff x).1 hf).2
    have hlt' : f.mag x < 2 ^ (f.E + f.F) := f.mag_lt x
    have hv : f.val x * f.val (oneLit f s) = f.val (f.pack (xor (f.sgn x) s) (f.mag x)) := by
      rw [val_one, val_pack f _ hlt', val_eq, sg_xor]; ring
    rw [hv, sgn_one] at h
    exact RoundsTo.exact_eq f (f.finite_pack _ hlt) h (fun _ => f.sgn_pack _ hlt')

theorem signbit_eq {x : ℕ} (hx : f.Valid x) : signbit f x = f.sgn x := by
  unfold signbit
  rw [heq_zero, isnan_eq]
  split
  · rename_i h; exact FPBits.isNeg_eq f hx
  · rename_i h
    simp [zeroB] at h
    exact hlt_zero f h.2 h.1

end CC
end Verif
