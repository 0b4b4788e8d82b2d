import Verif.Model.MinMixed
import Verif.Props.Sign
import Verif.Props.Ext
import Verif.Props.Manip

/-!
# C108: `min(int, double)`
-/

namespace Verif
open Fmt

/-- conversion to `int` rounds toward zero -/
theorem toInt32_trunc {k : ℕ} (hk : binary64.Finite k) (n : ℤ)
    (hn : n = if 0 ≤ binary64.val k then ⌊binary64.val k⌋ else ⌈binary64.val k⌉) :
    CC.toInt32 binary64 k = if -2 ^ 31 ≤ n ∧ n < 2 ^ 31 then some n else none := by
  obtain ⟨b1, b2⟩ := binary64.finite_B hk
  have hU : (0 : ℤ) < (binary64.uscale : ℤ) := by exact_mod_cast binary64.uscale_pos
  have hUr : (0 : ℝ) < ((binary64.uscale : ℤ) : ℝ) := by exact_mod_cast hU
  have hv : binary64.val k = (binary64.ival k : ℝ) / ((binary64.uscale : ℤ) : ℝ) := by
    rw [binary64.val_eq_ival, eq_div_iff hUr.ne', mul_assoc, mul_comm binary64.minSub]
    have := binary64.uscale_minSub
    push_cast
    rw [this, mul_one]
  have key : (binary64.ival k).tdiv binary64.uscale = n := by
    rw [hn, hv]
    split_ifs with h
    · have h0 : 0 ≤ binary64.ival k := by
        have := mul_nonneg h hUr.le
        rw [div_mul_cancel₀ _ hUr.ne'] at this
        exact_mod_cast this
      rw [Int.tdiv_eq_ediv_of_nonneg h0, eq_comm, Int.floor_eq_iff]
      have e := Int.emod_add_mul_ediv (binary64.ival k) binary64.uscale
      have e1 := Int.emod_nonneg (binary64.ival k) hU.ne'
      have e2 := Int.emod_lt_of_pos (binary64.ival k) hU
      rw [le_div_iff₀ hUr, div_lt_iff₀ hUr]
      constructor
      · have : binary64.ival k / binary64.uscale * binary64.uscale ≤ binary64.ival k := by linarith
        exact_mod_cast this
      · have : binary64.ival k < (binary64.ival k / binary64.uscale + 1) * binary64.uscale := by linarith
        exact_mod_cast this
    · have h0 : binary64.ival k < 0 := by
        by_contra hc
        apply h
        have : (0 : ℝ) ≤ binary64.ival k := by exact_mod_cast not_lt.1 hc
        positivity
      have ht : (binary64.ival k).tdiv binary64.uscale = -((-binary64.ival k) / binary64.uscale) := by
        rw [← Int.tdiv_eq_ediv_of_nonneg (by linarith), Int.neg_tdiv, neg_neg]
      rw [ht, eq_comm, Int.ceil_eq_iff]
      have e := Int.emod_add_mul_ediv (-binary64.ival k) binary64.uscale
      have e1 := Int.emod_nonneg (-binary64.ival k) hU.ne'
      have e2 := Int.emod_lt_of_pos (-binary64.ival k) hU
      rw [lt_div_iff₀ hUr, div_le_iff₀ hUr]
      constructor
      · have : (-(-binary64.ival k / binary64.uscale) - 1) * binary64.uscale < binary64.ival k := by linarith
        exact_mod_cast this
      · have : binary64.ival k ≤ -(-binary64.ival k / binary64.uscale) * binary64.uscale := by linarith
        exact_mod_cast this
  unfold CC.toInt32
  rw [b1, b2]
  simp only [Bool.or_self, Bool.false_eq_true, if_false]
  rw [key]

/-- C108: `min(x, y)` of an `int` and a finite `double` is the smaller one rounded toward zero; undefined if that is not an `int`. -/
theorem C108_min_mixed (m : Mode) (x : ℤ) (hx : -2 ^ 31 ≤ x ∧ x < 2 ^ 31) {y : ℕ} (hy : binary64.Finite y) (n : ℤ)
    (hn : n = if 0 ≤ min (x : ℝ) (binary64.val y) then ⌊min (x : ℝ) (binary64.val y)⌋ else ⌈min (x : ℝ) (binary64.val y)⌉) :
    CC.minMixed m x y = if -2 ^ 31 ≤ n then some n else none := by
  obtain ⟨d, d1, d2⟩ := int_datum binary64 binary64_wide (z := x) (by
    have : |x| ≤ 2 ^ 31 := abs_le.2 ⟨hx.1, hx.2.le⟩
    exact le_trans this (by decide))
  obtain ⟨r1, r2⟩ := RoundsTo.exact binary64 d1 d2 (ofInt_spec binary64 m x)
  obtain ⟨c1, c2, -⟩ := C04_fmin binary64 r1.valid hy.valid (not_nan_of_finite binary64 r1) (not_nan_of_finite binary64 hy)
  have fm : binary64.Finite (CC.fmin binary64 (binary64.ofInt m x) y) := by rcases c1 with h | h <;> rw [h] <;> assumption
  have vm : binary64.val (CC.fmin binary64 (binary64.ofInt m x) y) = min (x : ℝ) (binary64.val y) := by
    rw [xval_of_finite _ fm, xval_of_finite _ r1, xval_of_finite _ hy, r2] at c2
    have : ((min (x : ℝ) (binary64.val y) : ℝ) : EReal) = min ((x : ℝ) : EReal) (binary64.val y : EReal) := EReal.coe_strictMono.monotone.map_min
    rw [← this] at c2
    exact_mod_cast c2
  unfold CC.minMixed
  rw [toInt32_trunc fm n (by rw [vm]; exact hn)]
  have hlt : n < 2 ^ 31 := by
    refine lt_of_le_of_lt ?_ hx.2
    rw [hn]
    split_ifs
    · have := Int.floor_le (min (x : ℝ) (binary64.val y))
      have h2 := min_le_left (x : ℝ) (binary64.val y)
      exact_mod_cast le_trans this h2
    · exact Int.ceil_le.2 (min_le_left _ _)
  simp only [hlt, and_true]

/-- C108: a NaN or an infinite second argument: `x` for NaN and `+∞`, undefined for `-∞` -/
theorem C108_min_mixed_special (m : Mode) (x : ℤ) (hx : -2 ^ 31 ≤ x ∧ x < 2 ^ 31) :
    (∀ y, binary64.Valid y → binary64.IsNaN y → CC.minMixed m x y = some x) ∧ CC.minMixed m x (binary64.inf false) = some x ∧
      CC.minMixed m x (binary64.inf true) = none := by
  obtain ⟨d, d1, d2⟩ := int_datum binary64 binary64_wide (z := x) (by
    have : |x| ≤ 2 ^ 31 := abs_le.2 ⟨hx.1, hx.2.le⟩
    exact le_trans this (by decide))
  obtain ⟨r1, r2⟩ := RoundsTo.exact binary64 d1 d2 (ofInt_spec binary64 m x)
  have back : CC.toInt32 binary64 (binary64.ofInt m x) = some x := by
    rw [toInt32_trunc r1 x (by rw [r2, Int.floor_intCast, Int.ceil_intCast, ite_self]), if_pos hx]
  have ni : ∀ s, ¬ binary64.IsNaN (binary64.inf s) := by intro s; rw [isNaN_iff]; cases s <;> decide +kernel
  have vi : ∀ s, binary64.Valid (binary64.inf s) := by intro s; cases s <;> decide +kernel
  have xr := xval_of_finite _ r1
  refine ⟨?_, ?_, ?_⟩
  · intro y vy ny
    unfold CC.minMixed
    rw [((C04_nan binary64 r1.valid vy).2.1 (not_nan_of_finite binary64 r1) ny).1, back]
  · obtain ⟨c1, c2, -⟩ := C04_fmin binary64 r1.valid (vi false) (not_nan_of_finite binary64 r1) (ni false)
    unfold CC.minMixed
    rcases c1 with h | h
    · rw [h, back]
    · exfalso
      rw [h, xval_inf, xr] at c2
      simp at c2
  · obtain ⟨c1, c2, -⟩ := C04_fmin binary64 r1.valid (vi true) (not_nan_of_finite binary64 r1) (ni true)
    unfold CC.minMixed
    rcases c1 with h | h
    · exfalso
      rw [h, xval_inf, xr] at c2
      simp at c2
    · rw [h]; decide +kernel

/-- C108, finding: `min(1, 0.5)` is 0, neither argument; `min(5, -0.5)` is 0, larger than `-0.5`; `min(0, -1e10)` is undefined. -/
theorem C108_min_mixed_wrong : CC.minMixed .nearest 1 0x3FE0000000000000 = some 0 ∧ CC.minMixed .nearest 5 0xBFE0000000000000 = some 0 ∧
    CC.minMixed .nearest 0 0xC202A05F20000000 = none := by decide +kernel

example : CC.minMixed .nearest 3 0x4014000000000000 = some 3 := by decide +kernel

end Verif
