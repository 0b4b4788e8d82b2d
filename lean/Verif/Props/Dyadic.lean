import Verif.Lemmas.Dyadic5
import Mathlib.Data.Int.Log

/-!
# C31 conversion of dyadic floats, C32 dyadic arithmetic

`Dy.val d` is the real number `±mantissa * 2^exponent`; `Dy.Normal B d` says that the mantissa is zero or has exactly `B` significant bits, which
is what the constructors establish (`C32_construct`).
-/

namespace Verif
open Fmt

/-! ### C31 -/

/-- The constructor from a floating-point number is exact and normalized. -/
theorem C31_of_float (f : Fmt) {B : ℕ} (hB : f.F + 1 ≤ B) {x : ℕ} (hx : f.Finite x) :
    (CC.dyOf f B x).Normal B ∧ (CC.dyOf f B x).val = f.val x ∧ (CC.dyOf f B x).s = f.sgn x := by
  obtain ⟨h1, h2, h3, -⟩ := CC.dyOf_spec (f := f) hB hx
  exact ⟨h1, h2, h3⟩

/-- 3.0 -/
example : CC.dyOf binary64 64 0x4008000000000000 = ⟨false, -62, 3 * 2 ^ 62⟩ := by decide +kernel

/-- `generic_as` returns the value of the dyadic float correctly rounded in the current mode: normal, subnormal and overflowing results. -/
theorem C31_generic_as (f : Fmt) {B : ℕ} (hB : f.F + 2 ≤ B) (md : Mode) {d : Dy} (hd : d.Normal B) :
    f.RoundsTo md d.s d.val (CC.genericAs f B md d) := CC.genericAs_spec f hB md hd

/-- `2^52 + 1/2 + 2^-11` is rounded up to `2^52 + 1` in one step -/
example : CC.genericAs binary64 64 .nearest ⟨false, -11, 2 ^ 63 + 2 ^ 10 + 1⟩ = 0x4330000000000001 ∧
    Dy.Normal 64 ⟨false, -11, 2 ^ 63 + 2 ^ 10 + 1⟩ := ⟨by decide +kernel, by unfold Dy.Normal; decide⟩

/-- `as` / `fast_as`, which compute the result with two floating-point operations, return the correctly rounded value in every mode, whether or not
the multiply-add is fused.  `exponent` is an `int`, so the last hypothesis always holds. -/
theorem C31_fast_as (f : Fmt) (hF : 2 ≤ f.F) (hb : f.F + 3 ≤ f.bias) {B : ℕ} (hB : f.F + 2 ≤ B) (hB2 : B ≤ 2 ^ 31) (fused : Bool) (md : Mode) {d : Dy}
    (hd : d.Normal B) (he : -2 ^ 31 ≤ d.e) : f.RoundsTo md d.s d.val (CC.fastAs f B fused md d) := CC.fastAs_spec f hF hb hB hB2 fused md hd he

example : 2 ≤ binary64.F ∧ binary64.F + 3 ≤ binary64.bias ∧ 2 ≤ binary32.F ∧ binary32.F + 3 ≤ binary32.bias := by decide
/-- just above half the least subnormal float: the least subnormal float -/
example : CC.fastAs binary32 64 false .nearest ⟨false, -213, 2 ^ 63 + 1⟩ = 1 ∧ CC.fastAs binary32 64 false .nearest ⟨false, -213, 2 ^ 63⟩ = 0 ∧
    CC.fastAs binary32 64 true .up ⟨false, -300, 2 ^ 63⟩ = 1 ∧ Dy.Normal 64 ⟨false, -213, 2 ^ 63 + 1⟩ :=
  ⟨by decide +kernel, by decide +kernel, by decide +kernel, by unfold Dy.Normal; decide⟩

/-- An unnormalized mantissa passed to the constructor and converted back is rounded once. -/
theorem C31_construct_as (f : Fmt) (hF : 2 ≤ f.F) (hb : f.F + 3 ≤ f.bias) {B : ℕ} (hB : f.F + 2 ≤ B) (hB2 : B ≤ 2 ^ 30) (fused : Bool) (md : Mode)
    (s : Bool) (e : ℤ) {mant : ℕ} (hm : mant < 2 ^ B) (he : -2 ^ 30 ≤ e) :
    f.RoundsTo md s ((if s then -1 else 1) * ((mant : ℝ) * 2 ^ e)) (CC.fastAs f B fused md (CC.dyMk B s e mant)) := by
  obtain ⟨h1, h2, h3, -, h5, -⟩ := CC.dyNormalize_spec (B := B) (d := ⟨s, e, mant⟩) hm
  have hc : (2 : ℤ) ^ 30 = 1073741824 := by norm_num
  have hc2 : (2 : ℤ) ^ 31 = 2147483648 := by norm_num
  have hB3 : (B : ℤ) ≤ 1073741824 := by exact_mod_cast hB2
  simp only at h5
  have := CC.fastAs_spec f hF hb hB (le_trans hB2 (by norm_num)) fused md h1 (by omega)
  rw [h2, h3] at this
  exact this

example : CC.fastAs binary64 64 false .nearest (CC.dyMk 64 true (-1) 3) = 0xBFF8000000000000 := by decide +kernel

/-- The two conversions agree on every dyadic float. -/
theorem C31_fast_eq_generic (f : Fmt) (hF : 2 ≤ f.F) (hb : f.F + 3 ≤ f.bias) {B : ℕ} (hB : f.F + 2 ≤ B) (hB2 : B ≤ 2 ^ 31) (fused : Bool) (md : Mode) {d : Dy}
    (hd : d.Normal B) (he : -2 ^ 31 ≤ d.e) : CC.fastAs f B fused md d = CC.genericAs f B md d :=
  RoundsTo.unique f (C31_fast_as f hF hb hB hB2 fused md hd he) (C31_generic_as f hB md hd)

/-- Without normalization the conversion can be wrong: the mantissa 1 with exponent 0 is not 1. -/
theorem C31_unnormalized : CC.genericAs binary64 64 .nearest ⟨false, 0, 1⟩ ≠ 0x3FF0000000000000 := by decide +kernel

/-! ### C32: constructors, shifts, negation -/

/-- The constructor normalizes without changing the number. -/
theorem C32_construct {B : ℕ} (s : Bool) (e : ℤ) {mant : ℕ} (hm : mant < 2 ^ B) :
    (CC.dyMk B s e mant).Normal B ∧ (CC.dyMk B s e mant).val = (if s then -1 else 1) * ((mant : ℝ) * 2 ^ e) ∧ (CC.dyMk B s e mant).s = s := by
  obtain ⟨h1, h2, h3, -⟩ := CC.dyNormalize_spec (B := B) (d := ⟨s, e, mant⟩) hm
  exact ⟨h1, h2, h3⟩

example : CC.dyMk 128 true 5 6 = ⟨true, 5 - 125, 6 * 2 ^ 125⟩ := by decide +kernel

/-- Negation is exact. -/
theorem C32_neg {B : ℕ} {a : Dy} (ha : a.m < 2 ^ B) : (CC.dyNeg B a).val = - a.val ∧ (CC.dyNeg B a).Normal B ∧ (CC.dyNeg B a).s = !a.s := by
  obtain ⟨h1, h2, h3⟩ := C32_construct (B := B) (!a.s) a.e ha
  refine ⟨?_, h1, h3⟩
  unfold CC.dyNeg
  rw [h2]; unfold Dy.val
  cases a.s <;> simp

example : CC.dyNeg 64 ⟨false, 3, 2 ^ 63⟩ = ⟨true, 3, 2 ^ 63⟩ := by decide +kernel

/-- Shifting left is exact while no set bit is lost. -/
theorem C32_shift_left {B n : ℕ} {a : Dy} (hn : n < B) (ha : a.m < 2 ^ (B - n)) : (CC.dyShl B a n).val = a.val := by
  unfold CC.dyShl
  rw [if_pos hn]
  have h1 : a.m <<< n < 2 ^ B := by
    rw [Nat.shiftLeft_eq]
    calc a.m * 2 ^ n < 2 ^ (B - n) * 2 ^ n := Nat.mul_lt_mul_of_pos_right ha (by positivity)
      _ = 2 ^ B := by rw [← pow_add]; congr 1; omega
  rw [Nat.mod_eq_of_lt h1, Nat.shiftLeft_eq]
  unfold Dy.val
  simp only
  push_cast
  rw [zpow_sub₀ (by norm_num), zpow_natCast]
  field_simp

example : CC.dyShl 64 ⟨false, 3, 5⟩ 10 = ⟨false, -7, 5 * 2 ^ 10⟩ := by decide +kernel

/-- Shifting right truncates toward zero, by less than one unit of the new exponent; a shift of the whole width or more gives zero. -/
theorem C32_shift_right {B n : ℕ} (a : Dy) (hn : n < B) :
    (CC.dyShr B a n).e = a.e + n ∧ |(CC.dyShr B a n).val| ≤ |a.val| ∧ |a.val| < |(CC.dyShr B a n).val| + 2 ^ (a.e + n) := by
  rw [CC.dyShr_lt hn]
  obtain ⟨h1, h2⟩ := CC.align_bounds a.m n a.e (a.e + n) rfl
  rw [Dy.abs_val, Dy.abs_val]
  refine ⟨rfl, h1, ?_⟩
  rw [add_mul, one_mul] at h2
  exact h2

theorem C32_shift_right_all {B n : ℕ} (a : Dy) (hn : B ≤ n) : (CC.dyShr B a n).val = 0 := by
  rw [CC.dyShr_ge hn]; simp [Dy.val]

example : CC.dyShr 64 ⟨true, -2, 13⟩ 2 = ⟨true, 0, 3⟩ := by decide +kernel

/-- `mul_pow_2` is exact. -/
theorem C32_mul_pow_2 (a : Dy) (k : ℤ) : (CC.mulPow2 a k).val = a.val * 2 ^ k := by
  unfold CC.mulPow2 Dy.val
  simp only
  rw [zpow_add₀ (by norm_num)]; ring

example : CC.mulPow2 ⟨true, -2, 13⟩ 7 = ⟨true, 5, 13⟩ := rfl

/-! ### C32: addition and subtraction -/

/-- `quick_add` returns the other operand when one is zero. -/
theorem C32_quick_add_zero (B : ℕ) {a b : Dy} (h : a.m = 0 ∨ b.m = 0) : (CC.quickAdd B a b).val = a.val + b.val := by
  unfold CC.quickAdd
  by_cases h1 : a.m = 0
  · rw [if_pos h1, (Dy.val_eq_zero a).2 h1, zero_add]
  · have h2 : b.m = 0 := by tauto
    rw [if_neg h1, if_pos h2, (Dy.val_eq_zero b).2 h2, add_zero]

example : CC.quickAdd 64 ⟨false, 0, 0⟩ ⟨true, 3, 2 ^ 63⟩ = ⟨true, 3, 2 ^ 63⟩ := by decide +kernel

/-- Operands of the same sign: the result is the exact sum truncated to `B` significant bits, provided the exponent of the second operand does not
exceed that of the first by `B` or more (see `C32_quick_add_far_wrong`). -/
theorem C32_quick_add_same_sign_partial {B : ℕ} (hB : 2 ≤ B) {a b : Dy} (ha : a.Normal B) (hb : b.Normal B) (ha0 : a.m ≠ 0) (hb0 : b.m ≠ 0) (hs : a.s = b.s)
    (he : b.e < a.e + B) :
    (CC.quickAdd B a b).Normal B ∧ (CC.quickAdd B a b).m ≠ 0 ∧ (CC.quickAdd B a b).s = a.s ∧
      |(CC.quickAdd B a b).val| ≤ |a.val + b.val| ∧ |a.val + b.val| < |(CC.quickAdd B a b).val| + 2 ^ (CC.quickAdd B a b).e := by
  obtain ⟨h1, h2, h3, h4, h5, -⟩ := CC.quickAdd_same hB ha hb ha0 hb0 hs he
  have hab : |a.val + b.val| = |a.val| + |b.val| := by
    rw [a.abs_val, b.abs_val, a.val_sg, b.val_sg, hs, ← mul_add, abs_mul, abs_sg, one_mul, abs_of_nonneg]
    have := two_zpow_pos a.e; have := two_zpow_pos b.e; positivity
  rw [hab, Dy.abs_val]
  rw [add_mul, one_mul] at h5
  exact ⟨h1, h3, h2, h4, h5⟩

/-- 3 + 0.5, 64 bits; carry out of the top word -/
example : CC.quickAdd 64 ⟨false, -62, 3 * 2 ^ 62⟩ ⟨false, -64, 2 ^ 63⟩ = ⟨false, -62, 7 * 2 ^ 61⟩ ∧
    CC.quickAdd 64 ⟨false, 0, 2 ^ 64 - 1⟩ ⟨false, 0, 2 ^ 64 - 1⟩ = ⟨false, 1, 2 ^ 64 - 1⟩ ∧ Dy.Normal 64 ⟨false, 0, 2 ^ 64 - 1⟩ :=
  ⟨by decide +kernel, by decide +kernel, by unfold Dy.Normal; decide⟩

/-- Operands of opposite sign: the error is below one unit of the larger exponent, and there is none when the exponents agree. -/
theorem C32_quick_add_opposite_sign {B : ℕ} {a b : Dy} (ha : a.Normal B) (hb : b.Normal B) (ha0 : a.m ≠ 0) (hb0 : b.m ≠ 0) (hs : a.s ≠ b.s) :
    (CC.quickAdd B a b).Normal B ∧ |(CC.quickAdd B a b).val - (a.val + b.val)| < 2 ^ (max a.e b.e) ∧
      (a.e = b.e → (CC.quickAdd B a b).val = a.val + b.val) := CC.quickAdd_opp ha hb ha0 hb0 hs

example : CC.quickAdd 64 ⟨false, -62, 3 * 2 ^ 62⟩ ⟨true, -63, 2 ^ 63⟩ = ⟨false, -62, 2 ^ 63⟩ := by decide +kernel

theorem exists_msb {v : ℝ} (hv : v ≠ 0) {k : ℤ} (hk : (2 : ℝ) ^ k ≤ |v|) : ∃ K : ℤ, (2 : ℝ) ^ K ≤ |v| ∧ |v| < 2 ^ (K + 1) ∧ k ≤ K := by
  have hp : 0 < |v| := abs_pos.2 hv
  refine ⟨Int.log 2 |v|, ?_, ?_, ?_⟩
  · exact_mod_cast Int.zpow_log_le_self (b := 2) (by norm_num) hp
  · exact_mod_cast Int.lt_zpow_succ_log_self (b := 2) (by norm_num) |v|
  · exact (Int.zpow_le_iff_le_log (b := 2) (by norm_num) hp).1 (by exact_mod_cast hk)

/-- The documented bound `|quick_add(a,b) - (a+b)| < MSB(a+b) * 2^(2-Bits)`, where `MSB` is the leading power of two.  It holds when the exponents are
equal or differ by at least two, or the signs agree (and `b` is not `2^B` times larger); it fails in the remaining cases
(`C32_quick_add_documented_wrong`, `C32_quick_add_far_wrong`). -/
theorem C32_quick_add_documented_partial {B : ℕ} (hB : 2 ≤ B) {a b : Dy} (ha : a.Normal B) (hb : b.Normal B) (ha0 : a.m ≠ 0) (hb0 : b.m ≠ 0)
    (h : (a.s = b.s ∧ b.e < a.e + B) ∨ (a.s ≠ b.s ∧ (a.e = b.e ∨ a.e + 2 ≤ b.e ∨ b.e + 2 ≤ a.e))) (hne : a.val + b.val ≠ 0) :
    ∃ K : ℤ, (2 : ℝ) ^ K ≤ |a.val + b.val| ∧ |a.val + b.val| < 2 ^ (K + 1) ∧
      |(CC.quickAdd B a b).val - (a.val + b.val)| < 2 ^ K * 2 ^ (2 - (B : ℤ)) := by
  have fin : ∀ k : ℤ, (2 : ℝ) ^ k ≤ |a.val + b.val| → |(CC.quickAdd B a b).val - (a.val + b.val)| < 2 ^ k * 2 ^ (2 - (B : ℤ)) →
      ∃ K : ℤ, (2 : ℝ) ^ K ≤ |a.val + b.val| ∧ |a.val + b.val| < 2 ^ (K + 1) ∧
        |(CC.quickAdd B a b).val - (a.val + b.val)| < 2 ^ K * 2 ^ (2 - (B : ℤ)) := by
    intro k h1 h2
    obtain ⟨K, k1, k2, k3⟩ := exists_msb hne h1
    refine ⟨K, k1, k2, lt_of_lt_of_le h2 ?_⟩
    exact mul_le_mul_of_nonneg_right (zpow_le_zpow_right₀ (by norm_num) k3) (two_zpow_pos _).le
  rcases h with ⟨hs, he⟩ | ⟨hs, he⟩
  · obtain ⟨g1, g2, g3, g4, g5⟩ := C32_quick_add_same_sign_partial hB ha hb ha0 hb0 hs he
    generalize CC.quickAdd B a b = r at *
    have hm : 2 ^ (B - 1) ≤ r.m := by have := g1.2; tauto
    have hr : (2 : ℝ) ^ ((B : ℤ) - 1 + r.e) ≤ |r.val| := by
      rw [r.abs_val, zpow_add₀ (by norm_num), show (B : ℤ) - 1 = ((B - 1 : ℕ) : ℤ) by omega, zpow_natCast]
      exact mul_le_mul_of_nonneg_right (by exact_mod_cast hm) (two_zpow_pos _).le
    refine fin ((B : ℤ) - 1 + r.e) (le_trans hr g4) ?_
    rw [← zpow_add₀ (by norm_num), show (B : ℤ) - 1 + r.e + (2 - B) = r.e + 1 by ring, two_zpow_succ]
    have hpos := two_zpow_pos r.e
    have e1 : |r.val - (a.val + b.val)| = |a.val + b.val| - |r.val| := by
      have s1 : r.val = sg a.s * |r.val| := by rw [r.abs_val, r.val_sg, g3]
      have s2 : a.val + b.val = sg a.s * |a.val + b.val| := by
        have : a.val + b.val = sg a.s * ((a.m : ℝ) * 2 ^ a.e + b.m * 2 ^ b.e) := by rw [a.val_sg, b.val_sg, hs]; ring
        rw [this, abs_mul, abs_sg, one_mul, abs_of_nonneg]
        have := two_zpow_pos a.e; have := two_zpow_pos b.e; positivity
      rw [s1, s2]
      have hz : |(sg a.s * |r.val|)| = |r.val| := by rw [abs_mul, abs_sg, one_mul, abs_abs]
      have hz2 : |(sg a.s * |a.val + b.val|)| = |a.val + b.val| := by rw [abs_mul, abs_sg, one_mul, abs_abs]
      rw [hz, hz2, ← mul_sub, abs_mul, abs_sg, one_mul, abs_sub_comm, abs_of_nonneg (by linarith)]
    rw [e1]; linarith
  · obtain ⟨g1, g2, g3⟩ := C32_quick_add_opposite_sign ha hb ha0 hb0 hs
    have ham : 2 ^ (B - 1) ≤ a.m := by have := ha.2; tauto
    have hbm : 2 ^ (B - 1) ≤ b.m := by have := hb.2; tauto
    have low : ∀ d : Dy, 2 ^ (B - 1) ≤ d.m → (2 : ℝ) ^ ((B : ℤ) - 1 + d.e) ≤ |d.val| := by
      intro d hd
      rw [d.abs_val, zpow_add₀ (by norm_num), show (B : ℤ) - 1 = ((B - 1 : ℕ) : ℤ) by omega, zpow_natCast]
      exact mul_le_mul_of_nonneg_right (by exact_mod_cast hd) (two_zpow_pos _).le
    have high : ∀ d : Dy, d.m < 2 ^ B → |d.val| < (2 : ℝ) ^ ((B : ℤ) + d.e) := by
      intro d hd
      rw [d.abs_val, zpow_add₀ (by norm_num), zpow_natCast]
      exact mul_lt_mul_of_pos_right (by exact_mod_cast hd) (two_zpow_pos _)
    -- the larger operand dominates
    have dom : ∀ x y : Dy, 2 ^ (B - 1) ≤ x.m → y.m < 2 ^ B → y.e + 2 ≤ x.e → (2 : ℝ) ^ ((B : ℤ) - 2 + x.e) ≤ |x.val + y.val| := by
      intro x y hx hy hxy
      have h1 := low x hx
      have h2 := high y hy
      have h3 : (2 : ℝ) ^ ((B : ℤ) + y.e) ≤ 2 ^ ((B : ℤ) - 2 + x.e) := zpow_le_zpow_right₀ (by norm_num) (by omega)
      have h4 : (2 : ℝ) ^ ((B : ℤ) - 1 + x.e) = 2 * 2 ^ ((B : ℤ) - 2 + x.e) := by rw [← two_zpow_succ]; congr 1; ring
      have h5 : |x.val| ≤ |x.val + y.val| + |y.val| := by
        have := abs_sub (x.val + y.val) y.val
        rwa [add_sub_cancel_right] at this
      linarith
    rcases he with he | he | he
    · have h0 := g3 he
      obtain ⟨k, hk⟩ : ∃ k : ℤ, (2 : ℝ) ^ k ≤ |a.val + b.val| := by
        refine ⟨Int.log 2 |a.val + b.val|, ?_⟩
        exact_mod_cast Int.zpow_log_le_self (b := 2) (by norm_num) (abs_pos.2 hne)
      refine fin k hk ?_
      rw [h0, sub_self, abs_zero]
      exact mul_pos (two_zpow_pos _) (two_zpow_pos _)
    · rw [max_eq_right (by omega)] at g2
      refine fin ((B : ℤ) - 2 + b.e) (by rw [add_comm a.val]; exact dom b a hbm ha.1 he) ?_
      rw [← zpow_add₀ (by norm_num), show (B : ℤ) - 2 + b.e + (2 - B) = b.e by ring]; exact g2
    · rw [max_eq_left (by omega)] at g2
      refine fin ((B : ℤ) - 2 + a.e) (dom a b ham hb.1 he) ?_
      rw [← zpow_add₀ (by norm_num), show (B : ℤ) - 2 + a.e + (2 - B) = a.e by ring]; exact g2

/-- `2^63 - (2^63 - 2^-1)`: exponents differ by one, signs differ; exact difference 1/2, computed 1, error `MSB * 2^0`, far above the documented
`MSB * 2^-62`. -/
theorem C32_quick_add_documented_wrong :
    CC.quickAdd 64 ⟨false, 0, 2 ^ 63⟩ ⟨true, -1, 2 ^ 64 - 1⟩ = ⟨false, -63, 2 ^ 63⟩ ∧
      Dy.val ⟨false, -63, 2 ^ 63⟩ = 1 ∧ Dy.val ⟨false, 0, 2 ^ 63⟩ + Dy.val ⟨true, -1, 2 ^ 64 - 1⟩ = 1 / 2 ∧
      Dy.Normal 64 ⟨false, 0, 2 ^ 63⟩ ∧ Dy.Normal 64 ⟨true, -1, 2 ^ 64 - 1⟩ := by
  refine ⟨by decide +kernel, ?_, ?_, ?_, ?_⟩
  · norm_num [Dy.val]
  · norm_num [Dy.val]
  · unfold Dy.Normal; decide
  · unfold Dy.Normal; decide

/-- A first operand smaller by `2^B` or more destroys the exponent of the sum: `2^-100 + 1` gives `2^63`. -/
theorem C32_quick_add_far_wrong :
    CC.quickAdd 64 ⟨false, -163, 2 ^ 63⟩ ⟨false, -63, 2 ^ 63⟩ = ⟨false, 0, 2 ^ 63⟩ ∧
      Dy.val ⟨false, -163, 2 ^ 63⟩ + Dy.val ⟨false, -63, 2 ^ 63⟩ = 2 ^ (-100 : ℤ) + 1 ∧ Dy.val ⟨false, 0, 2 ^ 63⟩ = 2 ^ 63 := by
  refine ⟨by decide +kernel, ?_, ?_⟩
  · norm_num [Dy.val]
  · norm_num [Dy.val]

/-- `quick_sub` is `quick_add` of the negated operand: same bounds. -/
theorem C32_quick_sub_opposite {B : ℕ} {a b : Dy} (ha : a.Normal B) (hb : b.Normal B) (ha0 : a.m ≠ 0) (hb0 : b.m ≠ 0) (hs : a.s = b.s) :
    (CC.quickSub B a b).Normal B ∧ |(CC.quickSub B a b).val - (a.val - b.val)| < 2 ^ (max a.e b.e) ∧
      (a.e = b.e → (CC.quickSub B a b).val = a.val - b.val) := by
  have hbm : 2 ^ (B - 1) ≤ b.m := by have := hb.2; tauto
  have hneg : CC.dyNeg B b = ⟨!b.s, b.e, b.m⟩ := by
    have hlen : CC.bitWidth b.m = B := by
      have hB1 : 1 ≤ B := by
        by_contra hc
        have hz : B = 0 := by omega
        have := hb.1; rw [hz] at this; simp at this; exact hb0 this
      apply le_antisymm (CC.bitWidth_le.2 hb.1)
      have h1 := (CC.bitWidth_spec (Nat.pos_of_ne_zero hb0)).2
      by_contra hc
      have : 2 ^ CC.bitWidth b.m ≤ 2 ^ (B - 1) := Nat.pow_le_pow_right (by norm_num) (by omega)
      omega
    unfold CC.dyNeg CC.dyMk CC.dyNormalize
    rw [if_pos hb0]
    simp only [hlen, Nat.sub_self, Nat.shiftLeft_zero, Nat.mod_eq_of_lt hb.1]
    simp
  obtain ⟨n1, n2, n3⟩ := C32_neg (B := B) hb.1
  have := C32_quick_add_opposite_sign (a := a) (b := CC.dyNeg B b) ha n2 ha0 (by rw [hneg]; exact hb0) (by rw [n3, hs]; cases b.s <;> simp)
  rw [n1, show (CC.dyNeg B b).e = b.e by rw [hneg], ← sub_eq_add_neg] at this
  exact this

example : CC.quickSub 64 ⟨false, -62, 3 * 2 ^ 62⟩ ⟨false, -63, 2 ^ 63⟩ = ⟨false, -62, 2 ^ 63⟩ := by decide +kernel

/-! ### C32: multiplication and powers -/

/-- `quick_mul` truncates toward zero with an error below `2N` units in the last place of the result (`N` words); the sign is the product of the
signs and the result is normalized.  (The documentation says `2(N-1)`, see `C32_quick_mul_documented_wrong`.) -/
theorem C32_quick_mul (wide : Bool) {w N : ℕ} (hw : 1 ≤ w) (he : wide = false → w % 2 = 0) (hN : 1 ≤ N) (hM : N < 2 ^ w) (hB : 2 ≤ w * N) {a b : Dy}
    (ha : a.Normal (w * N)) (hb : b.Normal (w * N)) (ha0 : a.m ≠ 0) (hb0 : b.m ≠ 0) :
    (CC.quickMul wide w N a b).Normal (w * N) ∧ (CC.quickMul wide w N a b).s = (a.s != b.s) ∧
      |(CC.quickMul wide w N a b).val| ≤ |a.val * b.val| ∧
      |a.val * b.val| < |(CC.quickMul wide w N a b).val| + 2 * N * 2 ^ (CC.quickMul wide w N a b).e := by
  obtain ⟨g1, g2, g3, -, -, g6⟩ := CC.quickMul_spec wide hw he hN hM ha hb ha0 hb0 hB
  obtain ⟨k1, k2⟩ := CC.quickMul_abs wide hw he hN hM ha hb ha0 hb0 hB
  refine ⟨g1, g3, k1, lt_of_lt_of_le k2 ?_⟩
  have : (2 : ℝ) ^ (a.e + b.e + (w * N : ℕ)) ≤ 2 ^ ((CC.quickMul wide w N a b).e + 1) := zpow_le_zpow_right₀ (by norm_num) (by omega)
  rw [two_zpow_succ] at this
  have := mul_le_mul_of_nonneg_left this (Nat.cast_nonneg (α := ℝ) N)
  linarith

/-- 3 * 5 with two words -/
example : CC.quickMul true 64 2 ⟨false, -126, 3 * 2 ^ 126⟩ ⟨true, -125, 5 * 2 ^ 125⟩ = ⟨true, -124, 15 * 2 ^ 124⟩ ∧
    Dy.Normal (64 * 2) ⟨true, -125, 5 * 2 ^ 125⟩ := ⟨by decide +kernel, by unfold Dy.Normal; decide⟩

/-- Relative form, also for zero operands. -/
theorem C32_quick_mul_relative (wide : Bool) {w N : ℕ} (hw : 1 ≤ w) (he : wide = false → w % 2 = 0) (hN : 1 ≤ N) (hM : N < 2 ^ w) (hB : 2 ≤ w * N) {a b : Dy}
    (ha : a.Normal (w * N)) (hb : b.Normal (w * N)) :
    ∃ θ : ℝ, 1 - N * 2 ^ (2 - ((w * N : ℕ) : ℤ)) ≤ θ ∧ θ ≤ 1 ∧ (CC.quickMul wide w N a b).val = a.val * b.val * θ :=
  (CC.quickMul_rel wide hw he hN hM ha hb hB).2.2

/-- Products whose digits all fit are exact. -/
theorem C32_quick_mul_exact (wide : Bool) {w N : ℕ} (hw : 1 ≤ w) (he : wide = false → w % 2 = 0) (hN : 1 ≤ N) (hM : N < 2 ^ w) (hB : 2 ≤ w * N) {a b : Dy}
    (ha : a.Normal (w * N)) (hb : b.Normal (w * N)) (ha0 : a.m ≠ 0) (hb0 : b.m ≠ 0)
    (hlow : 2 ^ (w * (N - 1)) ∣ a.m) (hd : 2 ^ (w * N) ∣ a.m * b.m) : (CC.quickMul wide w N a b).val = a.val * b.val :=
  CC.quickMul_exact wide hw he hN hM ha hb ha0 hb0 hB (Nat.mod_eq_zero_of_dvd hlow) hd

example : 2 ^ (64 * (2 - 1)) ∣ 3 * 2 ^ 126 ∧ 2 ^ (64 * 2) ∣ (3 * 2 ^ 126) * (5 * 2 ^ 125) := by decide

/-- The documented error of `2(N-1)` units does not hold: with two words (`2(N-1) = 2`) an error above 3 units, with one word (`2(N-1) = 0`) an error
of one unit. -/
theorem C32_quick_mul_documented_wrong :
    (let a : Dy := ⟨false, 0, 0x8000000000000005fffffffffffffffe⟩
     let b : Dy := ⟨false, 0, 0x8000000000000001fffffffffffffffc⟩
     a.val * b.val - (CC.quickMul true 64 2 a b).val > 3 * 2 ^ (CC.quickMul true 64 2 a b).e) ∧
    (let a : Dy := ⟨false, 0, 2 ^ 63 + 1⟩
     let b : Dy := ⟨false, 0, 2 ^ 63 + 2⟩
     a.val * b.val - (CC.quickMul true 64 1 a b).val ≥ 1 * 2 ^ (CC.quickMul true 64 1 a b).e) := by
  have h1 : CC.quickMul true 64 2 ⟨false, 0, 0x8000000000000005fffffffffffffffe⟩ ⟨false, 0, 0x8000000000000001fffffffffffffffc⟩ =
    ⟨false, 127, 170141183460469231879261256305560518670⟩ := by decide +kernel
  have h2 : CC.quickMul true 64 1 ⟨false, 0, 2 ^ 63 + 1⟩ ⟨false, 0, 2 ^ 63 + 2⟩ = ⟨false, 63, 9223372036854775810⟩ := by decide +kernel
  constructor
  · simp only [h1]; norm_num [Dy.val]
  · simp only [h2]; norm_num [Dy.val]

/-- `pow_n` multiplies at most `power` truncated products: `a^power * θ` with `(1 - N 2^(2-B))^power ≤ θ ≤ 1`. -/
theorem C32_pow_n (wide : Bool) {w N : ℕ} (hw : 1 ≤ w) (he : wide = false → w % 2 = 0) (hN : 1 ≤ N) (hM : N < 2 ^ w) (hB : 53 ≤ w * N)
    {a : Dy} (ha : a.Normal (w * N)) {power : ℕ} (hp : power < 2 ^ 32) (hsmall : (N : ℝ) * 2 ^ (2 - ((w * N : ℕ) : ℤ)) ≤ 1) :
    (CC.dyPowN wide w N a power).Normal (w * N) ∧
      ∃ θ : ℝ, (1 - N * 2 ^ (2 - ((w * N : ℕ) : ℤ))) ^ power ≤ θ ∧ θ ≤ 1 ∧ (CC.dyPowN wide w N a power).val = a.val ^ power * θ := by
  have hone : binary64.Finite 0x3FF0000000000000 := by decide
  obtain ⟨o1, o2, -, -⟩ := CC.dyOf_spec (f := binary64) (B := w * N) hB hone
  have hv : binary64.val 0x3FF0000000000000 = 1 := by
    have h := CC.val_one binary64 false
    have e : CC.oneLit binary64 false = 0x3FF0000000000000 := by decide +kernel
    rw [e] at h; simpa using h
  rw [hv] at o2
  have := CC.powNLoop_spec wide hw he hN hM (by omega) hsmall 32 _ a power o1 ha hp
  rw [o2, one_mul] at this
  exact this

example : (CC.dyPowN true 64 1 ⟨false, -62, 3 * 2 ^ 62⟩ 5) = ⟨false, -56, 243 * 2 ^ 56⟩ ∧ (1 : ℝ) * 2 ^ (2 - ((64 * 1 : ℕ) : ℤ)) ≤ 1 :=
  ⟨by decide +kernel, by norm_num⟩

/-! ### C32: correctly rounded product and quotient, integer parts -/

/-- `rounded_mul` rounds the exact product once to `B` significant bits, in every mode. -/
theorem C32_rounded_mul (md : Mode) {B : ℕ} (hB : 1 ≤ B) {a b : Dy} (ha : a.Normal B) (hb : b.Normal B) (ha0 : a.m ≠ 0) (hb0 : b.m ≠ 0) :
    RoundsDy B md (a.val * b.val) (CC.roundedMul md B a b) := CC.roundedMul_spec md hB ha hb ha0 hb0

example : CC.roundedMul .up 64 ⟨false, 0, 2 ^ 63 + 1⟩ ⟨false, 0, 2 ^ 63 + 1⟩ = ⟨false, 63, 2 ^ 63 + 3⟩ ∧
    CC.roundedMul .nearest 64 ⟨false, 0, 2 ^ 63 + 1⟩ ⟨false, 0, 2 ^ 63 + 1⟩ = ⟨false, 63, 2 ^ 63 + 2⟩ := ⟨by decide +kernel, by decide +kernel⟩

/-- `rounded_div` rounds the exact quotient once to `B` significant bits, in every mode. -/
theorem C32_rounded_div (md : Mode) {B : ℕ} (hB : 1 ≤ B) {a b : Dy} (ha : a.Normal B) (hb : b.Normal B) (ha0 : a.m ≠ 0) (hb0 : b.m ≠ 0) :
    ∃ r, CC.roundedDiv md B a b = some r ∧ RoundsDy B md (a.val / b.val) r := CC.roundedDiv_spec md hB ha hb ha0 hb0

example : CC.roundedDiv .nearest 64 ⟨false, -63, 2 ^ 63⟩ ⟨true, -62, 3 * 2 ^ 62⟩ = some ⟨true, -65, 0xAAAAAAAAAAAAAAAB⟩ := by decide +kernel

/-- `as_mantissa_type` is the integer part of the number, modulo `2^B`. -/
theorem C32_as_mantissa {B : ℕ} {d : Dy} (hd : d.m < 2 ^ B) :
    (CC.asMantissa B d : ℤ) = (if 0 ≤ d.val then ⌊d.val⌋ else ⌈d.val⌉) % (2 ^ B : ℤ) := CC.asMantissa_spec hd

example : CC.asMantissa 64 ⟨true, -61, 27 * 2 ^ 59⟩ = 2 ^ 64 - 6 := by decide +kernel

/-- `as_mantissa_type_rounded` is the number rounded to an integer, modulo `2^B`, and the reported direction is the sign of the rounding of the
magnitude; in the two directed modes only for exponents above `-B` (see `C32_as_mantissa_rounded_wrong`). -/
theorem C32_as_mantissa_rounded_partial {B : ℕ} {d : Dy} (hd : d.m < 2 ^ B) (md : Mode) (h : md = .nearest ∨ md = .zero ∨ -(B : ℤ) < d.e) :
    ∃ k : ℤ, IntRound md d.val k ∧ ((CC.asMantissaRounded md B d).1 : ℤ) = k % (2 ^ B : ℤ) ∧
      ((CC.asMantissaRounded md B d).2 = 1 ∧ |d.val| < |(k : ℝ)| ∨ (CC.asMantissaRounded md B d).2 = 0 ∧ d.val = k ∨
        (CC.asMantissaRounded md B d).2 = -1 ∧ |(k : ℝ)| < |d.val|) := CC.asMantissaRounded_spec hd md h

/-- 6.75 -/
example : CC.asMantissaRounded .nearest 64 ⟨false, -61, 27 * 2 ^ 59⟩ = (7, 1) := by decide +kernel

/-- 1/2 rounded upward gives 0 -/
theorem C32_as_mantissa_rounded_wrong : CC.asMantissaRounded .up 64 ⟨false, -64, 2 ^ 63⟩ = (0, -1) ∧ Dy.val ⟨false, -64, 2 ^ 63⟩ = 1 / 2 := by
  constructor
  · decide +kernel
  · norm_num [Dy.val]

end Verif
