import Verif.Model.IntAbs
import Verif.Props.IntUtil
import Verif.Props.Ext
import Verif.Props.Manip
import Verif.Lemmas.EFT

/-!
# C107: the integer overloads of `abs` and `fabs`
-/

namespace Verif
open CC Fmt

/-- C107: `abs` of a signed integer is its absolute value, except for the least value of the type: there the behaviour is undefined for types at
least as wide as `int`, and narrower types return the (negative) argument. -/
theorem C107_abs (t : ITy) (hN : 1 ≤ t.N) (hs : t.signed = true) (n : ℤ) (hn : t.Has n) :
    (n ≠ t.min → intAbs t n = some |n|) ∧ (n = t.min → 32 ≤ t.N → intAbs t n = none) ∧ (n = t.min → t.N < 32 → intAbs t n = some n) := by
  have hmin : t.min = -2 ^ (t.N - 1) := by unfold ITy.min; rw [hs]; rfl
  have hp : (0 : ℤ) < 2 ^ (t.N - 1) := by positivity
  have hh := (ITy.has_signed hs n).1 hn
  refine ⟨?_, ?_, ?_⟩
  · intro h
    rw [hmin] at h
    unfold intAbs
    by_cases h0 : n < 0
    · have hd : t.Has (-n) := by rw [ITy.has_signed hs]; omega
      rw [if_pos h0, ITy.arith_eq (ITy.has_promote hd), Option.map_some, ITy.conv_eq hN hd, abs_of_neg h0]
    · rw [if_neg h0, abs_of_nonneg (by omega)]
  · intro h h32
    have hpr : t.promote = t := if_neg (by omega)
    unfold intAbs
    rw [if_pos (by rw [h, hmin]; omega), hpr, ITy.arith, hs, if_pos rfl, if_neg, Option.map_none]
    rw [ITy.has_signed hs, h, hmin]; omega
  · intro h h32
    have hpr : t.promote = ⟨32, true⟩ := if_pos h32
    have hle : (2 : ℤ) ^ (t.N - 1) ≤ 2 ^ 30 := pow_le_pow_right₀ (by norm_num) (by omega)
    unfold intAbs
    have hd : ITy.Has ⟨32, true⟩ (-n) := by
      rw [ITy.has_signed rfl, h, hmin]; constructor <;> norm_num <;> norm_num at hle <;> omega
    rw [if_pos (by rw [h, hmin]; omega), hpr, ITy.arith_eq hd, Option.map_some]
    congr 1
    have e : (2 : ℤ) ^ t.N = 2 * 2 ^ (t.N - 1) := by rw [← pow_succ']; congr 1; omega
    have : t.conv (-n) = t.conv n := by
      rw [← ITy.conv_emod, ← ITy.conv_emod t n]
      congr 1
      rw [h, hmin, neg_neg, e]
      have : ∀ x : ℤ, x % (2 * x) = -x % (2 * x) := fun x => by
        rw [← Int.add_emod_right (-x) (2 * x)]; congr 1; ring
      exact this _
    rw [this, ITy.conv_eq hN hn]

example : intAbs ⟨32, true⟩ (-5) = some 5 ∧ intAbs ⟨64, true⟩ (-2 ^ 63) = none ∧ intAbs ⟨8, true⟩ (-128) = some (-128) := by decide +kernel

/-- C107, finding: `abs` of an unsigned integer goes through `int`: the result is the argument exactly for arguments below `2^31`.  (Larger ones lose
their high bits or meet undefined behaviour; the guard that was to reject such types is always true.) -/
theorem C107_abs_unsigned (t : ITy) (hN : 1 ≤ t.N) (hs : t.signed = false) (n : ℤ) (hn : t.Has n) : uintAbs t n = some n ↔ n < 2 ^ 31 := by
  have hh := (ITy.has_unsigned hs n).1 hn
  have hi : ITy.Has ⟨32, true⟩ (ITy.conv ⟨32, true⟩ n) := by
    rw [ITy.has_signed rfl]
    unfold ITy.conv
    simp only [if_true]
    have h1 := Int.le_bmod (x := n) (m := 2 ^ 32) (by norm_num)
    have h2 := Int.bmod_lt (x := n) (m := 2 ^ 32) (by norm_num)
    norm_num at h1 h2 ⊢
    omega
  constructor
  · intro h
    by_contra hc
    have hc : 2 ^ 31 ≤ n := by omega
    have h32 : 32 ≤ t.N := by
      by_contra h'
      have : (2 : ℤ) ^ t.N ≤ 2 ^ 31 := pow_le_pow_right₀ (by norm_num) (by omega)
      omega
    obtain ⟨a1, a2, -⟩ := C107_abs ⟨32, true⟩ (by norm_num) rfl _ hi
    unfold uintAbs at h
    by_cases hm : ITy.conv ⟨32, true⟩ n = ITy.min ⟨32, true⟩
    · rw [a2 hm (le_refl _)] at h; cases h
    · rw [a1 hm, Option.map_some, Option.some.injEq] at h
      have hmin : ITy.min ⟨32, true⟩ = -2 ^ 31 := rfl
      have hi' := (ITy.has_signed (t := ⟨32, true⟩) rfl _).1 hi
      rw [hmin] at hm
      norm_num at hi' hm hc
      have hb : |ITy.conv ⟨32, true⟩ n| < 2147483648 := by rw [abs_lt]; omega
      have hp : (2 : ℤ) ^ 31 < 2 ^ t.N := pow_lt_pow_right₀ (by norm_num) (by omega)
      norm_num at hp
      have : t.Has |ITy.conv ⟨32, true⟩ n| := by
        rw [ITy.has_unsigned hs]; exact ⟨abs_nonneg _, by linarith⟩
      rw [ITy.conv_eq hN this] at h
      omega
  · intro h
    have hd : ITy.Has ⟨32, true⟩ n := by rw [ITy.has_signed rfl]; norm_num at h ⊢; omega
    unfold uintAbs
    rw [ITy.conv_eq (by norm_num) hd]
    unfold intAbs
    rw [if_neg (by omega), Option.map_some, ITy.conv_eq hN hn]

/-- `abs(4294967301ul)` is 5, `abs(3000000000u)` is 1294967296, `abs(2147483648u)` is undefined -/
theorem C107_abs_unsigned_wrong : uintAbs ⟨64, false⟩ 4294967301 = some 5 ∧ uintAbs ⟨32, false⟩ 3000000000 = some 1294967296 ∧
    uintAbs ⟨32, false⟩ 2147483648 = none := by decide +kernel

/-- C107: `fabs` of an integer of magnitude at most `2^53` is exactly its absolute value, in every rounding mode -/
theorem C107_fabs (m : Mode) (n : ℤ) (hn : |n| ≤ 2 ^ 53) : binary64.Finite (intFabs m n) ∧ binary64.val (intFabs m n) = ((|n| : ℤ) : ℝ) ∧
    binary64.sgn (intFabs m n) = false := by
  have hr : |(n : ℝ)| ≤ 2 ^ 53 := by exact_mod_cast hn
  obtain ⟨d, d1, d2⟩ := binary64.rep (g := 0) (v := (n : ℝ)) ⟨n, by simp⟩ (by decide +kernel)
    (by rw [show (0 : ℤ) + (binary64.F : ℤ) + 1 = 53 by decide +kernel]; exact_mod_cast hr)
    (lt_of_le_of_lt hr (by
      rw [show ((binary64.bias : ℤ) + 1) = 1024 by decide +kernel]
      exact lt_of_le_of_lt (by norm_num : (2 : ℝ) ^ 53 ≤ 2 ^ (53 : ℤ)) (zpow_lt_zpow_right₀ (by norm_num) (by norm_num))))
  obtain ⟨r1, r2⟩ := RoundsTo.exact binary64 d1 d2 (ofInt_spec binary64 m n)
  obtain ⟨a1, a2, a3⟩ := C03_fabs_value binary64 r1
  exact ⟨a1, by unfold intFabs; rw [a2, r2, Int.cast_abs], a3⟩

example : intFabs .nearest (-3) = 0x4008000000000000 := by decide +kernel

/-- C107, finding: documented as exact and independent of the rounding mode, `fabs` of a wide integer is neither: `-(2^53 + 1)` -/
theorem C107_fabs_wrong : intFabs .nearest (-9007199254740993) = 0x4340000000000000 ∧ intFabs .down (-9007199254740993) = 0x4340000000000001 := by
  decide +kernel

end Verif
