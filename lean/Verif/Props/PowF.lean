import Verif.Lemmas.PowF7
import Verif.Props.PowKernel

/-!
# C90 (special cases of the float `pow`) and C91 (its accuracy), binary32
-/

namespace Verif
open Fmt Real

/-- `y` is a finite float whose value is an odd integer. -/
def OddInt32 (y : ℕ) : Prop := binary32.Finite y ∧ ∃ k : ℤ, binary32.val y = 2 * k + 1

theorem isOddF_iff {y : ℕ} (hv : binary32.Valid y) (hn : ¬ binary32.IsNaN y) : CC.isOddIntegerF y = true ↔ OddInt32 y := by
  rcases binary32.not_nan_cases hv hn with h | h
  · rw [isOddF_spec h]; simp [OddInt32, h]
  · have : CC.isOddIntegerF y = false := by
      obtain ⟨h1, t, h2, ht, q, hq⟩ := oddTest_spec32 h.1
      unfold CC.isOddIntegerF
      simp only [h1, h2, decide_eq_false_iff_not]
      have : binary32.bexp y = 255 := h.2.1
      omega
    rw [this]
    simp only [OddInt32, Bool.false_eq_true, false_iff, not_and]
    intro hf; exact absurd h.2.1 hf.2

/-- the multiplication loop on values closed under multiplication -/
theorem powfLoop_sign (m : Mode) {z : Bool → ℕ} (hz : ∀ s t, binary64.hmul m (z s) (z t) = z (s ^^ t)) (t : Bool) :
    ∀ (k : ℕ) (s : Bool), CC.powfLoop m (z t) k (z s) = z (s ^^ (t && decide (k % 2 = 1))) := by
  intro k
  induction k with
  | zero => intro s; simp [CC.powfLoop]
  | succ k ih =>
    intro s
    unfold CC.powfLoop
    rw [hz, ih]
    congr 1
    rcases Nat.mod_two_eq_zero_or_one k with h | h
    · rw [h, show (k + 1) % 2 = 1 by omega]; cases s <;> cases t <;> rfl
    · rw [h, show (k + 1) % 2 = 0 by omega]; cases s <;> cases t <;> rfl

theorem powfInt_range {m : Mode} {x y r : ℕ} (h : CC.powfInt m x y = some r) : 0x40000000 < y ∧ y ≤ 0x41c00000 := by
  unfold CC.powfInt at h
  rw [Option.ite_none_right_eq_some] at h
  obtain ⟨hc, -⟩ := h
  simp only [Bool.and_eq_true, decide_eq_true_eq] at hc
  exact ⟨hc.1.2, hc.2⟩

/-- small integer powers of such values -/
theorem powfInt_sign {m : Mode} {z w : Bool → ℕ} (hz : ∀ s t, binary64.hmul m (z s) (z t) = z (s ^^ t)) (hw : ∀ s, binary32.hcvt binary64 m (z s) = w s) {x y r : ℕ} {t : Bool}
    (hx : binary64.hcvt binary32 m x = z t) (h : CC.powfInt m x y = some r) : r = w (t && CC.isOddIntegerF y) := by
  obtain ⟨r1, r2⟩ := powfInt_range h
  unfold CC.powfInt at h
  rw [Option.ite_none_right_eq_some] at h
  obtain ⟨hc, h⟩ := h
  simp only [Bool.and_eq_true, decide_eq_true_eq] at hc
  have hm : binary32.mag y = y := Nat.mod_eq_of_lt (by change y < 2 ^ 31; omega)
  have hy : binary32.Finite y := (finite_iff _ _).2 ⟨by change y < 2 ^ 32; omega, by rw [hm, inf32]; omega⟩
  have hne : binary32.val y ≠ 0 := by rw [Ne, val_eq_zero_iff, hm]; omega
  have hp := (sign32 hy hne).2.1 (by omega)
  obtain ⟨n, hn⟩ := (isIntegerF_spec hy hne).1 hc.1.1
  have hn0 : 0 < n := by rw [hn] at hp; exact_mod_cast hp
  have ht : CC.truncInt (binary64.hcvt binary32 m y) = n := truncInt_int (by rw [(cvt_up m hy).2, hn])
  have hodd : CC.isOddIntegerF y = decide (n % 2 = 1) := by
    rw [Bool.eq_iff_iff, decide_eq_true_eq, isOddF_spec hy, hn]
    constructor
    · rintro ⟨k, hk⟩
      have : n = 2 * k + 1 := by exact_mod_cast hk
      omega
    · intro h'
      exact ⟨n / 2, by exact_mod_cast (by omega : n = 2 * (n / 2) + 1)⟩
  simp only [ht, hx] at h
  rw [Option.ite_none_right_eq_some] at h
  obtain ⟨-, h⟩ := h
  rw [Option.some.injEq] at h
  rw [← h, powfLoop_sign m hz, hw, hodd]
  congr 1
  have e : (n.toNat - 1) % 2 = if n % 2 = 1 then 0 else 1 := by split_ifs <;> omega
  rw [e]
  by_cases hh : n % 2 = 1 <;> cases t <;> simp [hh]

theorem powF_of_Y {ce fused : Bool} {m : Mode} {x y : ℕ} {r} (h : CC.powfYCase m x y = some r) : CC.powF ce fused m x y = some r := by
  unfold CC.powF; simp only [h]

theorem powF_of_X {ce fused : Bool} {m : Mode} {x y : ℕ} {r} (h : CC.powfYCase m x y = none) (h' : CC.powfXCase m x (CC.powfClampY y) y = some r) : CC.powF ce fused m x y = some r := by
  unfold CC.powF; simp only [h, h']

/-- the exponents decided without the base: not reached by the rest -/
theorem zero32_ne {y : ℕ} (hv : binary32.Valid y) (hy0 : ¬ (binary32.Finite y ∧ binary32.val y = 0)) : binary32.mag y ≠ 0 := fun h =>
  hy0 ⟨(binary32.finite_iff y).2 ⟨hv, h ▸ (by decide +kernel)⟩, (binary32.val_eq_zero_iff y).2 h⟩

theorem heq_zero32 {y : ℕ} (h : binary32.mag y ≠ 0) : binary32.heq y 0 = false := by
  have k0 : binary32.key 0 = 0 := by decide +kernel
  have k : binary32.key y ≠ 0 := by unfold key; split_ifs <;> omega
  unfold heq
  rw [k0, decide_eq_false k, Bool.and_false]

/-- **C90.** `pow(x, ±0)` is `1` for every float `x`, NaN included. -/
theorem C90_powf_zero (ce fused : Bool) (m : Mode) (x : ℕ) {y : ℕ} (hy : binary32.Finite y) (h : binary32.val y = 0) :
    CC.powF ce fused m x y = some (0x3f800000, {}) := by
  have hz : binary32.heq y 0 = true := by
    rw [CC.heq_finite binary32 hy (by rw [finite_iff]; decide +kernel), show binary32.val 0 = 0 from (val_eq_zero_iff binary32 0).2 (by decide +kernel)]
    exact h
  have hm : FPBits.abs binary32 y = 0 := by rw [abs32]; exact (val_eq_zero_iff binary32 y).1 h
  refine powF_of_Y ?_
  unfold CC.powfYCase
  simp [hz, hm, CC.one32]

example : CC.powF false true .up 0x7fc00000 0x80000000 = some (0x3f800000, {}) :=
  C90_powf_zero _ _ _ _ (by rw [finite_iff]; decide +kernel) (by rw [val_eq_zero_iff]; decide +kernel)

/-- C90: `pow(1, y)` is `1` for every float `y`, NaN included. -/
theorem C90_powf_one_base (ce fused : Bool) (m : Mode) {y : ℕ} (hy : binary32.Valid y) : CC.powF ce fused m 0x3f800000 y = some (0x3f800000, {}) := by
  by_cases hy0 : binary32.Finite y ∧ binary32.val y = 0
  · exact C90_powf_zero ce fused m _ hy0.1 hy0.2
  have h0 := zero32_ne hy hy0
  by_cases hn : binary32.IsNaN y
  · have hm := ((binary32.isNaN_iff y).1 hn).2
    rw [inf32] at hm
    refine powF_of_Y ?_
    have hb : FPBits.abs binary32 y > 0x7f800000 := by rw [abs32]; exact hm
    have hm' : binary32.mag y = y % 2 ^ 31 := rfl
    have hz : binary32.heq y 0 = false := by
      unfold heq; simp [(binary32.nanB_iff hy).2 hn]
    have hi : CC.powfInt m 0x3f800000 y = none := by
      by_contra hc
      obtain ⟨r, hr⟩ := Option.ne_none_iff_exists'.1 hc
      have := powfInt_range hr
      omega
    unfold CC.powfYCase
    simp only [if_neg (not_not.2 (Or.inr (by omega : FPBits.abs binary32 y > 0x4f170000))), hz, Bool.false_eq_true, if_false, if_neg hb.ne', hi, if_pos hb, CC.one32, if_true]
    rw [if_neg (by rintro rfl; revert hb; decide +kernel), if_neg (by rintro rfl; revert hb; decide +kernel), if_neg (by rintro rfl; revert hb; decide +kernel)]
  · rcases binary32.not_nan_cases hy hn with hf | hi
    · have hv0 : binary32.val y ≠ 0 := fun h => hy0 ⟨hf, h⟩
      rcases powfYCase_split m (x := 0x3f800000) hf hv0 with h | h | ⟨h, he⟩ | ⟨h, he⟩ | ⟨r, hr, he⟩
      · refine powF_of_X h ?_
        unfold CC.powfXCase
        simp [CC.one32]
      · subst h; refine powF_of_Y ?_; cases m <;> decide +kernel
      · exact powF_of_Y he
      · refine powF_of_Y (he.trans ?_); cases m <;> decide +kernel
      · refine powF_of_Y (he.trans ?_)
        have := powfInt_sign (m := m) (z := fun _ => CC.one64) (w := fun _ => CC.one32) (by intros; cases m <;> decide +kernel) (by intros; cases m <;> decide +kernel) (t := false)
          (by cases m <;> decide +kernel) hr
        rw [this]; rfl
    · have hm := ((binary32.isInf_iff y).1 hi).2
      rw [inf32, ← abs32] at hm
      refine powF_of_Y ?_
      have hz := heq_zero32 h0
      unfold CC.powfYCase
      simp only [hm, hz]
      simp [show FPBits.abs binary32 0x3f800000 = 0x3f800000 by decide +kernel, CC.one32]

example : CC.powF false false .nearest 0x3f800000 0xffc00001 = some (0x3f800000, {}) := C90_powf_one_base _ _ _ (by decide)

/-- C90: `pow(±0, y)` for a non-zero, non-NaN `y`: infinite if `y` is negative and zero otherwise, negative exactly when the base is `-0` and `y` is an odd integer.
The pole is reported as `EDOM` (C specifies `ERANGE` for it) together with `FE_DIVBYZERO`. -/
theorem C90_powf_zero_base (ce fused : Bool) (m : Mode) (s : Bool) {y : ℕ} (hy : binary32.Valid y) (ny : ¬ binary32.IsNaN y) (hy0 : ¬ (binary32.Finite y ∧ binary32.val y = 0)) :
    ∃ t : Bool, (t = true ↔ s = true ∧ OddInt32 y) ∧
      CC.powF ce fused m (binary32.zero s) y =
        some (if binary32.sgn y then (binary32.inf t, { errno := some .edom, divByZero := true }) else (binary32.zero t, {})) := by
  have h0 := zero32_ne hy hy0
  refine ⟨s && CC.isOddIntegerF y, by rw [Bool.and_eq_true, isOddF_iff hy ny], ?_⟩
  have zz : ∀ s, binary32.heq (binary32.zero s) 0 = true := by intro s; cases s <;> decide +kernel
  have za : ∀ s, FPBits.abs binary32 (binary32.zero s) = 0 := by intro s; cases s <;> decide +kernel
  rcases binary32.not_nan_cases hy ny with hf | hi
  · have hv0 : binary32.val y ≠ 0 := fun h => hy0 ⟨hf, h⟩
    rcases powfYCase_split m (x := binary32.zero s) hf hv0 with h | h | ⟨h, he⟩ | ⟨h, he⟩ | ⟨r, hr, he⟩
    · refine powF_of_X h ?_
      have g1 : (binary32.zero s = CC.one32) = False := by apply propext; cases s <;> decide +kernel
      have g2 : (binary32.zero s = 0x40000000) = False := by apply propext; cases s <;> decide +kernel
      have g3 : (binary32.zero s = 0x41200000) = False := by apply propext; cases s <;> decide +kernel
      have g4 : decide (binary32.zero s ≥ FPBits.signMask binary32) = s := by cases s <;> decide +kernel
      have g5 : binary32.zero s ≥ 0x7f800000 ∨ binary32.zero s < 0x00800000 := by cases s <;> decide +kernel
      have g6 : y > 0x80000000 ↔ binary32.sgn y = true := by
        have hm : binary32.mag y = y % 2 ^ 31 := rfl
        unfold sgn
        rw [decide_eq_true_eq]
        change y > 0x80000000 ↔ 2 ^ 31 ≤ y
        omega
      unfold CC.powfXCase
      simp only [if_neg (not_not.2 (Or.inr g5)), g1, g2, g3, if_false, zz, if_true, g4, g6, FPBits.inf_eq]
      split_ifs <;> rfl
    · subst h
      refine powF_of_Y ?_
      cases s <;> cases m <;> decide +kernel
    · subst h
      refine powF_of_Y (he.trans ?_)
      cases s <;> decide +kernel
    · subst h
      refine powF_of_Y (he.trans ?_)
      cases s <;> cases m <;> decide +kernel
    · have := powfInt_sign (m := m) (z := binary64.zero) (w := binary32.zero) (by intro a b; cases a <;> cases b <;> cases m <;> decide +kernel) (by intro a; cases a <;> cases m <;> decide +kernel) (t := s)
          (by cases s <;> cases m <;> decide +kernel) hr
      have hs : binary32.sgn y = false := by
        have := powfInt_range hr
        unfold sgn; rw [decide_eq_false_iff_not]; change ¬ 2 ^ 31 ≤ y; omega
      rw [powF_of_Y he, this, hs]; rfl
  · have hm := ((binary32.isInf_iff y).1 hi).2
    have hyc : y = 0x7f800000 ∨ y = 0xff800000 := by
      have hm' : binary32.mag y = y % 2 ^ 31 := rfl
      have hv : y < 2 ^ 32 := hy
      rw [inf32] at hm; omega
    refine powF_of_Y ?_
    rcases hyc with rfl | rfl <;> cases s <;> cases m <;> decide +kernel

/-- `powf(-0, -3) = -inf` -/
example : CC.powF false true .down 0x80000000 0xc0400000 = some (0xff800000, { errno := some .edom, divByZero := true }) := by
  obtain ⟨t, h1, h2⟩ := C90_powf_zero_base false true .down true (y := 0xc0400000) (by decide) (by decide +kernel) (fun h => absurd ((val_eq_zero_iff _ _).1 h.2) (by decide +kernel))
  have ht : t = true := by
    rw [h1, ← isOddF_iff (by decide) (by decide +kernel)]; decide +kernel
  rw [show (0x80000000 : ℕ) = binary32.zero true by decide +kernel, h2, ht]; decide +kernel

/-- C90: `pow(±inf, y)` for a non-zero, non-NaN `y`: zero if `y` is negative and infinite otherwise, negative exactly when the base is `-inf` and `y` is an odd integer. -/
theorem C90_powf_inf_base (ce fused : Bool) (m : Mode) (s : Bool) {y : ℕ} (hy : binary32.Valid y) (ny : ¬ binary32.IsNaN y) (hy0 : ¬ (binary32.Finite y ∧ binary32.val y = 0)) :
    ∃ t : Bool, (t = true ↔ s = true ∧ OddInt32 y) ∧
      CC.powF ce fused m (binary32.inf s) y = some (if binary32.sgn y then binary32.zero t else binary32.inf t, {}) := by
  have h0 := zero32_ne hy hy0
  refine ⟨s && CC.isOddIntegerF y, by rw [Bool.and_eq_true, isOddF_iff hy ny], ?_⟩
  have zz : ∀ s, binary32.heq (binary32.inf s) 0 = false := by intro s; cases s <;> decide +kernel
  have za : ∀ s, FPBits.abs binary32 (binary32.inf s) = 0x7f800000 := by intro s; cases s <;> decide +kernel
  rcases binary32.not_nan_cases hy ny with hf | hi
  · have hv0 : binary32.val y ≠ 0 := fun h => hy0 ⟨hf, h⟩
    rcases powfYCase_split m (x := binary32.inf s) hf hv0 with h | h | ⟨h, he⟩ | ⟨h, he⟩ | ⟨r, hr, he⟩
    · refine powF_of_X h ?_
      have g1 : (binary32.inf s = CC.one32) = False := by apply propext; cases s <;> decide +kernel
      have g2 : (binary32.inf s = 0x40000000) = False := by apply propext; cases s <;> decide +kernel
      have g3 : (binary32.inf s = 0x41200000) = False := by apply propext; cases s <;> decide +kernel
      have g4 : decide (binary32.inf s ≥ FPBits.signMask binary32) = s := by cases s <;> decide +kernel
      have g5 : binary32.inf s ≥ 0x7f800000 ∨ binary32.inf s < 0x00800000 := by cases s <;> decide +kernel
      have g6 : y ≥ FPBits.signMask binary32 ↔ binary32.sgn y = true := by
        unfold sgn
        rw [decide_eq_true_eq, show FPBits.signMask binary32 = 2 ^ 31 by decide +kernel]
        exact Iff.rfl
      unfold CC.powfXCase
      simp only [if_neg (not_not.2 (Or.inr g5)), g1, g2, g3, if_false, zz, za, if_true, g4, g6, FPBits.inf_eq, Bool.false_eq_true]
      split_ifs <;> rfl
    · subst h
      refine powF_of_Y ?_
      cases s <;> cases m <;> decide +kernel
    · subst h
      refine powF_of_Y (he.trans ?_)
      cases s <;> decide +kernel
    · subst h
      refine powF_of_Y (he.trans ?_)
      cases s <;> cases m <;> decide +kernel
    · have := powfInt_sign (m := m) (z := binary64.inf) (w := binary32.inf) (by intro a b; cases a <;> cases b <;> cases m <;> decide +kernel) (by intro a; cases a <;> cases m <;> decide +kernel) (t := s)
          (by cases s <;> cases m <;> decide +kernel) hr
      have hs : binary32.sgn y = false := by
        have := powfInt_range hr
        unfold sgn; rw [decide_eq_false_iff_not]; change ¬ 2 ^ 31 ≤ y; omega
      rw [powF_of_Y he, this, hs]; rfl
  · have hm := ((binary32.isInf_iff y).1 hi).2
    have hyc : y = 0x7f800000 ∨ y = 0xff800000 := by
      have hm' : binary32.mag y = y % 2 ^ 31 := rfl
      have hv : y < 2 ^ 32 := hy
      rw [inf32] at hm; omega
    refine powF_of_Y ?_
    rcases hyc with rfl | rfl <;> cases s <;> cases m <;> decide +kernel

/-- `powf(-inf, 5) = -inf` -/
example : CC.powF true true .nearest 0xff800000 0x40a00000 = some (0xff800000, {}) := by
  obtain ⟨t, h1, h2⟩ := C90_powf_inf_base true true .nearest true (y := 0x40a00000) (by decide) (by decide +kernel) (fun h => absurd ((val_eq_zero_iff _ _).1 h.2) (by decide +kernel))
  have ht : t = true := by
    rw [h1, ← isOddF_iff (by decide) (by decide +kernel)]; decide +kernel
  rw [show (0xff800000 : ℕ) = binary32.inf true by decide +kernel, h2, ht]; decide +kernel

/-- C90: an infinite exponent with a finite non-zero base: `1` for `|x| = 1`, otherwise `+0` or `+inf` by comparing `|x|` with `1`. -/
theorem C90_powf_inf_exp (ce fused : Bool) (m : Mode) {x : ℕ} (hx : binary32.Finite x) (h0 : binary32.val x ≠ 0) (s : Bool) :
    CC.powF ce fused m x (binary32.inf s) = some (if |binary32.val x| = 1 then 0x3f800000 else if (|binary32.val x| < 1 ↔ s = true) then binary32.inf false else binary32.zero false, {}) := by
  have hxm : binary32.mag x ≠ 0 := fun h => h0 ((val_eq_zero_iff _ _).2 h)
  have hxf := ((finite_iff _ _).1 hx).2
  rw [inf32] at hxf
  have hz := heq_zero32 hxm
  have one_mag : |binary32.val 0x3f800000| = 1 := by rw [lit32_vals.2.2.2.1, abs_one]
  have om : binary32.mag 0x3f800000 = 0x3f800000 := by decide +kernel
  have c1 : |binary32.val x| = 1 ↔ binary32.mag x = 0x3f800000 := by
    rw [← one_mag, le_antisymm_iff, mag_le32, mag_le32, om]; omega
  have c2 : |binary32.val x| < 1 ↔ binary32.mag x < 0x3f800000 := by
    rw [← one_mag, ← not_le, mag_le32, om]; omega
  refine powF_of_Y ?_
  unfold CC.powfYCase
  have g1 : ∀ s, FPBits.abs binary32 (binary32.inf s) = 0x7f800000 := by intro s; cases s <;> decide +kernel
  have g2 : ∀ s, binary32.heq (binary32.inf s) 0 = false := by intro s; cases s <;> decide +kernel
  have g3 : ∀ s, decide (binary32.inf s = 0xff800000) = s := by intro s; cases s <;> decide +kernel
  simp only [g1, g2, g3, hz, abs32, CC.one32, if_neg (by omega : ¬ binary32.mag x > 0x7f800000)]
  simp only [c1, c2, FPBits.inf_eq]
  by_cases d1 : binary32.mag x = 0x3f800000
  · simp [d1]
  · simp only [d1, if_false]
    by_cases d2 : binary32.mag x < 0x3f800000 <;> cases s <;> simp [d2] <;> decide +kernel

example : CC.powF false false .up 0xbf800000 0xff800000 = some (0x3f800000, {}) := by
  have v : binary32.val 0xbf800000 = -1 := by rw [← lit32_vals.2.2.2.1, ← val_hneg]; congr 1
  have := C90_powf_inf_exp false false .up (x := 0xbf800000) (by rw [finite_iff]; decide +kernel) (by rw [v]; norm_num) true
  rw [v, if_pos (by norm_num)] at this
  exact this

/-- C90: a negative finite base with a finite non-integer exponent is a domain error: NaN, `EDOM` and `FE_INVALID`. -/
theorem C90_powf_domain (ce fused : Bool) (m : Mode) {x y : ℕ} (hx : binary32.Finite x) (hneg : binary32.val x < 0) (hy : binary32.Finite y) (hni : ¬ ∃ k : ℤ, binary32.val y = k) :
    ∃ r, CC.powF ce fused m x y = some (r, { errno := some .edom, invalid := true }) ∧ binary32.IsNaN r := by
  have hv0 : binary32.val y ≠ 0 := fun h => hni ⟨0, by simpa using h⟩
  have hi : CC.isIntegerF y = false := by rw [← Bool.not_eq_true, isIntegerF_spec hy hv0]; exact hni
  have hxm : binary32.mag x ≠ 0 := fun h => hneg.ne ((val_eq_zero_iff _ _).2 h)
  have hz := heq_zero32 hxm
  have hs : x ≥ FPBits.signMask binary32 := (sign32 hx hneg.ne).1.2 hneg
  have hsm : FPBits.signMask binary32 = 2 ^ 31 := by decide +kernel
  have hxf := ((finite_iff _ _).1 hx).2
  rw [inf32] at hxf
  refine ⟨FPBits.quietNaN binary32 false 0, ?_, by decide +kernel⟩
  rcases powfYCase_split m (x := x) hy hv0 with h | h | ⟨h, he⟩ | ⟨h, he⟩ | ⟨r, hr, he⟩
  · refine powF_of_X h ?_
    have hcl : CC.powfClampY y = y := by
      unfold CC.powfClampY
      rw [abs32, if_neg]
      intro hb
      have : CC.isIntegerF y = true := by
        obtain ⟨h1, t, h2, -⟩ := oddTest_spec32 hy.1
        unfold CC.isIntegerF
        simp only [h1]
        have : binary32.bexp y = binary32.mag y / 2 ^ 23 := rfl
        rw [decide_eq_true_eq]
        omega
      rw [this] at hi; simp at hi
    rw [hcl]
    unfold CC.powfXCase
    rw [hsm] at hs
    simp only [if_neg (not_not.2 (Or.inr (Or.inl (by omega : x ≥ 0x7f800000)))), CC.one32, if_neg (by omega : ¬ x = 0x3f800000), if_neg (by omega : ¬ x = 0x40000000),
      if_neg (by omega : ¬ x = 0x41200000), hz, Bool.false_eq_true, if_false, abs32, if_neg hxf.ne, if_neg (not_lt.2 hxf.le : ¬ binary32.mag x > 0x7f800000), hi, hsm]
    rw [if_pos ⟨hs, by rfl⟩]
  · subst h
    refine powF_of_Y ?_
    have z2 : binary32.hlt x 0 = true := by
      rw [CC.hlt_finite binary32 hx (by rw [finite_iff]; decide +kernel), show binary32.val 0 = 0 from (val_eq_zero_iff binary32 0).2 (by decide +kernel)]; exact hneg
    have z3 : x ≠ 0xff800000 := by
      rintro rfl
      exact absurd hxf (by decide +kernel)
    have z4 : binary32.heq 0x3f000000 0 = false := by decide +kernel
    have z5 : FPBits.abs binary32 0x3f000000 = 0x3f000000 := by decide +kernel
    unfold CC.powfYCase
    simp [hz, z2, z3, z4, z5]
  · exact absurd ⟨1, by rw [h]; exact_mod_cast lit32_vals.2.2.2.1⟩ hni
  · exact absurd ⟨2, by rw [h]; exact_mod_cast lit32_vals.2.2.2.2.2.1⟩ hni
  · exfalso
    unfold CC.powfInt at hr
    rw [hi] at hr
    simp at hr

example : ∃ r, CC.powF false true .zero 0xc0000000 0x3f000000 = some (r, { errno := some .edom, invalid := true }) ∧ binary32.IsNaN r := by
  have v : binary32.val 0xc0000000 = -2 := by rw [← lit32_vals.2.2.2.2.2.1, ← val_hneg]; congr 1
  refine C90_powf_domain false true .zero (by rw [finite_iff]; decide +kernel) (by rw [v]; norm_num) (by rw [finite_iff]; decide +kernel) ?_
  rw [← isIntegerF_spec (by rw [finite_iff]; decide +kernel) (by rw [Ne, val_eq_zero_iff]; decide +kernel)]; decide +kernel

/-- C90: with a NaN argument outside the rows `pow(x, ±0)` and `pow(1, y)` the result is a NaN. -/
theorem C90_powf_nan (ce fused : Bool) (m : Mode) {x y : ℕ} (hx : binary32.Valid x) (hy : binary32.Valid y) (hy0 : ¬ (binary32.Finite y ∧ binary32.val y = 0)) (hx1 : x ≠ 0x3f800000)
    (hn : binary32.IsNaN x ∨ binary32.IsNaN y) : ∃ r, CC.powF ce fused m x y = some (r, {}) ∧ binary32.IsNaN r := by
  have h0 := zero32_ne hy hy0
  have hz0 := heq_zero32 h0
  have hmy : binary32.mag y = y % 2 ^ 31 := rfl
  have hmx : binary32.mag x = x % 2 ^ 31 := rfl
  by_cases ny : binary32.IsNaN y
  · have hm := ((binary32.isNaN_iff y).1 ny).2
    rw [inf32] at hm
    refine ⟨y, powF_of_Y ?_, ny⟩
    have hb : FPBits.abs binary32 y > 0x7f800000 := by rw [abs32]; exact hm
    have hi : CC.powfInt m x y = none := by
      by_contra hc
      obtain ⟨r, hr⟩ := Option.ne_none_iff_exists'.1 hc
      have := powfInt_range hr
      omega
    unfold CC.powfYCase
    simp only [if_neg (not_not.2 (Or.inr (by omega : FPBits.abs binary32 y > 0x4f170000))), hz0, Bool.false_eq_true, if_false, if_neg hb.ne', hi, if_pos hb, CC.one32]
    rw [if_neg (by rintro rfl; revert hb; decide +kernel), if_neg (by rintro rfl; revert hb; decide +kernel), if_neg (by rintro rfl; revert hb; decide +kernel)]
    exact congrArg (fun r => some (r, ({} : CC.PowEff))) (if_neg hx1)
  have nx := hn.resolve_right ny
  have hm := ((binary32.isNaN_iff x).1 nx).2
  rw [inf32] at hm
  have nB : binary32.nanB x = true := (binary32.nanB_iff hx).2 nx
  have hzx := heq_zero32 (y := x) (by omega)
  have q32 : binary32.IsNaN binary32.qnan := by decide +kernel
  rcases binary32.not_nan_cases hy ny with hf | hi
  · have hv0 : binary32.val y ≠ 0 := fun h => hy0 ⟨hf, h⟩
    rcases powfYCase_split m (x := x) hf hv0 with h | h | ⟨h, he⟩ | ⟨h, he⟩ | ⟨r, hr, he⟩
    · refine ⟨x, powF_of_X h ?_, nx⟩
      unfold CC.powfXCase
      simp only [CC.one32, if_neg hx1, if_neg (not_not.2 (show x &&& 0x801fffff = 0 ∨ x ≥ 0x7f800000 ∨ x < 0x00800000 by right; left; omega)), hzx, Bool.false_eq_true, if_false, abs32,
        if_neg hm.ne', if_pos (show binary32.mag x > 0x7f800000 from hm)]
      rw [if_neg (by rintro rfl; revert hm; decide +kernel), if_neg (by rintro rfl; revert hm; decide +kernel)]
    · subst h
      have hl : binary32.hlt x 0 = false := by unfold hlt; rw [nB]; rfl
      have z3 : x ≠ 0xff800000 := by rintro rfl; revert hm; decide +kernel
      have z4 : binary32.heq 0x3f000000 0 = false := by decide +kernel
      have z5 : FPBits.abs binary32 0x3f000000 = 0x3f000000 := by decide +kernel
      refine ⟨x, powF_of_Y ?_, nx⟩
      unfold CC.powfYCase
      simp [hzx, hl, z3, z4, z5, (C19_sqrt_special binary32 m hx).1 (Or.inr (Or.inl nx))]
    · exact ⟨x, powF_of_Y he, nx⟩
    · refine ⟨_, powF_of_Y he, ?_⟩
      unfold hmul
      rw [nB]; exact q32
    · refine ⟨r, powF_of_Y he, ?_⟩
      have hc : binary64.hcvt binary32 m x = binary64.qnan := by
        unfold hcvt; rw [nB]; rfl
      have := powfInt_sign (m := m) (z := fun _ => binary64.qnan) (w := fun _ => binary32.qnan) (by intros; cases m <;> decide +kernel) (by intros; cases m <;> decide +kernel) (t := false) hc hr
      rw [this]; exact q32
  · have hmi := ((binary32.isInf_iff y).1 hi).2
    rw [inf32, ← abs32] at hmi
    refine ⟨x, powF_of_Y ?_, nx⟩
    unfold CC.powfYCase
    simp only [hmi, hz0, Bool.false_eq_true, if_false, if_true, abs32 x, if_pos (show binary32.mag x > 0x7f800000 from hm)]
    simp

example : ∃ r, CC.powF false true .zero 0x7fc00000 0x40a00000 = some (r, {}) ∧ binary32.IsNaN r :=
  C90_powf_nan false true .zero (by decide) (by decide) (fun h => absurd ((val_eq_zero_iff _ _).1 h.2) (by decide +kernel)) (by decide) (Or.inl (by decide +kernel))

/-- **C91.** For every positive finite float `x` other than 2 and 10 (which go to `exp2` and `exp10`) and every finite float `y` with `2^-200 ≤ x^y ≤ 2^200`, `powf(x, y)` is the
correctly rounded value (in the current mode) of a number within one part in `2^31` of `x^y`: overflow, subnormal results, zero included.  At run time in the four modes, in constant
evaluation to nearest, with and without fused multiply-add. -/
theorem C91_powf {ce fused : Bool} {m : Mode} (hc : ce = false ∨ m = .nearest) {x y : ℕ} (hx : binary32.Finite x) (h0 : 0 < binary32.val x) (h2 : binary32.val x ≠ 2) (h10 : binary32.val x ≠ 10)
    (hy : binary32.Finite y) (X1 : (2 : ℝ) ^ (-200 : ℤ) ≤ binary32.val x ^ binary32.val y) (X2 : binary32.val x ^ binary32.val y ≤ 2 ^ (200 : ℤ)) :
    ∃ r eff w, CC.powF ce fused m x y = some (r, eff) ∧ |w - binary32.val x ^ binary32.val y| ≤ binary32.val x ^ binary32.val y / 2 ^ 31 ∧ binary32.RoundsTo m false w r := by
  have l2 : 0 < log 2 := log_pos (by norm_num)
  have hp : binary32.val x ^ binary32.val y = exp (binary32.val y * log |binary32.val x|) := by rw [rpow_def_of_pos h0, mul_comm, abs_of_pos h0]
  have hT : |binary32.val y * (log |binary32.val x| / log 2)| ≤ 200 := by
    have c : ∀ k : ℤ, (2 : ℝ) ^ k = exp ((k : ℝ) * log 2) := by
      intro k; rw [← rpow_intCast, rpow_def_of_pos (by norm_num), mul_comm]
    rw [hp, c, exp_le_exp] at X1 X2
    rw [← mul_div_assoc, abs_le, le_div_iff₀ l2, div_le_iff₀ l2]
    push_cast at X1 X2
    exact ⟨X1, X2⟩
  have v10 : binary32.val 0x41200000 = 10 := by
    have := (bits32 (e := 129) (m := 0xa00000) (by norm_num) (by norm_num) (by norm_num)).2
    norm_num at this ⊢; exact this
  obtain ⟨b, eff, g1, w, g2, g3⟩ := powF_main (fused := fused) hc hx h0.ne' (by rintro rfl; exact h2 lit32_vals.2.2.2.2.2.1) (by rintro rfl; exact h10 v10) hy (Or.inl h0) hT rfl
  have hs : (decide (x ≥ FPBits.signMask binary32) && CC.isOddIntegerF y) ≠ true := by
    rw [Ne, Bool.and_eq_true, decide_eq_true_eq, (sign32 hx h0.ne').1]; exact fun g => (h0.trans g.1).false
  rw [if_neg hs, one_mul, ← hp, abs_of_pos (rpow_pos_of_pos h0 _), one_div, inv_mul_eq_div] at g3
  exact ⟨b, eff, w, g1, g3, g2⟩

/-- C91 for a negative base and an integer-valued exponent `y = n` of any size: the same accuracy, with the sign of `x^n`. -/
theorem C91_powf_negative_base {ce fused : Bool} {m : Mode} (hc : ce = false ∨ m = .nearest) {x y : ℕ} {n : ℤ} (hx : binary32.Finite x) (h0 : binary32.val x < 0) (hy : binary32.Finite y)
    (hn : binary32.val y = n) (X1 : (2 : ℝ) ^ (-200 : ℤ) ≤ |binary32.val x ^ n|) (X2 : |binary32.val x ^ n| ≤ 2 ^ (200 : ℤ)) :
    ∃ r eff w, CC.powF ce fused m x y = some (r, eff) ∧ |w - binary32.val x ^ n| ≤ |binary32.val x ^ n| / 2 ^ 31 ∧ binary32.RoundsTo m false w r := by
  have l2 : 0 < log 2 := log_pos (by norm_num)
  have hA : 0 < |binary32.val x| := abs_pos.2 h0.ne
  have hp : |binary32.val x ^ n| = exp (binary32.val y * log |binary32.val x|) := by rw [mul_comm, ← rpow_def_of_pos hA, hn, rpow_intCast, abs_zpow]
  have hT : |binary32.val y * (log |binary32.val x| / log 2)| ≤ 200 := by
    have c : ∀ k : ℤ, (2 : ℝ) ^ k = exp ((k : ℝ) * log 2) := by
      intro k; rw [← rpow_intCast, rpow_def_of_pos (by norm_num), mul_comm]
    rw [hp, c, exp_le_exp] at X1 X2
    rw [← mul_div_assoc, abs_le, le_div_iff₀ l2, div_le_iff₀ l2]
    push_cast at X1 X2
    exact ⟨X1, X2⟩
  have hne : ∀ {c : ℕ}, c < 2 ^ 31 → x ≠ c := by
    intro c h1 h
    have := (sign32 hx h0.ne).2.1 (by rw [h]; exact h1)
    linarith
  obtain ⟨b, eff, g1, w, g2, g3⟩ := powF_main (fused := fused) hc hx h0.ne (hne (by norm_num)) (hne (by norm_num)) hy (Or.inr ⟨n, hn⟩) hT (powf_sign hx h0.ne hy hn).symm
  rw [one_div, inv_mul_eq_div] at g3
  exact ⟨b, eff, w, g1, g3, g2⟩

/-- non-vacuity: `3^-0.75`; `(-3)^-41` is covered by the second theorem -/
theorem v32_3 : binary32.val 0x40400000 = 3 ∧ binary32.val 0xc0400000 = -3 ∧ binary32.val 0x3f400000 = 3 / 4 ∧ binary32.val 0xc2240000 = -41 := by
  have a := (bits32 (e := 127) (m := 0xc00000) (by norm_num) (by norm_num) (by norm_num)).2
  have b := (bits32 (e := 125) (m := 0xc00000) (by norm_num) (by norm_num) (by norm_num)).2
  have c := (bits32 (e := 131) (m := 0xa40000) (by norm_num) (by norm_num) (by norm_num)).2
  norm_num at a b c
  refine ⟨a, ?_, b, ?_⟩
  · rw [← a, ← val_hneg]; congr 1
  · rw [← c, ← val_hneg]; congr 1

example : ∃ r eff w, CC.powF false true .up 0x40400000 0x3f400000 = some (r, eff) ∧ |w - (3 : ℝ) ^ (3 / 4 : ℝ)| ≤ 3 ^ (3 / 4 : ℝ) / 2 ^ 31 ∧ binary32.RoundsTo .up false w r := by
  obtain ⟨v1, -, v2, -⟩ := v32_3
  have := C91_powf (ce := false) (fused := true) (m := .up) (Or.inl rfl) (x := 0x40400000) (y := 0x3f400000) (by rw [finite_iff]; decide +kernel) (by rw [v1]; norm_num)
    (by rw [v1]; norm_num) (by rw [v1]; norm_num) (by rw [finite_iff]; decide +kernel)
  rw [v1, v2] at this
  refine this (le_trans (two_zpow_le (by norm_num : (-200 : ℤ) ≤ 0)) ?_) (le_trans ?_ (two_zpow_le (by norm_num : (2 : ℤ) ≤ 200)))
  · rw [zpow_zero]; exact one_le_rpow (by norm_num) (by norm_num)
  · calc (3 : ℝ) ^ (3 / 4 : ℝ) ≤ 3 ^ (1 : ℝ) := rpow_le_rpow_of_exponent_le (by norm_num) (by norm_num)
      _ ≤ 2 ^ (2 : ℤ) := by rw [rpow_one]; norm_num

example : ∃ r eff w, CC.powF true false .nearest 0xc0400000 0xc2240000 = some (r, eff) ∧ |w - (-3 : ℝ) ^ (-41 : ℤ)| ≤ |(-3 : ℝ) ^ (-41 : ℤ)| / 2 ^ 31 ∧ binary32.RoundsTo .nearest false w r := by
  obtain ⟨-, v1, -, v2⟩ := v32_3
  have := C91_powf_negative_base (ce := true) (fused := false) (m := .nearest) (Or.inr rfl) (x := 0xc0400000) (y := 0xc2240000) (n := -41) (by rw [finite_iff]; decide +kernel)
    (by rw [v1]; norm_num) (by rw [finite_iff]; decide +kernel) (by rw [v2]; norm_num)
  rw [v1] at this
  exact this (by norm_num) (by norm_num)

/-- two floats of the same sign are at least a relative `2^-24` apart -/
theorem float_gap {a b : ℕ} (h0 : 0 < binary32.val a) (h : binary32.val a < binary32.val b) : binary32.val a / 2 ^ 24 ≤ binary32.val b - binary32.val a := by
  have hF : (binary32.F : ℤ) = 23 := by decide +kernel
  have hc : binary32.ce a ≤ binary32.ce b := ce_le_of_abs_le (by rw [abs_of_pos h0, abs_of_pos (h0.trans h)]; exact h.le)
  have M := ((binary32.mult_ce b).weaken hc).sub (binary32.mult_ce a)
  have h1 := M.ge (by linarith)
  rw [abs_of_pos (by linarith)] at h1
  have h2 := binary32.abs_val_lt_ce a
  rw [abs_of_pos h0, hF, show binary32.ce a + 23 + 1 = binary32.ce a + 24 by ring, zpow_add₀ (by norm_num)] at h2
  rw [div_le_iff₀ (by norm_num)]
  have : (2 : ℝ) ^ (24 : ℤ) = 2 ^ 24 := by norm_num
  rw [this] at h2
  nlinarith

/-- a nearest rounding of a number within `2^-31` of `X` respects every float bound of `X` -/
theorem nearest_bounds32 {zs : Bool} {w X : ℝ} {r : ℕ} (R : binary32.RoundsTo .nearest zs w r) (hr : binary32.Finite r) (hX : 0 < X) (e : |w - X| ≤ X / 2 ^ 31)
    {c : ℕ} (hc : binary32.Finite c) : (binary32.val c ≤ X → binary32.val r = 0 ∨ binary32.val c ≤ binary32.val r) ∧ (X ≤ binary32.val c → binary32.val r ≤ binary32.val c) := by
  have hn : |binary32.val r - w| ≤ |binary32.val c - w| := by
    have hv := R.value
    simp only [RoundValue] at hv
    split_ifs at hv with h1 h2
    · rw [hv] at hr; exact absurd hr (by decide +kernel)
    · rw [hv] at hr; exact absurd hr (by decide +kernel)
    · exact hv.best c hc
  have eb := abs_le.1 e
  have hw : 0 < w := by have := div_lt_self hX (show (1 : ℝ) < 2 ^ 31 by norm_num); linarith
  have hr0 : 0 ≤ binary32.val r := by
    have h2 := CC.val_eq_sg_abs binary32 r
    rw [R.sign, if_neg hw.ne', decide_eq_false (not_lt.2 hw.le), sg_false, one_mul] at h2
    rw [h2]; exact abs_nonneg _
  constructor
  · intro h
    rcases hr0.eq_or_lt with r0 | r0
    · exact Or.inl r0.symm
    right
    by_contra hlt
    push Not at hlt
    have hm : w ≤ (binary32.val r + binary32.val c) / 2 := by
      by_contra hh
      push Not at hh
      rw [abs_of_nonpos (by linarith : binary32.val r - w ≤ 0)] at hn
      rcases abs_cases (binary32.val c - w) with ⟨h3, -⟩ | ⟨h3, -⟩ <;> rw [h3] at hn <;> linarith
    have := float_gap r0 hlt
    norm_num at eb this; linarith
  · intro h
    by_contra hlt
    push Not at hlt
    have hm : (binary32.val r + binary32.val c) / 2 ≤ w := by
      by_contra hh
      push Not at hh
      rw [abs_of_nonneg (by linarith : 0 ≤ binary32.val r - w)] at hn
      rcases abs_cases (binary32.val c - w) with ⟨h3, -⟩ | ⟨h3, -⟩ <;> rw [h3] at hn <;> linarith
    have := float_gap (lt_of_lt_of_le hX h) hlt
    norm_num at eb this; linarith

/-- C91: to nearest, a power that is a float (at most `2^127`, subnormals included) is returned exactly. -/
theorem C91_powf_nearest_exact {ce fused : Bool} {x y c : ℕ} (hx : binary32.Finite x) (h0 : 0 < binary32.val x) (h2 : binary32.val x ≠ 2) (h10 : binary32.val x ≠ 10) (hy : binary32.Finite y)
    (hc : binary32.Finite c) (h : binary32.val x ^ binary32.val y = binary32.val c) (hb : binary32.val c ≤ 2 ^ (127 : ℤ)) :
    ∃ eff, CC.powF ce fused .nearest x y = some (c, eff) := by
  have hX : 0 < binary32.val x ^ binary32.val y := rpow_pos_of_pos h0 _
  have hc0 : 0 < binary32.val c := h ▸ hX
  have hge : (2 : ℝ) ^ (-149 : ℤ) ≤ binary32.val c := by
    obtain ⟨k, hk⟩ := mult_emin binary32 c
    have hk0 : 0 < k := by
      by_contra hcon
      have : (k : ℝ) ≤ 0 := by exact_mod_cast not_lt.1 hcon
      rw [hk] at hc0
      exact absurd hc0 (not_lt.2 (mul_nonpos_of_nonpos_of_nonneg this (two_zpow_pos _).le))
    have hk1 : (1 : ℝ) ≤ (k : ℝ) := by exact_mod_cast hk0
    rw [hk, show binary32.emin = -149 by decide +kernel]
    exact le_mul_of_one_le_left (two_zpow_pos _).le hk1
  obtain ⟨r, eff, w, g1, g2, g3⟩ := C91_powf (ce := ce) (fused := fused) (m := .nearest) (Or.inr rfl) hx h0 h2 h10 hy
    (by rw [h]; exact (two_zpow_le (by norm_num)).trans hge) (by rw [h]; exact hb.trans (two_zpow_le (by norm_num)))
  have eb := abs_le.1 g2
  have hw : 0 < w := by have := div_lt_self hX (show (1 : ℝ) < 2 ^ 31 by norm_num); linarith
  have hr : binary32.Finite r := by
    refine RoundsTo.finite_of_le binary32 g3 ?_
    have hmx : (2 : ℝ) ^ (127 : ℤ) * (3 / 2) ≤ binary32.maxFin := by
      have h4 := binary32.maxFin_add
      rw [show (binary32.bias : ℤ) = 127 by decide +kernel, show (binary32.F : ℤ) = 23 by decide +kernel] at h4
      norm_num at h4 ⊢; linarith
    rw [abs_of_pos hw]
    rw [h] at eb
    generalize binary32.val c = C at *
    generalize (2 : ℝ) ^ (127 : ℤ) = z at *
    norm_num at eb
    linarith
  obtain ⟨b1, b2⟩ := nearest_bounds32 g3 hr hX g2 hc
  have hr0 : binary32.val r ≠ 0 := by
    intro hz
    have hv := g3.value
    simp only [RoundValue] at hv
    have hn : |binary32.val r - w| ≤ |binary32.val c - w| := by
      split_ifs at hv with h1 h2
      · rw [hv] at hr; exact absurd hr (by decide +kernel)
      · rw [hv] at hr; exact absurd hr (by decide +kernel)
      · exact hv.best c hc
    rw [h] at g2 eb
    rw [hz, zero_sub, abs_neg, abs_of_pos hw, abs_sub_comm] at hn
    have := hn.trans g2
    norm_num at eb this; linarith
  have hv : binary32.val r = binary32.val c := le_antisymm (b2 h.le) ((b1 h.ge).resolve_left hr0)
  have hs : ∀ {z}, binary32.Finite z → 0 < binary32.val z → binary32.sgn z = false := by
    intro z hz1 hz2
    have := (sign32 hz1 hz2.ne').2.2 hz2
    unfold sgn; rw [decide_eq_false_iff_not]; change ¬ 2 ^ 31 ≤ z; omega
  have : r = c := binary32.eq_of_val_eq hr.1 hc.1 hv (by rw [hs hr (hv ▸ hc0), hs hc hc0])
  exact ⟨eff, this ▸ g1⟩

theorem rpow_81_32 : binary32.val 0x42a20000 = 81 ∧ binary32.val 0x3e800000 = 1 / 4 ∧ binary32.val 0x42a20000 ^ binary32.val 0x3e800000 = 3 := by
  have a := (bits32 (e := 132) (m := 0xa20000) (by norm_num) (by norm_num) (by norm_num)).2
  have b := (bits32 (e := 124) (m := 0x800000) (by norm_num) (by norm_num) (by norm_num)).2
  norm_num at a b
  refine ⟨a, by rw [b], ?_⟩
  rw [a, b, show (81 : ℝ) = 3 ^ (4 : ℝ) by norm_num, ← rpow_mul (by norm_num)]
  norm_num

/-- non-vacuity: `81^(1/4) = 3` -/
example : ∃ eff, CC.powF true true .nearest 0x42a20000 0x3e800000 = some (0x40400000, eff) := by
  obtain ⟨v1, v2, v3⟩ := rpow_81_32
  exact C91_powf_nearest_exact (by rw [finite_iff]; decide +kernel) (by rw [v1]; norm_num) (by rw [v1]; norm_num) (by rw [v1]; norm_num) (by rw [finite_iff]; decide +kernel)
    (by rw [finite_iff]; decide +kernel) (by rw [v3, v32_3.1]) (by rw [v32_3.1]; norm_num)

/-- C91, finding: toward zero and downward an exact power is missed: `81^(1/4)` is 3, but `powf` returns the float below. -/
theorem C91_powf_directed_wrong (fused : Bool) :
    binary32.val 0x42a20000 ^ binary32.val 0x3e800000 = binary32.val 0x40400000 ∧
      CC.powF false fused .down 0x42a20000 0x3e800000 = some (0x403fffff, {}) ∧ CC.powF false fused .zero 0x42a20000 0x3e800000 = some (0x403fffff, {}) := by
  refine ⟨by rw [rpow_81_32.2.2, v32_3.1], ?_, ?_⟩ <;> cases fused <;> decide +kernel

/-- C91, finding: the base 2 is excluded for a reason: `2^-149.5` underflows to zero although the least subnormal `2^-149` is nearer. -/
theorem C91_powf_base2_wrong (ce fused : Bool) :
    CC.powF ce fused .nearest 0x40000000 0xc3158000 = some (0, {}) ∧
      |binary32.val 1 - binary32.val 0x40000000 ^ binary32.val 0xc3158000| < |binary32.val 0 - binary32.val 0x40000000 ^ binary32.val 0xc3158000| := by
  refine ⟨by cases ce <;> cases fused <;> decide +kernel, ?_⟩
  have a := (bits32 (e := 133) (m := 0x958000) (by norm_num) (by norm_num) (by norm_num)).2
  norm_num at a
  have vy : binary32.val 0xc3158000 = -(299 / 2) := by rw [← a, ← val_hneg]; congr 1
  have v0 : binary32.val 0 = 0 := (val_eq_zero_iff binary32 0).2 (by decide +kernel)
  have v1 : binary32.val 1 = 2 ^ (-149 : ℤ) := by
    rw [val_eq, show binary32.sgn 1 = false by decide +kernel, show binary32.umag (binary32.mag 1) = 1 by decide +kernel, sg_false, minSub_eq_zpow, show binary32.emin = -149 by decide +kernel]; simp
  rw [v0, v1, vy, lit32_vals.2.2.2.2.2.1, show (-(299 / 2) : ℝ) = ((-149 : ℤ) : ℝ) + (-(1 / 2)) by norm_num, rpow_add (by norm_num), rpow_intCast]
  have h1 : (1 : ℝ) / 2 < 2 ^ (-(1 / 2) : ℝ) := by
    rw [show (1 : ℝ) / 2 = 2 ^ (-1 : ℝ) by rw [rpow_neg_one]; norm_num]
    exact rpow_lt_rpow_of_exponent_lt (by norm_num) (by norm_num)
  have h2 : (2 : ℝ) ^ (-(1 / 2) : ℝ) < 1 := rpow_lt_one_of_one_lt_of_neg (by norm_num) (by norm_num)
  have p := two_zpow_pos (-149)
  generalize (2 : ℝ) ^ (-149 : ℤ) = u at *
  generalize (2 : ℝ) ^ (-(1 / 2) : ℝ) = q at *
  rw [zero_sub, abs_neg, abs_of_pos (by nlinarith : 0 < u * q), abs_of_pos (by nlinarith : 0 < u - u * q)]
  nlinarith

/-- C91, finding: likewise for the base 10: `10^-45` becomes zero although `2^-149` is nearer. -/
theorem C91_powf_base10_wrong (ce fused : Bool) :
    CC.powF ce fused .nearest 0x41200000 0xc2340000 = some (0, {}) ∧
      |binary32.val 1 - binary32.val 0x41200000 ^ (-45 : ℤ)| < |binary32.val 0 - binary32.val 0x41200000 ^ (-45 : ℤ)| ∧ binary32.val 0xc2340000 = -45 := by
  have a := (bits32 (e := 131) (m := 0xb40000) (by norm_num) (by norm_num) (by norm_num)).2
  norm_num at a
  have v10 : binary32.val 0x41200000 = 10 := by
    have := (bits32 (e := 129) (m := 0xa00000) (by norm_num) (by norm_num) (by norm_num)).2
    norm_num at this ⊢; exact this
  have v0 : binary32.val 0 = 0 := (val_eq_zero_iff binary32 0).2 (by decide +kernel)
  have v1 : binary32.val 1 = 2 ^ (-149 : ℤ) := by
    rw [val_eq, show binary32.sgn 1 = false by decide +kernel, show binary32.umag (binary32.mag 1) = 1 by decide +kernel, sg_false, minSub_eq_zpow, show binary32.emin = -149 by decide +kernel]; simp
  refine ⟨by cases ce <;> cases fused <;> decide +kernel, ?_, by rw [← a, ← val_hneg]; congr 1⟩
  rw [v0, v1, v10, zero_sub, abs_neg, abs_of_pos (by norm_num), abs_of_pos (by norm_num)]
  norm_num

/-- C91, finding: overflow through the double-double or the small-integer path leaves `errno` and the flags alone: `(2^64)^3 = inf` without `ERANGE`,
whereas `3^100` sets it. -/
theorem C91_powf_overflow_no_errno (ce fused : Bool) :
    CC.powF ce fused .nearest 0x5f800000 0x40400000 = some (0x7f800000, {}) ∧ CC.powF ce fused .nearest 0x40400000 0x42c80000 = some (0x7f800000, { errno := some .erange, overflow := true }) := by
  constructor <;> cases ce <;> cases fused <;> decide +kernel

/-- the constant `LOG2_10` of exp10.hpp is the model's `log2(10.0)` to nearest, the mode of constant evaluation -/
theorem exp10_log2_10 : CC.log2Of10 = CC.log2Double .nearest 0x4024000000000000 := by decide +kernel

end Verif
