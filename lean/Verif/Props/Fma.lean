import Verif.Lemmas.Fma
import Verif.Props.Manip

/-!
# C17, C18: fused multiply-add
-/

namespace Verif
open Fmt
variable (f : Fmt)

/-- A quiet NaN: the most significant fraction bit is set. -/
def IsQuietNaN (x : ℕ) : Prop := f.IsNaN x ∧ (f.frac x).testBit (f.F - 1) = true

theorem quietNaN_quiet (s : Bool) (v : ℕ) : IsQuietNaN f (FPBits.quietNaN f s v) := by
  have hF := f.hF
  have hmsb : FPBits.msb f = 2 ^ (f.F - 1) := by unfold FPBits.msb; rw [Nat.one_shiftLeft]
  have hbit : ((FPBits.msb f ||| v) % 2 ^ f.F).testBit (f.F - 1) = true := by
    rw [Nat.testBit_mod_two_pow, hmsb, Nat.testBit_or, Nat.testBit_two_pow_self]; simp; omega
  have hlt : (FPBits.msb f ||| v) % 2 ^ f.F < 2 ^ f.F := Nat.mod_lt _ (by positivity)
  have hE := f.two_pow_E
  have he : FPBits.quietNaN f s v = f.pack s ((2 ^ f.E - 1) * 2 ^ f.F + (FPBits.msb f ||| v) % 2 ^ f.F) := by
    unfold FPBits.quietNaN; rw [FPBits.encode_eq, FPBits.bInf_eq, Nat.mod_eq_of_lt (a := 2 ^ f.E - 1) (by omega)]
  have hfr := CC.frac_pack f (s := s) (e := 2 ^ f.E - 1) (by omega) hlt
  have hbe := CC.bexp_pack f (s := s) (e := 2 ^ f.E - 1) (by omega) hlt
  rw [he]
  refine ⟨⟨f.valid_pack s (FPBits.exp_frac_lt f (by omega) hlt), hbe, ?_⟩, by rw [hfr]; exact hbit⟩
  rw [hfr]; intro h; rw [h] at hbit; simp at hbit

theorem flags_exact {X : ℝ} {r : ℕ} (hr : f.Finite r) (hv : f.val r = X) : FlagsFor f X r {} := by
  refine ⟨rfl, by simp [hr, hv], ?_, by simp [hr, hv]⟩
  simp only [Bool.false_eq_true, false_iff, not_or]
  refine ⟨fun h => hr.2 h.2.1, ?_⟩
  rw [← hv, not_le]; exact f.abs_val_lt_huge hr

theorem roundsTo_zs {m : Mode} {zs : Bool} {v : ℝ} {b : ℕ} (hv : v ≠ 0) (h : f.RoundsTo m zs v b) (zs' : Bool) : f.RoundsTo m zs' v b :=
  ⟨h.valid, h.value, by rw [h.sign, if_neg hv, if_neg hv]⟩

theorem zeroB_iff_val (x : ℕ) : f.zeroB x = true ↔ f.val x = 0 := by
  rw [f.val_eq_zero_iff]; simp [zeroB]

theorem fixedFma_all {Wp W A : ℕ} (hWp : 2 * (f.F + 1) ≤ Wp) (hW : A + 1 ≤ W) (hA : 2 * (f.F + 1) + 3 ≤ A) (m : Mode) {x y z : ℕ}
    (hx : f.Finite x) (hy : f.Finite y) (hz : f.Finite z) :
    ∃ r fl, CC.fixedFma f Wp W A m x y z = some (r, fl) ∧
      f.RoundsTo m (zeroSign m (xor (f.sgn x) (f.sgn y)) (f.sgn z)) (f.val x * f.val y + f.val z) r ∧
      FlagsFor f (f.val x * f.val y + f.val z) r fl := by
  by_cases h0 : f.val x = 0 ∨ f.val y = 0
  · have hxy : f.val x * f.val y = 0 := by rcases h0 with h | h <;> simp [h]
    have hb : (f.zeroB x || f.zeroB y) = true := by
      rw [Bool.or_eq_true, zeroB_iff_val, zeroB_iff_val]; exact h0
    rw [hxy, zero_add]
    have hsp : CC.specialCaseFma f m x y z = if f.zeroB z then
        some (FPBits.zero f (if (f.sgn x != f.sgn y) != f.sgn z then decide (m = .down) else (f.sgn x != f.sgn y)), {}) else some (z, {}) := by
      unfold CC.specialCaseFma
      simp only [FPBits.isNan_eq, FPBits.isInf_eq, FPBits.isZero_eq, (f.finite_B hx).1, (f.finite_B hx).2, (f.finite_B hy).1,
        (f.finite_B hy).2, (f.finite_B hz).1, (f.finite_B hz).2, hb, FPBits.isNeg_eq f hx.valid, FPBits.isNeg_eq f hy.valid,
        FPBits.isNeg_eq f hz.valid, Bool.or_self, Bool.false_eq_true, if_false, if_true]
    unfold CC.fixedFma
    rw [hsp]
    by_cases hz0 : f.val z = 0
    · rw [(zeroB_iff_val f z).2 hz0]
      simp only [if_true]
      refine ⟨_, _, rfl, ?_⟩
      have e : (if (f.sgn x != f.sgn y) != f.sgn z then decide (m = .down) else (f.sgn x != f.sgn y)) =
          zeroSign m (xor (f.sgn x) (f.sgn y)) (f.sgn z) := by
        rw [CC.zeroSign_eq]
        cases f.sgn x <;> cases f.sgn y <;> cases f.sgn z <;> rfl
      rw [e]
      exact CC.zero_spec f m _ hz0
    · have : f.zeroB z = false := by rw [← Bool.not_eq_true, zeroB_iff_val]; exact hz0
      rw [this]
      refine ⟨z, {}, rfl, ?_, flags_exact f hz rfl⟩
      exact roundsTo_zs f hz0 (f.roundsTo_self hz) _
  · push Not at h0
    exact CC.fixedFma_finite f hWp hW hA m hx hy hz h0.1 h0.2

/-- **C17** (double): for all finite `x`, `y`, `z` and all four rounding modes the software `fma` returns `x·y + z` rounded exactly once
(an exactly zero result has the sign IEEE 754 prescribes), raises exactly the flags IEEE 754 prescribes, and never reaches the `wide_fma`
fall-back. -/
theorem C17_fma (m : Mode) {x y z : ℕ} (hx : binary64.Finite x) (hy : binary64.Finite y) (hz : binary64.Finite z) :
    ∃ r fl, CC.fma m x y z = some (r, fl) ∧
      binary64.RoundsTo m (zeroSign m (xor (binary64.sgn x) (binary64.sgn y)) (binary64.sgn z))
        (binary64.val x * binary64.val y + binary64.val z) r ∧
      FlagsFor binary64 (binary64.val x * binary64.val y + binary64.val z) r fl :=
  fixedFma_all binary64 (by decide) (by decide) (by decide) m hx hy hz

/-- **C17** (float). -/
theorem C17_fmaf (m : Mode) {x y z : ℕ} (hx : binary32.Finite x) (hy : binary32.Finite y) (hz : binary32.Finite z) :
    ∃ r fl, CC.fmaf m x y z = some (r, fl) ∧
      binary32.RoundsTo m (zeroSign m (xor (binary32.sgn x) (binary32.sgn y)) (binary32.sgn z))
        (binary32.val x * binary32.val y + binary32.val z) r ∧
      FlagsFor binary32 (binary32.val x * binary32.val y + binary32.val z) r fl :=
  fixedFma_all binary32 (by decide) (by decide) (by decide) m hx hy hz

/-- **C17**: a fused multiply-add with an exact result is exact, in every mode. -/
theorem C17_fma_exact (m : Mode) {x y z r : ℕ} (hx : binary64.Finite x) (hy : binary64.Finite y) (hz : binary64.Finite z)
    (hr : binary64.Finite r) (h : binary64.val r = binary64.val x * binary64.val y + binary64.val z) (h0 : binary64.val r ≠ 0) :
    CC.fma m x y z = some (r, {}) := by
  obtain ⟨q, fl, h1, h2, h3⟩ := C17_fma m hx hy hz
  rw [← h] at h2 h3
  have hq : q = r := RoundsTo.exact_eq binary64 hr h2 (fun h' => absurd h' h0)
  subst hq
  have a := h3.inexact; have b := h3.overflow; have c := h3.underflow; have d := h3.invalid
  simp only [hr, true_and, not_true_eq_false, and_false, iff_false, Bool.not_eq_true] at a c
  have hb : fl.overflow = false := by
    rw [← Bool.not_eq_true, b, not_or]
    exact ⟨fun h => hr.2 h.2.1, by rw [not_le]; exact binary64.abs_val_lt_huge hr⟩
  rw [h1]
  cases fl
  simp_all

/-- `fmaf(1+2^-12, 1+2^-12, 2^-53)`: the case quoted in the source comment l.605-609, where double rounding would be off by one. -/
example : binary32.Finite 0x3f800800 ∧ binary32.Finite 0x25000000 ∧
    CC.fmaf .nearest 0x3f800800 0x3f800800 0x25000000 = some (0x3f801001, { inexact := true }) := by decide +kernel
example : CC.fma .up 1 1 1 = some (2, { underflow := true, inexact := true }) ∧
    CC.fma .nearest 0x7fefffffffffffff 0x4000000000000000 0xffefffffffffffff = some (0x7fefffffffffffff, {}) ∧
    CC.fma .down 0x3ff0000000000000 0x3ff0000000000000 0xbff0000000000000 = some (0x8000000000000000, {}) := by decide +kernel

/-- **C18**: any NaN argument gives a quiet NaN. -/
theorem C18_fma_nan (Wp W A : ℕ) (m : Mode) {x y z : ℕ} (hx : f.Valid x) (hy : f.Valid y) (hz : f.Valid z)
    (h : f.IsNaN x ∨ f.IsNaN y ∨ f.IsNaN z) : ∃ r fl, CC.fixedFma f Wp W A m x y z = some (r, fl) ∧ IsQuietNaN f r := by
  have hb : (FPBits.isNan f x || FPBits.isNan f y || FPBits.isNan f z) = true := by
    rw [FPBits.isNan_eq, FPBits.isNan_eq, FPBits.isNan_eq, Bool.or_eq_true, Bool.or_eq_true, f.nanB_iff hx, f.nanB_iff hy, f.nanB_iff hz]
    tauto
  unfold CC.fixedFma CC.specialCaseFma
  rw [if_pos hb]
  refine ⟨_, _, rfl, ?_⟩
  unfold CC.propagateQuietNaN
  split_ifs <;> exact quietNaN_quiet f _ _

theorem not_nanB_of_inf {x : ℕ} (h : f.IsInf x) : f.nanB x = false := nanB_false f h.1 (fun h' => h'.2.2 h.2.2)
theorem not_zeroB_of_inf {x : ℕ} (h : f.IsInf x) : f.zeroB x = false := by
  rw [isInf_iff] at h; unfold zeroB
  have := f.infMag_pos; have : 0 < 2 ^ (f.F + 1) := by positivity
  simp; omega

theorem infB_false_of_finite {x : ℕ} (h : f.Finite x) : f.infB x = false := (f.finite_B h).2

/-- **C18**: `inf · 0` gives a quiet NaN and raises `FE_INVALID`, whatever the (non-NaN) addend. -/
theorem C18_fma_inf_zero (Wp W A : ℕ) (m : Mode) {x y z : ℕ} (hz : f.Valid z) (nz : ¬ f.IsNaN z)
    (h : (f.IsInf x ∧ f.Finite y ∧ f.val y = 0) ∨ (f.Finite x ∧ f.val x = 0 ∧ f.IsInf y)) :
    ∃ r, CC.fixedFma f Wp W A m x y z = some (r, { invalid := true }) ∧ IsQuietNaN f r := by
  refine ⟨_, ?_, quietNaN_quiet f false 0⟩
  unfold CC.fixedFma CC.specialCaseFma
  simp only [FPBits.isNan_eq, FPBits.isInf_eq, FPBits.isZero_eq, nanB_false f hz nz]
  rcases h with ⟨a, b, c⟩ | ⟨b, c, a⟩
  · simp [not_nanB_of_inf f a, (f.finite_B b).1, (f.infB_iff a.1).2 a, (zeroB_iff_val f y).2 c]
  · simp [not_nanB_of_inf f a, (f.finite_B b).1, (f.infB_iff a.1).2 a, (zeroB_iff_val f x).2 c]

/-- **C18**: an infinite product meets an opposite infinity: quiet NaN and `FE_INVALID`; otherwise the infinite product wins. -/
theorem C18_fma_inf (Wp W A : ℕ) (m : Mode) {x y z : ℕ} (hx : f.Valid x) (hy : f.Valid y) (hz : f.Valid z) (nx : ¬ f.IsNaN x)
    (ny : ¬ f.IsNaN y) (nz : ¬ f.IsNaN z) (h : f.IsInf x ∨ f.IsInf y) (x0 : f.Finite x → f.val x ≠ 0) (y0 : f.Finite y → f.val y ≠ 0) :
    (f.IsInf z ∧ f.sgn z ≠ xor (f.sgn x) (f.sgn y) →
      ∃ r, CC.fixedFma f Wp W A m x y z = some (r, { invalid := true }) ∧ IsQuietNaN f r) ∧
    (¬ (f.IsInf z ∧ f.sgn z ≠ xor (f.sgn x) (f.sgn y)) →
      CC.fixedFma f Wp W A m x y z = some (f.inf (xor (f.sgn x) (f.sgn y)), {})) := by
  have zf : ∀ {w}, f.Valid w → ¬ f.IsNaN w → (f.Finite w → f.val w ≠ 0) → f.zeroB w = false := by
    intro w hw nw w0
    rcases f.not_nan_cases hw nw with h | h
    · rw [← Bool.not_eq_true, zeroB_iff_val]; exact w0 h
    · exact not_zeroB_of_inf f h
  have hi : (f.infB x || f.infB y) = true := by rw [Bool.or_eq_true, f.infB_iff hx, f.infB_iff hy]; exact h
  have hxor : (f.sgn x != f.sgn y) = xor (f.sgn x) (f.sgn y) := by cases f.sgn x <;> cases f.sgn y <;> rfl
  unfold CC.fixedFma CC.specialCaseFma
  simp only [FPBits.isNan_eq, FPBits.isInf_eq, FPBits.isZero_eq, nanB_false f hx nx, nanB_false f hy ny, nanB_false f hz nz, hi,
    zf hx nx x0, zf hy ny y0, FPBits.isNeg_eq f hx, FPBits.isNeg_eq f hy, FPBits.isNeg_eq f hz, hxor, Bool.or_self,
    Bool.false_eq_true, if_false, if_true, FPBits.inf_eq]
  constructor
  · rintro ⟨h1, h2⟩
    rw [(f.infB_iff hz).2 h1, Bool.true_and, if_pos (by simpa using h2)]
    exact ⟨_, rfl, quietNaN_quiet f false 0⟩
  · intro h1
    rw [if_neg]
    rw [Bool.and_eq_true, f.infB_iff hz]
    rintro ⟨a, b⟩; exact h1 ⟨a, by simpa using b⟩

/-- **C18**: a finite product plus an infinity is that infinity. -/
theorem C18_fma_addend_inf (Wp W A : ℕ) (m : Mode) {x y z : ℕ} (hx : f.Finite x) (hy : f.Finite y) (hz : f.IsInf z) :
    CC.fixedFma f Wp W A m x y z = some (z, {}) := by
  unfold CC.fixedFma CC.specialCaseFma
  simp [FPBits.isNan_eq, FPBits.isInf_eq, (f.finite_B hx).1, (f.finite_B hx).2, (f.finite_B hy).1, (f.finite_B hy).2,
    not_nanB_of_inf f hz, (f.infB_iff hz.1).2 hz]

example : binary64.IsInf 0x7ff0000000000000 ∧ binary64.IsNaN 0x7ff0000000000001 ∧
    CC.fma .nearest 0x7ff0000000000000 0x8000000000000000 0x3ff0000000000000 = some (0x7ff8000000000000, { invalid := true }) ∧
    CC.fma .nearest 0x7ff0000000000001 0 0 = some (0x7ff8000000000000, { invalid := true }) ∧
    CC.fma .nearest 0xbff0000000000000 0x7ff0000000000000 0x3ff0000000000000 = some (0xfff0000000000000, {}) := by decide +kernel

end Verif
