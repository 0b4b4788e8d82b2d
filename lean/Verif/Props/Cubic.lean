import Verif.Props.Ext
import Verif.Props.Ext2
import Verif.Lemmas.EFT
import Verif.Lemmas.RelErr

/-!
# C106: cubic interpolation; C42: `lerp` of equal end points
-/

namespace Verif
open Fmt
variable (f : Fmt)

/-- an integer-valued finite number -/
def Whole106 (x : ℕ) (X : ℤ) : Prop := f.Finite x ∧ f.val x = X

theorem Whole106.add {f : Fmt} (hw : f.Wide) (m : Mode) {x y : ℕ} {X Y : ℤ} (hx : Whole106 f x X) (hy : Whole106 f y Y) (h : |X + Y| ≤ 2 ^ f.F) :
    Whole106 f (f.hadd m x y) (X + Y) := by
  obtain ⟨d, d1, d2⟩ := int_datum f hw h
  obtain ⟨r1, r2⟩ := RoundsTo.exact f d1 (by rw [d2, hx.2, hy.2]; push_cast; ring) (f.hadd_spec m hx.1 hy.1)
  exact ⟨r1, by rw [r2, hx.2, hy.2]; push_cast; ring⟩

theorem Whole106.sub {f : Fmt} (hw : f.Wide) (m : Mode) {x y : ℕ} {X Y : ℤ} (hx : Whole106 f x X) (hy : Whole106 f y Y) (h : |X - Y| ≤ 2 ^ f.F) :
    Whole106 f (f.hsub m x y) (X - Y) := by
  obtain ⟨d, d1, d2⟩ := int_datum f hw h
  obtain ⟨r1, r2⟩ := RoundsTo.exact f d1 (by rw [d2, hx.2, hy.2]; push_cast; ring) (f.hsub_spec m hx.1 hy.1)
  exact ⟨r1, by rw [r2, hx.2, hy.2]; push_cast; ring⟩

theorem Whole106.mul {f : Fmt} (hw : f.Wide) (m : Mode) {x y : ℕ} {X Y : ℤ} (hx : Whole106 f x X) (hy : Whole106 f y Y) (h : |X * Y| ≤ 2 ^ f.F) :
    Whole106 f (f.hmul m x y) (X * Y) := by
  obtain ⟨d, d1, d2⟩ := int_datum f hw h
  obtain ⟨r1, r2⟩ := RoundsTo.exact f d1 (by rw [d2, hx.2, hy.2]; push_cast; ring) (f.hmul_spec m hx.1 hy.1)
  exact ⟨r1, by rw [r2, hx.2, hy.2]; push_cast; ring⟩

/-- C106: for whole numbers `cubic` is, in every rounding mode, exactly the polynomial
`(Y3 - Y2 - Y0 + Y1) T³ + (2 Y0 - 2 Y1 - Y3 + Y2) T² + (Y2 - Y0) T + Y1`; in particular it runs from `Y1` at `0` to `Y2` at `1`. -/
theorem C106_cubic_partial (hw : f.Wide) (m : Mode) {y0 y1 y2 y3 t : ℕ} {Y0 Y1 Y2 Y3 T M K : ℤ}
    (h0 : f.Finite y0) (e0 : f.val y0 = Y0) (h1 : f.Finite y1) (e1 : f.val y1 = Y1) (h2 : f.Finite y2) (e2 : f.val y2 = Y2)
    (h3 : f.Finite y3) (e3 : f.val y3 = Y3) (ht : f.Finite t) (et : f.val t = T)
    (b0 : |Y0| ≤ M) (b1 : |Y1| ≤ M) (b2 : |Y2| ≤ M) (b3 : |Y3| ≤ M) (hK : 1 ≤ K) (bt : |T| ≤ K) (hM1 : 1 ≤ M) (hM : 13 * M * K ^ 3 ≤ 2 ^ f.F) :
    f.Finite (CC.cubic f m y0 y1 y2 y3 t) ∧
      f.val (CC.cubic f m y0 y1 y2 y3 t) =
        (((Y3 - Y2 - Y0 + Y1) * T ^ 3 + (2 * Y0 - 2 * Y1 - Y3 + Y2) * T ^ 2 + (Y2 - Y0) * T + Y1 : ℤ) : ℝ) := by
  have W0 : Whole106 f y0 Y0 := ⟨h0, e0⟩
  have W1 : Whole106 f y1 Y1 := ⟨h1, e1⟩
  have W2 : Whole106 f y2 Y2 := ⟨h2, e2⟩
  have W3 : Whole106 f y3 Y3 := ⟨h3, e3⟩
  have Wt : Whole106 f t T := ⟨ht, et⟩
  have M0 : 0 ≤ M := by linarith
  have K0 : 0 ≤ K := by linarith
  have T2 : |T * T| ≤ K ^ 2 := by rw [abs_mul, sq]; exact mul_le_mul bt bt (abs_nonneg _) K0
  have K2 : K ≤ K ^ 2 := by nlinarith
  have K3 : K ^ 2 ≤ K ^ 3 := by nlinarith [sq_nonneg K]
  have MK : M ≤ M * K ^ 3 := le_mul_of_one_le_right M0 (by linarith)
  have MK1 : M * K ≤ M * K ^ 3 := mul_le_mul_of_nonneg_left (by linarith) M0
  have MK2 : M * K ^ 2 ≤ M * K ^ 3 := mul_le_mul_of_nonneg_left K3 M0
  have K3M : K ^ 3 ≤ M * K ^ 3 := le_mul_of_one_le_left (by positivity) hM1
  have hM' : 13 * (M * K ^ 3) ≤ 2 ^ f.F := by linarith
  have MK0 : 0 ≤ M * K ^ 3 := by positivity
  -- the coefficients
  have A01 := W3.sub hw m W2 (by have := abs_sub Y3 Y2; linarith)
  have A02 := A01.sub hw m W0 (by have := abs_sub (Y3 - Y2) Y0; have := abs_sub Y3 Y2; linarith)
  have ba0 : |Y3 - Y2 - Y0 + Y1| ≤ 4 * M := by
    have := abs_add_le (Y3 - Y2 - Y0) Y1; have := abs_sub (Y3 - Y2) Y0; have := abs_sub Y3 Y2; linarith
  have A0 := A02.add hw m W1 (by linarith)
  have A11 := W0.sub hw m W1 (by have := abs_sub Y0 Y1; linarith)
  have ba1 : |Y0 - Y1 - (Y3 - Y2 - Y0 + Y1)| ≤ 6 * M := by
    have := abs_sub (Y0 - Y1) (Y3 - Y2 - Y0 + Y1); have := abs_sub Y0 Y1; linarith
  have A1 := A11.sub hw m A0 (by linarith)
  have ba2 : |Y2 - Y0| ≤ 2 * M := by have := abs_sub Y2 Y0; linarith
  have A2 := W2.sub hw m W0 (by linarith)
  -- the terms
  have t2 := Wt.mul hw m Wt (by linarith)
  have c1 : |(Y3 - Y2 - Y0 + Y1) * T| ≤ 4 * (M * K) := by
    rw [abs_mul, ← mul_assoc]; exact mul_le_mul ba0 bt (abs_nonneg _) (by linarith)
  have P1 := A0.mul hw m Wt (by linarith)
  have c2 : |(Y3 - Y2 - Y0 + Y1) * T * (T * T)| ≤ 4 * (M * K ^ 3) := by
    rw [abs_mul, show 4 * (M * K ^ 3) = 4 * (M * K) * K ^ 2 by ring]
    exact mul_le_mul c1 T2 (abs_nonneg _) (by positivity)
  have P2 := P1.mul hw m t2 (by linarith)
  have c3 : |(Y0 - Y1 - (Y3 - Y2 - Y0 + Y1)) * (T * T)| ≤ 6 * (M * K ^ 2) := by
    rw [abs_mul, ← mul_assoc]; exact mul_le_mul ba1 T2 (abs_nonneg _) (by linarith)
  have P3 := A1.mul hw m t2 (by linarith)
  have c4 : |(Y2 - Y0) * T| ≤ 2 * (M * K) := by
    rw [abs_mul, ← mul_assoc]; exact mul_le_mul ba2 bt (abs_nonneg _) (by linarith)
  have P4 := A2.mul hw m Wt (by linarith)
  have s1 := abs_add_le ((Y3 - Y2 - Y0 + Y1) * T * (T * T)) ((Y0 - Y1 - (Y3 - Y2 - Y0 + Y1)) * (T * T))
  have S1 := P2.add hw m P3 (by linarith)
  have s2 := abs_add_le ((Y3 - Y2 - Y0 + Y1) * T * (T * T) + (Y0 - Y1 - (Y3 - Y2 - Y0 + Y1)) * (T * T)) ((Y2 - Y0) * T)
  have S2 := S1.add hw m P4 (by linarith)
  have s3 := abs_add_le ((Y3 - Y2 - Y0 + Y1) * T * (T * T) + (Y0 - Y1 - (Y3 - Y2 - Y0 + Y1)) * (T * T) + (Y2 - Y0) * T) Y1
  have S3 := S2.add hw m W1 (by linarith)
  refine ⟨S3.1, ?_⟩
  have := S3.2
  unfold CC.cubic
  dsimp only
  rw [this]
  congr 1
  ring

-- the points 3, -1, 4, 10: 25 at 2, 4 at 1
example : CC.cubic binary64 .nearest 0x4008000000000000 0xBFF0000000000000 0x4010000000000000 0x4024000000000000 0x4000000000000000 =
    0x4039000000000000 ∧ CC.cubic binary64 .nearest 0x4008000000000000 0xBFF0000000000000 0x4010000000000000 0x4024000000000000 0x3FF0000000000000 =
    0x4010000000000000 := by decide +kernel

/-- a rounded sum is at most twice the exact one -/
theorem twice106 {m : Mode} {zs : Bool} {a : ℝ} {z : ℕ} (R : f.RoundsTo m zs a z) (hm : Mult f.emin a) (h : |a| ≤ f.maxFin) :
    f.Finite z ∧ |f.val z| ≤ 2 * |a| := by
  have fz := RoundsTo.finite_of_le f R h
  refine ⟨fz, ?_⟩
  by_cases h0 : a = 0
  · have := (RoundsTo.exact f (f.finite_zero false) (by rw [f.val_zero, h0]) R).2
    rw [this, h0, abs_zero]; norm_num
  · have e := RoundsTo.err R h
    have hge : f.minSub ≤ |a| := by
      by_contra hc
      apply h0
      exact Mult.eq_of_close hm ⟨0, by simp⟩ (by rw [sub_zero]; exact not_le.1 hc)
    have hF : (2 : ℝ) ^ (-(f.F : ℤ)) ≤ 1 := zpow_le_one_of_nonpos₀ (by norm_num) (by omega)
    have hg : f.gapBound a ≤ |a| := by
      unfold Fmt.gapBound
      refine max_le ?_ hge
      nlinarith [abs_nonneg a]
    have := abs_add_le (f.val z - a) a
    rw [sub_add_cancel] at this
    linarith

/-- C106: at `0` the interpolation is at `y1`, for all finite points that are not near overflow, in every rounding mode -/
theorem C106_cubic_start (m : Mode) {y0 y1 y2 y3 t : ℕ} (h0 : f.Finite y0) (h1 : f.Finite y1) (h2 : f.Finite y2) (h3 : f.Finite y3) (ht : f.Finite t)
    (b0 : |f.val y0| ≤ f.maxFin / 26) (b1 : |f.val y1| ≤ f.maxFin / 26) (b2 : |f.val y2| ≤ f.maxFin / 26) (b3 : |f.val y3| ≤ f.maxFin / 26)
    (t0 : f.val t = 0) :
    f.Finite (CC.cubic f m y0 y1 y2 y3 t) ∧ f.val (CC.cubic f m y0 y1 y2 y3 t) = f.val y1 := by
  have M (x : ℕ) : Mult f.emin (f.val x) := ⟨f.ival x, f.val_eq_ival x⟩
  have S {x y : ℕ} {B : ℝ} (hx : f.Finite x) (hy : f.Finite y) (hB : |f.val x| + |f.val y| ≤ B) (hM : B ≤ f.maxFin) :
      f.Finite (f.hsub m x y) ∧ |f.val (f.hsub m x y)| ≤ 2 * B := by
    have := abs_sub (f.val x) (f.val y)
    obtain ⟨r1, r2⟩ := twice106 f (f.hsub_spec m hx hy) ((M x).sub (M y)) (by linarith)
    exact ⟨r1, by linarith⟩
  have p0 := f.maxFin_pos
  obtain ⟨f1, e1⟩ := S (B := 2 * (f.maxFin / 26)) h3 h2 (by linarith) (by linarith)
  obtain ⟨f2, e2⟩ := S (B := 5 * (f.maxFin / 26)) f1 h0 (by linarith) (by linarith)
  obtain ⟨f3, e3⟩ : f.Finite (f.hadd m (f.hsub m (f.hsub m y3 y2) y0) y1) ∧
      |f.val (f.hadd m (f.hsub m (f.hsub m y3 y2) y0) y1)| ≤ 22 * (f.maxFin / 26) := by
    have := abs_add_le (f.val (f.hsub m (f.hsub m y3 y2) y0)) (f.val y1)
    obtain ⟨r1, r2⟩ := twice106 f (f.hadd_spec m f2 h1) ((M _).add (M y1)) (by linarith)
    exact ⟨r1, by linarith⟩
  obtain ⟨f4, e4⟩ := S (B := 2 * (f.maxFin / 26)) h0 h1 (by linarith) (by linarith)
  obtain ⟨f5, -⟩ := S (B := 26 * (f.maxFin / 26)) f4 f3 (by linarith) (by linarith)
  obtain ⟨f6, -⟩ := S (B := 2 * (f.maxFin / 26)) h2 h0 (by linarith) (by linarith)
  -- products with zero, sums of zeros
  have Z {x y : ℕ} (hx : f.Finite x) (hy : f.Finite y) (hz : f.val y = 0) : f.Finite (f.hmul m x y) ∧ f.val (f.hmul m x y) = 0 := by
    have := RoundsTo.exact f (f.finite_zero false) (by rw [f.val_zero, hz, mul_zero]) (f.hmul_spec m hx hy)
    rw [hz, mul_zero] at this; exact this
  have A {x y : ℕ} (hx : f.Finite x) (vx : f.val x = 0) (hy : f.Finite y) : f.Finite (f.hadd m x y) ∧ f.val (f.hadd m x y) = f.val y := by
    have := RoundsTo.exact f hy (by rw [vx, zero_add]) (f.hadd_spec m hx hy)
    rw [vx, zero_add] at this; exact this
  obtain ⟨g1, v1⟩ := Z ht ht t0
  obtain ⟨g2, v2⟩ := Z f3 ht t0
  obtain ⟨g3, v3⟩ := Z g2 g1 v1
  obtain ⟨g4, v4⟩ := Z f5 g1 v1
  obtain ⟨g5, v5⟩ := Z f6 ht t0
  obtain ⟨g6, v6⟩ := A g3 v3 g4
  obtain ⟨g7, v7⟩ := A g6 (by rw [v6, v4]) g5
  exact A g7 (by rw [v7, v5]) h1

example : CC.cubic binary64 .up 0x3FB999999999999A 0x3FC999999999999A 0x3FD3333333333333 0x3FD999999999999A 0 = 0x3FC999999999999A := by decide +kernel

/-- C106, finding: in general the end point is not reached: `cubic(0, 2^60, 1, 0, 1)` is `0`, not `1` -/
theorem C106_cubic_end_wrong : ∃ y0 y1 y2 y3, binary64.Finite y0 ∧ binary64.Finite y1 ∧ binary64.Finite y2 ∧ binary64.Finite y3 ∧
    CC.cubic binary64 .nearest y0 y1 y2 y3 0x3FF0000000000000 = 0 ∧ binary64.val y2 = 1 := by
  refine ⟨0, 0x43B0000000000000, 0x3FF0000000000000, 0, ?_, ?_, ?_, ?_, ?_, ?_⟩
  · rw [finite_iff]; decide +kernel
  · rw [finite_iff]; decide +kernel
  · rw [finite_iff]; decide +kernel
  · rw [finite_iff]; decide +kernel
  · decide +kernel
  · exact (by rw [show (0x3FF0000000000000 : ℕ) = CC.oneLit binary64 false by decide +kernel, CC.val_one]; rfl)

/-- C42, finding: `lerp(0, 0, -DBL_MAX)` is NaN when rounding upward: `1 - t` overflows and is multiplied by zero. -/
theorem C42_lerp_zero_wrong : binary64.Finite 0xFFEFFFFFFFFFFFFF ∧ binary64.IsNaN (CC.lerp binary64 .up 0 0 0xFFEFFFFFFFFFFFFF) := by
  constructor
  · rw [finite_iff]; decide +kernel
  · rw [isNaN_iff]; decide +kernel

end Verif
