import Verif.Lemmas.Rem
import Verif.Props.Sqrt

/-!
# C20, C21, C22: `fmod`, `remainder`, `remquo`
-/

namespace Verif
open Fmt
variable (f : Fmt)

/-- ISO C `fmod`: `r = x - n*y` exactly with `n = trunc(x/y)`; `r` has the sign of `x`, also when it is zero. -/
def IsFmod (x y r : ℕ) : Prop :=
  f.Finite r ∧ f.val r = f.val x - truncR (f.val x / f.val y) * f.val y ∧ f.sgn r = f.sgn x

/-- IEEE 754 `remainder`: `r = x - n*y` exactly with `n` the integer nearest to `x/y` (ties to even); a zero has the sign of `x`. -/
def IsRemainder (x y r : ℕ) (n : ℤ) : Prop :=
  IsRoundHalfEven (f.val x / f.val y) n ∧ f.Finite r ∧ f.val r = f.val x - n * f.val y ∧ (f.val r = 0 → f.sgn r = f.sgn x)

/-- The specification implies the usual bounds. -/
theorem IsFmod.bounds {f : Fmt} {x y r : ℕ} (h : IsFmod f x y r) (hy : f.val y ≠ 0) : |f.val r| < |f.val y| ∧ 0 ≤ f.val r * f.val x := by
  obtain ⟨-, h, -⟩ := h
  have hy' := abs_pos.2 hy
  set q := f.val x / f.val y with hq
  have hx : f.val x = q * f.val y := by rw [hq]; field_simp
  have hr : f.val r = (q - truncR q) * f.val y := by rw [h, hx]; ring
  have hd : |q - truncR q| < 1 ∧ 0 ≤ (q - truncR q) * q := by
    unfold truncR
    split
    · rename_i h0
      have h1 := Int.floor_le q
      have h2 := Int.lt_floor_add_one q
      refine ⟨by rw [abs_lt]; constructor <;> linarith, mul_nonneg (by linarith) h0⟩
    · rename_i h0
      have h1 := Int.le_ceil q
      have h2 := Int.ceil_lt_add_one q
      refine ⟨by rw [abs_lt]; constructor <;> linarith, mul_nonneg_of_nonpos_of_nonpos (by linarith) (by linarith)⟩
  constructor
  · rw [hr, abs_mul]; exact mul_lt_of_lt_one_left hy' hd.1
  · rw [hr, hx]
    have : (q - truncR q) * f.val y * (q * f.val y) = ((q - truncR q) * q) * (f.val y * f.val y) := by ring
    rw [this]; exact mul_nonneg hd.2 (mul_self_nonneg _)

/-- rounding between two representable magnitudes -/
theorem rounds_abs {m : Mode} {zs : Bool} {v : ℝ} {b p n : ℕ} (h : f.RoundsTo m zs v b) (hp : f.Finite p) (hn : f.Finite n)
    (h1 : |v| ≤ f.val p) (h2 : f.val n ≤ |v|) : f.Finite b ∧ f.val n ≤ |f.val b| ∧ |f.val b| ≤ f.val p := by
  have hfin : f.Finite b := by
    refine RoundsTo.finite_of_le f h (h1.trans ?_)
    exact (le_abs_self _).trans (f.abs_val_le hp)
  have up := RoundsTo.le_of h hp ((le_abs_self v).trans h1)
  have dn := RoundsTo.ge_of h (f.finite_hneg hp) (by rw [f.val_hneg]; linarith [neg_abs_le v])
  rw [f.xval_of_finite hfin, f.xval_of_finite hp, EReal.coe_le_coe_iff] at up
  rw [f.xval_of_finite hfin, f.xval_of_finite (f.finite_hneg hp), EReal.coe_le_coe_iff, f.val_hneg] at dn
  refine ⟨hfin, ?_, abs_le.2 ⟨dn, up⟩⟩
  rcases le_total 0 v with hv | hv
  · rw [abs_of_nonneg hv] at h2
    have := RoundsTo.ge_of h hn h2
    rw [f.xval_of_finite hfin, f.xval_of_finite hn, EReal.coe_le_coe_iff] at this
    exact this.trans (le_abs_self _)
  · rw [abs_of_nonpos hv] at h2
    have := RoundsTo.le_of h (f.finite_hneg hn) (by rw [f.val_hneg]; linarith)
    rw [f.xval_of_finite hfin, f.xval_of_finite (f.finite_hneg hn), EReal.coe_le_coe_iff, f.val_hneg] at this
    linarith [neg_abs_le (f.val b)]

/-- representable upper bound for a real below `2^(bias)` of the form `(2^(F-e)(N+1)-1)·2^(e-F)` -/
theorem pred_nat (hw : f.Wide) {N e : ℕ} (he : e ≤ f.F) (h1 : N + 1 ≤ 2 ^ (e + 1)) :
    ∃ p, f.Finite p ∧ f.val p = (N : ℝ) + 1 - 2 ^ e / 2 ^ f.F := by
  obtain ⟨hw1, hw2⟩ := hw
  have hp2 : 2 ^ (f.F - e) * 2 ^ e = 2 ^ f.F := by rw [← pow_add, Nat.sub_add_cancel he]
  have hpos : 0 < 2 ^ (f.F - e) := by positivity
  have ha : 2 ^ (f.F - e) * (N + 1) - 1 ≤ 2 ^ (f.F + 1) := by
    have : 2 ^ (f.F - e) * (N + 1) ≤ 2 ^ (f.F - e) * 2 ^ (e + 1) := Nat.mul_le_mul_left _ h1
    rw [← pow_add, show f.F - e + (e + 1) = f.F + 1 by omega] at this
    omega
  have hge : 1 ≤ 2 ^ (f.F - e) * (N + 1) := Nat.one_le_iff_ne_zero.2 (by positivity)
  obtain ⟨p, q1, q2, -⟩ := f.exists_exact false (a := 2 ^ (f.F - e) * (N + 1) - 1) (k := e + f.bias - 1) ha (by
    rw [f.umag_infMag]
    calc (2 ^ (f.F - e) * (N + 1) - 1) * 2 ^ (e + f.bias - 1) < 2 ^ (f.F - e) * 2 ^ (e + 1) * 2 ^ (e + f.bias - 1) := by
          apply Nat.mul_lt_mul_of_pos_right _ (by positivity)
          have : 2 ^ (f.F - e) * (N + 1) ≤ 2 ^ (f.F - e) * 2 ^ (e + 1) := Nat.mul_le_mul_left _ h1
          omega
      _ = 2 ^ (f.F + (e + f.bias)) := by rw [← pow_add, ← pow_add]; congr 1; omega
      _ ≤ _ := by rw [← pow_add]; exact Nat.pow_le_pow_right (by decide) (by omega))
  refine ⟨p, q1, ?_⟩
  rw [q2, sg_false, one_mul, Nat.cast_mul, Nat.cast_sub hge]
  push_cast
  have hu : (2 : ℝ) ^ (e + f.bias - 1) * f.minSub = 2 ^ e / 2 ^ f.F := by
    unfold minSub
    rw [← zpow_natCast, ← zpow_natCast, ← zpow_natCast, ← zpow_add₀ (by norm_num), ← zpow_sub₀ (by norm_num)]
    congr 1; omega
  rw [mul_assoc, hu]
  have hp3 : (2 : ℝ) ^ (f.F - e) * 2 ^ e = 2 ^ f.F := by exact_mod_cast hp2
  have : (2 : ℝ) ^ f.F ≠ 0 := by positivity
  rw [← hp3] at this ⊢
  field_simp

/-- the quotient of a smaller by a larger number is at most the predecessor of one -/
theorem quot_lt_one (hw : f.Wide) {x y : ℕ} (h : |f.val x| < |f.val y|) : ∃ p, f.Finite p ∧ |f.val x / f.val y| ≤ f.val p ∧ f.val p < 1 := by
  have hms := f.minSub_pos
  obtain ⟨hw1, hw2⟩ := hw
  have hp1 : 1 ≤ 2 ^ (f.F + 1) := Nat.one_le_iff_ne_zero.2 (by positivity)
  obtain ⟨p, q1, q2, -⟩ := f.exists_exact false (a := 2 ^ (f.F + 1) - 1) (k := f.bias - 2) (by omega) (by
    rw [f.umag_infMag]
    calc (2 ^ (f.F + 1) - 1) * 2 ^ (f.bias - 2) < 2 ^ (f.F + 1) * 2 ^ (f.bias - 2) := Nat.mul_lt_mul_of_pos_right (by omega) (by positivity)
      _ ≤ _ := by rw [← pow_add, ← pow_add]; exact Nat.pow_le_pow_right (by decide) (by omega))
  rw [sg_false, one_mul, Nat.cast_mul, Nat.cast_sub hp1] at q2
  push_cast at q2
  have hu : (2 : ℝ) ^ (f.bias - 2) * f.minSub = 1 / 2 ^ (f.F + 1) := by
    unfold minSub
    rw [← zpow_natCast, ← zpow_natCast, one_div, ← zpow_neg, ← zpow_add₀ (by norm_num)]
    congr 1; push_cast; omega
  rw [mul_assoc, hu] at q2
  have hP : (0 : ℝ) < 2 ^ (f.F + 1) := by positivity
  have q3 : f.val p = 1 - 1 / 2 ^ (f.F + 1) := by rw [q2]; field_simp
  have hi : (0 : ℝ) < 1 / 2 ^ (f.F + 1) := by positivity
  refine ⟨p, q1, ?_, by rw [q3]; linarith⟩
  rw [f.abs_val, f.abs_val, mul_lt_mul_iff_left₀ hms, Nat.cast_lt, f.umag_lt_iff] at h
  rw [abs_div, f.abs_val, f.abs_val, mul_div_mul_right _ _ hms.ne', q3]
  obtain ⟨b, hb⟩ : ∃ b, f.mag y = b + 1 := ⟨f.mag y - 1, by omega⟩
  have hs := f.umag_succ b
  have hg := f.gs_lt b
  have he := f.umag_eq_gs b
  have hle : f.umag (f.mag x) ≤ f.umag b := f.umag_le_iff.2 (by omega)
  have hub : f.umag (b + 1) ≤ 2 ^ (f.F + 1) * 2 ^ f.gk b := by
    rw [hs, he, ← Nat.succ_mul]; exact Nat.mul_le_mul_right _ hg
  have hypos : (0 : ℝ) < f.umag (b + 1) := by
    rw [hs]; push_cast; positivity
  rw [hb, div_le_iff₀ hypos]
  have h1 : (f.umag (f.mag x) : ℝ) ≤ f.umag (b + 1) - 2 ^ f.gk b := by rw [hs]; push_cast; simpa using hle
  have h2 : (f.umag (b + 1) : ℝ) / 2 ^ (f.F + 1) ≤ 2 ^ f.gk b := by
    rw [div_le_iff₀ hP]; rw [mul_comm]; exact_mod_cast hub
  have : (1 - 1 / 2 ^ (f.F + 1)) * (f.umag (b + 1) : ℝ) = f.umag (b + 1) - f.umag (b + 1) / 2 ^ (f.F + 1) := by ring
  rw [this]; linarith

/-- the integer quotient the code computes, when the rounded quotient does not reach the next integer -/
theorem trunc_quot (hm : Mode) {x y p n N : ℕ} (hx : f.Finite x) (hy : f.Finite y) (hy0 : f.val y ≠ 0) (hx0 : f.val x ≠ 0) (hp : f.Finite p)
    (hn : f.Finite n) (h1 : |f.val x / f.val y| ≤ f.val p) (h2 : f.val n ≤ |f.val x / f.val y|) (hN : f.val n = N) (hpN : f.val p < N + 1) :
    f.Finite (CC.trunc f (f.hdiv hm x y)) ∧ f.val (CC.trunc f (f.hdiv hm x y)) = sg (xor (f.sgn x) (f.sgn y)) * N ∧
      truncR (f.val x / f.val y) * f.val y = sg (f.sgn x) * (N * |f.val y|) := by
  have hr := f.hdiv_spec hm hx hy hy0
  obtain ⟨a1, a2, a3⟩ := rounds_abs f hr hp hn h1 h2
  obtain ⟨k, b1, b2, b3, -⟩ := trunc_mag f a1
  have hk := C06_trunc_mag f a1
  have hfl : ⌊|f.val (f.hdiv hm x y)|⌋₊ = N := by
    rw [Nat.floor_eq_iff (abs_nonneg _)]; constructor <;> linarith
  rw [hfl, b2, abs_mul, abs_sg, one_mul, Nat.abs_cast, Nat.cast_inj] at hk
  have hvx := CC.val_eq_sg_abs f x
  have hvy := CC.val_eq_sg_abs f y
  have hq0 : f.val x / f.val y ≠ 0 := div_ne_zero hx0 hy0
  have hqs : f.val x / f.val y = sg (xor (f.sgn x) (f.sgn y)) * |f.val x / f.val y| := by
    rw [sg_xor, abs_div]
    nth_rewrite 1 [hvx]
    nth_rewrite 1 [hvy]
    have := sg_mul_self (f.sgn y)
    have h' := sg_ne_zero (f.sgn y)
    have h'' : |f.val y| ≠ 0 := abs_ne_zero.2 hy0
    rw [div_eq_iff (mul_ne_zero h' h'')]
    field_simp
    linear_combination (-sg (f.sgn x)) * this
  have hsz : f.sgn (f.hdiv hm x y) = xor (f.sgn x) (f.sgn y) := by
    rw [hr.sign, if_neg hq0]
    have hap := abs_pos.2 hq0
    cases hs : xor (f.sgn x) (f.sgn y)
    · rw [hs, sg_false, one_mul] at hqs; rw [hqs]; simp
    · rw [hs, sg_true] at hqs; rw [hqs]; simpa using hq0
  refine ⟨b1, by rw [b2, hsz, hk], ?_⟩
  have hap := abs_pos.2 hq0
  have ht : (truncR (f.val x / f.val y) : ℝ) = sg (xor (f.sgn x) (f.sgn y)) * N := by
    have hfq : ⌊|f.val x / f.val y|⌋ = (N : ℤ) := by
      rw [Int.floor_eq_iff]; push_cast; constructor <;> linarith
    generalize f.val x / f.val y = q at *
    unfold truncR
    cases hs : xor (f.sgn x) (f.sgn y)
    · rw [hs, sg_false, one_mul] at hqs
      rw [if_pos (by rw [hqs]; exact abs_nonneg _), show (⌊q⌋ : ℤ) = ⌊|q|⌋ from congrArg _ hqs, hfq, sg_false]; simp
    · rw [hs, sg_true] at hqs
      have hneg : q < 0 := by linarith
      rw [if_neg (by linarith), show q = -|q| by linarith, Int.ceil_neg, hfq, sg_true]; simp
  rw [ht, sg_xor]
  nth_rewrite 1 [hvy]
  have := sg_mul_self (f.sgn y)
  linear_combination (sg (f.sgn x) * N * |f.val y|) * this

theorem fmod_finite (hm : Mode) {x y : ℕ} (hx : f.Finite x) (hy : f.Finite y) (hy0 : f.val y ≠ 0) (hx0 : f.val x ≠ 0) :
    CC.fmod f hm x y = f.hsub hm x (f.hmul hm (CC.trunc f (f.hdiv hm x y)) y) ∧
    CC.remainder f hm x y = f.hsub hm x (f.hmul hm (CC.trunc f (f.hdiv hm x y)) y) := by
  have zx : f.zeroB x = false := by rw [← Bool.not_eq_true, zeroB_iff_val]; exact hx0
  have zy : f.zeroB y = false := by rw [← Bool.not_eq_true, zeroB_iff_val]; exact hy0
  unfold CC.fmod CC.remainder
  simp only [FPBits.isZero_eq, FPBits.isInf_eq, FPBits.isNan_eq, zx, zy, (f.finite_B hx).1, (f.finite_B hx).2, (f.finite_B hy).1,
    (f.finite_B hy).2, Bool.false_and, Bool.or_self, Bool.false_eq_true, if_false, Bool.not_false, and_self]

/-- C20: a dividend smaller than the divisor is returned unchanged (every rounding mode, also zeros). -/
theorem C20_fmod_small (hw : f.Wide) (hm : Mode) {x y : ℕ} (hx : f.Finite x) (hy : f.Finite y) (h : |f.val x| < |f.val y|) :
    CC.fmod f hm x y = x ∧ IsFmod f x y x := by
  have hy0 : f.val y ≠ 0 := by intro h0; rw [h0, abs_zero] at h; exact absurd h (not_lt.2 (abs_nonneg _))
  have hq1 : |f.val x / f.val y| < 1 := by rw [abs_div, div_lt_one (abs_pos.2 hy0)]; exact h
  have htr : truncR (f.val x / f.val y) = 0 := by
    rw [abs_lt] at hq1
    unfold truncR
    split
    · rw [Int.floor_eq_iff]; push_cast; constructor <;> linarith
    · rw [Int.ceil_eq_iff]; push_cast; constructor <;> linarith
  refine ⟨?_, hx, by rw [htr]; push_cast; ring, rfl⟩
  by_cases hx0 : f.val x = 0
  · have zx : f.zeroB x = true := (zeroB_iff_val f x).2 hx0
    have zy : f.zeroB y = false := by rw [← Bool.not_eq_true, zeroB_iff_val]; exact hy0
    unfold CC.fmod
    rw [FPBits.isZero_eq, FPBits.isZero_eq, zx, zy]; rfl
  · rw [(fmod_finite f hm hx hy hy0 hx0).1]
    obtain ⟨p, p1, p2, p3⟩ := quot_lt_one f hw h
    obtain ⟨a1, a2, -⟩ := trunc_quot f hm (N := 0) hx hy hy0 hx0 p1 (f.finite_zero false) p2 (by rw [f.val_zero]; exact abs_nonneg _)
      (by rw [f.val_zero]; simp) (by push_cast; linarith)
    have hm1 := f.hmul_spec hm a1 hy
    rw [a2] at hm1
    have hz : f.val x * 0 = 0 := by ring
    obtain ⟨b1, b2⟩ := RoundsTo.exact f (f.finite_zero false) (by rw [f.val_zero]; simp) hm1
    have hs := f.hsub_spec hm hx b1
    rw [b2] at hs
    simp only [Nat.cast_zero, mul_zero, zero_mul, sub_zero] at hs
    exact RoundsTo.exact_eq f hx hs (fun h => absurd h hx0)

/-- The operands lie on a common grid `2^k · minSub · ℤ` on which the dividend has at most `F` bits. -/
def OnGrid (x y : ℕ) : Prop :=
  ∃ (X Y : ℤ) (k : ℕ), f.val x = X * (2 ^ k * f.minSub) ∧ f.val y = Y * (2 ^ k * f.minSub) ∧ |X| ≤ 2 ^ f.F

theorem grid_core (hw : f.Wide) (hm : Mode) {x y : ℕ} (hx : f.Finite x) (hy : f.Finite y) (hy0 : f.val y ≠ 0) (hx0 : f.val x ≠ 0)
    (hg : OnGrid f x y) : let r := f.hsub hm x (f.hmul hm (CC.trunc f (f.hdiv hm x y)) y)
    f.Finite r ∧ f.val r = f.val x - truncR (f.val x / f.val y) * f.val y := by
  intro r
  obtain ⟨X, Y, k, hX, hY, hle⟩ := hg
  have hms := f.minSub_pos
  have hg0 : (0 : ℝ) < 2 ^ k * f.minSub := by positivity
  set g := (2 : ℝ) ^ k * f.minSub with hgdef
  have hYne : Y ≠ 0 := by rintro rfl; rw [hY] at hy0; simp at hy0
  have hYpos : 0 < Y.natAbs := Int.natAbs_pos.2 hYne
  have hXle : X.natAbs ≤ 2 ^ f.F := by
    rw [Int.abs_eq_natAbs] at hle; exact_mod_cast hle
  have aX : |f.val x| = (X.natAbs : ℝ) * g := by
    rw [hX, abs_mul, abs_of_pos hg0]; congr 1; rw [← Int.cast_abs, Int.abs_eq_natAbs]; simp
  have aY : |f.val y| = (Y.natAbs : ℝ) * g := by
    rw [hY, abs_mul, abs_of_pos hg0]; congr 1; rw [← Int.cast_abs, Int.abs_eq_natAbs]; simp
  have hYR : (0 : ℝ) < Y.natAbs := by exact_mod_cast hYpos
  have hq : |f.val x / f.val y| = (X.natAbs : ℝ) / Y.natAbs := by
    rw [abs_div, aX, aY, mul_div_mul_right _ _ hg0.ne']
  set N := X.natAbs / Y.natAbs with hN
  have hNY : N * Y.natAbs ≤ X.natAbs := Nat.div_mul_le_self _ _
  have hlt : X.natAbs < (N + 1) * Y.natAbs := by
    rw [mul_comm]; exact Nat.lt_mul_div_succ _ hYpos
  have hNle : N ≤ 2 ^ f.F := le_trans (Nat.div_le_self _ _) hXle
  obtain ⟨n, n1, n2, -⟩ := CC.finite_nat f hw hNle false
  rw [sg_false, one_mul] at n2
  have hnq : f.val n ≤ |f.val x / f.val y| := by
    rw [n2, hq, le_div_iff₀ hYR]; exact_mod_cast hNY
  have hpx : ∃ p, f.Finite p ∧ |f.val x / f.val y| ≤ f.val p ∧ f.val p < N + 1 := by
    rcases Nat.eq_zero_or_pos N with h0 | hpos
    · rw [h0, zero_add, one_mul] at hlt
      obtain ⟨p, p1, p2, p3⟩ := quot_lt_one f hw (x := x) (y := y) (by
        rw [aX, aY]; exact mul_lt_mul_of_pos_right (by exact_mod_cast hlt) hg0)
      exact ⟨p, p1, p2, by rw [h0]; push_cast; linarith⟩
    · have e1 := Nat.log2_self_le (n := N) (by omega)
      have e2 := Nat.lt_log2_self (n := N)
      have he : N.log2 ≤ f.F := by
        by_contra hcon
        have := Nat.pow_lt_pow_right (a := 2) (by decide) (show f.F < N.log2 by omega)
        omega
      obtain ⟨p, p1, p2⟩ := pred_nat f hw he e2
      refine ⟨p, p1, ?_, by rw [p2]; have : (0 : ℝ) < 2 ^ N.log2 / 2 ^ f.F := by positivity
                            linarith⟩
      rw [p2, hq, div_le_iff₀ hYR]
      have h3 : (X.natAbs : ℝ) + 1 ≤ (N + 1) * Y.natAbs := by exact_mod_cast hlt
      have h4 : (2 : ℝ) ^ N.log2 / 2 ^ f.F * Y.natAbs ≤ 1 := by
        rw [div_mul_eq_mul_div, div_le_one (by positivity)]
        have : 2 ^ N.log2 * Y.natAbs ≤ 2 ^ f.F := le_trans (Nat.mul_le_mul_right _ e1) (le_trans hNY hXle)
        exact_mod_cast this
      linarith
  obtain ⟨p, p1, p2, p3⟩ := hpx
  obtain ⟨a1, a2, a3⟩ := trunc_quot f hm hx hy hy0 hx0 p1 n1 p2 hnq n2 p3
  -- the product is exact
  have hprod : f.val (CC.trunc f (f.hdiv hm x y)) * f.val y = sg (f.sgn x) * (N * |f.val y|) := by
    rw [a2, sg_xor]
    nth_rewrite 1 [CC.val_eq_sg_abs f y]
    have := sg_mul_self (f.sgn y)
    linear_combination (sg (f.sgn x) * N * |f.val y|) * this
  obtain ⟨c, c1, c2, -⟩ := f.exists_exact (f.sgn x) (a := N * Y.natAbs) (k := k) (by rw [pow_succ]; omega) (by
    have h1 : N * Y.natAbs * 2 ^ k ≤ X.natAbs * 2 ^ k := Nat.mul_le_mul_right _ hNY
    have h2 := f.abs_val x
    rw [aX, hgdef, ← mul_assoc] at h2
    have h3 : ((X.natAbs * 2 ^ k : ℕ) : ℝ) = f.umag (f.mag x) := by push_cast; exact mul_right_cancel₀ hms.ne' h2
    rw [Nat.cast_inj] at h3
    rw [h3] at h1
    exact lt_of_le_of_lt h1 (f.umag_lt_inf hx))
  have c3 : f.val c = f.val (CC.trunc f (f.hdiv hm x y)) * f.val y := by
    rw [hprod, c2, aY, hgdef]; push_cast; ring
  obtain ⟨m1, m2⟩ := RoundsTo.exact f c1 c3 (f.hmul_spec hm a1 hy)
  have hsub := f.hsub_spec hm hx m1
  rw [m2, hprod] at hsub
  rw [a3]
  have hxs := CC.val_eq_sg_abs f x
  have hdiff : f.val x - sg (f.sgn x) * (N * |f.val y|) = sg (f.sgn x) * (|f.val x| - N * |f.val y|) := by
    nth_rewrite 1 [hxs]; ring
  have hd0 : 0 ≤ |f.val x| - N * |f.val y| := by
    rw [aX, aY]
    have : ((N * Y.natAbs : ℕ) : ℝ) ≤ X.natAbs := by exact_mod_cast hNY
    push_cast at this
    nlinarith
  have hd1 : |f.val x| - N * |f.val y| ≤ |f.val y| := by
    rw [aX, aY]
    have : (X.natAbs : ℝ) ≤ ((N + 1) * Y.natAbs : ℕ) := by exact_mod_cast hlt.le
    push_cast at this
    nlinarith
  have hd2 : |f.val x| - N * |f.val y| ≤ |f.val x| := by
    have : 0 ≤ (N : ℝ) * |f.val y| := by positivity
    linarith
  have hbz : ∃ bz : ℤ, f.val x - sg (f.sgn x) * (N * |f.val y|) = (1 : ℤ) * f.val x + bz * f.val y := by
    refine ⟨if f.sgn x = f.sgn y then -N else N, ?_⟩
    nth_rewrite 2 [CC.val_eq_sg_abs f y]
    cases f.sgn x <;> cases f.sgn y <;> simp [sg] <;> ring
  obtain ⟨bz, hbz⟩ := hbz
  obtain ⟨e, e1, e2⟩ := exact_comb f hx hy 1 bz (by rw [← hbz, hdiff, abs_mul, abs_sg, one_mul, abs_of_nonneg hd0]; exact hd2)
    (by rw [← hbz, hdiff, abs_mul, abs_sg, one_mul, abs_of_nonneg hd0]; exact hd1)
  exact RoundsTo.exact f e1 (by rw [e2, hbz]) hsub

/-- C20 (partial): `fmod` is exact in every rounding mode when the operands lie on a common grid on which the dividend has at most
`F` bits (for `double`: e.g. all integers up to `2^52`).  Missing: operands further apart, where the code is wrong
(`C20_fmod_wrong`), and the sign of a zero result (`C20_fmod_zero_sign_wrong`). -/
theorem C20_fmod_partial (hw : f.Wide) (hm : Mode) {x y : ℕ} (hx : f.Finite x) (hy : f.Finite y) (hy0 : f.val y ≠ 0) (hg : OnGrid f x y) :
    f.Finite (CC.fmod f hm x y) ∧ f.val (CC.fmod f hm x y) = f.val x - truncR (f.val x / f.val y) * f.val y := by
  by_cases hx0 : f.val x = 0
  · have := C20_fmod_small f hw hm hx hy (by rw [hx0, abs_zero]; exact abs_pos.2 hy0)
    rw [this.1]; exact ⟨this.2.1, this.2.2.1⟩
  · rw [(fmod_finite f hm hx hy hy0 hx0).1]
    exact grid_core f hw hm hx hy hy0 hx0 hg

/-- C20, special operands: NaN operands (except `fmod(±0, NaN)`, see `C20_fmod_zero_nan_wrong`), an infinite dividend or a zero divisor give NaN; an infinite divisor gives the dividend. -/
theorem C20_fmod_special (hm : Mode) {x y : ℕ} :
    (f.IsNaN x ∨ (f.IsNaN y ∧ f.val x ≠ 0) ∨ f.IsInf x ∨ (f.val y = 0 ∧ f.Finite y) → f.IsNaN (CC.fmod f hm x y)) ∧
    (f.Finite x → f.IsInf y → CC.fmod f hm x y = x) := by
  have hneg : f.IsNaN (f.hneg f.qnan) := by
    have := (f.isNaN_iff _).1 f.isNaN_qnan
    exact (f.isNaN_iff _).2 ⟨f.valid_hneg _, by rw [f.mag_hneg]; exact this.2⟩
  have hI := f.infMag_pos
  have hP := f.two_pow_F_pos
  rw [pow_succ] at hI
  rw [f.isNaN_iff, f.isNaN_iff y, f.isInf_iff, ne_eq, f.val_eq_zero_iff, f.val_eq_zero_iff, f.finite_iff, f.isInf_iff, f.finite_iff]
  unfold CC.fmod
  simp only [FPBits.isZero_eq, FPBits.isInf_eq, FPBits.isNan_eq, FPBits.isFinite_eq, nanB, infB, zeroB, Bool.and_eq_true, Bool.or_eq_true,
    Bool.not_eq_true', decide_eq_true_eq, decide_eq_false_iff_not]
  constructor
  · intro h
    rw [if_neg (by omega)]
    split_ifs
    · exact hneg
    · omega
    · exact f.isNaN_qnan
    · omega
  · intro h1 h2
    rw [ite_eq_left_iff]
    intro h3
    rw [if_neg (by omega), if_pos (by omega)]

/-- C20: a NaN divisor is ignored when the dividend is zero: `fmod(0, NaN) = 0`. -/
theorem C20_fmod_zero_nan_wrong (hm : Mode) : CC.fmod binary64 hm 0 binary64.qnan = 0 := by cases hm <;> decide +kernel

/-- C20 does not hold in general: the rounded quotient `(3+2^-51)/(1+2^-52)` is `3`, and the result is negative. -/
theorem C20_fmod_wrong : ∃ x y, binary64.Finite x ∧ binary64.Finite y ∧ binary64.val y ≠ 0 ∧ ¬ IsFmod binary64 x y (CC.fmod binary64 .nearest x y) := by
  refine ⟨0x4008000000000001, 0x3FF0000000000001, by decide, by decide, ?_, fun h => ?_⟩
  · rw [ne_eq, val_eq_zero_iff]; decide
  · have := h.2.2
    revert this
    decide +kernel

/-- C20: the sign of a zero result is wrong for negative dividends, `fmod(-6, 3) = +0`. -/
theorem C20_fmod_zero_sign_wrong : CC.fmod binary64 .nearest 0xC018000000000000 0x4008000000000000 = binary64.zero false ∧
    ¬ IsFmod binary64 0xC018000000000000 0x4008000000000000 (CC.fmod binary64 .nearest 0xC018000000000000 0x4008000000000000) := by
  refine ⟨by decide +kernel, fun h => ?_⟩
  have := h.2.2
  revert this
  decide +kernel

-- `fmod(7, 3) = 1` and `fmod(-7, 3) = -1`; both operands are on the integer grid
example : CC.fmod binary64 .nearest 0x401C000000000000 0x4008000000000000 = 0x3FF0000000000000 ∧
    CC.fmod binary64 .down 0xC01C000000000000 0x4008000000000000 = 0xBFF0000000000000 := by decide +kernel
example : OnGrid binary64 0x401C000000000000 0x4008000000000000 := by
  refine ⟨7, 3, 1074, ?_, ?_, by decide⟩
  · rw [binary64.val_eq_ival, show binary64.ival 0x401C000000000000 = 7 * 2 ^ 1074 by decide +kernel]; push_cast; ring
  · rw [binary64.val_eq_ival, show binary64.ival 0x4008000000000000 = 3 * 2 ^ 1074 by decide +kernel]; push_cast; ring

/-- C21 (partial): on a common grid `remainder` computes `x - trunc(x/y)*y`; this is the IEEE remainder exactly when the truncated
quotient is also the nearest integer, i.e. when the result is less than half of `|y|`.  Missing: all other operands
(`C21_remainder_wrong`), an infinite divisor (`C21_remainder_inf_wrong`), and the sign of a zero result. -/
theorem C21_remainder_partial (hw : f.Wide) (hm : Mode) {x y : ℕ} (hx : f.Finite x) (hy : f.Finite y) (hy0 : f.val y ≠ 0) (hx0 : f.val x ≠ 0)
    (hg : OnGrid f x y) :
    f.Finite (CC.remainder f hm x y) ∧ f.val (CC.remainder f hm x y) = f.val x - truncR (f.val x / f.val y) * f.val y ∧
    (|f.val (CC.remainder f hm x y)| < |f.val y| / 2 → f.val (CC.remainder f hm x y) ≠ 0 →
      IsRemainder f x y (CC.remainder f hm x y) (truncR (f.val x / f.val y))) := by
  rw [(fmod_finite f hm hx hy hy0 hx0).2]
  obtain ⟨h1, h2⟩ := grid_core f hw hm hx hy hy0 hx0 hg
  refine ⟨h1, h2, fun h h0 => ⟨?_, h1, h2, fun h => absurd h h0⟩⟩
  have hd : |(truncR (f.val x / f.val y) : ℝ) - f.val x / f.val y| < 1 / 2 := by
    rw [abs_sub_comm]
    have e : f.val x / f.val y - (truncR (f.val x / f.val y) : ℝ) = (f.val x - truncR (f.val x / f.val y) * f.val y) / f.val y := by
      field_simp
    rw [e, ← h2, abs_div, div_lt_iff₀ (abs_pos.2 hy0)]; linarith
  exact ⟨hd.le, fun h => absurd h hd.ne⟩

/-- C21: the special operands that give NaN. -/
theorem C21_remainder_special (hm : Mode) {x y : ℕ} (h : f.IsNaN x ∨ f.IsNaN y ∨ f.IsInf x ∨ (f.val y = 0 ∧ f.Finite y)) : f.IsNaN (CC.remainder f hm x y) := by
  have hneg : f.IsNaN (f.hneg f.qnan) := by
    have := (f.isNaN_iff _).1 f.isNaN_qnan
    exact (f.isNaN_iff _).2 ⟨f.valid_hneg _, by rw [f.mag_hneg]; exact this.2⟩
  have hI := f.infMag_pos
  have hP := f.two_pow_F_pos
  rw [pow_succ] at hI
  rw [f.isNaN_iff, f.isNaN_iff y, f.isInf_iff, f.val_eq_zero_iff, f.finite_iff] at h
  unfold CC.remainder
  simp only [FPBits.isZero_eq, FPBits.isInf_eq, FPBits.isNan_eq, nanB, infB, zeroB, Bool.and_eq_true, Bool.or_eq_true,
    Bool.not_eq_true', decide_eq_true_eq, decide_eq_false_iff_not]
  rw [if_pos (by omega)]
  exact hneg

/-- C21 is violated: `remainder(5, 3) = 2`; the IEEE remainder is `-1`. -/
theorem C21_remainder_wrong : CC.remainder binary64 .nearest 0x4014000000000000 0x4008000000000000 = 0x4000000000000000 ∧
    ¬ ∃ n, IsRemainder binary64 0x4014000000000000 0x4008000000000000 0x4000000000000000 n := by
  refine ⟨by decide +kernel, ?_⟩
  rintro ⟨n, h1, -, h3, -⟩
  have e5 : binary64.val 0x4014000000000000 = 5 * (2 ^ 1074 * binary64.minSub) := by
    rw [binary64.val_eq_ival, show binary64.ival 0x4014000000000000 = 5 * 2 ^ 1074 by decide +kernel]; push_cast; ring
  have e3 : binary64.val 0x4008000000000000 = 3 * (2 ^ 1074 * binary64.minSub) := by
    rw [binary64.val_eq_ival, show binary64.ival 0x4008000000000000 = 3 * 2 ^ 1074 by decide +kernel]; push_cast; ring
  have e2 : binary64.val 0x4000000000000000 = 2 * (2 ^ 1074 * binary64.minSub) := by
    rw [binary64.val_eq_ival, show binary64.ival 0x4000000000000000 = 2 * 2 ^ 1074 by decide +kernel]; push_cast; ring
  have hg : (0 : ℝ) < 2 ^ 1074 * binary64.minSub := mul_pos (by positivity) binary64.minSub_pos
  rw [e5, e3] at h1
  rw [e5, e3, e2] at h3
  generalize (2 : ℝ) ^ 1074 * binary64.minSub = g at *
  rw [mul_div_mul_right _ _ hg.ne'] at h1
  have h2 : (n : ℝ) = 1 := by
    have : ((n : ℝ) - 1) * (3 * g) = 0 := by linarith
    rcases mul_eq_zero.1 this with h | h <;> linarith
  have := h1.1
  rw [h2, abs_le] at this
  linarith [this.1]

/-- C21 is violated for an infinite divisor: `remainder(1, +∞)` is NaN although IEEE 754 requires `1`. -/
theorem C21_remainder_inf_wrong : binary64.IsNaN (CC.remainder binary64 .nearest 0x3FF0000000000000 (binary64.inf false)) := by decide +kernel

-- `remainder(7, 3) = 1`
example : CC.remainder binary64 .nearest 0x401C000000000000 0x4008000000000000 = 0x3FF0000000000000 := by decide +kernel

theorem truncR_signed {a b : ℝ} (s t : Bool) (ha : 0 ≤ a) (hb : 0 < b) :
    (truncR (sg s * a / (sg t * b)) : ℝ) = sg s * sg t * ⌊a / b⌋₊ := by
  have hnn : 0 ≤ a / b := by positivity
  have hfl : (⌊a / b⌋₊ : ℝ) = (⌊a / b⌋ : ℤ) := natCast_floor_eq_intCast_floor hnn
  have hceil : ∀ t : ℝ, 0 ≤ t → truncR (-t) = -⌊t⌋ := by
    intro t ht
    unfold truncR
    split
    · have : t = 0 := by linarith
      subst this; simp
    · rw [Int.ceil_neg]
  have hpos : truncR (a / b) = ⌊a / b⌋ := by unfold truncR; rw [if_pos hnn]
  rw [hfl]
  cases s <;> cases t <;> simp only [sg_true, sg_false, one_mul, mul_one, neg_mul, neg_neg, mul_neg, neg_div, div_neg, hceil _ hnn, hpos] <;>
    push_cast <;> rfl

/-- C22 (core).  Given that the called `fmod` delivers `x - trunc(x/8y)*8y` exactly, `remquo` returns the IEEE remainder of `x` and `y`
in every rounding mode; the quotient has the sign of `x/y` and agrees with the rounded quotient modulo 8. -/
theorem remquo_spec (hb : 3 ≤ f.bias) (fm : ℕ → ℕ → ℕ) {c8 c4 c2 cs : ℕ} (h8 : c8 + 1 = (2 * f.bias - 3 + 1) * 2 ^ f.F)
    (h4 : c4 + 1 = (2 * f.bias - 2 + 1) * 2 ^ f.F) (h2 : c2 + 1 = (2 * f.bias - 1 + 1) * 2 ^ f.F) (hcs : cs = 2 * 2 ^ f.F) (hm : Mode)
    {x y : ℕ} (hx : f.Finite x) (hy : f.Finite y) (hy0 : f.val y ≠ 0)
    (hfm : ∀ y', f.Finite y' → f.val y' = 8 * f.val y → f.Finite (fm x y') ∧ f.val (fm x y') = f.val x - truncR (f.val x / f.val y') * f.val y') :
    ∃ r q n, CC.remquo f fm c8 c4 c2 cs hm x y = (r, some q) ∧ IsRemainder f x y r n ∧ (q.natAbs : ℤ) ≡ n.natAbs [ZMOD 8] ∧
      (q ≠ 0 → (q < 0 ↔ f.val x / f.val y < 0)) ∧ q.natAbs ≤ 8 := by
  have hxm := ((f.finite_iff x).1 hx).2
  have hym := ((f.finite_iff y).1 hy).2
  have hy0m : f.mag y ≠ 0 := fun h => hy0 ((f.val_eq_zero_iff y).2 h)
  unfold CC.remquo
  simp only []
  rw [if_neg hy0m, if_neg (by omega)]
  -- the first reduction
  set x1 := if f.mag y ≤ c8 then fm x (f.hmul hm (CC.twoPowLit f 3) y) else x with hx1
  have hvy : 0 < |f.val y| := abs_pos.2 hy0
  have s1 : ∃ N : ℕ, f.Finite x1 ∧ f.val x1 = sg (f.sgn x) * (|f.val x| - 8 * N * |f.val y|) ∧ 0 ≤ |f.val x| - 8 * N * |f.val y| ∧
      |f.val x| - 8 * N * |f.val y| < 8 * |f.val y| := by
    by_cases hc : f.mag y ≤ c8
    · rw [if_pos hc] at hx1
      have hlt := val_lt_of_mag f (y := y) (k := 2 * f.bias - 3) (by omega)
      obtain ⟨p1, p2, p3⟩ := hmul_pow2 f hm (j := 3) (by omega) hy (by
        rw [abs_mul, abs_of_pos (show (0 : ℝ) < 2 ^ 3 by norm_num)]
        calc |f.val y| * 2 ^ 3 < (2 : ℝ) ^ (((2 * f.bias - 3 : ℕ) : ℤ) + 1 - f.bias) * 2 ^ 3 := mul_lt_mul_of_pos_right hlt (by positivity)
          _ = _ := by rw [← zpow_natCast, ← zpow_add₀ (by norm_num)]; congr 1; omega)
      have p2' : f.val (f.hmul hm (CC.twoPowLit f 3) y) = 8 * f.val y := by rw [p2]; norm_num
      obtain ⟨q1, q2⟩ := hfm _ p1 p2'
      rw [p2'] at q2
      refine ⟨⌊|f.val x| / (8 * |f.val y|)⌋₊, hx1 ▸ q1, ?_, ?_, ?_⟩
      · rw [hx1, q2]
        have hvx := CC.val_eq_sg_abs f x
        have hvy' := CC.val_eq_sg_abs f y
        have ht := truncR_signed (a := |f.val x|) (b := 8 * |f.val y|) (f.sgn x) (f.sgn y) (abs_nonneg _) (by positivity)
        rw [← hvx, show sg (f.sgn y) * (8 * |f.val y|) = 8 * f.val y by nth_rewrite 2 [hvy']; ring] at ht
        rw [ht]
        have := sg_mul_self (f.sgn y)
        generalize (⌊|f.val x| / (8 * |f.val y|)⌋₊ : ℝ) = K
        linear_combination hvx - (8 * sg (f.sgn x) * sg (f.sgn y) * K) * hvy' - (8 * sg (f.sgn x) * K * |f.val y|) * this
      · have := Nat.floor_le (show 0 ≤ |f.val x| / (8 * |f.val y|) by positivity)
        rw [le_div_iff₀ (by positivity)] at this
        linarith
      · have := Nat.lt_floor_add_one (|f.val x| / (8 * |f.val y|))
        rw [div_lt_iff₀ (by positivity)] at this
        linarith
    · rw [if_neg hc] at hx1
      refine ⟨0, hx1 ▸ hx, ?_, by simp, ?_⟩
      · rw [hx1]; simp; exact CC.val_eq_sg_abs f x
      · have hge := val_ge_of_mag f (y := y) (k := 2 * f.bias - 3) (by omega)
        have hl := f.abs_val_lt_huge hx
        have e : (2 : ℝ) ^ ((f.bias : ℤ) + 1) = 8 * (2 : ℝ) ^ (((2 * f.bias - 3 : ℕ) : ℤ) + 1 - f.bias) := by
          rw [show (8 : ℝ) = (2 : ℝ) ^ (3 : ℤ) by norm_num, ← zpow_add₀ (by norm_num)]; congr 1; omega
        rw [e] at hl
        push_cast
        linarith
  obtain ⟨N, a1, a2, a3, a4⟩ := s1
  clear_value x1
  have hvx := CC.val_eq_sg_abs f x
  have hvy' := CC.val_eq_sg_abs f y
  have hqq : f.val x / f.val y = sg (f.sgn x) * sg (f.sgn y) * (|f.val x| / |f.val y|) := by
    nth_rewrite 1 [hvx]
    nth_rewrite 1 [hvy']
    have := sg_mul_self (f.sgn y)
    have h' := sg_ne_zero (f.sgn y)
    have h'' : |f.val y| ≠ 0 := abs_ne_zero.2 hy0
    rw [div_eq_iff (mul_ne_zero h' h''), show sg (f.sgn x) * sg (f.sgn y) * (|f.val x| / |f.val y|) * (sg (f.sgn y) * |f.val y|) =
      sg (f.sgn x) * (sg (f.sgn y) * sg (f.sgn y)) * (|f.val x| / |f.val y| * |f.val y|) by ring, this, div_mul_cancel₀ _ h'']
    ring
  -- an unsigned remainder gives the signed one
  have fin : ∀ (r : ℕ) (k : ℕ) (c : ℤ), 0 ≤ c → c ≤ 8 → (c ≡ k [ZMOD 8]) → IsRoundHalfEven (|f.val x| / |f.val y|) k → f.Finite r →
      f.val r = sg (f.sgn x) * (|f.val x| - k * |f.val y|) → (f.val r = 0 → f.sgn r = f.sgn x) → (0 < c → f.val x ≠ 0) →
      ∃ r' q n, (r, some (if xor (f.sgn x) (f.sgn y) then -c else c)) = (r', some q) ∧ IsRemainder f x y r' n ∧
        (q.natAbs : ℤ) ≡ n.natAbs [ZMOD 8] ∧ (q ≠ 0 → (q < 0 ↔ f.val x / f.val y < 0)) ∧ q.natAbs ≤ 8 := by
    intro r k c hc0 hc8 hmod hev hfin hval hsg hxne
    refine ⟨r, _, if xor (f.sgn x) (f.sgn y) then -(k : ℤ) else k, rfl, ⟨?_, hfin, ?_, hsg⟩, ?_, ?_, ?_⟩
    · rw [hqq, ← sg_xor]
      obtain ⟨e1, e2⟩ := hev
      cases xor (f.sgn x) (f.sgn y)
      · rw [sg_false, one_mul]; exact ⟨e1, e2⟩
      · rw [sg_true]
        have e : |(((if true = true then -(k : ℤ) else k) : ℤ) : ℝ) - -1 * (|f.val x| / |f.val y|)| = |((k : ℤ) : ℝ) - (|f.val x| / |f.val y|)| := by
          rw [if_pos rfl, ← abs_neg]; congr 1; push_cast; ring
        refine ⟨e ▸ e1, fun h => ?_⟩
        rw [e] at h
        simpa using e2 h
    · rw [hval]
      have hk : (((if xor (f.sgn x) (f.sgn y) then -(k : ℤ) else k) : ℤ) : ℝ) = sg (f.sgn x) * sg (f.sgn y) * k := by
        rw [← sg_xor]; cases xor (f.sgn x) (f.sgn y) <;> simp [sg]
      rw [hk]
      have := sg_mul_self (f.sgn y)
      linear_combination -hvx + (sg (f.sgn x) * sg (f.sgn y) * k) * hvy' + (sg (f.sgn x) * k * |f.val y|) * this
    · have e1 : (((if xor (f.sgn x) (f.sgn y) then -c else c) : ℤ).natAbs : ℤ) = c := by
        split <;> omega
      have e2 : (((if xor (f.sgn x) (f.sgn y) then -(k : ℤ) else k) : ℤ).natAbs : ℤ) = k := by
        split <;> omega
      rw [e1, e2]; exact hmod
    · intro hq
      have hc : 0 < c := by
        rcases hc0.lt_or_eq with h | h
        · exact h
        · subst h; simp at hq
      have hxa : 0 < |f.val x| := abs_pos.2 (hxne hc)
      have hpos : 0 < |f.val x| / |f.val y| := by positivity
      rw [hqq, ← sg_xor]
      cases xor (f.sgn x) (f.sgn y)
      · rw [sg_false, one_mul]
        simp only [Bool.false_eq_true, if_false]
        constructor
        · intro h; omega
        · intro h; linarith
      · rw [sg_true]
        simp only [if_true]
        constructor
        · intro _; linarith
        · intro _; omega
    · split <;> omega
  by_cases heq : f.mag x = f.mag y
  · rw [if_pos heq]
    have hab : |f.val x| = |f.val y| := by rw [f.abs_val, f.abs_val, heq]
    have hN : N = 0 := by
      rcases Nat.eq_zero_or_pos N with h | h
      · exact h
      · exfalso
        have : (1 : ℝ) ≤ N := by exact_mod_cast h
        rw [hab] at a3
        nlinarith
    rw [hN, hab] at a2
    have hv1 : f.val x1 = f.val x := by rw [a2, hvx, hab]; push_cast; ring
    have hx0 : f.val x ≠ 0 := by rw [← abs_pos, hab]; exact hvy
    have hs1 : f.sgn x1 = f.sgn x := by
      rcases lt_or_gt_of_ne hx0 with h | h
      · rw [sgn_of_neg f h, sgn_of_neg f (hv1 ▸ h)]
      · rw [sgn_of_pos f h, sgn_of_pos f (hv1 ▸ h)]
    have hr := f.hmul_spec hm (f.finite_zero false) a1
    rw [f.val_zero, zero_mul, f.sgn_zero, Bool.false_xor, hs1] at hr
    obtain ⟨b1, b2⟩ := RoundsTo.exact f (f.finite_zero false) (f.val_zero false) hr
    refine fin _ 1 1 (by norm_num) (by norm_num) rfl ?_ b1 ?_ ?_ (fun _ => hx0)
    · rw [hab, div_self hvy.ne']; refine ⟨by norm_num, fun h => absurd h (by norm_num)⟩
    · rw [b2, hab]; push_cast; ring
    · intro _; rw [hr.sign, if_pos rfl]
  · rw [if_neg heq]
    -- the three steps on magnitudes
    have yf : f.Finite (f.mag y) := (f.finite_iff _).2 ⟨CC.valid_mag f y, by rw [CC.mag_mag]; exact hym⟩
    have yv : f.val (f.mag y) = |f.val y| := CC.val_mag f y
    have ab : CC.abs f x1 = f.mag x1 := by rw [CC.abs_eq f a1.valid, (f.finite_B a1).1]; rfl
    have xf : f.Finite (CC.abs f x1) := by
      rw [ab]; exact (f.finite_iff _).2 ⟨CC.valid_mag f _, by rw [CC.mag_mag]; exact ((f.finite_iff _).1 a1).2⟩
    have xv : f.val (CC.abs f x1) = |f.val x| - 8 * N * |f.val y| := by
      rw [ab, CC.val_mag, a2, abs_mul, abs_sg, one_mul, abs_of_nonneg a3]
    obtain ⟨u, b1, b2, b3, b4, b5, b6, b7⟩ := CC.remquoRed_spec f hm (j := 2) (st := (CC.abs f x1, 0)) (by omega) h4 yf (by rw [yv]; exact hvy) xf
      (by simp only; rw [xv]; exact a3) (by simp only; rw [xv, yv]; norm_num; exact a4)
    obtain ⟨w, d1, d2, d3, d4, d5, d6, d7⟩ := CC.remquoRed_spec f hm (j := 1) (by omega) h2 yf (by rw [yv]; exact hvy) b1 b4 (by norm_num at b5 ⊢; exact b5)
    obtain ⟨a, e1, e2, e3, e4, e5, e6⟩ := CC.remquoLast_spec f hm hb hcs yf (by rw [yv]; exact hvy) d1 d4 (by norm_num at d5; exact d5)
    simp only at b2 b3 d2 d3 e2 e3
    generalize CC.remquoRed f hm c4 2 (f.mag y) (CC.abs f x1, 0) = st2 at *
    generalize CC.remquoRed f hm c2 1 (f.mag y) st2 = st1 at *
    generalize CC.remquoLast f hm cs (f.mag y) st1 = st at *
    rw [yv] at b2 d2 e2 e4
    obtain ⟨k, hk⟩ : ∃ k : ℕ, (k : ℤ) = 8 * N + 4 * u + 2 * w + a := ⟨(8 * N + 4 * u + 2 * w + a).toNat, by omega⟩
    have hkR : (k : ℝ) = 8 * N + 4 * u + 2 * w + a := by exact_mod_cast hk
    have hq3 : st.2 = 4 * u + 2 * w + a := by rw [e3, d3, b3]; ring
    have hst : f.val st.1 = |f.val x| - k * |f.val y| := by rw [e2, d2, b2, xv, hkR]; ring
    have hv1 : f.val st1.1 = |f.val x| - (8 * N + 4 * u + 2 * w) * |f.val y| := by rw [d2, b2, xv]; ring
    set res := (if f.sgn x = true then f.hneg (if f.heq st.1 (f.zero false) = true then f.zero false else st.1)
      else if f.heq st.1 (f.zero false) = true then f.zero false else st.1) with hres
    have hr : f.Finite res ∧ f.val res = sg (f.sgn x) * f.val st.1 ∧ (f.val res = 0 → f.sgn res = f.sgn x) := by
      have h0 : f.heq st.1 (f.zero false) = true ↔ f.val st.1 = 0 := by
        rw [CC.heq_finite f e1 (f.finite_zero false), f.val_zero]
      by_cases hz : f.val st.1 = 0
      · rw [if_pos (h0.2 hz)] at hres
        rw [hz, mul_zero]
        cases hs : f.sgn x
        · rw [hs] at hres
          simp only [Bool.false_eq_true, if_false] at hres
          rw [hres]; exact ⟨f.finite_zero _, f.val_zero _, fun _ => f.sgn_zero _⟩
        · rw [hs] at hres
          simp only [if_true] at hres
          rw [hres]
          exact ⟨f.finite_hneg (f.finite_zero _), by rw [f.val_hneg, f.val_zero]; simp, fun _ => by rw [f.sgn_hneg, f.sgn_zero]; rfl⟩
      · rw [if_neg (fun h => hz (h0.1 h))] at hres
        cases hs : f.sgn x
        · rw [hs] at hres
          simp only [Bool.false_eq_true, if_false] at hres
          rw [hres, sg_false, one_mul]; exact ⟨e1, rfl, fun h => absurd h hz⟩
        · rw [hs] at hres
          simp only [if_true] at hres
          rw [hres, sg_true, f.val_hneg]
          exact ⟨f.finite_hneg e1, by ring, fun h => absurd (neg_eq_zero.1 h) hz⟩
    obtain ⟨r1, r2, r3⟩ := hr
    refine fin res k st.2 (by omega) (by omega) ?_ ?_ r1 (by rw [r2, hst]) r3 ?_
    · rw [hq3, hk]
      refine (Int.modEq_iff_dvd.2 ⟨(N : ℤ), by ring⟩)
    · have hsh : |f.val x| / |f.val y| = f.val st1.1 / |f.val y| + (8 * N + 4 * u + 2 * w) := by
        rw [hv1]; field_simp; ring
      have hd : (((k : ℤ) : ℝ)) - |f.val x| / |f.val y| = (a : ℝ) - f.val st1.1 / |f.val y| := by
        rw [hsh]; push_cast; rw [hkR]; ring
      obtain ⟨g1, g2⟩ := e4
      refine ⟨by rw [hd]; exact g1, fun h => ?_⟩
      rw [hd] at h
      obtain ⟨z, hz⟩ := g2 h
      exact ⟨4 * N + 2 * u + w + z, by rw [hk, hz]; ring⟩
    · intro hpos hx0
      rw [hx0, abs_zero] at a3 xv hv1
      have hN0 : (0 : ℝ) ≤ N := Nat.cast_nonneg _
      have hu0 : (0 : ℝ) ≤ u := by exact_mod_cast b6
      have hw0 : (0 : ℝ) ≤ w := by exact_mod_cast d6
      have z1 : (8 * N + 4 * u + 2 * w : ℝ) * |f.val y| ≤ 0 := by rw [hv1] at d4; linarith
      have z2 : (8 * N + 4 * u + 2 * w : ℝ) ≤ 0 := by
        by_contra hcon
        push Not at hcon
        have := mul_pos hcon hvy
        linarith
      have hu : u = 0 := by
        have : (u : ℝ) = 0 := by linarith
        exact_mod_cast this
      have hw' : w = 0 := by
        have : (w : ℝ) = 0 := by linarith
        exact_mod_cast this
      have hN' : (N : ℝ) = 0 := by linarith
      have hv0 : f.val st1.1 = 0 := by rw [hv1, hN', hu, hw']; push_cast; ring
      have ha := e4.1
      rw [hv0, zero_div, sub_zero, abs_le] at ha
      have ha1 : (1 : ℝ) ≤ a := by
        have : 1 ≤ a := by omega
        exact_mod_cast this
      linarith [ha.2]

/-- What C22 demands of a result `(r, *quo)`. -/
def IsRemquo (x y : ℕ) (res : ℕ × Option ℤ) : Prop :=
  ∃ r q n, res = (r, some q) ∧ IsRemainder f x y r n ∧ (q.natAbs : ℤ) ≡ n.natAbs [ZMOD 8] ∧
    (q ≠ 0 → (q < 0 ↔ f.val x / f.val y < 0)) ∧ q.natAbs ≤ 8

/-- C22 (partial).  If the `fmod` it calls is exact (as the run-time builtin is required to be by ISO C), `remquo` returns the IEEE
remainder and three correct quotient bits, for all finite operands and rounding modes, in both precisions.  Missing: constant
evaluation uses ccmath's own `fmod`, which is not always exact (`C22_remquo_constexpr_wrong`). -/
theorem C22_remquo_partial (fm fm' : ℕ → ℕ → ℕ)
    (hfm : ∀ x y, binary64.Finite x → binary64.Finite y → binary64.val y ≠ 0 → IsFmod binary64 x y (fm x y))
    (hfm' : ∀ x y, binary32.Finite x → binary32.Finite y → binary32.val y ≠ 0 → IsFmod binary32 x y (fm' x y)) (hm : Mode) :
    (∀ x y, binary64.Finite x → binary64.Finite y → binary64.val y ≠ 0 → IsRemquo binary64 x y (CC.remquoDouble fm hm x y)) ∧
    (∀ x y, binary32.Finite x → binary32.Finite y → binary32.val y ≠ 0 → IsRemquo binary32 x y (CC.remquoFloat fm' hm x y)) := by
  constructor
  · intro x y hx hy hy0
    refine remquo_spec binary64 (by decide) fm (by decide) (by decide) (by decide) (by decide) hm hx hy hy0 ?_
    intro y' h1 h2
    have := hfm x y' hx h1 (by rw [h2]; exact mul_ne_zero (by norm_num) hy0)
    exact ⟨this.1, this.2.1⟩
  · intro x y hx hy hy0
    refine remquo_spec binary32 (by decide) fm' (by decide) (by decide) (by decide) (by decide) hm hx hy hy0 ?_
    intro y' h1 h2
    have := hfm' x y' hx h1 (by rw [h2]; exact mul_ne_zero (by norm_num) hy0)
    exact ⟨this.1, this.2.1⟩

theorem OnGrid.eight {f : Fmt} {x y y' : ℕ} (h : OnGrid f x y) (h8 : f.val y' = 8 * f.val y) : OnGrid f x y' := by
  obtain ⟨X, Y, k, h1, h2, h3⟩ := h
  exact ⟨X, 8 * Y, k, h1, by rw [h8, h2]; push_cast; ring, h3⟩

/-- C22 (partial), constant evaluation: with ccmath's own `fmod`, `remquo` is right for all operands on a common grid on which the
dividend has at most `F` bits. -/
theorem C22_remquo_constexpr_partial (hm : Mode) :
    (∀ x y, binary64.Finite x → binary64.Finite y → binary64.val y ≠ 0 → OnGrid binary64 x y →
      IsRemquo binary64 x y (CC.remquoDouble (CC.fmod binary64 hm) hm x y)) ∧
    (∀ x y, binary32.Finite x → binary32.Finite y → binary32.val y ≠ 0 → OnGrid binary32 x y →
      IsRemquo binary32 x y (CC.remquoFloat (CC.fmod binary32 hm) hm x y)) := by
  constructor
  · intro x y hx hy hy0 hg
    refine remquo_spec binary64 (by decide) _ (by decide) (by decide) (by decide) (by decide) hm hx hy hy0 ?_
    intro y' h1 h2
    exact C20_fmod_partial binary64 binary64_wide hm hx h1 (by rw [h2]; exact mul_ne_zero (by norm_num) hy0) (hg.eight h2)
  · intro x y hx hy hy0 hg
    refine remquo_spec binary32 (by decide) _ (by decide) (by decide) (by decide) (by decide) hm hx hy hy0 ?_
    intro y' h1 h2
    exact C20_fmod_partial binary32 binary32_wide hm hx h1 (by rw [h2]; exact mul_ne_zero (by norm_num) hy0) (hg.eight h2)

/-- C22, special operands: NaN operands, an infinite dividend or a zero divisor give NaN and leave `*quo` unwritten; an infinite
divisor gives the dividend and quotient 0. -/
theorem C22_remquo_special (fm : ℕ → ℕ → ℕ) (hm : Mode) {x y : ℕ} (hx : binary64.Valid x) (hy : binary64.Valid y) :
    (binary64.IsNaN x ∨ binary64.IsNaN y ∨ binary64.IsInf x ∨ binary64.mag y = 0 →
      binary64.IsNaN (CC.remquoDouble fm hm x y).1 ∧ (CC.remquoDouble fm hm x y).2 = none) ∧
    (binary64.Finite x → binary64.IsInf y → CC.remquoDouble fm hm x y = (x, some 0)) := by
  have hI := binary64.infMag_pos
  have hP := binary64.two_pow_F_pos
  rw [pow_succ] at hI
  constructor
  · intro h
    have hdiv : ∀ z, binary64.nanB z = true ∨ binary64.infB z = true ∨ binary64.zeroB z = true → binary64.hdiv hm z z = binary64.qnan := by
      intro z hz
      unfold hdiv
      rcases hz with hz | hz | hz
      · simp [hz]
      · by_cases h1 : binary64.nanB z = true
        · simp [h1]
        · simp [h1, hz]
      · by_cases h1 : binary64.nanB z = true
        · simp [h1]
        · by_cases h2 : binary64.infB z = true
          · simp [h1, h2]
          · simp [h1, h2, hz]
    have hn : binary64.IsNaN (binary64.hdiv hm (binary64.hmul hm x y) (binary64.hmul hm x y)) := by
      have hq := (binary64.nanB_iff binary64.valid_qnan).2 binary64.isNaN_qnan
      have hcl : binary64.nanB (binary64.hmul hm x y) = true ∨ binary64.infB (binary64.hmul hm x y) = true ∨ binary64.zeroB (binary64.hmul hm x y) = true := by
        have infc : ∀ s, binary64.infB (binary64.inf s) = true := fun s => (binary64.infB_iff (binary64.valid_inf s)).2 (binary64.isInf_inf s)
        by_cases hxy : (binary64.nanB x || binary64.nanB y) = true
        · left; unfold hmul; rw [if_pos hxy]; exact hq
        · have hxy' : ¬ (binary64.nanB x || binary64.nanB y) = true := hxy
          rw [Bool.or_eq_true, binary64.nanB_iff hx, binary64.nanB_iff hy] at hxy'
          push Not at hxy'
          by_cases ix : binary64.IsInf x
          · have ix' := (binary64.infB_iff hx).2 ix
            unfold hmul; simp only []; rw [if_neg hxy, if_pos ix']
            split
            · left; exact hq
            · right; left; exact infc _
          · have hy0 : binary64.mag y = 0 := by tauto
            have yf : binary64.Finite y := (binary64.finite_iff y).2 ⟨hy, by omega⟩
            have xf : binary64.Finite x := by
              rcases binary64.not_nan_cases hx hxy'.1 with h | h
              · exact h
              · exact absurd h ix
            have := binary64.hmul_spec hm xf yf
            rw [(binary64.val_eq_zero_iff y).2 hy0, mul_zero] at this
            obtain ⟨-, h2⟩ := RoundsTo.exact binary64 (binary64.finite_zero false) (binary64.val_zero false) this
            right; right
            exact (zeroB_iff_val _ _).2 h2
      rw [hdiv _ hcl]
      exact binary64.isNaN_qnan
    rw [binary64.isNaN_iff, binary64.isNaN_iff, binary64.isInf_iff] at h
    unfold CC.remquoDouble CC.remquo
    simp only []
    split_ifs
    · exact ⟨hn, rfl⟩
    · exact ⟨hn, rfl⟩
    all_goals omega
  · intro hxf hyi
    have hym := ((binary64.isInf_iff y).1 hyi).2
    have hxm := ((binary64.finite_iff x).1 hxf).2
    unfold CC.remquoDouble CC.remquo
    simp only []
    have hII : binary64.infMag = 0x7ff0000000000000 := by decide
    have hc8 : ¬ binary64.infMag ≤ 0x7fbfffffffffffff := by rw [hII]; decide
    rw [hym, if_neg (by omega), if_neg (by omega)]
    simp only [if_neg hc8]
    rw [if_neg (by omega)]
    have ab : CC.abs binary64 x = binary64.mag x := by rw [CC.abs_eq binary64 hx, (binary64.finite_B hxf).1]; rfl
    have red : ∀ c j st, c < binary64.infMag → CC.remquoRed binary64 hm c j binary64.infMag st = st := by
      intro c j st hc
      unfold CC.remquoRed
      have : binary64.mag binary64.infMag = binary64.infMag := by decide
      rw [this, decide_eq_false (by omega)]; simp
    rw [red _ _ _ (by rw [hII]; decide), red _ _ _ (by rw [hII]; decide)]
    have mf : binary64.Finite (binary64.mag x) := (binary64.finite_iff _).2 ⟨CC.valid_mag _ _, by rw [CC.mag_mag]; exact hxm⟩
    have last : CC.remquoLast binary64 hm 0x0020000000000000 binary64.infMag (CC.abs binary64 x, 0) = (binary64.mag x, 0) := by
      unfold CC.remquoLast
      have e1 : binary64.mag binary64.infMag = binary64.infMag := by decide
      have e2 : binary64.hmul hm (CC.halfLit binary64) binary64.infMag = binary64.infMag := by cases hm <;> decide +kernel
      have e3 : binary64.hgt (binary64.mag x) binary64.infMag = false := by
        unfold hgt hlt
        rw [CC.key_mag, show binary64.key binary64.infMag = (binary64.infMag : ℤ) by decide +kernel]
        have : ¬ ((binary64.infMag : ℤ) < binary64.mag x) := by omega
        simp [this]
      rw [if_neg (by rw [e1, hII]; decide), e2, ab]
      simp only [e3, Bool.false_eq_true, if_false]
    rw [last]
    simp only [neg_zero, ite_self]
    congr 1
    have hz : binary64.heq (binary64.mag x) (binary64.zero false) = binary64.zeroB x := by
      rw [CC.heq_zero]; unfold zeroB; rw [CC.mag_mag]
    have hx2 : (if binary64.heq (binary64.mag x) (binary64.zero false) = true then binary64.zero false else binary64.mag x) = binary64.mag x := by
      rw [hz]
      split
      · rename_i h
        have : binary64.mag x = 0 := by simpa [zeroB] using h
        rw [this]; rfl
      · rfl
    rw [hx2]
    cases hs : binary64.sgn x
    · have := binary64.pack_sgn_mag hx
      rw [hs, CC.pack_false] at this
      simpa using this
    · simp only [if_true]
      unfold hneg
      rw [CC.sgn_mag, CC.mag_mag]
      have := binary64.pack_sgn_mag hx
      rw [hs] at this
      exact this

/-- C22 is violated in constant evaluation: for `x = 24 + 2^-48`, `y = 1 + 2^-52` the code returns `+2^-48` with quotient 0; the IEEE
remainder is `x - 24*y = -2^-49`. -/
theorem C22_remquo_constexpr_wrong :
    CC.remquoDouble (CC.fmod binary64 .nearest) .nearest 0x4038000000000001 0x3FF0000000000001 = (0x3CF0000000000000, some 0) ∧
    ¬ IsRemquo binary64 0x4038000000000001 0x3FF0000000000001 (0x3CF0000000000000, some 0) := by
  refine ⟨by decide +kernel, ?_⟩
  rintro ⟨r, q, n, h1, ⟨h2, -, h4, -⟩, -, -⟩
  rw [Prod.mk.injEq] at h1
  rw [← h1.1] at h4
  have hg := binary64.minSub_pos
  have ex : binary64.val 0x4038000000000001 = (3 * 2 ^ 51 + 1) * (2 ^ 1026 * binary64.minSub) := by
    rw [binary64.val_eq_ival, show binary64.ival 0x4038000000000001 = (3 * 2 ^ 51 + 1) * 2 ^ 1026 by decide +kernel]; push_cast; ring
  have ey : binary64.val 0x3FF0000000000001 = (2 ^ 52 + 1) / 16 * (2 ^ 1026 * binary64.minSub) := by
    rw [binary64.val_eq_ival, show binary64.ival 0x3FF0000000000001 = (2 ^ 52 + 1) * 2 ^ 1022 by decide +kernel]; push_cast
    rw [show (2 : ℝ) ^ 1026 = 2 ^ 1022 * 16 by rw [show 1026 = 1022 + 4 from rfl, pow_add]; norm_num]; ring
  have er : binary64.val 0x3CF0000000000000 = 1 * (2 ^ 1026 * binary64.minSub) := by
    rw [binary64.val_eq_ival, show binary64.ival 0x3CF0000000000000 = 2 ^ 1026 by decide +kernel]; push_cast; ring
  have hg : (0 : ℝ) < 2 ^ 1026 * binary64.minSub := mul_pos (by positivity) binary64.minSub_pos
  rw [ex, ey, er] at h4
  generalize (2 : ℝ) ^ 1026 * binary64.minSub = g at *
  have : (1 : ℝ) = (3 * 2 ^ 51 + 1) - n * ((2 ^ 52 + 1) / 16) := by
    apply mul_right_cancel₀ hg.ne'; linarith
  have h5 : (n : ℝ) * (2 ^ 52 + 1) = 3 * 2 ^ 55 := by linarith
  have h6 : n * (2 ^ 52 + 1) = 3 * 2 ^ 55 := by exact_mod_cast h5
  omega

-- `remquo(29, 3)`: remainder -1, quotient bits of 10 modulo 8 = 2
example : CC.remquoDouble (CC.fmod binary64 .nearest) .nearest 0x403D000000000000 0x4008000000000000 = (0xBFF0000000000000, some 2) := by decide +kernel
example : OnGrid binary64 0x403D000000000000 0x4008000000000000 := by
  refine ⟨29, 3, 1074, ?_, ?_, by decide⟩
  · rw [binary64.val_eq_ival, show binary64.ival 0x403D000000000000 = 29 * 2 ^ 1074 by decide +kernel]; push_cast; ring
  · rw [binary64.val_eq_ival, show binary64.ival 0x4008000000000000 = 3 * 2 ^ 1074 by decide +kernel]; push_cast; ring
/-- The hypothesis of `C22_remquo_partial` is satisfiable: an exact `fmod` exists. -/
theorem exists_exact_fmod : ∃ fm : ℕ → ℕ → ℕ, ∀ x y, f.Finite x → f.Finite y → f.val y ≠ 0 → IsFmod f x y (fm x y) := by
  classical
  have key : ∀ x y, f.Finite x → f.Finite y → f.val y ≠ 0 → ∃ r, IsFmod f x y r := by
    intro x y hx hy hy0
    have hvx := CC.val_eq_sg_abs f x
    have hvy := CC.val_eq_sg_abs f y
    have hy1 := abs_pos.2 hy0
    have ht := truncR_signed (f.sgn x) (f.sgn y) (abs_nonneg (f.val x)) hy1
    rw [← hvx, ← hvy] at ht
    have h1 := Nat.floor_le (show 0 ≤ |f.val x| / |f.val y| by positivity)
    have h2 := Nat.lt_floor_add_one (|f.val x| / |f.val y|)
    rw [le_div_iff₀ hy1] at h1
    rw [div_lt_iff₀ hy1] at h2
    generalize (⌊|f.val x| / |f.val y|⌋₊) = K at *
    have hd : f.val x - truncR (f.val x / f.val y) * f.val y = sg (f.sgn x) * (|f.val x| - K * |f.val y|) := by
      rw [ht]
      have := sg_mul_self (f.sgn y)
      linear_combination hvx - (sg (f.sgn x) * sg (f.sgn y) * K) * hvy - (sg (f.sgn x) * K * |f.val y|) * this
    obtain ⟨r, r1, r2⟩ := exact_comb f hx hy 1 (-truncR (f.val x / f.val y))
      (by push_cast; rw [one_mul, neg_mul, ← sub_eq_add_neg, hd, abs_mul, abs_sg, one_mul, abs_of_nonneg (by linarith)]
          have : 0 ≤ (K : ℝ) * |f.val y| := by positivity
          linarith)
      (by push_cast; rw [one_mul, neg_mul, ← sub_eq_add_neg, hd, abs_mul, abs_sg, one_mul, abs_of_nonneg (by linarith)]; linarith)
    have r3 : f.val r = f.val x - truncR (f.val x / f.val y) * f.val y := by rw [r2]; push_cast; ring
    by_cases h0 : f.val r = 0
    · exact ⟨f.zero (f.sgn x), f.finite_zero _, by rw [f.val_zero, ← r3, h0], f.sgn_zero _⟩
    · refine ⟨r, r1, r3, ?_⟩
      have h3 : f.val r = sg (f.sgn x) * (|f.val x| - K * |f.val y|) := by rw [r3, hd]
      have h4 : 0 < |f.val x| - K * |f.val y| := by
        rcases (show 0 ≤ |f.val x| - K * |f.val y| by linarith).lt_or_eq with h | h
        · exact h
        · exfalso; apply h0; rw [h3, ← h, mul_zero]
      cases hs : f.sgn x
      · rw [hs, sg_false, one_mul] at h3; exact sgn_of_pos f (by rw [h3]; exact h4)
      · rw [hs, sg_true] at h3; exact sgn_of_neg f (by rw [h3]; linarith)
  choose! g hg using key
  exact ⟨g, hg⟩

end Verif
