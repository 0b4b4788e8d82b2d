import Verif.Model.Ext
import Verif.Lemmas.EFT
import Verif.Props.Manip
import Verif.Props.Sign

/-!
# Helper lemmas for the `ext` functions
-/

namespace Verif
open Fmt
variable (f : Fmt) {m : Mode}

theorem valid_of_roundQ (m : Mode) (s : Bool) (N D : ℕ) : f.Valid (f.roundQ m s N D) := by
  unfold Fmt.roundQ
  exact f.valid_pack _ (lt_of_le_of_lt (f.cap_le _ _) f.infMag_lt)

theorem valid_hadd (m : Mode) {x y : ℕ} (hx : f.Valid x) (hy : f.Valid y) : f.Valid (f.hadd m x y) := by
  unfold Fmt.hadd
  dsimp only
  split_ifs <;> first | exact f.valid_qnan | assumption | exact f.valid_zero _ | exact valid_of_roundQ f _ _ _ _

theorem valid_hsub (m : Mode) {x y : ℕ} (hx : f.Valid x) : f.Valid (f.hsub m x y) :=
  valid_hadd f m hx (f.valid_hneg y)

theorem valid_hmul (m : Mode) (x y : ℕ) : f.Valid (f.hmul m x y) := by
  unfold Fmt.hmul
  dsimp only
  split_ifs <;> first | exact f.valid_qnan | exact f.valid_inf _ | exact valid_of_roundQ f _ _ _ _

theorem valid_hdiv (m : Mode) (x y : ℕ) : f.Valid (f.hdiv m x y) := by
  unfold Fmt.hdiv
  dsimp only
  split_ifs <;> first | exact f.valid_qnan | exact f.valid_inf _ | exact f.valid_zero _ | exact valid_of_roundQ f _ _ _ _

/-- A non-zero datum is determined by its value. -/
theorem eq_of_val_ne {a b : ℕ} (ha : f.Valid a) (hb : f.Valid b) (hv : f.val a = f.val b) (h0 : f.val b ≠ 0) : a = b := by
  refine f.eq_of_val_eq ha hb hv ?_
  have ha0 : f.val a ≠ 0 := by rw [hv]; exact h0
  have pa := abs_pos.2 ha0
  have pb := abs_pos.2 h0
  have e1 := CC.val_eq_sg_abs f a
  have e2 := CC.val_eq_sg_abs f b
  cases h1 : f.sgn a <;> cases h2 : f.sgn b <;> rw [h1] at e1 <;> rw [h2] at e2 <;>
    simp only [sg_true, sg_false] at e1 e2 <;> first | rfl | (exfalso; linarith)

/-- A non-zero difference of two data is at least the least subnormal. -/
theorem minSub_le_sub {x y : ℕ} (h : f.val x ≠ f.val y) : f.minSub ≤ |f.val x - f.val y| := by
  rw [f.minSub_eq_zpow]
  exact Mult.ge ((f.mult_emin x).sub (f.mult_emin y)) (sub_ne_zero.2 h)

theorem minSub_datum : f.Finite 1 ∧ f.val 1 = f.minSub := by
  have h2 : 1 < f.infMag := by
    have := f.infMag_pos
    have : 2 ^ 1 ≤ 2 ^ (f.F + 1) := Nat.pow_le_pow_right (by decide) (by omega)
    omega
  have h := f.finite_pack false h2
  have hv := f.val_pack false (n := 1) (lt_trans h2 f.infMag_lt)
  rw [CC.pack_false] at h hv
  refine ⟨h, ?_⟩
  rw [hv, f.umag_one', sg_false]; simp

/-- A rounded difference has the sign of the exact difference. -/
theorem hsub_pos_iff {x y : ℕ} (hx : f.Finite x) (hy : f.Finite y) :
    f.hgt (f.hsub m x y) (f.zero false) = true ↔ f.val y < f.val x := by
  have R := f.hsub_spec m hx hy
  unfold Fmt.hgt
  rw [f.hlt_spec (f.valid_zero _) R.valid, f.xval_of_finite (f.finite_zero false), f.val_zero]
  constructor
  · rintro ⟨-, -, h⟩
    by_contra hc
    have := RoundsTo.le_of R (f.finite_zero false) (by rw [f.val_zero]; linarith)
    rw [f.xval_of_finite (f.finite_zero false), f.val_zero] at this
    exact absurd h (not_lt.2 this)
  · intro h
    refine ⟨?_, R.not_nan, ?_⟩
    · intro hn
      have := f.finite_zero false
      rw [finite_iff] at this; rw [isNaN_iff] at hn; omega
    · obtain ⟨h1, h1v⟩ := minSub_datum f
      have h2 := minSub_le_sub f (ne_of_gt h)
      rw [abs_of_pos (by linarith)] at h2
      have := RoundsTo.ge_of R h1 (by rw [h1v]; exact h2)
      refine lt_of_lt_of_le ?_ this
      rw [f.xval_of_finite h1, h1v]
      exact_mod_cast f.minSub_pos

theorem abs_hle_of {x d : ℕ} (hx : f.Finite x) (hd : f.Finite d) (h : |f.val x| ≤ f.val d) :
    f.hle (CC.abs f x) d = true := by
  obtain ⟨h1, h2, -⟩ := C03_fabs_value f hx
  rw [CC.hle_finite f h1 hd, h2]; exact h

theorem abs_not_nan {x : ℕ} (hv : f.Valid x) (hx : ¬ f.IsNaN x) : f.Valid (CC.abs f x) ∧ ¬ f.IsNaN (CC.abs f x) := by
  have h1 : f.nanB x = false := by rw [← Bool.not_eq_true, f.nanB_iff hv]; exact hx
  rw [CC.abs_eq f hv, h1]
  simp only [Bool.false_eq_true, if_false]
  refine ⟨CC.valid_mag f x, ?_⟩
  rw [← f.nanB_iff (CC.valid_mag f x), CC.nanB_mag, h1]; simp

theorem xval_not_neg_inf {x : ℕ} (hx : f.IsInf x) (h0 : (0 : EReal) ≤ f.xval x) : f.xval x = ⊤ := by
  rw [f.isInf_eq hx, xval_inf] at h0 ⊢
  split_ifs at h0 ⊢
  · simp at h0
  · rfl

/-- integers representable -/
theorem int_datum (hw : f.Wide) {z : ℤ} (hz : |z| ≤ 2 ^ f.F) : ∃ b, f.Finite b ∧ f.val b = z := by
  obtain ⟨b, h1, h2, -⟩ := CC.finite_nat f hw (q := z.natAbs) (by
    have : ((z.natAbs : ℕ) : ℤ) ≤ 2 ^ f.F := by rw [Int.natCast_natAbs]; exact hz
    exact_mod_cast this) (decide (z < 0))
  refine ⟨b, h1, ?_⟩
  rw [h2]
  by_cases hz0 : z < 0
  · rw [decide_eq_true hz0, sg_true]
    have : ((z.natAbs : ℕ) : ℤ) = -z := by rw [Int.natCast_natAbs, abs_of_neg hz0]
    have : ((z.natAbs : ℕ) : ℝ) = -(z : ℝ) := by rw [← Int.cast_natCast, this, Int.cast_neg]
    rw [this]; ring
  · rw [decide_eq_false hz0, sg_false, one_mul]
    have : ((z.natAbs : ℕ) : ℤ) = z := by rw [Int.natCast_natAbs, abs_of_nonneg (not_lt.1 hz0)]
    rw [← Int.cast_natCast, this]

theorem lit_spec (hw : f.Wide) {k : ℕ} (hk : k ≤ 2 ^ f.F) : f.Finite (CC.lit f k) ∧ f.val (CC.lit f k) = k := by
  obtain ⟨b, h1, h2⟩ := int_datum f hw (z := k) (by rw [abs_of_nonneg (by positivity)]; exact_mod_cast hk)
  have := RoundsTo.exact f h1 h2 (ofInt_spec f .nearest k)
  exact ⟨this.1, by rw [CC.lit, this.2]; simp⟩

end Verif
