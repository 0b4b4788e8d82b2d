import Verif.Model.Angle
import Verif.Props.Ext
import Verif.Props.Ext3

/-!
# C105: interpolation and motion of angles

For angles in whole degrees, in every rounding mode.  `D` is the angle from `current` to `target` the short way round.
-/

namespace Verif
open Fmt
variable (f : Fmt)

/-- `current + delta_angle(current, target)`: exact, congruent to the target, at most half a turn away -/
theorem arrive105 (hw : f.Wide) (m : Mode) {c t : ℕ} {C T : ℤ} (hc : f.Finite c) (ht : f.Finite t) (ec : f.val c = C) (et : f.val t = T)
    (hCT : |T - C| + 360 ≤ 2 ^ f.F) (hC : |C| + 180 ≤ 2 ^ f.F) :
    ∃ D : ℤ, -180 < D ∧ D ≤ 180 ∧ (360 : ℤ) ∣ C + D - T ∧ f.Finite (CC.deltaAngle f m c t) ∧ f.val (CC.deltaAngle f m c t) = D ∧
      CC.safeDeltaAngle f m c t = CC.deltaAngle f m c t ∧
      ∃ g, f.Finite g ∧ f.val g = ((C + D : ℤ) : ℝ) := by
  obtain ⟨h1, h2, D, h3, h4, h5, h6⟩ := C55_delta_angle f hw m hc ht ec et hCT
  have hb : |C + D| ≤ 2 ^ f.F := by
    have := abs_add_le C D
    have : |D| ≤ 180 := abs_le.2 ⟨by linarith, h5⟩
    linarith
  obtain ⟨g, g1, g2⟩ := int_datum f hw (z := C + D) hb
  refine ⟨D, h4, h5, ?_, h1, h3, h2, g, g1, g2⟩
  obtain ⟨q, hq⟩ := h6
  exact ⟨q, by linarith⟩

/-- C105: `lerp_angle` goes the short way round.  For `0 ≤ t ≤ 1` the result is finite and between `start` and `start + D`; it is `start` for
`t = 0` and exactly `start + D`, congruent to the end angle, for `t = 1`. -/
theorem C105_lerp_angle (hw : f.Wide) (m : Mode) {c e t : ℕ} {C T : ℤ} (hc : f.Finite c) (he : f.Finite e) (ec : f.val c = C) (ee : f.val e = T)
    (hCT : |T - C| + 360 ≤ 2 ^ f.F) (hC : |C| + 180 ≤ 2 ^ f.F) (ht : f.Finite t) (t0 : 0 ≤ f.val t) (t1 : f.val t ≤ 1) :
    CC.safeLerpAngle f m c e t = CC.lerpAngle f m c e t ∧ f.Finite (CC.lerpAngle f m c e t) ∧
    ∃ D : ℤ, -180 < D ∧ D ≤ 180 ∧ (360 : ℤ) ∣ C + D - T ∧
      min (C : ℝ) (C + D) ≤ f.val (CC.lerpAngle f m c e t) ∧ f.val (CC.lerpAngle f m c e t) ≤ max (C : ℝ) (C + D) ∧
      (f.val t = 0 → f.val (CC.lerpAngle f m c e t) = C) ∧ (f.val t = 1 → f.val (CC.lerpAngle f m c e t) = C + D) := by
  obtain ⟨D, h1, h2, h3, fd, vd, hs, g, fg, vg⟩ := arrive105 f hw m hc he ec ee hCT hC
  have vg' : f.val g = C + D := by rw [vg]; push_cast; ring
  have P := f.hmul_spec m fd ht
  -- the product is between 0 and D
  have hp : f.Finite (f.hmul m (CC.deltaAngle f m c e) t) ∧ min 0 (D : ℝ) ≤ f.val (f.hmul m (CC.deltaAngle f m c e) t) ∧
      f.val (f.hmul m (CC.deltaAngle f m c e) t) ≤ max 0 (D : ℝ) := by
    rcases le_total 0 (D : ℝ) with hD | hD
    · rw [min_eq_left hD, max_eq_right hD]
      have := RoundsTo.between P (f.finite_zero false) fd (by rw [f.val_zero, vd]; positivity) (by rw [vd]; nlinarith)
      rw [f.val_zero, vd] at this; exact this
    · rw [min_eq_right hD, max_eq_left hD]
      have := RoundsTo.between P fd (f.finite_zero false) (by rw [vd]; nlinarith) (by rw [f.val_zero, vd]; nlinarith)
      rw [f.val_zero, vd] at this; exact this
  obtain ⟨fp, p1, p2⟩ := hp
  have A := f.hadd_spec m hc fp
  have hr : f.Finite (CC.lerpAngle f m c e t) ∧ min (C : ℝ) (C + D) ≤ f.val (CC.lerpAngle f m c e t) ∧
      f.val (CC.lerpAngle f m c e t) ≤ max (C : ℝ) (C + D) := by
    rcases le_total 0 (D : ℝ) with hD | hD
    · rw [min_eq_left hD] at p1; rw [max_eq_right hD] at p2
      rw [min_eq_left (by linarith), max_eq_right (by linarith)]
      have := RoundsTo.between A hc fg (by linarith) (by rw [vg', ec]; linarith)
      rw [vg', ec] at this; exact this
    · rw [min_eq_right hD] at p1; rw [max_eq_left hD] at p2
      rw [min_eq_right (by linarith), max_eq_left (by linarith)]
      have := RoundsTo.between A fg hc (by rw [vg', ec]; linarith) (by linarith)
      rw [vg', ec] at this; exact this
  refine ⟨by unfold CC.safeLerpAngle CC.lerpAngle; rw [hs], hr.1, D, h1, h2, h3, hr.2.1, hr.2.2, ?_, ?_⟩
  · intro h
    have q := (RoundsTo.exact f (f.finite_zero false) (by rw [f.val_zero, h, mul_zero]) P).2
    rw [h, mul_zero] at q
    have := (RoundsTo.exact f hc (by rw [q, add_zero]) A).2
    rw [q, add_zero, ec] at this
    exact this
  · intro h
    have q := (RoundsTo.exact f fd (by rw [h, mul_one]) P).2
    rw [h, mul_one, vd] at q
    have := (RoundsTo.exact f fg (by rw [q, vg', ec]) A).2
    rw [q, ec] at this
    exact this

/-- C105: `move_towards_angle` goes the short way round and does not overshoot: the result is between `current` and `current + D`; with a step of
at least `|D|` it is exactly `current + D`, congruent to the target; with a smaller step of `S` whole degrees it is exactly `current ± S`. -/
theorem C105_move_towards_angle (hw : f.Wide) (m : Mode) {c e d : ℕ} {C T : ℤ} (hc : f.Finite c) (he : f.Finite e) (ec : f.val c = C)
    (ee : f.val e = T) (hCT : |T - C| + 360 ≤ 2 ^ f.F) (hC : |C| + 180 ≤ 2 ^ f.F) (hd : f.Finite d) (d0 : 0 ≤ f.val d) :
    CC.safeMoveTowardsAngle f m c e d = CC.moveTowardsAngle f m c e d ∧ f.Finite (CC.moveTowardsAngle f m c e d) ∧
    ∃ D : ℤ, -180 < D ∧ D ≤ 180 ∧ (360 : ℤ) ∣ C + D - T ∧
      min (C : ℝ) (C + D) ≤ f.val (CC.moveTowardsAngle f m c e d) ∧ f.val (CC.moveTowardsAngle f m c e d) ≤ max (C : ℝ) (C + D) ∧
      (|(D : ℝ)| ≤ f.val d → f.val (CC.moveTowardsAngle f m c e d) = C + D) ∧
      (∀ S : ℤ, f.val d = S → S < |D| → f.val (CC.moveTowardsAngle f m c e d) = C + D.sign * S) := by
  obtain ⟨D, h1, h2, h3, fd, vd, hs, g, fg, vg⟩ := arrive105 f hw m hc he ec ee hCT hC
  have vg' : f.val g = C + D := by rw [vg]; push_cast; ring
  obtain ⟨fa, va⟩ := RoundsTo.exact f fg (by rw [vg', ec, vd]) (f.hadd_spec m hc fd)
  rw [ec, vd] at va
  have xd : f.xval d = ((f.val d : ℝ) : EReal) := f.xval_of_finite hd
  obtain ⟨k1, k2, k3, k4⟩ := C41_move_towards f m hc fa hd.1 (not_nan_of_finite f hd) (by rw [xd]; exact_mod_cast d0)
  rw [ec, va] at k2 k3 k4
  refine ⟨by unfold CC.safeMoveTowardsAngle CC.moveTowardsAngle; rw [hs], k1, D, h1, h2, h3, k2, k3, ?_, ?_⟩
  · intro h
    have := k4 (by rw [xd]; rw [show (C : ℝ) + D - C = D by ring]; exact_mod_cast h)
    unfold CC.moveTowardsAngle
    rw [this, va]
  · intro S eS hS
    have S0 : 0 ≤ S := by rw [eS] at d0; exact_mod_cast d0
    have hD180 : |D| ≤ 180 := abs_le.2 ⟨by linarith, h2⟩
    obtain ⟨fs, vs⟩ := RoundsTo.exact f fd (by rw [vd, va, ec]; ring) (f.hsub_spec m fa hc)
    rw [va, ec, show (C : ℝ) + D - C = D by ring] at vs
    have hle : ¬ f.hle (CC.abs f (f.hsub m (f.hadd m c (CC.deltaAngle f m c e)) c)) d = true := by
      obtain ⟨a1, a2, -⟩ := C03_fabs_value f fs
      rw [CC.hle_finite f a1 hd, a2, vs, eS, not_le]
      exact_mod_cast hS
    have hsg : |D.sign * S| ≤ 180 := by
      rcases lt_trichotomy D 0 with h | h | h
      · rw [Int.sign_eq_neg_one_of_neg h, neg_one_mul, abs_neg, abs_of_nonneg S0]; linarith
      · rw [h, Int.sign_zero, zero_mul, abs_zero]; norm_num
      · rw [Int.sign_eq_one_of_pos h, one_mul, abs_of_nonneg S0]; linarith
    obtain ⟨q, q1, q2⟩ := int_datum f hw (z := C + D.sign * S) (by have := abs_add_le C (D.sign * S); linarith)
    unfold CC.moveTowardsAngle CC.moveTowards
    dsimp only
    rw [if_neg hle]
    rcases lt_or_ge 0 D with h | h
    · have hr : (0 : ℝ) < D := by exact_mod_cast h
      rw [if_pos ((hsub_pos_iff f fa hc).2 (by rw [va, ec]; linarith))]
      have := (RoundsTo.exact f q1 (by rw [q2, ec, eS, Int.sign_eq_one_of_pos h]; push_cast; ring) (f.hadd_spec m hc hd)).2
      rw [this, ec, eS, Int.sign_eq_one_of_pos h]; push_cast; ring
    · have hr : (D : ℝ) ≤ 0 := by exact_mod_cast h
      have hn : D < 0 := by
        rcases lt_or_eq_of_le h with h' | h'
        · exact h'
        · rw [h', abs_zero] at hS; omega
      rw [if_neg (by rw [hsub_pos_iff f fa hc, va, ec]; intro h'; linarith)]
      have := (RoundsTo.exact f q1 (by rw [q2, f.val_hneg, ec, eS, Int.sign_eq_neg_one_of_neg hn]; push_cast; ring) (f.hadd_spec m hc (f.finite_hneg hd))).2
      rw [this, f.val_hneg, ec, eS, Int.sign_eq_neg_one_of_neg hn]; push_cast; ring

-- 350 -> 10: half way 360, all the way 370; 10 -> 350 in steps of 5: 5
example : CC.lerpAngle binary64 .nearest 0x4075e00000000000 0x4024000000000000 0x3fe0000000000000 = 0x4076800000000000 ∧
    CC.lerpAngle binary64 .nearest 0x4075e00000000000 0x4024000000000000 0x3ff0000000000000 = 0x4077200000000000 ∧
    CC.moveTowardsAngle binary64 .nearest 0x4024000000000000 0x4075e00000000000 0x4014000000000000 = 0x4014000000000000 := by decide +kernel

-- the hypotheses hold for 350 -> 10 in double precision
example (m : Mode) : f.Wide → 10 ≤ f.F → ∃ D : ℤ, -180 < D ∧ D ≤ 180 ∧ (360 : ℤ) ∣ 350 + D - 10 ∧
    f.val (CC.lerpAngle f m (CC.lit f 350) (CC.lit f 10) (CC.oneLit f false)) = 350 + D := by
  intro hw hF
  have h10 : (1024 : ℤ) ≤ 2 ^ f.F := le_trans (by norm_num) (pow_le_pow_right₀ (by norm_num : (1 : ℤ) ≤ 2) hF)
  have h10' : (1024 : ℕ) ≤ 2 ^ f.F := by exact_mod_cast h10
  obtain ⟨a1, a2⟩ := lit_spec f hw (k := 350) (by omega)
  obtain ⟨b1, b2⟩ := lit_spec f hw (k := 10) (by omega)
  have o := CC.val_one f false
  rw [show sg false = 1 from rfl] at o
  obtain ⟨-, -, D, h1, h2, h3, -, -, -, h4⟩ := C105_lerp_angle f hw m (C := 350) (T := 10) a1 b1 (by rw [a2]; norm_num) (by rw [b2]; norm_num)
    (by norm_num; linarith) (by norm_num; linarith) (CC.finite_one f false) (by rw [o]; norm_num) (by rw [o])
  exact ⟨D, h1, h2, h3, by have := h4 o; push_cast at this; exact this⟩

end Verif
