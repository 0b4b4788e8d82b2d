import Verif.Model.Angle
import Verif.Lemmas.Cbrt
import Verif.Lemmas.Ext
import Verif.Lemmas.Scalbn
import Verif.Props.Numbers

/-!
# C100: `radians` and `degrees`

The computed angle is the real one up to three roundings, in every rounding mode, as long as neither the result nor the intermediate product leaves the
normal range.  The product is formed before the division, so both functions overflow although the result is representable.
-/

namespace Verif
open Fmt CC.Numbers Real

/-- half a unit in the last place to nearest, a whole one otherwise, relative to the result -/
noncomputable def unit100 (f : Fmt) (m : Mode) : ℝ := if m = .nearest then 1 / 2 ^ (f.F + 1) else 1 / 2 ^ f.F

theorem fu_eq_unit (f : Fmt) (m : Mode) : fu f m = unit100 f m := by
  unfold fu unit100
  rw [zpow_neg, zpow_natCast]
  split_ifs
  · rw [pow_succ]; field_simp
  · rw [one_div]

theorem unit100_facts (f : Fmt) (hF : 20 ≤ f.F) (m : Mode) : 0 < unit100 f .nearest ∧ unit100 f .nearest ≤ unit100 f m ∧ unit100 f m ≤ 1 / 2 ^ 20 := by
  have h1 : (1 : ℝ) / 2 ^ f.F ≤ 1 / 2 ^ 20 := one_div_le_one_div_of_le (by positivity) (pow_le_pow_right₀ (by norm_num) hF)
  have h2 : (1 : ℝ) / 2 ^ (f.F + 1) ≤ 1 / 2 ^ f.F := one_div_le_one_div_of_le (by positivity) (pow_le_pow_right₀ (by norm_num) (by omega))
  unfold unit100
  rw [if_pos rfl]
  refine ⟨by positivity, ?_, ?_⟩ <;> split_ifs
  · exact le_refl _
  · exact h2
  · exact le_trans h2 h1
  · exact h1

theorem range100 (f : Fmt) (hb : 2 ≤ f.bias) : 0 < f.minNormal ∧ f.minNormal ≤ 1 ∧ 4 ≤ f.maxFin := by
  refine ⟨zpow_pos (by norm_num) _, ?_, ?_⟩
  · unfold Fmt.minNormal
    have := zpow_le_zpow_right₀ (show (1 : ℝ) ≤ 2 by norm_num) (show 1 - (f.bias : ℤ) ≤ 0 by omega)
    rwa [zpow_zero] at this
  · unfold Fmt.maxFin
    have h1 := zpow_le_zpow_right₀ (show (1 : ℝ) ≤ 2 by norm_num) (show (2 : ℤ) ≤ (f.bias : ℤ) by omega)
    have h2 := zpow_le_zpow_right₀ (show (1 : ℝ) ≤ 2 by norm_num) (show -(f.F : ℤ) ≤ 0 by omega)
    rw [zpow_zero] at h2
    have h3 : (2 : ℝ) ^ (2 : ℤ) = 4 := by norm_num
    rw [h3] at h1
    nlinarith

/-- the constant `π` of the format -/
theorem pi100 {f : Fmt} (hF : 20 ≤ f.F) (hb : 2 ≤ f.bias) {P : ℕ} (R : f.RoundsTo .nearest false π P) :
    f.Finite P ∧ |f.val P - π| ≤ unit100 f .nearest * π ∧ 3.14 ≤ f.val P ∧ f.val P ≤ 3.15 := by
  obtain ⟨r1, r2, r3⟩ := range100 f hb
  have p1 := pi_gt_d4
  have p2 := pi_lt_d4
  have pp := pi_pos
  obtain ⟨fP, eP⟩ := rel_err R (by rw [abs_of_pos pp]; linarith) (by rw [abs_of_pos pp]; linarith)
  rw [fu_eq_unit, abs_of_pos pp] at eP
  obtain ⟨u1, -, u3⟩ := unit100_facts f hF .nearest
  have : unit100 f .nearest * π ≤ 1 / 2 ^ 20 * π := mul_le_mul_of_nonneg_right u3 pp.le
  have h := abs_le.1 eP
  norm_num at this p1 p2
  exact ⟨fP, eP, by norm_num; linarith [h.1], by norm_num; linarith [h.2]⟩

theorem small100 {u u0 : ℝ} (h0 : 0 < u0) (h1 : u0 ≤ u) (h2 : u ≤ 1 / 1048576) : u * (1 + u) * (1 + u0) + u * (1 + u0) + u0 ≤ 3.01 * u := by
  have hu : 0 ≤ u := by linarith
  have a1 : (1 + u) * (1 + u0) ≤ 1.0001 * 1.0001 := mul_le_mul (by norm_num; linarith) (by norm_num; linarith) (by linarith) (by norm_num)
  have a2 := mul_le_mul_of_nonneg_left a1 hu
  have a3 := mul_le_mul_of_nonneg_left (show 1 + u0 ≤ 1.0001 by norm_num; linarith) hu
  norm_num at a2 a3 ⊢
  linarith

theorem radians_err {f : Fmt} (hw : f.Wide) (hF : 20 ≤ f.F) (hb : 2 ≤ f.bias) (m : Mode) {P x : ℕ} (R : f.RoundsTo .nearest false π P) (hx : f.Finite x)
    (h1 : 60 * f.minNormal ≤ |f.val x|) (h2 : |f.val x| ≤ f.maxFin / 4) :
    f.Finite (f.hdiv m (f.hmul m P x) (CC.lit f 180)) ∧
      |f.val (f.hdiv m (f.hmul m P x) (CC.lit f 180)) - π * f.val x / 180| ≤ 3.01 * unit100 f m * |π * f.val x / 180| := by
  obtain ⟨fP, eP, P1, P2⟩ := pi100 hF hb R
  obtain ⟨r1, r2, r3⟩ := range100 f hb
  obtain ⟨u1, u2, u3⟩ := unit100_facts f hF m
  have h180 : 180 ≤ 2 ^ f.F := le_trans (by norm_num) (Nat.pow_le_pow_right (by norm_num) hF)
  obtain ⟨fl, vl⟩ := lit_spec f hw h180
  replace vl : f.val (CC.lit f 180) = 180 := by rw [vl]; norm_num
  set X := f.val x with hX
  set V := f.val P with hV
  set u := unit100 f m with hu
  set u0 := unit100 f .nearest with hu0
  have pp := pi_pos
  have ax := abs_nonneg X
  have hV0 : 0 < V := by linarith
  have e1 : |V * X| = V * |X| := by rw [abs_mul, abs_of_pos hV0]
  have b1 : 3.14 * |X| ≤ V * |X| := mul_le_mul_of_nonneg_right P1 ax
  have b2 : V * |X| ≤ 3.15 * |X| := mul_le_mul_of_nonneg_right P2 ax
  norm_num at b1 b2 u3
  obtain ⟨fy, ey⟩ := rel_err (f.hmul_spec m fP hx) (by rw [e1]; linarith) (by rw [e1]; linarith)
  rw [fu_eq_unit, e1] at ey
  set Y := f.val (f.hmul m P x) with hY
  have uV : u * (V * |X|) ≤ 1 / 1048576 * (V * |X|) := mul_le_mul_of_nonneg_right u3 (by positivity)
  have y1 : |Y| ≤ V * |X| + u * (V * |X|) := by
    have := abs_sub_abs_le_abs_sub Y (V * X); rw [e1] at this; linarith
  have y2 : V * |X| - u * (V * |X|) ≤ |Y| := by
    have := abs_sub_abs_le_abs_sub (V * X) Y; rw [e1, abs_sub_comm] at this; linarith
  have eY : |Y / f.val (CC.lit f 180)| = |Y| / 180 := by rw [vl, abs_div]; norm_num
  obtain ⟨fr, er⟩ := rel_err (f.hdiv_spec m fy fl (by rw [vl]; norm_num)) (by rw [eY]; linarith) (by rw [eY]; linarith)
  rw [fu_eq_unit, eY, vl] at er
  refine ⟨fr, ?_⟩
  set T := π * |X| / 180 with hT
  have T0 : 0 ≤ T := by positivity
  have eT : |π * X / 180| = T := by rw [abs_div, abs_mul, abs_of_pos pp, hT]; norm_num
  rw [eT]
  have c1 : |(V - π) * X / 180| ≤ u0 * T := by
    rw [abs_div, abs_mul, abs_of_pos (show (0 : ℝ) < 180 by norm_num), hT, div_le_iff₀ (by norm_num)]
    have := mul_le_mul_of_nonneg_right eP ax
    linarith
  have c2 : V * |X| / 180 ≤ (1 + u0) * T := by
    have h := (abs_le.1 eP).2
    have := mul_le_mul_of_nonneg_right (show V ≤ (1 + u0) * π by linarith) ax
    rw [hT, div_le_iff₀ (by norm_num)]
    linarith
  have c3 : |(Y - V * X) / 180| ≤ u * ((1 + u0) * T) := by
    rw [abs_div, abs_of_pos (show (0 : ℝ) < 180 by norm_num), div_le_iff₀ (by norm_num)]
    have := mul_le_mul_of_nonneg_left c2 (show 0 ≤ u by linarith)
    have e : u * (V * |X| / 180) * 180 = u * (V * |X|) := by ring
    linarith
  have c4 : u * (|Y| / 180) ≤ u * ((1 + u) * ((1 + u0) * T)) := by
    refine mul_le_mul_of_nonneg_left ?_ (by linarith)
    have := mul_le_mul_of_nonneg_left c2 (show 0 ≤ 1 + u by linarith)
    have e : (1 + u) * (V * |X| / 180) = (V * |X| + u * (V * |X|)) / 180 := by ring
    linarith
  have tri : |f.val (f.hdiv m (f.hmul m P x) (CC.lit f 180)) - π * X / 180| ≤ u * ((1 + u) * ((1 + u0) * T)) + u * ((1 + u0) * T) + u0 * T := by
    have e : f.val (f.hdiv m (f.hmul m P x) (CC.lit f 180)) - π * X / 180 =
      (f.val (f.hdiv m (f.hmul m P x) (CC.lit f 180)) - Y / 180) + (Y - V * X) / 180 + (V - π) * X / 180 := by ring
    rw [e]
    refine le_trans (abs_add_le _ _) (add_le_add (le_trans (abs_add_le _ _) (add_le_add (le_trans er c4) c3)) c1)
  refine le_trans tri ?_
  have := small100 u1 u2 u3
  calc _ = (u * (1 + u) * (1 + u0) + u * (1 + u0) + u0) * T := by ring
    _ ≤ 3.01 * u * T := mul_le_mul_of_nonneg_right this T0

theorem degrees_err {f : Fmt} (hw : f.Wide) (hF : 20 ≤ f.F) (hb : 2 ≤ f.bias) (m : Mode) {P x : ℕ} (R : f.RoundsTo .nearest false π P) (hx : f.Finite x)
    (h1 : f.minNormal ≤ |f.val x|) (h2 : |f.val x| ≤ f.maxFin / 180) :
    f.Finite (f.hdiv m (f.hmul m (CC.lit f 180) x) P) ∧
      |f.val (f.hdiv m (f.hmul m (CC.lit f 180) x) P) - 180 * f.val x / π| ≤ 3.01 * unit100 f m * |180 * f.val x / π| := by
  obtain ⟨fP, eP, P1, P2⟩ := pi100 hF hb R
  obtain ⟨r1, r2, r3⟩ := range100 f hb
  obtain ⟨u1, u2, u3⟩ := unit100_facts f hF m
  have h180 : 180 ≤ 2 ^ f.F := le_trans (by norm_num) (Nat.pow_le_pow_right (by norm_num) hF)
  obtain ⟨fl, vl⟩ := lit_spec f hw h180
  replace vl : f.val (CC.lit f 180) = 180 := by rw [vl]; norm_num
  set X := f.val x with hX
  set V := f.val P with hV
  set u := unit100 f m with hu
  set u0 := unit100 f .nearest with hu0
  have pp := pi_pos
  have ax := abs_nonneg X
  have hV0 : 0 < V := by linarith
  have e1 : |f.val (CC.lit f 180) * X| = 180 * |X| := by rw [vl, abs_mul]; norm_num
  norm_num at u3 P1 P2
  obtain ⟨fy, ey⟩ := rel_err (f.hmul_spec m fl hx) (by rw [e1]; linarith) (by rw [e1]; linarith)
  rw [fu_eq_unit, e1, vl] at ey
  set Y := f.val (f.hmul m (CC.lit f 180) x) with hY
  have uV : u * (180 * |X|) ≤ 1 / 1048576 * (180 * |X|) := mul_le_mul_of_nonneg_right u3 (by positivity)
  have e2 : |180 * X| = 180 * |X| := by rw [abs_mul]; norm_num
  have y1 : |Y| ≤ 180 * |X| + u * (180 * |X|) := by
    have := abs_sub_abs_le_abs_sub Y (180 * X); rw [e2] at this; linarith
  have y2 : 180 * |X| - u * (180 * |X|) ≤ |Y| := by
    have := abs_sub_abs_le_abs_sub (180 * X) Y; rw [e2, abs_sub_comm] at this; linarith
  have eY : |Y / V| = |Y| / V := by rw [abs_div, abs_of_pos hV0]
  have q1 : f.minNormal ≤ |Y| / V := by
    rw [le_div_iff₀ hV0]
    have := mul_le_mul_of_nonneg_left P2 r1.le
    linarith
  have q2 : |Y| / V ≤ f.maxFin := by
    rw [div_le_iff₀ hV0]
    have := mul_le_mul_of_nonneg_left P1 (show 0 ≤ f.maxFin by linarith)
    linarith
  obtain ⟨fr, er⟩ := rel_err (f.hdiv_spec m fy fP hV0.ne') (by rw [eY]; exact q1) (by rw [eY]; exact q2)
  rw [fu_eq_unit, eY] at er
  refine ⟨fr, ?_⟩
  set T := 180 * |X| / π with hT
  have T0 : 0 ≤ T := by positivity
  have eT : |180 * X / π| = T := by rw [abs_div, e2, abs_of_pos pp]
  rw [eT]
  -- 1/V against 1/π
  have g1 : (1 - u0) * π ≤ V := by have := (abs_le.1 eP).1; linarith
  have u0s : u0 ≤ 1 / 1048576 := le_trans u2 u3
  have g2 : 180 * |X| / V ≤ (1 + 1.001 * u0) * T := by
    rw [hT, div_le_iff₀ hV0, mul_div_assoc', div_mul_eq_mul_div, le_div_iff₀ pp]
    have k : π ≤ (1 + 1.001 * u0) * V := by
      have k1 : 1 ≤ (1 + 1.001 * u0) * (1 - u0) := by nlinarith
      have k2 := mul_le_mul_of_nonneg_left g1 (show 0 ≤ 1 + 1.001 * u0 by linarith)
      have k3 := mul_le_mul_of_nonneg_right k1 pp.le
      linarith
    have := mul_le_mul_of_nonneg_left k (show 0 ≤ 180 * |X| by positivity)
    linarith
  have c1 : |180 * X / V - 180 * X / π| ≤ u0 * ((1 + 1.001 * u0) * T) := by
    have e : 180 * X / V - 180 * X / π = 180 * X / V * ((π - V) / π) := by field_simp
    rw [e, abs_mul, abs_div, e2, abs_of_pos hV0, abs_div, abs_of_pos pp, mul_comm u0]
    refine mul_le_mul g2 ?_ (by positivity) (by positivity)
    rw [div_le_iff₀ pp, abs_sub_comm]
    exact eP
  have c3 : |(Y - 180 * X) / V| ≤ u * ((1 + 1.001 * u0) * T) := by
    rw [abs_div, abs_of_pos hV0]
    refine le_trans (div_le_div_of_nonneg_right ey hV0.le) ?_
    rw [mul_div_assoc]
    exact mul_le_mul_of_nonneg_left g2 (by linarith)
  have c4 : u * (|Y| / V) ≤ u * ((1 + u) * ((1 + 1.001 * u0) * T)) := by
    refine mul_le_mul_of_nonneg_left ?_ (by linarith)
    refine le_trans (div_le_div_of_nonneg_right y1 hV0.le) ?_
    have e : (180 * |X| + u * (180 * |X|)) / V = (1 + u) * (180 * |X| / V) := by ring
    rw [e]
    exact mul_le_mul_of_nonneg_left g2 (by linarith)
  have tri : |f.val (f.hdiv m (f.hmul m (CC.lit f 180) x) P) - 180 * X / π| ≤
      u * ((1 + u) * ((1 + 1.001 * u0) * T)) + u * ((1 + 1.001 * u0) * T) + u0 * ((1 + 1.001 * u0) * T) := by
    have e : f.val (f.hdiv m (f.hmul m (CC.lit f 180) x) P) - 180 * X / π =
      (f.val (f.hdiv m (f.hmul m (CC.lit f 180) x) P) - Y / V) + (Y - 180 * X) / V + (180 * X / V - 180 * X / π) := by ring
    rw [e]
    refine le_trans (abs_add_le _ _) (add_le_add (le_trans (abs_add_le _ _) (add_le_add (le_trans er c4) c3)) c1)
  refine le_trans tri ?_
  have : (u * (1 + u) + u + u0) * (1 + 1.001 * u0) ≤ 3.01 * u := by
    have a1 : u * (1 + u) + u + u0 ≤ 3.001 * u := by nlinarith
    have a2 : 1 + 1.001 * u0 ≤ 1.001 := by norm_num; linarith
    have := mul_le_mul a1 a2 (by linarith) (by linarith : (0:ℝ) ≤ 3.001 * u)
    norm_num at this ⊢
    linarith
  calc _ = ((u * (1 + u) + u + u0) * (1 + 1.001 * u0)) * T := by ring
    _ ≤ 3.01 * u * T := mul_le_mul_of_nonneg_right this T0

/-- C100: `radians(x)` is `π x / 180` up to three roundings (constant, product, quotient), for float and double in every rounding mode -/
theorem C100_radians {ld f : Fmt} (hp : (ld, f) ∈ targets98) (hf : f = binary32 ∨ f = binary64) (m : Mode) {x : ℕ} (hx : f.Finite x)
    (h1 : 60 * f.minNormal ≤ |f.val x|) (h2 : |f.val x| ≤ f.maxFin / 4) :
    f.Finite (CC.radians ld f m x) ∧ |f.val (CC.radians ld f m x) - π * f.val x / 180| ≤ 3.01 * unit100 f m * |π * f.val x / 180| := by
  have R := C98_pi _ hp
  have hw : f.Wide := by rcases hf with rfl | rfl; exacts [binary32_wide, binary64_wide]
  have hF : 20 ≤ f.F := by rcases hf with rfl | rfl <;> decide
  have hb : 2 ≤ f.bias := by rcases hf with rfl | rfl <;> decide
  exact radians_err hw hF hb m R hx h1 h2

/-- C100: `degrees(x)` is `180 x / π` up to three roundings -/
theorem C100_degrees {ld f : Fmt} (hp : (ld, f) ∈ targets98) (hf : f = binary32 ∨ f = binary64) (m : Mode) {x : ℕ} (hx : f.Finite x)
    (h1 : f.minNormal ≤ |f.val x|) (h2 : |f.val x| ≤ f.maxFin / 180) :
    f.Finite (CC.degrees ld f m x) ∧ |f.val (CC.degrees ld f m x) - 180 * f.val x / π| ≤ 3.01 * unit100 f m * |180 * f.val x / π| := by
  have R := C98_pi _ hp
  have hw : f.Wide := by rcases hf with rfl | rfl; exacts [binary32_wide, binary64_wide]
  have hF : 20 ≤ f.F := by rcases hf with rfl | rfl <;> decide
  have hb : 2 ≤ f.bias := by rcases hf with rfl | rfl <;> decide
  exact degrees_err hw hF hb m R hx h1 h2

/-- the hypotheses hold for `x = 1` -/
example (m : Mode) : binary64.Finite (CC.radians x87 binary64 m (CC.oneLit binary64 false)) ∧ binary64.Finite (CC.degrees x87 binary64 m (CC.oneLit binary64 false)) := by
  obtain ⟨r1, -, -⟩ := range100 binary64 (by decide)
  have f1 := CC.finite_one binary64 false
  have v1 : binary64.val (CC.oneLit binary64 false) = 1 := by rw [CC.val_one, sg_false]
  have hm : binary64.minNormal ≤ 1 / 64 := by
    unfold Fmt.minNormal
    have := zpow_le_zpow_right₀ (show (1 : ℝ) ≤ 2 by norm_num) (show 1 - (binary64.bias : ℤ) ≤ -6 by decide)
    refine le_trans this (by norm_num)
  have hM : 256 ≤ binary64.maxFin := by
    unfold Fmt.maxFin
    have h1 := zpow_le_zpow_right₀ (show (1 : ℝ) ≤ 2 by norm_num) (show (8 : ℤ) ≤ (binary64.bias : ℤ) by decide)
    have h2 := zpow_le_zpow_right₀ (show (1 : ℝ) ≤ 2 by norm_num) (show -(binary64.F : ℤ) ≤ 0 by decide)
    rw [zpow_zero] at h2
    have h3 : (2 : ℝ) ^ (8 : ℤ) = 256 := by norm_num
    rw [h3] at h1
    nlinarith
  have hp : (x87, binary64) ∈ targets98 := by unfold targets98; simp
  exact ⟨(C100_radians hp (.inr rfl) m f1 (by rw [v1, abs_one]; linarith) (by rw [v1, abs_one]; linarith)).1,
    (C100_degrees hp (.inr rfl) m f1 (by rw [v1, abs_one]; linarith) (by rw [v1, abs_one]; linarith)).1⟩

theorem pi_bits {ld f : Fmt} (hp : (ld, f) ∈ targets98) : (f = binary32 → pi_v ld f = 1078530011) ∧ (f = binary64 → pi_v ld f = 4614256656552045848) := by
  have h := check98_pi
  unfold check98 at h
  simp only [Bool.and_eq_true] at h
  obtain ⟨⟨⟨⟨⟨⟨⟨⟨⟨⟨⟨⟨⟨⟨⟨⟨⟨⟨a1, a2⟩, a3⟩, c1⟩, c2⟩, -⟩, c4⟩, c5⟩, c6⟩, c7⟩, -⟩, -⟩, -⟩, -⟩, -⟩, -⟩, -⟩, -⟩, -⟩ := h
  replace a1 := Nat.eq_of_beq_eq_true a1
  replace a2 := Nat.eq_of_beq_eq_true a2
  replace a3 := Nat.eq_of_beq_eq_true a3
  replace c1 := Nat.eq_of_beq_eq_true c1
  replace c2 := Nat.eq_of_beq_eq_true c2
  replace c4 := Nat.eq_of_beq_eq_true c4
  replace c5 := Nat.eq_of_beq_eq_true c5
  replace c6 := Nat.eq_of_beq_eq_true c6
  replace c7 := Nat.eq_of_beq_eq_true c7
  have n1 : ¬ binary32 = binary64 := fun e => absurd (congrArg Fmt.F e) (by decide)
  have n2 : ¬ x87 = binary32 := fun e => absurd (congrArg Fmt.F e) (by decide)
  have n3 : ¬ x87 = binary64 := fun e => absurd (congrArg Fmt.F e) (by decide)
  unfold pi_v constant
  unfold targets98 at hp
  simp only [List.mem_cons, Prod.mk.injEq, List.not_mem_nil, or_false] at hp
  rcases hp with ⟨rfl, rfl⟩ | ⟨rfl, rfl⟩ | ⟨rfl, rfl⟩ | ⟨rfl, rfl⟩ | ⟨rfl, rfl⟩ | ⟨rfl, rfl⟩ | ⟨rfl, rfl⟩
  · rw [a1]; exact ⟨fun _ => c1, fun e => absurd e n1⟩
  · rw [a1]; exact ⟨fun e => absurd e.symm n1, fun _ => c2⟩
  · exact ⟨fun e => absurd e n2, fun e => absurd e n3⟩
  · rw [a2]; exact ⟨fun _ => c4, fun e => absurd e n1⟩
  · rw [a2]; exact ⟨fun e => absurd e.symm n1, fun _ => c5⟩
  · rw [a3]; exact ⟨fun _ => c6, fun e => absurd e n1⟩
  · rw [a3]; exact ⟨fun e => absurd e.symm n1, fun _ => c7⟩

/-- C100: NaN gives NaN, an infinity gives the same infinity, a zero gives the same zero, in every rounding mode -/
theorem C100_special {ld f : Fmt} (hp : (ld, f) ∈ targets98) (hf : f = binary32 ∨ f = binary64) (m : Mode) :
    (∀ x, f.IsNaN x → f.IsNaN (CC.radians ld f m x) ∧ f.IsNaN (CC.degrees ld f m x)) ∧
    (∀ s, CC.radians ld f m (f.inf s) = f.inf s ∧ CC.degrees ld f m (f.inf s) = f.inf s) ∧
    (∀ s, CC.radians ld f m (f.zero s) = f.zero s ∧ CC.degrees ld f m (f.zero s) = f.zero s) := by
  obtain ⟨q1, q2⟩ := pi_bits hp
  refine ⟨fun x hx => ?_, fun s => ?_, fun s => ?_⟩
  · have hx' := (f.nanB_iff hx.1).2 hx
    have hq : f.nanB f.qnan = true := (f.nanB_iff f.isNaN_qnan.1).2 f.isNaN_qnan
    simp only [CC.radians, CC.degrees, Fmt.hmul, Fmt.hdiv, hx', Bool.or_true, if_true, hq, Bool.true_or]
    exact ⟨f.isNaN_qnan, f.isNaN_qnan⟩
  · rcases hf with rfl | rfl
    · rw [CC.radians, CC.degrees, q1 rfl]; cases m <;> cases s <;> decide +kernel
    · rw [CC.radians, CC.degrees, q2 rfl]; cases m <;> cases s <;> decide +kernel
  · rcases hf with rfl | rfl
    · rw [CC.radians, CC.degrees, q1 rfl]; cases m <;> cases s <;> decide +kernel
    · rw [CC.radians, CC.degrees, q2 rfl]; cases m <;> cases s <;> decide +kernel

/-- C100, finding: `radians` of the largest number is infinite, although the angle is below that number -/
theorem C100_radians_overflow {ld f : Fmt} (hp : (ld, f) ∈ targets98) (hf : f = binary32 ∨ f = binary64) :
    CC.radians ld f .nearest (f.infMag - 1) = f.inf false ∧ f.Finite (f.infMag - 1) ∧ |π * f.val (f.infMag - 1) / 180| ≤ f.val (f.infMag - 1) := by
  obtain ⟨q1, q2⟩ := pi_bits hp
  have hfin : f.Finite (f.infMag - 1) ∧ f.sgn (f.infMag - 1) = false := by
    rcases hf with rfl | rfl <;> exact ⟨(Fmt.finite_iff _ _).2 (by decide +kernel), by decide +kernel⟩
  refine ⟨?_, hfin.1, ?_⟩
  · rcases hf with rfl | rfl
    · rw [CC.radians, q1 rfl]; decide +kernel
    · rw [CC.radians, q2 rfl]; decide +kernel
  · have h0 : 0 ≤ f.val (f.infMag - 1) := by
      by_contra h
      have := sgn_of_neg f (not_le.1 h)
      rw [hfin.2] at this
      exact absurd this (by simp)
    have := pi_lt_d4
    have pp := pi_pos
    rw [abs_of_nonneg (by positivity), div_le_iff₀ (by norm_num)]
    norm_num at this
    have := mul_le_mul_of_nonneg_right this.le h0
    linarith

/-- C100, finding: `degrees` of a power of two is infinite, although the angle is finite -/
theorem C100_degrees_overflow {ld f : Fmt} (hp : (ld, f) ∈ targets98) (hf : f = binary32 ∨ f = binary64) :
    ∃ x, CC.degrees ld f .nearest x = f.inf false ∧ f.Finite x ∧ f.val x = 2 ^ ((f.bias : ℤ) - 6) ∧ |180 * f.val x / π| ≤ f.maxFin := by
  obtain ⟨q1, q2⟩ := pi_bits hp
  obtain ⟨x, hx1, hx2, hx3⟩ : ∃ x, CC.degrees ld f .nearest x = f.inf false ∧ f.Finite x ∧ f.val x = 2 ^ ((f.bias : ℤ) - 6) := by
    have hb : 8 ≤ f.bias := by rcases hf with rfl | rfl <;> decide
    obtain ⟨hfin, hval, -⟩ := CC.pow2Lit_spec f (e := 2 * f.bias - 6) (by omega) (by omega)
    refine ⟨CC.pow2Lit f (2 * f.bias - 6), ?_, hfin, ?_⟩
    · rcases hf with rfl | rfl
      · rw [CC.degrees, q1 rfl]; decide +kernel
      · rw [CC.degrees, q2 rfl]; decide +kernel
    · rw [hval]; congr 1; omega
  refine ⟨x, hx1, hx2, hx3, ?_⟩
  have e : (2 : ℝ) ^ ((f.bias : ℤ) - 6) = 2 ^ (f.bias : ℤ) / 64 := by
    rw [zpow_sub₀ (by norm_num)]; norm_num
  have h0 : (0 : ℝ) < 2 ^ (f.bias : ℤ) := zpow_pos (by norm_num) _
  have h2 := zpow_le_zpow_right₀ (show (1 : ℝ) ≤ 2 by norm_num) (show -(f.F : ℤ) ≤ 0 by omega)
  rw [zpow_zero] at h2
  have hM : (2 : ℝ) ^ (f.bias : ℤ) ≤ f.maxFin := by unfold Fmt.maxFin; nlinarith
  have pp := pi_gt_d4
  norm_num at pp
  rw [hx3, e, abs_of_nonneg (by positivity), div_le_iff₀ pi_pos]
  nlinarith

end Verif
