import Verif.Model.Numbers
import Verif.Lemmas.Numbers
import Verif.Lemmas.Mono
import Mathlib.Analysis.Real.Pi.Bounds
import Mathlib.Analysis.SpecialFunctions.Log.Base

/-!
# C98: the constants of `ccm::numbers` are the correctly rounded mathematical constants

For `float` and `double`, whatever the format of `long double` (x87, binary64 or binary128), and for the x87 `long double` itself.  The double rounding
(decimal to `long double`, `long double` to `Real`) does no harm for any of the thirteen constants.
-/

namespace Verif
open Fmt CC.Numbers

/-- the pairs (format of `long double`, format of `Real`) considered -/
def targets98 : List (Fmt × Fmt) :=
  [(x87, binary32), (x87, binary64), (x87, x87), (binary64, binary32), (binary64, binary64), (quad, binary32), (quad, binary64)]

/-- `c` is the real number `v` rounded to nearest, ties to even, in every format considered -/
def Rounded98 (v : ℝ) (c : Fmt → Fmt → ℕ) : Prop := ∀ p ∈ targets98, p.2.RoundsTo .nearest false v (c p.1 p.2)

/-- two rationals that enclose `v` and round to the same number: so does `v` -/
theorem lit_between (f : Fmt) {N₁ N₂ D b : ℕ} {v : ℝ} (hD : 0 < D) (hN : 0 < N₁) (h1 : f.roundQ .nearest false (N₁ * f.uscale) D = b)
    (h2 : f.roundQ .nearest false (N₂ * f.uscale) D = b) (hf : f.mag b < f.infMag) (l1 : (N₁ : ℝ) / D ≤ v) (l2 : v ≤ (N₂ : ℝ) / D) :
    f.RoundsTo .nearest false v b := by
  have hDr : (0 : ℝ) < D := by exact_mod_cast hD
  have hN1r : (0 : ℝ) < N₁ := by exact_mod_cast hN
  have hv : 0 < v := lt_of_lt_of_le (by positivity) l1
  have hv2 : (0 : ℝ) < (N₂ : ℝ) / D := lt_of_lt_of_le hv l2
  have R : ∀ N : ℕ, 0 < (N : ℝ) → f.RoundsTo .nearest false ((N : ℝ) / D) (f.roundQ .nearest false (N * f.uscale) D) := by
    intro N _
    have := f.roundsTo_roundQ .nearest false false (N := N * f.uscale) hD (fun _ => rfl)
    have e : sg false * (((N * f.uscale : ℕ) : ℝ) / D * f.minSub) = (N : ℝ) / D := by
      rw [sg_false, one_mul]; push_cast
      rw [mul_div_right_comm, mul_assoc, f.uscale_minSub, mul_one]
    rwa [e] at this
  have R1 := R N₁ hN1r
  have R2 := R N₂ (by by_contra h; have : (N₂ : ℝ) / D ≤ 0 := div_nonpos_of_nonpos_of_nonneg (not_lt.1 h) hDr.le; linarith)
  rw [h1] at R1
  rw [h2] at R2
  obtain ⟨c, Rc⟩ := f.exists_roundsTo .nearest false v
  have x1 := R1.mono Rc l1
  have x2 := Rc.mono R2 l2
  have fb : f.Finite b := (f.finite_iff b).2 ⟨R1.valid, hf⟩
  have ex : f.xval c = f.xval b := le_antisymm x2 x1
  have fc : f.Finite c := by
    refine ⟨Rc.valid, fun h => ?_⟩
    rw [f.xval_of_finite fb] at ex
    unfold Fmt.xval at ex
    rw [if_pos h] at ex
    split at ex
    · exact EReal.bot_ne_coe _ ex
    · exact EReal.top_ne_coe _ ex
  rw [f.xval_of_finite fb, f.xval_of_finite fc, EReal.coe_eq_coe_iff] at ex
  have e : c = b := f.eq_of_val_eq Rc.valid R1.valid ex (by
    rw [Rc.sign, R1.sign, if_neg hv.ne', if_neg (by positivity), decide_eq_false (not_lt.2 hv.le), decide_eq_false (not_lt.2 (by positivity))])
  rw [← e]; exact Rc

/-- the intermediate and final patterns of the constant `N·10^-33`, and both decimals `N₁·10^-24` and `N₂·10^-24` round to them -/
def check98 (N N₁ N₂ lx ld lq b32 b64 bx : ℕ) : Bool :=
  Nat.beq (x87.roundQ .nearest false (N * x87.uscale) (10 ^ 33)) lx && Nat.beq (binary64.roundQ .nearest false (N * binary64.uscale) (10 ^ 33)) ld &&
  Nat.beq (quad.roundQ .nearest false (N * quad.uscale) (10 ^ 33)) lq &&
  Nat.beq (binary32.hcvt x87 .nearest lx) b32 && Nat.beq (binary64.hcvt x87 .nearest lx) b64 && Nat.beq (x87.hcvt x87 .nearest lx) bx &&
  Nat.beq (binary32.hcvt binary64 .nearest ld) b32 && Nat.beq (binary64.hcvt binary64 .nearest ld) b64 &&
  Nat.beq (binary32.hcvt quad .nearest lq) b32 && Nat.beq (binary64.hcvt quad .nearest lq) b64 &&
  Nat.beq (binary32.roundQ .nearest false (N₁ * binary32.uscale) (10 ^ 24)) b32 && Nat.beq (binary32.roundQ .nearest false (N₂ * binary32.uscale) (10 ^ 24)) b32 &&
  Nat.beq (binary64.roundQ .nearest false (N₁ * binary64.uscale) (10 ^ 24)) b64 && Nat.beq (binary64.roundQ .nearest false (N₂ * binary64.uscale) (10 ^ 24)) b64 &&
  Nat.beq (x87.roundQ .nearest false (N₁ * x87.uscale) (10 ^ 24)) bx && Nat.beq (x87.roundQ .nearest false (N₂ * x87.uscale) (10 ^ 24)) bx &&
  Nat.blt (binary32.mag b32) binary32.infMag && Nat.blt (binary64.mag b64) binary64.infMag && Nat.blt (x87.mag bx) x87.infMag

/-- each of the nineteen checks on its own -/
macro "split98" : tactic => `(tactic| (unfold check98
                                       simp only [Bool.and_eq_true]
                                       refine ⟨⟨⟨⟨⟨⟨⟨⟨⟨⟨⟨⟨⟨⟨⟨⟨⟨⟨?_, ?_⟩, ?_⟩, ?_⟩, ?_⟩, ?_⟩, ?_⟩, ?_⟩, ?_⟩, ?_⟩, ?_⟩, ?_⟩, ?_⟩, ?_⟩, ?_⟩, ?_⟩, ?_⟩, ?_⟩, ?_⟩ <;> decide +kernel))

theorem rounded98 {N N₁ N₂ lx ld lq b32 b64 bx : ℕ} (h : check98 N N₁ N₂ lx ld lq b32 b64 bx = true) (hN : 0 < N₁) {v : ℝ}
    (l1 : (N₁ : ℝ) / 1000000000000000000000000 ≤ v) (l2 : v ≤ (N₂ : ℝ) / 1000000000000000000000000) : Rounded98 v (constant N) := by
  unfold check98 at h
  simp only [Bool.and_eq_true] at h
  obtain ⟨⟨⟨⟨⟨⟨⟨⟨⟨⟨⟨⟨⟨⟨⟨⟨⟨⟨a1, a2⟩, a3⟩, c1⟩, c2⟩, c3⟩, c4⟩, c5⟩, c6⟩, c7⟩, e1⟩, e2⟩, e3⟩, e4⟩, e5⟩, e6⟩, m1⟩, m2⟩, m3⟩ := h
  replace a1 := Nat.eq_of_beq_eq_true a1
  replace a2 := Nat.eq_of_beq_eq_true a2
  replace a3 := Nat.eq_of_beq_eq_true a3
  have k32 := lit_between binary32 (D := 10 ^ 24) (by norm_num) hN (Nat.eq_of_beq_eq_true e1) (Nat.eq_of_beq_eq_true e2) (Nat.le_of_ble_eq_true m1)
    (by push_cast; exact l1) (by push_cast; exact l2)
  have k64 := lit_between binary64 (D := 10 ^ 24) (by norm_num) hN (Nat.eq_of_beq_eq_true e3) (Nat.eq_of_beq_eq_true e4) (Nat.le_of_ble_eq_true m2)
    (by push_cast; exact l1) (by push_cast; exact l2)
  have kx := lit_between x87 (D := 10 ^ 24) (by norm_num) hN (Nat.eq_of_beq_eq_true e5) (Nat.eq_of_beq_eq_true e6) (Nat.le_of_ble_eq_true m3)
    (by push_cast; exact l1) (by push_cast; exact l2)
  unfold Rounded98 targets98
  simp only [List.forall_mem_cons, constant, a1, a2, a3, Nat.eq_of_beq_eq_true c1, Nat.eq_of_beq_eq_true c2, Nat.eq_of_beq_eq_true c3,
    Nat.eq_of_beq_eq_true c4, Nat.eq_of_beq_eq_true c5, Nat.eq_of_beq_eq_true c6, Nat.eq_of_beq_eq_true c7]
  exact ⟨k32, k64, kx, k32, k64, k32, k64, fun _ h => absurd h (by simp)⟩

theorem check98_e : check98 2718281828459045235360287471352662 2718281828459045235339000 2718281828459045235370000 151119039942094241876635 4613303445314885481 85072456496475341142105738053475651193 1076754516 4613303445314885481 151119039942094241876635 = true := by split98

/-- **C98** `numbers::e_v`, numbers.hpp -/
theorem C98_e : Rounded98 (Real.exp 1) e_v := by
  show Rounded98 _ (constant _)
  refine rounded98 check98_e (by norm_num) ?_ ?_ <;> push_cast
  · obtain ⟨b1, b2⟩ := exp1_digits
    norm_num at *; linarith
  · obtain ⟨b1, b2⟩ := exp1_digits
    norm_num at *; linarith

theorem check98_log2e : check98 1442695040888963407359924681001892 1442695040888963407357924 1442695040888963407361924 151110587220852781609148 4609176140021203710 85067698037446177749980914128013808186 1069066811 4609176140021203710 151110587220852781609148 = true := by split98

/-- **C98** `numbers::log2e_v`, numbers.hpp -/
theorem C98_log2e : Rounded98 (Real.logb 2 (Real.exp 1)) log2e_v := by
  show Rounded98 _ (constant _)
  refine rounded98 check98_log2e (by norm_num) ?_ ?_ <;> push_cast
  · obtain ⟨b1, b2⟩ := ln2_digits
    have h0 : 0 < Real.log 2 := Real.log_pos (by norm_num)
    rw [Real.logb, Real.log_exp]
    rw [le_div_iff₀ h0]; norm_num at *; linarith
  · obtain ⟨b1, b2⟩ := ln2_digits
    have h0 : 0 < Real.log 2 := Real.log_pos (by norm_num)
    rw [Real.logb, Real.log_exp]
    rw [div_le_iff₀ h0]; norm_num at *; linarith

theorem check98_log10e : check98 434294481903251827651128918916605 434294481903251827649128 434294481903251827653128 151094856602001814876565 4601495173785380110 85058842486296737615379673516364225126 1054759897 4601495173785380110 151094856602001814876565 = true := by split98

/-- **C98** `numbers::log10e_v`, numbers.hpp -/
theorem C98_log10e : Rounded98 (Real.logb 10 (Real.exp 1)) log10e_v := by
  show Rounded98 _ (constant _)
  refine rounded98 check98_log10e (by norm_num) ?_ ?_ <;> push_cast
  · obtain ⟨b1, b2⟩ := ln10_bounds
    have h0 : 0 < Real.log 10 := Real.log_pos (by norm_num)
    rw [Real.logb, Real.log_exp]
    rw [le_div_iff₀ h0]; norm_num at *; linarith
  · obtain ⟨b1, b2⟩ := ln10_bounds
    have h0 : 0 < Real.log 10 := Real.log_pos (by norm_num)
    rw [Real.logb, Real.log_exp]
    rw [div_le_iff₀ h0]; norm_num at *; linarith

theorem check98_pi : check98 3141592653589793238462643383279502 3141592653589793238460000 3141592653589793238480000 151120992118707946308149 4614256656552045848 85073555474209096226415955104694206902 1078530011 4614256656552045848 151120992118707946308149 = true := by split98

/-- **C98** `numbers::pi_v`, numbers.hpp -/
theorem C98_pi : Rounded98 (Real.pi) pi_v := by
  show Rounded98 _ (constant _)
  refine rounded98 check98_pi (by norm_num) ?_ ?_ <;> push_cast
  · have b1 := Real.pi_gt_d20
    have b2 := Real.pi_lt_d20
    norm_num at *; linarith
  · have b1 := Real.pi_gt_d20
    have b2 := Real.pi_lt_d20
    norm_num at *; linarith

theorem check98_inv_pi : check98 318309886183790671537767526745028 318309886183790671535767 318309886183790671539767 151090577525694355739946 4599405781057128579 85056433580488767254673212869907311195 1050868099 4599405781057128579 151090577525694355739946 = true := by split98

/-- **C98** `numbers::inv_pi_v`, numbers.hpp -/
theorem C98_inv_pi : Rounded98 (1 / Real.pi) inv_pi_v := by
  show Rounded98 _ (constant _)
  refine rounded98 check98_inv_pi (by norm_num) ?_ ?_ <;> push_cast
  · have b1 := Real.pi_gt_d20
    have b2 := Real.pi_lt_d20
    have h0 := Real.pi_pos
    rw [le_div_iff₀ h0]; norm_num at *; linarith
  · have b1 := Real.pi_gt_d20
    have b2 := Real.pi_lt_d20
    have h0 := Real.pi_pos
    rw [div_le_iff₀ h0]; norm_num at *; linarith

theorem check98_inv_sqrtpi : check98 564189583547756286948079451560772 564189583547756286946079 564189583547756286950079 151098464796574840744077 4603256987541740397 85060873719263557558235421797290792951 1058041531 4603256987541740397 151098464796574840744077 = true := by split98

/-- **C98** `numbers::inv_sqrtpi_v`, numbers.hpp -/
theorem C98_inv_sqrtpi : Rounded98 (1 / Real.sqrt Real.pi) inv_sqrtpi_v := by
  show Rounded98 _ (constant _)
  refine rounded98 check98_inv_sqrtpi (by norm_num) ?_ ?_ <;> push_cast
  · have b1 := Real.pi_gt_d20
    have b2 := Real.pi_lt_d20
    rw [one_div, ← Real.sqrt_inv, ← one_div]
    refine Real.le_sqrt_of_sq_le ?_
    rw [le_div_iff₀ Real.pi_pos]; norm_num at *; linarith
  · have b1 := Real.pi_gt_d20
    have b2 := Real.pi_lt_d20
    rw [one_div, ← Real.sqrt_inv, ← one_div]
    refine (Real.sqrt_le_left (by positivity)).2 ?_
    rw [div_le_iff₀ Real.pi_pos]; norm_num at *; linarith

theorem check98_ln2 : check98 693147180559945309417232121458176 693147180559945309415232 693147180559945309419232 151100843644363285166508 4604418534313441775 85062212891515258736905141183858083808 1060205080 4604418534313441775 151100843644363285166508 = true := by split98

/-- **C98** `numbers::ln2_v`, numbers.hpp -/
theorem C98_ln2 : Rounded98 (Real.log 2) ln2_v := by
  show Rounded98 _ (constant _)
  refine rounded98 check98_ln2 (by norm_num) ?_ ?_ <;> push_cast
  · obtain ⟨b1, b2⟩ := ln2_digits
    norm_num at *; linarith
  · obtain ⟨b1, b2⟩ := ln2_digits
    norm_num at *; linarith

theorem check98_ln10 : check98 2302585092994045684017991454684364 2302585092994045684015991 2302585092994045684020000 151117122879271392029719 4612367379483415830 85071377286048512091886426739441075622 1075010958 4612367379483415830 151117122879271392029719 = true := by split98

/-- **C98** `numbers::ln10_v`, numbers.hpp -/
theorem C98_ln10 : Rounded98 (Real.log 10) ln10_v := by
  show Rounded98 _ (constant _)
  refine rounded98 check98_ln10 (by norm_num) ?_ ?_ <;> push_cast
  · obtain ⟨b1, b2⟩ := ln10_bounds
    norm_num at *; linarith
  · obtain ⟨b1, b2⟩ := ln10_bounds
    norm_num at *; linarith

theorem check98_sqrt2 : check98 1414213562373095048801688724209698 1414213562373095048799688 1414213562373095048803688 151110324525580270068868 4609047870845172685 85067550153154753379518018897890962069 1068827891 4609047870845172685 151110324525580270068868 = true := by split98

/-- **C98** `numbers::sqrt2_v`, numbers.hpp -/
theorem C98_sqrt2 : Rounded98 (Real.sqrt 2) sqrt2_v := by
  show Rounded98 _ (constant _)
  refine rounded98 check98_sqrt2 (by norm_num) ?_ ?_ <;> push_cast
  · exact Real.le_sqrt_of_sq_le (by norm_num)
  · exact (Real.sqrt_le_left (by positivity)).2 (by norm_num)

theorem check98_sqrt3 : check98 1732050807568877293527446341505872 1732050807568877293525446 1732050807568877293529446 151113256056739879801758 4610479282544200874 85069200458484508803402267362344335542 1071494103 4610479282544200874 151113256056739879801758 = true := by split98

/-- **C98** `numbers::sqrt3_v`, numbers.hpp -/
theorem C98_sqrt3 : Rounded98 (Real.sqrt 3) sqrt3_v := by
  show Rounded98 _ (constant _)
  refine rounded98 check98_sqrt3 (by norm_num) ?_ ?_ <;> push_cast
  · exact Real.le_sqrt_of_sq_le (by norm_num)
  · exact (Real.sqrt_le_left (by positivity)).2 (by norm_num)

theorem check98_inv_sqrt3 : check98 577350269189625764509148780501957 577350269189625764507148 577350269189625764511148 151098707568374710854249 4603375528459645724 85061010387636986444835178033661541153 1058262330 4603375528459645724 151098707568374710854249 = true := by split98

/-- **C98** `numbers::inv_sqrt3_v`, numbers.hpp -/
theorem C98_inv_sqrt3 : Rounded98 (1 / Real.sqrt 3) inv_sqrt3_v := by
  show Rounded98 _ (constant _)
  refine rounded98 check98_inv_sqrt3 (by norm_num) ?_ ?_ <;> push_cast
  · rw [one_div, ← Real.sqrt_inv, ← one_div]
    exact Real.le_sqrt_of_sq_le (by norm_num)
  · rw [one_div, ← Real.sqrt_inv, ← one_div]
    exact (Real.sqrt_le_left (by positivity)).2 (by norm_num)

theorem check98_egamma : check98 577215664901532860606512090082402 577215664901532860600000 577215664901532860620000 151098705085363857180581 4603374316052002329 85061008989826142024631502139283341985 1058260072 4603374316052002329 151098705085363857180581 = true := by split98

/-- **C98** `numbers::egamma_v`, numbers.hpp -/
theorem C98_egamma : Rounded98 (Real.eulerMascheroniConstant) egamma_v := by
  show Rounded98 _ (constant _)
  refine rounded98 check98_egamma (by norm_num) ?_ ?_ <;> push_cast
  · obtain ⟨b1, b2⟩ := egamma_digits
    norm_num at *; linarith
  · obtain ⟨b1, b2⟩ := egamma_digits
    norm_num at *; linarith

theorem check98_phi : check98 1618033988749894848204586834365638 1618033988749894848202586 1618033988749894848206586 151112204437201453661707 4609965796441453736 85068608449314334866235838774483377389 1070537661 4609965796441453736 151112204437201453661707 = true := by split98

/-- **C98** `numbers::phi_v`, numbers.hpp -/
theorem C98_phi : Rounded98 ((1 + Real.sqrt 5) / 2) phi_v := by
  show Rounded98 _ (constant _)
  refine rounded98 check98_phi (by norm_num) ?_ ?_ <;> push_cast
  · have b1 : (2236067977499789696409074 : ℝ) / 10 ^ 24 ≤ Real.sqrt 5 := Real.le_sqrt_of_sq_le (by norm_num)
    have b2 : Real.sqrt 5 ≤ (2236067977499789696409274 : ℝ) / 10 ^ 24 := (Real.sqrt_le_left (by positivity)).2 (by norm_num)
    norm_num at *; linarith
  · have b1 : (2236067977499789696409074 : ℝ) / 10 ^ 24 ≤ Real.sqrt 5 := Real.le_sqrt_of_sq_le (by norm_num)
    have b2 : Real.sqrt 5 ≤ (2236067977499789696409274 : ℝ) / 10 ^ 24 := (Real.sqrt_le_left (by positivity)).2 (by norm_num)
    norm_num at *; linarith

/-- the statements are about concrete numbers: the double nearest to `π` is the literal used in the models of the inverse trigonometric functions -/
example : pi_v x87 binary64 = 0x400921FB54442D18 := by
  have h : x87.roundQ .nearest false (3141592653589793238462643383279502 * x87.uscale) (10 ^ 33) = 151120992118707946308149 := by decide +kernel
  unfold pi_v constant
  rw [h]
  decide +kernel

end Verif
