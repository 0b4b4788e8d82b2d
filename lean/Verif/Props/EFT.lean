import Verif.Model.EFT
import Verif.Lemmas.EFTMul
import Verif.Props.Fma

/-!
# C33: error-free transformations
-/

namespace Verif
open Fmt
variable (f : Fmt)

/-- `exact_add` / `fast_two_sum`: for finite `a`, `b` with `|a| ≥ |b|` or `a = 0`, in round-to-nearest, if the sum does not overflow then `hi` is
the correctly rounded sum and `hi + lo = a + b` exactly. -/
theorem C33_fast_two_sum {a b : ℕ} (ha : f.Finite a) (hb : f.Finite b) (hab : |f.val b| ≤ |f.val a| ∨ f.val a = 0)
    (hs : f.Finite (CC.exactAdd f .nearest a b).hi) :
    (∃ zs, f.RoundsTo .nearest zs (f.val a + f.val b) (CC.exactAdd f .nearest a b).hi) ∧
      f.Finite (CC.exactAdd f .nearest a b).lo ∧
      f.val (CC.exactAdd f .nearest a b).hi + f.val (CC.exactAdd f .nearest a b).lo = f.val a + f.val b := by
  have H := f.hadd_spec .nearest ha hb
  have T := f.hsub_spec .nearest (x := f.hadd .nearest a b) hs ha
  have ht : f.Finite (f.hsub .nearest (f.hadd .nearest a b) a) := by
    rcases hab with h | h
    · exact (RoundsTo.exact_of T (sum_sub_rep ha hb h H hs)).1
    · rw [h, sub_zero] at T
      exact (RoundsTo.exact_of T ⟨_, hs, rfl⟩).1
  have L := f.hsub_spec .nearest hb ht
  obtain ⟨-, -, h3, h4⟩ := fastTwoSum_spec ha hb hab H hs T L
  exact ⟨⟨_, H⟩, h3, h4⟩

-- 2^53 + 1 + 2^-60: neither operand fits into the other
example : binary64.Finite 0x4340000000000000 ∧ binary64.Finite 0x3FF0000000000001 ∧
    CC.exactAdd binary64 .nearest 0x4340000000000000 0x3FF0000000000001 = { lo := 0xBFEFFFFFFFFFFFFE, hi := 0x4340000000000001 } := by
  refine ⟨?_, ?_, ?_⟩
  · rw [finite_iff]; decide +kernel
  · rw [finite_iff]; decide +kernel
  · decide +kernel

/-- The documented precondition `|a| ≥ |b|` is needed: for these two doubles (both finite, no overflow) the pair is not the exact sum. -/
theorem C33_fast_two_sum_precondition :
    ∃ a b : ℕ, binary64.Finite a ∧ binary64.Finite b ∧ binary64.Finite (CC.exactAdd binary64 .nearest a b).hi ∧
      binary64.val (CC.exactAdd binary64 .nearest a b).hi + binary64.val (CC.exactAdd binary64 .nearest a b).lo ≠
        binary64.val a + binary64.val b := by
  refine ⟨0x43325464e56321e7, 0x43551b4ceb652d51, ?_, ?_, ?_, ?_⟩
  · rw [finite_iff]; decide +kernel
  · rw [finite_iff]; decide +kernel
  · rw [finite_iff]; decide +kernel
  · rw [val_eq_ival, val_eq_ival, val_eq_ival, val_eq_ival, ← add_mul, ← add_mul]
    intro h
    have h := mul_right_cancel₀ binary64.minSub_pos.ne' h
    have h : binary64.ival (CC.exactAdd binary64 .nearest 0x43325464e56321e7 0x43551b4ceb652d51).hi +
      binary64.ival (CC.exactAdd binary64 .nearest 0x43325464e56321e7 0x43551b4ceb652d51).lo =
        binary64.ival 0x43325464e56321e7 + binary64.ival 0x43551b4ceb652d51 := by exact_mod_cast h
    revert h
    decide +kernel

/-- `two_sum`: for any two finite values of at most a quarter of the overflow threshold, in any order, in round-to-nearest, `s` is the correctly
rounded sum and `s + t = a + b` exactly. -/
theorem C33_two_sum {a b : ℕ} (ha : f.Finite a) (hb : f.Finite b) (ba : |f.val a| ≤ 2 ^ ((f.bias : ℤ) - 1))
    (bb : |f.val b| ≤ 2 ^ ((f.bias : ℤ) - 1)) :
    (∃ zs, f.RoundsTo .nearest zs (f.val a + f.val b) (CC.twoSum f .nearest a b).hi) ∧
      f.Finite (CC.twoSum f .nearest a b).hi ∧ f.Finite (CC.twoSum f .nearest a b).lo ∧
      f.val (CC.twoSum f .nearest a b).hi + f.val (CC.twoSum f .nearest a b).lo = f.val a + f.val b := by
  have hpw : (2 : ℝ) ^ (f.bias : ℤ) = 2 * (2 : ℝ) ^ ((f.bias : ℤ) - 1) := by rw [← two_zpow_succ]; congr 1; ring
  have hmf : 2 * (2 : ℝ) ^ ((f.bias : ℤ) - 1) + (2 : ℝ) ^ ((f.bias : ℤ) - 1) ≤ f.maxFin := by
    have h1 := f.maxFin_add
    have h2 : (2 : ℝ) ^ ((f.bias : ℤ) - f.F) ≤ (2 : ℝ) ^ ((f.bias : ℤ) - 1) := two_zpow_le (by have := f.hF; omega)
    have h3 := two_zpow_succ (f.bias : ℤ)
    linarith
  have hp := two_zpow_pos ((f.bias : ℤ) - 1)
  have H := f.hadd_spec .nearest ha hb
  have hsum : |f.val a + f.val b| ≤ 2 * (2 : ℝ) ^ ((f.bias : ℤ) - 1) := by
    have := abs_add_le (f.val a) (f.val b); linarith
  have hs : f.Finite (f.hadd .nearest a b) := RoundsTo.finite_of_le f H (by linarith)
  -- the rounded sum is at most `2^bias`
  have hsb : |f.val (f.hadd .nearest a b)| ≤ 2 * (2 : ℝ) ^ ((f.bias : ℤ) - 1) := by
    rw [← hpw]
    have hb2 : (2 : ℝ) ^ (f.bias : ℤ) < (2 : ℝ) ^ ((f.bias : ℤ) + 1) := two_zpow_lt (by omega)
    have hb3 := two_zpow_pos (f.bias : ℤ)
    have hbp := f.bias_pos
    have hem : f.emin ≤ (f.bias : ℤ) := by unfold emin; omega
    have hle : (2 : ℝ) ^ (f.bias : ℤ) ≤ (2 : ℝ) ^ ((f.bias : ℤ) + f.F + 1) := two_zpow_le (by omega)
    obtain ⟨P, hP1, hP2⟩ := f.rep (Mult.two_zpow (f.bias : ℤ)) hem (by rwa [abs_of_pos hb3]) (by rwa [abs_of_pos hb3])
    obtain ⟨N, hN1, hN2⟩ := f.rep (Mult.two_zpow (f.bias : ℤ)).neg hem (by rwa [abs_neg, abs_of_pos hb3]) (by rwa [abs_neg, abs_of_pos hb3])
    rw [← hpw] at hsum
    have := abs_le.1 hsum
    obtain ⟨-, h1, h2⟩ := RoundsTo.between H hN1 hP1 (by linarith) (by linarith)
    rw [abs_le]; constructor <;> linarith
  have A' := f.hsub_spec .nearest hs hb
  have ha' : f.Finite (f.hsub .nearest (f.hadd .nearest a b) b) := RoundsTo.finite_of_le f A' (by
    have := abs_sub (f.val (f.hadd .nearest a b)) (f.val b); linarith)
  obtain ⟨h1, h2⟩ := twoSum_spec ha hb H hs A' ha' (fun h => f.hsub_spec .nearest hs h) (fun h => f.hsub_spec .nearest ha h)
    (fun h => f.hsub_spec .nearest hb h) (fun h h' => f.hadd_spec .nearest h h')
  exact ⟨⟨_, H⟩, hs, h1, h2⟩

-- the pair on which `fast_two_sum` fails
example : binary64.Finite 0x43325464e56321e7 ∧ binary64.Finite 0x43551b4ceb652d51 ∧
    CC.twoSum binary64 .nearest 0x43325464e56321e7 0x43551b4ceb652d51 = { lo := 0xBFF0000000000000, hi := 0x4359b06624bdf5cb } := by
  refine ⟨?_, ?_, ?_⟩
  · rw [finite_iff]; decide +kernel
  · rw [finite_iff]; decide +kernel
  · decide +kernel

theorem normal_ce {x : ℕ} (h : f.minNormal ≤ |f.val x|) : (2 : ℝ) ^ (f.ce x + f.F) ≤ |f.val x| := by
  rcases f.ce_normal x with h1 | h1
  · rw [h1]; unfold emin
    rw [show 1 - (f.bias : ℤ) - f.F + f.F = 1 - f.bias by ring]; exact h
  · exact h1

theorem val_of_ival {x : ℕ} {a : ℤ} (h : f.ival x = a * f.uscale) : f.val x = a := by
  rw [val_eq_ival, h]; push_cast
  rw [mul_assoc, f.uscale_minSub, mul_one]

theorem splitConst_val : binary64.Finite CC.splitConst ∧ binary64.val CC.splitConst = 2 ^ 27 + 1 := by
  refine ⟨by rw [finite_iff]; decide +kernel, ?_⟩
  rw [val_of_ival binary64 (a := 2 ^ 27 + 1) (by decide +kernel)]
  norm_num

theorem split_core {x : ℕ} (hx : binary64.Finite x) (hn : (2 : ℝ) ^ (-1022 : ℤ) ≤ |binary64.val x|) (hb : |binary64.val x| ≤ 2 ^ (995 : ℤ)) :
    binary64.Finite (CC.split .nearest x).hi ∧ binary64.Finite (CC.split .nearest x).lo ∧
      binary64.val (CC.split .nearest x).hi + binary64.val (CC.split .nearest x).lo = binary64.val x ∧
      Mult (binary64.ce x + 27) (binary64.val (CC.split .nearest x).hi) ∧
      |binary64.val (CC.split .nearest x).hi| ≤ (2 : ℝ) ^ (binary64.ce x + 52 + 1) ∧
      Mult (binary64.ce x) (binary64.val (CC.split .nearest x).lo) ∧
      |binary64.val (CC.split .nearest x).lo| ≤ (2 : ℝ) ^ (binary64.ce x + 27 - 1) := by
  have hbias : (binary64.bias : ℤ) = 1023 := by decide +kernel
  have hG := binary64.hmul_spec .nearest splitConst_val.1 hx
  refine veltkamp_spec (f := binary64) (σ := 27) (by norm_num) (by decide) (normal_ce binary64 ?_) splitConst_val.2 ?_ hG
    (fun h => binary64.hsub_spec .nearest hx h) (fun h h' => binary64.hadd_spec .nearest h h') (fun h => binary64.hsub_spec .nearest hx h)
  · unfold minNormal; rw [hbias, show (1 : ℤ) - 1023 = -1022 by norm_num]; exact hn
  · rw [hbias]
    calc |binary64.val x| * 2 ^ (27 + 1) ≤ 2 ^ (995 : ℤ) * 2 ^ (27 + 1) := mul_le_mul_of_nonneg_right hb (by positivity)
      _ = 2 ^ (1023 : ℤ) := by rw [← zpow_natCast, ← zpow_add₀ (by norm_num)]; norm_num

/-- `split` (double): a normal `x` with `|x| ≤ 2^995` is split into `hi + lo = x` exactly, both of at most 26 significant bits
(`hi = H·2^(e+27)`, `lo = L·2^e` with `|H|, |L| ≤ 2^26`). -/
theorem C33_split {x : ℕ} (hx : binary64.Finite x) (hn : (2 : ℝ) ^ (-1022 : ℤ) ≤ |binary64.val x|) (hb : |binary64.val x| ≤ 2 ^ (995 : ℤ)) :
    ∃ e H L : ℤ, |H| ≤ 2 ^ 26 ∧ |L| ≤ 2 ^ 26 ∧
      binary64.val (CC.split .nearest x).hi = H * (2 : ℝ) ^ (e + 27) ∧ binary64.val (CC.split .nearest x).lo = L * (2 : ℝ) ^ e ∧
      binary64.Finite (CC.split .nearest x).hi ∧ binary64.Finite (CC.split .nearest x).lo ∧
      binary64.val (CC.split .nearest x).hi + binary64.val (CC.split .nearest x).lo = binary64.val x := by
  obtain ⟨h1, h2, h3, ⟨H, hH⟩, h5, ⟨L, hL⟩, h7⟩ := split_core hx hn hb
  refine ⟨binary64.ce x, H, L, ?_, ?_, hH, hL, h1, h2, h3⟩
  · rw [hH, abs_mul, abs_of_pos (two_zpow_pos _), show binary64.ce x + 52 + 1 = 26 + (binary64.ce x + 27) by ring, zpow_add₀ (by norm_num) 26] at h5
    have := le_of_mul_le_mul_right h5 (two_zpow_pos _)
    rw [← Int.cast_abs] at this
    exact_mod_cast this
  · rw [hL, abs_mul, abs_of_pos (two_zpow_pos _), show binary64.ce x + 27 - 1 = 26 + binary64.ce x by ring, zpow_add₀ (by norm_num) 26] at h7
    have := le_of_mul_le_mul_right h7 (two_zpow_pos _)
    rw [← Int.cast_abs] at this
    exact_mod_cast this

-- pi
example : CC.split .nearest 0x400921FB54442D18 = { lo := 13717364781235568640, hi := 0x400921FB58000000 } := by decide +kernel

/-- `exact_mult` (Dekker): for normal doubles with `|a|, |b| ≤ 2^995` and `2^-969 ≤ |ab| ≤ 2^1021`, in round-to-nearest, `hi` is the correctly
rounded product and `hi + lo = ab` exactly. -/
theorem C33_exact_mult {a b : ℕ} (ha : binary64.Finite a) (hb : binary64.Finite b)
    (na : (2 : ℝ) ^ (-1022 : ℤ) ≤ |binary64.val a|) (ba : |binary64.val a| ≤ 2 ^ (995 : ℤ))
    (nb : (2 : ℝ) ^ (-1022 : ℤ) ≤ |binary64.val b|) (bb : |binary64.val b| ≤ 2 ^ (995 : ℤ))
    (hlo : (2 : ℝ) ^ (-969 : ℤ) ≤ |binary64.val a * binary64.val b|) (hhi : |binary64.val a * binary64.val b| ≤ 2 ^ (1021 : ℤ)) :
    (∃ zs, binary64.RoundsTo .nearest zs (binary64.val a * binary64.val b) (CC.exactMult .nearest a b).hi) ∧
      binary64.Finite (CC.exactMult .nearest a b).hi ∧ binary64.Finite (CC.exactMult .nearest a b).lo ∧
      binary64.val (CC.exactMult .nearest a b).hi + binary64.val (CC.exactMult .nearest a b).lo = binary64.val a * binary64.val b := by
  have hbias : (binary64.bias : ℤ) = 1023 := by decide +kernel
  obtain ⟨fah, fal, sa, mah, bah, mal, bal⟩ := split_core ha na ba
  obtain ⟨fbh, fbl, sb, mbh, bbh, mbl, bbl⟩ := split_core hb nb bb
  have H := binary64.hmul_spec .nearest ha hb
  have nmin : binary64.minNormal = (2 : ℝ) ^ (-1022 : ℤ) := by unfold minNormal; rw [hbias, show (1 : ℤ) - 1023 = -1022 by norm_num]
  refine ⟨⟨_, H⟩, dekker_spec (f := binary64) (σ := 27) (by decide) (by decide) (by decide) (normal_ce binary64 (by rw [nmin]; exact na))
    (normal_ce binary64 (by rw [nmin]; exact nb)) (ce_add_ge ?_) (by rw [hbias, show (1023 : ℤ) - 2 = 1021 by norm_num]; exact hhi) sa mah bah mal bal sb mbh bbh mbl bbl H
    (binary64.hmul_spec .nearest fah fbh) (fun h h' => binary64.hsub_spec .nearest h h')
    (binary64.hmul_spec .nearest fah fbl) (fun h h' => binary64.hadd_spec .nearest h h')
    (binary64.hmul_spec .nearest fal fbh) (fun h h' => binary64.hadd_spec .nearest h h')
    (binary64.hmul_spec .nearest fal fbl) (fun h h' => binary64.hadd_spec .nearest h h')⟩
  rw [minSub_eq_zpow, show binary64.emin = -1074 by decide +kernel, ← zpow_natCast, ← zpow_add₀ (by norm_num), show ((2 * binary64.F + 1 : ℕ) : ℤ) + -1074 = -969 by decide +kernel]
  exact hlo

-- pi * e: the product needs 106 bits
example : CC.exactMult .nearest 0x400921FB54442D18 0x4005BF0A8B145769 = { lo := 4374818095926516576, hi := 4620997061037642868 } := by
  decide +kernel

/-- `two_prod` (fused residual): for finite doubles in *every* rounding mode, if the product does not overflow and is zero or at least `2^-969`, the
call returns `hi`, the correctly rounded product, and `lo` with `hi + lo = ab` exactly. -/
theorem C33_two_prod (m : Mode) {a b : ℕ} (ha : binary64.Finite a) (hb : binary64.Finite b) (hmx : |binary64.val a * binary64.val b| ≤ binary64.maxFin)
    (hlo : binary64.val a * binary64.val b = 0 ∨ (2 : ℝ) ^ (-969 : ℤ) ≤ |binary64.val a * binary64.val b|) :
    ∃ r, CC.twoProd m a b = some r ∧ (∃ zs, binary64.RoundsTo m zs (binary64.val a * binary64.val b) r.hi) ∧
      binary64.Finite r.hi ∧ binary64.Finite r.lo ∧ binary64.val r.hi + binary64.val r.lo = binary64.val a * binary64.val b := by
  have H := binary64.hmul_spec m ha hb
  have hres : binary64.Finite (binary64.hmul m a b) ∧ ∃ c, binary64.Finite c ∧ binary64.val c = binary64.val a * binary64.val b - binary64.val (binary64.hmul m a b) := by
    rcases hlo with h0 | hlo
    · rw [h0] at H ⊢
      obtain ⟨h1, h2⟩ := RoundsTo.exact_of H ⟨_, binary64.finite_zero false, binary64.val_zero false⟩
      exact ⟨h1, _, binary64.finite_zero false, by rw [h2, binary64.val_zero]; ring⟩
    · refine residual_mul (ce_add_ge ?_) hmx H
      rw [minSub_eq_zpow, show binary64.emin = -1074 by decide +kernel, ← zpow_natCast, ← zpow_add₀ (by norm_num), show ((2 * binary64.F + 1 : ℕ) : ℤ) + -1074 = -969 by decide +kernel]
      exact hlo
  obtain ⟨h1, h2⟩ := hres
  obtain ⟨r, fl, h3, h4, -⟩ := C17_fma m ha hb (binary64.finite_hneg h1)
  rw [val_hneg] at h4
  obtain ⟨h5, h6⟩ := RoundsTo.exact_of h4 (by simpa only [sub_eq_add_neg] using h2)
  refine ⟨{ lo := r, hi := binary64.hmul m a b }, ?_, ⟨_, H⟩, h1, h5, ?_⟩
  · have hx : CC.exactFma m a b (binary64.hneg (binary64.hmul m a b)) = some r := by unfold CC.exactFma; rw [h3]; rfl
    simp only [CC.twoProd, hx]; rfl
  · rw [h6]; ring

-- upwards: the residual is negative
example : CC.twoProd .up 0x400921FB54442D18 0x4005BF0A8B145769 = some { lo := 13608296459569355048, hi := 4620997061037642869 } := by
  decide +kernel

end Verif
