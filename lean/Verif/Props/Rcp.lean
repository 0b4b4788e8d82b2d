import Verif.Model.Ext
import Verif.Props.Ext
import Verif.Lemmas.EFT

/-!
# C109: `rcp`
-/

namespace Verif
open Fmt
variable (f : Fmt)

/-- C109: `rcp(x)` is the correctly rounded reciprocal of every finite non-zero number, with the sign of `x`, in every rounding mode. -/
theorem C109_rcp (m : Mode) {x : ℕ} (hx : f.Finite x) (h0 : f.val x ≠ 0) :
    (∃ zs, f.RoundsTo m zs (1 / f.val x) (CC.rcp f m x)) ∧ (f.Finite (CC.rcp f m x) → 0 ≤ f.val x * f.val (CC.rcp f m x)) := by
  have o := CC.val_one f false
  rw [show sg false = 1 from rfl] at o
  have R := f.hdiv_spec m (CC.finite_one f false) hx h0
  rw [o] at R
  change f.RoundsTo m _ _ (CC.rcp f m x) at R
  refine ⟨⟨_, R⟩, fun fr => ?_⟩
  rcases lt_or_gt_of_ne h0 with h | h
  · have hq : 1 / f.val x ≤ f.val (f.zero false) := by rw [f.val_zero]; exact (one_div_neg.2 h).le
    have := RoundsTo.mono R (f.roundsTo_self (m := m) (f.finite_zero false)) hq
    rw [f.xval_of_finite fr, f.xval_of_finite (f.finite_zero false), f.val_zero] at this
    have : f.val (CC.rcp f m x) ≤ 0 := by exact_mod_cast this
    exact mul_nonneg_of_nonpos_of_nonpos h.le this
  · have hq : f.val (f.zero false) ≤ 1 / f.val x := by rw [f.val_zero]; positivity
    have := RoundsTo.mono (f.roundsTo_self (m := m) (f.finite_zero false)) R hq
    rw [f.xval_of_finite fr, f.xval_of_finite (f.finite_zero false), f.val_zero] at this
    have : 0 ≤ f.val (CC.rcp f m x) := by exact_mod_cast this
    exact mul_nonneg h.le this

/-- C109: the reciprocal of a power of two is exact, and taking it twice gives the number back. -/
theorem C109_rcp_pow2 (m : Mode) {x : ℕ} {k : ℤ} (hx : f.Finite x) (hk : |f.val x| = 2 ^ k) (k1 : f.emin ≤ -k) (k2 : -k ≤ f.bias) :
    f.Finite (CC.rcp f m x) ∧ f.val (CC.rcp f m x) = 1 / f.val x ∧ CC.rcp f m (CC.rcp f m x) = x := by
  have hp := two_zpow_pos k
  have h0 : f.val x ≠ 0 := by intro h; rw [h, abs_zero] at hk; linarith
  have hq : |1 / f.val x| = 2 ^ (-k) := by rw [abs_div, abs_one, hk, zpow_neg, one_div]
  have hm : Mult (-k) (1 / f.val x) := by
    rcases abs_choice (f.val x) with h | h
    · exact ⟨1, by rw [← h, hk, zpow_neg]; simp⟩
    · exact ⟨-1, by rw [show f.val x = -2 ^ k by linarith, zpow_neg]; simp [one_div, inv_neg]⟩
  obtain ⟨c, c1, c2⟩ := f.rep hm k1 (by rw [hq]; exact zpow_le_zpow_right₀ (by norm_num) (by omega))
    (by rw [hq]; exact zpow_lt_zpow_right₀ (by norm_num) (by omega))
  have o := CC.val_one f false
  rw [show sg false = 1 from rfl] at o
  have R := f.hdiv_spec m (CC.finite_one f false) hx h0
  rw [o] at R
  obtain ⟨r1, r2⟩ := RoundsTo.exact f c1 c2 R
  have n0 : f.val (CC.rcp f m x) ≠ 0 := by
    rw [show f.val (CC.rcp f m x) = 1 / f.val x from r2]; exact one_div_ne_zero h0
  refine ⟨r1, r2, ?_⟩
  have R2 := f.hdiv_spec m (CC.finite_one f false) (y := CC.rcp f m x) r1 n0
  rw [o, show f.val (CC.rcp f m x) = 1 / f.val x from r2, one_div_one_div] at R2
  exact RoundsTo.exact_eq f hx R2 (fun h => absurd h h0)

example : CC.rcp binary64 .nearest 0x4020000000000000 = 0x3FC0000000000000 ∧ CC.rcp binary64 .nearest 0xC008000000000000 = 0xBFD5555555555555 := by
  decide +kernel

/-- C109: zeros and infinities; and the reciprocal overflows for the small subnormal numbers -/
theorem C109_rcp_special : CC.rcp binary64 .nearest 0 = binary64.inf false ∧ CC.rcp binary64 .nearest (binary64.zero true) = binary64.inf true ∧
    CC.rcp binary64 .nearest (binary64.inf false) = 0 ∧ CC.rcp binary64 .nearest (binary64.inf true) = binary64.zero true ∧
    CC.rcp binary64 .nearest 1 = binary64.inf false := by decide +kernel

end Verif
