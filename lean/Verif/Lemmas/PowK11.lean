import Verif.Lemmas.PowK10
import Verif.Lemmas.IntTy

/-!
# The pow kernel: decomposition of the base, the reduced argument, and the whole kernel
-/

namespace Verif
open Fmt Real

/-- a positive normal number as `(1 + w/2^52) 2^E` -/
theorem normal_split {x : ℕ} (hx : binary64.Finite x) (h0 : 0 < binary64.val x) (hb : binary64.bexp x ≠ 0) :
    x % 2 ^ 52 < 2 ^ 52 ∧ binary64.val x = (1 + ((x % 2 ^ 52 : ℕ) : ℝ) / 2 ^ 52) * 2 ^ ((binary64.bexp x : ℤ) - 1023) ∧ binary64.bexp x ≤ 2046 := by
  have hs : x < 2 ^ 63 := by
    by_contra h
    have hsg : binary64.sgn x = true := by unfold sgn; exact decide_eq_true (by change 2 ^ 63 ≤ x; omega)
    rw [val_eq, hsg, sg_true] at h0
    have : 0 ≤ (binary64.umag (binary64.mag x) : ℝ) * binary64.minSub := mul_nonneg (Nat.cast_nonneg _) binary64.minSub_pos.le
    linarith
  have hm : binary64.mag x = x := Nat.mod_eq_of_lt hs
  have hf := ((binary64.finite_iff x).1 hx).2
  have hi : binary64.infMag = 2047 * 2 ^ 52 := by decide +kernel
  rw [hm, hi] at hf
  obtain ⟨e, w, hw, hxe⟩ : ∃ e w : ℕ, w < 2 ^ 52 ∧ x = e * 2 ^ 52 + w := ⟨x / 2 ^ 52, x % 2 ^ 52, by omega, by omega⟩
  have hbe : binary64.bexp x = e := by change x % 2 ^ 63 / 2 ^ 52 = e; omega
  rw [hbe] at hb ⊢
  have e1 : e ≤ 2046 := by omega
  have hwx : x % 2 ^ 52 = w := by omega
  rw [hwx]
  refine ⟨hw, ?_, e1⟩
  obtain ⟨p, rfl⟩ : ∃ p, e = p + 1 := ⟨e - 1, by omega⟩
  have hv := (bits64 (e := p) (m := 2 ^ 52 + w) (by omega) (by omega) (by omega)).2
  have hx2 : x = p * 2 ^ 52 + (2 ^ 52 + w) := by rw [hxe]; ring
  rw [hx2, hv, show ((p + 1 : ℕ) : ℤ) - 1023 = ((p : ℤ) - 1074) + 52 by push_cast; ring, zpow_add₀ (by norm_num), Nat.cast_add, Nat.cast_pow]
  rw [show (2 : ℝ) ^ (52 : ℤ) = 2 ^ 52 by norm_num, Nat.cast_ofNat]
  field_simp

/-- the exponent and the mantissa of the base -/
theorem powFront (m : Mode) {x : ℕ} (hx : binary64.Finite x) (h0 : 0 < binary64.val x) :
    let b := if FPBits.isSubnormal binary64 x then binary64.hmul m x 0x4330000000000000 else x
    ∃ E : ℤ, ((FPBits.biasedExp binary64 b : ℤ) - binary64.bias + (if FPBits.isSubnormal binary64 x then -52 else 0)) = E ∧ b &&& FPBits.fracMask binary64 = b % 2 ^ 52 ∧
      b % 2 ^ 52 < 2 ^ 52 ∧ binary64.val x = (1 + ((b % 2 ^ 52 : ℕ) : ℝ) / 2 ^ 52) * 2 ^ E ∧ -1074 ≤ E ∧ E ≤ 1023 := by
  intro b
  have hbias : (binary64.bias : ℤ) = 1023 := by decide +kernel
  rw [FPBits.biasedExp_eq, hbias, FPBits.fracMask_and]
  have key : ∀ E : ℤ, binary64.val x = (1 + ((b % 2 ^ 52 : ℕ) : ℝ) / 2 ^ 52) * 2 ^ E → -1074 ≤ E := by
    intro E hE
    have h1 : (2 : ℝ) ^ (-1074 : ℤ) ≤ binary64.val x := by
      have := binary64.mult_emin x
      have he : binary64.emin = -1074 := by decide +kernel
      rw [he] at this
      have := this.ge h0.ne'
      rwa [abs_of_pos h0] at this
    have h2 : (1 + ((b % 2 ^ 52 : ℕ) : ℝ) / 2 ^ 52) < 2 := by
      have : ((b % 2 ^ 52 : ℕ) : ℝ) < 2 ^ 52 := by exact_mod_cast Nat.mod_lt b (by norm_num)
      rw [← sub_pos] at this ⊢
      have h3 : (0 : ℝ) < (2 ^ 52 - ((b % 2 ^ 52 : ℕ) : ℝ)) / 2 ^ 52 := by positivity
      have h4 : (2 ^ 52 - ((b % 2 ^ 52 : ℕ) : ℝ)) / 2 ^ 52 = 2 - (1 + ((b % 2 ^ 52 : ℕ) : ℝ) / 2 ^ 52) := by
        rw [sub_div, div_self (by norm_num)]; ring
      rwa [h4] at h3
    have h5 : binary64.val x < 2 ^ (E + 1) := by
      rw [hE, two_zpow_succ]
      exact mul_lt_mul_of_pos_right h2 (two_zpow_pos _)
    have := two_zpow_lt_iff.1 (lt_of_le_of_lt h1 h5)
    omega
  by_cases hs : FPBits.isSubnormal binary64 x = true
  · have hbx : b = binary64.hmul m x 0x4330000000000000 := if_pos hs
    have hc : binary64.Finite 0x4330000000000000 := by decide +kernel
    have hv : binary64.val 0x4330000000000000 = 2 ^ (52 : ℤ) := by
      have := val_of_ival binary64 (x := 0x4330000000000000) (a := 2 ^ 52) (by decide +kernel)
      rw [this]; norm_num
    have hbx0 : binary64.bexp x = 0 := by rw [FPBits.isSubnormal_eq, decide_eq_true_eq] at hs; exact hs
    have hsm := abs_val_subnormal hbx0
    rw [abs_of_pos h0] at hsm
    have R := hmul_spec binary64 m hx hc
    rw [hv, ← hbx] at R
    have hpos : 0 < binary64.val x * 2 ^ (52 : ℤ) := mul_pos h0 (two_zpow_pos _)
    obtain ⟨fb, vb⟩ := RoundsTo.exact_of R (by
      obtain ⟨c, hc1, hc2, -⟩ := binary64.scale_exact (x := x) (k := 52) (Or.inl (by norm_num)) (by
        rw [abs_of_pos hpos]
        have h3 : binary64.val x * 2 ^ (52 : ℤ) ≤ 2 ^ (-1022 : ℤ) * 2 ^ (52 : ℤ) := mul_le_mul_of_nonneg_right hsm.le (two_zpow_pos _).le
        refine lt_of_le_of_lt h3 ?_
        rw [← zpow_add₀ (by norm_num)]
        exact two_zpow_lt (by decide))
      exact ⟨c, hc1, hc2⟩)
    have hbb : binary64.bexp b ≠ 0 := by
      intro h
      have := abs_val_subnormal h
      rw [vb, abs_of_pos hpos] at this
      have h1 : (2 : ℝ) ^ (-1074 : ℤ) ≤ binary64.val x := by
        have := binary64.mult_emin x
        have he : binary64.emin = -1074 := by decide +kernel
        rw [he] at this
        have := this.ge h0.ne'
        rwa [abs_of_pos h0] at this
      have h2 : (2 : ℝ) ^ (-1074 : ℤ) * 2 ^ (52 : ℤ) ≤ binary64.val x * 2 ^ (52 : ℤ) := mul_le_mul_of_nonneg_right h1 (two_zpow_pos _).le
      rw [← zpow_add₀ (by norm_num)] at h2
      exact absurd (lt_of_le_of_lt h2 this) (lt_irrefl _)
    obtain ⟨q1, q2, q3⟩ := normal_split fb (by rw [vb]; exact hpos) hbb
    have hE : binary64.val x = (1 + ((b % 2 ^ 52 : ℕ) : ℝ) / 2 ^ 52) * 2 ^ ((binary64.bexp b : ℤ) - 1023 + -52) := by
      rw [zpow_add₀ (by norm_num), ← mul_assoc, ← q2, vb, mul_assoc, ← zpow_add₀ (by norm_num)]; norm_num
    rw [if_pos hs]
    exact ⟨_, rfl, rfl, q1, hE, key _ hE, by omega⟩
  · have hbx : b = x := if_neg hs
    have hbx0 : binary64.bexp x ≠ 0 := by rw [FPBits.isSubnormal_eq, decide_eq_true_eq] at hs; exact hs
    obtain ⟨q1, q2, q3⟩ := normal_split hx h0 hbx0
    rw [if_neg hs, add_zero]
    have q2' : binary64.val x = (1 + ((b % 2 ^ 52 : ℕ) : ℝ) / 2 ^ 52) * 2 ^ ((binary64.bexp b : ℤ) - 1023) := by rw [hbx]; exact q2
    exact ⟨_, rfl, rfl, Nat.mod_lt _ (by norm_num), q2', key _ q2', by rw [hbx]; omega⟩

theorem one_bits {w : ℕ} (hw : w < 2 ^ 52) : binary64.Finite (1023 * 2 ^ 52 + w) ∧ binary64.val (1023 * 2 ^ 52 + w) = 1 + (w : ℝ) / 2 ^ 52 := by
  have hv := bits64 (e := 1022) (m := 2 ^ 52 + w) (by omega) (by omega) (by omega)
  rw [show 1022 * 2 ^ 52 + (2 ^ 52 + w) = 1023 * 2 ^ 52 + w by ring] at hv
  refine ⟨hv.1, ?_⟩
  rw [hv.2, Nat.cast_add, Nat.cast_pow, show ((1022 : ℕ) : ℤ) - 1074 = -52 by norm_num, show (2 : ℝ) ^ (-52 : ℤ) = 1 / 2 ^ 52 by norm_num, Nat.cast_ofNat]
  field_simp

theorem or_one64 {w : ℕ} (hw : w < 2 ^ 52) : w ||| CC.one64 = 1023 * 2 ^ 52 + w := by
  have h : CC.one64 = 2 ^ 52 * 1023 := by decide +kernel
  rw [h, Nat.or_comm, ← Nat.two_pow_add_eq_or_of_lt hw, mul_comm]

/-- the reduced argument `dx = RD[idx] m_x - 1` is exact -/
theorem powDx_spec (ce fused : Bool) (m : Mode) {w : ℕ} (hw : w < 2 ^ 52) :
    w >>> 45 < 128 ∧ ∃ dx, CC.powDx ce fused m (w >>> 45) (w ||| CC.one64) = some dx ∧ binary64.Finite dx ∧
      binary64.val dx = binary64.val (CC.powRD.getD (w >>> 45) 0) * (1 + (w : ℝ) / 2 ^ 52) - 1 ∧ Mult (-60) (binary64.val dx) ∧
      -(1 / 2 ^ 8) ≤ binary64.val dx ∧ binary64.val dx ≤ 1 / 2 ^ 7 := by
  rw [or_one64 hw]
  have hi : w >>> 45 < 128 := by rw [Nat.shiftRight_eq_div_pow]; omega
  refine ⟨hi, ?_⟩
  obtain ⟨i, r, hr, hwi, hii⟩ : ∃ i r : ℕ, r < 2 ^ 45 ∧ w = i * 2 ^ 45 + r ∧ w >>> 45 = i := ⟨w / 2 ^ 45, w % 2 ^ 45, by omega, by omega, Nat.shiftRight_eq_div_pow _ _⟩
  rw [hii] at hi ⊢
  obtain ⟨fR, fC, -, -, -, mR, R1, R2, vC, lo, hi', -⟩ := powRow_spec hi
  obtain ⟨-, -, -, t4, t5⟩ := powRow_get hi
  obtain ⟨fx, vx⟩ := one_bits hw
  set RD := binary64.val (CC.powRD.getD i 0)
  have hwr : (w : ℝ) = i * 2 ^ 45 + r := by rw [hwi]; push_cast; ring
  have hr0 : (0 : ℝ) ≤ r := Nat.cast_nonneg _
  have hr1 : (r : ℝ) ≤ 2 ^ 45 := by exact_mod_cast hr.le
  have hwd : 1 + (w : ℝ) / 2 ^ 52 = (1 + (i : ℝ) / 128) + (r : ℝ) / 2 ^ 52 := by rw [hwr]; field_simp; ring
  have mw : Mult (-52) (1 + (w : ℝ) / 2 ^ 52) := ⟨2 ^ 52 + w, by push_cast; rw [show (2 : ℝ) ^ (-52 : ℤ) = 1 / 2 ^ 52 by norm_num]; field_simp; norm_num⟩
  have mv : Mult (-60) (RD * (1 + (w : ℝ) / 2 ^ 52) - 1) := by
    have := mR.mul mw
    exact this.sub ⟨2 ^ 60, by norm_num⟩
  have lo2 : -(1 / 2 ^ 8) ≤ RD * (1 + (w : ℝ) / 2 ^ 52) - 1 := by
    refine lo.trans ?_
    have : RD * (1 + (i : ℝ) / 128) ≤ RD * (1 + (w : ℝ) / 2 ^ 52) := by
      refine mul_le_mul_of_nonneg_left ?_ (by linarith)
      rw [hwd]; have : 0 ≤ (r : ℝ) / 2 ^ 52 := by positivity
      linarith
    linarith
  have hi2 : RD * (1 + (w : ℝ) / 2 ^ 52) - 1 ≤ 1 / 2 ^ 7 := by
    refine le_trans ?_ hi'
    have : RD * (1 + (w : ℝ) / 2 ^ 52) ≤ RD * (1 + ((i : ℝ) + 1) / 128) := by
      refine mul_le_mul_of_nonneg_left ?_ (by linarith)
      rw [hwd]
      have : (r : ℝ) / 2 ^ 52 ≤ 1 / 128 := by rw [div_le_iff₀ (by norm_num)]; norm_num at hr1 ⊢; linarith
      linarith
    linarith
  have av : |RD * (1 + (w : ℝ) / 2 ^ 52) - 1| ≤ 2 ^ (-7 : ℤ) := by rw [abs_le, show (2 : ℝ) ^ (-7 : ℤ) = 1 / 2 ^ 7 by norm_num]; constructor <;> linarith
  have fin : ∀ dx, (∃ zs, binary64.RoundsTo m zs (RD * (1 + (w : ℝ) / 2 ^ 52) - 1) dx) → binary64.Finite dx ∧ binary64.val dx = RD * (1 + (w : ℝ) / 2 ^ 52) - 1 ∧ Mult (-60) (binary64.val dx) ∧
      -(1 / 2 ^ 8) ≤ binary64.val dx ∧ binary64.val dx ≤ 1 / 2 ^ 7 := by
    rintro dx ⟨zs, R⟩
    obtain ⟨f, v⟩ := rep_exact R mv (by norm_num) av (by norm_num) (by norm_num)
    exact ⟨f, v, by rw [v]; exact mv, by rw [v]; exact lo2, by rw [v]; exact hi2⟩
  unfold CC.powDx
  simp only [t4, t5, Option.bind_eq_bind, Option.bind_some]
  by_cases hcf : (ce || !fused) = true
  · rw [if_pos hcf]
    refine ⟨_, rfl, fin _ ?_⟩
    have hmask : (1023 * 2 ^ 52 + w) &&& 0x3fffe00000000000 = 1023 * 2 ^ 52 + i * 2 ^ 45 := by
      have := ITy.and_high (x := 1023 * 2 ^ 52 + w) (N := 62) (k := 45) (by omega) (by norm_num)
      rw [show (0x3fffe00000000000 : ℕ) = 2 ^ 62 - 2 ^ 45 by norm_num, this, hwi]
      omega
    rw [hmask]
    obtain ⟨fc, vc⟩ := one_bits (w := i * 2 ^ 45) (by omega)
    have vc' : binary64.val (1023 * 2 ^ 52 + i * 2 ^ 45) = 1 + (i : ℝ) / 128 := by rw [vc]; push_cast; field_simp; ring
    have Rs := hsub_spec binary64 m fx fc
    rw [vx, vc', hwd, show 1 + (i : ℝ) / 128 + (r : ℝ) / 2 ^ 52 - (1 + (i : ℝ) / 128) = (r : ℝ) / 2 ^ 52 by ring] at Rs
    have mr : Mult (-52) ((r : ℝ) / 2 ^ 52) := ⟨r, by rw [show (2 : ℝ) ^ (-52 : ℤ) = 1 / 2 ^ 52 by norm_num]; push_cast; field_simp⟩
    have ar : |(r : ℝ) / 2 ^ 52| ≤ 2 ^ (-7 : ℤ) := by
      rw [abs_of_nonneg (by positivity), div_le_iff₀ (by norm_num)]; refine hr1.trans (by norm_num)
    obtain ⟨fs, vs⟩ := rep_exact Rs mr (by norm_num) ar (by norm_num) (by norm_num)
    have ev : RD * ((r : ℝ) / 2 ^ 52) + binary64.val (CC.powCD.getD i 0) = RD * (1 + (w : ℝ) / 2 ^ 52) - 1 := by rw [vC, hwd]; ring
    unfold CC.multiplyAdd
    cases fused
    · simp only [Bool.false_eq_true, if_false]
      have Rm := hmul_spec binary64 m fR fs
      rw [vs] at Rm
      have ap : |RD * ((r : ℝ) / 2 ^ 52)| ≤ 2 ^ (-7 : ℤ) := by
        rw [abs_mul]
        have hRD : |RD| ≤ 1 := by rw [abs_of_nonneg (by linarith)]; exact R2
        exact (mul_le_mul hRD ar (abs_nonneg _) (by norm_num)).trans (by rw [one_mul])
      obtain ⟨fp, vp⟩ := rep_exact Rm (mR.mul mr) (by norm_num) ap (by norm_num) (by norm_num)
      have Ra := hadd_spec binary64 m fp fC
      rw [vp, ev] at Ra
      exact ⟨_, Ra⟩
    · simp only [if_true]
      have Rf := hfma_spec binary64 m (x := CC.powRD.getD i 0) (y := binary64.hsub m (1023 * 2 ^ 52 + w) (1023 * 2 ^ 52 + i * 2 ^ 45)) (z := CC.powCD.getD i 0)
      rw [vs, ev] at Rf
      exact ⟨_, Rf⟩
  · rw [if_neg hcf]
    refine ⟨_, rfl, fin _ ?_⟩
    have Rf := hfma_spec binary64 m (x := CC.powRD.getD i 0) (y := 1023 * 2 ^ 52 + w) (z := binary64.hneg CC.one64)
    rw [vx, binary64.val_hneg, one64_val.2, ← sub_eq_add_neg] at Rf
    exact ⟨_, Rf⟩

/-- the logarithm of the base in the form the kernel computes, and how small it can be -/
theorem powLog_facts {X RD dx : ℝ} {w idx : ℕ} {E : ℤ} (hw : w < 2 ^ 52) (hX : X = (1 + (w : ℝ) / 2 ^ 52) * 2 ^ E) (hidx : idx = w >>> 45) (hRD : 0 < RD)
    (hdx : dx = RD * (1 + (w : ℝ) / 2 ^ 52) - 1) (E1 : -1074 ≤ E) (E2 : E ≤ 1023) (hne : X ≠ 1) :
    log X / log 2 = E + (log (1 + dx) - log RD) / log 2 ∧ ((E = 0 ∧ idx = 0) ∨ (E = -1 ∧ idx = 127) ∨ 1 / 2 ^ 8 ≤ |log X / log 2|) ∧ 143 / 100 * (1 / 2 ^ 53) ≤ |log X / log 2| ∧
      |log X / log 2| ≤ 1100 := by
  have l2 : 0 < log 2 := by have := log2_lo; linarith
  have w0 : (0 : ℝ) ≤ w := Nat.cast_nonneg _
  have w1 : (w : ℝ) + 1 ≤ 2 ^ 52 := by exact_mod_cast hw
  obtain ⟨i, r, hr, hwi, hii⟩ : ∃ i r : ℕ, r < 2 ^ 45 ∧ w = i * 2 ^ 45 + r ∧ w >>> 45 = i := ⟨w / 2 ^ 45, w % 2 ^ 45, by omega, by omega, Nat.shiftRight_eq_div_pow _ _⟩
  rw [hii] at hidx
  set M : ℝ := 1 + (w : ℝ) / 2 ^ 52 with hM
  have M1 : 1 ≤ M := by have : 0 ≤ (w : ℝ) / 2 ^ 52 := by positivity
                        linarith
  have M2 : M ≤ 2 - 1 / 2 ^ 52 := by
    rw [hM]
    have : ((w : ℝ) + 1) / 2 ^ 52 ≤ 1 := by rw [div_le_one (by norm_num)]; exact w1
    rw [add_div] at this; linarith
  have M0 : 0 < M := by linarith
  have hlX : log X / log 2 = E + log M / log 2 := by
    rw [hX, log_mul M0.ne' (two_zpow_pos _).ne', log_zpow]; field_simp; ring
  have hl0 : 0 ≤ log M / log 2 := div_nonneg (log_nonneg M1) l2.le
  have hl1 : log M / log 2 ≤ 1 := by rw [div_le_one l2]; exact log_le_log M0 (by linarith [show (0 : ℝ) ≤ 1 / 2 ^ 52 by norm_num])
  refine ⟨?_, ?_⟩
  · rw [hlX, hdx, show 1 + (RD * M - 1) = RD * M by ring, log_mul hRD.ne' M0.ne']; ring
  have E1' : (-1074 : ℝ) ≤ E := by exact_mod_cast E1
  have E2' : (E : ℝ) ≤ 1023 := by exact_mod_cast E2
  have ub : |log X / log 2| ≤ 1100 := by rw [hlX, abs_le]; constructor <;> linarith
  rcases (by omega : 1 ≤ E ∨ E ≤ -2 ∨ E = 0 ∨ E = -1) with h | h | h | h
  · have : (1 : ℝ) ≤ E := by exact_mod_cast h
    have : 1 ≤ |log X / log 2| := by rw [hlX]; exact le_trans (by linarith) (le_abs_self _)
    exact ⟨Or.inr (Or.inr (le_trans (by norm_num) this)), le_trans (by norm_num) this, ub⟩
  · have : (E : ℝ) ≤ -2 := by exact_mod_cast h
    have : 1 ≤ |log X / log 2| := by rw [hlX]; exact le_trans (by linarith) (neg_le_abs _)
    exact ⟨Or.inr (Or.inr (le_trans (by norm_num) this)), le_trans (by norm_num) this, ub⟩
  · have hx : log X / log 2 = log M / log 2 := by rw [hlX, h]; simp
    rw [hx] at ub ⊢
    have wpos : 0 < w := by
      rcases Nat.eq_zero_or_pos w with h0 | h0
      · exact absurd (by rw [hX, hM, h, h0]; simp) hne
      · exact h0
    have wr : (1 : ℝ) ≤ w := by exact_mod_cast wpos
    by_cases hi : i = 0
    · have ha : |(w : ℝ) / 2 ^ 52| ≤ 1 / 2 ^ 7 := by
        rw [abs_of_nonneg (by positivity), div_le_iff₀ (by norm_num)]
        have : (w : ℝ) ≤ 2 ^ 45 := by exact_mod_cast (by omega : w ≤ 2 ^ 45)
        exact this.trans (by norm_num)
      have := log_lower ha
      rw [← hM, abs_of_nonneg (by positivity : 0 ≤ (w : ℝ) / 2 ^ 52)] at this
      refine ⟨Or.inl ⟨h, by omega⟩, le_trans ?_ this, ub⟩
      have : (1 : ℝ) / 2 ^ 52 ≤ w / 2 ^ 52 := by gcongr
      linarith
    · have h7 : 1 + 1 / 2 ^ 7 ≤ M := by
        rw [hM]
        have : (2 : ℝ) ^ 45 ≤ w := by exact_mod_cast (by omega : 2 ^ 45 ≤ w)
        have : (2 : ℝ) ^ 45 / 2 ^ 52 ≤ w / 2 ^ 52 := by gcongr
        norm_num at this ⊢; linarith
      have hl := log_lower (d := 1 / 2 ^ 7) (by rw [abs_of_nonneg (by norm_num)])
      have hm : log (1 + 1 / 2 ^ 7) / log 2 ≤ log M / log 2 := by gcongr
      have h0 : 0 ≤ log (1 + 1 / 2 ^ 7 : ℝ) / log 2 := div_nonneg (log_nonneg (by norm_num)) l2.le
      rw [abs_of_nonneg h0, abs_of_nonneg (by norm_num)] at hl
      have : 1 / 2 ^ 8 ≤ |log M / log 2| := by rw [abs_of_nonneg hl0]; norm_num at hl ⊢; linarith
      exact ⟨Or.inr (Or.inr this), le_trans (by norm_num) this, ub⟩
  · have hx : log X / log 2 = log (1 + (M / 2 - 1)) / log 2 := by
      rw [hlX, h, show 1 + (M / 2 - 1) = M / 2 by ring, log_div M0.ne' (by norm_num)]; field_simp; push_cast; ring
    rw [hx] at ub ⊢
    have d0 : M / 2 - 1 ≤ -(1 / 2 ^ 53) := by linarith
    by_cases hi : i = 127
    · have h7 : 1 + 127 / 128 ≤ M := by
        rw [hM]
        have : (127 * 2 ^ 45 : ℝ) ≤ w := by exact_mod_cast (by omega : 127 * 2 ^ 45 ≤ w)
        have : (127 * 2 ^ 45 : ℝ) / 2 ^ 52 ≤ w / 2 ^ 52 := by gcongr
        norm_num at this ⊢; linarith
      have ha : |M / 2 - 1| ≤ 1 / 2 ^ 7 := by rw [abs_le]; constructor <;> linarith
      have := log_lower ha
      have h3 := neg_le_abs (M / 2 - 1)
      exact ⟨Or.inr (Or.inl ⟨h, by omega⟩), by linarith, ub⟩
    · have h7 : M ≤ 2 - 1 / 128 := by
        rw [hM]
        have : (w : ℝ) ≤ 127 * 2 ^ 45 := by exact_mod_cast (by omega : w ≤ 127 * 2 ^ 45)
        have : w / 2 ^ 52 ≤ (127 * 2 ^ 45 : ℝ) / 2 ^ 52 := by gcongr
        norm_num at this ⊢; linarith
      have hl := log_lower (d := -(1 / 2 ^ 8)) (by rw [abs_neg, abs_of_nonneg (by norm_num)]; norm_num)
      have hm : log (1 + (M / 2 - 1)) / log 2 ≤ log (1 + -(1 / 2 ^ 8)) / log 2 := by
        gcongr
        · linarith
        · linarith
      have h0 : log (1 + -(1 / 2 ^ 8) : ℝ) / log 2 ≤ 0 := div_nonpos_of_nonpos_of_nonneg (log_nonpos (by norm_num) (by norm_num)) l2.le
      rw [abs_of_nonpos h0, abs_neg, abs_of_nonneg (by norm_num)] at hl
      have : 1 / 2 ^ 8 ≤ |log (1 + (M / 2 - 1)) / log 2| := by rw [abs_of_nonpos (hm.trans h0)]; norm_num at hl hm ⊢; linarith
      exact ⟨Or.inr (Or.inr this), le_trans (by norm_num) this, ub⟩

/-- the logarithm of a double other than one is not tiny -/
theorem log_double_lower {x : ℕ} (hx : binary64.Finite x) (h0 : 0 < binary64.val x) (h1 : binary64.val x ≠ 1) :
    143 / 100 * (1 / 2 ^ 53) ≤ |log (binary64.val x) / log 2| := by
  obtain ⟨E, -, -, hw, hX, E1, E2⟩ := powFront .nearest hx h0
  exact (powLog_facts hw hX rfl one_pos rfl E1 E2 h1).2.2.1

set_option maxHeartbeats 1000000 in
/-- the whole kernel for a result in the normal range -/
theorem powKernel_spec {ce fused : Bool} {m : Mode} (hc : ce = false ∨ m = .nearest) (sign : Bool) {x y : ℕ} (hx : binary64.Finite x) (h0 : 0 < binary64.val x)
    (h1 : binary64.val x ≠ 1) (hy : binary64.Finite y) (X1 : (2 : ℝ) ^ (-1021 : ℤ) ≤ exp (binary64.val y * log (binary64.val x)))
    (X2 : exp (binary64.val y * log (binary64.val x)) ≤ (1 - 1 / 2 ^ 50) * 2 ^ (1024 : ℤ)) :
    ∃ r, CC.powKernel ce fused m x y sign = some (r, {}) ∧ binary64.Finite r ∧ (2 : ℝ) ^ (-1022 : ℤ) ≤ |binary64.val r| ∧
      ∃ zs w, binary64.RoundsTo m zs w r ∧ |w - (if sign then -1 else 1) * exp (binary64.val y * log (binary64.val x))| ≤ 1 / 2 ^ 58 * exp (binary64.val y * log (binary64.val x)) := by
  have l2 := log2_lo
  have l20 : 0 < log 2 := by linarith
  obtain ⟨E, hE, hb, hw, hX, E1, E2⟩ := powFront m hx h0
  unfold CC.powKernel
  simp only []
  set b := if FPBits.isSubnormal binary64 x then binary64.hmul m x 0x4330000000000000 else x with hbdef
  rw [hE, hb]
  clear_value b
  obtain ⟨hi, dx, hdx, fd, vd, md, d1, d2⟩ := powDx_spec ce fused m hw
  generalize hidx : (b % 2 ^ 52) >>> 45 = idx at *
  generalize hww : b % 2 ^ 52 = w at *
  obtain ⟨-, -, -, -, -, -, R1, -⟩ := powRow_spec hi
  obtain ⟨hL, hcase, L1', L2⟩ := powLog_facts hw hX hidx.symm (by linarith) vd E1 E2 h1
  have L1 := le_trans (by norm_num : (1 : ℝ) / 2 ^ 54 ≤ 143 / 100 * (1 / 2 ^ 53)) L1'
  clear L1'
  have hE' : |E| ≤ 1100 := by rw [abs_le]; constructor <;> omega
  obtain ⟨fe, ve⟩ := ofInt_ex64 m (z := E) (hE'.trans (by norm_num))
  obtain ⟨lg, hlg, flg, elg⟩ := powFastLog_spec fused m hi fd d1 d2 fe ve hE' hL hcase L1
  set X := binary64.val x
  set Y := binary64.val y
  have hYL : Y * log X = 64 * Y * (log X / log 2) * (log 2 / 64) := by field_simp
  rw [hYL] at X1 X2 ⊢
  set L := log X / log 2
  -- the range of the product
  have T1 : -65344 ≤ 64 * Y * L := by
    have := log_le_log (two_zpow_pos _) X1
    rw [log_exp, log_zpow] at this
    push_cast at this
    by_contra hh
    have : 64 * Y * L * (log 2 / 64) < -65344 * (log 2 / 64) := mul_lt_mul_of_pos_right (not_le.1 hh) (by linarith)
    linarith
  have T2 : 64 * Y * L ≤ 65536 := by
    have h3 : exp (64 * Y * L * (log 2 / 64)) ≤ 2 ^ (1024 : ℤ) := by
      refine X2.trans ?_
      have := two_zpow_pos 1024
      generalize (2 : ℝ) ^ (1024 : ℤ) = z at *
      linarith [show (0 : ℝ) ≤ 1 / 2 ^ 50 * z by positivity]
    have := log_le_log (exp_pos _) h3
    rw [log_exp, log_zpow] at this
    push_cast at this
    by_contra hh
    have : 65536 * (log 2 / 64) < 64 * Y * L * (log 2 / 64) := mul_lt_mul_of_pos_right (not_le.1 hh) (by linarith)
    linarith
  have Tab : |64 * Y * L| ≤ 65536 := by rw [abs_le]; constructor <;> linarith
  have hYb : |Y * 2 ^ (6 : ℤ)| ≤ 2 ^ (72 : ℤ) := by
    rw [show Y * 2 ^ (6 : ℤ) = 64 * Y by norm_num; ring]
    rw [abs_mul] at Tab
    have h3 : |64 * Y| * (1 / 2 ^ 54) ≤ 65536 := (mul_le_mul_of_nonneg_left L1 (abs_nonneg _)).trans Tab
    norm_num at h3 ⊢; linarith
  have c64 : binary64.Finite 0x4050000000000000 ∧ binary64.val 0x4050000000000000 = 2 ^ (6 : ℤ) := by
    refine ⟨by decide +kernel, ?_⟩
    rw [val_of_ival binary64 (x := 0x4050000000000000) (a := 64) (by decide +kernel)]; norm_num
  have Ry := hmul_spec binary64 m hy c64.1
  rw [c64.2] at Ry
  obtain ⟨fy, vy⟩ := RoundsTo.exact_of Ry (by
    obtain ⟨c, hc1, hc2, -⟩ := binary64.scale_exact (x := y) (k := 6) (Or.inl (by norm_num)) (lt_of_le_of_lt hYb (two_zpow_lt (by decide)))
    exact ⟨c, hc1, hc2⟩)
  have vy' : binary64.val (binary64.hmul m y 0x4050000000000000) = 64 * Y := by rw [vy]; norm_num; ring
  generalize binary64.hmul m y 0x4050000000000000 = y6 at *
  have hT : 64 * Y * L = binary64.val y6 * L := by rw [vy']
  have D := fun {s : ℕ} hs => powDD_spec (fused := fused) hc sign (s := s) hi fd md d1 d2 fe ve hE' hL hcase L1 L2 fy hT hs X1 X2
  have Rh := hmul_spec binary64 m fy flg
  have hhi : (CC.exactMult m y6 lg.hi).hi = binary64.hmul m y6 lg.hi := rfl
  simp only [hdx, hlg, Option.bind_eq_bind, Option.bind_some, hhi]
  generalize binary64.hmul m y6 lg.hi = h at *
  clear hhi
  generalize hTT : 64 * Y * L = T at *
  have ep : |binary64.val y6 * binary64.val lg.hi - T| ≤ 32 := by
    rw [hT, ← mul_sub, abs_mul]
    rw [hT, abs_mul] at Tab
    have := mul_le_mul_of_nonneg_left elg (abs_nonneg (binary64.val y6))
    rw [show |binary64.val y6| * (1 / 2 ^ 11 * |L|) = |binary64.val y6| * |L| / 2 ^ 11 by ring] at this
    refine this.trans ?_
    rw [div_le_iff₀ (by norm_num)]; linarith
  obtain ⟨fh, eh⟩ := rnd_le Rh (C := 65600) (by rw [abs_le] at ep Tab ⊢; constructor <;> linarith) (by norm_num)
  have eh' : |binary64.val h - T| ≤ 33 := by
    rw [show binary64.val h - T = (binary64.val h - binary64.val y6 * binary64.val lg.hi) + (binary64.val y6 * binary64.val lg.hi - T) by ring]
    refine (abs_add_le' eh ep).trans ?_
    norm_num
  have eb := abs_le.1 eh'
  clear eh ep Rh elg
  have p := pow32768_val
  have fab : binary64.Finite (FPBits.abs binary64 h) := by
    rw [FPBits.abs_eq]
    exact (binary64.finite_iff _).2 ⟨CC.valid_mag _ _, by rw [CC.mag_mag]; exact ((binary64.finite_iff _).1 fh).2⟩
  have hge : binary64.hge (FPBits.abs binary64 h) CC.pow32768 = true ↔ 32768 ≤ |binary64.val h| := by
    rw [show binary64.hge (FPBits.abs binary64 h) CC.pow32768 = binary64.hle CC.pow32768 (FPBits.abs binary64 h) from rfl, CC.hle_finite binary64 p.1 fab, FPBits.abs_eq, CC.val_mag, p.2]
  have flags : ∀ {r : ℕ}, binary64.Finite r → (2 : ℝ) ^ (-1022 : ℤ) ≤ |binary64.val r| →
      FPBits.isInf binary64 r = false ∧ (FPBits.isZero binary64 r || decide (FPBits.abs binary64 r < 0x0010000000000000)) = false := by
    intro r fr hr
    obtain ⟨-, n2, -, n4⟩ := normal_flags fr hr
    refine ⟨?_, ?_⟩
    · rw [FPBits.isInf_eq]; simp [infB, ((binary64.finite_iff r).1 fr).2.ne]
    · rw [n2, Bool.false_or, decide_eq_false_iff_not, FPBits.abs_eq]
      intro hlt
      apply n4
      change r % 2 ^ 63 / 2 ^ 52 = 0
      have : r % 2 ^ 63 < 0x0010000000000000 := hlt
      omega
  by_cases big : 32768 ≤ |binary64.val h|
  · rw [hge.2 big]
    rcases le_total 0 (binary64.val h) with hpos | hneg
    · rw [abs_of_nonneg hpos] at big
      have hs : FPBits.isNeg binary64 h = false := by rw [FPBits.isNeg_eq binary64 fh.1]; exact sgn_of_pos binary64 (by linarith)
      have Rs := hsub_spec binary64 m fh p.1
      rw [p.2] at Rs
      obtain ⟨fs, es⟩ := rnd_le Rs (C := 32801) (by rw [abs_le]; constructor <;> linarith) (by norm_num)
      have cc : binary64.Finite 0x40E0080000000000 ∧ binary64.val 0x40E0080000000000 = 32832 := by
        refine ⟨by decide +kernel, ?_⟩
        rw [val_of_ival binary64 (x := 0x40E0080000000000) (a := 32832) (by decide +kernel)]; norm_num
      have hcl : binary64.hgt (binary64.hsub m h CC.pow32768) 0x40E0080000000000 = false := by
        rw [← Bool.not_eq_true, show binary64.hgt (binary64.hsub m h CC.pow32768) 0x40E0080000000000 = binary64.hlt 0x40E0080000000000 (binary64.hsub m h CC.pow32768) from rfl,
          CC.hlt_finite binary64 cc.1 fs, cc.2]
        have := abs_le.1 es
        norm_num at this ⊢; linarith
      obtain ⟨r, hr, fr, gr, zs, w', Rr, er⟩ := D (s := CC.powScaleUp) (Or.inr (Or.inl ⟨rfl, by linarith, by linarith⟩))
      obtain ⟨q1, q2⟩ := flags fr gr
      refine ⟨r, ?_, fr, gr, zs, w', Rr, er⟩
      simp only [hs, Bool.not_false, if_true, hcl, Bool.and_false, Bool.not_false, hr, Option.bind_some, Option.pure_def, q1, q2, Bool.false_eq_true, if_false, ite_self]
    · rw [abs_of_nonpos hneg] at big
      have hs : FPBits.isNeg binary64 h = true := by rw [FPBits.isNeg_eq binary64 fh.1]; exact sgn_of_neg binary64 (by linarith)
      have Rs := hadd_spec binary64 m fh p.1
      rw [p.2] at Rs
      obtain ⟨fs, es⟩ := rnd_le Rs (C := 32801) (by rw [abs_le]; constructor <;> linarith) (by norm_num)
      have cc : binary64.Finite 0xC0E1A00000000000 ∧ binary64.val 0xC0E1A00000000000 = -36096 := by
        refine ⟨by decide +kernel, ?_⟩
        rw [val_of_ival binary64 (x := 0xC0E1A00000000000) (a := -36096) (by decide +kernel)]; norm_num
      have hcl : binary64.hlt (binary64.hadd m h CC.pow32768) 0xC0E1A00000000000 = false := by
        rw [← Bool.not_eq_true, CC.hlt_finite binary64 fs cc.1, cc.2]
        have := abs_le.1 es
        norm_num at this ⊢; linarith
      obtain ⟨r, hr, fr, gr, zs, w', Rr, er⟩ := D (s := CC.powScaleDown) (Or.inr (Or.inr ⟨rfl, by linarith, by linarith⟩))
      obtain ⟨q1, q2⟩ := flags fr gr
      refine ⟨r, ?_, fr, gr, zs, w', Rr, er⟩
      simp only [hs, Bool.not_true, Bool.false_eq_true, if_false, if_true, hcl, Bool.and_false, Bool.not_false, hr, Option.bind_some, Option.pure_def, q1, q2, ite_self]
  · have hb' : binary64.hge (FPBits.abs binary64 h) CC.pow32768 = false := by rw [← Bool.not_eq_true, hge]; exact big
    have bb := abs_lt.1 (not_le.1 big)
    obtain ⟨r, hr, fr, gr, zs, w', Rr, er⟩ := D (s := CC.one64) (Or.inl ⟨rfl, by linarith, by linarith⟩)
    refine ⟨r, ?_, fr, gr, zs, w', Rr, er⟩
    simp only [hb', Bool.false_and, Bool.false_eq_true, if_false, Bool.not_false, if_true, hr, Option.bind_some, Option.pure_def, ne_eq, not_true_eq_false]

end Verif
