import Verif.Model.LerpSmooth
import Verif.Lemmas.Scalbn
import Verif.Lemmas.Mono
import Verif.Lemmas.EFT
import Verif.Props.Exp2
import Verif.Props.Exp2F

/-!
# C101: `lerp_smooth`

Forward in time the result never passes the target; after `n` half-lives it is `b + (a - b) / 2^n` rounded once.  With no time elapsed it need not be `a`.
-/

namespace Verif
open Fmt

/-- a number of at most `2^k` is rounded to a number of at most `2^k` -/
theorem roundsTo_pow2_bound {f : Fmt} {m : Mode} {zs : Bool} {v : ℝ} {b : ℕ} (R : f.RoundsTo m zs v b) {k : ℤ} (h1 : 1 ≤ k + f.bias) (h2 : k ≤ f.bias)
    (hv : |v| ≤ (2 : ℝ) ^ k) : f.Finite b ∧ |f.val b| ≤ (2 : ℝ) ^ k := by
  obtain ⟨e, he⟩ : ∃ e : ℕ, (e : ℤ) = k + f.bias := ⟨(k + f.bias).toNat, Int.toNat_of_nonneg (by omega)⟩
  obtain ⟨fp, vp, -⟩ := f.pow2_val false (e := e) (by omega) (by omega)
  obtain ⟨fn, vn, -⟩ := f.pow2_val true (e := e) (by omega) (by omega)
  rw [show (e : ℤ) - f.bias = k by omega] at vp vn
  rw [sg_false, one_mul] at vp
  rw [sg_true, neg_one_mul] at vn
  have hv' := abs_le.1 hv
  have u1 := RoundsTo.mono R (f.roundsTo_self (m := m) fp) (by rw [vp]; exact hv'.2)
  have u2 := RoundsTo.mono (f.roundsTo_self (m := m) fn) R (by rw [vn]; exact hv'.1)
  have hM : (2 : ℝ) ^ k ≤ f.maxFin := by
    unfold Fmt.maxFin
    have h3 := zpow_le_zpow_right₀ (show (1 : ℝ) ≤ 2 by norm_num) h2
    have h4 := zpow_le_zpow_right₀ (show (1 : ℝ) ≤ 2 by norm_num) (show -(f.F : ℤ) ≤ 0 by omega)
    rw [zpow_zero] at h4
    have h5 : (0 : ℝ) < 2 ^ (f.bias : ℤ) := zpow_pos (by norm_num) _
    nlinarith
  have fb := RoundsTo.finite_of_le f R (le_trans hv hM)
  rw [f.xval_of_finite fb, f.xval_of_finite fp, EReal.coe_le_coe_iff, vp] at u1
  rw [f.xval_of_finite fb, f.xval_of_finite fn, EReal.coe_le_coe_iff, vn] at u2
  exact ⟨fb, abs_le.2 ⟨u2, u1⟩⟩

/-- the quotient of a non-negative time and a positive half-life, negated -/
theorem quotient101 {f : Fmt} (m : Mode) {t h : ℕ} (ht : f.Finite t) (hh : f.Finite h) (ht0 : 0 ≤ f.val t) (hh0 : 0 < f.val h) :
    (f.Finite (f.hdiv m (f.hneg t) h) ∧ f.val (f.hdiv m (f.hneg t) h) ≤ 0) ∨ f.hdiv m (f.hneg t) h = f.inf true := by
  have R := f.hdiv_spec m (f.finite_hneg ht) hh hh0.ne'
  rw [f.val_hneg] at R
  have hq : -f.val t / f.val h ≤ 0 := div_nonpos_of_nonpos_of_nonneg (by linarith) hh0.le
  have hM : 0 < f.maxFin := f.maxFin_pos
  rcases RoundsTo.cases f R with h1 | ⟨-, h2⟩ | ⟨h1, -⟩
  · refine .inl ⟨h1, ?_⟩
    by_contra hc
    have := sgn_of_pos f (not_le.1 hc)
    rw [R.sign] at this
    split_ifs at this with h0
    · have := RoundsTo.exact f (f.finite_zero false) (by rw [f.val_zero, h0]) R
      rw [this.2, h0] at hc
      exact hc le_rfl
    · exact absurd (lt_of_le_of_ne hq h0) (by simpa using this)
  · linarith
  · exact .inr h1

theorem no_overshoot101 {f : Fmt} (hb : 4 ≤ f.bias) (m : Mode) {a b e : ℕ} (ha : f.Finite a) (hbf : f.Finite b) (he : f.Finite e)
    (la : |f.val a| ≤ (2 : ℝ) ^ ((f.bias : ℤ) - 2)) (lb : |f.val b| ≤ (2 : ℝ) ^ ((f.bias : ℤ) - 2)) (e0 : 0 ≤ f.val e) (e1 : f.val e ≤ 2) :
    f.Finite (f.hadd m b (f.hmul m (f.hsub m a b) e)) ∧
      (f.val b ≤ f.val a → f.val b ≤ f.val (f.hadd m b (f.hmul m (f.hsub m a b) e))) ∧
      (f.val a ≤ f.val b → f.val (f.hadd m b (f.hmul m (f.hsub m a b) e)) ≤ f.val b) := by
  have z1 : (2 : ℝ) ^ ((f.bias : ℤ) - 1) = 2 * 2 ^ ((f.bias : ℤ) - 2) := by
    rw [show (f.bias : ℤ) - 1 = 1 + ((f.bias : ℤ) - 2) by ring, zpow_add₀ (by norm_num)]; norm_num
  have z2 : (2 : ℝ) ^ (f.bias : ℤ) = 4 * 2 ^ ((f.bias : ℤ) - 2) := by
    conv_lhs => rw [show (f.bias : ℤ) = 2 + ((f.bias : ℤ) - 2) by ring, zpow_add₀ (by norm_num)]
    norm_num
  have zp : (0 : ℝ) < 2 ^ ((f.bias : ℤ) - 2) := zpow_pos (by norm_num) _
  have Rd := f.hsub_spec m ha hbf
  have hd : |f.val a - f.val b| ≤ (2 : ℝ) ^ ((f.bias : ℤ) - 1) := by
    have := abs_sub (f.val a) (f.val b); rw [z1]; linarith
  obtain ⟨fd, bd⟩ := roundsTo_pow2_bound Rd (by omega) (by omega) hd
  have Rp := f.hmul_spec m fd he
  have hp : |f.val (f.hsub m a b) * f.val e| ≤ (2 : ℝ) ^ (f.bias : ℤ) := by
    rw [abs_mul, abs_of_nonneg e0]
    have := mul_le_mul bd e1 e0 (by positivity)
    rw [z1] at this; rw [z2]; linarith
  obtain ⟨fp, bp⟩ := roundsTo_pow2_bound Rp (by omega) (by omega) hp
  have Rr := f.hadd_spec m hbf fp
  have hr : |f.val b + f.val (f.hmul m (f.hsub m a b) e)| ≤ f.maxFin := by
    have := abs_add_le (f.val b) (f.val (f.hmul m (f.hsub m a b) e))
    have hF : (2 : ℝ) ^ (-(f.F : ℤ)) ≤ 1 / 2 := by
      have := f.hF
      have := zpow_le_zpow_right₀ (show (1 : ℝ) ≤ 2 by norm_num) (show -(f.F : ℤ) ≤ -1 by omega)
      refine le_trans this (by norm_num)
    unfold Fmt.maxFin
    rw [z2] at bp ⊢
    nlinarith
  have fr := RoundsTo.finite_of_le f Rr hr
  have Rb := f.roundsTo_self (m := m) hbf
  -- the sign of the difference passes through both roundings
  have sgn0 : ∀ {v : ℝ} {zs : Bool} {c : ℕ}, f.RoundsTo m zs v c → f.Finite c → (0 ≤ v → 0 ≤ f.val c) ∧ (v ≤ 0 → f.val c ≤ 0) := by
    intro v zs c R fc
    have R0 := f.roundsTo_self (m := m) (f.finite_zero false)
    rw [f.val_zero] at R0
    constructor <;> intro h
    · have := RoundsTo.mono R0 R h
      rwa [f.xval_of_finite fc, f.xval_of_finite (f.finite_zero false), EReal.coe_le_coe_iff, f.val_zero] at this
    · have := RoundsTo.mono R R0 h
      rwa [f.xval_of_finite fc, f.xval_of_finite (f.finite_zero false), EReal.coe_le_coe_iff, f.val_zero] at this
  refine ⟨fr, fun h => ?_, fun h => ?_⟩
  · have q1 := (sgn0 Rd fd).1 (by linarith)
    have q2 := (sgn0 Rp fp).1 (mul_nonneg q1 e0)
    have := RoundsTo.mono Rb Rr (by linarith)
    rwa [f.xval_of_finite fr, f.xval_of_finite hbf, EReal.coe_le_coe_iff] at this
  · have q1 := (sgn0 Rd fd).2 (by linarith)
    have q2 := (sgn0 Rp fp).2 (mul_nonpos_of_nonpos_of_nonneg q1 e0)
    have := RoundsTo.mono Rr Rb (by linarith)
    rwa [f.xval_of_finite fr, f.xval_of_finite hbf, EReal.coe_le_coe_iff] at this

theorem exp2_le_one_double (m : Mode) {x : ℕ} (hx : (binary64.Finite x ∧ binary64.val x ≤ 0) ∨ x = binary64.inf true) :
    binary64.Finite (CC.exp2Double m x) ∧ 0 ≤ binary64.val (CC.exp2Double m x) ∧ binary64.val (CC.exp2Double m x) ≤ 2 := by
  rcases hx with ⟨hx, h0⟩ | rfl
  · obtain ⟨h1, h2, h3⟩ := C64_exp2_accuracy m hx (by linarith)
    refine ⟨h1, h2, ?_⟩
    have hp : (2 : ℝ) ^ (binary64.val x) ≤ 1 := Real.rpow_le_one_of_one_le_of_nonpos (by norm_num) h0
    have hp0 : (0 : ℝ) < (2 : ℝ) ^ (binary64.val x) := Real.rpow_pos_of_pos (by norm_num) _
    have hz : (2 : ℝ) ^ (-1074 : ℤ) ≤ 1 / 4 := by
      have := zpow_le_zpow_right₀ (show (1 : ℝ) ≤ 2 by norm_num) (show (-1074 : ℤ) ≤ -2 by norm_num)
      refine le_trans this (by norm_num)
    have hz0 : (0 : ℝ) < 2 ^ (-1074 : ℤ) := zpow_pos (by norm_num) _
    generalize (2 : ℝ) ^ (-1074 : ℤ) = z at *
    generalize (2 : ℝ) ^ (binary64.val x) = w at *
    have := (abs_le.1 h3).2
    split_ifs at this <;> norm_num at this <;> nlinarith
  · have h := (C64_exp2_special m).2.2.2.1
    rw [show binary64.inf true = 0xFFF0000000000000 by decide +kernel, h]
    have v0 : binary64.val 0 = 0 := (binary64.val_eq_zero_iff 0).2 (by decide +kernel)
    refine ⟨by decide +kernel, by rw [v0], by rw [v0]; norm_num⟩

theorem exp2_le_one_float (m : Mode) {x : ℕ} (hx : (binary32.Finite x ∧ binary32.val x ≤ 0) ∨ x = binary32.inf true) :
    binary32.Finite (CC.exp2Float m x) ∧ 0 ≤ binary32.val (CC.exp2Float m x) ∧ binary32.val (CC.exp2Float m x) ≤ 2 := by
  have v0 : binary32.val 0 = 0 := (binary32.val_eq_zero_iff 0).2 (by decide +kernel)
  have k0 : binary32.Finite 0 ∧ 0 ≤ binary32.val 0 ∧ binary32.val 0 ≤ 2 := ⟨by decide +kernel, by rw [v0], by rw [v0]; norm_num⟩
  rcases hx with ⟨hx, h0⟩ | rfl
  · have hz : (2 : ℝ) ^ (-149 : ℤ) ≤ 1 / 4 := by
      have := zpow_le_zpow_right₀ (show (1 : ℝ) ≤ 2 by norm_num) (show (-149 : ℤ) ≤ -2 by norm_num)
      refine le_trans this (by norm_num)
    have hz0 : (0 : ℝ) < 2 ^ (-149 : ℤ) := zpow_pos (by norm_num) _
    by_cases hl : binary32.val x < -149
    · rw [(exp2Float_cases m hx).2.1 hl, CC.exp2fUnderflow]
      split_ifs
      · have e : FPBits.minSubnormal binary32 false = 1 := by decide +kernel
        rw [e]
        have v1 : binary32.val 1 = 2 ^ (-149 : ℤ) := by
          rw [binary32.val_eq_ival, show binary32.ival 1 = 1 by decide +kernel]
          unfold Fmt.minSub
          rw [Int.cast_one, one_mul]
          rfl
        exact ⟨by decide +kernel, by rw [v1]; exact hz0.le, by rw [v1]; exact le_trans hz (by norm_num)⟩
      · exact k0
    · obtain ⟨h1, h2, h3⟩ := C66_exp2f_accuracy_partial m hx (not_lt.1 hl) (lt_of_le_of_lt h0 (by norm_num))
      refine ⟨h1, h2, ?_⟩
      have hp : (2 : ℝ) ^ (binary32.val x) ≤ 1 := Real.rpow_le_one_of_one_le_of_nonpos (by norm_num) h0
      have hp0 : (0 : ℝ) < (2 : ℝ) ^ (binary32.val x) := Real.rpow_pos_of_pos (by norm_num) _
      generalize (2 : ℝ) ^ (-149 : ℤ) = z at *
      generalize (2 : ℝ) ^ (binary32.val x) = w at *
      have := (abs_le.1 h3).2
      split_ifs at this <;> norm_num at this <;> nlinarith
  · have h := (C66_exp2f_special m).2.2.2.1
    rw [show binary32.inf true = 0xFF800000 by decide +kernel, h]
    exact k0

/-- C101: for a non-negative time and a positive half-life the result is on the same side of the target `b` as `a`, in every rounding mode -/
theorem C101_no_overshoot_double (m : Mode) {a b t h : ℕ} (ha : binary64.Finite a) (hb : binary64.Finite b) (ht : binary64.Finite t) (hh : binary64.Finite h)
    (la : |binary64.val a| ≤ (2 : ℝ) ^ (1021 : ℤ)) (lb : |binary64.val b| ≤ (2 : ℝ) ^ (1021 : ℤ)) (ht0 : 0 ≤ binary64.val t) (hh0 : 0 < binary64.val h) :
    binary64.Finite (CC.lerpSmoothDouble m a b t h) ∧
      (binary64.val b ≤ binary64.val a → binary64.val b ≤ binary64.val (CC.lerpSmoothDouble m a b t h)) ∧
      (binary64.val a ≤ binary64.val b → binary64.val (CC.lerpSmoothDouble m a b t h) ≤ binary64.val b) := by
  obtain ⟨e1, e2, e3⟩ := exp2_le_one_double m (quotient101 m ht hh ht0 hh0)
  exact no_overshoot101 (by decide) m ha hb e1 la lb e2 e3

/-- C101, float -/
theorem C101_no_overshoot_float (m : Mode) {a b t h : ℕ} (ha : binary32.Finite a) (hb : binary32.Finite b) (ht : binary32.Finite t) (hh : binary32.Finite h)
    (la : |binary32.val a| ≤ (2 : ℝ) ^ (125 : ℤ)) (lb : |binary32.val b| ≤ (2 : ℝ) ^ (125 : ℤ)) (ht0 : 0 ≤ binary32.val t) (hh0 : 0 < binary32.val h) :
    binary32.Finite (CC.lerpSmoothFloat m a b t h) ∧
      (binary32.val b ≤ binary32.val a → binary32.val b ≤ binary32.val (CC.lerpSmoothFloat m a b t h)) ∧
      (binary32.val a ≤ binary32.val b → binary32.val (CC.lerpSmoothFloat m a b t h) ≤ binary32.val b) := by
  obtain ⟨e1, e2, e3⟩ := exp2_le_one_float m (quotient101 m ht hh ht0 hh0)
  exact no_overshoot101 (by decide) m ha hb e1 la lb e2 e3

/-- the hypotheses hold for `a = b = 0`, `t = 0`, `h = 1` -/
example (m : Mode) : binary64.Finite (CC.lerpSmoothDouble m 0 0 0 (CC.oneLit binary64 false)) := by
  have v0 : binary64.val 0 = 0 := (binary64.val_eq_zero_iff 0).2 (by decide +kernel)
  have f0 : binary64.Finite 0 := by decide +kernel
  have hp : (0 : ℝ) < 2 ^ (1021 : ℤ) := zpow_pos (by norm_num) _
  exact (C101_no_overshoot_double m f0 f0 f0 (CC.finite_one _ _) (by rw [v0, abs_zero]; exact hp.le) (by rw [v0, abs_zero]; exact hp.le) v0.ge
    (by rw [CC.val_one, sg_false]; norm_num)).1

theorem half_life101 {f : Fmt} {exp2 : Mode → ℕ → ℕ} (N : ℤ) (hexp : ∀ (m : Mode) (x : ℕ) (n : ℤ), f.Finite x → f.val x = n → N ≤ n → n ≤ 0 →
      f.Finite (exp2 m x) ∧ f.val (exp2 m x) = (2 : ℝ) ^ n) (m : Mode) {a b t h n : ℕ} (ha : f.Finite a) (hb : f.Finite b) (ht : f.Finite t) (hh : f.Finite h)
    (hh0 : 0 < f.val h) (hn : f.val t = n * f.val h) (hN : N ≤ -(n : ℤ)) {i d p : ℕ} (hi : f.Finite i) (vi : f.val i = n)
    (hd : f.Finite d) (vd : f.val d = f.val a - f.val b) (hp : f.Finite p) (vp : f.val p = (f.val a - f.val b) / 2 ^ n) :
    ∃ zs, f.RoundsTo m zs (f.val b + (f.val a - f.val b) / 2 ^ n) (CC.lerpSmooth f exp2 m a b t h) := by
  have Rq := f.hdiv_spec m (f.finite_hneg ht) hh hh0.ne'
  have q : f.val (f.hneg t) / f.val h = ((-(n : ℤ) : ℤ) : ℝ) := by
    rw [f.val_hneg, hn]; push_cast; field_simp
  rw [q] at Rq
  obtain ⟨fq, vq⟩ := RoundsTo.exact f (f.finite_hneg hi) (by rw [f.val_hneg, vi]; push_cast; rfl) Rq
  obtain ⟨fe, ve⟩ := hexp m _ _ fq vq hN (by omega)
  obtain ⟨fd, vd'⟩ := RoundsTo.exact f hd vd (f.hsub_spec m ha hb)
  have Rp := f.hmul_spec m fd fe
  rw [vd', ve] at Rp
  obtain ⟨fp, vp'⟩ := RoundsTo.exact f hp (by rw [vp, zpow_neg, zpow_natCast, div_eq_mul_inv]) Rp
  have Rr := f.hadd_spec m hb fp
  rw [vp', zpow_neg, zpow_natCast, ← div_eq_mul_inv] at Rr
  exact ⟨_, Rr⟩

/-- C101: after `n` half-lives (`t = n h`) the result is `b + (a - b) / 2^n` rounded once, if the difference and its part are representable -/
theorem C101_half_life_double (m : Mode) {a b t h n : ℕ} (ha : binary64.Finite a) (hb : binary64.Finite b) (ht : binary64.Finite t) (hh : binary64.Finite h)
    (hh0 : 0 < binary64.val h) (hn : binary64.val t = n * binary64.val h) (hN : n ≤ 1074)
    (hd : ∃ d, binary64.Finite d ∧ binary64.val d = binary64.val a - binary64.val b)
    (hp : ∃ p, binary64.Finite p ∧ binary64.val p = (binary64.val a - binary64.val b) / 2 ^ n) :
    ∃ zs, binary64.RoundsTo m zs (binary64.val b + (binary64.val a - binary64.val b) / 2 ^ n) (CC.lerpSmoothDouble m a b t h) := by
  obtain ⟨d, fd, vd⟩ := hd
  obtain ⟨p, fp, vp⟩ := hp
  obtain ⟨fi, vi⟩ := lit_spec binary64 binary64_wide (k := n) (le_trans hN (by decide +kernel))
  exact half_life101 (-1074) (fun m x k hx hv h1 h2 => C64_exp2_integer m hx hv h1 (by omega)) m ha hb ht hh hh0 hn (by omega) fi vi fd vd fp vp

/-- C101, float -/
theorem C101_half_life_float (m : Mode) {a b t h n : ℕ} (ha : binary32.Finite a) (hb : binary32.Finite b) (ht : binary32.Finite t) (hh : binary32.Finite h)
    (hh0 : 0 < binary32.val h) (hn : binary32.val t = n * binary32.val h) (hN : n ≤ 149)
    (hd : ∃ d, binary32.Finite d ∧ binary32.val d = binary32.val a - binary32.val b)
    (hp : ∃ p, binary32.Finite p ∧ binary32.val p = (binary32.val a - binary32.val b) / 2 ^ n) :
    ∃ zs, binary32.RoundsTo m zs (binary32.val b + (binary32.val a - binary32.val b) / 2 ^ n) (CC.lerpSmoothFloat m a b t h) := by
  obtain ⟨d, fd, vd⟩ := hd
  obtain ⟨p, fp, vp⟩ := hp
  obtain ⟨fi, vi⟩ := lit_spec binary32 binary32_wide (k := n) (le_trans hN (by decide +kernel))
  exact half_life101 (-149) (fun m x k hx hv h1 h2 => C66_exp2f_integer m hx hv h1 (by omega)) m ha hb ht hh hh0 hn (by omega) fi vi fd vd fp vp

/-- from 8 towards 4: 6 after one half-life, 5 after two -/
example : CC.lerpSmoothDouble .nearest 0x4020000000000000 0x4010000000000000 0x3FF0000000000000 0x3FF0000000000000 = 0x4018000000000000 ∧
    CC.lerpSmoothDouble .nearest 0x4020000000000000 0x4010000000000000 0x4000000000000000 0x3FF0000000000000 = 0x4014000000000000 := by decide +kernel

/-- C101, finding: with no time elapsed, `lerp_smooth(1, 2^60, 0, 1)` is 0 instead of 1 -/
theorem C101_no_time_wrong : CC.lerpSmoothDouble .nearest 0x3FF0000000000000 0x43B0000000000000 0 0x3FF0000000000000 = 0 ∧
    CC.lerpSmoothFloat .nearest 0x3F800000 0x5D800000 0 0x3F800000 = 0 := by decide +kernel

/-- C101, finding: at the target, `lerp_smooth(1, 1, -2000, 1)` is NaN, and so is every `lerp_smooth(a, b, 0, 0)` -/
theorem C101_nan : binary64.IsNaN (CC.lerpSmoothDouble .nearest 0x3FF0000000000000 0x3FF0000000000000 0xC09F400000000000 0x3FF0000000000000) ∧
    ∀ (m : Mode) (a b : ℕ), binary64.IsNaN (CC.lerpSmoothDouble m a b 0 0) := by
  refine ⟨by decide +kernel, fun m a b => ?_⟩
  have h : CC.exp2Double m (binary64.hdiv m (binary64.hneg 0) 0) = binary64.qnan := by cases m <;> decide +kernel
  have hq : binary64.nanB binary64.qnan = true := by decide +kernel
  unfold CC.lerpSmoothDouble CC.lerpSmooth
  rw [h]
  simp only [Fmt.hmul, Fmt.hadd, hq, Bool.or_true, if_true]
  exact binary64.isNaN_qnan

end Verif
