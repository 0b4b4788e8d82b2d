import Verif.Lemmas.FpOps
import Verif.Props.Fma
import Verif.Lemmas.EFT

/-!
# C45 `fp::cast`, C46 `fp::op::add`, `sub`, `mul`

`g` is the format of the arguments and `f` the format of the result, `f.F ≤ g.F`.
-/

namespace Verif
open Fmt

/-! ### C45 -/

/-- A narrowing cast of a finite number rounds once, in every mode, to normal, subnormal, zero and overflowing results, and keeps the sign of zero. -/
theorem C45_cast_finite (f g : Fmt) (hF : 2 ≤ f.F) (hb : f.F + 3 ≤ f.bias) (hfg : f.F < g.F) {B : ℕ} (hB : g.F + 1 ≤ B)
    (hnum : g.bias + g.F + B ≤ 2 ^ 31) (fused : Bool) (md : Mode) {x : ℕ} (hx : g.Finite x) :
    f.RoundsTo md (g.sgn x) (g.val x) (CC.fpCast f g B fused md x) := by
  unfold CC.fpCast
  rw [FPBits.isNan_eq, FPBits.isInf_eq, (g.finite_B hx).1, (g.finite_B hx).2]
  simp only [Bool.false_eq_true, if_false]
  obtain ⟨h1, h2, h3, h4⟩ := CC.dyOf_spec (f := g) hB hx
  by_cases h0 : g.val x = 0
  · have hm : (CC.dyOf g B x).m = 0 := (Dy.val_eq_zero _).1 (by rw [h2, h0])
    rw [CC.fastAs_zero f B fused md hm, h3, h0]
    have := (CC.zero_spec f md (g.sgn x) (X := 0) rfl).1
    rwa [FPBits.zero_eq] at this
  · have hnum' : (g.bias : ℤ) + g.F + B ≤ 2 ^ 31 := by exact_mod_cast hnum
    have h5 := h4 h0
    have := CC.fastAs_spec f hF hb (B := B) (by omega) (by omega) fused md h1 (by omega)
    rwa [h2, h3] at this

/-- double to float: 64-bit dyadic; `1 + 2^-24 + 2^-52` is rounded up, half of the least subnormal float to zero -/
example : CC.fpCast binary32 binary64 64 false .nearest 0x3FF0000010000001 = 0x3F800001 ∧ CC.fpCast binary32 binary64 64 false .nearest 0xB690000000000000 = 0x80000000 ∧
    2 ≤ binary32.F ∧ binary32.F + 3 ≤ binary32.bias ∧ binary32.F < binary64.F ∧ binary64.F + 1 ≤ 64 ∧ binary64.bias + binary64.F + 64 ≤ 2 ^ 31 := by
  refine ⟨by decide +kernel, by decide +kernel, ?_⟩; decide

theorem C45_cast_inf (f g : Fmt) (B : ℕ) (fused : Bool) (md : Mode) {x : ℕ} (hx : g.IsInf x) : CC.fpCast f g B fused md x = f.inf (g.sgn x) := by
  unfold CC.fpCast
  have h1 : g.infB x = true := (g.infB_iff hx.1).2 hx
  have h2 : g.nanB x = false := by
    by_contra hc
    have := (g.nanB_iff hx.1).1 (by simpa using hc)
    exact this.2.2 hx.2.2
  rw [FPBits.isNan_eq, FPBits.isInf_eq, h1, h2, FPBits.inf_eq, FPBits.isNeg_eq g hx.1]
  simp

example : CC.fpCast binary32 binary64 64 false .nearest (binary64.inf true) = binary32.inf true := by decide +kernel

/-- A NaN becomes a quiet NaN.  The sign and the leading part of the payload of a quiet NaN are kept. -/
theorem C45_cast_nan (f g : Fmt) (B : ℕ) (fused : Bool) (md : Mode) {x : ℕ} (hx : g.IsNaN x) :
    IsQuietNaN f (CC.fpCast f g B fused md x) ∧
      (IsQuietNaN g x → f.F < g.F → f.sgn (CC.fpCast f g B fused md x) = g.sgn x ∧ f.frac (CC.fpCast f g B fused md x) = g.frac x / 2 ^ (g.F - f.F)) := by
  have h2 : g.nanB x = true := (g.nanB_iff hx.1).2 hx
  unfold CC.fpCast
  rw [FPBits.isNan_eq, h2]
  simp only [if_true]
  constructor
  · split
    · exact quietNaN_quiet f _ _
    · exact quietNaN_quiet f _ _
  · intro hq hfg
    have hEg := g.two_pow_E
    have hEf := f.two_pow_E
    have hFf := f.hF
    have hmsb : FPBits.msb g = 2 ^ (g.F - 1) := by unfold FPBits.msb; rw [Nat.one_shiftLeft]
    have hmsbf : FPBits.msb f = 2 ^ (f.F - 1) := by unfold FPBits.msb; rw [Nat.one_shiftLeft]
    have hfr : g.frac x < 2 ^ g.F := Nat.mod_lt _ (by positivity)
    have hge : 2 ^ (g.F - 1) ≤ g.frac x := by
      have := hq.2
      exact Nat.ge_two_pow_of_testBit this
    have hmag : g.mag x = (2 ^ g.E - 1) * 2 ^ g.F + g.frac x := by
      have := hx.2.1
      have h3 : g.mag x = g.bexp x * 2 ^ g.F + g.frac x := by
        unfold bexp frac mag
        have : 2 ^ (g.E + g.F) = 2 ^ g.F * 2 ^ g.E := by rw [pow_add]; ring
        rw [← Nat.mod_mod_of_dvd x (show 2 ^ g.F ∣ 2 ^ (g.E + g.F) from pow_dvd_pow 2 (by omega)), Nat.div_add_mod']
      rw [h3, this]
    have hquiet : FPBits.isQuietNan g x = true := by
      unfold FPBits.isQuietNan
      rw [FPBits.expSigBits_eq, FPBits.encode_or, FPBits.bInf_eq, Nat.mod_eq_of_lt (a := 2 ^ g.E - 1) (by omega), Nat.mod_eq_of_lt (FPBits.msb_lt g), hmag, hmsb]
      simp only [ge_iff_le, decide_eq_true_eq]; omega
    have hsig : FPBits.isSignalingNan g x = false := by unfold FPBits.isSignalingNan; rw [hquiet]; simp
    rw [hsig, FPBits.isNeg_eq g hx.1, FPBits.getMantissa_eq, if_pos hfg, Nat.shiftRight_eq_div_pow]
    simp only [Bool.false_eq_true, if_false]
    have hpw : 2 ^ g.F = 2 ^ f.F * 2 ^ (g.F - f.F) := by rw [← pow_add]; congr 1; omega
    have hpw1 : 2 ^ (g.F - 1) = 2 ^ (f.F - 1) * 2 ^ (g.F - f.F) := by rw [← pow_add]; congr 1; omega
    have hlt : g.frac x / 2 ^ (g.F - f.F) < 2 ^ f.F := by rw [Nat.div_lt_iff_lt_mul (by positivity), ← hpw]; exact hfr
    have hge2 : 2 ^ (f.F - 1) ≤ g.frac x / 2 ^ (g.F - f.F) := by rw [Nat.le_div_iff_mul_le (by positivity), ← hpw1]; exact hge
    generalize g.frac x / 2 ^ (g.F - f.F) = v at *
    have hS : 2 ^ f.F ≤ 2 ^ (f.E + f.F + 1) := Nat.pow_le_pow_right (by norm_num) (by omega)
    rw [Nat.mod_eq_of_lt (by omega)]
    have hor : FPBits.msb f ||| v = v := by
      rw [hmsbf]
      have e1 : 2 ^ f.F = 2 * 2 ^ (f.F - 1) := by rw [← pow_succ']; congr 1; omega
      have e2 := Nat.two_pow_add_eq_or_of_lt (i := f.F - 1) (b := v - 2 ^ (f.F - 1)) (by omega) 1
      rw [mul_one] at e2
      have e3 : v = 2 ^ (f.F - 1) ||| (v - 2 ^ (f.F - 1)) := by rw [← e2]; omega
      rw [e3, ← Nat.or_assoc, Nat.or_self]
    have he : FPBits.quietNaN f (g.sgn x) v = f.pack (g.sgn x) ((2 ^ f.E - 1) * 2 ^ f.F + v) := by
      unfold FPBits.quietNaN; rw [FPBits.encode_eq, FPBits.bInf_eq, Nat.mod_eq_of_lt (a := 2 ^ f.E - 1) (by omega), hor, Nat.mod_eq_of_lt hlt]
    rw [he]
    exact ⟨f.sgn_pack _ (FPBits.exp_frac_lt f (by omega) hlt), CC.frac_pack f (by omega) hlt⟩

example : CC.fpCast binary32 binary64 64 false .nearest 0xFFF8000020000000 = 0xFFC00001 ∧ CC.fpCast binary32 binary64 64 false .nearest 0x7FF0000000000001 = 0x7FC00000 := by
  constructor <;> decide +kernel

/-- Widening (`static_cast`) is exact and keeps the sign of zero. -/
theorem C45_widening (f g : Fmt) (hFF : g.F ≤ f.F) (hbb : g.bias ≤ f.bias) (md : Mode) {x : ℕ} (hx : g.Finite x) :
    f.Finite (f.hcvt g md x) ∧ f.val (f.hcvt g md x) = g.val x ∧ f.sgn (f.hcvt g md x) = g.sgn x := by
  have R := CC.hcvt_spec f g md hx
  have hrep : ∃ b, f.Finite b ∧ f.val b = g.val x := by
    refine f.rep (g := g.ce x) (g.mult_ce x) ?_ ?_ ?_
    · have := g.ce_ge x; unfold emin at *; omega
    · exact le_trans (g.abs_val_lt_ce x).le (zpow_le_zpow_right₀ (by norm_num) (by omega))
    · exact lt_of_lt_of_le (g.abs_val_lt_huge hx) (zpow_le_zpow_right₀ (by norm_num) (by omega))
  obtain ⟨r1, r2⟩ := RoundsTo.exact_of R hrep
  refine ⟨r1, r2, ?_⟩
  rw [R.sign]
  by_cases h0 : g.val x = 0
  · rw [if_pos h0]
  · rw [if_neg h0]
    have := CC.val_eq_sg_abs g x
    have hp : 0 < |g.val x| := abs_pos.2 h0
    cases hs : g.sgn x
    · rw [hs, sg_false, one_mul] at this; rw [this]; simp
    · rw [hs, sg_true] at this; rw [this]; simp [h0]

example : binary32.F ≤ binary64.F ∧ binary32.bias ≤ binary64.bias ∧ binary64.hcvt binary32 .nearest 0x80000001 = 0xB6A0000000000000 := by
  refine ⟨by decide, by decide, by decide +kernel⟩

/-! ### C46: multiplication -/

/-- `mul` of finite numbers is the correctly rounded product, in every mode. -/
theorem C46_mul_finite (f g : Fmt) (hF : 2 ≤ f.F) (hb : f.F + 3 ≤ f.bias) (hfg : f.F ≤ g.F) (wide : Bool) {w N : ℕ} (he : wide = false → w % 2 = 0)
    (hN : 1 ≤ N) (hM : N < 2 ^ w) (hw : g.F + 1 ≤ w) (hB : 2 * (g.F + 1) ≤ w * N) (hnum : 2 * (g.bias + g.F + w * N + 2) ≤ 2 ^ 31) (fused : Bool)
    (md : Mode) {x y : ℕ} (hx : g.Finite x) (hy : g.Finite y) :
    f.RoundsTo md (xor (g.sgn x) (g.sgn y)) (g.val x * g.val y) (CC.opMul f g wide w N fused md x y) := by
  unfold CC.opMul
  rw [FPBits.isNan_eq, FPBits.isNan_eq, FPBits.isInf_eq, FPBits.isInf_eq, FPBits.isZero_eq, FPBits.isZero_eq, CC.isInfOrNan_finite g hx, CC.isInfOrNan_finite g hy,
    (g.finite_B hx).1, (g.finite_B hx).2, (g.finite_B hy).1, (g.finite_B hy).2, FPBits.isNeg_eq g hx.valid, FPBits.isNeg_eq g hy.valid]
  simp only [Bool.false_or, Bool.or_self, Bool.false_eq_true, if_false]
  have hrs : (!(g.sgn x == g.sgn y)) = xor (g.sgn x) (g.sgn y) := by cases g.sgn x <;> cases g.sgn y <;> rfl
  rw [hrs]
  by_cases h0 : g.zeroB x = true ∨ g.zeroB y = true
  · have hb0 : (g.zeroB x || g.zeroB y) = true := by rw [Bool.or_eq_true]; exact h0
    rw [if_pos hb0]
    have hz : g.val x * g.val y = 0 := by
      rcases h0 with h | h
      · rw [(zeroB_iff_val g x).1 h, zero_mul]
      · rw [(zeroB_iff_val g y).1 h, mul_zero]
    exact (CC.zero_spec f md _ hz).1
  · have hb0 : ¬ (g.zeroB x || g.zeroB y) = true := by rw [Bool.or_eq_true]; exact h0
    rw [if_neg hb0]
    push Not at h0
    have x0 : g.val x ≠ 0 := fun h => h0.1 ((zeroB_iff_val g x).2 h)
    have y0 : g.val y ≠ 0 := fun h => h0.2 ((zeroB_iff_val g y).2 h)
    have hFg := g.hF
    have hB1 : g.F + 1 ≤ w * N := by omega
    obtain ⟨a1, a2, a3, a4⟩ := CC.dyOf_spec (f := g) hB1 hx
    obtain ⟨b1, b2, b3, b4⟩ := CC.dyOf_spec (f := g) hB1 hy
    have ad := CC.dyOf_dvd g hB1 x
    have bd := CC.dyOf_dvd g hB1 y
    have am : (CC.dyOf g (w * N) x).m ≠ 0 := fun h => x0 (by rw [← a2]; exact (Dy.val_eq_zero _).2 h)
    have bm : (CC.dyOf g (w * N) y).m ≠ 0 := fun h => y0 (by rw [← b2]; exact (Dy.val_eq_zero _).2 h)
    have a5 := a4 x0
    have b5 := b4 y0
    generalize CC.dyOf g (w * N) x = a at *
    generalize CC.dyOf g (w * N) y = b at *
    obtain ⟨r1, r2, r3, -, -, r6⟩ := CC.quickMul_spec wide (by omega) he hN hM a1 b1 am bm (by omega)
    have eB : w * N = w * (N - 1) + w := by rw [← Nat.mul_succ]; congr 1; omega
    have hex := CC.quickMul_exact wide (by omega) he hN hM a1 b1 am bm (by omega)
      (Nat.mod_eq_zero_of_dvd (dvd_trans (pow_dvd_pow 2 (by omega)) ad))
      (by
        refine dvd_trans (pow_dvd_pow 2 (show w * N ≤ (w * N - (g.F + 1)) + (w * N - (g.F + 1)) by omega)) ?_
        rw [pow_add]; exact mul_dvd_mul ad bd)
    have hnum' : 2 * ((g.bias : ℤ) + g.F + (w * N : ℕ) + 2) ≤ 2 ^ 31 := by exact_mod_cast hnum
    have := CC.fastAs_spec f hF hb (B := w * N) (by omega) (by omega) fused md r1 (by omega)
    rw [hex, r3, a2, b2, a3, b3] at this
    exact this

/-- the instantiations: `double` uses two 64-bit words, `float` one -/
example : binary64.F + 1 ≤ 64 ∧ 2 * (binary64.F + 1) ≤ 64 * 2 ∧ 2 * (binary32.F + 1) ≤ 64 * 1 ∧ 2 * (binary64.bias + binary64.F + 64 * 2 + 2) ≤ 2 ^ 31 ∧
    CC.opMul binary64 binary64 true 64 2 false .nearest 0x3FF8000000000000 0xC008000000000000 = 0xC012000000000000 ∧
    CC.opMul binary32 binary64 true 64 2 false .up 0x3FF0000000000001 0x3FF0000000000001 = 0x3F800001 := by
  refine ⟨by decide, by decide, by decide, by decide, by decide +kernel, by decide +kernel⟩

theorem infOrNan_of_nan (g : Fmt) {x : ℕ} (hx : g.IsNaN x) : FPBits.isInfOrNan g x = true :=
  notFinite_infOrNan g hx.1 (fun h => h.2 hx.2.1)
theorem infOrNan_of_inf (g : Fmt) {x : ℕ} (hx : g.IsInf x) : FPBits.isInfOrNan g x = true :=
  notFinite_infOrNan g hx.1 (fun h => h.2 hx.2.1)

theorem opNaN_quiet (f g : Fmt) (x y : ℕ) : IsQuietNaN f (CC.opNaN f g x y) := by
  unfold CC.opNaN
  split
  · exact quietNaN_quiet f _ _
  · split
    · exact quietNaN_quiet f _ _
    · exact quietNaN_quiet f _ _

theorem nanB_of_inf (g : Fmt) {x : ℕ} (hx : g.IsInf x) : g.nanB x = false := by
  by_contra hc
  have := (g.nanB_iff hx.1).1 (by simpa using hc)
  exact this.2.2 hx.2.2

/-- `mul`: a NaN operand or infinity times zero gives a quiet NaN; infinity times a non-zero number is the infinity with the product of the signs. -/
theorem C46_mul_special (f g : Fmt) (wide : Bool) (w N : ℕ) (fused : Bool) (md : Mode) {x y : ℕ} (hx : g.Valid x) (hy : g.Valid y) :
    (g.IsNaN x ∨ g.IsNaN y → IsQuietNaN f (CC.opMul f g wide w N fused md x y)) ∧
    (g.IsInf x ∧ g.mag y = 0 ∨ g.mag x = 0 ∧ g.IsInf y → IsQuietNaN f (CC.opMul f g wide w N fused md x y)) ∧
    (g.IsInf x ∧ ¬ g.IsNaN y ∧ g.mag y ≠ 0 ∨ ¬ g.IsNaN x ∧ g.mag x ≠ 0 ∧ g.IsInf y →
      CC.opMul f g wide w N fused md x y = f.inf (xor (g.sgn x) (g.sgn y))) := by
  have hrs : (!(g.sgn x == g.sgn y)) = xor (g.sgn x) (g.sgn y) := by cases g.sgn x <;> cases g.sgn y <;> rfl
  have zf : ∀ {z : ℕ}, g.Valid z → g.mag z = 0 → g.nanB z = false ∧ g.infB z = false ∧ g.zeroB z = true := by
    intro z hz h
    have hfin : g.Finite z := by rw [g.finite_iff]; exact ⟨hz, by rw [h]; exact lt_of_lt_of_le (by positivity) g.infMag_pos⟩
    exact ⟨(g.finite_B hfin).1, (g.finite_B hfin).2, by simp [zeroB, h]⟩
  unfold CC.opMul
  rw [FPBits.isNan_eq, FPBits.isNan_eq, FPBits.isInf_eq, FPBits.isInf_eq, FPBits.isZero_eq, FPBits.isZero_eq, FPBits.isNeg_eq g hx, FPBits.isNeg_eq g hy, hrs]
  simp only [FPBits.inf_eq]
  refine ⟨?_, ?_, ?_⟩
  · intro h
    have h1 : (FPBits.isInfOrNan g x || FPBits.isInfOrNan g y || g.zeroB x || g.zeroB y) = true := by
      rcases h with h | h <;> simp [infOrNan_of_nan g h]
    have h2 : (g.nanB x || g.nanB y) = true := by
      rcases h with h | h
      · rw [(g.nanB_iff hx).2 h]; rfl
      · rw [(g.nanB_iff hy).2 h]; simp
    rw [if_pos h1, if_pos h2]; exact opNaN_quiet f g x y
  · rintro (⟨h1, h2⟩ | ⟨h1, h2⟩)
    · obtain ⟨z1, z2, z3⟩ := zf hy h2
      rw [infOrNan_of_inf g h1, nanB_of_inf g h1, z1, (g.infB_iff hx).2 h1, z3]
      simp only [Bool.true_or, if_true, Bool.or_self, Bool.false_eq_true, if_false]
      exact quietNaN_quiet f _ _
    · obtain ⟨z1, z2, z3⟩ := zf hx h1
      rw [infOrNan_of_inf g h2, nanB_of_inf g h2, z1, z2, (g.infB_iff hy).2 h2, z3]
      simp only [Bool.true_or, Bool.or_true, if_true, Bool.or_self, Bool.false_eq_true, if_false]
      exact quietNaN_quiet f _ _
  · have nn : ∀ {z : ℕ}, g.Valid z → ¬ g.IsNaN z → g.nanB z = false := by
      intro z hz h; by_contra hc; exact h ((g.nanB_iff hz).1 (by simpa using hc))
    have nz : ∀ {z : ℕ}, g.mag z ≠ 0 → g.zeroB z = false := by intro z h; simp [zeroB, h]
    rintro (⟨h1, h2, h3⟩ | ⟨h1, h2, h3⟩)
    · rw [infOrNan_of_inf g h1, nanB_of_inf g h1, nn hy h2, (g.infB_iff hx).2 h1, nz h3]
      simp
    · rw [infOrNan_of_inf g h3, nanB_of_inf g h3, nn hx h1, (g.infB_iff hy).2 h3, nz h2]
      cases g.infB x <;> cases hz : g.zeroB y <;> simp
      · have : g.mag y = 0 := by simpa [zeroB] using hz
        have := ((g.isInf_iff y).1 h3).2
        have := g.infMag_pos
        have : 0 < 2 ^ (g.F + 1) := by positivity
        omega

example : CC.opMul binary64 binary64 true 64 2 false .nearest (binary64.inf true) 0x3FF0000000000000 = binary64.inf true ∧
    CC.opMul binary64 binary64 true 64 2 false .nearest (binary64.inf true) 0 = 0x7FF8000000000000 := by
  constructor <;> decide +kernel

/-! ### C46: addition and subtraction -/

/-- `add` and `sub` are correctly rounded when both operands are normal numbers and either the signs of the operands are equal or the first operand is
not smaller in magnitude.  Missing: everything listed in the `wrong` theorems below. -/
theorem C46_add_sub_partial (f g : Fmt) (hF : 2 ≤ f.F) (hb : f.F + 3 ≤ f.bias) (hfg : f.F ≤ g.F) (hE : 4 ≤ g.E) {B : ℕ} (hB : g.F + 5 ≤ B)
    (hnum : 2 * (g.bias + g.F + B + 2) ≤ 2 ^ 31) (fused isSub : Bool) (md : Mode) {x y : ℕ} (hx : g.Finite x) (hy : g.Finite y)
    (hxn : g.bexp x ≠ 0) (hyn : g.bexp y ≠ 0) (h : g.sgn x = g.sgn y ∨ |g.val y| ≤ |g.val x|) :
    f.RoundsTo md (decide (md = .down)) (if isSub then g.val x - g.val y else g.val x + g.val y) (CC.opAddSub f g B fused isSub md x y) := by
  have bx : g.bexp (g.mag x) = g.bexp x := by unfold bexp; rw [CC.mag_mag]
  have by' : g.bexp (g.mag y) = g.bexp y := by unfold bexp; rw [CC.mag_mag]
  have fx : g.Finite (g.mag x) := by rw [g.finite_iff, CC.mag_mag]; exact ⟨CC.valid_mag g x, ((g.finite_iff x).1 hx).2⟩
  have fy : g.Finite (g.mag y) := by rw [g.finite_iff, CC.mag_mag]; exact ⟨CC.valid_mag g y, ((g.finite_iff y).1 hy).2⟩
  have zx : g.zeroB x = false := by
    by_contra hc
    have hz : g.mag x = 0 := by simpa [zeroB] using hc
    apply hxn; unfold bexp; rw [hz]; simp
  have zy : g.zeroB y = false := by
    by_contra hc
    have hz : g.mag y = 0 := by simpa [zeroB] using hc
    apply hyn; unfold bexp; rw [hz]; simp
  have vx := CC.val_eq_sg_abs g x
  have vy := CC.val_eq_sg_abs g y
  unfold CC.opAddSub
  simp only [FPBits.isZero_eq, CC.isInfOrNan_finite g hx, CC.isInfOrNan_finite g hy, zx, zy, Bool.or_self, Bool.false_eq_true, if_false,
    FPBits.isNeg_eq g hx.valid, FPBits.isNeg_eq g hy.valid, FPBits.abs_eq]
  have eqI := CC.heq_finite g fx fy
  have ltI := CC.hlt_finite g fx fy
  have gtI := CC.hlt_finite g fy fx
  rw [CC.val_mag, CC.val_mag] at eqI ltI gtI
  -- the exact value through magnitudes
  have hval : (if isSub = true then g.val x - g.val y else g.val x + g.val y) =
      sg (g.sgn x) * (|g.val x| + (if ((g.sgn x == g.sgn y) != isSub) then 1 else -1) * |g.val y|) := by
    conv_lhs => rw [vx, vy]
    cases g.sgn x <;> cases g.sgn y <;> cases isSub <;> simp <;> ring
  rw [hval]
  set effAdd := ((g.sgn x == g.sgn y) != isSub) with heff
  have core := fun (p q : ℕ) (hp : g.Finite p) (hq : g.Finite q) (hpn : g.bexp p ≠ 0) (hqn : g.bexp q ≠ 0) (hps : g.sgn p = false) (hqs : g.sgn q = false)
      (hle : g.val q ≤ g.val p) (rs : Bool) (hne : effAdd = false → g.val q < g.val p) =>
    CC.addSub_core f g hF hb hfg hE hB hnum fused md hp hq hpn hqn hps hqs hle rs effAdd (decide (md = .down)) hne
  have nsub : ∀ p, g.bexp p ≠ 0 → FPBits.isSubnormal g p = false := by intro p hp; rw [FPBits.isSubnormal_eq]; simp [hp]
  rcases lt_trichotomy (|g.val x|) (|g.val y|) with hlt | heq | hgt
  · -- second operand larger: equal signs
    have hs : g.sgn x = g.sgn y := by rcases h with h | h; · exact h
                                      · linarith
    have e1 : g.heq (g.mag x) (g.mag y) = false := by by_contra hc; exact hlt.ne (eqI.1 (by simpa using hc))
    have e2 : g.hlt (g.mag x) (g.mag y) = true := ltI.2 hlt
    have e3 : g.hlt (g.mag y) (g.mag x) = false := by by_contra hc; exact absurd (gtI.1 (by simpa using hc)) (by linarith)
    simp only [hgt, e1, e2, e3, Bool.false_and, Bool.false_eq_true, if_false, if_true, nsub _ (by rw [by']; exact hyn : g.bexp (g.mag y) ≠ 0)]
    have := core (g.mag y) (g.mag x) fy fx (by rw [by']; exact hyn) (by rw [bx]; exact hxn) (CC.sgn_mag g y) (CC.sgn_mag g x)
      (by rw [CC.val_mag, CC.val_mag]; exact hlt.le) (if effAdd then g.sgn y else !g.sgn y) (by intro _; rw [CC.val_mag, CC.val_mag]; exact hlt)
    convert this using 1
    rw [CC.val_mag, CC.val_mag, ← hs]
    cases effAdd <;> simp only [sg_not, if_true, Bool.false_eq_true, if_false] <;> ring
  · have e1 : g.heq (g.mag x) (g.mag y) = true := eqI.2 heq
    have e2 : g.hlt (g.mag x) (g.mag y) = false := by by_contra hc; exact absurd (ltI.1 (by simpa using hc)) (by linarith)
    have e3 : g.hlt (g.mag y) (g.mag x) = false := by by_contra hc; exact absurd (gtI.1 (by simpa using hc)) (by linarith)
    simp only [hgt, e1, e2, e3, Bool.true_and, Bool.false_eq_true, if_false, nsub _ (by rw [bx]; exact hxn : g.bexp (g.mag x) ≠ 0)]
    cases hea : effAdd
    · simp only [Bool.not_false, if_true, Bool.false_eq_true, if_false]
      have hz : sg (g.sgn x) * (|g.val x| + -1 * |g.val y|) = 0 := by rw [heq]; ring
      have := (CC.zero_spec f md (decide (md = .down)) hz).1
      convert this using 1
      cases md <;> rfl
    · simp only [Bool.not_true, Bool.false_eq_true, if_false, if_true]
      have := core (g.mag x) (g.mag x) fx fx (by rw [bx]; exact hxn) (by rw [bx]; exact hxn) (CC.sgn_mag g x) (CC.sgn_mag g x) le_rfl (g.sgn x)
        (by rw [hea]; simp)
      rw [hea, CC.val_mag] at this
      simp only [if_true] at this
      rw [← heq]; exact this
  · have e1 : g.heq (g.mag x) (g.mag y) = false := by by_contra hc; exact hgt.ne' (eqI.1 (by simpa using hc))
    have e2 : g.hlt (g.mag x) (g.mag y) = false := by by_contra hc; exact absurd (ltI.1 (by simpa using hc)) (by linarith)
    have e3 : g.hlt (g.mag y) (g.mag x) = true := gtI.2 hgt
    simp only [Fmt.hgt, e1, e2, e3, Bool.false_and, Bool.false_eq_true, if_false, if_true, nsub _ (by rw [bx]; exact hxn : g.bexp (g.mag x) ≠ 0)]
    have := core (g.mag x) (g.mag y) fx fy (by rw [bx]; exact hxn) (by rw [by']; exact hyn) (CC.sgn_mag g x) (CC.sgn_mag g y)
      (by rw [CC.val_mag, CC.val_mag]; exact hgt.le) (g.sgn x) (by intro _; rw [CC.val_mag, CC.val_mag]; exact hgt)
    rw [CC.val_mag, CC.val_mag] at this
    exact this

example : binary64.F + 5 ≤ 64 ∧ binary32.F + 5 ≤ 32 ∧ 2 * (binary64.bias + binary64.F + 64 + 2) ≤ 2 ^ 31 ∧
    CC.opAddSub binary64 binary64 64 false false .nearest 0x4008000000000000 0xBFF0000000000000 = 0x4000000000000000 ∧
    CC.opAddSub binary64 binary64 64 false true .down 0x3FF0000000000000 0x3CB0000000000000 = 0x3FEFFFFFFFFFFFFE ∧
    CC.opAddSub binary64 binary64 64 false true .down 0x3FF0000000000000 0x3C90000000000000 = 0x3FEFFFFFFFFFFFFF := by
  refine ⟨by decide, by decide, by decide, by decide +kernel, by decide +kernel, by decide +kernel⟩

/-- First operand zero, second a non-zero finite number: correctly rounded. -/
theorem C46_add_sub_zero_left (f g : Fmt) (B : ℕ) (fused isSub : Bool) (md : Mode) {x y : ℕ} (hx : g.Valid x) (hx0 : g.mag x = 0) (hy : g.Finite y) (hy0 : g.val y ≠ 0) (zs : Bool) :
    f.RoundsTo md zs (if isSub then g.val x - g.val y else g.val x + g.val y) (CC.opAddSub f g B fused isSub md x y) := by
  have hfin : g.Finite x := by rw [g.finite_iff]; exact ⟨hx, by rw [hx0]; exact lt_of_lt_of_le (by positivity) g.infMag_pos⟩
  have zx : g.zeroB x = true := by simp [zeroB, hx0]
  have zy : g.zeroB y = false := by
    by_contra hc; exact hy0 ((zeroB_iff_val g y).1 (by simpa using hc))
  have vx : g.val x = 0 := (g.val_eq_zero_iff x).2 hx0
  unfold CC.opAddSub
  simp only [FPBits.isZero_eq, FPBits.isNan_eq, FPBits.isInf_eq, CC.isInfOrNan_finite g hfin, CC.isInfOrNan_finite g hy, (g.finite_B hfin).1, (g.finite_B hfin).2, (g.finite_B hy).1,
    (g.finite_B hy).2, zx, zy, Bool.or_self, Bool.or_true, Bool.true_or, Bool.false_eq_true, if_false, if_true, vx]
  cases isSub
  · simp only [Bool.false_eq_true, if_false, zero_add]
    exact RoundsTo.zs_irrel (CC.hcvt_spec f g md hy) hy0
  · simp only [if_true, zero_sub]
    have := CC.hcvt_spec f g md (g.finite_hneg hy)
    rw [g.val_hneg] at this
    exact RoundsTo.zs_irrel this (by simpa using hy0)

example : CC.opAddSub binary64 binary64 64 false true .nearest 0 0x3FF0000000000000 = 0xBFF0000000000000 := by decide +kernel

/-- NaN operands give a quiet NaN; infinities of effectively opposite sign give a quiet NaN, otherwise an infinite first operand is returned; an
infinite second operand of `add` is returned. -/
theorem C46_add_sub_special (f g : Fmt) (B : ℕ) (fused isSub : Bool) (md : Mode) {x y : ℕ} (hx : g.Valid x) (hy : g.Valid y) :
    (g.IsNaN x ∨ g.IsNaN y → IsQuietNaN f (CC.opAddSub f g B fused isSub md x y)) ∧
    (g.IsInf x → g.IsInf y → (g.sgn x = xor (g.sgn y) isSub → CC.opAddSub f g B fused isSub md x y = f.inf (g.sgn x)) ∧
      (g.sgn x ≠ xor (g.sgn y) isSub → IsQuietNaN f (CC.opAddSub f g B fused isSub md x y))) ∧
    (g.IsInf x → g.Finite y → CC.opAddSub f g B fused isSub md x y = f.inf (g.sgn x)) ∧
    (g.Finite x → g.IsInf y → isSub = false → CC.opAddSub f g B fused isSub md x y = f.inf (g.sgn y)) := by
  unfold CC.opAddSub
  simp only [FPBits.isZero_eq, FPBits.isNan_eq, FPBits.isInf_eq, FPBits.isNeg_eq g hx, FPBits.isNeg_eq g hy, FPBits.inf_eq]
  refine ⟨?_, ?_, ?_, ?_⟩
  · intro h
    have h1 : (FPBits.isInfOrNan g x || FPBits.isInfOrNan g y || g.zeroB x || g.zeroB y) = true := by
      rcases h with h | h <;> simp [infOrNan_of_nan g h]
    have h2 : (g.nanB x || g.nanB y) = true := by
      rcases h with h | h
      · rw [(g.nanB_iff hx).2 h]; rfl
      · rw [(g.nanB_iff hy).2 h]; simp
    rw [if_pos h1, if_pos h2]; exact opNaN_quiet f g x y
  · intro h1 h2
    rw [infOrNan_of_inf g h1, nanB_of_inf g h1, nanB_of_inf g h2, (g.infB_iff hx).2 h1, (g.infB_iff hy).2 h2]
    simp only [Bool.true_or, if_true, Bool.or_self, Bool.false_eq_true, if_false]
    constructor
    · intro hs
      have : ((g.sgn x == g.sgn y) != isSub) = true := by rw [hs]; cases g.sgn y <;> cases isSub <;> rfl
      rw [this]; simp
    · intro hs
      have : ((g.sgn x == g.sgn y) != isSub) = false := by
        revert hs; cases g.sgn x <;> cases g.sgn y <;> cases isSub <;> simp
      rw [this]; simp only [Bool.not_false, if_true]
      exact quietNaN_quiet f _ _
  · intro h1 h2
    rw [infOrNan_of_inf g h1, nanB_of_inf g h1, (g.finite_B h2).1, (g.finite_B h2).2, (g.infB_iff hx).2 h1]
    simp
  · intro h1 h2 h3
    rw [infOrNan_of_inf g h2, nanB_of_inf g h2, (g.finite_B h1).1, (g.finite_B h1).2, (g.infB_iff hy).2 h2]
    simp

example : CC.opAddSub binary64 binary64 64 false false .nearest 0x3FF0000000000000 (binary64.inf true) = binary64.inf true := by decide +kernel

/-- `1 - (-2) = -3` and `(-1) + 2 = -1`, `1 + (-2) = 1`: the sign is wrong when the second operand is larger and the signs differ. -/
theorem C46_sign_wrong :
    CC.opAddSub binary64 binary64 64 false true .nearest 0x3FF0000000000000 0xC000000000000000 = 0xC008000000000000 ∧
    CC.opAddSub binary64 binary64 64 false false .nearest 0xBFF0000000000000 0x4000000000000000 = 0xBFF0000000000000 ∧
    CC.opAddSub binary64 binary64 64 false false .nearest 0x3FF0000000000000 0xC000000000000000 = 0x3FF0000000000000 := by
  refine ⟨?_, ?_, ?_⟩ <;> decide +kernel

/-- `x ± 0` returns the zero, `(-0) + (-0) = +0`, `1 - inf = +inf`. -/
theorem C46_zero_inf_wrong :
    CC.opAddSub binary64 binary64 64 false false .nearest 0x3FF0000000000000 0 = 0 ∧
    CC.opAddSub binary64 binary64 64 false false .nearest (binary64.zero true) (binary64.zero true) = binary64.zero false ∧
    CC.opAddSub binary64 binary64 64 false true .nearest 0x3FF0000000000000 (binary64.inf false) = binary64.inf false := by
  refine ⟨?_, ?_, ?_⟩ <;> decide +kernel

/-- The sum of two subnormal numbers is halved (twice the least subnormal number gives the least subnormal number), and a subnormal operand is aligned
one place too far: least normal plus the greatest subnormal is wrong. -/
theorem C46_subnormal_wrong :
    CC.opAddSub binary64 binary64 64 false false .nearest 1 1 = 1 ∧ binary64.hadd .nearest 1 1 = 2 ∧
    CC.opAddSub binary64 binary64 64 false false .nearest 0x0010000000000000 0x000FFFFFFFFFFFFF ≠ binary64.hadd .nearest 0x0010000000000000 0x000FFFFFFFFFFFFF := by
  refine ⟨?_, ?_, ?_⟩ <;> decide +kernel

end Verif
