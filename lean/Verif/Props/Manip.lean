import Verif.Lemmas.Scalbn
import Verif.Props.Nearest

/-!
# C11 (modf), C12 (frexp), C13 (ldexp), C14 (scalbn), C15 (ilogb, logb), C16 (nextafter)
-/

namespace Verif
open Fmt
variable (f : Fmt)

/-- **C11**: for a finite argument `modf` splits exactly: the integer part is the truncation, the parts add up to `x`
exactly, the fraction is smaller than one, and both parts carry the sign of `x` (also when they are zero). -/
theorem C11_modf (hm : Mode) {x : ℕ} (hx : f.Finite x) :
    let r := CC.modf f hm x
    f.Finite r.1 ∧ f.Finite r.2 ∧ f.val r.2 = truncR (f.val x) ∧ f.val r.2 + f.val r.1 = f.val x ∧ |f.val r.1| < 1 ∧
      f.sgn r.1 = f.sgn x ∧ f.sgn r.2 = f.sgn x := by
  obtain ⟨k, t1, t2, t3, t4⟩ := trunc_mag f hx
  obtain ⟨_, _, n, hn, hP⟩ := (C06_trunc f).finite hx
  simp only [CC.MagSpec] at t4
  unfold CC.modf
  rw [CC.isnan_eq, CC.isinf_eq, (f.finite_B hx).1, (f.finite_B hx).2]
  simp only [Bool.false_eq_true, if_false, CC.heq_zero, FPBits.isNeg_eq f hx.valid, FPBits.zero_eq, ← zero_eq_pack]
  by_cases h0 : f.zeroB x = true
  · have hv : f.val x = 0 := (f.val_eq_zero_iff x).2 (by simpa [zeroB] using h0)
    rw [if_pos h0]
    simp only
    rw [hv]
    exact ⟨hx, hx, by simp [truncR], by simp, by simp, trivial, trivial⟩
  rw [if_neg h0]
  obtain ⟨b, hb, hbv, hbs⟩ := CC.frac_exact f hx t4.1 t4.2
  have hdiff : f.val x - f.val (CC.trunc f x) = f.val b := by
    rw [hbv, t2, CC.val_eq_sg_abs f x, abs_mul, abs_sg, one_mul, abs_abs]; ring
  have hs := f.hsub_spec hm hx t1
  rw [hdiff] at hs
  have hex := RoundsTo.exact f hb rfl hs
  have hlt : |f.val b| < 1 := by
    rw [hbv, abs_mul, abs_sg, one_mul, abs_of_nonneg (by linarith [t4.1])]; linarith [t4.2]
  have hsum : f.val (CC.trunc f x) + f.val b = f.val x := by rw [← hdiff]; ring
  split
  · rename_i hz
    have hz' : f.val (f.hsub hm x (CC.trunc f x)) = 0 := (f.val_eq_zero_iff _).2 (by simpa [zeroB] using hz)
    rw [hex.2] at hz'
    simp only
    rw [f.val_zero, f.sgn_zero]
    exact ⟨f.finite_zero _, t1, by rw [hn, hP], by rw [← hsum, hz'], by simp, rfl, t3⟩
  · rename_i hz
    have hne : f.val b ≠ 0 := fun h => hz (by rw [← hex.2] at h; simpa [zeroB] using (f.val_eq_zero_iff _).1 h)
    simp only
    refine ⟨hex.1, t1, by rw [hn, hP], by rw [hex.2, hsum], by rw [hex.2]; exact hlt, ?_, t3⟩
    rw [hs.sign, if_neg hne, ← hbs]
    have := CC.sign_scaled f hne 0
    simpa using this.1

/-- **C11**: infinities give a zero of the same sign and themselves; NaN gives NaN twice. -/
theorem C11_modf_special (hm : Mode) {x : ℕ} (hx : f.Valid x) :
    (f.IsInf x → CC.modf f hm x = (f.zero (f.sgn x), x)) ∧ (f.IsNaN x → CC.modf f hm x = (x, x)) := by
  unfold CC.modf
  rw [CC.isnan_eq, CC.isinf_eq]
  constructor
  · intro h
    have h1 : f.nanB x = false := by
      rw [← Bool.not_eq_true, f.nanB_iff hx]; intro h'; exact h'.2.2 h.2.2
    rw [h1, (f.infB_iff hx).2 h, FPBits.isNeg_eq f hx, FPBits.zero_eq, ← zero_eq_pack]; simp
  · intro h; rw [(f.nanB_iff hx).2 h]; simp

example : binary64.Finite 0xc002666666666666 ∧
    CC.modf binary64 .nearest 0xc002666666666666 = (0xbfd3333333333330, 0xc000000000000000) := by decide +kernel

/-- **C12**: for finite non-zero `x`, `frexp` returns `m`, `e` with `1/2 ≤ |m| < 1` and `m · 2^e = x` exactly; subnormal
arguments included (the normalisation loop terminates). -/
theorem C12_frexp (hw : f.Wide) (hm : Mode) (e0 : ℤ) {x : ℕ} (hx : f.Finite x) (h0 : f.val x ≠ 0) :
    ∃ r e, CC.frexp f hm x e0 = some (r, e) ∧ f.Finite r ∧ f.sgn r = f.sgn x ∧ 1 / 2 ≤ |f.val r| ∧ |f.val r| < 1 ∧
      f.val x = f.val r * 2 ^ e := CC.frexp_spec f hw hm e0 hx h0

/-- **C12**: zeros give themselves and exponent 0; infinities and NaN give themselves and leave `*exp` as it was. -/
theorem C12_frexp_special (hm : Mode) (e0 : ℤ) {x : ℕ} (hx : f.Valid x) :
    (f.Finite x → f.val x = 0 → CC.frexp f hm x e0 = some (x, 0)) ∧ (¬ f.Finite x → CC.frexp f hm x e0 = some (x, e0)) := by
  unfold CC.frexp
  rw [FPBits.isZero_eq]
  constructor
  · intro h h0
    have : f.zeroB x = true := by simpa [zeroB] using (f.val_eq_zero_iff x).1 h0
    rw [if_pos this]
  · intro h
    have : f.zeroB x = false := by
      rw [← Bool.not_eq_true]; intro hz
      apply h
      rw [finite_iff]; refine ⟨hx, ?_⟩
      have : f.mag x = 0 := by simpa [zeroB] using hz
      rw [this]; have := f.infMag_pos; have : 0 < 2 ^ (f.F + 1) := by positivity
      omega
    rw [this, notFinite_infOrNan f hx h]; simp

example : binary64.Finite 3 ∧ binary64.Wide ∧ CC.frexp binary64 .up 3 7 = some (0x3fe8000000000000, -1072) :=
  ⟨by decide +kernel, binary64_wide, by decide +kernel⟩

/-- **C13** (partial): in round-to-nearest mode, `ldexp(x, n)` is `x·2^n` rounded once, for every finite `x` and every
integer `n`.  Missing for the full claim in the other modes: `|n| ≤ 2^E + F` (see the refutation below). -/
theorem C13_ldexp_nearest_partial {x : ℕ} (hx : f.Finite x) (n : ℤ) :
    f.RoundsTo .nearest (f.sgn x) (f.val x * 2 ^ n) (CC.ldexp f .nearest x n) := by
  rcases le_or_gt n.natAbs (2 ^ f.E + f.F) with h | h
  · exact (CC.ldexp_finite f .nearest hx n).1 h
  · exact (CC.ldexp_finite f .nearest hx n).2 h

/-- **C13**: for the directed modes: correct beyond the exponent limit; inside it the result is always that of
round-to-nearest. -/
theorem C13_ldexp_directed (m : Mode) {x : ℕ} (hx : f.Finite x) (n : ℤ) :
    (2 ^ f.E + f.F < n.natAbs → f.RoundsTo m (f.sgn x) (f.val x * 2 ^ n) (CC.ldexp f m x n)) ∧
    (n.natAbs ≤ 2 ^ f.E + f.F → f.RoundsTo .nearest (f.sgn x) (f.val x * 2 ^ n) (CC.ldexp f m x n)) :=
  ⟨(CC.ldexp_finite f m hx n).2, (CC.ldexp_finite f m hx n).1⟩

/-- **C13**: whenever `x·2^n` is representable the result is exact, in every mode. -/
theorem C13_ldexp_exact (m : Mode) {x y : ℕ} (hx : f.Finite x) (hy : f.Finite y) (n : ℤ) (h : f.val y = f.val x * 2 ^ n)
    (hs : f.sgn y = f.sgn x) : CC.ldexp f m x n = y := by
  rcases le_or_gt n.natAbs (2 ^ f.E + f.F) with h1 | h1
  · have := (CC.ldexp_finite f m hx n).1 h1
    rw [← h] at this; exact RoundsTo.exact_eq f hy this (fun _ => hs)
  · have := (CC.ldexp_finite f m hx n).2 h1
    rw [← h] at this; exact RoundsTo.exact_eq f hy this (fun _ => hs)

/-- **C13**: `ldexp` undoes `frexp`, bit for bit, for every finite datum and every mode. -/
theorem C13_ldexp_frexp (hw : f.Wide) (m m' : Mode) (e0 : ℤ) {x : ℕ} (hx : f.Finite x) :
    ∃ r e, CC.frexp f m x e0 = some (r, e) ∧ CC.ldexp f m' r e = x := by
  by_cases h0 : f.val x = 0
  · exact ⟨x, 0, (C12_frexp_special f m e0 hx.valid).1 hx h0, C13_ldexp_exact f m' hx hx 0 (by simp) rfl⟩
  · obtain ⟨r, e, h1, h2, h3, _, _, h6⟩ := C12_frexp f hw m e0 hx h0
    exact ⟨r, e, h1, C13_ldexp_exact f m' h2 hx e h6 h3.symm⟩

/-- **C13**: infinities and NaN are returned unchanged. -/
theorem C13_ldexp_special (m : Mode) {x : ℕ} (hx : f.Valid x) (h : ¬ f.Finite x) (n : ℤ) : CC.ldexp f m x n = x := by
  unfold CC.ldexp; rw [notFinite_infOrNan f hx h]; simp

/-- **C13**, full claim refuted: `ldexp(DBL_TRUE_MIN, -1)` in `FE_UPWARD` returns `+0` although the correctly rounded result is
`DBL_TRUE_MIN`; `ldexp(DBL_MAX, 1)` in `FE_TOWARDZERO` returns infinity although the correctly rounded result is `DBL_MAX`. -/
theorem C13_ldexp_directed_wrong :
    CC.ldexp binary64 .up 1 (-1) = 0 ∧ binary64.RoundsTo .up false (binary64.val 1 * 2 ^ (-1 : ℤ)) 1 ∧
    CC.ldexp binary64 .zero 0x7fefffffffffffff 1 = binary64.inf false ∧
    binary64.RoundsTo .zero false (binary64.val 0x7fefffffffffffff * 2 ^ (1 : ℤ)) 0x7fefffffffffffff := by
  have h1 := CC.scalbn_finite binary64 (by decide) .up (x := 1) (by decide) (-1)
  have h2 := CC.scalbn_finite binary64 (by decide) .zero (x := 0x7fefffffffffffff) (by decide) 1
  have e1 : CC.scalbn binary64 .up 1 (-1) = 1 := by decide +kernel
  have e2 : CC.scalbn binary64 .zero 0x7fefffffffffffff 1 = 0x7fefffffffffffff := by decide +kernel
  rw [e1] at h1; rw [e2] at h2
  exact ⟨by decide +kernel, h1, by decide +kernel, h2⟩

example : binary64.Finite 0x0008000000000003 ∧ CC.ldexp binary64 .nearest 0x0008000000000003 (-1) = 0x0004000000000002 ∧
    CC.ldexp binary32 .nearest 0x3f800000 (-149) = 1 := by decide +kernel

/-- **C14**: `scalbn(x, n)` (and `scalbln`) is `x·2^n` rounded once, in every mode, for every finite `x` and every `n`, although up
to three multiplications are performed. -/
theorem C14_scalbn (hb : 3 * f.F + 6 ≤ f.bias) (m : Mode) {x : ℕ} (hx : f.Finite x) (n : ℤ) :
    f.RoundsTo m (f.sgn x) (f.val x * 2 ^ n) (CC.scalbn f m x n) := CC.scalbn_finite f hb m hx n

theorem scalbn_nf_mul (m : Mode) {x e : ℕ} (h1 : 1 ≤ e) (h2 : e ≤ 2 * f.bias) :
    (f.IsInf x → f.hmul m x (CC.pow2Lit f e) = x) ∧ (f.IsNaN x → f.hmul m x (CC.pow2Lit f e) = f.qnan) := by
  obtain ⟨a, b, c⟩ := CC.pow2Lit_spec f h1 h2
  have hnan : f.nanB (CC.pow2Lit f e) = false := (f.finite_B a).1
  have hz : f.zeroB (CC.pow2Lit f e) = false := by
    unfold zeroB
    have : f.val (CC.pow2Lit f e) ≠ 0 := by rw [b]; exact zpow_ne_zero _ (by norm_num)
    simpa using fun h => this ((f.val_eq_zero_iff _).2 h)
  constructor
  · intro hi
    have hinf := (f.infB_iff hi.1).2 hi
    have hn : f.nanB x = false := by
      rw [← Bool.not_eq_true, f.nanB_iff hi.1]; intro h'; exact h'.2.2 hi.2.2
    unfold hmul
    rw [hn, hnan, hinf, hz, c]
    simp
    exact (f.isInf_eq hi).symm
  · intro hn
    unfold hmul
    rw [(f.nanB_iff hn.1).2 hn]; simp

/-- **C14**: infinities are unchanged, NaN gives NaN. -/
theorem C14_scalbn_special (hb : 3 * f.F + 6 ≤ f.bias) (m : Mode) {x : ℕ} (n : ℤ) :
    (f.IsInf x → CC.scalbn f m x n = x) ∧ (f.IsNaN x → f.IsNaN (CC.scalbn f m x n)) := by
  have lit : ∀ e : ℕ, e <<< f.F = CC.pow2Lit f e := by
    intro e; unfold CC.pow2Lit; rw [CC.pack_false, Nat.shiftLeft_eq]
  unfold CC.scalbn
  simp only
  rw [lit]
  have hbb := f.bias_pos
  constructor
  · intro hi
    have st : ∀ e : ℕ, 1 ≤ e → e ≤ 2 * f.bias → f.hmul m x (CC.pow2Lit f e) = x := fun e h1 h2 => (scalbn_nf_mul f m h1 h2).1 hi
    split_ifs with h1 h2 h3 h4 <;> simp only
    · rw [st (2 * f.bias) (by omega) le_rfl, st (2 * f.bias) (by omega) le_rfl]; exact st _ (by omega) (by omega)
    · rw [st (2 * f.bias) (by omega) le_rfl]; exact st _ (by omega) (by omega)
    · rw [st (f.F + 2) (by omega) (by omega), st (f.F + 2) (by omega) (by omega)]; exact st _ (by omega) (by omega)
    · rw [st (f.F + 2) (by omega) (by omega)]; exact st _ (by omega) (by omega)
    · exact st _ (by omega) (by omega)
  · intro hn
    have st : ∀ {y : ℕ}, f.IsNaN y → ∀ e : ℕ, 1 ≤ e → e ≤ 2 * f.bias → f.IsNaN (f.hmul m y (CC.pow2Lit f e)) :=
      fun hy e h1 h2 => by rw [(scalbn_nf_mul f m h1 h2).2 hy]; exact f.isNaN_qnan
    split_ifs with h1 h2 h3 h4 <;> simp only
    · exact st (st (st hn _ (by omega) le_rfl) _ (by omega) le_rfl) _ (by omega) (by omega)
    · exact st (st hn _ (by omega) le_rfl) _ (by omega) (by omega)
    · exact st (st (st hn _ (by omega) (by omega)) _ (by omega) (by omega)) _ (by omega) (by omega)
    · exact st (st hn _ (by omega) (by omega)) _ (by omega) (by omega)
    · exact st hn _ (by omega) (by omega)

/-- **C14/C13**: in round-to-nearest, `scalbn` and `ldexp` agree on every finite datum and every `n`. -/
theorem C14_scalbn_eq_ldexp (hb : 3 * f.F + 6 ≤ f.bias) {x : ℕ} (hx : f.Finite x) (n : ℤ) :
    CC.scalbn f .nearest x n = CC.ldexp f .nearest x n :=
  RoundsTo.unique f (C14_scalbn f hb .nearest hx n) (C13_ldexp_nearest_partial f hx n)

example : 3 * binary64.F + 6 ≤ binary64.bias ∧ 3 * binary32.F + 6 ≤ binary32.bias ∧
    CC.scalbn binary64 .nearest 0x3ff8000000000003 (-1073) = 3 ∧ CC.scalbn binary64 .nearest 1 2097 = 0x7fe0000000000000 := by
  decide +kernel

/-- `e` is the binary exponent of `v`. -/
def IsExponent (v : ℝ) (e : ℤ) : Prop := (2 : ℝ) ^ e ≤ |v| ∧ |v| < (2 : ℝ) ^ (e + 1)

/-- the binary exponent is unique, so C15 determines the result -/
theorem C15_exponent_unique {v : ℝ} {a b : ℤ} (ha : IsExponent v a) (hb : IsExponent v b) : a = b := by
  have h1 := (zpow_lt_zpow_iff_right₀ (by norm_num : (1 : ℝ) < 2)).1 (lt_of_le_of_lt ha.1 hb.2)
  have h2 := (zpow_lt_zpow_iff_right₀ (by norm_num : (1 : ℝ) < 2)).1 (lt_of_le_of_lt hb.1 ha.2)
  omega

/-- **C15**: `ilogb` returns the binary exponent of every finite non-zero datum, subnormals included. -/
theorem C15_ilogb (hw : f.Wide) (hm : Mode) (i0 inan : ℤ) {x : ℕ} (hx : f.Finite x) (h0 : f.val x ≠ 0) :
    ∃ e, CC.ilogb f hm i0 inan x = some e ∧ IsExponent (f.val x) e := by
  obtain ⟨r, e, h1, h2, h3, h4, h5, h6⟩ := C12_frexp f hw hm 0 hx h0
  have hz : f.zeroB x = false := by unfold zeroB; simpa using fun h => h0 ((f.val_eq_zero_iff x).2 h)
  unfold CC.ilogb
  rw [FPBits.isNan_eq, FPBits.isInf_eq, FPBits.isZero_eq, (f.finite_B hx).1, (f.finite_B hx).2, hz, h1]
  refine ⟨e - 1, by simp, ?_⟩
  have hp : (0 : ℝ) < 2 ^ e := zpow_pos (by norm_num) _
  unfold IsExponent
  rw [h6, abs_mul, abs_of_pos hp]
  constructor
  · rw [zpow_sub_one₀ (by norm_num)]; nlinarith
  · rw [sub_add_cancel]; nlinarith

/-- **C15**: sentinels of `ilogb`. -/
theorem C15_ilogb_special (hm : Mode) (i0 inan : ℤ) {x : ℕ} (hx : f.Valid x) :
    (f.IsNaN x → CC.ilogb f hm i0 inan x = some inan) ∧ (f.IsInf x → CC.ilogb f hm i0 inan x = some 2147483647) ∧
    (f.Finite x → f.val x = 0 → CC.ilogb f hm i0 inan x = some i0) := by
  unfold CC.ilogb
  rw [FPBits.isNan_eq, FPBits.isInf_eq, FPBits.isZero_eq]
  refine ⟨fun h => ?_, fun h => ?_, fun h h0 => ?_⟩
  · rw [(f.nanB_iff hx).2 h]; simp
  · have h1 : f.nanB x = false := by
      rw [← Bool.not_eq_true, f.nanB_iff hx]; intro h'; exact h'.2.2 h.2.2
    rw [h1, (f.infB_iff hx).2 h]; simp
  · have : f.zeroB x = true := by simpa [zeroB] using (f.val_eq_zero_iff x).1 h0
    rw [(f.finite_B h).1, (f.finite_B h).2, this]; simp

theorem ofInt_spec (m : Mode) (z : ℤ) : f.RoundsTo m false (z : ℝ) (f.ofInt m z) := by
  have := f.roundsTo_roundQ m (decide (z < 0)) false (N := z.natAbs * f.uscale) (D := 1) (by decide) (by
    intro h
    rcases Nat.mul_eq_zero.1 h with h | h
    · have : z = 0 := by omega
      simp [this]
    · exact absurd h f.uscale_pos.ne')
  have e : sg (decide (z < 0)) * (((z.natAbs * f.uscale : ℕ) : ℝ) / (1 : ℕ) * f.minSub) = z := by
    push_cast
    rw [div_one, mul_assoc, f.uscale_minSub, mul_one]
    by_cases h : z < 0
    · have : ((z.natAbs : ℕ) : ℝ) = -(z : ℝ) := by
        have : (z.natAbs : ℤ) = -z := by omega
        rw [← Int.cast_natCast, this]; push_cast; rfl
      simp [h, abs_of_neg (show (z : ℝ) < 0 by exact_mod_cast h)]
    · simp [h, abs_of_nonneg (show (0 : ℝ) ≤ (z : ℝ) by exact_mod_cast not_lt.1 h)]
  rw [e] at this
  exact this

/-- **C15**: `logb` returns the same exponent as a floating-point number, exactly. -/
theorem C15_logb (hw : f.Wide) (hb : f.bias + f.F ≤ 2 ^ f.F) (hm : Mode) (i0 inan : ℤ) {x : ℕ} (hx : f.Finite x)
    (h0 : f.val x ≠ 0) : ∃ (e : ℤ) (r : ℕ), CC.ilogb f hm i0 inan x = some e ∧ CC.logb f hm i0 inan x = some r ∧
      f.Finite r ∧ f.val r = e ∧ IsExponent (f.val x) e := by
  obtain ⟨e, h1, h2⟩ := C15_ilogb f hw hm i0 inan hx h0
  have hz : f.zeroB x = false := by unfold zeroB; simpa using fun h => h0 ((f.val_eq_zero_iff x).2 h)
  have hlo : e < f.bias + 1 := by
    have := lt_of_le_of_lt h2.1 (f.abs_val_lt_huge hx)
    exact (zpow_lt_zpow_iff_right₀ (by norm_num : (1 : ℝ) < 2)).1 this
  have hhi : 1 - (f.bias : ℤ) - f.F < e + 1 := by
    have := lt_of_le_of_lt (CC.finite_sub_huge f h0) h2.2
    exact (zpow_lt_zpow_iff_right₀ (by norm_num : (1 : ℝ) < 2)).1 this
  obtain ⟨b, b1, b2, b3⟩ := CC.finite_nat f hw (q := e.natAbs) (by omega) (decide (e < 0))
  have hbe : f.val b = e := by
    rw [b2]
    by_cases h : e < 0
    · simp [h, abs_of_neg (show (e : ℝ) < 0 by exact_mod_cast h)]
    · simp [h, abs_of_nonneg (show (0 : ℝ) ≤ (e : ℝ) by exact_mod_cast not_lt.1 h)]
  have hex := RoundsTo.exact f b1 hbe (ofInt_spec f hm e)
  refine ⟨e, f.ofInt hm e, h1, ?_, hex.1, hex.2, h2⟩
  unfold CC.logb
  rw [FPBits.isNan_eq, FPBits.isInf_eq, FPBits.isZero_eq, (f.finite_B hx).1, (f.finite_B hx).2, hz, h1]
  simp

/-- **C15**: `logb(±0) = -inf`, `logb(±inf) = +inf`, `logb(NaN) = NaN`. -/
theorem C15_logb_special (hm : Mode) (i0 inan : ℤ) {x : ℕ} (hx : f.Valid x) :
    (f.IsNaN x → CC.logb f hm i0 inan x = some x) ∧ (f.IsInf x → CC.logb f hm i0 inan x = some (f.inf false)) ∧
    (f.Finite x → f.val x = 0 → CC.logb f hm i0 inan x = some (f.inf true)) := by
  unfold CC.logb
  rw [FPBits.isNan_eq, FPBits.isInf_eq, FPBits.isZero_eq, FPBits.inf_eq]
  refine ⟨fun h => ?_, fun h => ?_, fun h h0 => ?_⟩
  · rw [(f.nanB_iff hx).2 h]; simp
  · have h1 : f.nanB x = false := by
      rw [← Bool.not_eq_true, f.nanB_iff hx]; intro h'; exact h'.2.2 h.2.2
    rw [h1, (f.infB_iff hx).2 h]; simp
  · have : f.zeroB x = true := by simpa [zeroB] using (f.val_eq_zero_iff x).1 h0
    rw [(f.finite_B h).1, (f.finite_B h).2, this]; simp
    unfold hneg; rw [f.sgn_inf]
    have : f.mag (f.inf false) = f.infMag := by rw [inf_eq_pack, mag_pack f _ f.infMag_lt]
    rw [this, inf_eq_pack]; rfl

example : binary32.bias + binary32.F ≤ 2 ^ binary32.F ∧ CC.ilogb binary32 .nearest (-2147483648) 2147483647 5 = some (-147) ∧
    CC.logb binary32 .nearest 0 0 0x3f000000 = some 0xbf800000 := by decide +kernel

/-! ## C16 -/

/-- `r` is the next representable value after `x` in the direction of larger values (infinities included). -/
structure IsNextAbove (x r : ℕ) : Prop where
  valid : f.Valid r
  not_nan : ¬ f.IsNaN r
  gt : f.xval x < f.xval r
  adjacent : ∀ c, f.Valid c → ¬ f.IsNaN c → f.xval x < f.xval c → f.xval r ≤ f.xval c
/-- `r` is the next representable value below `x`. -/
structure IsNextBelow (x r : ℕ) : Prop where
  valid : f.Valid r
  not_nan : ¬ f.IsNaN r
  lt : f.xval r < f.xval x
  adjacent : ∀ c, f.Valid c → ¬ f.IsNaN c → f.xval c < f.xval x → f.xval c ≤ f.xval r

theorem hlt_key {x y : ℕ} (nx : f.nanB x = false) (ny : f.nanB y = false) : f.hlt x y = decide (f.key x < f.key y) := by
  unfold hlt; rw [nx, ny]; simp
theorem heq_key {x y : ℕ} (nx : f.nanB x = false) (ny : f.nanB y = false) : f.heq x y = decide (f.key x = f.key y) := by
  unfold heq; rw [nx, ny]; simp

theorem nanB_false {x : ℕ} (hx : f.Valid x) (nx : ¬ f.IsNaN x) : f.nanB x = false := by
  rw [← Bool.not_eq_true, f.nanB_iff hx]; exact nx

theorem nextafter_key {x y : ℕ} (hx : f.Valid x) (hy : f.Valid y) (nx : ¬ f.IsNaN x) (ny : ¬ f.IsNaN y)
    (hne : f.key x ≠ f.key y) : f.Valid (CC.nextafter f x y) ∧ ¬ f.IsNaN (CC.nextafter f x y) ∧
      f.key (CC.nextafter f x y) = f.key x + (if f.key x < f.key y then 1 else -1) := by
  have bx := nanB_false f hx nx
  have by' := nanB_false f hy ny
  have hinf : f.infMag < 2 ^ (f.E + f.F) := f.infMag_lt
  have hinf1 := f.infMag_pos
  have h2 : 2 ≤ 2 ^ (f.F + 1) := by rw [pow_succ]; have := f.two_pow_F_pos; omega
  have mx : f.mag x ≤ f.infMag := by
    by_contra h; exact nx ((f.isNaN_iff x).2 ⟨hx, by omega⟩)
  have my : f.mag y ≤ f.infMag := by
    by_contra h; exact ny ((f.isNaN_iff y).2 ⟨hy, by omega⟩)
  -- the result is pack s n with n ≤ infMag
  have done : ∀ (r : ℕ) (s : Bool) (n : ℕ), r = f.pack s n → n ≤ f.infMag → f.key r = f.key x + (if f.key x < f.key y then 1 else -1) →
      f.Valid r ∧ ¬ f.IsNaN r ∧ f.key r = f.key x + (if f.key x < f.key y then 1 else -1) := by
    intro r s n hr hn hk
    refine ⟨by rw [hr]; exact f.valid_pack s (by omega), ?_, hk⟩
    rw [hr, isNaN_iff, mag_pack f s (by omega)]
    intro h; omega
  have kpk : ∀ (s : Bool) (n : ℕ), n ≤ f.infMag → f.key (f.pack s n) = if s then -(n : ℤ) else n := by
    intro s n hn; unfold key; rw [f.sgn_pack s (by omega), f.mag_pack s (by omega)]
  have kx : f.key x = if f.sgn x then -(f.mag x : ℤ) else f.mag x := rfl
  have ky : f.key y = if f.sgn y then -(f.mag y : ℤ) else f.mag y := rfl
  have px := f.pack_sgn_mag hx
  unfold CC.nextafter
  rw [FPBits.isNan_eq, FPBits.isNan_eq, bx, by', heq_key f bx by', CC.heq_zero]
  simp only [Bool.false_eq_true, if_false, hne, decide_false]
  unfold hgt
  rw [hlt_key f bx by', hlt_key f (CC.nanB_zero f false) bx, CC.key_zero, FPBits.minSubnormal_eq, FPBits.isNeg_eq f hy]
  by_cases h0 : f.mag x = 0
  · have : f.zeroB x = true := by simpa [zeroB] using h0
    simp only [this, Bool.not_true, Bool.false_eq_true, if_false]
    have k0 : f.key x = 0 := by rw [kx, h0]; simp
    refine done _ (f.sgn y) 1 rfl (by omega) ?_
    rw [kpk _ _ (by omega), k0]
    rw [k0] at hne
    cases hs : f.sgn y
    · rw [hs] at ky; simp at ky; rw [ky]; simp
      have : f.mag y ≠ 0 := by intro h; rw [ky, h] at hne; simp at hne
      omega
    · rw [hs] at ky; simp at ky; rw [ky]; simp
  · have hzb : f.zeroB x = false := by simpa [zeroB] using h0
    simp only [hzb, Bool.not_false, if_true]
    cases hs : f.sgn x
    · rw [hs] at kx px
      simp only [Bool.false_eq_true, if_false] at kx
      rw [CC.pack_false] at px
      have hpos : (0 : ℤ) < f.key x := by omega
      simp only [hpos, decide_true]
      by_cases hlt : f.key x < f.key y
      · simp only [hlt, decide_true, if_true]
        have hyk : f.key y ≤ f.infMag := by rw [ky]; split <;> omega
        refine (if_pos hlt ▸ done (x + 1) false (f.mag x + 1) (by rw [CC.pack_false, px]) (by omega)) ?_
        have e := kpk false (f.mag x + 1) (by omega)
        rw [CC.pack_false, px] at e
        rw [e, kx]; simp; exact px.symm
      · simp only [hlt, decide_false, Bool.false_eq_true, if_false]
        refine (if_neg hlt ▸ done (x - 1) false (f.mag x - 1) (by rw [CC.pack_false, px]) (by omega)) ?_
        have e := kpk false (f.mag x - 1) (by omega)
        rw [CC.pack_false, px] at e
        rw [e, kx]; simp; omega
    · rw [hs] at kx px
      simp only [if_true] at kx
      have px' : x = 2 ^ (f.E + f.F) + f.mag x := by rw [← px]; unfold pack; simp; unfold pack at px; simp at px; rw [px]
      have hpos : ¬ (0 : ℤ) < f.key x := by omega
      simp only [hpos, decide_false]
      by_cases hlt : f.key x < f.key y
      · simp only [hlt, decide_true, Bool.true_eq_false, if_false, if_true]
        have ex : x - 1 = f.pack true (f.mag x - 1) := by unfold pack; simp; omega
        refine (if_pos hlt ▸ done (x - 1) true (f.mag x - 1) ex (by omega)) ?_
        rw [ex, kpk true (f.mag x - 1) (by omega), kx]; simp; omega
      · simp only [hlt, decide_false, if_true, if_false]
        have hyk : -(f.infMag : ℤ) ≤ f.key y := by rw [ky]; split <;> omega
        have ex : x + 1 = f.pack true (f.mag x + 1) := by unfold pack; simp; omega
        refine (if_neg hlt ▸ done (x + 1) true (f.mag x + 1) ex (by omega)) ?_
        rw [ex, kpk true (f.mag x + 1) (by omega), kx]; simp; omega

/-- **C16**: for any two non-NaN data `x ≠ y`, `nextafter(x, y)` is the adjacent representable value in the direction of `y`
(infinity after the largest finite number, the least subnormal after either zero). -/
theorem C16_nextafter {x y : ℕ} (hx : f.Valid x) (hy : f.Valid y) (nx : ¬ f.IsNaN x) (ny : ¬ f.IsNaN y) :
    (f.xval x < f.xval y → IsNextAbove f x (CC.nextafter f x y)) ∧ (f.xval y < f.xval x → IsNextBelow f x (CC.nextafter f x y)) ∧
    (f.xval x = f.xval y → CC.nextafter f x y = y) := by
  refine ⟨fun h => ?_, fun h => ?_, fun h => ?_⟩
  · rw [f.xval_lt_iff_key hx hy nx ny] at h
    obtain ⟨h1, h2, h3⟩ := nextafter_key f hx hy nx ny (by omega)
    rw [if_pos h] at h3
    refine ⟨h1, h2, by rw [f.xval_lt_iff_key hx h1 nx h2]; omega, fun c hc nc hlt => ?_⟩
    rw [f.xval_lt_iff_key hx hc nx nc] at hlt
    rw [← not_lt, f.xval_lt_iff_key hc h1 nc h2]; omega
  · rw [f.xval_lt_iff_key hy hx ny nx] at h
    obtain ⟨h1, h2, h3⟩ := nextafter_key f hx hy nx ny (by omega)
    rw [if_neg (by omega)] at h3
    refine ⟨h1, h2, by rw [f.xval_lt_iff_key h1 hx h2 nx]; omega, fun c hc nc hlt => ?_⟩
    rw [f.xval_lt_iff_key hc hx nc nx] at hlt
    rw [← not_lt, f.xval_lt_iff_key h1 hc h2 nc]; omega
  · have he := (f.heq_spec hx hy).2 ⟨nx, ny, h⟩
    unfold CC.nextafter
    rw [FPBits.isNan_eq, FPBits.isNan_eq, nanB_false f hx nx, nanB_false f hy ny, he]; simp

/-- **C16**: a NaN argument gives NaN. -/
theorem C16_nextafter_nan {x y : ℕ} (hx : f.Valid x) (h : f.IsNaN x ∨ f.IsNaN y) : f.IsNaN (CC.nextafter f x y) := by
  unfold CC.nextafter
  rw [FPBits.isNan_eq, FPBits.isNan_eq]
  by_cases h1 : f.IsNaN x
  · rw [(f.nanB_iff hx).2 h1]; simpa using h1
  · have h2 := h.resolve_left h1
    rw [nanB_false f hx h1, (f.nanB_iff h2.1).2 h2]; simpa using h2

/-- **C16**: `nextup` / `nextdown` are the neighbours of every datum below / above the respective infinity. -/
theorem C16_nextup_nextdown {x : ℕ} (hx : f.Valid x) (nx : ¬ f.IsNaN x) :
    (f.xval x < ⊤ → IsNextAbove f x (CC.nextup f x)) ∧ (⊥ < f.xval x → IsNextBelow f x (CC.nextdown f x)) := by
  have n1 : ∀ s, ¬ f.IsNaN (f.inf s) := fun s h => h.2.2 (f.isInf_inf s).2.2
  have e : f.hneg (f.inf false) = f.inf true := by
    unfold hneg; rw [f.sgn_inf]
    have : f.mag (f.inf false) = f.infMag := by rw [inf_eq_pack, mag_pack f _ f.infMag_lt]
    rw [this, inf_eq_pack]; rfl
  constructor
  · intro h; exact (C16_nextafter f hx (f.valid_inf false) nx (n1 _)).1 (by rw [xval_inf]; simpa using h)
  · intro h; unfold CC.nextdown; rw [e]
    exact (C16_nextafter f hx (f.valid_inf true) nx (n1 _)).2.1 (by rw [xval_inf]; simpa using h)

/-- **C16**: stepping up and then down returns to the same value. -/
theorem C16_up_down {x : ℕ} (hx : f.Valid x) (nx : ¬ f.IsNaN x) (h : f.xval x < ⊤) :
    f.xval (CC.nextdown f (CC.nextup f x)) = f.xval x := by
  obtain ⟨a, b, c, d⟩ := (C16_nextup_nextdown f hx nx).1 h
  obtain ⟨a', b', c', d'⟩ := (C16_nextup_nextdown f a b).2 (lt_of_le_of_lt bot_le c)
  apply le_antisymm
  · by_contra hc; push Not at hc
    exact absurd (d _ a' b' hc) (not_le.2 c')
  · exact d' _ hx nx c

example : CC.nextafter binary64 0x8000000000000000 0x3ff0000000000000 = 1 ∧
    CC.nextafter binary64 0x7fefffffffffffff 0x7ff0000000000000 = 0x7ff0000000000000 ∧
    CC.nextafter binary32 0xbf800000 0x3f800000 = 0xbf7fffff ∧ ¬ binary64.IsNaN 0x7ff0000000000000 := by decide +kernel

end Verif
