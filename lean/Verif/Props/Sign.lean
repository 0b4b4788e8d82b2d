import Verif.Lemmas.Basic

/-!
# C03 (sign operations), C04 (fmin/fmax), C05 (fdim)
-/

namespace Verif
open Fmt
variable (f : Fmt) {x y : ℕ}

/-- **C03**: `signbit` is the top bit of the pattern, for every datum (NaN and `-0` included). -/
theorem C03_signbit (hx : f.Valid x) : CC.signbit f x = x.testBit (f.E + f.F) := by
  rw [CC.signbit_eq f hx, testBit_top hx]; rfl

example : binary64.Valid 0xfff8000000000000 ∧ CC.signbit binary64 0xfff8000000000000 = true ∧
    CC.signbit binary32 0x80000000 = true ∧ CC.signbit binary32 0 = false := by decide +kernel

/-- **C03**: for every non-NaN datum `fabs` clears the top bit and keeps every other bit. -/
theorem C03_fabs_partial (hx : f.Valid x) (hn : ¬ f.IsNaN x) :
    ∀ i, (CC.abs f x).testBit i = (x.testBit i && decide (i ≠ f.E + f.F)) := by
  intro i
  have h1 : f.nanB x = false := by rw [← Bool.not_eq_true, f.nanB_iff hx]; exact hn
  rw [CC.abs_eq f hx, h1]
  simp only [Bool.false_eq_true, if_false]
  unfold mag
  rw [Nat.testBit_mod_two_pow]
  by_cases hi : i < f.E + f.F
  · have : i ≠ f.E + f.F := by omega
    simp [hi, this]
  · by_cases h2 : i = f.E + f.F
    · simp [h2]
    · have : x.testBit i = false := Nat.testBit_lt_two_pow (lt_of_lt_of_le hx (Nat.pow_le_pow_right (by decide) (by omega)))
      simp [this]

/-- **C03**, value view: `fabs` is the absolute value. -/
theorem C03_fabs_value (hx : f.Finite x) : f.Finite (CC.abs f x) ∧ f.val (CC.abs f x) = |f.val x| ∧
    f.sgn (CC.abs f x) = false := by
  have h1 := (f.finite_B hx).1
  rw [CC.abs_eq f hx.valid, h1]
  refine ⟨?_, CC.val_mag f x, CC.sgn_mag f x⟩
  rw [finite_iff]; simp only [Bool.false_eq_true, if_false, CC.mag_mag]
  exact ⟨CC.valid_mag f x, ((f.finite_iff x).1 hx).2⟩

/-- **C03**: a NaN stays a (positive, quiet) NaN ... -/
theorem C03_fabs_nan (hx : f.IsNaN x) : f.IsNaN (CC.abs f x) ∧ f.sgn (CC.abs f x) = false := by
  rw [CC.abs_eq f hx.1, (f.nanB_iff hx.1).2 hx]
  refine ⟨f.isNaN_qnan, ?_⟩
  have := CC.sgn_mag f f.qnan
  rwa [f.qnan_mag.1] at this

/-- ... but its payload is not kept: the full claim "changes nothing but the sign" is false for NaN. -/
theorem C03_fabs_nan_payload_lost : ∃ x, binary64.IsNaN x ∧ CC.abs binary64 x ≠ binary64.mag x :=
  ⟨0x7ff8000000000001, by decide +kernel⟩

example : binary32.Valid 0x80000001 ∧ ¬ binary32.IsNaN 0x80000001 ∧ CC.abs binary32 0x80000001 = 1 ∧
    binary64.Finite 0xbff0000000000000 := by decide +kernel

/-- `copysign` (either code path) for non-NaN arguments: magnitude bits of the first, sign bit of the second. -/
theorem copysign_eq (m : Mode) (hx : f.Valid x) (hy : f.Valid y) (nx : ¬ f.IsNaN x) (ny : ¬ f.IsNaN y) :
    CC.copysign f m x y = f.pack (f.sgn y) (f.mag x) ∧ CC.copysignRt f m x y = f.pack (f.sgn y) (f.mag x) := by
  have h1 : f.nanB x = false := by rw [← Bool.not_eq_true, f.nanB_iff hx]; exact nx
  have h2 : f.nanB y = false := by rw [← Bool.not_eq_true, f.nanB_iff hy]; exact ny
  have h3 : f.hmul m (f.mag x) (CC.oneLit f (f.sgn y)) = f.pack (f.sgn y) (f.mag x) := by
    rw [CC.hmul_one f m (CC.valid_mag f x) (by rw [CC.nanB_mag]; exact h1), CC.sgn_mag, CC.mag_mag]
    simp
  constructor
  · unfold CC.copysign
    rw [CC.isnan_eq, CC.isnan_eq, h1, h2, CC.signbit_eq f hy, CC.abs_eq f hx, h1]
    cases hs : f.sgn y <;> rw [hs] at h3 <;> simpa using h3
  · unfold CC.copysignRt
    rw [CC.isnan_eq, CC.isnan_eq, h1, h2, CC.signbit_eq f hy, FPBits.abs_eq]
    cases hs : f.sgn y <;> rw [hs] at h3 <;> simpa using h3

/-- **C03** (partial: non-NaN arguments): in every rounding mode `copysign x y` has the sign bit of `y` and all
other bits of `x`; it is idempotent.  Missing: NaN arguments, where the claim is false (next theorem). -/
theorem C03_copysign_partial (m : Mode) (hx : f.Valid x) (hy : f.Valid y) (nx : ¬ f.IsNaN x) (ny : ¬ f.IsNaN y) :
    (∀ i, (CC.copysign f m x y).testBit i = if i = f.E + f.F then y.testBit i else x.testBit i) ∧
    CC.copysign f m (CC.copysign f m x y) y = CC.copysign f m x y ∧
    CC.copysignRt f m x y = CC.copysign f m x y := by
  have h := copysign_eq f m hx hy nx ny
  have hml := f.mag_lt x
  refine ⟨?_, ?_, by rw [h.1, h.2]⟩
  · intro i
    rw [h.1]
    have hbit : f.pack (f.sgn y) (f.mag x) = 2 ^ (f.E + f.F) * (if f.sgn y then 1 else 0) + f.mag x := by
      unfold pack; cases f.sgn y <;> simp
    rw [hbit, Nat.testBit_two_pow_mul_add _ hml]
    by_cases hi : i < f.E + f.F
    · have : i ≠ f.E + f.F := by omega
      simp [hi, this, mag]
    · by_cases h2 : i = f.E + f.F
      · subst h2
        rw [testBit_top hy]
        simp only [lt_irrefl, if_false, Nat.sub_self, if_true]
        unfold sgn
        split <;> simp_all
      · have e : x.testBit i = false := Nat.testBit_lt_two_pow (lt_of_lt_of_le hx (Nat.pow_le_pow_right (by decide) (by omega)))
        have e2 : ∀ b : Bool, (if b then 1 else 0 : ℕ).testBit (i - (f.E + f.F)) = false := by
          intro b
          apply Nat.testBit_lt_two_pow
          have : 2 ^ 1 ≤ 2 ^ (i - (f.E + f.F)) := Nat.pow_le_pow_right (by decide) (by omega)
          cases b <;> simp <;> omega
        simp [hi, h2, e, e2]
  · have hv := f.valid_pack (f.sgn y) hml
    have hnn : ¬ f.IsNaN (f.pack (f.sgn y) (f.mag x)) := by
      rw [isNaN_iff, f.mag_pack _ hml]
      intro hh; exact nx ((f.isNaN_iff x).2 ⟨hx, hh.2⟩)
    rw [h.1, (copysign_eq f m hv hy hnn ny).1, f.mag_pack _ hml]

/-- **C03**, full claim refuted for NaN: `copysign(1.0, NaN)` is NaN instead of `±1.0`. -/
theorem C03_copysign_nan_sign_wrong : ∃ x y, binary64.Finite x ∧ binary64.IsNaN y ∧
    ∀ m, binary64.IsNaN (CC.copysign binary64 m x y) :=
  ⟨0x3ff0000000000000, 0x7ff8000000000000, by decide +kernel, by decide +kernel, fun m => by cases m <;> decide +kernel⟩

/-- What `copysign` does with NaN: the default NaN with the sign of the second argument. -/
theorem C03_copysign_nan (m : Mode) (hx : f.Valid x) (hy : f.Valid y) (h : f.IsNaN x ∨ f.IsNaN y) :
    f.IsNaN (CC.copysign f m x y) ∧ f.sgn (CC.copysign f m x y) = f.sgn y := by
  have h0 : (CC.isnan f x || CC.isnan f y) = true := by
    rw [CC.isnan_eq, CC.isnan_eq, Bool.or_eq_true, f.nanB_iff hx, f.nanB_iff hy]; exact h
  unfold CC.copysign
  rw [h0, CC.signbit_eq f hy]
  have hq : f.sgn f.qnan = false := by have := CC.sgn_mag f f.qnan; rwa [f.qnan_mag.1] at this
  cases hs : f.sgn y
  · simpa using ⟨f.isNaN_qnan, hq⟩
  · simp only [if_true]
    rw [sgn_hneg, hq, isNaN_iff, mag_hneg]
    exact ⟨⟨f.valid_hneg _, ((f.isNaN_iff _).1 f.isNaN_qnan).2⟩, rfl⟩

example : ¬ binary64.IsNaN 0x3ff0000000000000 ∧ ¬ binary64.IsNaN 0xfff0000000000000 ∧
    CC.copysign binary64 .nearest 0x3ff0000000000000 0xfff0000000000000 = 0xbff0000000000000 := by decide +kernel

/-! ## C04 -/

theorem fmin_of_not_nan (hx : f.Valid x) (hy : f.Valid y) (nx : ¬ f.IsNaN x) (ny : ¬ f.IsNaN y) :
    CC.fmin f x y = if f.mag x = 0 ∧ f.mag y = 0 then (if f.sgn x then x else y)
      else if f.key x < f.key y then x else y := by
  have h1 : f.nanB x = false := by rw [← Bool.not_eq_true, f.nanB_iff hx]; exact nx
  have h2 : f.nanB y = false := by rw [← Bool.not_eq_true, f.nanB_iff hy]; exact ny
  unfold CC.fmin
  rw [FPBits.isNan_eq, FPBits.isNan_eq, h1, h2, FPBits.isZero_eq, FPBits.isZero_eq, FPBits.isNeg_eq f hx]
  unfold hlt zeroB
  rw [h1, h2]
  simp

theorem fmax_of_not_nan (hx : f.Valid x) (hy : f.Valid y) (nx : ¬ f.IsNaN x) (ny : ¬ f.IsNaN y) :
    CC.fmax f x y = if f.mag x = 0 ∧ f.mag y = 0 then (if f.sgn x then y else x)
      else if f.key y < f.key x then x else y := by
  have h1 : f.nanB x = false := by rw [← Bool.not_eq_true, f.nanB_iff hx]; exact nx
  have h2 : f.nanB y = false := by rw [← Bool.not_eq_true, f.nanB_iff hy]; exact ny
  unfold CC.fmax
  rw [FPBits.isNan_eq, FPBits.isNan_eq, h1, h2, FPBits.isZero_eq, FPBits.isZero_eq, FPBits.isNeg_eq f hx]
  unfold hgt hlt zeroB
  rw [h1, h2]
  simp

/-- **C04** fmin, no NaN argument: the result is one of the arguments, its value is the minimum, and when the two
are equal zeros the result is `-0` as soon as one argument is. -/
theorem C04_fmin (hx : f.Valid x) (hy : f.Valid y) (nx : ¬ f.IsNaN x) (ny : ¬ f.IsNaN y) :
    (CC.fmin f x y = x ∨ CC.fmin f x y = y) ∧ f.xval (CC.fmin f x y) = min (f.xval x) (f.xval y) ∧
    (f.xval x = 0 → f.xval y = 0 → f.sgn (CC.fmin f x y) = (f.sgn x || f.sgn y)) := by
  have hz : ∀ {w}, f.Valid w → ¬ f.IsNaN w → f.xval w = 0 → f.mag w = 0 := by
    intro w hw nw h
    rcases f.not_nan_cases hw nw with h' | h'
    · rw [xval_of_finite f h'] at h
      exact (f.val_eq_zero_iff w).1 (by exact_mod_cast h)
    · rw [isInf_eq f h', xval_inf] at h
      split at h <;> simp at h
  have hk := f.xval_lt_iff_key hx hy nx ny
  rw [fmin_of_not_nan f hx hy nx ny]
  refine ⟨by split_ifs <;> simp, ?_, ?_⟩
  · split_ifs with h h2 h3
    · have e : f.xval x = f.xval y := by
        have ex : f.Finite x := by rw [finite_iff, h.1]; have := f.infMag_pos; have : 0 < 2 ^ (f.F + 1) := by positivity
                                   exact ⟨hx, by omega⟩
        have ey : f.Finite y := by rw [finite_iff, h.2]; have := f.infMag_pos; have : 0 < 2 ^ (f.F + 1) := by positivity
                                   exact ⟨hy, by omega⟩
        rw [xval_of_finite f ex, xval_of_finite f ey, (f.val_eq_zero_iff x).2 h.1, (f.val_eq_zero_iff y).2 h.2]
      rw [e]; simp
    · have e : f.xval x = f.xval y := by
        have ex : f.Finite x := by rw [finite_iff, h.1]; have := f.infMag_pos; have : 0 < 2 ^ (f.F + 1) := by positivity
                                   exact ⟨hx, by omega⟩
        have ey : f.Finite y := by rw [finite_iff, h.2]; have := f.infMag_pos; have : 0 < 2 ^ (f.F + 1) := by positivity
                                   exact ⟨hy, by omega⟩
        rw [xval_of_finite f ex, xval_of_finite f ey, (f.val_eq_zero_iff x).2 h.1, (f.val_eq_zero_iff y).2 h.2]
      rw [e]; simp
    · rw [min_eq_left (hk.2 h3).le]
    · rw [min_eq_right (not_lt.1 (fun hh => h3 (hk.1 hh)))]
  · intro e1 e2
    rw [if_pos ⟨hz hx nx e1, hz hy ny e2⟩]
    cases hs : f.sgn x <;> simp [hs]

/-- **C04** fmax, no NaN argument. -/
theorem C04_fmax (hx : f.Valid x) (hy : f.Valid y) (nx : ¬ f.IsNaN x) (ny : ¬ f.IsNaN y) :
    (CC.fmax f x y = x ∨ CC.fmax f x y = y) ∧ f.xval (CC.fmax f x y) = max (f.xval x) (f.xval y) ∧
    (f.xval x = 0 → f.xval y = 0 → f.sgn (CC.fmax f x y) = (f.sgn x && f.sgn y)) := by
  have hz : ∀ {w}, f.Valid w → ¬ f.IsNaN w → f.xval w = 0 → f.mag w = 0 := by
    intro w hw nw h
    rcases f.not_nan_cases hw nw with h' | h'
    · rw [xval_of_finite f h'] at h
      exact (f.val_eq_zero_iff w).1 (by exact_mod_cast h)
    · rw [isInf_eq f h', xval_inf] at h
      split at h <;> simp at h
  have hk := f.xval_lt_iff_key hy hx ny nx
  rw [fmax_of_not_nan f hx hy nx ny]
  refine ⟨by split_ifs <;> simp, ?_, ?_⟩
  · split_ifs with h h2 h3
    · have e : f.xval x = f.xval y := by
        have ex : f.Finite x := by rw [finite_iff, h.1]; have := f.infMag_pos; have : 0 < 2 ^ (f.F + 1) := by positivity
                                   exact ⟨hx, by omega⟩
        have ey : f.Finite y := by rw [finite_iff, h.2]; have := f.infMag_pos; have : 0 < 2 ^ (f.F + 1) := by positivity
                                   exact ⟨hy, by omega⟩
        rw [xval_of_finite f ex, xval_of_finite f ey, (f.val_eq_zero_iff x).2 h.1, (f.val_eq_zero_iff y).2 h.2]
      rw [e]; simp
    · have e : f.xval x = f.xval y := by
        have ex : f.Finite x := by rw [finite_iff, h.1]; have := f.infMag_pos; have : 0 < 2 ^ (f.F + 1) := by positivity
                                   exact ⟨hx, by omega⟩
        have ey : f.Finite y := by rw [finite_iff, h.2]; have := f.infMag_pos; have : 0 < 2 ^ (f.F + 1) := by positivity
                                   exact ⟨hy, by omega⟩
        rw [xval_of_finite f ex, xval_of_finite f ey, (f.val_eq_zero_iff x).2 h.1, (f.val_eq_zero_iff y).2 h.2]
      rw [e]; simp
    · rw [max_eq_left (hk.2 h3).le]
    · rw [max_eq_right (not_lt.1 (fun hh => h3 (hk.1 hh)))]
  · intro e1 e2
    rw [if_pos ⟨hz hx nx e1, hz hy ny e2⟩]
    cases hs : f.sgn x <;> simp [hs]

example : binary64.Valid 0x8000000000000000 ∧ CC.fmin binary64 0 0x8000000000000000 = 0x8000000000000000 ∧
    CC.fmax binary64 0x8000000000000000 0 = 0 ∧ CC.fmin binary64 0xfff0000000000000 1 = 0xfff0000000000000 ∧
    ¬ binary64.IsNaN 0x7ff0000000000000 := by decide +kernel

/-- **C04**: one NaN argument is ignored; the result is NaN only if both arguments are. -/
theorem C04_nan (hx : f.Valid x) (hy : f.Valid y) :
    (f.IsNaN x → ¬ f.IsNaN y → CC.fmin f x y = y ∧ CC.fmax f x y = y) ∧
    (¬ f.IsNaN x → f.IsNaN y → CC.fmin f x y = x ∧ CC.fmax f x y = x) ∧
    (f.IsNaN (CC.fmin f x y) ↔ f.IsNaN x ∧ f.IsNaN y) ∧
    (f.IsNaN (CC.fmax f x y) ↔ f.IsNaN x ∧ f.IsNaN y) := by
  have hxn := f.nanB_iff hx
  have hyn := f.nanB_iff hy
  have a1 : f.IsNaN x → ¬ f.IsNaN y → CC.fmin f x y = y ∧ CC.fmax f x y = y := by
    intro h1 h2
    have e1 := hxn.2 h1
    have e2 : f.nanB y = false := by rw [← Bool.not_eq_true, hyn]; exact h2
    unfold CC.fmin CC.fmax; rw [FPBits.isNan_eq, FPBits.isNan_eq, e1, e2]; simp
  have a2 : ¬ f.IsNaN x → f.IsNaN y → CC.fmin f x y = x ∧ CC.fmax f x y = x := by
    intro h1 h2
    have e1 := hyn.2 h2
    have e2 : f.nanB x = false := by rw [← Bool.not_eq_true, hxn]; exact h1
    unfold CC.fmin CC.fmax; rw [FPBits.isNan_eq, FPBits.isNan_eq, e1, e2]; simp
  refine ⟨a1, a2, ?_, ?_⟩
  · by_cases h1 : f.IsNaN x <;> by_cases h2 : f.IsNaN y
    · have e : CC.fmin f x y = y := by unfold CC.fmin; rw [FPBits.isNan_eq, hxn.2 h1]; simp
      simp [e, h1, h2]
    · rw [(a1 h1 h2).1]; simp [h2]
    · rw [(a2 h1 h2).1]; simp [h1]
    · rcases (C04_fmin f hx hy h1 h2).1 with h | h <;> rw [h] <;> simp [h1, h2]
  · by_cases h1 : f.IsNaN x <;> by_cases h2 : f.IsNaN y
    · have e : CC.fmax f x y = f.qnan := by
        unfold CC.fmax; rw [FPBits.isNan_eq, FPBits.isNan_eq, hxn.2 h1, hyn.2 h2]; simp
      simp [e, h1, h2, f.isNaN_qnan]
    · rw [(a1 h1 h2).2]; simp [h2]
    · rw [(a2 h1 h2).2]; simp [h1]
    · rcases (C04_fmax f hx hy h1 h2).1 with h | h <;> rw [h] <;> simp [h1, h2]

example : binary64.IsNaN 0x7ff8000000000000 ∧ ¬ binary64.IsNaN 0x3ff0000000000000 ∧
    CC.fmin binary64 0x7ff8000000000000 0x3ff0000000000000 = 0x3ff0000000000000 := by decide +kernel

/-! ## C05 -/

theorem finite_limMax : f.Finite (CC.limMax f) ∧ f.val (CC.limMax f) = f.maxFin ∧ f.sgn (CC.limMax f) = false := by
  have h := f.finite_maxFin false
  rw [CC.pack_false, sg_false, one_mul] at h
  refine ⟨h.1, h.2, ?_⟩
  have := ((f.finite_iff _).1 h.1)
  have h2 := f.infMag_pos
  unfold sgn CC.limMax; have := f.infMag_lt; simp; omega

/-- **C05**: NaN arguments give NaN, `x ≤ y` gives `+0`. -/
theorem C05_fdim_special (m : Mode) (hx : f.Valid x) (hy : f.Valid y) :
    (f.IsNaN x ∨ f.IsNaN y → f.IsNaN (CC.fdim f m x y)) ∧
    (¬ f.IsNaN x → ¬ f.IsNaN y → f.xval x ≤ f.xval y → CC.fdim f m x y = f.zero false) := by
  have hxn := f.nanB_iff hx
  have hyn := f.nanB_iff hy
  constructor
  · intro h
    unfold CC.fdim; rw [FPBits.isNan_eq, FPBits.isNan_eq]
    by_cases h1 : f.IsNaN x
    · rw [hxn.2 h1]; simpa using h1
    · have e : f.nanB x = false := by rw [← Bool.not_eq_true, hxn]; exact h1
      have h2 : f.IsNaN y := by tauto
      rw [e, hyn.2 h2]; simpa using h2
  · intro h1 h2 h3
    have e : f.nanB x = false := by rw [← Bool.not_eq_true, hxn]; exact h1
    have e2 : f.nanB y = false := by rw [← Bool.not_eq_true, hyn]; exact h2
    have e3 : f.hle x y = true := (f.hle_spec hx hy).2 ⟨h1, h2, h3⟩
    unfold CC.fdim; rw [FPBits.isNan_eq, FPBits.isNan_eq, e, e2, e3]; simp

/-- **C05** (partial): for finite `x > y`, if `r` is `x - y` correctly rounded, then `fdim x y = r` provided the exact
difference does not exceed the largest finite number or the correctly rounded result is `+∞`.
Missing: `maxFin < x - y` with a finite correctly rounded result (there the claim is false, see below). -/
theorem C05_fdim_partial (m : Mode) (hx : f.Finite x) (hy : f.Finite y) (hlt : f.val y < f.val x) {r : ℕ}
    (hr : f.RoundsTo m false (f.val x - f.val y) r)
    (hov : f.val x - f.val y ≤ f.maxFin ∨ r = f.inf false) : CC.fdim f m x y = r := by
  have e := (f.finite_B hx).1
  have e2 := (f.finite_B hy).1
  have e3 : f.hle x y = false := by
    rw [← Bool.not_eq_true, f.hle_spec hx.valid hy.valid, xval_of_finite f hx, xval_of_finite f hy]
    intro h; exact not_lt.2 (EReal.coe_le_coe_iff.1 h.2.2) hlt
  have hsub : f.hsub m x y = r := by
    have h := f.hsub_spec m hx hy
    have hne : f.val x - f.val y ≠ 0 := by intro h; linarith
    have h' : f.RoundsTo m false (f.val x - f.val y) (f.hsub m x y) :=
      ⟨h.valid, h.value, by rw [h.sign]; simp [hne]⟩
    exact RoundsTo.unique f h' hr
  unfold CC.fdim
  rw [FPBits.isNan_eq, FPBits.isNan_eq, e, e2, e3]
  simp only [Bool.false_eq_true, if_false]
  split
  · rename_i hc
    rw [Bool.and_eq_true] at hc
    rcases hov with hov | hov
    · exfalso
      have hmx := finite_limMax f
      have hs := f.hadd_spec m hmx.1 hy
      rw [hmx.2.1] at hs
      have h1 := hs.ge_of hx (by linarith)
      have h2 := hc.2
      unfold hgt at h2
      have := ((f.hlt_spec hs.valid hx.valid).1 h2).2.2
      exact absurd h1 (not_le.2 this)
    · exact hov.symm
  · exact hsub

/-- **C05**: with an infinite argument and `x > y` the result is `+∞`. -/
theorem C05_fdim_infinite (m : Mode) (hx : f.Valid x) (hy : f.Valid y) (nx : ¬ f.IsNaN x) (ny : ¬ f.IsNaN y)
    (hi : f.IsInf x ∨ f.IsInf y) (hlt : f.xval y < f.xval x) : CC.fdim f m x y = f.inf false := by
  have e : f.nanB x = false := by rw [← Bool.not_eq_true, f.nanB_iff hx]; exact nx
  have e2 : f.nanB y = false := by rw [← Bool.not_eq_true, f.nanB_iff hy]; exact ny
  have e3 : f.hle x y = false := by
    rw [← Bool.not_eq_true, f.hle_spec hx hy]; intro h; exact not_lt.2 h.2.2 hlt
  unfold CC.fdim
  rw [FPBits.isNan_eq, FPBits.isNan_eq, e, e2, e3]
  simp only [Bool.false_eq_true, if_false]
  split
  · rfl
  · rename_i hc
    -- the result is the hardware difference
    by_cases hxi : f.IsInf x
    · have hsx : f.sgn x = false := by
        by_contra hh
        have hst : f.sgn x = true := by simpa using hh
        rw [isInf_eq f hxi, hst, xval_inf] at hlt; simp at hlt
      have hxe : x = f.inf false := by have := isInf_eq f hxi; rwa [hsx] at this
      have i1 := (f.infB_iff hx).2 hxi
      unfold hsub hadd
      have e2' : f.nanB (f.hneg y) = false := by unfold nanB; rw [mag_hneg]; exact e2
      rw [e, e2', i1, sgn_hneg, hsx]
      simp only [Bool.or_self, Bool.false_eq_true, if_false, if_true]
      rw [if_neg]
      · exact hxe
      intro hh
      rw [Bool.and_eq_true] at hh
      have hyi : f.IsInf y := by
        rw [← f.infB_iff hy]; unfold infB at *; rw [mag_hneg] at hh; exact hh.1
      have hsy : f.sgn y = false := by simpa using hh.2
      rw [isInf_eq f hyi, hsy, xval_inf] at hlt; simp at hlt
    · have hyi : f.IsInf y := by tauto
      have hsy : f.sgn y = true := by
        by_contra hh
        have hst : f.sgn y = false := by simpa using hh
        rw [isInf_eq f hyi, hst, xval_inf] at hlt; simp at hlt
      have hfx : f.Finite x := by rcases f.not_nan_cases hx nx with h | h; exact h; exact absurd h hxi
      have x2 := (f.finite_B hfx).2
      unfold hsub hadd
      have e2' : f.nanB (f.hneg y) = false := by unfold nanB; rw [mag_hneg]; exact e2
      have i2' : f.infB (f.hneg y) = true := by unfold infB; rw [mag_hneg]; exact (f.infB_iff hy).2 hyi
      rw [e, e2', x2, i2']
      simp only [Bool.or_self, Bool.false_eq_true, if_false, if_true]
      unfold hneg; rw [hsy, ((f.isInf_iff y).1 hyi).2]; rfl

/-- **C05**, full claim refuted: `fdim(1.0, -DBL_MAX)` is `+∞` in round-to-nearest although the correctly rounded
difference is `DBL_MAX`. -/
theorem C05_fdim_wrong_overflow :
    CC.fdim binary64 .nearest 0x3ff0000000000000 0xffefffffffffffff = binary64.inf false ∧
    binary64.hsub .nearest 0x3ff0000000000000 0xffefffffffffffff = CC.limMax binary64 ∧
    binary64.RoundsTo .nearest (zeroSign .nearest false false)
      (binary64.val 0x3ff0000000000000 - binary64.val 0xffefffffffffffff) (CC.limMax binary64) := by
  have h : binary64.hsub .nearest 0x3ff0000000000000 0xffefffffffffffff = CC.limMax binary64 := by decide +kernel
  refine ⟨by decide +kernel, h, ?_⟩
  rw [← h]
  have := binary64.hsub_spec .nearest (x := 0x3ff0000000000000) (y := 0xffefffffffffffff) (by decide +kernel) (by decide +kernel)
  have e : zeroSign .nearest (binary64.sgn 0x3ff0000000000000) (!binary64.sgn 0xffefffffffffffff) = zeroSign .nearest false false := by
    decide +kernel
  rwa [e] at this

example : binary64.Finite 0x4000000000000000 ∧ binary64.Finite 0x3ff0000000000000 ∧
    CC.fdim binary64 .nearest 0x4000000000000000 0x3ff0000000000000 = 0x3ff0000000000000 ∧
    CC.fdim binary64 .down 0x7ff0000000000000 0x3ff0000000000000 = 0x7ff0000000000000 := by decide +kernel

end Verif
