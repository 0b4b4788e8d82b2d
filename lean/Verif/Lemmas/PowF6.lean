import Verif.Lemmas.PowF5
import Verif.Lemmas.Odd

/-!
# The float pow: integer tests, small integer powers and the front end
-/

namespace Verif
open Fmt Real

/-- the two fields read by the integer tests -/
theorem oddTest_spec32 {x : ℕ} (hx : binary32.Valid x) :
    (x &&& FPBits.expMask binary32) >>> 23 = binary32.bexp x ∧
    ∃ t, CC.countrZero 32 (x ||| FPBits.expMask binary32) = t ∧ t ≤ 23 ∧ ∃ q, 2 ^ 23 + binary32.frac x = 2 ^ t * (2 * q + 1) := by
  have hv : x < 2 ^ 32 := hx
  have hmask : FPBits.expMask binary32 = 2 ^ 23 * (2 ^ 8 - 1) := by decide
  have hmb : ∀ i, (FPBits.expMask binary32).testBit i = (decide (23 ≤ i) && decide (i < 31)) := by
    intro i
    rw [hmask, Nat.testBit_two_pow_mul, Nat.testBit_two_pow_sub_one]
    by_cases h : 23 ≤ i
    · simp [h]; omega
    · simp [h]
  refine ⟨?_, ?_⟩
  · exact FPBits.biasedExp_eq binary32 x
  · have hlt : x ||| FPBits.expMask binary32 < 2 ^ 2 ^ 5 := Nat.or_lt_two_pow hv (by rw [hmask]; norm_num)
    obtain ⟨h1, h2, h3⟩ := C34_countr_zero 5 (x ||| FPBits.expMask binary32) hlt
    have h32 : (2 : ℕ) ^ 5 = 32 := by norm_num
    rw [h32] at h1 h2 h3
    generalize CC.countrZero 32 (x ||| FPBits.expMask binary32) = t at *
    have ht : t ≤ 23 := by
      by_contra hc
      have := h2 23 (by omega)
      rw [Nat.testBit_or, hmb] at this
      simp at this
    refine ⟨t, rfl, ht, ?_⟩
    have hfr : binary32.frac x < 2 ^ 23 := Nat.mod_lt _ (by norm_num)
    have hNb : ∀ i < 23, (2 ^ 23 + binary32.frac x).testBit i = x.testBit i := by
      intro i hi
      rw [Nat.testBit_two_pow_add_gt hi]
      show (x % 2 ^ 23).testBit i = _
      rw [Nat.testBit_mod_two_pow]; simp [hi]
    apply odd_part
    · intro i hi
      have := h2 i hi
      rw [Nat.testBit_or, hmb] at this
      rw [hNb i (by omega)]
      simp at this
      exact this.1
    · rcases Nat.lt_or_ge t 23 with h | h
      · have := h3 (by omega)
        rw [Nat.testBit_or, hmb] at this
        rw [hNb t h]
        simpa [show ¬ 23 ≤ t by omega] using this
      · have : t = 23 := by omega
        subst this
        rw [Nat.testBit_two_pow_add_eq]
        rw [Nat.testBit_lt_two_pow hfr]; rfl

theorem normal_val_odd32 {x : ℕ} (hb : binary32.bexp x ≠ 0) {t q : ℕ} (h : 2 ^ 23 + binary32.frac x = 2 ^ t * (2 * q + 1)) :
    ∃ o : ℤ, o % 2 = 1 ∧ binary32.val x = (o : ℝ) * (2 : ℝ) ^ ((binary32.bexp x : ℤ) + t - 150) := by
  refine ⟨if binary32.sgn x then -(2 * q + 1) else 2 * q + 1, by split_ifs <;> omega, ?_⟩
  have hbias : (binary32.bias : ℤ) = 127 := by decide
  have hF : binary32.F = 23 := rfl
  unfold val
  rw [if_neg hb, hbias, hF]
  have h2 : (1 : ℝ) + (binary32.frac x : ℝ) / 2 ^ 23 = (2 : ℝ) ^ (t : ℤ) * (2 * q + 1) * (2 : ℝ) ^ (-23 : ℤ) := by
    have : ((2 ^ 23 + binary32.frac x : ℕ) : ℝ) = ((2 ^ t * (2 * q + 1) : ℕ) : ℝ) := by rw [h]
    push_cast at this
    rw [zpow_natCast, ← this]
    norm_num
    ring
  rw [h2, show (binary32.bexp x : ℤ) + t - 150 = ((binary32.bexp x : ℤ) - 127) + t + (-23) by ring, zpow_add₀ (by norm_num), zpow_add₀ (by norm_num)]
  split_ifs <;> push_cast <;> ring

theorem subnormal_small32 {x : ℕ} (hb : binary32.bexp x = 0) : |binary32.val x| < 1 := by
  have hbias : (binary32.bias : ℤ) = 127 := by decide
  have hF : binary32.F = 23 := rfl
  unfold val
  rw [if_pos hb, hbias, hF, abs_mul, abs_mul]
  have h1 : |(if binary32.sgn x = true then (-1 : ℝ) else 1)| = 1 := by split_ifs <;> simp
  have h2 : |(2 : ℝ) ^ (1 - (127 : ℤ))| ≤ 1 := by
    rw [abs_of_pos (zpow_pos (by norm_num) _)]
    exact zpow_le_one_of_nonpos₀ (by norm_num) (by norm_num)
  have h3 : |(binary32.frac x : ℝ) / 2 ^ 23| < 1 := by
    have : binary32.frac x < 2 ^ 23 := Nat.mod_lt _ (by norm_num)
    have h : (binary32.frac x : ℝ) < 2 ^ 23 := by exact_mod_cast this
    rw [abs_of_nonneg (by positivity), div_lt_one (by positivity)]
    exact h
  rw [h1, one_mul]
  have := abs_nonneg ((binary32.frac x : ℝ) / 2 ^ 23)
  have h4 := mul_le_mul_of_nonneg_right h2 this
  linarith

theorem isOddF_spec {x : ℕ} (hx : binary32.Finite x) : CC.isOddIntegerF x = true ↔ ∃ k : ℤ, binary32.val x = 2 * k + 1 := by
  obtain ⟨h1, t, h2, ht, q, hq⟩ := oddTest_spec32 hx.1
  unfold CC.isOddIntegerF
  simp only [h1, h2, decide_eq_true_eq]
  by_cases hb : binary32.bexp x = 0
  · constructor
    · omega
    · rintro ⟨k, hk⟩
      have := subnormal_small32 hb
      rw [hk] at this
      have h3 : |2 * k + 1| < 1 := by exact_mod_cast this
      rw [abs_lt] at h3; omega
  · obtain ⟨o, ho, hv⟩ := normal_val_odd32 hb hq
    rw [hv, odd_mul_zpow_odd ho]
    omega

theorem isIntegerF_spec {x : ℕ} (hx : binary32.Finite x) (h0 : binary32.val x ≠ 0) :
    CC.isIntegerF x = true ↔ ∃ k : ℤ, binary32.val x = k := by
  obtain ⟨h1, t, h2, ht, q, hq⟩ := oddTest_spec32 hx.1
  unfold CC.isIntegerF
  simp only [h1, h2, decide_eq_true_eq]
  by_cases hb : binary32.bexp x = 0
  · constructor
    · omega
    · rintro ⟨k, hk⟩
      have := subnormal_small32 hb
      rw [hk] at this
      have h3 : |k| < 1 := by exact_mod_cast this
      rw [abs_lt] at h3
      have : k = 0 := by omega
      rw [hk, this] at h0; simp at h0
  · obtain ⟨o, ho, hv⟩ := normal_val_odd32 hb hq
    rw [hv, odd_mul_zpow_int ho]
    omega


theorem inf32 : binary32.infMag = 0x7f800000 := by decide +kernel

theorem abs32 (x : ℕ) : FPBits.abs binary32 x = binary32.mag x := FPBits.abs_eq binary32 x

/-- order of magnitudes and order of bits -/
theorem mag_le32 {x y : ℕ} : |binary32.val x| ≤ |binary32.val y| ↔ binary32.mag x ≤ binary32.mag y := by
  rw [abs_val, abs_val, mul_le_mul_iff_left₀ binary32.minSub_pos, Nat.cast_le, umag_le_iff]

theorem lit32_vals : binary32.val 0x3f800001 = 1 + 1 / 2 ^ 23 ∧ binary32.val 0x3f7fffff = 1 - 1 / 2 ^ 24 ∧ binary32.val 0x4f170000 = 2533359616 ∧ binary32.val 0x3f800000 = 1 ∧
    binary32.val 0x3f000000 = 1 / 2 ∧ binary32.val 0x40000000 = 2 ∧ binary32.val 0x4f800000 = 2 ^ 32 ∧ binary32.val 0x00800000 = 2 ^ (-126 : ℤ) ∧ binary32.val 0x5f800000 = 2 ^ (64 : ℤ) := by
  have h : ∀ e w : ℕ, w < 2 ^ 23 → e ≤ 253 → binary32.val ((e + 1) * 2 ^ 23 + w) = (2 ^ 23 + w) * (2 : ℝ) ^ ((e : ℤ) - 149) := by
    intro e w hw he
    have := (bits32 (e := e) (m := 2 ^ 23 + w) (by omega) (by omega) he).2
    rw [show (e + 1) * 2 ^ 23 + w = e * 2 ^ 23 + (2 ^ 23 + w) by ring, this]; push_cast; norm_num
  refine ⟨?_, ?_, ?_, ?_, ?_, ?_, ?_, ?_, ?_⟩
  · have := h 126 1 (by norm_num) (by norm_num); norm_num at this ⊢; linarith
  · have := h 125 (2 ^ 23 - 1) (by norm_num) (by norm_num); norm_num at this ⊢; linarith
  · have := h 157 0x170000 (by norm_num) (by norm_num); norm_num at this ⊢; linarith
  · have := h 126 0 (by norm_num) (by norm_num); norm_num at this ⊢; linarith
  · have := h 125 0 (by norm_num) (by norm_num); norm_num at this ⊢; linarith
  · have := h 127 0 (by norm_num) (by norm_num); norm_num at this ⊢; linarith
  · have := h 158 0 (by norm_num) (by norm_num); norm_num at this ⊢; linarith
  · have := h 0 0 (by norm_num) (by norm_num); norm_num at this ⊢; linarith
  · have := h 190 0 (by norm_num) (by norm_num); norm_num at this ⊢; linarith

/-- the sign bit and the sign of the value -/
theorem sign32 {x : ℕ} (hx : binary32.Finite x) (h0 : binary32.val x ≠ 0) : (x ≥ FPBits.signMask binary32 ↔ binary32.val x < 0) ∧ (x < 2 ^ 31 ↔ 0 < binary32.val x) := by
  have hsm : FPBits.signMask binary32 = 2 ^ 31 := by decide +kernel
  have hp : 0 < (binary32.umag (binary32.mag x) : ℝ) * binary32.minSub := by
    rw [← abs_val]; exact abs_pos.2 h0
  have hv := val_eq binary32 x
  rw [hsm]
  by_cases h : x < 2 ^ 31
  · have hsg : binary32.sgn x = false := by unfold sgn; exact decide_eq_false (by change ¬ 2 ^ 31 ≤ x; omega)
    rw [hsg, sg_false] at hv
    constructor <;> constructor <;> intro h' <;> first | omega | linarith
  · have hsg : binary32.sgn x = true := by unfold sgn; exact decide_eq_true (by change 2 ^ 31 ≤ x; omega)
    rw [hsg, sg_true] at hv
    constructor <;> constructor <;> intro h' <;> first | omega | linarith

/-- a positive normal float as `(1 + w/2^23) 2^E` -/
theorem normal_split32 {x : ℕ} (hx : binary32.Finite x) (h0 : (2 : ℝ) ^ (-126 : ℤ) ≤ binary32.val x) :
    binary32.val x = ((1 : ℝ) + ((x % 2 ^ 23 : ℕ) : ℝ) / (2 : ℝ) ^ 23) * (2 : ℝ) ^ (((x >>> 23 : ℕ) : ℤ) - 127) ∧ 1 ≤ x >>> 23 ∧ x >>> 23 ≤ 254 := by
  have hpos : 0 < binary32.val x := lt_of_lt_of_le (two_zpow_pos _) h0
  have hs := (sign32 hx hpos.ne').2.2 hpos
  have hm : binary32.mag x = x := Nat.mod_eq_of_lt hs
  have hf := ((binary32.finite_iff x).1 hx).2
  rw [hm, inf32] at hf
  have hge : 0x00800000 ≤ x := by
    have h1 : |binary32.val 0x00800000| ≤ |binary32.val x| := by rw [lit32_vals.2.2.2.2.2.2.2.1, abs_of_pos (two_zpow_pos _), abs_of_pos hpos]; exact h0
    rw [mag_le32, hm, show binary32.mag 0x00800000 = 0x00800000 by decide +kernel] at h1
    exact h1
  rw [Nat.shiftRight_eq_div_pow]
  obtain ⟨p, w, hw, hxe⟩ : ∃ p w : ℕ, w < 2 ^ 23 ∧ x = p * 2 ^ 23 + (2 ^ 23 + w) := ⟨x / 2 ^ 23 - 1, x % 2 ^ 23, by omega, by omega⟩
  have e1 : x / 2 ^ 23 = p + 1 := by omega
  have e2 : x % 2 ^ 23 = w := by omega
  rw [e1, e2]
  refine ⟨?_, by omega, by omega⟩
  have hv := (bits32 (e := p) (m := 2 ^ 23 + w) (by omega) (by omega) (by omega)).2
  rw [hxe, hv, show ((p + 1 : ℕ) : ℤ) - 127 = ((p : ℤ) - 149) + 23 by push_cast; ring, zpow_add₀ (by norm_num), Nat.cast_add, Nat.cast_pow]
  rw [show (2 : ℝ) ^ (23 : ℤ) = 2 ^ 23 by norm_num, Nat.cast_ofNat]
  field_simp

/-- the exponent and the mantissa of the base -/
theorem powfFront (m : Mode) {x : ℕ} (hx : binary32.Finite x) (h0 : binary32.val x ≠ 0) {sub neg : Bool} {x' x'' : ℕ} (hsub : sub = decide (FPBits.abs binary32 x < 0x00800000))
    (hx' : x' = if sub then binary32.hmul m x 0x5f800000 else x) (hneg : neg = decide (x ≥ FPBits.signMask binary32)) (hx'' : x'' = if neg then binary32.hneg x' else x') :
    ∃ E : ℤ, (if sub then -127 - 64 else -127) + ((x'' >>> 23 : ℕ) : ℤ) = E ∧ |E| ≤ 200 ∧ |binary32.val x| = (1 + ((x'' % 2 ^ 23 : ℕ) : ℝ) / 2 ^ 23) * 2 ^ E := by
  obtain ⟨-, -, -, -, -, -, -, v8, v9⟩ := lit32_vals
  have key : binary32.Finite x' ∧ binary32.val x' = binary32.val x * 2 ^ (if sub then 64 else 0 : ℤ) ∧ (2 : ℝ) ^ (-126 : ℤ) ≤ |binary32.val x'| := by
    by_cases hs : sub = true
    · have hlt : |binary32.val x| < 2 ^ (-126 : ℤ) := by
        rw [hs] at hsub
        have := of_decide_eq_true hsub.symm
        rw [← v8, ← abs_of_pos (show 0 < binary32.val 0x00800000 by rw [v8]; exact two_zpow_pos _), ← not_le, mag_le32, show binary32.mag 0x00800000 = 0x00800000 by decide +kernel, not_le, ← abs32]
        exact this
      have hge : (2 : ℝ) ^ (-149 : ℤ) ≤ |binary32.val x| := by
        obtain ⟨k, hk⟩ := mult_emin binary32 x
        have hk0 : k ≠ 0 := by rintro rfl; rw [Int.cast_zero, zero_mul] at hk; exact h0 hk
        have hk1 : (1 : ℝ) ≤ |(k : ℝ)| := by exact_mod_cast Int.one_le_abs hk0
        rw [hk, show binary32.emin = -149 by decide +kernel, abs_mul, abs_of_pos (two_zpow_pos _)]
        exact le_mul_of_one_le_left (two_zpow_pos _).le hk1
      have R := hmul_spec binary32 m hx (by rw [finite_iff]; decide +kernel : binary32.Finite 0x5f800000)
      rw [v9] at R
      have hu : |binary32.val x * 2 ^ (64 : ℤ)| < (2 : ℝ) ^ ((binary32.bias : ℤ) + 1) := by
        rw [abs_mul, abs_of_pos (two_zpow_pos 64)]
        refine lt_of_lt_of_le (mul_lt_mul_of_pos_right hlt (two_zpow_pos 64)) ?_
        rw [← zpow_add₀ (by norm_num)]
        exact two_zpow_le (by decide)
      obtain ⟨f1, v1⟩ := RoundsTo.exact_of R (by
        obtain ⟨c, hc1, hc2, -⟩ := binary32.scale_exact (x := x) (k := 64) (Or.inl (by norm_num)) hu
        exact ⟨c, hc1, hc2⟩)
      rw [hx', if_pos hs, if_pos hs]
      refine ⟨f1, v1, ?_⟩
      rw [v1, abs_mul, abs_of_pos (two_zpow_pos 64)]
      refine le_trans ?_ (mul_le_mul_of_nonneg_right hge (two_zpow_pos 64).le)
      rw [← zpow_add₀ (by norm_num)]
      exact two_zpow_le (by norm_num)
    · rw [hx', if_neg hs, if_neg hs, zpow_zero, mul_one]
      refine ⟨hx, rfl, ?_⟩
      have hsf : sub = false := by simpa using hs
      rw [hsf] at hsub
      have := of_decide_eq_false hsub.symm
      rw [abs32, not_lt] at this
      rw [← v8, ← abs_of_pos (show 0 < binary32.val 0x00800000 by rw [v8]; exact two_zpow_pos _), mag_le32, show binary32.mag 0x00800000 = 0x00800000 by decide +kernel]
      exact this
  obtain ⟨f1, v1, g1⟩ := key
  have key2 : binary32.Finite x'' ∧ binary32.val x'' = |binary32.val x'| := by
    have hpw := two_zpow_pos (if sub then 64 else 0 : ℤ)
    by_cases hn : neg = true
    · rw [hn] at hneg
      have hlt := (sign32 hx h0).1.1 (of_decide_eq_true hneg.symm)
      rw [hx'', if_pos hn, val_hneg]
      refine ⟨binary32.finite_hneg f1, (abs_of_neg ?_).symm⟩
      rw [v1]; exact mul_neg_of_neg_of_pos hlt hpw
    · rw [hx'', if_neg hn]
      have hnf : neg = false := by simpa using hn
      rw [hnf] at hneg
      have hge := mt (sign32 hx h0).1.2 (of_decide_eq_false hneg.symm)
      refine ⟨f1, (abs_of_nonneg ?_).symm⟩
      rw [v1]; exact mul_nonneg (not_lt.1 hge) hpw.le
  obtain ⟨f2, v2⟩ := key2
  rw [← v2] at g1
  obtain ⟨s1, s2, s3⟩ := normal_split32 f2 g1
  refine ⟨_, rfl, ?_, ?_⟩
  · generalize x'' >>> 23 = e at *
    rw [abs_le]
    split_ifs <;> constructor <;> omega
  · have hv : |binary32.val x| = binary32.val x'' * 2 ^ (-(if sub then 64 else 0 : ℤ)) := by
      rw [v2, v1, abs_mul, abs_of_pos (two_zpow_pos _), mul_assoc, ← zpow_add₀ (by norm_num), add_neg_cancel, zpow_zero, mul_one]
    rw [hv, s1, mul_assoc, ← zpow_add₀ (by norm_num)]
    congr 2
    split_ifs <;> ring

end Verif
