import Verif.Model.Dyadic
import Verif.Lemmas.Ext
import Verif.Lemmas.FpSupport
import Verif.Lemmas.Fma

/-!
# Lemmas on dyadic floats: conversion to a floating-point format
-/

namespace Verif
open Fmt
variable (f : Fmt)

theorem RoundsTo.zs_irrel {f : Fmt} {m : Mode} {a b : Bool} {v : ℝ} {r : ℕ} (h : f.RoundsTo m a v r) (hv : v ≠ 0) : f.RoundsTo m b v r :=
  ⟨h.valid, h.value, by rw [h.sign, if_neg hv, if_neg hv]⟩

theorem hfma_spec (m : Mode) {x y z : ℕ} :
    f.RoundsTo m (zeroSign m (xor (f.sgn x) (f.sgn y)) (f.sgn z)) (f.val x * f.val y + f.val z) (f.hfma m x y z) := by
  have hU := f.uscale_pos
  have hm := f.minSub_pos
  have hUm := f.uscale_minSub
  have hUr : (0 : ℝ) < f.uscale := by exact_mod_cast hU
  have hv : f.val x * f.val y + f.val z = ((f.ival x * f.ival y + f.ival z * f.uscale : ℤ) : ℝ) / f.uscale * f.minSub := by
    rw [f.val_eq_ival x, f.val_eq_ival y, f.val_eq_ival z]
    push_cast
    field_simp
    have : f.minSub = 1 / f.uscale := by rw [← hUm]; field_simp
    rw [this]; field_simp
  unfold Fmt.hfma
  generalize f.ival x * f.ival y + f.ival z * f.uscale = t at *
  simp only
  by_cases h0 : t = 0
  · rw [if_pos h0, hv, h0]
    refine ⟨f.valid_zero _, ?_, ?_⟩
    · have := roundsTo_self f (m := m) (f.finite_zero false)
      rw [f.val_zero] at this
      have hv2 := this.value
      have e : ((0 : ℤ) : ℝ) / f.uscale * f.minSub = 0 := by simp
      rw [e]
      cases hs : zeroSign m (f.sgn x ^^ f.sgn y) (f.sgn z)
      · exact hv2
      · have := roundsTo_self f (m := m) (f.finite_zero true)
        rw [f.val_zero] at this
        exact this.value
    · rw [f.sgn_zero, if_pos (by simp)]
  · rw [if_neg h0, hv]
    have := roundsTo_roundQ f m (decide (t < 0)) (zeroSign m (xor (f.sgn x) (f.sgn y)) (f.sgn z)) (N := t.natAbs) (D := f.uscale) hU
      (fun h => absurd (Int.natAbs_eq_zero.1 h) h0)
    have e : (t : ℝ) / f.uscale * f.minSub = sg (decide (t < 0)) * ((t.natAbs : ℝ) / f.uscale * f.minSub) := by
      have : (t : ℝ) = sg (decide (t < 0)) * (t.natAbs : ℝ) := by
        by_cases ht : t < 0
        · have : ((t.natAbs : ℕ) : ℤ) = -t := by omega
          have h2 : ((t.natAbs : ℕ) : ℝ) = -(t : ℝ) := by rw [← Int.cast_natCast, this]; push_cast; rfl
          rw [h2]; simp [ht, sg]
        · have : ((t.natAbs : ℕ) : ℤ) = t := by omega
          have h2 : ((t.natAbs : ℕ) : ℝ) = (t : ℝ) := by rw [← Int.cast_natCast, this]
          rw [h2]; simp [ht, sg]
      nth_rewrite 1 [this]; ring
    rw [e]; exact this

namespace CC

/-- `multiply_add` is one rounding of the exact value when the product is representable -/
theorem multiplyAdd_spec (fused : Bool) (m : Mode) {x y z p : ℕ} (hx : f.Finite x) (hy : f.Finite y) (hz : f.Finite z) (hp : f.Finite p)
    (hpv : f.val p = f.val x * f.val y) (h0 : f.val x * f.val y + f.val z ≠ 0) (zs : Bool) :
    f.RoundsTo m zs (f.val x * f.val y + f.val z) (multiplyAdd f fused m x y z) := by
  unfold multiplyAdd
  cases fused
  · have e := RoundsTo.exact f hp hpv (f.hmul_spec m hx hy)
    have := f.hadd_spec m e.1 hz
    rw [e.2] at this
    exact RoundsTo.zs_irrel this h0
  · exact RoundsTo.zs_irrel (hfma_spec f m) h0

/-- the value of a quotient with two extra bits -/
theorem rbits_two (q : ℕ) (rb st : Bool) : RBits ((q : ℝ) + ((if rb then 1 else 0) * 2 + (if st then 1 else 0)) / 4) q rb st := by
  cases rb <;> cases st <;> constructor <;> norm_num

theorem rbits_shift (M n : ℕ) : RBits ((M : ℝ) / 2 ^ (n + 1)) (M / 2 ^ (n + 1)) (M.testBit n) (decide (M % 2 ^ n ≠ 0)) := by
  have := shift_rbits (M := M) (n := n) (j := 0) (v := M) (tl := false) (Nat.zero_le _) (by simp) le_rfl (by simp) (by simp)
  simpa using this

/-- two values with the same quotient, round and sticky bits round to the same datum -/
theorem same_bits {m : Mode} {s a b : Bool} {w w' : ℝ} {k q : ℕ} {rb st : Bool} (hb : RBits w q rb st) (hb' : RBits w' q rb st)
    (hw : 0 < w) (hw' : 0 < w') (hq : q < 2 ^ (f.F + 1)) (hk : k = 0 ∨ 2 ^ f.F ≤ q) {r : ℕ}
    (hr : f.RoundsTo m a (sg s * (w * 2 ^ k * f.minSub)) r) : f.RoundsTo m b (sg s * (w' * 2 ^ k * f.minSub)) r := by
  have hP : (0 : ℝ) < 2 ^ k := by positivity
  have h1 := f.roundsTo_of_rndMag (zs := a) (mul_pos hw hP).le (show sg s * (w * 2 ^ k * f.minSub) = _ from rfl)
    (fun h => absurd h (mul_pos hw hP).ne') (rndMag_bits f (m := m) (s := s) hb rfl hq hk)
  have h2 := f.roundsTo_of_rndMag (zs := b) (mul_pos hw' hP).le (show sg s * (w' * 2 ^ k * f.minSub) = _ from rfl)
    (fun h => absurd h (mul_pos hw' hP).ne') (rndMag_bits f (m := m) (s := s) hb' rfl hq hk)
  rwa [RoundsTo.unique f hr h1]

theorem umag_shift {K n q : ℕ} (h1 : 2 ^ f.F ≤ q) (h2 : q ≤ 2 ^ (f.F + 1)) : f.umag ((K + n) * 2 ^ f.F + q) = 2 ^ n * f.umag (K * 2 ^ f.F + q) := by
  rcases Nat.lt_or_ge q (2 ^ (f.F + 1)) with h | h
  · rw [f.umag_of h (Or.inr h1), f.umag_of h (Or.inr h1)]; rw [pow_add]; ring
  · have : q = 2 ^ f.F + 2 ^ f.F := by rw [pow_succ] at *; omega
    have e : ∀ k, k * 2 ^ f.F + q = (k + 1) * 2 ^ f.F + 2 ^ f.F := fun k => by rw [this]; ring
    have hl : 2 ^ f.F < 2 ^ (f.F + 1) := by rw [pow_succ]; have := f.two_pow_F_pos; omega
    rw [e, e, f.umag_of hl (Or.inr le_rfl), f.umag_of hl (Or.inr le_rfl), show K + n + 1 = (K + 1) + n by ring, pow_add]; ring

theorem createValue_small {s : Bool} {e q : ℕ} (hq : q < 2 ^ f.F) (he : e < 2 ^ f.E) :
    FPBits.createValue f s e q = f.pack s (e * 2 ^ f.F + q) := by
  unfold FPBits.createValue
  rw [FPBits.encode_eq, Nat.mod_eq_of_lt he, Nat.mod_eq_of_lt hq]

theorem minSub_pow (k : ℕ) : (2 : ℝ) ^ k * f.minSub = (2 : ℝ) ^ ((k : ℤ) + (1 - (f.bias : ℤ) - f.F)) := by
  rw [← f.minSub_zpow, zpow_natCast]

/-- the integer `2 * round + sticky` -/
def rsInt (rb st : Bool) : ℤ := (if rb then 1 else 0) * 2 + (if st then 1 else 0)

theorem rsInt_cast (rb st : Bool) : ((rsInt rb st : ℤ) : ℝ) = (if rb then 1 else 0) * 2 + (if st then 1 else 0) := by
  unfold rsInt; cases rb <;> cases st <;> norm_num

theorem rsInt_range (rb st : Bool) : 0 ≤ rsInt rb st ∧ rsInt rb st ≤ 3 := by
  unfold rsInt; cases rb <;> cases st <;> norm_num

theorem normal_lt {k q : ℕ} (hk : k + 1 ≤ 2 * f.bias) (hq : q < 2 ^ (f.F + 1)) : k * 2 ^ f.F + q < f.infMag := by
  rw [infMag_eq]
  have h3 := Nat.mul_le_mul_right (2 ^ f.F) hk
  rw [Nat.succ_mul] at h3
  rw [pow_succ] at hq
  omega

/-- l.435-447: adding the round and sticky bits below a normal significand -/
theorem fast_direct (hF : 2 ≤ f.F) (hw : f.Wide) (fused : Bool) (md : Mode) (s zs rb st : Bool) {k q : ℕ} (hk : k + 1 ≤ 2 * f.bias)
    (hq1 : 2 ^ f.F ≤ q) (hq2 : q < 2 ^ (f.F + 1)) (hlo : f.F + 2 ≤ k) :
    f.RoundsTo md zs (sg s * (((q : ℝ) + ((if rb then 1 else 0) * 2 + (if st then 1 else 0)) / 4) * 2 ^ k * f.minSub))
      (multiplyAdd f fused md (f.pack s ((k - f.F - 1) * 2 ^ f.F)) (f.ofInt md (rsInt rb st)) (f.pack s (k * 2 ^ f.F + q))) := by
  have hms := f.minSub_pos
  have hlt := normal_lt f hk hq2
  obtain ⟨d1, d2, -⟩ := f.pow2_val s (e := k - f.F - 1) (by omega) (by omega)
  have hz1 := f.finite_pack s hlt
  have hz2 : f.val (f.pack s (k * 2 ^ f.F + q)) = sg s * ((q : ℝ) * 2 ^ k * f.minSub) := by
    rw [f.val_pack s (lt_trans hlt f.infMag_lt), f.umag_of hq2 (Or.inr hq1)]; push_cast; ring
  obtain ⟨r1, r2⟩ := rsInt_range rb st
  have h4 : 4 ≤ 2 ^ f.F := by calc 4 = 2 ^ 2 := by norm_num
    _ ≤ _ := Nat.pow_le_pow_right (by norm_num) hF
  obtain ⟨c, c1, c2⟩ := int_datum f hw (z := rsInt rb st) (by rw [abs_of_nonneg r1]; have : (4 : ℤ) ≤ 2 ^ f.F := by exact_mod_cast h4
                                                              omega)
  obtain ⟨i1, i2⟩ := RoundsTo.exact f c1 c2 (ofInt_spec f md (rsInt rb st))
  have hz3 : f.val (f.pack s ((k - f.F - 1) * 2 ^ f.F)) = sg s * (1 / 4 * 2 ^ k * f.minSub) := by
    rw [d2, mul_assoc (1 / 4), minSub_pow f, show (1 / 4 : ℝ) = 2 ^ (-2 : ℤ) by norm_num, ← zpow_add₀ (by norm_num)]
    congr 2
    omega
  -- the product is representable
  obtain ⟨p, p1, p2, -⟩ := f.exists_exact s (a := (rsInt rb st).toNat) (k := k - 2) (by rw [pow_succ]; omega) (by
    have e1 : f.umag (k * 2 ^ f.F + q) < f.umag f.infMag := f.umag_lt_iff.2 hlt
    rw [f.umag_of hq2 (Or.inr hq1)] at e1
    refine lt_of_le_of_lt (Nat.mul_le_mul ?_ (Nat.pow_le_pow_right (by norm_num) (Nat.sub_le _ _))) e1
    omega)
  have hrc : (((rsInt rb st).toNat : ℕ) : ℝ) = ((rsInt rb st : ℤ) : ℝ) := by
    rw [← Int.cast_natCast, Int.toNat_of_nonneg r1]
  have hpv : f.val p = f.val (f.pack s ((k - f.F - 1) * 2 ^ f.F)) * f.val (f.ofInt md (rsInt rb st)) := by
    rw [p2, hz3, i2]
    push_cast
    rw [hrc]
    have : (2 : ℝ) ^ k = 2 ^ (k - 2) * 4 := by
      rw [show k = (k - 2) + 2 by omega, pow_add]; norm_num
    rw [this]; ring
  have hsum : f.val (f.pack s ((k - f.F - 1) * 2 ^ f.F)) * f.val (f.ofInt md (rsInt rb st)) + f.val (f.pack s (k * 2 ^ f.F + q))
      = sg s * (((q : ℝ) + ((if rb then 1 else 0) * 2 + (if st then 1 else 0)) / 4) * 2 ^ k * f.minSub) := by
    rw [hz2, hz3, i2, rsInt_cast]; ring
  have hqpos : (0 : ℝ) < q := by
    have : 0 < q := lt_of_lt_of_le f.two_pow_F_pos hq1
    exact_mod_cast this
  have hne : sg s * (((q : ℝ) + ((if rb then 1 else 0) * 2 + (if st then 1 else 0)) / 4) * 2 ^ k * f.minSub) ≠ 0 := by
    refine mul_ne_zero (sg_ne_zero s) (ne_of_gt ?_)
    have h0 : (0 : ℝ) ≤ ((if rb then 1 else 0) * 2 + (if st then 1 else 0)) / 4 := by rw [← rsInt_cast]; have : (0 : ℝ) ≤ (rsInt rb st : ℤ) := by exact_mod_cast r1
                                                                                      positivity
    positivity
  rw [← hsum] at hne ⊢
  exact multiplyAdd_spec f fused md d1 i1 hz1 p1 hpv hne zs

/-- l.421-438: the same below the range where the round bit is a normal number, by scaling up and down -/
theorem fast_scaled (hF : 2 ≤ f.F) (hb : f.F + 3 ≤ f.bias) (fused : Bool) (md : Mode) (s zs rb st : Bool) {k q : ℕ}
    (hq1 : 2 ^ f.F ≤ q) (hq2 : q < 2 ^ (f.F + 1)) (hlo : k ≤ f.F + 1) :
    f.RoundsTo md zs (sg s * (((q : ℝ) + ((if rb then 1 else 0) * 2 + (if st then 1 else 0)) / 4) * 2 ^ k * f.minSub))
      (f.hmul md (multiplyAdd f fused md (f.pack s (1 * 2 ^ f.F)) (f.ofInt md (rsInt rb st))
        (f.hmul md (f.pack s (k * 2 ^ f.F + q)) (f.pack false ((f.bias + (f.F + 2 - k)) * 2 ^ f.F)))) (f.pack false ((f.bias - (f.F + 2 - k)) * 2 ^ f.F))) := by
  have hw : f.Wide := ⟨by omega, by omega⟩
  have hms := f.minSub_pos
  have hlt := normal_lt f (k := k) (by omega) hq2
  have hlt' := normal_lt f (k := f.F + 2) (by omega) hq2
  obtain ⟨u1, u2, u3⟩ := f.pow2_val false (e := f.bias + (f.F + 2 - k)) (by omega) (by omega)
  obtain ⟨v1, v2, v3⟩ := f.pow2_val false (e := f.bias - (f.F + 2 - k)) (by omega) (by omega)
  have hz1 := f.finite_pack s hlt
  have hinf := f.infMag_lt
  -- scaling up is exact
  have hup : f.hmul md (f.pack s (k * 2 ^ f.F + q)) (f.pack false ((f.bias + (f.F + 2 - k)) * 2 ^ f.F)) = f.pack s ((f.F + 2) * 2 ^ f.F + q) := by
    have h := f.hmul_spec md hz1 u1
    have e : f.val (f.pack s (k * 2 ^ f.F + q)) * f.val (f.pack false ((f.bias + (f.F + 2 - k)) * 2 ^ f.F)) = f.val (f.pack s ((f.F + 2) * 2 ^ f.F + q)) := by
      rw [f.val_pack s (lt_trans hlt hinf), f.val_pack s (lt_trans hlt' hinf), u2]
      have := umag_shift f (K := k) (n := f.F + 2 - k) hq1 hq2.le
      rw [show k + (f.F + 2 - k) = f.F + 2 by omega] at this
      rw [this]
      push_cast
      rw [show ((f.bias : ℤ) + ((f.F + 2 - k : ℕ) : ℤ) - f.bias) = ((f.F + 2 - k : ℕ) : ℤ) by ring, zpow_natCast]
      simp only [sg]; simp; ring_nf
    rw [e, u3, f.sgn_pack s (lt_trans hlt hinf)] at h
    refine RoundsTo.exact_eq f (f.finite_pack s hlt') h ?_
    intro _
    rw [f.sgn_pack s (lt_trans hlt' hinf)]; simp
  rw [hup]
  have hd := fast_direct f hF hw fused md s zs rb st (k := f.F + 2) (q := q) (by omega) hq1 hq2 le_rfl
  rw [show f.F + 2 - f.F - 1 = 1 by omega] at hd
  set a : ℝ := ((if rb then 1 else 0) * 2 + (if st then 1 else 0)) / 4
  have hbits : RBits ((q : ℝ) + a) q rb st := rbits_two q rb st
  have hqpos : (0 : ℝ) < q := by
    have : 0 < q := lt_of_lt_of_le f.two_pow_F_pos hq1
    exact_mod_cast this
  have hpos : (0 : ℝ) < q + a := lt_of_lt_of_le hqpos hbits.lo
  obtain ⟨g1, -, -⟩ := finish_round f (m := md) (s := s) (zs := zs) hbits rfl (by positivity) hq2 (Or.inr hq1) hlt'
  obtain ⟨g2, -, -⟩ := finish_round f (m := md) (s := s) (zs := zs) (k := k) hbits rfl (by positivity) hq2 (Or.inr hq1) hlt
  rw [RoundsTo.unique f hd g1]
  have key : ∀ i, i ≤ 1 → f.hmul md (f.pack s ((f.F + 2) * 2 ^ f.F + q + i)) (f.pack false ((f.bias - (f.F + 2 - k)) * 2 ^ f.F)) = f.pack s (k * 2 ^ f.F + q + i) := by
    intro i hi
    have l1 : k * 2 ^ f.F + q + i < f.infMag := by
      have := normal_lt f (k := k + 1) (q := 2 ^ f.F) (by omega) (by rw [pow_succ]; have := f.two_pow_F_pos; omega)
      rw [Nat.succ_mul] at this; rw [pow_succ] at hq2; omega
    have l2 : (f.F + 2) * 2 ^ f.F + q + i < f.infMag := by
      have := normal_lt f (k := f.F + 2 + 1) (q := 2 ^ f.F) (by omega) (by rw [pow_succ]; have := f.two_pow_F_pos; omega)
      rw [Nat.succ_mul] at this; rw [pow_succ] at hq2; omega
    have h := f.hmul_spec md (f.finite_pack s l2) v1
    have e : f.val (f.pack s ((f.F + 2) * 2 ^ f.F + q + i)) * f.val (f.pack false ((f.bias - (f.F + 2 - k)) * 2 ^ f.F)) = f.val (f.pack s (k * 2 ^ f.F + q + i)) := by
      rw [f.val_pack s (lt_trans l1 hinf), f.val_pack s (lt_trans l2 hinf), v2]
      have := umag_shift f (K := k) (n := f.F + 2 - k) (q := q + i) (by omega) (by omega)
      rw [show k + (f.F + 2 - k) = f.F + 2 by omega, ← add_assoc, ← add_assoc] at this
      rw [this]
      push_cast
      rw [show (((f.bias - (f.F + 2 - k) : ℕ) : ℤ) - f.bias) = -((f.F + 2 - k : ℕ) : ℤ) by omega, zpow_neg, zpow_natCast]
      have : (2 : ℝ) ^ (f.F + 2 - k) ≠ 0 := by positivity
      simp only [sg]; field_simp; simp
    rw [e, v3, f.sgn_pack s (lt_trans l2 hinf)] at h
    refine RoundsTo.exact_eq f (f.finite_pack s l1) h ?_
    intro _
    rw [f.sgn_pack s (lt_trans l1 hinf)]; simp
  rw [key _ (by split <;> omega)]
  exact g2

theorem and_mask_bne (m n : ℕ) : ((m &&& (1 <<< n)) != 0) = m.testBit n := by
  rw [Nat.one_shiftLeft, Nat.and_two_pow]
  cases m.testBit n <;> simp

theorem and_low_bne (m n : ℕ) : ((m &&& (2 ^ n - 1)) != 0) = decide (m % 2 ^ n ≠ 0) := by
  rw [Nat.and_two_pow_sub_one_eq_mod]
  by_cases h : m % 2 ^ n = 0 <;> simp [h]

/-- l.409-414: the masks select the round bit and the sticky bits -/
theorem masks_spec {B m n : ℕ} (hm : m < 2 ^ B) :
    ((m &&& (if n ≥ B then 0 else 1 <<< n)) != 0) = m.testBit n ∧
    ((m &&& (((if n ≥ B then 0 else 1 <<< n) + 2 ^ B - 1) % 2 ^ B)) != 0) = decide (m % 2 ^ n ≠ 0) := by
  have hP : 0 < 2 ^ B := by positivity
  by_cases h : n ≥ B
  · have hn : m < 2 ^ n := lt_of_lt_of_le hm (Nat.pow_le_pow_right (by norm_num) h)
    simp only [if_pos h]
    rw [Nat.testBit_lt_two_pow hn, Nat.mod_eq_of_lt hn, Nat.zero_add, Nat.mod_eq_of_lt (by omega), and_low_bne, Nat.mod_eq_of_lt hm]
    simp
  · simp only [if_neg h]
    refine ⟨and_mask_bne m n, ?_⟩
    have hlt : 2 ^ n < 2 ^ B := Nat.pow_lt_pow_right (by norm_num) (by omega)
    have hpn : 0 < 2 ^ n := by positivity
    rw [Nat.one_shiftLeft, show 2 ^ n + 2 ^ B - 1 = (2 ^ n - 1) + 2 ^ B by omega, Nat.add_mod_right, Nat.mod_eq_of_lt (by omega), and_low_bne]

end CC

/-- the number represented by a dyadic float -/
noncomputable def Dy.val (d : Dy) : ℝ := (if d.s then -1 else 1) * ((d.m : ℝ) * 2 ^ d.e)

/-- a dyadic float whose mantissa is zero or has its top bit set -/
def Dy.Normal (B : ℕ) (d : Dy) : Prop := d.m < 2 ^ B ∧ (d.m = 0 ∨ 2 ^ (B - 1) ≤ d.m)

namespace CC

theorem fastAs_spec (hF : 2 ≤ f.F) (hb : f.F + 3 ≤ f.bias) {B : ℕ} (hB : f.F + 2 ≤ B) (hB2 : B ≤ 2 ^ 31) (fused : Bool) (md : Mode) {d : Dy}
    (hd : d.Normal B) (he : -2 ^ 31 ≤ d.e) : f.RoundsTo md d.s d.val (fastAs f B fused md d) := by
  have hw : f.Wide := ⟨by omega, by omega⟩
  have hE := f.two_bias
  have hms := f.minSub_pos
  obtain ⟨hm, hn⟩ := hd
  unfold fastAs
  by_cases h0 : d.m = 0
  · rw [if_pos h0]
    have hv : d.val = 0 := by unfold Dy.val; rw [h0]; simp
    exact (zero_spec f md d.s hv).1
  rw [if_neg h0]
  have hn : 2 ^ (B - 1) ≤ d.m := by tauto
  have hmpos : (0 : ℝ) < d.m := by exact_mod_cast Nat.pos_of_ne_zero h0
  have hvsg : d.val = sg d.s * ((d.m : ℝ) * 2 ^ d.e) := rfl
  have hzp : (0 : ℝ) < 2 ^ d.e := two_zpow_pos _
  have hne : d.val ≠ 0 := by rw [hvsg]; exact mul_ne_zero (sg_ne_zero _) (by positivity)
  simp only
  set eh : ℤ := d.e + (((B - 1 : ℕ) : ℤ) + f.bias) with heh
  by_cases hov : eh > 2 * f.bias
  · rw [if_pos hov]
    obtain ⟨t1, t2⟩ := pow2_spec f false (k := 1) (by omega) (by omega)
    rw [createValue_small f f.two_pow_F_pos (by omega), Nat.add_zero]
    obtain ⟨u1, u2, u3⟩ := f.pow2_val d.s (e := 2 * f.bias) (by omega) le_rfl
    have h := f.hmul_spec md t1 u1
    have e : f.val (pow2 f false 1) * f.val (f.pack d.s (2 * f.bias * 2 ^ f.F)) = sg d.s * 2 ^ ((f.bias : ℤ) + 1) := by
      rw [t2, u2, zpow_add₀ (by norm_num)]
      have : ((2 * f.bias : ℕ) : ℤ) - f.bias = f.bias := by push_cast; ring
      rw [this]; simp only [sg]; simp; ring_nf
    rw [e] at h
    have hs : ∀ x : ℝ, 0 < x → decide (sg d.s * x < 0) = d.s := by
      intro x hx
      cases d.s <;> simp [sg, hx, hx.le]
    have h2 := RoundsTo.huge f h (by rw [abs_mul, abs_sg, one_mul, abs_of_pos (two_zpow_pos _)])
    rw [hs _ (two_zpow_pos _)] at h2
    have h3 := f.roundsTo_huge (m := md) (zs := d.s) (v := d.val) (by
      rw [hvsg, abs_mul, abs_sg, one_mul, abs_of_pos (by positivity)]
      calc (2 : ℝ) ^ ((f.bias : ℤ) + 1) ≤ 2 ^ (((B - 1 : ℕ) : ℤ) + d.e) := zpow_le_zpow_right₀ (by norm_num) (by omega)
        _ = ((2 ^ (B - 1) : ℕ) : ℝ) * 2 ^ d.e := by rw [zpow_add₀ (by norm_num), zpow_natCast]; push_cast; rfl
        _ ≤ _ := by gcongr)
    rw [hvsg, hs _ (by positivity), ← hvsg] at h3
    rw [h2]; exact h3
  rw [if_neg hov]
  push Not at hov
  have hfm : ∀ x, x &&& FPBits.fracMask f = x % 2 ^ f.F := FPBits.fracMask_and f
  have hbig : 2 ^ (f.F + 1) ≤ 2 ^ (f.E + f.F + 1) := Nat.pow_le_pow_right (by norm_num) (by omega)
  by_cases hde : eh ≤ 0
  · -- denormal result
    obtain ⟨n, hnn⟩ : ∃ n : ℕ, (B - (f.F + 1)) + (1 - eh).toNat = n + 1 := ⟨(B - (f.F + 1)) + (1 - eh).toNat - 1, by omega⟩
    simp only [decide_eq_true hde, if_true, hnn]
    have hmod : (n + 1 + 2 ^ 32 - 1) % 2 ^ 32 = n := by
      rw [show n + 1 + 2 ^ 32 - 1 = n + 2 ^ 32 by omega, Nat.add_mod_right, Nat.mod_eq_of_lt (by omega)]
    obtain ⟨k1, k2⟩ := masks_spec (n := n) hm
    simp only [hmod, k1, k2]
    clear hmod
    have hmh : (if n + 1 ≥ B then 0 else d.m >>> (n + 1)) = d.m / 2 ^ (n + 1) := by
      split
      · rename_i h
        rw [Nat.div_eq_of_lt (lt_of_lt_of_le hm (Nat.pow_le_pow_right (by norm_num) h))]
      · rw [Nat.shiftRight_eq_div_pow]
    have hq : d.m / 2 ^ (n + 1) < 2 ^ f.F := by
      rw [Nat.div_lt_iff_lt_mul (by positivity), ← pow_add]
      exact lt_of_lt_of_le hm (Nat.pow_le_pow_right (by norm_num) (by omega))
    rw [hmh, if_neg (by omega)]
    generalize hqq : d.m / 2 ^ (n + 1) = q at *
    have hP := f.two_pow_F_pos
    rw [Nat.mod_eq_of_lt (a := q) (b := 2 ^ (f.E + f.F + 1)) (by rw [pow_succ] at hbig; omega), hfm, Nat.mod_eq_of_lt hq]
    rw [show ((f.bias : ℤ) - ((f.F + 1 : ℕ) : ℤ) - 1).toNat = f.bias - f.F - 2 by omega, Int.toNat_natCast]
    rw [createValue_small f hP (by omega), createValue_small f hq (by omega), Nat.add_zero]
    have hd := fast_direct f hF hw fused md d.s d.s (d.m.testBit n) (decide (d.m % 2 ^ n ≠ 0)) (k := f.bias - 1) (q := 2 ^ f.F + q) (by omega)
      (by omega) (by rw [pow_succ]; omega) (by omega)
    have ek : (f.bias - 1) * 2 ^ f.F + (2 ^ f.F + q) = f.bias * 2 ^ f.F + q := by
      rw [← add_assoc, ← Nat.succ_mul]; congr 2; omega
    rw [ek, show f.bias - 1 - f.F - 1 = f.bias - f.F - 2 by omega] at hd
    unfold rsInt at hd
    have hbits := rbits_two (2 ^ f.F + q) (d.m.testBit n) (decide (d.m % 2 ^ n ≠ 0))
    have hpos : (0 : ℝ) < (2 ^ f.F + q : ℕ) + (((if d.m.testBit n then 1 else 0) * 2 + (if decide (d.m % 2 ^ n ≠ 0) then 1 else 0)) / 4 : ℝ) := by
      refine lt_of_lt_of_le ?_ hbits.lo
      have : 0 < 2 ^ f.F + q := by omega
      exact_mod_cast this
    obtain ⟨g1, -, -⟩ := finish_round f (m := md) (s := d.s) (zs := d.s) (k := f.bias - 1) hbits rfl (by positivity) (by rw [pow_succ]; omega)
      (Or.inr (by omega)) (normal_lt f (by omega) (by rw [pow_succ]; omega))
    rw [RoundsTo.unique f hd g1, ek]
    have hb2 := rbits_shift d.m n
    rw [hqq] at hb2
    obtain ⟨g2, -, -⟩ := finish_round f (m := md) (s := d.s) (zs := d.s) (k := 0) (x := (d.m : ℝ) * 2 ^ d.e) hb2 (by
      unfold minSub
      rw [pow_zero, mul_one, div_mul_eq_mul_div, mul_div_assoc, ← zpow_natCast 2 (n + 1), ← zpow_sub₀ (by norm_num)]
      congr 2; omega) (by positivity) (by rw [pow_succ]; omega) (Or.inl rfl) (by have := f.infMag_pos; rw [pow_succ] at this; omega)
    rw [zero_mul, Nat.zero_add, ← hvsg] at g2
    have hpar : decide ((2 ^ f.F + q) % 2 = 1) = decide (q % 2 = 1) := by
      have : 2 ^ f.F % 2 = 0 := by
        obtain ⟨j, hj⟩ : ∃ j, f.F = j + 1 := ⟨f.F - 1, by omega⟩
        rw [hj, pow_succ]; omega
      congr 1; rw [Nat.add_mod, this]; simp
    rw [hpar]
    convert g2 using 1
    have key : ∀ i, i ≤ 1 → (f.pack d.s (f.bias * 2 ^ f.F + q + i) + 2 ^ (f.E + f.F + 1) - f.bias <<< f.F % 2 ^ (f.E + f.F + 1)) % 2 ^ (f.E + f.F + 1) = f.pack d.s (q + i) := by
      intro i hi
      have e1 : f.bias * 2 ^ f.F < 2 ^ (f.E + f.F) := by
        rw [pow_add, ← hE]; exact Nat.mul_lt_mul_of_pos_right (by omega) hP
      have e2 : 2 ^ (f.E + f.F + 1) = 2 * 2 ^ (f.E + f.F) := f.two_pow_EF_succ
      have e3 : q + i < 2 ^ (f.E + f.F) := by
        have := f.infMag_pos; have := f.infMag_lt; rw [pow_succ] at *; omega
      rw [Nat.shiftLeft_eq, Nat.mod_eq_of_lt (a := f.bias * 2 ^ f.F) (by omega)]
      have e4 : f.pack d.s (f.bias * 2 ^ f.F + q + i) = f.pack d.s (q + i) + f.bias * 2 ^ f.F := by
        unfold pack; split <;> omega
      have e5 : f.pack d.s (q + i) < 2 ^ (f.E + f.F + 1) := f.valid_pack d.s e3
      rw [e4, show f.pack d.s (q + i) + f.bias * 2 ^ f.F + 2 ^ (f.E + f.F + 1) - f.bias * 2 ^ f.F = f.pack d.s (q + i) + 2 ^ (f.E + f.F + 1) by omega,
        Nat.add_mod_right, Nat.mod_eq_of_lt e5]
    exact key _ (by split <;> omega)
  · -- normal result
    obtain ⟨n, hnn⟩ : ∃ n : ℕ, B - (f.F + 1) = n + 1 := ⟨B - (f.F + 1) - 1, by omega⟩
    simp only [decide_eq_false hde, if_false, hnn, Bool.false_eq_true]
    have hmod : (n + 1 + 2 ^ 32 - 1) % 2 ^ 32 = n := by
      rw [show n + 1 + 2 ^ 32 - 1 = n + 2 ^ 32 by omega, Nat.add_mod_right, Nat.mod_eq_of_lt (by omega)]
    obtain ⟨k1, k2⟩ := masks_spec (n := n) hm
    simp only [hmod, k1, k2]
    clear hmod
    rw [if_neg (show ¬ (n + 1 ≥ B) by omega), Nat.shiftRight_eq_div_pow]
    have hq2 : d.m / 2 ^ (n + 1) < 2 ^ (f.F + 1) := by
      rw [Nat.div_lt_iff_lt_mul (by positivity), ← pow_add]
      exact lt_of_lt_of_le hm (Nat.pow_le_pow_right (by norm_num) (by omega))
    have hq1 : 2 ^ f.F ≤ d.m / 2 ^ (n + 1) := by
      rw [Nat.le_div_iff_mul_le (by positivity), ← pow_add]
      exact le_trans (Nat.pow_le_pow_right (by norm_num) (by omega)) hn
    have hb2 := rbits_shift d.m n
    have hmv : ∀ k : ℕ, (k : ℤ) + 1 = eh → d.val = sg d.s * ((d.m : ℝ) / 2 ^ (n + 1) * 2 ^ k * f.minSub) := by
      intro k hk
      rw [hvsg, mul_assoc ((d.m : ℝ) / 2 ^ (n + 1)), minSub_pow, div_mul_eq_mul_div, mul_div_assoc, ← zpow_natCast 2 (n + 1), ← zpow_sub₀ (by norm_num)]
      congr 3; omega
    generalize hqq : d.m / 2 ^ (n + 1) = q at *
    have hP := f.two_pow_F_pos
    have hbits := rbits_two q (d.m.testBit n) (decide (d.m % 2 ^ n ≠ 0))
    have hqpos : (0 : ℝ) < q := by exact_mod_cast lt_of_lt_of_le hP hq1
    have hpos : (0 : ℝ) < q + (((if d.m.testBit n then 1 else 0) * 2 + (if decide (d.m % 2 ^ n ≠ 0) then 1 else 0)) / 4 : ℝ) :=
      lt_of_lt_of_le hqpos hbits.lo
    obtain ⟨k, hk⟩ : ∃ k : ℕ, (k : ℤ) + 1 = eh := ⟨(eh - 1).toNat, by omega⟩
    have hwpos : (0 : ℝ) < (d.m : ℝ) / 2 ^ (n + 1) := by positivity
    rw [Nat.mod_eq_of_lt (a := q) (b := 2 ^ (f.E + f.F + 1)) (by omega), hfm]
    have hcr : FPBits.createValue f d.s eh.toNat (q % 2 ^ f.F) = f.pack d.s (k * 2 ^ f.F + q) := by
      have : eh.toNat = k + 1 := by omega
      rw [this, ← createValue_normal f hq2 hq1 (by omega)]
      unfold FPBits.createValue
      rw [FPBits.encode_eq, FPBits.encode_eq, Nat.mod_mod]
    rw [hcr]
    by_cases hlo : eh - ((f.F + 1 : ℕ) : ℤ) - 1 ≤ 0
    · rw [if_pos hlo]
      have h := fast_scaled f hF hb fused md d.s d.s (d.m.testBit n) (decide (d.m % 2 ^ n ≠ 0)) hq1 hq2 (k := k) (by omega)
      rw [show ((f.bias : ℤ) + (1 - (eh - ((f.F + 1 : ℕ) : ℤ) - 1))).toNat = f.bias + (f.F + 2 - k) by omega,
        show ((f.bias : ℤ) - (1 - (eh - ((f.F + 1 : ℕ) : ℤ) - 1))).toNat = f.bias - (f.F + 2 - k) by omega,
        show (eh - ((f.F + 1 : ℕ) : ℤ) - 1 + (1 - (eh - ((f.F + 1 : ℕ) : ℤ) - 1))).toNat = 1 by omega,
        createValue_small f hP (by omega), createValue_small f hP (by omega), createValue_small f hP (by omega), Nat.add_zero, Nat.add_zero, Nat.add_zero, hmv k hk]
      exact same_bits f hbits hb2 hpos hwpos hq2 (Or.inr hq1) h
    · rw [if_neg hlo]
      have h := fast_direct f hF hw fused md d.s d.s (d.m.testBit n) (decide (d.m % 2 ^ n ≠ 0)) (k := k) (by omega) hq1 hq2 (by omega)
      rw [show (eh - ((f.F + 1 : ℕ) : ℤ) - 1).toNat = k - f.F - 1 by omega, createValue_small f hP (by omega), Nat.add_zero, hmv k hk]
      exact same_bits f hbits hb2 hpos hwpos hq2 (Or.inr hq1) h

theorem genericAs_tail {md : Mode} {s zs : Bool} {x w : ℝ} {k q oe om : ℕ} {rb st : Bool} (hb : RBits w q rb st) (hx : x = w * 2 ^ k * f.minSub)
    (hpos : 0 < x) (hq : q < 2 ^ (f.F + 1)) (hk : k = 0 ∨ 2 ^ f.F ≤ q) (hn : k * 2 ^ f.F + q < f.infMag)
    (hc : FPBits.createValue f s oe om = f.pack s (k * 2 ^ f.F + q)) (hom : om = q) :
    f.RoundsTo md zs (sg s * x) (if (match md with
        | .nearest => rb && (((om &&& 1) != 0) || st)
        | .down => s && (rb || st)
        | .up => !s && (rb || st)
        | .zero => false) then (FPBits.createValue f s oe om + 1) % 2 ^ (f.E + f.F + 1) else FPBits.createValue f s oe om) := by
  obtain ⟨g, -, gv⟩ := finish_round f (m := md) (s := s) (zs := zs) hb hx hpos hq hk hn
  convert g using 1
  rw [hc, hom, and_one_bne]
  refine Eq.trans (b := if roundIncrement md s rb st (decide (q % 2 = 1)) then (f.pack s (k * 2 ^ f.F + q) + 1) % 2 ^ (f.E + f.F + 1)
    else f.pack s (k * 2 ^ f.F + q)) (by cases md <;> rfl) ?_
  rw [← pack_succ]
  by_cases h : roundIncrement md s rb st (decide (q % 2 = 1)) = true
  · rw [if_pos h, if_pos h]
    rw [← pack_succ, if_pos h] at gv
    exact Nat.mod_eq_of_lt gv
  · rw [if_neg h, if_neg h]

theorem genericAs_spec {B : ℕ} (hB : f.F + 2 ≤ B) (md : Mode) {d : Dy}
    (hd : d.Normal B) : f.RoundsTo md d.s d.val (genericAs f B md d) := by
  have hE := f.two_bias
  have hms := f.minSub_pos
  obtain ⟨hm, hn⟩ := hd
  unfold genericAs
  by_cases h0 : d.m = 0
  · rw [if_pos h0]
    have hv : d.val = 0 := by unfold Dy.val; rw [h0]; simp
    exact (zero_spec f md d.s hv).1
  rw [if_neg h0]
  have hn : 2 ^ (B - 1) ≤ d.m := by tauto
  have hmpos : (0 : ℝ) < d.m := by exact_mod_cast Nat.pos_of_ne_zero h0
  have hvsg : d.val = sg d.s * ((d.m : ℝ) * 2 ^ d.e) := rfl
  have hzp : (0 : ℝ) < 2 ^ d.e := two_zpow_pos _
  have hE' : (2 : ℤ) ^ f.E = 2 * f.bias + 2 := by exact_mod_cast hE.symm
  simp only
  set ue : ℤ := d.e + ((B : ℤ) - 1) with hue
  have hlow : (2 : ℝ) ^ ue ≤ (d.m : ℝ) * 2 ^ d.e := by
    have : (2 : ℝ) ^ ue = ((2 ^ (B - 1) : ℕ) : ℝ) * 2 ^ d.e := by
      push_cast; rw [← zpow_natCast 2 (B - 1), ← zpow_add₀ (by norm_num)]; congr 1; omega
    rw [this]; gcongr
  have hhigh : (d.m : ℝ) * 2 ^ d.e < 2 ^ (ue + 1) := by
    have : (2 : ℝ) ^ (ue + 1) = ((2 ^ B : ℕ) : ℝ) * 2 ^ d.e := by
      push_cast; rw [← zpow_natCast 2 B, ← zpow_add₀ (by norm_num)]; congr 1; omega
    rw [this]; gcongr
  by_cases hov : ue + f.bias ≥ 2 ^ f.E - 1
  · rw [if_pos hov]
    have hs : ∀ x : ℝ, 0 < x → decide (sg d.s * x < 0) = d.s := by
      intro x hx
      cases d.s <;> simp [sg, hx, hx.le]
    have h3 := f.roundsTo_huge (m := md) (zs := d.s) (v := d.val) (by
      rw [hvsg, abs_mul, abs_sg, one_mul, abs_of_pos (by positivity)]
      exact le_trans (zpow_le_zpow_right₀ (by norm_num) (by omega)) hlow)
    rw [hvsg, hs _ (by positivity), ← hvsg] at h3
    convert h3 using 1
    have := maxNormal_ovf f md d.s
    cases md <;> exact this
  rw [if_neg hov]
  push Not at hov
  have hP := f.two_pow_F_pos
  have hinf := f.infMag_pos
  have hF1 : 2 ^ (f.F + 1) = 2 * 2 ^ f.F := by rw [pow_succ]; ring
  rw [hvsg]
  have hbig : 2 ^ (f.F + 1) ≤ 2 ^ (f.E + f.F + 1) := Nat.pow_le_pow_right (by norm_num) (by omega)
  by_cases h1 : ue < -(f.bias : ℤ) - f.F
  · simp only [if_pos h1]
    refine genericAs_tail f (w := (d.m : ℝ) * 2 ^ d.e / f.minSub) (k := 0) (q := 0) (rb := false) (st := true) ?_ (by field_simp) (by positivity) (by positivity) (Or.inl rfl) (by omega)
      (createValue_sub f hP) rfl
    have hlt : (d.m : ℝ) * 2 ^ d.e / f.minSub < 1 / 2 := by
      rw [div_lt_iff₀ hms]
      refine lt_of_lt_of_le hhigh ?_
      have : 1 / 2 * f.minSub = 2 ^ (-(f.bias : ℤ) - f.F) := by
        unfold minSub; rw [show (1 / 2 : ℝ) = 2 ^ (-1 : ℤ) by norm_num, ← zpow_add₀ (by norm_num)]; congr 1; ring
      rw [this]; exact zpow_le_zpow_right₀ (by norm_num) (by omega)
    have hpp : 0 < (d.m : ℝ) * 2 ^ d.e / f.minSub := by positivity
    constructor
    · simpa using hpp.le
    · push_cast; linarith
    · simp only [Bool.false_eq_true, false_iff]; push_cast; linarith
    · intro _; simp only [Bool.true_eq_false, false_iff]; push_cast; exact hpp.ne'
    · simp
  rw [if_neg h1]
  by_cases h2 : ue = -(f.bias : ℤ) - f.F
  · simp only [if_pos h2]
    obtain ⟨n, hnB⟩ : ∃ n, B = n + 1 := ⟨B - 1, by omega⟩
    subst hnB
    rw [Nat.add_sub_cancel, and_low_bne]
    have hb := rbits_shift d.m n
    have ht : d.m.testBit n = true := by
      rw [Nat.testBit_eq_decide_div_mod_eq]
      have : d.m / 2 ^ n = 1 := by
        rw [Nat.div_eq_iff (by positivity)]; rw [pow_succ] at hm; simp at hn; omega
      simp [this]
    rw [ht, Nat.div_eq_of_lt hm] at hb
    refine genericAs_tail f (w := (d.m : ℝ) / 2 ^ (n + 1)) (k := 0) (q := 0) hb ?_ (by positivity) (by positivity) (Or.inl rfl) (by omega)
      (createValue_sub f hP) rfl
    unfold minSub
    rw [pow_zero, mul_one, div_mul_eq_mul_div, mul_div_assoc, ← zpow_natCast 2 (n + 1), ← zpow_sub₀ (by norm_num)]
    congr 2; push_cast at *; omega
  rw [if_neg h2]
  have hmask : ∀ n, n < B → (1 <<< n) % 2 ^ B = 1 <<< n ∧ (1 <<< n + 2 ^ B - 1) % 2 ^ B = 2 ^ n - 1 := by
    intro n hn
    have hlt : 2 ^ n < 2 ^ B := Nat.pow_lt_pow_right (by norm_num) hn
    have hpn : 0 < 2 ^ n := by positivity
    rw [Nat.one_shiftLeft, Nat.mod_eq_of_lt hlt, show 2 ^ n + 2 ^ B - 1 = (2 ^ n - 1) + 2 ^ B by omega, Nat.add_mod_right, Nat.mod_eq_of_lt (by omega)]
    exact ⟨rfl, rfl⟩
  by_cases h3 : ue < 1 - (f.bias : ℤ)
  · simp only [if_pos h3]
    obtain ⟨n, hnn⟩ : ∃ n : ℕ, (B : ℤ) - 1 - f.F + (1 - (f.bias : ℤ) - ue) = n + 1 := ⟨((B : ℤ) - 1 - f.F + (1 - (f.bias : ℤ) - ue) - 1).toNat, by omega⟩
    rw [hnn, show ((n : ℤ) + 1 - 1).toNat = n by omega, show ((n : ℤ) + 1).toNat = n + 1 by omega]
    obtain ⟨m1, m2⟩ := hmask n (by omega)
    rw [m1, m2, and_low_bne, and_mask_bne, Nat.shiftRight_eq_div_pow]
    have hq : d.m / 2 ^ (n + 1) < 2 ^ f.F := by
      rw [Nat.div_lt_iff_lt_mul (by positivity), ← pow_add]
      exact lt_of_lt_of_le hm (Nat.pow_le_pow_right (by norm_num) (by omega))
    rw [Nat.mod_eq_of_lt (a := d.m / 2 ^ (n + 1)) (by omega)]
    refine genericAs_tail f (k := 0) (rbits_shift d.m n) ?_ (by positivity) (by omega) (Or.inl rfl) (by omega)
      (createValue_sub f hq) rfl
    unfold minSub
    rw [pow_zero, mul_one, div_mul_eq_mul_div, mul_div_assoc, ← zpow_natCast 2 (n + 1), ← zpow_sub₀ (by norm_num)]
    congr 2; omega
  · simp only [if_neg h3]
    obtain ⟨n, hnn⟩ : ∃ n : ℕ, (B : ℤ) - 1 - f.F = n + 1 := ⟨B - 1 - f.F - 1, by omega⟩
    rw [hnn, show ((n : ℤ) + 1 - 1).toNat = n by omega, show ((n : ℤ) + 1).toNat = n + 1 by omega]
    obtain ⟨m1, m2⟩ := hmask n (by omega)
    rw [m1, m2, and_low_bne, and_mask_bne, Nat.shiftRight_eq_div_pow]
    have hq2 : d.m / 2 ^ (n + 1) < 2 ^ (f.F + 1) := by
      rw [Nat.div_lt_iff_lt_mul (by positivity), ← pow_add]
      exact lt_of_lt_of_le hm (Nat.pow_le_pow_right (by norm_num) (by omega))
    have hq1 : 2 ^ f.F ≤ d.m / 2 ^ (n + 1) := by
      rw [Nat.le_div_iff_mul_le (by positivity), ← pow_add]
      exact le_trans (Nat.pow_le_pow_right (by norm_num) (by omega)) hn
    rw [Nat.mod_eq_of_lt (a := d.m / 2 ^ (n + 1)) (by omega)]
    obtain ⟨k, hk⟩ : ∃ k : ℕ, (k : ℤ) + 1 = ue + f.bias := ⟨(ue + f.bias - 1).toNat, by omega⟩
    rw [show (ue + f.bias).toNat = k + 1 by omega]
    refine genericAs_tail f (k := k) (rbits_shift d.m n) ?_ (by positivity) hq2 (Or.inr hq1) (normal_lt f (by omega) hq2)
      (createValue_normal f hq2 hq1 (by omega)) rfl
    rw [mul_assoc ((d.m : ℝ) / 2 ^ (n + 1)), minSub_pow, div_mul_eq_mul_div, mul_div_assoc, ← zpow_natCast 2 (n + 1), ← zpow_sub₀ (by norm_num)]
    congr 2; omega

end CC
end Verif
