import Verif.Lemmas.Ipow2

/-!
# pow: the small-integer path
-/

namespace Verif
open Fmt Real

theorem truncInt_int {y : ℕ} {n : ℤ} (h : binary64.val y = n) : CC.truncInt y = n := by
  have hu := binary64.minSub_pos
  have us : 0 < binary64.uscale := binary64.uscale_pos
  have h1 : (binary64.umag (binary64.mag y) : ℝ) = n.natAbs * binary64.uscale := by
    have h2 : |binary64.val y| = (n.natAbs : ℝ) := by rw [h, Nat.cast_natAbs]; push_cast; rfl
    rw [val_eq, abs_mul, abs_of_nonneg (show (0 : ℝ) ≤ (binary64.umag (binary64.mag y) : ℝ) * binary64.minSub from mul_nonneg (Nat.cast_nonneg _) hu.le),
      show |sg (binary64.sgn y)| = 1 by cases binary64.sgn y <;> simp, one_mul] at h2
    apply mul_right_cancel₀ hu.ne'
    rw [h2, mul_assoc, binary64.uscale_minSub, mul_one]
  have h2 : binary64.umag (binary64.mag y) = n.natAbs * binary64.uscale := by exact_mod_cast h1
  unfold CC.truncInt
  simp only [h2, Nat.mul_div_cancel _ us]
  have h3 := CC.val_eq_sg_abs binary64 y
  have h4 := abs_nonneg (binary64.val y)
  cases hs : binary64.sgn y
  · rw [hs, sg_false, one_mul, h] at h3
    have : (0 : ℝ) ≤ n := by rw [h3]; positivity
    have : 0 ≤ n := by exact_mod_cast this
    simp; omega
  · rw [hs, sg_true, h] at h3
    have : (n : ℝ) ≤ 0 := by rw [h3]; have := abs_nonneg (n : ℝ); linarith
    have : n ≤ 0 := by exact_mod_cast this
    simp only [if_true]; omega

theorem powImpl_path (kernel : ℕ → ℕ → Bool → Option (ℕ × CC.PowEff)) (m : Mode) {x y : ℕ} {n : ℤ} {r : ℕ × CC.PowEff} (hx : binary64.Finite x) (hx0 : binary64.val x ≠ 0)
    (h1 : x ≠ CC.one64) (hy : binary64.Finite y) (hyn : binary64.val y = n) (hn : n ≠ 0)
    (h : CC.powIntPath m (binary64.mag x) y (decide (binary64.val x < 0) && CC.isOddInteger y) {} = some (some r)) : CC.powImpl kernel m x y = some r := by
  have hy0 : binary64.val y ≠ 0 := by rw [hyn]; exact_mod_cast hn
  have hxm : binary64.mag x ≠ 0 := fun h => hx0 ((binary64.val_eq_zero_iff x).2 h)
  have hym : binary64.mag y ≠ 0 := fun h => hy0 ((binary64.val_eq_zero_iff y).2 h)
  have hxf := ((binary64.finite_iff x).1 hx).2
  have hyf := ((binary64.finite_iff y).1 hy).2
  have nx : ¬ binary64.IsNaN x := by rw [isNaN_iff]; omega
  have ny : ¬ binary64.IsNaN y := by rw [isNaN_iff]; omega
  obtain ⟨-, e1, e2, e3, e4⟩ := powImpl_ord hx.1 hy.1 nx ny hym
  have e5 : FPBits.isZero binary64 x = false := by rw [FPBits.isZero_eq]; simp [zeroB, hxm]
  have e6 : FPBits.isInf binary64 x = false := by rw [FPBits.isInf_eq]; simp [infB, hxf.ne]
  have e7 : FPBits.isInf binary64 y = false := by rw [FPBits.isInf_eq]; simp [infB, hyf.ne]
  have e8 : binary64.hlt x (binary64.zero false) = decide (binary64.val x < 0) := by
    rw [Bool.eq_iff_iff, CC.hlt_finite binary64 hx (binary64.finite_zero false), val_zero, decide_eq_true_iff]
  have e9 : CC.isInteger y = true := (C26_is_integer_partial hy hy0).2 ⟨n, hyn⟩
  have e10 : (if decide (binary64.val x < 0) = true then FPBits.abs binary64 x else x) = binary64.mag x := by
    split
    · exact FPBits.abs_eq binary64 x
    · rename_i hc
      have h2 := CC.val_eq_sg_abs binary64 x
      have : binary64.sgn x = false := by
        cases hs : binary64.sgn x
        · rfl
        · rw [hs, sg_true] at h2
          have h3 := abs_pos.2 hx0
          simp at hc; linarith
      have h4 := binary64.pack_sgn_mag hx.1
      rw [this] at h4
      conv_lhs => rw [← h4]
      exact CC.pack_false binary64 _
  unfold CC.powImpl
  simp only [e1, e2, e3, e5, e6, e7, e8, e9, e10, if_neg h1, Bool.false_eq_true, if_false, Bool.not_true, Bool.and_false, h]

set_option maxHeartbeats 1000000 in
/-- the reconstruction of a result in the normal range -/
theorem reconstruct_err (m : Mode) {p : CC.Pair} {e : ℤ} {X : ℝ} (fh : binary64.Finite p.hi) (fl : binary64.Finite p.lo)
    (h1 : 1 ≤ |binary64.val p.hi|) (h2 : |binary64.val p.hi| ≤ 2) (h3 : |binary64.val p.lo| ≤ 3 / 2 ^ 52)
    (hX : |(binary64.val p.hi + binary64.val p.lo) * 2 ^ e - X| ≤ |X| / 2 ^ 83) (X1 : (2 : ℝ) ^ (-1021 : ℤ) ≤ |X|) (X2 : |X| ≤ (1 - 1 / 2 ^ 50) * 2 ^ (1024 : ℤ)) :
    let r := CC.reconstructScaled m p e
    binary64.Finite r ∧ (∃ zs, binary64.RoundsTo m zs ((binary64.val p.hi + binary64.val p.lo) * 2 ^ e) r) ∧ (2 : ℝ) ^ (-1022 : ℤ) ≤ |binary64.val r| := by
  intro r
  have s1 : |binary64.val p.hi + binary64.val p.lo| ≤ 2 + 3 / 2 ^ 52 := abs_add_le' h2 h3
  have s2 : 1 / 4 ≤ |binary64.val p.hi + binary64.val p.lo| := by
    have : |binary64.val p.hi| ≤ |binary64.val p.hi + binary64.val p.lo| + 3 / 2 ^ 52 := by
      rw [show binary64.val p.hi = (binary64.val p.hi + binary64.val p.lo) + -binary64.val p.lo by ring]
      refine (abs_add_le' le_rfl ((abs_neg _).trans_le h3)).trans (by simp)
    norm_num at this ⊢; linarith
  have he : e ≥ -1022 := by
    by_contra hc
    have e1 : e ≤ -1023 := by omega
    have h4 : (2 : ℝ) ^ e ≤ 2 ^ (-1023 : ℤ) := two_zpow_le e1
    have h5 := abs_sub_abs_le_abs_sub X ((binary64.val p.hi + binary64.val p.lo) * 2 ^ e)
    rw [abs_sub_comm, abs_mul, abs_of_pos (two_zpow_pos e)] at h5
    have h6 := mul_le_mul s1 h4 (two_zpow_pos e).le (by norm_num)
    rw [show (-1021 : ℤ) = -1023 + 1 + 1 by norm_num, zpow_add_one₀ (by norm_num), zpow_add_one₀ (by norm_num)] at X1
    have pz := two_zpow_pos (-1023)
    generalize (2 : ℝ) ^ (-1023 : ℤ) = z at *
    have h7 : (2 + 3 / 2 ^ 52) * z ≤ 5 / 2 * z := mul_le_mul_of_nonneg_right (by norm_num) pz.le
    have h8 : |X| / 2 ^ 83 ≤ |X| / 10 := div_le_div_of_nonneg_left (abs_nonneg X) (by norm_num) (by norm_num)
    linarith
  have hr : r = CC.ldexp binary64 m (binary64.hadd m p.hi p.lo) e := if_pos he
  have R := binary64.hadd_spec m fh fl
  rw [hr]
  obtain ⟨g1, g2, g3⟩ := scale_finish m R s2 (s1.trans (by norm_num)) hX X1 X2
  exact ⟨g1, ⟨_, g2⟩, g3⟩

theorem normal_flags {r : ℕ} (hr : binary64.Finite r) (h : (2 : ℝ) ^ (-1022 : ℤ) ≤ |binary64.val r|) :
    FPBits.isFinite binary64 r = true ∧ FPBits.isZero binary64 r = false ∧ FPBits.isSubnormal binary64 r = false ∧ binary64.bexp r ≠ 0 := by
  have hb : binary64.bexp r ≠ 0 := fun hb => absurd (abs_val_subnormal hb) (not_lt.2 h)
  refine ⟨?_, ?_, ?_, hb⟩
  · rw [FPBits.isFinite_eq]; simp [((binary64.finite_iff r).1 hr).2]
  · rw [FPBits.isZero_eq]
    have : binary64.mag r ≠ 0 := fun hm => by
      rw [(binary64.val_eq_zero_iff r).2 hm, abs_zero] at h
      exact absurd h (not_le.2 (two_zpow_pos _))
    simp [zeroB, this]
  · rw [FPBits.isSubnormal_eq]; simp [hb]

/-- the two ends of the path, from a scaled pair near `V` -/
theorem path_end (m : Mode) {sp : CC.ScaledPow} {V : ℝ} {K : ℕ} (hs : SPow sp V K) (hV : 0 < V) (hK : K ≤ 4096) (sign : Bool) :
    let mant : CC.Pair := if sign then { hi := binary64.hneg sp.mantissa.hi, lo := binary64.hneg sp.mantissa.lo } else sp.mantissa
    ((2 : ℝ) ^ (-1021 : ℤ) ≤ V → V ≤ (1 - 1 / 2 ^ 50) * 2 ^ (1024 : ℤ) →
      ∃ w, binary64.Finite (CC.reconstructScaled m mant sp.exp2) ∧ |w - sg sign * V| ≤ V / 2 ^ 83 ∧
        w = sg sign * ((binary64.val sp.mantissa.hi + binary64.val sp.mantissa.lo) * 2 ^ sp.exp2) ∧ binary64.RoundsTo m false w (CC.reconstructScaled m mant sp.exp2) ∧
        (2 : ℝ) ^ (-1022 : ℤ) ≤ |binary64.val (CC.reconstructScaled m mant sp.exp2)|) ∧
    ((2 : ℝ) ^ (-1021 : ℤ) ≤ V⁻¹ → V⁻¹ ≤ (1 - 1 / 2 ^ 50) * 2 ^ (1024 : ℤ) →
      ∃ q w, CC.reciprocal m mant = some q ∧ binary64.Finite (CC.ldexp binary64 m q (-sp.exp2)) ∧ |w - sg sign * V⁻¹| ≤ V⁻¹ / 2 ^ 83 ∧
        (binary64.val sp.mantissa.lo = 0 → w = sg sign * (binary64.val sp.mantissa.hi * 2 ^ sp.exp2)⁻¹) ∧
        binary64.RoundsTo m false w (CC.ldexp binary64 m q (-sp.exp2)) ∧ (2 : ℝ) ^ (-1022 : ℤ) ≤ |binary64.val (CC.ldexp binary64 m q (-sp.exp2))|) := by
  intro mant
  have hrel := hs.rel hV hK
  obtain ⟨f1, f2, a1, a2, a3, -, -⟩ := hs
  have sga : |sg sign| = 1 := by cases sign <;> simp
  have hm : binary64.Finite mant.hi ∧ binary64.Finite mant.lo ∧ binary64.val mant.hi = sg sign * binary64.val sp.mantissa.hi ∧ binary64.val mant.lo = sg sign * binary64.val sp.mantissa.lo := by
    cases sign
    · exact ⟨f1, f2, by rw [sg_false, one_mul]; rfl, by rw [sg_false, one_mul]; rfl⟩
    · refine ⟨binary64.finite_hneg f1, binary64.finite_hneg f2, ?_, ?_⟩
      · rw [sg_true, ← neg_eq_neg_one_mul]; exact val_hneg binary64 _
      · rw [sg_true, ← neg_eq_neg_one_mul]; exact val_hneg binary64 _
  clear_value mant
  obtain ⟨m1, m2, m3, m4⟩ := hm
  have b1 : |binary64.val mant.hi| = binary64.val sp.mantissa.hi := by rw [m3, abs_mul, sga, one_mul, abs_of_pos (by linarith)]
  have b2 : |binary64.val mant.lo| ≤ 3 / 2 ^ 52 := by rw [m4, abs_mul, sga, one_mul]; exact a3
  have c1 : 1 ≤ |binary64.val mant.hi| := by rw [b1]; exact a1
  have c2 : |binary64.val mant.hi| ≤ 2 := by rw [b1]; exact a2.le
  have hsum : binary64.val mant.hi + binary64.val mant.lo = sg sign * (binary64.val sp.mantissa.hi + binary64.val sp.mantissa.lo) := by rw [m3, m4]; ring
  have hXa : |sg sign * V| = V := by rw [abs_mul, sga, one_mul, abs_of_pos hV]
  have hk : V * (1001 / 1000 / 2 ^ 84) ≤ V / 2 ^ 83 := by
    rw [div_eq_mul_inv V]; exact mul_le_mul_of_nonneg_left (by norm_num) hV.le
  have hd : |(binary64.val mant.hi + binary64.val mant.lo) * 2 ^ sp.exp2 - sg sign * V| ≤ V * (1001 / 1000 / 2 ^ 84) := by
    rw [hsum, mul_assoc, ← mul_sub, abs_mul, sga, one_mul]; exact hrel
  constructor
  · intro X1 X2
    obtain ⟨g1, ⟨zs, g2⟩, g3⟩ := reconstruct_err m (e := sp.exp2) (X := sg sign * V) m1 m2 c1 c2 b2 (by rw [hXa]; exact hd.trans hk) (by rw [hXa]; exact X1) (by rw [hXa]; exact X2)
    refine ⟨_, g1, hd.trans hk, by rw [hsum, mul_assoc], roundsTo_zs binary64 ?_ g2 false, g3⟩
    intro h0
    rw [h0, zero_sub, abs_neg, hXa] at hd
    have : V * (1001 / 1000 / 2 ^ 84) < V * 1 := mul_lt_mul_of_pos_left (by norm_num) hV
    linarith
  · intro X1 X2
    obtain ⟨q, zs, w, hq, Rq, e1, e2, e3⟩ := reciprocal_err m m1 m2 c1 c2 b2
    have iV : 0 < V⁻¹ := inv_pos.2 hV
    have hXi : |sg sign * V⁻¹| = V⁻¹ := by rw [abs_mul, sga, one_mul, abs_of_pos iV]
    set S := binary64.val mant.hi + binary64.val mant.lo with hS
    have pe := two_zpow_pos sp.exp2
    set T := S * (2 : ℝ) ^ sp.exp2 with hT
    have hw : w * 2 ^ (-sp.exp2) * T = w * S := by
      rw [hT, zpow_neg]; field_simp
    have ssq : sg sign * sg sign = 1 := by cases sign <;> simp
    have herr : |w * 2 ^ (-sp.exp2) - sg sign * V⁻¹| ≤ V⁻¹ / 2 ^ 83 := by
      have T1 : V * (999 / 1000) ≤ |T| := by
        have := abs_sub_abs_le_abs_sub (sg sign * V) T
        rw [abs_sub_comm, hXa] at this
        have h9 : V * (1001 / 1000 / 2 ^ 84) ≤ V * (1 / 1000) := mul_le_mul_of_nonneg_left (by norm_num) hV.le
        linarith
      have k1 : (w * 2 ^ (-sp.exp2) - sg sign * V⁻¹) * T = (w * S - 1) + -(sg sign * V⁻¹) * (T - sg sign * V) := by
        have : sg sign * V⁻¹ * (sg sign * V) = 1 := by
          rw [mul_mul_mul_comm, ssq, one_mul, inv_mul_cancel₀ hV.ne']
        linear_combination hw - this
      have k2 : |(w * 2 ^ (-sp.exp2) - sg sign * V⁻¹) * T| ≤ 1 / 2 ^ 96 + V⁻¹ * (V * (1001 / 1000 / 2 ^ 84)) := by
        rw [k1]
        refine abs_add_le' e1 ?_
        refine abs_mul_le (by rw [abs_neg, hXi]) hd
      rw [inv_mul_cancel_left₀ hV.ne', abs_mul] at k2
      have k3 := (mul_le_mul_of_nonneg_left T1 (abs_nonneg (w * 2 ^ (-sp.exp2) - sg sign * V⁻¹))).trans k2
      rw [div_eq_mul_inv, ← mul_le_mul_iff_left₀ hV]
      rw [show V⁻¹ * (2 ^ 83 : ℝ)⁻¹ * V = (2 ^ 83 : ℝ)⁻¹ by field_simp]
      norm_num at k3 ⊢
      linarith
    have w1 : 1 / 4 ≤ |w| := by
      have h5 : |w * S| ≤ |w| * (21 / 10) := by
        rw [abs_mul]
        exact mul_le_mul_of_nonneg_left ((abs_add_le' c2 b2).trans (by norm_num)) (abs_nonneg w)
      have h6 := abs_sub_abs_le_abs_sub (1 : ℝ) (w * S)
      rw [abs_sub_comm, abs_one] at h6
      norm_num at e1 ⊢
      linarith
    obtain ⟨g1, g2, g3⟩ := scale_finish m Rq w1 (e2.trans (by norm_num)) (by rw [hXi]; exact herr) (by rw [hXi]; exact X1) (by rw [hXi]; exact X2)
    refine ⟨q, _, hq, g1, herr, fun h => ?_, roundsTo_zs binary64 ?_ g2 false, g3⟩
    · rw [e3 (by rw [m4, h, mul_zero]), m3, zpow_neg, mul_inv, mul_inv, mul_assoc]
      congr 1
      cases sign <;> norm_num
    intro h0
    have : w ≠ 0 := by
      intro hw0; rw [hw0, abs_zero] at w1; norm_num at w1
    exact mul_ne_zero this (two_zpow_pos _).ne' h0

/-- the whole path -/
theorem powIntPath_err (m : Mode) {b y : ℕ} {n : ℤ} (hb : binary64.Finite b) (b0 : 0 < binary64.val b) (hb1 : binary64.bexp b ≠ 0) (hy : binary64.Finite y)
    (hyn : binary64.val y = n) (hn0 : n ≠ 0) (hn1 : |n| ≤ 1024) (sign : Bool) (X1 : (2 : ℝ) ^ (-1021 : ℤ) ≤ binary64.val b ^ n)
    (X2 : binary64.val b ^ n ≤ (1 - 1 / 2 ^ 50) * 2 ^ (1024 : ℤ)) :
    ∃ r w, CC.powIntPath m b y sign {} = some (some (r, {})) ∧ binary64.Finite r ∧ |w - sg sign * binary64.val b ^ n| ≤ binary64.val b ^ n / 2 ^ 83 ∧ binary64.RoundsTo m false w r ∧
      ∃ sp, CC.ipowScaled m (CC.loadScaled m { hi := b, lo := 0 }) n.natAbs = some sp ∧
        (0 ≤ n → w = sg sign * ((binary64.val sp.mantissa.hi + binary64.val sp.mantissa.lo) * 2 ^ sp.exp2)) ∧
        (n < 0 → binary64.val sp.mantissa.lo = 0 → w = sg sign * (binary64.val sp.mantissa.hi * 2 ^ sp.exp2)⁻¹) := by
  have hy0 : binary64.val y ≠ 0 := by rw [hyn]; exact_mod_cast hn0
  have e1 : CC.isInteger y = true := (C26_is_integer_partial hy hy0).2 ⟨n, hyn⟩
  have c1024 : binary64.Finite 0x4090000000000000 ∧ binary64.val 0x4090000000000000 = 1024 :=
    ⟨by rw [finite_iff]; decide +kernel, by rw [one64_val.val_of_ival' (a := 1024) (by decide +kernel)]; norm_num⟩
  have fm : binary64.Finite (FPBits.abs binary64 y) := by
    rw [FPBits.abs_eq]
    exact (binary64.finite_iff _).2 ⟨CC.valid_mag _ _, by rw [CC.mag_mag]; exact ((binary64.finite_iff y).1 hy).2⟩
  have e2 : binary64.hle (FPBits.abs binary64 y) 0x4090000000000000 = true := by
    rw [CC.hle_finite binary64 fm c1024.1, FPBits.abs_eq, CC.val_mag, c1024.2, hyn]
    have : ((|n| : ℤ) : ℝ) ≤ (1024 : ℤ) := by exact_mod_cast hn1
    simpa using this
  have e3 : FPBits.isNormal binary64 b = true := by
    unfold FPBits.isNormal
    rw [FPBits.isFinite_eq, FPBits.isSubnormal_eq]; simp [((binary64.finite_iff b).1 hb).2, hb1]
  have hab : n.natAbs ≤ 1024 := by rw [Int.abs_eq_natAbs] at hn1; omega
  obtain ⟨sp, h1, h2⟩ := ipow_spec m (n := n.natAbs) (SPow.load m hb b0 hb1) b0 (by omega)
  obtain ⟨k1, k2⟩ := path_end m h2 (pow_pos b0 _) (by omega) sign
  unfold CC.powIntPath
  rw [e1, e2, e3, truncInt_int hyn]
  simp only [Bool.and_true, if_true, h1, Option.bind_eq_bind, Option.bind_some, Option.pure_def]
  rcases lt_or_ge n 0 with hneg | hpos
  · have hz : binary64.val b ^ n = (binary64.val b ^ n.natAbs)⁻¹ := by
      rw [← zpow_natCast, ← zpow_neg]; congr 1; omega
    rw [hz] at X1 X2 ⊢
    obtain ⟨q, w, g1, g2, g3, g6, g4, g5⟩ := k2 X1 X2
    obtain ⟨n1, n2, n3, -⟩ := normal_flags g2 g5
    refine ⟨_, w, ?_, g2, g3, g4, sp, rfl, fun h => absurd h (not_le.2 hneg), fun _ => g6⟩
    simp only [if_pos hneg, g1, Option.bind_some, n1, n2, n3, Bool.not_false, Bool.and_true, if_true]
  · have hz : binary64.val b ^ n = binary64.val b ^ n.natAbs := by
      rw [← zpow_natCast]; congr 1; omega
    rw [hz] at X1 X2 ⊢
    obtain ⟨w, g2, g3, g6, g4, g5⟩ := k1 X1 X2
    obtain ⟨n1, n2, n3, -⟩ := normal_flags g2 g5
    refine ⟨_, w, ?_, g2, g3, g4, sp, rfl, fun _ => g6, fun h => absurd h (not_lt.2 hpos)⟩
    simp only [if_neg (not_lt.2 hpos), n1, n2, n3, Bool.not_false, Bool.and_true, if_true, Bool.false_eq_true, if_false]

end Verif
