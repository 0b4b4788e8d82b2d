import Verif.Lemmas.LogF3

/-!
# Exact cases of the base-2 logarithms; the factor of the base-10 logarithms
-/

namespace Verif
open Fmt Real

/-- a double within `2^-56` of an integer of magnitude at least 1 is that integer -/
theorem near_int {b : ℕ} {k : ℤ} (hk : k ≠ 0) (h : |binary64.val b - k| ≤ 1 / 2 ^ 56) : binary64.val b = k := by
  have hk1 : (1 : ℝ) ≤ |(k : ℝ)| := by rw [← Int.cast_abs]; exact_mod_cast Int.one_le_abs hk
  have h1 : 1 / 2 < |binary64.val b| := by
    have := abs_near (show |(k : ℝ) - binary64.val b| ≤ 1 / 2 ^ 56 by rw [abs_sub_comm]; exact h) (le_refl _)
    have c : (1 : ℝ) / 2 ^ 56 < 1 / 2 := by norm_num
    linarith
  have hlt := binary64.abs_val_lt_ce b
  have hce : -53 ≤ binary64.ce b := by
    by_contra hc
    have h2 : (2 : ℝ) ^ (binary64.ce b + (binary64.F : ℤ) + 1) ≤ 2 ^ (-1 : ℤ) := two_zpow_le (by have : binary64.F = 52 := rfl
                                                                                                 rw [this]; push_cast; omega)
    have e : (2 : ℝ) ^ (-1 : ℤ) = 1 / 2 := by norm_num
    rw [e] at h2
    exact absurd (h1.trans (hlt.trans_le h2)) (lt_irrefl _)
  obtain ⟨m, hm⟩ := ((binary64.mult_ce b).weaken hce).sub (show Mult (-53) (k : ℝ) from ⟨k * 2 ^ 53, by push_cast; norm_num; ring⟩)
  rw [hm, abs_mul, abs_of_pos (show (0 : ℝ) < 2 ^ (-53 : ℤ) by positivity)] at h
  have h3 : |(m : ℝ)| < 1 := by
    have e : (2 : ℝ) ^ (-53 : ℤ) = 1 / 2 ^ 53 := by norm_num
    rw [e] at h
    norm_num at h ⊢; linarith
  have : m = 0 := by
    rw [← Int.cast_abs] at h3
    exact Int.abs_lt_one_iff.1 (by exact_mod_cast h3)
  rw [this] at hm
  simp at hm
  linarith

theorem log2DoubleImpl_pow2 {x : ℕ} {k : ℤ} (hx : binary64.Finite x) (h : binary64.val x = (2 : ℝ) ^ k) :
    binary64.Finite (CC.log2DoubleImpl .nearest x) ∧ binary64.val (CC.log2DoubleImpl .nearest x) = k := by
  have hpos : 0 < binary64.val x := by rw [h]; positivity
  have hL : logb 2 (binary64.val x) = k := by rw [h, ← Real.rpow_intCast, Real.logb_rpow (by norm_num) (by norm_num)]
  have main := log2DoubleImpl_err .nearest hx hpos
  refine ⟨main.1, ?_⟩
  rw [hL] at main
  by_cases hk : k = 0
  · rw [hk] at main ⊢; have := main.2; simp at this; simpa using this
  refine near_int hk ?_
  have hk1 : (1 : ℝ) ≤ |(k : ℝ)| := by rw [← Int.cast_abs]; exact_mod_cast Int.one_le_abs hk
  -- the table branch is taken
  obtain ⟨hx0, hx1⟩ := pos_pat64 hx hpos
  have hb : ((x + 2 ^ 64 - 0x3FEEA4AF00000000) % 2 ^ 64 < 0x3FF0B55900000000 - 0x3FEEA4AF00000000) ↔ (0x3FEEA4AF00000000 ≤ x ∧ x < 0x3FF0B55900000000) := by omega
  have hn : ¬(0x3FEEA4AF00000000 ≤ x ∧ x < 0x3FF0B55900000000) := by
    rintro ⟨g1, g2⟩
    have a1 := pat_le g1 (by omega)
    have a2 := pat_le g2.le (by norm_num)
    rw [(pat64 (P := 0x3FEEA4AF00000000) (by norm_num) (by norm_num)).2, h] at a1
    rw [(pat64 (P := 0x3FF0B55900000000) (by norm_num) (by norm_num)).2, h] at a2
    norm_num at a1 a2
    rcases lt_or_gt_of_ne hk with h0 | h0
    · have : (2 : ℝ) ^ k ≤ 2 ^ (-1 : ℤ) := two_zpow_le (by omega)
      norm_num at this; linarith
    · have : (2 : ℝ) ^ (1 : ℤ) ≤ 2 ^ k := two_zpow_le (by omega)
      norm_num at this; linarith
  have hS := log2Main_err .nearest hx hpos (by rw [hL]; exact le_trans (by norm_num) hk1)
  obtain ⟨fm, -, zs, s, hs1, hs2⟩ := hS
  rw [hL] at hs2
  unfold CC.log2DoubleImpl
  rw [if_neg (fun h => hn (hb.1 h))]
  have near := RoundsTo.isNearest hs1 fm
  have hk2 : |k| ≤ 2 ^ 53 := by
    have e := ((binary64.finite_iff x).1 hx).1
    have hu : |(k : ℝ)| ≤ 2000 := by
      have h1 : binary64.val x ≤ (2 : ℝ) ^ (1024 : ℤ) := (le_abs_self _).trans ((binary64.abs_val_lt_ce x).le.trans (two_zpow_le (by
        have := binary64.ce_le_max hx
        have e : (binary64.bias : ℤ) - binary64.F = 971 := by decide +kernel
        have e2 : (binary64.F : ℤ) = 52 := rfl
        omega)))
      have h2 : (2 : ℝ) ^ (-1074 : ℤ) ≤ binary64.val x := by
        have := (pat_le (show 1 ≤ x by omega) (by omega))
        rwa [show binary64.val 1 = (2 : ℝ) ^ (-1074 : ℤ) from ?_] at this
        have := binary64.val_pack false (n := 1) (by norm_num [binary64])
        rw [pack_false] at this
        rw [this, binary64.minSub_eq_zpow, show binary64.umag 1 = 1 from by decide +kernel, show binary64.emin = -1074 from by decide +kernel]
        simp [sg]
      rw [h] at h1 h2
      have g1 : k ≤ 1024 := (zpow_le_zpow_iff_right₀ (by norm_num)).1 h1
      have g2 : -1074 ≤ k := (zpow_le_zpow_iff_right₀ (by norm_num)).1 h2
      rw [abs_le]; constructor
      · exact_mod_cast (show (-2000 : ℤ) ≤ k by omega)
      · exact_mod_cast (show k ≤ 2000 by omega)
    have : |k| ≤ 2000 := by exact_mod_cast hu
    omega
  obtain ⟨fk, vk⟩ := ofInt_ex64 .nearest hk2
  have nk := near.2 _ fk
  rw [vk] at nk
  have e1 : |(k : ℝ) - s| ≤ 1 / 2 ^ 57 := by
    rw [abs_sub_comm]; refine hs2.trans ?_
    rw [show ru .nearest = 1 / 2 ^ 53 from by simp [ru]]; norm_num
  refine (abs_tri (nk.trans e1) ((abs_sub_comm _ _).trans_le e1)).trans (by norm_num)

theorem log2_k0 {j : ℤ} {Z : ℝ} (h : (2 : ℝ) ^ j = Z / 2 ^ 24) (lo : 11730944 ≤ Z) (hi : Z ≤ 23461888) : j = 0 := by
  rcases lt_trichotomy j 0 with g | g | g
  · exfalso
    have := two_zpow_le (show j ≤ -1 by omega)
    rw [h, div_le_iff₀ (by positivity)] at this
    norm_num at this; linarith
  · exact g
  · exfalso
    have := two_zpow_le (show 1 ≤ j by omega)
    rw [h, le_div_iff₀ (by positivity)] at this
    norm_num at this; linarith

theorem log2FloatImpl_pow2 (md : Mode) {x : ℕ} {k : ℤ} (hx : binary32.Finite x) (h : binary32.val x = (2 : ℝ) ^ k) :
    binary32.Finite (CC.log2FloatImpl md x) ∧ binary32.val (CC.log2FloatImpl md x) = k := by
  have hpos : 0 < binary32.val x := by rw [h]; positivity
  by_cases hx1 : x = 0x3f800000
  · have e1 : binary32.val 0x3f800000 = 1 := by
      rw [zint_val (by norm_num) (by norm_num), show zint 0x3f800000 = 2 ^ 24 from by decide +kernel]; norm_num
    have e0 : binary32.val 0 = 0 := (binary32.val_eq_zero_iff _).2 (by decide +kernel)
    rw [hx1, e1] at h
    have hk : k = 0 := by
      have : (2 : ℝ) ^ (0 : ℤ) = 2 ^ k := by simpa using h
      exact (zpow_right_injective₀ (by norm_num) (by norm_num) this).symm
    rw [hx1, hk, show CC.log2FloatImpl md 0x3f800000 = 0 from by unfold CC.log2FloatImpl; simp, e0]
    exact ⟨by decide +kernel, by simp⟩
  obtain ⟨k', d, hd, hk1, hk2, hr, hzf, hxz, -⟩ := red32 md hx hpos
  dsimp only at hr
  obtain ⟨hr1, hr3, hr4⟩ := hr
  rw [log2FloatImpl_norm md hx hpos hx1]
  unfold CC.log2Mainf
  dsimp only
  rw [hr1, hr3, hr4]
  clear hr1 hr3 hr4
  -- the significand is 1
  have hzv := zint_val (P := 0x3f330000 + d) (by omega) (by omega)
  have hz : binary32.val (0x3f330000 + d) = (2 : ℝ) ^ (k - k') := by
    rw [hxz] at h
    rw [zpow_sub₀ (by norm_num), ← h, mul_div_assoc, div_self (by positivity), mul_one]
  have lo : zint 0x3f330000 ≤ zint (0x3f330000 + d) := zint_mono (by omega) (by norm_num) (by omega)
  have hi : zint (0x3f330000 + d) ≤ zint (0x3f330000 + 2 ^ 23) := zint_mono (by omega) (by omega) (by norm_num)
  rw [show zint 0x3f330000 = 11730944 from by decide +kernel] at lo
  rw [show zint (0x3f330000 + 2 ^ 23) = 23461888 from by decide +kernel] at hi
  have lo' : (11730944 : ℝ) ≤ zint (0x3f330000 + d) := by exact_mod_cast lo
  have hi' : (zint (0x3f330000 + d) : ℝ) ≤ 23461888 := by exact_mod_cast hi
  have hkk : k - k' = 0 := by
    exact log2_k0 (by rw [← hz, hzv]) lo' hi'
  have hz1 : binary32.val (0x3f330000 + d) = 1 := by rw [hz, hkk, zpow_zero]
  have hn : zint (0x3f330000 + d) = 2 ^ 24 := by
    rw [hzv, div_eq_one_iff_eq (by positivity)] at hz1; exact_mod_cast hz1
  have hd9 : d / 2 ^ 19 = 9 := by
    unfold zint at hn
    have : (0x3f330000 + d) / 2 ^ 23 = 126 ∨ (0x3f330000 + d) / 2 ^ 23 = 127 := by omega
    rcases this with g | g <;> rw [g] at hn <;> norm_num at hn <;> omega
  rw [hd9, show CC.log2Invcf.getD 9 0 = 0x3FF0000000000000 from by decide +kernel, show CC.log2Logcf.getD 9 0 = 0 from by decide +kernel]
  obtain ⟨fz, vz⟩ := cvt_up md hzf
  rw [hz1] at vz
  generalize binary64.hcvt binary32 md (0x3f330000 + d) = z at *
  have ek : k' = k := by omega
  subst ek
  obtain ⟨fk, vk⟩ := ofInt_ex64 md (z := k') (by rw [abs_le]; constructor <;> omega)
  have hkr : |(k' : ℝ)| ≤ 160 := by rw [abs_le]; constructor <;> [(have : (-160 : ℤ) ≤ k' := by omega); skip] <;> exact_mod_cast by omega
  generalize binary64.ofInt md k' = kd at *
  clear hzv hz lo hi lo' hi' hkk hz1 hn hzf hxz
  obtain ⟨f1, v1⟩ := fval_one64
  obtain ⟨fm, vm⟩ := ex64 0 (hmul_spec binary64 md fz f1) (by rw [vz, v1]; exact ⟨1, by simp⟩) (by norm_num) (by rw [vz, v1]; norm_num) (by rw [vz, v1]; norm_num)
  rw [vz, v1, mul_one] at vm
  have z0 : ∀ {zs : Bool} {v : ℝ} {b : ℕ}, binary64.RoundsTo md zs v b → v = 0 → binary64.Finite b ∧ binary64.val b = 0 := by
    intro zs v b R hv
    have := ex64 0 R (by rw [hv]; exact ⟨0, by simp⟩) (by norm_num) (by rw [hv]; norm_num) (by rw [hv]; norm_num)
    exact ⟨this.1, this.2.trans hv⟩
  have kk : ∀ {zs : Bool} {v : ℝ} {b : ℕ}, binary64.RoundsTo md zs v b → v = k' → binary64.Finite b ∧ binary64.val b = k' := by
    intro zs v b R hv
    have := ex64 0 R (by rw [hv]; exact ⟨k', by simp⟩) (by norm_num) (by rw [hv]; exact hkr.trans (by norm_num)) (by rw [hv]; exact hkr.trans (by norm_num))
    exact ⟨this.1, this.2.trans hv⟩
  have f00 : binary64.Finite 0 := by decide +kernel
  have v00 : binary64.val 0 = 0 := (binary64.val_eq_zero_iff _).2 (by decide +kernel)
  obtain ⟨fr, vr⟩ := z0 (hsub_spec binary64 md fm f1) (by rw [vm, v1]; norm_num)
  generalize binary64.hsub md (binary64.hmul md z 0x3FF0000000000000) 0x3FF0000000000000 = r at *
  obtain ⟨fr2, vr2⟩ := z0 (hmul_spec binary64 md fr fr) (by rw [vr]; norm_num)
  generalize binary64.hmul md r r = r2 at *
  obtain ⟨fy0, vy0⟩ := kk (hadd_spec binary64 md f00 fk) (by rw [v00, vk]; ring)
  obtain ⟨g1, w1⟩ := z0 (hmul_spec binary64 md val_log2Af1.1 fr) (by rw [vr]; ring)
  obtain ⟨g2, w2⟩ := err64 (hadd_spec binary64 md g1 val_log2Af2.1) (by rw [w1, val_log2Af2.2, abs_le]; constructor <;> norm_num)
  obtain ⟨g3, w3⟩ := z0 (hmul_spec binary64 md val_log2Af0.1 fr2) (by rw [vr2]; ring)
  have hb : |binary64.val (binary64.hadd md (binary64.hmul md CC.log2Af1 r) CC.log2Af2)| ≤ 2 := by
    have a : |(-3248660917613039 / 2 ^ 52 : ℝ)| ≤ 1 := by rw [abs_le]; constructor <;> norm_num
    rw [w1, val_log2Af2.2, zero_add] at w2
    refine (abs_near w2 a).trans ?_
    have b := mul_le_mul (ru_le md) a (abs_nonneg _) (by norm_num)
    have c := eta_le
    norm_num at b c ⊢
    linarith
  obtain ⟨g4, -⟩ := err64 (hadd_spec binary64 md g3 g2) (by rw [w3, zero_add]; exact hb.trans (by norm_num))
  obtain ⟨g5, w5⟩ := z0 (hmul_spec binary64 md g4 fr2) (by rw [vr2]; ring)
  obtain ⟨g6, w6⟩ := z0 (hmul_spec binary64 md val_log2Af3.1 fr) (by rw [vr]; ring)
  obtain ⟨g7, w7⟩ := kk (hadd_spec binary64 md g6 fy0) (by rw [w6, vy0]; ring)
  obtain ⟨g8, w8⟩ := kk (hadd_spec binary64 md g5 g7) (by rw [w5, w7]; ring)
  have R := CC.hcvt_spec binary32 binary64 md g8
  rw [w8] at R
  exact ex32 0 R ⟨k', by simp⟩ (by norm_num) (hkr.trans (by norm_num)) (hkr.trans (by norm_num))

end Verif
