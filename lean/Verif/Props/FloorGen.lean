import Verif.Model.FloorGen
import Verif.Props.Nearest
import Verif.Lemmas.FErr32

/-!
# Properties of the loop version of floor (C97)
-/

namespace Verif
open Fmt

namespace CC

theorem loop_more (c : ℕ → Bool) (st : ℕ → ℕ) : ∀ (n k r a : ℕ), loop c st n r = some a → loop c st (n + k) r = some a
  | 0, k, r, a, h => by simp [loop] at h
  | n + 1, k, r, a, h => by
    rw [Nat.add_right_comm]
    unfold loop at h ⊢
    split_ifs at h ⊢ with hc
    · exact loop_more c st n k _ a h
    · exact h

theorem loop_stuck (c : ℕ → Bool) (st : ℕ → ℕ) {r : ℕ} (h1 : c r = true) (h2 : st r = r) : ∀ n, loop c st n r = none
  | 0 => rfl
  | n + 1 => by unfold loop; rw [if_pos h1, h2]; exact loop_stuck c st h1 h2 n

theorem loop_inv (c : ℕ → Bool) (st : ℕ → ℕ) (P : ℕ → Prop) (hP : ∀ r, P r → c r = true → P (st r)) :
    ∀ (n r a : ℕ), P r → loop c st n r = some a → P a ∧ c a = false
  | 0, r, a, _, h => by simp [loop] at h
  | n + 1, r, a, hr, h => by
    unfold loop at h
    split_ifs at h with hc
    · exact loop_inv c st P hP n _ a (hP r hr hc) h
    · rw [Option.some.injEq] at h
      rw [← h]
      exact ⟨hr, by simpa using hc⟩

theorem loop_ends (c : ℕ → Bool) (st : ℕ → ℕ) (P : ℕ → ℕ → Prop) (hP : ∀ k r, P k r → c r = true → ∃ j, j < k ∧ P j (st r)) :
    ∀ (k r : ℕ), P k r → ∃ n a j, loop c st n r = some a ∧ P j a ∧ c a = false := by
  intro k
  induction k using Nat.strong_induction_on with
  | _ k ih =>
    intro r hr
    by_cases hc : c r = true
    · obtain ⟨j, hj, hs⟩ := hP k r hr hc
      obtain ⟨n, a, i, h1, h2⟩ := ih j hj _ hs
      exact ⟨n + 1, a, i, by unfold loop; rw [if_pos hc]; exact h1, h2⟩
    · exact ⟨1, r, k, by unfold loop; rw [if_neg hc], hr, by simpa using hc⟩

end CC

variable (f : Fmt)

/-- integers up to `2^(F+1)` are exact -/
theorem int_exact (hw : f.Wide) {m : Mode} {zs : Bool} {b : ℕ} {z : ℤ} (R : f.RoundsTo m zs (z : ℝ) b) (h : |z| ≤ 2 ^ (f.F + 1)) (hF : f.F + 1 ≤ f.bias) :
    f.Finite b ∧ f.val b = z := by
  have h' : |(z : ℝ)| ≤ 2 ^ (f.F + 1) := by exact_mod_cast h
  refine RoundsTo.exact_of R (f.rep (g := 0) ⟨z, by simp⟩ ?_ ?_ ?_)
  · unfold emin; have := hw.1; omega
  · rw [zero_add, show ((f.F : ℤ) + 1) = ((f.F + 1 : ℕ) : ℤ) by push_cast; ring, zpow_natCast]; exact h'
  · refine lt_of_le_of_lt h' ?_
    rw [← zpow_natCast]
    exact zpow_lt_zpow_right₀ (by norm_num) (by push_cast; omega)

theorem dbl_exact {md : Mode} {r : ℕ} {s : Bool} {k : ℕ} (hr : f.Finite r) (hv : f.val r = sg s * 2 ^ k) (hk : k + 1 ≤ f.bias) :
    f.Finite (f.hmul md r (CC.pow2 f false 1)) ∧ f.val (f.hmul md r (CC.pow2 f false 1)) = sg s * 2 ^ (k + 1) := by
  have hb := f.bias_pos
  obtain ⟨f2, v2⟩ := pow2_spec f false (k := 1) (by omega) (by omega)
  have R := f.hmul_spec md hr f2
  rw [hv, v2, sg_false, one_mul, zpow_one, show sg s * 2 ^ k * 2 = sg s * 2 ^ (k + 1) by ring] at R
  refine RoundsTo.exact_of R ⟨CC.pow2 f s ((k : ℤ) + 1), ?_⟩
  obtain ⟨f3, v3⟩ := pow2_spec f s (k := (k : ℤ) + 1) (by omega) (by omega)
  refine ⟨f3, v3.trans ?_⟩
  rw [show (k : ℤ) + 1 = ((k + 1 : ℕ) : ℤ) by push_cast; ring, zpow_natCast]

theorem floorPos_spec (hw : f.Wide) (hF : f.F + 1 ≤ f.bias) (md : Mode) {x : ℕ} (hx : f.Finite x) (h0 : 0 < f.val x) :
    ∃ n r, CC.floorPos f n md x = some r ∧ f.Finite r ∧ (f.val r = ⌊f.val x⌋ ∨ (r = x ∧ 2 ^ f.F ≤ f.val x)) := by
  obtain ⟨fc, vc⟩ := pow2_spec f false (k := f.F) (by omega) (by omega)
  rw [sg_false, one_mul, zpow_natCast] at vc
  have f1 := CC.finite_one f false
  have v1 := CC.val_one f false
  rw [sg_false] at v1
  unfold CC.floorPos
  by_cases c1 : f.hge x (CC.pow2 f false f.F) = true
  · refine ⟨0, x, by rw [if_pos c1], hx, Or.inr ⟨rfl, ?_⟩⟩
    rw [← vc]; exact (CC.hle_finite f fc hx).1 c1
  simp only [if_neg c1]
  have c1' : f.val x < 2 ^ f.F := by
    rw [← vc]; by_contra h; exact c1 ((CC.hle_finite f fc hx).2 (not_lt.1 h))
  by_cases c2 : f.heq (CC.oneLit f false) x = true
  · refine ⟨0, x, by rw [if_pos c2], hx, Or.inl ?_⟩
    rw [CC.heq_finite f f1 hx, v1] at c2
    rw [← c2]; simp
  simp only [if_neg c2]
  -- doubling
  obtain ⟨n1, r1, j1, e1, ⟨k1, g1, w1, l1⟩, d1⟩ := CC.loop_ends (fun r => f.hlt r x) (fun r => f.hmul md r (CC.pow2 f false 1))
    (fun j r => ∃ k : ℕ, f.Finite r ∧ f.val r = 2 ^ k ∧ k + j = f.F) (by
      rintro j r ⟨k, fr, vr, hk⟩ hc
      replace hc := (CC.hlt_finite f fr hx).1 hc
      rw [vr] at hc
      have hlt : k < f.F := (pow_lt_pow_iff_right₀ (by norm_num : (1 : ℝ) < 2)).1 (lt_trans hc c1')
      obtain ⟨a, b⟩ := dbl_exact f (md := md) (s := false) (k := k) fr (by rw [vr, sg_false, one_mul]) (by omega)
      rw [sg_false, one_mul] at b
      exact ⟨j - 1, by omega, k + 1, a, b, by omega⟩) f.F (CC.oneLit f false) ⟨0, f1, by rw [v1, pow_zero], by omega⟩
  replace d1 : f.val x ≤ 2 ^ k1 := by
    rw [← w1]; by_contra h
    rw [(CC.hlt_finite f g1 hx).2 (not_le.1 h)] at d1
    exact Bool.noConfusion d1
  -- stepping down
  obtain ⟨n2, r2, j2, e2, ⟨z2, g2, w2, l2, l2'⟩, d2⟩ := CC.loop_ends (fun r => f.hgt r x) (fun r => f.hsub md r (CC.oneLit f false))
    (fun j r => ∃ z : ℤ, f.Finite r ∧ f.val r = z ∧ z = ⌊f.val x⌋ + j ∧ z ≤ 2 ^ (f.F + 1)) (by
      rintro j r ⟨z, fr, vr, hz, hz2⟩ hc
      replace hc := (CC.hlt_finite f hx fr).1 hc
      rw [vr] at hc
      have hfl := Int.floor_lt.2 hc
      have hnn : 0 ≤ ⌊f.val x⌋ := Int.floor_nonneg.2 h0.le
      have R := f.hsub_spec md fr f1
      rw [vr, v1, show (z : ℝ) - 1 = ((z - 1 : ℤ) : ℝ) by push_cast; ring] at R
      obtain ⟨a, b⟩ := int_exact f hw R (by rw [abs_of_nonneg (by omega)]; omega) hF
      exact ⟨j - 1, by omega, z - 1, a, b, by omega, by omega⟩) (2 ^ k1 - ⌊f.val x⌋).toNat r1 ⟨2 ^ k1, g1, by rw [w1]; push_cast; rfl, by
        have : ⌊f.val x⌋ ≤ 2 ^ k1 := by
          have : (⌊f.val x⌋ : ℝ) ≤ ((2 ^ k1 : ℤ) : ℝ) := le_trans (Int.floor_le _) (by push_cast; exact d1)
          exact_mod_cast this
        rw [Int.toNat_of_nonneg (by omega)]; ring, pow_le_pow_right₀ (by norm_num) (by omega)⟩
  replace d2 : f.val r2 ≤ f.val x := by
    by_contra h
    have h3 : f.hgt r2 x = true := (CC.hlt_finite f hx g2).2 (not_le.1 h)
    rw [h3] at d2
    exact Bool.noConfusion d2
  refine ⟨n1 + n2, r2, ?_, g2, Or.inl ?_⟩
  · rw [CC.loop_more _ _ n1 n2 _ _ e1, Option.bind_some, Nat.add_comm]
    exact CC.loop_more _ _ n2 n1 _ _ e2
  · rw [w2] at d2 ⊢
    have := Int.le_floor.2 d2
    have h : z2 = ⌊f.val x⌋ := by omega
    rw [h]

theorem floorNeg_spec (hw : f.Wide) (hF : f.F + 1 ≤ f.bias) (md : Mode) {x : ℕ} (hx : f.Finite x) (h0 : f.val x < 0) (hb : -2 ^ (f.F + 1) ≤ f.val x) :
    ∃ n r, CC.floorNeg f n md x = some r ∧ f.Finite r ∧ f.val r = ⌊f.val x⌋ := by
  have f1 := CC.finite_one f false
  have v1 := CC.val_one f false
  rw [sg_false] at v1
  have fm := CC.finite_one f true
  have vm := CC.val_one f true
  rw [sg_true] at vm
  unfold CC.floorNeg
  dsimp only
  by_cases c1 : f.hgt (CC.oneLit f true) x = true
  · simp only [if_pos c1]
    obtain ⟨n1, r1, j1, e1, ⟨k1, g1, w1, l1⟩, d1⟩ := CC.loop_ends (fun r => f.hgt r x) (fun r => f.hmul md r (CC.pow2 f false 1))
      (fun j r => ∃ k : ℕ, f.Finite r ∧ f.val r = -2 ^ k ∧ k + j = f.F + 1) (by
        rintro j r ⟨k, fr, vr, hk⟩ hc
        replace hc := (CC.hlt_finite f hx fr).1 hc
        rw [vr] at hc
        have hlt : k < f.F + 1 := (pow_lt_pow_iff_right₀ (by norm_num : (1 : ℝ) < 2)).1 (by linarith)
        obtain ⟨a, b⟩ := dbl_exact f (md := md) (s := true) (k := k) fr (by rw [vr, sg_true, neg_one_mul]) (by omega)
        rw [sg_true, neg_one_mul] at b
        exact ⟨j - 1, by omega, k + 1, a, b, by omega⟩) (f.F + 1) (CC.oneLit f true) ⟨0, fm, by rw [vm, pow_zero], by omega⟩
    replace d1 : -2 ^ k1 ≤ f.val x := by
      rw [← w1]; by_contra h
      have h3 : f.hgt r1 x = true := (CC.hlt_finite f hx g1).2 (not_le.1 h)
      rw [h3] at d1
      exact Bool.noConfusion d1
    have hup : ⌈f.val x⌉ ≤ 0 := Int.ceil_le.2 (by push_cast; exact h0.le)
    obtain ⟨n2, r2, j2, e2, ⟨z2, g2, w2, l2, l2'⟩, d2⟩ := CC.loop_ends (fun r => f.hlt r x) (fun r => f.hadd md r (CC.oneLit f false))
      (fun j r => ∃ z : ℤ, f.Finite r ∧ f.val r = z ∧ z + j = ⌈f.val x⌉ ∧ -2 ^ (f.F + 1) ≤ z) (by
        rintro j r ⟨z, fr, vr, hz, hz2⟩ hc
        replace hc := (CC.hlt_finite f fr hx).1 hc
        rw [vr] at hc
        have hfl := Int.lt_ceil.2 hc
        have R := f.hadd_spec md fr f1
        rw [vr, v1, show (z : ℝ) + 1 = ((z + 1 : ℤ) : ℝ) by push_cast; ring] at R
        obtain ⟨a, b⟩ := int_exact f hw R (by rw [abs_of_nonpos (by omega)]; omega) hF
        exact ⟨j - 1, by omega, z + 1, a, b, by omega, by omega⟩) (⌈f.val x⌉ + 2 ^ k1).toNat r1 ⟨-2 ^ k1, g1, by rw [w1]; push_cast; rfl, by
          have : -2 ^ k1 ≤ ⌈f.val x⌉ := by
            have : ((-2 ^ k1 : ℤ) : ℝ) ≤ (⌈f.val x⌉ : ℝ) := le_trans (by push_cast; exact d1) (Int.le_ceil _)
            exact_mod_cast this
          rw [Int.toNat_of_nonneg (by omega)]; ring, neg_le_neg (pow_le_pow_right₀ (by norm_num) (by omega))⟩
    replace d2 : f.val x ≤ f.val r2 := by
      by_contra h
      have h3 : f.hlt r2 x = true := (CC.hlt_finite f g2 hx).2 (not_le.1 h)
      rw [h3] at d2
      exact Bool.noConfusion d2
    rw [w2] at d2
    have hz : z2 = ⌈f.val x⌉ := le_antisymm (by omega) (Int.ceil_le.2 d2)
    have e1' := CC.loop_more _ _ n1 n2 _ _ e1
    have e2' := CC.loop_more _ _ n2 n1 _ _ e2
    rw [Nat.add_comm] at e2'
    by_cases c2 : f.heq r2 x = true
    · refine ⟨n1 + n2, r2, ?_, g2, ?_⟩
      · rw [e1', Option.bind_some, e2', Option.map_some, if_pos c2]
      · rw [CC.heq_finite f g2 hx] at c2
        rw [← c2, w2]; simp
    · refine ⟨n1 + n2, f.hsub md r2 (CC.oneLit f false), ?_, ?_⟩
      · rw [e1', Option.bind_some, e2', Option.map_some, if_neg c2]
      · rw [CC.heq_finite f g2 hx, w2] at c2
        have hlt : f.val x < z2 := lt_of_le_of_ne d2 (Ne.symm c2)
        have hfl : ⌊f.val x⌋ = z2 - 1 := by
          rw [Int.floor_eq_iff]
          have := Int.ceil_lt_add_one (f.val x)
          rw [← hz] at this
          push_cast
          constructor <;> linarith
        have hge : -2 ^ (f.F + 1) ≤ ⌊f.val x⌋ := Int.le_floor.2 (by push_cast; exact hb)
        have R := f.hsub_spec md g2 f1
        rw [w2, v1, show (z2 : ℝ) - 1 = ((⌊f.val x⌋ : ℤ) : ℝ) by rw [hfl]; push_cast; ring] at R
        exact int_exact f hw R (by rw [abs_of_nonpos (by omega)]; omega) hF
  · refine ⟨0, CC.oneLit f true, by rw [if_neg c1], fm, ?_⟩
    have : -1 ≤ f.val x := by
      by_contra h
      exact c1 ((CC.hlt_finite f hx fm).2 (by rw [vm]; exact not_le.1 h))
    rw [vm, show (⌊f.val x⌋ : ℤ) = -1 from Int.floor_eq_iff.2 ⟨by push_cast; exact this, by push_cast; linarith⟩]
    norm_num

/-- **C97.** The loop version of `floor` ends with the greatest integer not above `x`, for every finite `x` not below `-2^(F+1)` (`2^53` for double, `2^24` for float), in every rounding
mode.  Below that bound it need not end, see `C97_floor_gen_diverges`. -/
theorem C97_floor_gen_partial (hw : f.Wide) (hF : f.F + 1 ≤ f.bias) (md : Mode) {x : ℕ} (hx : f.Finite x) (hb : -2 ^ (f.F + 1) ≤ f.val x) :
    ∃ n r, CC.floorGen f n md x = some r ∧ f.Finite r ∧ f.val r = ⌊f.val x⌋ := by
  obtain ⟨hn, hi⟩ := f.finite_B hx
  have fz : f.Finite (f.zero false) := f.finite_zero false
  have vz : f.val (f.zero false) = 0 := f.val_zero false
  unfold CC.floorGen
  rw [CC.isinf_eq, CC.isnan_eq, hn, hi, Bool.false_or, Bool.or_false]
  by_cases c0 : f.heq x (f.zero false) = true
  · refine ⟨0, x, by rw [if_pos c0], hx, ?_⟩
    rw [CC.heq_finite f hx fz, vz] at c0
    rw [c0]; simp
  simp only [if_neg c0]
  by_cases c1 : f.hgt x (f.zero false) = true
  · simp only [if_pos c1]
    have h0 : 0 < f.val x := by have := (CC.hlt_finite f fz hx).1 c1; rwa [vz] at this
    obtain ⟨n, r, e, fr, h | ⟨rfl, h⟩⟩ := floorPos_spec f hw hF md hx h0
    · exact ⟨n, r, e, fr, h⟩
    · refine ⟨n, r, e, fr, ?_⟩
      -- from `2^F` on every number of the format is an integer
      have hm := f.mult_ce r
      have hc : 0 ≤ f.ce r := by
        by_contra hc
        have h1 := f.abs_val_lt_ce r
        rw [abs_of_pos h0] at h1
        have h2 : (2 : ℝ) ^ (f.ce r + f.F + 1) ≤ (2 : ℝ) ^ (f.F : ℤ) := zpow_le_zpow_right₀ (by norm_num) (by omega)
        rw [zpow_natCast] at h2
        linarith
      obtain ⟨a, ha⟩ := hm.weaken hc
      rw [zpow_zero, mul_one] at ha
      rw [ha]; simp
  · simp only [if_neg c1]
    have h0 : f.val x < 0 := by
      have h1 : ¬ 0 < f.val x := fun h => c1 ((CC.hlt_finite f fz hx).2 (by rw [vz]; exact h))
      have h2 : f.val x ≠ 0 := fun h => c0 ((CC.heq_finite f hx fz).2 (by rw [vz]; exact h))
      exact lt_of_le_of_ne (not_lt.1 h1) h2
    exact floorNeg_spec f hw hF md hx h0 hb

example : binary64.Wide ∧ binary64.F + 1 ≤ binary64.bias ∧ CC.floorGen binary64 10 .nearest 0xC016000000000000 = some 0xC018000000000000 ∧
    CC.floorGen binary64 10 .up 0x4016000000000000 = some 0x4014000000000000 := ⟨binary64_wide, by decide, by decide +kernel, by decide +kernel⟩


/-- adding one to `-2^k`, `F+2 ≤ k`, changes nothing in round-to-nearest -/
theorem stuck_pow2 (hF1 : 1 ≤ f.F) {k : ℕ} (h1 : f.F + 2 ≤ k) (h2 : k ≤ f.bias) : f.hadd .nearest (CC.pow2 f true k) (CC.oneLit f false) = CC.pow2 f true k := by
  obtain ⟨fr, vr⟩ := pow2_spec f true (k := (k : ℤ)) (by have := f.bias_pos; omega) (by omega)
  rw [sg_true, neg_one_mul, zpow_natCast] at vr
  have f1 := CC.finite_one f false
  have v1 := CC.val_one f false
  rw [sg_false] at v1
  have R := f.hadd_spec .nearest fr f1
  rw [vr, v1] at R
  have hk4 : (4 : ℝ) ≤ 2 ^ k := by
    have := pow_le_pow_right₀ (show (1 : ℝ) ≤ 2 by norm_num) (show 2 ≤ k by omega)
    norm_num at this; exact this
  have hne : (-2 ^ k + 1 : ℝ) ≠ 0 := by linarith
  have hbk : (2 : ℝ) ^ k ≤ 2 ^ (f.bias : ℤ) := by rw [zpow_natCast]; exact pow_le_pow_right₀ (by norm_num) h2
  have ht : (2 : ℝ) ^ (-(f.F : ℤ) - 1) ≤ 1 := by
    have := zpow_le_zpow_right₀ (show (1 : ℝ) ≤ 2 by norm_num) (show -(f.F : ℤ) - 1 ≤ 0 by omega)
    rwa [zpow_zero] at this
  have hth : (2 : ℝ) ^ k ≤ (2 : ℝ) ^ (f.bias : ℤ) * (2 - (2 : ℝ) ^ (-(f.F : ℤ) - 1)) := by
    refine le_trans hbk (le_mul_of_one_le_right (zpow_nonneg (by norm_num) _) (by linarith))
  have key : ∀ c, f.Finite c → |f.val (CC.pow2 f true k) - (-2 ^ k + 1)| ≤ |f.val c - (-2 ^ k + 1)| := by
    intro c hc
    rw [vr, show (-2 ^ k - (-2 ^ k + 1) : ℝ) = -1 by ring, abs_neg, abs_one]
    by_contra hlt
    rw [not_le, abs_lt] at hlt
    have hneg : f.val c < 0 := by linarith
    have hce : 1 ≤ f.ce c := by
      by_contra hce
      have h3 := f.abs_val_lt_ce c
      rw [abs_of_neg hneg] at h3
      have h4 : (2 : ℝ) ^ (f.ce c + f.F + 1) ≤ (2 : ℝ) ^ ((k - 1 : ℕ) : ℤ) := zpow_le_zpow_right₀ (by norm_num) (by omega)
      rw [zpow_natCast] at h4
      have h5 : (2 : ℝ) ^ k = 2 * 2 ^ (k - 1) := by rw [← pow_succ']; congr 1; omega
      linarith
    have m1 := (f.mult_ce c).weaken hce
    have m2 : Mult 1 (-2 ^ k : ℝ) := by
      refine ⟨-2 ^ (k - 1), ?_⟩
      have h5 : (2 : ℝ) ^ k = 2 * 2 ^ (k - 1) := by rw [← pow_succ']; congr 1; omega
      rw [h5]; push_cast; ring
    have := m2.lt_imp m1 (by linarith)
    rw [zpow_one] at this
    linarith
  refine RoundsTo.unique f R ⟨fr.valid, ?_, ?_⟩
  · show (if _ then _ else _)
    rw [if_neg (by linarith), if_neg (by linarith)]
    refine ⟨fr, key, fun _ _ _ _ => ?_⟩
    unfold CC.pow2 Fmt.pack
    have e1 : 2 ∣ 2 ^ f.F := dvd_pow_self 2 (by omega)
    have e2 : 2 ∣ 2 ^ (f.E + f.F) := dvd_pow_self 2 (by omega)
    refine Nat.mod_eq_zero_of_dvd ?_
    rw [if_pos rfl]
    exact Dvd.dvd.add e2 (Dvd.dvd.mul_left e1 _)
  · rw [if_neg hne, decide_eq_true (show (-2 ^ k + 1 : ℝ) < 0 by linarith)]
    exact sgn_of_neg f (by rw [vr]; linarith)

/-- the bit pattern of `-2^k` (double); `k = 1024` is minus infinity -/
def negPowD (k : ℕ) : ℕ := 9223372036854775808 + (k + 1023) * 4503599627370496

theorem negPowD_eq (k : ℕ) : CC.pow2 binary64 true k = negPowD k := by
  unfold CC.pow2 negPowD Fmt.pack
  have e1 : binary64.E = 11 := rfl
  have e2 : binary64.F = 52 := rfl
  have e3 : binary64.bias = 1023 := rfl
  rw [e1, e2, e3]
  have : ((1023 : ℕ) : ℤ) + (k : ℤ) = ((k + 1023 : ℕ) : ℤ) := by push_cast; ring
  rw [this, Int.toNat_natCast]
  norm_num

theorem negPowD_val {k : ℕ} (hk : k ≤ 1023) : binary64.Finite (negPowD k) ∧ binary64.val (negPowD k) = -2 ^ k := by
  have hbias : (binary64.bias : ℤ) = 1023 := rfl
  obtain ⟨h1, h2⟩ := pow2_spec binary64 true (k := (k : ℤ)) (by omega) (by omega)
  rw [negPowD_eq] at h1 h2
  refine ⟨h1, h2.trans ?_⟩
  rw [sg_true, neg_one_mul, zpow_natCast]

theorem negPowD_tab (k : Fin 1024) : binary64.hmul .nearest (negPowD k) (CC.pow2 binary64 false 1) = negPowD (k + 1) := by
  obtain ⟨k, hk⟩ := k
  dsimp only
  rcases Nat.lt_or_ge k 1023 with h | h
  · obtain ⟨f1, v1⟩ := negPowD_val (k := k) (by omega)
    obtain ⟨f2, v2⟩ := negPowD_val (k := k + 1) (by omega)
    obtain ⟨f3, v3⟩ := dbl_exact binary64 (md := .nearest) (s := true) (k := k) f1 (by rw [v1, sg_true, neg_one_mul]) (show k + 1 ≤ 1023 by omega)
    rw [sg_true, neg_one_mul, ← v2] at v3
    have hn : binary64.val (negPowD (k + 1)) < 0 := by rw [v2]; exact neg_neg_of_pos (by positivity)
    exact binary64.eq_of_val_eq f3.valid f2.valid v3 (by rw [sgn_of_neg _ hn, sgn_of_neg _ (by rw [v3]; exact hn)])
  · have : k = 1023 := by omega
    subst this
    decide +kernel
theorem negPowD_stuck (k : Fin 971) : binary64.hadd .nearest (negPowD (k + 54)) (CC.oneLit binary64 false) = negPowD (k + 54) := by
  obtain ⟨k, hk⟩ := k
  dsimp only
  rcases Nat.lt_or_ge (k + 54) 1024 with h | h
  · rw [← negPowD_eq]
    exact stuck_pow2 binary64 (by decide) (show 52 + 2 ≤ k + 54 by omega) (show k + 54 ≤ 1023 by omega)
  · have : k = 970 := by omega
    subst this
    decide +kernel

theorem key_negPowD {x : ℕ} (hx : binary64.Finite x) : binary64.key (negPowD 1024) < binary64.key x := by
  have e : binary64.key (negPowD 1024) = -9218868437227405312 := by decide +kernel
  have h1 : binary64.mag x < 9218868437227405312 := ((binary64.finite_iff x).1 hx).2
  rw [e]
  unfold Fmt.key
  split_ifs <;> omega
theorem hlt_negInfD {x : ℕ} (hx : binary64.Finite x) : binary64.hlt x (negPowD 1024) = false := by
  have h := key_negPowD hx
  unfold Fmt.hlt
  rw [decide_eq_false (by omega)]
  simp
theorem negInf_hltD {x : ℕ} (hx : binary64.Finite x) : binary64.hlt (negPowD 1024) x = true := by
  have h := key_negPowD hx
  have e : binary64.nanB (negPowD 1024) = false := by decide +kernel
  unfold Fmt.hlt
  rw [(binary64.finite_B hx).1, e, decide_eq_true h]
  rfl

/-- **C97.** The loop version of `floor` for double does not end, in the default rounding mode and so in constant evaluation, for any finite number below `-2^53` that is not a power of
two: no amount of fuel suffices.  Such a number is an integer, and `floor` should return it. -/
theorem C97_floor_gen_diverges {x : ℕ} (hx : binary64.Finite x) (hb : binary64.val x < -2 ^ 53) (hp : ∀ k : ℕ, binary64.val x ≠ -2 ^ k) (n : ℕ) :
    CC.floorGen binary64 n .nearest x = none := by
  obtain ⟨hn, hi⟩ := binary64.finite_B hx
  have fz := binary64.finite_zero false
  have vz := binary64.val_zero false
  have fm := CC.finite_one binary64 true
  have vm := CC.val_one binary64 true
  rw [sg_true] at vm
  have hneg : binary64.val x < -1 := lt_trans hb (by norm_num)
  unfold CC.floorGen
  rw [CC.isinf_eq, CC.isnan_eq, hn, hi, Bool.false_or, Bool.or_false, if_neg (by rw [CC.heq_finite binary64 hx fz, vz]; linarith),
    if_neg (by intro h; have := (CC.hlt_finite binary64 fz hx).1 h; rw [vz] at this; linarith)]
  unfold CC.floorNeg
  dsimp only
  rw [if_pos (c := binary64.hgt (CC.oneLit binary64 true) x = true) ((CC.hlt_finite binary64 hx fm).2 (by rw [vm]; exact hneg))]
  cases e : CC.loop (fun r => binary64.hgt r x) (fun r => binary64.hmul .nearest r (CC.pow2 binary64 false 1)) n (CC.oneLit binary64 true) with
  | none => rfl
  | some r =>
    obtain ⟨⟨k, rfl, hk⟩, hc⟩ := CC.loop_inv _ _ (fun r => ∃ k, r = negPowD k ∧ k ≤ 1024) (by
      rintro r ⟨k, rfl, hk⟩ hc
      have hk' : k < 1024 := by
        rcases Nat.lt_or_ge k 1024 with h | h
        · exact h
        · exfalso
          have : k = 1024 := by omega
          subst this
          have h1 : binary64.hgt (negPowD 1024) x = true := hc
          unfold Fmt.hgt at h1
          have h2 : binary64.hlt x (negPowD 1024) = false := by
            obtain ⟨-, h3⟩ := binary64.finite_B hx
            exact hlt_negInfD hx
          rw [h2] at h1
          exact Bool.noConfusion h1
      exact ⟨k + 1, negPowD_tab ⟨k, hk'⟩, by omega⟩) n _ _ ⟨0, by decide +kernel, by omega⟩ e
    have hlt : binary64.hlt (negPowD k) x = true := by
      rcases Nat.lt_or_ge 1023 k with h | h
      · have : k = 1024 := by omega
        subst this
        exact negInf_hltD hx
      · obtain ⟨f1, v1⟩ := negPowD_val h
        rw [CC.hlt_finite binary64 f1 hx, v1]
        refine lt_of_le_of_ne ?_ (fun e => hp k e.symm)
        by_contra h2
        have h3 : binary64.hgt (negPowD k) x = true := (CC.hlt_finite binary64 hx f1).2 (by rw [v1]; exact not_le.1 h2)
        rw [h3] at hc
        exact Bool.noConfusion hc
    have hk2 : 54 ≤ k := by
      rcases Nat.lt_or_ge 1023 k with h | h
      · omega
      · obtain ⟨f1, v1⟩ := negPowD_val h
        rw [CC.hlt_finite binary64 f1 hx, v1] at hlt
        have : (2 : ℝ) ^ 53 < 2 ^ k := by linarith
        exact (pow_lt_pow_iff_right₀ (by norm_num : (1 : ℝ) < 2)).1 this
    have st := negPowD_stuck ⟨k - 54, by omega⟩
    have e2 : k - 54 + 54 = k := by omega
    dsimp only at st
    rw [e2] at st
    rw [Option.bind_some, CC.loop_stuck (fun r => binary64.hlt r x) (fun r => binary64.hadd .nearest r (CC.oneLit binary64 false)) hlt st, Option.map_none]

/-- the bit pattern of `-2^k` (float); `k = 128` is minus infinity -/
def negPowS (k : ℕ) : ℕ := 2147483648 + (k + 127) * 8388608

theorem negPowS_eq (k : ℕ) : CC.pow2 binary32 true k = negPowS k := by
  unfold CC.pow2 negPowS Fmt.pack
  have e1 : binary32.E = 8 := rfl
  have e2 : binary32.F = 23 := rfl
  have e3 : binary32.bias = 127 := rfl
  rw [e1, e2, e3]
  have : ((127 : ℕ) : ℤ) + (k : ℤ) = ((k + 127 : ℕ) : ℤ) := by push_cast; ring
  rw [this, Int.toNat_natCast]
  norm_num

theorem negPowS_val {k : ℕ} (hk : k ≤ 127) : binary32.Finite (negPowS k) ∧ binary32.val (negPowS k) = -2 ^ k := by
  have hbias : (binary32.bias : ℤ) = 127 := rfl
  obtain ⟨h1, h2⟩ := pow2_spec binary32 true (k := (k : ℤ)) (by omega) (by omega)
  rw [negPowS_eq] at h1 h2
  refine ⟨h1, h2.trans ?_⟩
  rw [sg_true, neg_one_mul, zpow_natCast]

theorem negPowS_tab (k : Fin 128) : binary32.hmul .nearest (negPowS k) (CC.pow2 binary32 false 1) = negPowS (k + 1) := by
  obtain ⟨k, hk⟩ := k
  dsimp only
  rcases Nat.lt_or_ge k 127 with h | h
  · obtain ⟨f1, v1⟩ := negPowS_val (k := k) (by omega)
    obtain ⟨f2, v2⟩ := negPowS_val (k := k + 1) (by omega)
    obtain ⟨f3, v3⟩ := dbl_exact binary32 (md := .nearest) (s := true) (k := k) f1 (by rw [v1, sg_true, neg_one_mul]) (show k + 1 ≤ 127 by omega)
    rw [sg_true, neg_one_mul, ← v2] at v3
    have hn : binary32.val (negPowS (k + 1)) < 0 := by rw [v2]; exact neg_neg_of_pos (by positivity)
    exact binary32.eq_of_val_eq f3.valid f2.valid v3 (by rw [sgn_of_neg _ hn, sgn_of_neg _ (by rw [v3]; exact hn)])
  · have : k = 127 := by omega
    subst this
    decide +kernel
theorem negPowS_stuck (k : Fin 104) : binary32.hadd .nearest (negPowS (k + 25)) (CC.oneLit binary32 false) = negPowS (k + 25) := by
  obtain ⟨k, hk⟩ := k
  dsimp only
  rcases Nat.lt_or_ge (k + 25) 128 with h | h
  · rw [← negPowS_eq]
    exact stuck_pow2 binary32 (by decide) (show 23 + 2 ≤ k + 25 by omega) (show k + 25 ≤ 127 by omega)
  · have : k = 103 := by omega
    subst this
    decide +kernel

theorem key_negPowS {x : ℕ} (hx : binary32.Finite x) : binary32.key (negPowS 128) < binary32.key x := by
  have e : binary32.key (negPowS 128) = -2139095040 := by decide +kernel
  have h1 : binary32.mag x < 2139095040 := ((binary32.finite_iff x).1 hx).2
  rw [e]
  unfold Fmt.key
  split_ifs <;> omega
theorem hlt_negInfS {x : ℕ} (hx : binary32.Finite x) : binary32.hlt x (negPowS 128) = false := by
  have h := key_negPowS hx
  unfold Fmt.hlt
  rw [decide_eq_false (by omega)]
  simp
theorem negInf_hltS {x : ℕ} (hx : binary32.Finite x) : binary32.hlt (negPowS 128) x = true := by
  have h := key_negPowS hx
  have e : binary32.nanB (negPowS 128) = false := by decide +kernel
  unfold Fmt.hlt
  rw [(binary32.finite_B hx).1, e, decide_eq_true h]
  rfl

/-- **C97.** The loop version of `floor` for float does not end, in the default rounding mode and so in constant evaluation, for any finite number below `-2^24` that is not a power of
two: no amount of fuel suffices.  Such a number is an integer, and `floor` should return it. -/
theorem C97_floor_gen_diverges_float {x : ℕ} (hx : binary32.Finite x) (hb : binary32.val x < -2 ^ 24) (hp : ∀ k : ℕ, binary32.val x ≠ -2 ^ k) (n : ℕ) :
    CC.floorGen binary32 n .nearest x = none := by
  obtain ⟨hn, hi⟩ := binary32.finite_B hx
  have fz := binary32.finite_zero false
  have vz := binary32.val_zero false
  have fm := CC.finite_one binary32 true
  have vm := CC.val_one binary32 true
  rw [sg_true] at vm
  have hneg : binary32.val x < -1 := lt_trans hb (by norm_num)
  unfold CC.floorGen
  rw [CC.isinf_eq, CC.isnan_eq, hn, hi, Bool.false_or, Bool.or_false, if_neg (by rw [CC.heq_finite binary32 hx fz, vz]; linarith),
    if_neg (by intro h; have := (CC.hlt_finite binary32 fz hx).1 h; rw [vz] at this; linarith)]
  unfold CC.floorNeg
  dsimp only
  rw [if_pos (c := binary32.hgt (CC.oneLit binary32 true) x = true) ((CC.hlt_finite binary32 hx fm).2 (by rw [vm]; exact hneg))]
  cases e : CC.loop (fun r => binary32.hgt r x) (fun r => binary32.hmul .nearest r (CC.pow2 binary32 false 1)) n (CC.oneLit binary32 true) with
  | none => rfl
  | some r =>
    obtain ⟨⟨k, rfl, hk⟩, hc⟩ := CC.loop_inv _ _ (fun r => ∃ k, r = negPowS k ∧ k ≤ 128) (by
      rintro r ⟨k, rfl, hk⟩ hc
      have hk' : k < 128 := by
        rcases Nat.lt_or_ge k 128 with h | h
        · exact h
        · exfalso
          have : k = 128 := by omega
          subst this
          have h1 : binary32.hgt (negPowS 128) x = true := hc
          unfold Fmt.hgt at h1
          have h2 : binary32.hlt x (negPowS 128) = false := by
            obtain ⟨-, h3⟩ := binary32.finite_B hx
            exact hlt_negInfS hx
          rw [h2] at h1
          exact Bool.noConfusion h1
      exact ⟨k + 1, negPowS_tab ⟨k, hk'⟩, by omega⟩) n _ _ ⟨0, by decide +kernel, by omega⟩ e
    have hlt : binary32.hlt (negPowS k) x = true := by
      rcases Nat.lt_or_ge 127 k with h | h
      · have : k = 128 := by omega
        subst this
        exact negInf_hltS hx
      · obtain ⟨f1, v1⟩ := negPowS_val h
        rw [CC.hlt_finite binary32 f1 hx, v1]
        refine lt_of_le_of_ne ?_ (fun e => hp k e.symm)
        by_contra h2
        have h3 : binary32.hgt (negPowS k) x = true := (CC.hlt_finite binary32 hx f1).2 (by rw [v1]; exact not_le.1 h2)
        rw [h3] at hc
        exact Bool.noConfusion hc
    have hk2 : 25 ≤ k := by
      rcases Nat.lt_or_ge 127 k with h | h
      · omega
      · obtain ⟨f1, v1⟩ := negPowS_val h
        rw [CC.hlt_finite binary32 f1 hx, v1] at hlt
        have : (2 : ℝ) ^ 24 < 2 ^ k := by linarith
        exact (pow_lt_pow_iff_right₀ (by norm_num : (1 : ℝ) < 2)).1 this
    have st := negPowS_stuck ⟨k - 25, by omega⟩
    have e2 : k - 25 + 25 = k := by omega
    dsimp only at st
    rw [e2] at st
    rw [Option.bind_some, CC.loop_stuck (fun r => binary32.hlt r x) (fun r => binary32.hadd .nearest r (CC.oneLit binary32 false)) hlt st, Option.map_none]

example : binary64.Finite 0xC340000000000001 ∧ binary64.val 0xC340000000000001 < -2 ^ 53 ∧ ∀ k : ℕ, binary64.val 0xC340000000000001 ≠ -2 ^ k := by
  have e : binary64.val 0xC340000000000001 = -9007199254740994 := by
    have h := RoundsTo.exact_of (ofInt_spec binary64 .nearest (-9007199254740994)) (binary64.rep (g := 1) ⟨-4503599627370497, by norm_num⟩ (by decide) (by
      have : ((1 : ℤ) + (binary64.F : ℤ) + 1) = ((54 : ℕ) : ℤ) := rfl
      rw [this, zpow_natCast]; norm_num) (by
      have : ((binary64.bias : ℤ) + 1) = ((1024 : ℕ) : ℤ) := rfl
      rw [this, zpow_natCast]
      refine lt_of_lt_of_le (b := (2 : ℝ) ^ 54) (by norm_num) (pow_le_pow_right₀ (by norm_num) (by norm_num))))
    have e : binary64.ofInt .nearest (-9007199254740994) = 0xC340000000000001 := by decide +kernel
    rw [e] at h
    rw [h.2]; norm_num
  refine ⟨by decide +kernel, by rw [e]; norm_num, fun k h => ?_⟩
  rw [e] at h
  have h2 : (9007199254740994 : ℕ) = 2 ^ k := by
    have h3 : (9007199254740994 : ℝ) = 2 ^ k := by linarith
    exact_mod_cast h3
  have l1 : 2 ^ 53 < 2 ^ k := by rw [← h2]; norm_num
  have l2 : 2 ^ k < 2 ^ 54 := by rw [← h2]; norm_num
  have := (Nat.pow_lt_pow_iff_right (by norm_num : 1 < 2)).1 l1
  have := (Nat.pow_lt_pow_iff_right (by norm_num : 1 < 2)).1 l2
  omega

/-- **C97.** NaNs, infinities and zeros are returned as they are. -/
theorem C97_floor_gen_special (n : ℕ) (md : Mode) {x : ℕ} (hx : f.Valid x) (h : f.IsNaN x ∨ f.IsInf x ∨ (f.Finite x ∧ f.val x = 0)) : CC.floorGen f n md x = some x := by
  unfold CC.floorGen
  rw [CC.isinf_eq, CC.isnan_eq]
  rcases h with h | h | ⟨h, h0⟩
  · rw [(f.nanB_iff hx).2 h, Bool.or_true, if_pos rfl]
  · rw [(f.infB_iff hx).2 h, Bool.true_or, Bool.true_or, if_pos rfl]
  · rw [(CC.heq_finite f h (f.finite_zero false)).2 (by rw [f.val_zero, h0]), Bool.or_true, Bool.true_or, if_pos rfl]

example : binary32.Valid 0x80000000 ∧ binary32.Finite 0x80000000 ∧ binary32.val 0x80000000 = 0 :=
  ⟨by decide +kernel, by decide +kernel, (binary32.val_eq_zero_iff _).2 (by decide +kernel)⟩

end Verif
