import Verif.Lemmas.Manip

/-!
# Lemmas for `NormalizedFloat`, `internal_ldexp` and `scalbn`
-/

namespace Verif
open Fmt
namespace CC
variable (f : Fmt)

theorem normShift_spec : ∀ (fuel m sh : ℕ), 0 < m → m < 2 ^ (f.F + 1) → 2 ^ f.F ≤ m * 2 ^ fuel →
    ∃ j : ℕ, normShift f fuel m sh = sh + j ∧ 2 ^ f.F ≤ m * 2 ^ j ∧ m * 2 ^ j < 2 ^ (f.F + 1) := by
  intro fuel
  induction fuel with
  | zero => intro m sh h0 h1 h2; exact ⟨0, rfl, by simpa using h2, by simpa using h1⟩
  | succ fuel ih =>
    intro m sh h0 h1 h2
    unfold normShift
    have ht : ((1 <<< f.F) &&& m) = 0 ↔ m < 2 ^ f.F := by
      have h := and_two_pow_ne_zero m f.F
      rw [testBit_top h1] at h
      rw [Nat.one_shiftLeft, Nat.and_comm]
      by_cases hc : 2 ^ f.F ≤ m
      · simp [hc] at h; simp [h]; omega
      · simp [hc] at h; simp [h]; omega
    by_cases hc : m < 2 ^ f.F
    · rw [if_pos (ht.2 hc)]
      have hs : m <<< 1 = m * 2 := by rw [Nat.shiftLeft_eq]
      obtain ⟨j, h3, h4, h5⟩ := ih (m <<< 1) (sh + 1) (by omega) (by rw [pow_succ]; omega)
        (by rw [hs, mul_assoc, ← pow_succ']; exact h2)
      refine ⟨j + 1, by omega, ?_, ?_⟩
      · rw [pow_succ', ← mul_assoc, ← hs]; exact h4
      · rw [pow_succ' 2 j, ← mul_assoc, ← hs]; exact h5
    · rw [if_neg (fun h => hc (ht.1 h))]
      exact ⟨0, rfl, by simpa using hc, by simpa using h1⟩

/-- normalised representation of a finite non-zero datum -/
theorem ofBits_spec {x : ℕ} (hx : f.Finite x) (h0 : f.val x ≠ 0) :
    let n := NormalizedFloat.ofBits f x
    2 ^ f.F ≤ n.mantissa ∧ n.mantissa < 2 ^ (f.F + 1) ∧ n.sign = f.sgn x ∧
      f.val x = sg (f.sgn x) * ((n.mantissa : ℝ) * 2 ^ (n.exponent - f.F)) := by
  have hz : FPBits.isZero f x = false := by
    rw [FPBits.isZero_eq]; unfold zeroB; simpa using fun h => h0 ((f.val_eq_zero_iff x).2 h)
  have hmag : f.mag x ≠ 0 := fun h => h0 ((f.val_eq_zero_iff x).2 h)
  have hF := f.frac_lt x
  unfold NormalizedFloat.ofBits
  rw [hz, isInfOrNan_finite f hx, FPBits.isSubnormal_eq, FPBits.isNeg_eq f hx.valid, FPBits.getMantissa_eq, FPBits.biasedExp_eq]
  simp only [Bool.false_eq_true, Bool.or_self, if_false]
  by_cases hb : f.bexp x = 0
  · simp only [hb, decide_true, if_true]
    have hme := f.mag_eq x
    rw [hb, zero_mul, zero_add] at hme
    obtain ⟨j, h1, h2, h3⟩ := normShift_spec f f.F (f.frac x) 0 (by omega) (by rw [pow_succ]; omega)
      (Nat.le_mul_of_pos_left _ (by omega))
    rw [h1, zero_add, Nat.shiftLeft_eq]
    refine ⟨h2, h3, trivial, ?_⟩
    rw [val_eq, hme, umag_small f (by rw [pow_succ]; omega)]
    unfold minSub
    push_cast
    rw [← zpow_natCast, mul_assoc, ← zpow_add₀ (by norm_num)]
    congr 3; ring
  · simp only [hb, decide_false, Bool.false_eq_true, if_false]
    rw [Nat.one_shiftLeft, two_pow_or_eq_add hF]
    refine ⟨by omega, by rw [pow_succ]; omega, trivial, ?_⟩
    unfold val
    rw [if_neg hb, zpow_sub₀ (by norm_num) _ (f.F : ℤ), zpow_natCast]
    have : (2 : ℝ) ^ f.F ≠ 0 := by positivity
    unfold sg
    push_cast; field_simp

theorem setMantissa_mod (x m : ℕ) : FPBits.setMantissa f x m = FPBits.setMantissa f x (m % 2 ^ f.F) := by
  unfold FPBits.setMantissa FPBits.fracMask
  rw [merge_low, merge_low, Nat.mod_mod]

theorem kind_nearest (s : Bool) : kind .nearest s = .nearest := by cases s <;> rfl

theorem scaled_abs {s : Bool} {M : ℕ} {e : ℤ} : |sg s * ((M : ℝ) * 2 ^ e)| = (M : ℝ) * 2 ^ e := by
  rw [abs_mul, abs_sg, one_mul, abs_of_nonneg]
  exact mul_nonneg (Nat.cast_nonneg _) (zpow_pos (by norm_num) _).le

theorem scaled_sign {s : Bool} {M : ℕ} {e : ℤ} (h : 0 < M) : decide (sg s * ((M : ℝ) * 2 ^ e) < 0) = s ∧
    sg s * ((M : ℝ) * 2 ^ e) ≠ 0 := by
  have hp : 0 < (M : ℝ) * 2 ^ e := mul_pos (by exact_mod_cast h) (zpow_pos (by norm_num) _)
  refine ⟨?_, mul_ne_zero (sg_ne_zero _) hp.ne'⟩
  cases s
  · simp only [sg_false, one_mul, decide_eq_false_iff_not, not_lt]; exact hp.le
  · simp only [sg_true, neg_mul, one_mul, decide_eq_true_eq]; linarith

/-- `convert_ieee` rounds once, to nearest even -/
theorem convert_spec {M : ℕ} {e : ℤ} {s : Bool} (h1 : 2 ^ f.F ≤ M) (h2 : M < 2 ^ (f.F + 1)) (zs : Bool) :
    f.RoundsTo .nearest zs (sg s * ((M : ℝ) * 2 ^ (e - f.F))) (NormalizedFloat.convert f ⟨e, M, s⟩) := by
  have hp := f.two_pow_F_pos
  have hbl := bias_lt f
  have hE := f.two_pow_E
  have hM0 : 0 < M := by omega
  have hsg := scaled_sign (s := s) (e := e - f.F) hM0
  unfold NormalizedFloat.convert
  simp only
  rw [Nat.one_shiftLeft f.E, FPBits.setSign_zero]
  by_cases hov : e + f.bias > ((2 ^ f.E : ℕ) : ℤ) - 2
  · rw [if_pos hov]
    have : f.RoundsTo .nearest zs (sg s * ((M : ℝ) * 2 ^ (e - f.F))) (f.ovf .nearest (decide (sg s * ((M : ℝ) * 2 ^ (e - f.F)) < 0))) := by
      apply roundsTo_huge
      rw [scaled_abs]
      calc (2 : ℝ) ^ ((f.bias : ℤ) + 1) ≤ (2 : ℝ) ^ e := zpow_le_zpow_right₀ (by norm_num) (by omega)
        _ = (2 : ℝ) ^ (f.F : ℤ) * 2 ^ (e - f.F) := by rw [← zpow_add₀ (by norm_num)]; congr 1; ring
        _ ≤ _ := by
          apply mul_le_mul_of_nonneg_right _ (zpow_pos (by norm_num) _).le
          rw [zpow_natCast]; exact_mod_cast h1
    rw [hsg.1] at this
    rw [FPBits.inf_eq]
    have e2 : f.ovf .nearest s = f.inf s := by
      unfold ovf; rw [kind_nearest, inf_eq_pack]; rfl
    rwa [e2] at this
  rw [if_neg hov]
  by_cases hsub : e < -(f.bias : ℤ) + 1
  · rw [if_pos hsub]
    obtain ⟨sh, hsh⟩ : ∃ sh : ℕ, -(f.bias : ℤ) + 1 - e = sh := ⟨_, (Int.toNat_of_nonneg (by omega)).symm⟩
    have hsh1 : 1 ≤ sh := by omega
    rw [hsh, Int.toNat_natCast]
    have hval : sg s * ((M : ℝ) * 2 ^ (e - f.F)) = sg s * ((M : ℝ) / 2 ^ sh * f.minSub) := by
      unfold minSub
      rw [div_mul_eq_mul_div, ← zpow_natCast, mul_div_assoc, ← zpow_sub₀ (by norm_num)]
      congr 3; omega
    have hps : (0 : ℝ) < 2 ^ sh := by positivity
    by_cases hle : sh ≤ f.F + 1
    · rw [if_pos hle]
      -- q, r
      have hdm := Nat.div_add_mod M (2 ^ sh)
      have hr : M % 2 ^ sh < 2 ^ sh := Nat.mod_lt _ (by positivity)
      set q := M / 2 ^ sh with hq
      set r := M % 2 ^ sh with hr'
      have hqlt : q < 2 ^ f.F := by
        rw [hq, Nat.div_lt_iff_lt_mul (by positivity)]
        calc M < 2 ^ (f.F + 1) := h2
          _ ≤ 2 ^ f.F * 2 ^ sh := by rw [pow_succ]; exact Nat.mul_le_mul_left _ (by
              calc 2 = 2 ^ 1 := rfl
                _ ≤ 2 ^ sh := Nat.pow_le_pow_right (by decide) hsh1)
      have hz : f.Valid (f.pack s 0) := f.valid_pack s (by positivity)
      have hsz : f.sgn (f.pack s 0) = s := f.sgn_pack s (by positivity)
      have hz2 : FPBits.setBiasedExp f (f.pack s 0) 0 = f.pack s 0 := by
        rw [FPBits.setBiasedExp_eq f hz (by omega), hsz]
        have := frac_pack f (s := s) (e := 0) (r := 0) (by omega) hp
        simp only [zero_mul, zero_add] at this
        rw [this]; simp
      have hb0 : ∀ n < 2 ^ f.F, f.bexp (f.pack s n) = 0 ∧ f.frac (f.pack s n) = n ∧ f.Valid (f.pack s n) ∧ f.sgn (f.pack s n) = s := by
        intro n hn
        have e1 := bexp_pack f (s := s) (e := 0) (r := n) (by omega) hn
        have e2 := frac_pack f (s := s) (e := 0) (r := n) (by omega) hn
        have hl := FPBits.exp_frac_lt f (e := 0) (by omega) hn
        rw [zero_mul, zero_add] at e1 e2 hl
        exact ⟨e1, e2, f.valid_pack s hl, f.sgn_pack s hl⟩
      have hset : ∀ n < 2 ^ f.F, ∀ k, k < 2 ^ f.F → FPBits.setMantissa f (f.pack s n) k = f.pack s k := by
        intro n hn k hk
        obtain ⟨a1, a2, a3, a4⟩ := hb0 n hn
        rw [FPBits.setMantissa_eq f a3 hk, a4, a1, zero_mul, zero_add]
      rw [hz2, Nat.shiftRight_eq_div_pow, ← hq, hset 0 hp q hqlt, FPBits.getMantissa_eq, (hb0 q hqlt).2.1,
        Nat.one_shiftLeft, Nat.one_shiftLeft, Nat.one_shiftLeft, Nat.and_two_pow_sub_one_eq_mod, ← hr', Nat.and_one_is_mod]
      -- the chosen magnitude
      set nm := (if r > 2 ^ (sh - 1) then q + 1 else if r = 2 ^ (sh - 1) then (if q % 2 ≠ 0 then q + 1 else q) else q) with hnm
      have hnmle : nm ≤ q + 1 := by rw [hnm]; split_ifs <;> omega
      have hres : (if nm = 2 ^ f.F then FPBits.setBiasedExp f (FPBits.setMantissa f (f.pack s q) nm) 1
          else FPBits.setMantissa f (f.pack s q) nm) = f.pack s nm := by
        split
        · rename_i h
          rw [setMantissa_mod, h, Nat.mod_self, hset q hqlt 0 hp, FPBits.setBiasedExp_eq f hz (by omega), hsz, (hb0 0 hp).2.1]
          simp
        · exact hset q hqlt nm (by omega)
      rw [hres]
      have hR : f.RndMag (kind .nearest s) ((M : ℝ) / 2 ^ sh) nm := by
        rw [kind_nearest]
        have hMr : (M : ℝ) / 2 ^ sh = q + (r : ℝ) / 2 ^ sh := by
          have : (M : ℝ) = 2 ^ sh * q + r := by exact_mod_cast hdm.symm
          rw [this]; field_simp
        have u1 : f.umag q = q := f.umag_small (by rw [pow_succ]; omega)
        have u2 : f.umag (q + 1) = q + 1 := f.umag_small (by rw [pow_succ]; omega)
        have hr0 : (0 : ℝ) ≤ (r : ℝ) / 2 ^ sh := by positivity
        have hr1 : (r : ℝ) / 2 ^ sh < 1 := by rw [div_lt_one hps]; exact_mod_cast hr
        have h2sh : 2 ^ sh = 2 * 2 ^ (sh - 1) := by rw [← pow_succ']; congr 1; omega
        have h2shR : (2 : ℝ) ^ sh = 2 * 2 ^ (sh - 1) := by exact_mod_cast h2sh
        have hhp : (0 : ℝ) < 2 ^ (sh - 1) := by positivity
        have hhalf : ∀ c : ℝ, c / 2 ^ sh * 2 = c / 2 ^ (sh - 1) := by intro c; rw [h2shR]; field_simp
        refine ⟨q, ⟨by rw [u1, hMr]; linarith, by rw [u2, hMr]; push_cast; linarith⟩, ?_⟩
        simp only
        rw [u1, u2, hMr, hnm]
        push_cast
        rcases lt_trichotomy r (2 ^ (sh - 1)) with hc | hc | hc
        · left
          have : (r : ℝ) / 2 ^ (sh - 1) < 1 := by rw [div_lt_one hhp]; exact_mod_cast hc
          have := hhalf r
          refine ⟨by linarith, ?_⟩
          rw [if_neg (by omega), if_neg (by omega)]
        · right; left
          have : (r : ℝ) / 2 ^ (sh - 1) = 1 := by rw [div_eq_one_iff_eq hhp.ne']; exact_mod_cast hc
          have := hhalf r
          refine ⟨by linarith, ?_⟩
          rw [if_neg (by omega), if_pos hc]
          split <;> omega
        · right; right
          have : 1 < (r : ℝ) / 2 ^ (sh - 1) := by rw [one_lt_div hhp]; exact_mod_cast hc
          have := hhalf r
          refine ⟨by linarith, ?_⟩
          rw [if_pos hc]
      have ht : (0 : ℝ) ≤ (M : ℝ) / 2 ^ sh := by positivity
      have hMne : (M : ℝ) / 2 ^ sh ≠ 0 := by
        have : (0 : ℝ) < M := by exact_mod_cast hM0
        positivity
      have := f.roundsTo_of_rndMag (zs := zs) ht hval (fun h => absurd h hMne) hR
      have hcap : f.cap (kind .nearest s) nm = nm := by
        unfold cap; rw [if_pos]
        have := f.infMag_pos; rw [pow_succ] at this; omega
      rwa [hcap] at this
    · rw [if_neg hle]
      have := f.roundsTo_tiny (m := .nearest) (zs := zs) hsg.2 (by
        rw [hval, abs_mul, abs_sg, one_mul, abs_of_nonneg (mul_nonneg (by positivity) f.minSub_pos.le)]
        have : (M : ℝ) / 2 ^ sh < 1 / 2 := by
          rw [div_lt_div_iff₀ hps (by norm_num)]
          have : M * 2 < 2 ^ sh := by
            calc M * 2 < 2 ^ (f.F + 1) * 2 := by omega
              _ = 2 ^ (f.F + 2) := by rw [← pow_succ]
              _ ≤ 2 ^ sh := Nat.pow_le_pow_right (by decide) (by omega)
          have : (M : ℝ) * 2 < 2 ^ sh := by exact_mod_cast this
          linarith
        have := f.minSub_pos
        nlinarith)
      rw [hsg.1] at this
      have e2 : f.udf .nearest s = f.pack s 0 := by unfold udf; rw [kind_nearest]; rfl
      rwa [e2] at this
  · rw [if_neg hsub]
    obtain ⟨b, hb⟩ : ∃ b : ℕ, e + f.bias = b := ⟨_, (Int.toNat_of_nonneg (by omega)).symm⟩
    rw [hb, Int.toNat_natCast]
    have hz : f.Valid (f.pack s 0) := f.valid_pack s (by positivity)
    have hsz : f.sgn (f.pack s 0) = s := f.sgn_pack s (by positivity)
    have hfz : f.frac (f.pack s 0) = 0 := by
      have := frac_pack f (s := s) (e := 0) (r := 0) (by omega) hp
      simpa using this
    have hbE : b < 2 ^ f.E - 1 := by omega
    have hM2 : M % 2 ^ f.F = M - 2 ^ f.F := by
      rw [Nat.mod_eq_sub_mod h1, Nat.mod_eq_of_lt]; rw [pow_succ] at h2; omega
    have hMlt : M - 2 ^ f.F < 2 ^ f.F := by rw [pow_succ] at h2; omega
    rw [FPBits.setBiasedExp_eq f hz (by omega), hsz, hfz, setMantissa_mod, hM2,
      FPBits.setMantissa_eq f (f.valid_pack s (FPBits.exp_frac_lt f (by omega) hp)) hMlt,
      f.sgn_pack s (FPBits.exp_frac_lt f (by omega) hp), bexp_pack f (by omega) hp]
    have hfin := normal_finite f (s := s) hbE hMlt
    have hv := normal_val f (s := s) (e := b) (by omega) (by omega) hMlt
    have hself := f.roundsTo_self (m := .nearest) hfin
    have hveq : f.val (f.pack s (b * 2 ^ f.F + (M - 2 ^ f.F))) = sg s * ((M : ℝ) * 2 ^ (e - f.F)) := by
      rw [hv, Nat.cast_sub h1, show (b : ℤ) - f.bias = e by omega, zpow_sub₀ (by norm_num), zpow_natCast]
      have : (2 : ℝ) ^ f.F ≠ 0 := by positivity
      push_cast
      field_simp; ring
    rw [hveq] at hself
    refine ⟨hself.valid, hself.value, ?_⟩
    rw [hself.sign, if_neg hsg.2, if_neg hsg.2]

theorem finite_sub_huge {x : ℕ} (h0 : f.val x ≠ 0) : f.minSub ≤ |f.val x| := by
  rw [abs_val]
  have : 1 ≤ f.umag (f.mag x) := by
    rcases Nat.eq_zero_or_pos (f.umag (f.mag x)) with h | h
    · exact absurd ((f.val_eq_zero_iff x).2 (f.umag_eq_zero.1 h)) h0
    · exact h
  have h1 : (1 : ℝ) ≤ f.umag (f.mag x) := by exact_mod_cast this
  have := f.minSub_pos
  nlinarith

theorem sign_scaled {x : ℕ} (h0 : f.val x ≠ 0) (k : ℤ) : decide (f.val x * 2 ^ k < 0) = f.sgn x ∧ f.val x * 2 ^ k ≠ 0 := by
  have hp : (0 : ℝ) < 2 ^ k := zpow_pos (by norm_num) _
  refine ⟨?_, mul_ne_zero h0 hp.ne'⟩
  have ha : 0 < |f.val x| := abs_pos.2 h0
  rw [val_eq_sg_abs]
  cases f.sgn x
  · simp only [sg_false, one_mul, decide_eq_false_iff_not, not_lt]; positivity
  · simp only [sg_true, neg_mul, one_mul, decide_eq_true_eq]; have := mul_pos ha hp; linarith

theorem ovf_nearest (s : Bool) : f.ovf .nearest s = f.inf s := by unfold ovf; rw [kind_nearest, inf_eq_pack]; rfl
theorem udf_nearest (s : Bool) : f.udf .nearest s = f.zero s := by unfold udf; rw [kind_nearest, zero_eq_pack]; rfl

/-- the overflow and underflow early returns of `internal_ldexp` in every mode -/
theorem ovf_eq (m : Mode) (s : Bool) : (if (!s && m = .down) || (s && m = .up) || m = .zero then FPBits.maxNormal f s else FPBits.inf f s)
    = f.ovf m s := by
  rw [FPBits.maxNormal_eq, FPBits.inf_eq, inf_eq_pack]
  cases m <;> cases s <;> rfl
theorem udf_eq (m : Mode) (s : Bool) : (if (!s && m = .up) || (s && m = .down) then FPBits.minSubnormal f s else FPBits.zero f s)
    = f.udf m s := by
  rw [FPBits.minSubnormal_eq, FPBits.zero_eq]
  cases m <;> cases s <;> rfl

/-- `internal_ldexp`: beyond the exponent limit it is correct in every mode; within the limit it rounds to nearest even
whatever the mode. -/
theorem ldexp_finite (m : Mode) {x : ℕ} (hx : f.Finite x) (n : ℤ) :
    (n.natAbs ≤ 2 ^ f.E + f.F → f.RoundsTo .nearest (f.sgn x) (f.val x * 2 ^ n) (ldexp f m x n)) ∧
    (2 ^ f.E + f.F < n.natAbs → f.RoundsTo m (f.sgn x) (f.val x * 2 ^ n) (ldexp f m x n)) := by
  have hE := f.two_pow_E
  unfold ldexp
  rw [isInfOrNan_finite f hx, FPBits.isZero_eq, FPBits.isNeg_eq f hx.valid]
  by_cases hn0 : n = 0
  · subst hn0
    simp only [decide_true, Bool.true_or, if_true, zpow_zero, mul_one]
    exact ⟨fun _ => f.roundsTo_self hx, fun _ => f.roundsTo_self hx⟩
  by_cases hz : f.val x = 0
  · have : f.zeroB x = true := by unfold zeroB; simpa using (f.val_eq_zero_iff x).1 hz
    simp only [this, Bool.or_true, Bool.true_or, if_true]
    have h1 : f.val x * 2 ^ n = f.val x := by rw [hz, zero_mul]
    rw [h1]
    exact ⟨fun _ => f.roundsTo_self hx, fun _ => f.roundsTo_self hx⟩
  have hzb : f.zeroB x = false := by unfold zeroB; simpa using fun h => hz ((f.val_eq_zero_iff x).2 h)
  have hss := sign_scaled f hz n
  have hms := finite_sub_huge f hz
  have hbl := bias_lt f
  have hpn : (0 : ℝ) < 2 ^ n := zpow_pos (by norm_num) _
  simp only [hn0, hzb, decide_false, Bool.or_self, Bool.false_eq_true, if_false]
  by_cases h1 : n > (((2 ^ f.E - 1 : ℕ) : ℤ) + f.F + 1)
  · rw [if_pos h1, ovf_eq]
    have : f.RoundsTo m (f.sgn x) (f.val x * 2 ^ n) (f.ovf m (f.sgn x)) := by
      rw [← hss.1]
      apply f.roundsTo_huge
      rw [abs_mul, abs_of_pos hpn]
      calc (2 : ℝ) ^ ((f.bias : ℤ) + 1) ≤ (2 : ℝ) ^ (n + (1 - (f.bias : ℤ) - f.F)) := zpow_le_zpow_right₀ (by norm_num) (by omega)
        _ = f.minSub * 2 ^ n := by rw [← minSub_zpow, mul_comm]
        _ ≤ _ := mul_le_mul_of_nonneg_right hms hpn.le
    exact ⟨fun h => by omega, fun _ => this⟩
  rw [if_neg h1]
  by_cases h2 : n < -(((2 ^ f.E - 1 : ℕ) : ℤ) + f.F + 1)
  · rw [if_pos h2, udf_eq]
    have : f.RoundsTo m (f.sgn x) (f.val x * 2 ^ n) (f.udf m (f.sgn x)) := by
      conv in (f.udf m (f.sgn x)) => rw [← hss.1]
      apply f.roundsTo_tiny hss.2
      rw [abs_mul, abs_of_pos hpn]
      calc |f.val x| * 2 ^ n < (2 : ℝ) ^ ((f.bias : ℤ) + 1) * 2 ^ n := mul_lt_mul_of_pos_right (f.abs_val_lt_huge hx) hpn
        _ = (2 : ℝ) ^ ((f.bias : ℤ) + 1 + n) := by rw [← zpow_add₀ (by norm_num)]
        _ ≤ (2 : ℝ) ^ ((1 - (f.bias : ℤ) - f.F) - 1) := zpow_le_zpow_right₀ (by norm_num) (by omega)
        _ = f.minSub / 2 := by unfold minSub; rw [zpow_sub_one₀ (by norm_num)]; ring
    exact ⟨fun h => by omega, fun _ => this⟩
  rw [if_neg h2]
  refine ⟨fun _ => ?_, fun h => by omega⟩
  obtain ⟨g1, g2, g3, g4⟩ := ofBits_spec f hx hz
  have hc := convert_spec f (e := (NormalizedFloat.ofBits f x).exponent + n) (s := (NormalizedFloat.ofBits f x).sign) g1 g2 (f.sgn x)
  have e1 : sg (NormalizedFloat.ofBits f x).sign * (((NormalizedFloat.ofBits f x).mantissa : ℝ) *
      2 ^ ((NormalizedFloat.ofBits f x).exponent + n - f.F)) = f.val x * 2 ^ n := by
    rw [g4, g3, mul_assoc, mul_assoc, ← zpow_add₀ (by norm_num)]; congr 3; ring
  rw [e1] at hc
  exact hc

end CC
end Verif
