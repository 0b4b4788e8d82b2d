import Verif.Model.Log
import Verif.Lemmas.Exp1
import Verif.Lemmas.IntUtil

/-!
# Argument reduction of the logarithms: `x = z 2^k` with `z` in `[11/16, 11/8)`
-/

namespace Verif
open Fmt Real

theorem mask_hi {t : ℕ} (h : t < 2 ^ 64) : t &&& (0xfff <<< 52) = t / 2 ^ 52 * 2 ^ 52 := by
  have e : (0xfff <<< 52 : ℕ) = 2 ^ 52 * (2 ^ 12 - 1) + 0 := by decide
  have e2 : t = 2 ^ 52 * (t / 2 ^ 52) + t % 2 ^ 52 := (Nat.div_add_mod t (2 ^ 52)).symm
  conv_lhs => rw [e, e2]
  rw [CC.and_split 52 _ _ _ _ (Nat.mod_lt _ (by norm_num)) (by norm_num), Nat.and_zero, Nat.and_two_pow_sub_one_eq_mod, Nat.mod_eq_of_lt (by omega)]
  omega

/-- the reduction as integer arithmetic: `N` is the extended bit pattern -/
theorem red_int {ix : ℕ} {N : ℤ} (h : (ix : ℤ) = N % 2 ^ 64) (h1 : -2 ^ 62 ≤ N) (h2 : N < 2 ^ 63) :
    let tmp := (ix + 2 ^ 64 - 0x3fe6000000000000) % 2 ^ 64
    let D := N - 0x3fe6000000000000
    (tmp >>> 45) % 128 = ((D % 2 ^ 52) / 2 ^ 45).toNat ∧ (tmp >>> 46) % 64 = ((D % 2 ^ 52) / 2 ^ 46).toNat ∧ CC.sar52 tmp = D / 2 ^ 52 ∧
      (ix + 2 ^ 64 - (tmp &&& (0xfff <<< 52))) % 2 ^ 64 = (0x3fe6000000000000 + D % 2 ^ 52).toNat := by
  intro tmp D
  have ht : (tmp : ℤ) = D % 2 ^ 64 := by simp only [tmp, D]; omega
  have hlt : tmp < 2 ^ 64 := Nat.mod_lt _ (by norm_num)
  have hD1 : -2 ^ 63 ≤ D := by simp only [D]; omega
  have hD2 : D < 2 ^ 63 := by simp only [D]; omega
  rw [mask_hi hlt]
  unfold CC.sar52
  rw [Nat.shiftRight_eq_div_pow, Nat.shiftRight_eq_div_pow, Nat.shiftRight_eq_div_pow]
  have hN : N = D + 0x3fe6000000000000 := by simp only [D]; ring
  clear_value tmp D
  refine ⟨by omega, by omega, ?_, ?_⟩
  · split_ifs <;> omega
  · omega

theorem pat64 {P : ℕ} (h1 : 2 ^ 52 ≤ P) (h2 : P < 2047 * 2 ^ 52) :
    binary64.Finite P ∧ binary64.val P = ((2 ^ 52 + P % 2 ^ 52 : ℕ) : ℝ) * (2 : ℝ) ^ (((P / 2 ^ 52 : ℕ) : ℤ) - 1075) := by
  have h := bits64 (e := P / 2 ^ 52 - 1) (m := 2 ^ 52 + P % 2 ^ 52) (by omega) (by omega) (by omega)
  have e : (P / 2 ^ 52 - 1) * 2 ^ 52 + (2 ^ 52 + P % 2 ^ 52) = P := by omega
  rw [e] at h
  refine ⟨h.1, h.2.trans ?_⟩
  congr 2
  omega

/-- bit pattern of a positive finite double -/
theorem pos_pat64 {x : ℕ} (hx : binary64.Finite x) (h : 0 < binary64.val x) : 0 < x ∧ x < 2047 * 2 ^ 52 := by
  have hs := (binary64.finite_iff x).1 hx
  have hsg : binary64.sgn x = false := by
    cases e : binary64.sgn x with
    | false => rfl
    | true => have := CC.val_eq_sg_abs binary64 x; rw [e] at this; simp [sg] at this; have := abs_nonneg (binary64.val x); linarith
  have hm : binary64.mag x = x % 2 ^ 63 := rfl
  have hsgn : x < 2 ^ 63 := by
    have e : binary64.sgn x = decide (2 ^ 63 ≤ x) := rfl
    rw [e] at hsg
    simpa using hsg
  have hi : binary64.infMag = 2047 * 2 ^ 52 := by decide
  rw [hi, hm] at hs
  have h0 : binary64.mag x ≠ 0 := by
    intro h0; rw [(binary64.val_eq_zero_iff x).2 h0] at h; exact lt_irrefl _ h
  rw [hm] at h0
  omega

/-- the extended pattern of a positive finite double -/
theorem norm64 (md : Mode) {x : ℕ} (hx : binary64.Finite x) (h : 0 < binary64.val x) :
    ∃ N : ℤ, ((CC.logNorm md x : ℕ) : ℤ) = N % 2 ^ 64 ∧ -52 * 2 ^ 52 ≤ N ∧ N < 2047 * 2 ^ 52 ∧ (2 ^ 52 ≤ x → N = x) ∧ (x < 2 ^ 52 → N < 2 ^ 52) ∧
      binary64.val x = (2 ^ 52 + (N % 2 ^ 52 : ℤ) : ℝ) * (2 : ℝ) ^ (N / 2 ^ 52 - 1075) := by
  obtain ⟨h0, h1⟩ := pos_pat64 hx h
  unfold CC.logNorm
  rw [Nat.shiftRight_eq_div_pow]
  by_cases hn : 2 ^ 52 ≤ x
  · rw [if_neg (by omega)]
    refine ⟨x, by omega, by omega, by omega, fun _ => rfl, fun h => absurd h (by omega), ?_⟩
    rw [(pat64 hn h1).2]
    have e1 : ((x : ℤ) % 2 ^ 52 : ℤ) = ((x % 2 ^ 52 : ℕ) : ℤ) := by omega
    have e2 : ((x : ℤ) / 2 ^ 52 : ℤ) = ((x / 2 ^ 52 : ℕ) : ℤ) := by omega
    rw [e1, e2, Int.cast_natCast, Nat.cast_add, Nat.cast_pow, Nat.cast_ofNat]
  · rw [if_pos (by omega)]
    have f52 : binary64.Finite 0x4330000000000000 := by decide +kernel
    have v52 : binary64.val 0x4330000000000000 = 2 ^ 52 := by
      have := (pat64 (P := 0x4330000000000000) (by norm_num) (by norm_num)).2
      rw [this]; norm_num
    have R := hmul_spec binary64 md hx f52
    rw [v52] at R
    have hm : binary64.mag x = x := by
      have : binary64.mag x = x % 2 ^ 63 := rfl
      omega
    have hu : binary64.umag x = x := by
      have := binary64.umag_of (k := 0) (s := x) (by have : binary64.F = 52 := rfl; rw [this]; omega) (Or.inl rfl)
      simpa using this
    have vx : binary64.val x = x * (2 : ℝ) ^ (-1074 : ℤ) := by
      have hw : x < 2 ^ (binary64.E + binary64.F) := by have : 2 ^ (binary64.E + binary64.F) = 2 ^ 63 := rfl; omega
      have := binary64.val_pack false hw
      rw [pack_false, hu, binary64.minSub_eq_zpow] at this
      have e : binary64.emin = -1074 := by decide +kernel
      rw [e] at this
      simpa [sg] using this
    obtain ⟨B, hB1, hB2, hB3⟩ : ∃ B, 2 ^ 52 ≤ B ∧ B < 53 * 2 ^ 52 ∧ binary64.val B = x * (2 : ℝ) ^ (-1022 : ℤ) ∧ binary64.Finite B := by
      have hl := Nat.log_eq_iff (b := 2) (m := Nat.log 2 x) (n := x) (Or.inr ⟨by norm_num, by omega⟩) |>.1 rfl
      set l := Nat.log 2 x
      have hl52 : l < 52 := by
        by_contra hc
        have := Nat.pow_le_pow_right (show 0 < 2 by norm_num) (show 52 ≤ l by omega)
        omega
      refine ⟨l * 2 ^ 52 + x * 2 ^ (52 - l), ?_, ?_, ?_⟩
      · have := Nat.mul_le_mul_right (2 ^ (52 - l)) hl.1
        rw [← pow_add, show l + (52 - l) = 52 by omega] at this
        omega
      · have := Nat.mul_lt_mul_of_pos_right hl.2 (show 0 < 2 ^ (52 - l) by positivity)
        rw [← pow_add, show l + 1 + (52 - l) = 53 by omega] at this
        have h3 : l * 2 ^ 52 ≤ 51 * 2 ^ 52 := Nat.mul_le_mul_right _ (by omega)
        omega
      · have g1 : 2 ^ 52 ≤ x * 2 ^ (52 - l) := by
          have := Nat.mul_le_mul_right (2 ^ (52 - l)) hl.1
          rwa [← pow_add, show l + (52 - l) = 52 by omega] at this
        have g2 : x * 2 ^ (52 - l) < 2 ^ 53 := by
          have := Nat.mul_lt_mul_of_pos_right hl.2 (show 0 < 2 ^ (52 - l) by positivity)
          rwa [← pow_add, show l + 1 + (52 - l) = 53 by omega] at this
        have := bits64 (e := l) g1 g2 (by omega)
        refine ⟨this.2.trans ?_, this.1⟩
        push_cast
        rw [mul_assoc]
        congr 1
        rw [← zpow_natCast, ← zpow_add₀ (by norm_num)]
        congr 1
        omega
    have hp := RoundsTo.exact binary64 hB3.2 (by rw [hB3.1, vx, mul_assoc, show (2 : ℝ) ^ (52 : ℕ) = 2 ^ (52 : ℤ) by norm_num, ← zpow_add₀ (by norm_num)]; norm_num) R
    have hpos : 0 < binary64.val (binary64.hmul md x 0x4330000000000000) := by rw [hp.2]; positivity
    have hb : binary64.hmul md x 0x4330000000000000 = B := by
      refine pos_inj64 hp.1 hB3.2 ?_ hpos
      rw [hp.2, hB3.1, vx, mul_assoc, show (2 : ℝ) ^ (52 : ℕ) = 2 ^ (52 : ℤ) by norm_num, ← zpow_add₀ (by norm_num)]; norm_num
    rw [hb]
    refine ⟨(B : ℤ) - 52 * 2 ^ 52, by omega, by omega, by omega, fun h => absurd h hn, fun _ => by omega, ?_⟩
    have := (pat64 hB1 (by omega)).2
    rw [hB3.1] at this
    rw [vx]
    have e1 : ((B : ℤ) - 52 * 2 ^ 52) % 2 ^ 52 = ((B % 2 ^ 52 : ℕ) : ℤ) := by omega
    have e2 : ((B : ℤ) - 52 * 2 ^ 52) / 2 ^ 52 = ((B / 2 ^ 52 : ℕ) : ℤ) - 52 := by omega
    rw [e1, e2]
    have e3 : (x : ℝ) * (2 : ℝ) ^ (-1074 : ℤ) = x * 2 ^ (-1022 : ℤ) * 2 ^ (-52 : ℤ) := by
      rw [mul_assoc, ← zpow_add₀ (by norm_num)]; norm_num
    rw [e3, this, mul_assoc, ← zpow_add₀ (by norm_num), Int.cast_natCast, Nat.cast_add, Nat.cast_pow, Nat.cast_ofNat]
    congr 2
    ring

/-- The reduction: with `z` the reduced pattern, `x = z 2^k`, `z` between `0x3fe6000000000000` and one binade above, and the table index tells its subinterval. -/
theorem red64 (md : Mode) {x : ℕ} (hx : binary64.Finite x) (h : 0 < binary64.val x) :
    ∃ (k : ℤ) (d : ℕ), d < 2 ^ 52 ∧ -1080 ≤ k ∧ k ≤ 1100 ∧
      (let ix := CC.logNorm md x
       let tmp := (ix + 2 ^ 64 - 0x3fe6000000000000) % 2 ^ 64
       (tmp >>> 45) % 128 = d / 2 ^ 45 ∧ (tmp >>> 46) % 64 = d / 2 ^ 46 ∧ CC.sar52 tmp = k ∧ (ix + 2 ^ 64 - (tmp &&& (0xfff <<< 52))) % 2 ^ 64 = 0x3fe6000000000000 + d) ∧
      binary64.Finite (0x3fe6000000000000 + d) ∧ binary64.val x = binary64.val (0x3fe6000000000000 + d) * (2 : ℝ) ^ k ∧
      (k = 0 → x = 0x3fe6000000000000 + d) := by
  obtain ⟨N, h1, h2, h3, h4, h5, h6⟩ := norm64 md hx h
  have hr := red_int h1 (by omega) (by omega)
  have hd : 0 ≤ (N - 0x3fe6000000000000) % 2 ^ 52 ∧ (N - 0x3fe6000000000000) % 2 ^ 52 < 2 ^ 52 := by omega
  obtain ⟨d, hd'⟩ : ∃ d : ℕ, (N - 0x3fe6000000000000) % 2 ^ 52 = d := ⟨_, (Int.toNat_of_nonneg hd.1).symm⟩
  refine ⟨(N - 0x3fe6000000000000) / 2 ^ 52, d, by omega, by omega, by omega, ?_, ?_⟩
  · obtain ⟨r1, r2, r3, r4⟩ := hr
    refine ⟨r1.trans ?_, r2.trans ?_, r3, r4.trans ?_⟩ <;> rw [hd'] <;> omega
  · have p := pat64 (P := 0x3fe6000000000000 + d) (by omega) (by omega)
    refine ⟨p.1, ?_, ?_⟩
    · rw [h6, p.2, mul_assoc, ← zpow_add₀ (by norm_num)]
      have e1 : (N % 2 ^ 52 : ℤ) = (((0x3fe6000000000000 + d) % 2 ^ 52 : ℕ) : ℤ) := by omega
      have e2 : N / 2 ^ 52 - 1075 = (((0x3fe6000000000000 + d) / 2 ^ 52 : ℕ) : ℤ) - 1075 + (N - 0x3fe6000000000000) / 2 ^ 52 := by omega
      rw [e1, e2, Int.cast_natCast, Nat.cast_add, Nat.cast_pow, Nat.cast_ofNat]
    · intro hk
      have hN : N = 0x3fe6000000000000 + d := by omega
      have : 2 ^ 52 ≤ x := by
        by_contra hc
        have := h5 (by omega)
        omega
      have := h4 this
      omega

end Verif
