import Verif.Props.Pow
import Verif.Props.EFT
import Verif.Lemmas.RelErr

namespace Verif
open Fmt

theorem abs_val_normal {x : ℕ} (hb : binary64.bexp x ≠ 0) :
    |binary64.val x| = (2 : ℝ) ^ ((binary64.bexp x : ℤ) - 1023 - 52) * ((2 ^ 52 + binary64.frac x : ℕ) : ℝ) := by
  have hbias : (binary64.bias : ℤ) = 1023 := by decide
  have hF : binary64.F = 52 := rfl
  unfold val
  rw [if_neg hb, hbias, hF, abs_mul, abs_mul]
  have h1 : |(if binary64.sgn x = true then (-1 : ℝ) else 1)| = 1 := by split_ifs <;> simp
  rw [h1, one_mul, abs_of_pos (two_zpow_pos _), abs_of_nonneg (by positivity), sub_eq_add_neg _ (52 : ℤ), zpow_add₀ (by norm_num)]
  push_cast
  rw [mul_assoc]; congr 1
  norm_num
  ring

theorem abs_val_subnormal {x : ℕ} (hb : binary64.bexp x = 0) : |binary64.val x| < (2 : ℝ) ^ (-1022 : ℤ) := by
  have hbias : (binary64.bias : ℤ) = 1023 := by decide
  have hF : binary64.F = 52 := rfl
  unfold val
  rw [if_pos hb, hbias, hF, abs_mul, abs_mul]
  have h1 : |(if binary64.sgn x = true then (-1 : ℝ) else 1)| = 1 := by split_ifs <;> simp
  have h3 : |(binary64.frac x : ℝ) / 2 ^ 52| < 1 := by
    have : binary64.frac x < 2 ^ 52 := Nat.mod_lt _ (by norm_num)
    have h : (binary64.frac x : ℝ) < 2 ^ 52 := by exact_mod_cast this
    rw [abs_of_nonneg (by positivity), div_lt_one (by positivity)]
    exact h
  rw [h1, one_mul, abs_of_pos (two_zpow_pos _), show (1 : ℤ) - 1023 = -1022 by norm_num]
  have := two_zpow_pos (-1022)
  calc (2 : ℝ) ^ (-1022 : ℤ) * |(binary64.frac x : ℝ) / 2 ^ 52| < (2 : ℝ) ^ (-1022 : ℤ) * 1 := (mul_lt_mul_iff_right₀ this).2 h3
    _ = _ := mul_one _

/-- normal binary64 data: exponent window of the value -/
theorem normal_window {x : ℕ} (hb : binary64.bexp x ≠ 0) :
    (2 : ℝ) ^ ((binary64.bexp x : ℤ) - 1023) ≤ |binary64.val x| ∧ |binary64.val x| < (2 : ℝ) ^ ((binary64.bexp x : ℤ) - 1022) := by
  rw [abs_val_normal hb]
  have hf : binary64.frac x < 2 ^ 52 := Nat.mod_lt _ (by norm_num)
  have hp := two_zpow_pos ((binary64.bexp x : ℤ) - 1023 - 52)
  have e1 : (2 : ℝ) ^ ((binary64.bexp x : ℤ) - 1023) = (2 : ℝ) ^ ((binary64.bexp x : ℤ) - 1023 - 52) * 2 ^ (52 : ℕ) := by
    rw [← zpow_natCast, ← zpow_add₀ (by norm_num)]; congr 1; push_cast; ring
  have e2 : (2 : ℝ) ^ ((binary64.bexp x : ℤ) - 1022) = (2 : ℝ) ^ ((binary64.bexp x : ℤ) - 1023 - 52) * 2 ^ (53 : ℕ) := by
    rw [← zpow_natCast, ← zpow_add₀ (by norm_num)]; congr 1; push_cast; ring
  rw [e1, e2]
  constructor
  · apply mul_le_mul_of_nonneg_left _ hp.le
    exact_mod_cast Nat.le_add_right (2 ^ 52) (binary64.frac x)
  · rw [mul_lt_mul_iff_right₀ hp]
    have : 2 ^ 52 + binary64.frac x < 2 ^ 53 := by omega
    exact_mod_cast this

/-- conversely the value fixes the exponent field -/
theorem bexp_of_window {x : ℕ} {k : ℤ} (h1 : (2 : ℝ) ^ k ≤ |binary64.val x|) (h2 : |binary64.val x| < (2 : ℝ) ^ (k + 1)) (hk : -1022 ≤ k) :
    (binary64.bexp x : ℤ) = k + 1023 := by
  have hb : binary64.bexp x ≠ 0 := by
    intro h0
    have := abs_val_subnormal h0
    have h3 := two_zpow_le hk
    linarith
  obtain ⟨h3, h4⟩ := normal_window hb
  have a1 := two_zpow_lt_iff.1 (lt_of_le_of_lt h1 h4)
  have a2 := two_zpow_lt_iff.1 (lt_of_le_of_lt h3 h2)
  omega

/-- one term of the fixed-point sum -/
theorem sumTerm {t : ℕ} (h : (2 : ℝ) ^ (-178 : ℤ) ≤ |binary64.val t|) :
    FPBits.isZero binary64 t = false ∧ 0 ≤ FPBits.explicitExponent binary64 t - 52 + 230 ∧
      ((FPBits.explicitMantissa binary64 t <<< (FPBits.explicitExponent binary64 t - 52 + 230).toNat : ℕ) : ℝ) = |binary64.val t| * 2 ^ 230 := by
  have hb : binary64.bexp t ≠ 0 := by
    intro h0
    have := abs_val_subnormal h0
    have h3 : (2 : ℝ) ^ (-1022 : ℤ) ≤ (2 : ℝ) ^ (-178 : ℤ) := two_zpow_le (by norm_num)
    linarith
  have hz : FPBits.isZero binary64 t = false := by
    rw [FPBits.isZero_eq, zeroB, decide_eq_false_iff_not, ← val_eq_zero_iff]
    intro h0; rw [h0, abs_zero] at h
    have := two_zpow_pos (-178); linarith
  have he : FPBits.explicitExponent binary64 t = (binary64.bexp t : ℤ) - 1023 := by
    unfold FPBits.explicitExponent
    rw [hz, FPBits.biasedExp_eq]
    have : (binary64.bias : ℤ) = 1023 := by decide
    simp only [Bool.false_eq_true, if_false, this]
    rw [if_neg (by omega)]
  have hm : FPBits.explicitMantissa binary64 t = 2 ^ 52 + binary64.frac t := by
    unfold FPBits.explicitMantissa
    rw [FPBits.isSubnormal_eq, FPBits.sigBits_eq]
    simp only [decide_eq_true_eq, if_neg hb]
    rw [Nat.one_shiftLeft]
    exact two_pow_or_eq_add (binary64.frac_lt t)
  obtain ⟨-, hw⟩ := normal_window hb
  have h1 := two_zpow_lt_iff.1 (lt_of_le_of_lt h hw)
  refine ⟨hz, by omega, ?_⟩
  rw [he, hm, Nat.shiftLeft_eq, abs_val_normal hb]
  obtain ⟨n, hn⟩ := Int.eq_ofNat_of_zero_le (show 0 ≤ (binary64.bexp t : ℤ) - 1023 - 52 + 230 by omega)
  rw [hn, Int.toNat_natCast]
  have e1 : (2 : ℝ) ^ ((binary64.bexp t : ℤ) - 1023 - 52) * 2 ^ 230 = 2 ^ n := by
    rw [show ((2 : ℝ) ^ (230 : ℕ)) = (2 : ℝ) ^ (230 : ℤ) from (zpow_natCast _ _).symm, ← zpow_add₀ (by norm_num), hn, zpow_natCast]
  rw [mul_right_comm, e1]; push_cast; ring

/-- the accumulation of `exact_sign_of_sum` -/
theorem signSum_fold : ∀ (l : List ℕ) (p n : ℕ), (∀ t ∈ l, binary64.Valid t ∧ (binary64.val t = 0 ∨ (2 : ℝ) ^ (-178 : ℤ) ≤ |binary64.val t|)) →
    (p : ℝ) + n + (l.map fun t => |binary64.val t|).sum * 2 ^ 230 < 2 ^ 256 →
    ∃ p' n' : ℕ, l.foldl (fun (a : ℕ × ℕ) t =>
        if FPBits.isZero binary64 t then a
        else
          let shift : ℤ := FPBits.explicitExponent binary64 t - 52 + 230
          if shift < 0 then a
          else
            let term := (FPBits.explicitMantissa binary64 t <<< shift.toNat) % 2 ^ 256
            if FPBits.isNeg binary64 t then (a.1, (a.2 + term) % 2 ^ 256) else ((a.1 + term) % 2 ^ 256, a.2)) (p, n) = (p', n') ∧
      (p' : ℝ) - n' = p - n + (l.map fun t => binary64.val t).sum * 2 ^ 230 := by
  intro l
  induction l with
  | nil => intro p n _ _; exact ⟨p, n, rfl, by simp⟩
  | cons t l ih =>
    intro p n hl hs
    have ht := hl t (by simp)
    have hl' : ∀ t ∈ l, binary64.Valid t ∧ (binary64.val t = 0 ∨ (2 : ℝ) ^ (-178 : ℤ) ≤ |binary64.val t|) := fun u hu => hl u (by simp [hu])
    simp only [List.map_cons, List.sum_cons, List.foldl_cons] at hs ⊢
    have hnn : 0 ≤ (l.map fun t => |binary64.val t|).sum := List.sum_nonneg (by
      intro x hx; obtain ⟨u, -, rfl⟩ := List.mem_map.1 hx; exact abs_nonneg _)
    rcases ht.2 with h0 | hbig
    · have hz : FPBits.isZero binary64 t = true := by
        rw [FPBits.isZero_eq, zeroB, decide_eq_true_eq, ← val_eq_zero_iff]; exact h0
      simp only [hz, if_true]
      obtain ⟨p', n', e1, e2⟩ := ih p n hl' (by rw [h0, abs_zero, zero_add] at hs; exact hs)
      exact ⟨p', n', e1, by rw [e2, h0, zero_add]⟩
    · obtain ⟨hz, hsh, hterm⟩ := sumTerm hbig
      simp only [hz, Bool.false_eq_true, if_false, if_neg (not_lt.2 hsh)]
      generalize FPBits.explicitMantissa binary64 t <<< (FPBits.explicitExponent binary64 t - 52 + 230).toNat = T at *
      have hsum : (p : ℝ) + n + T + (l.map fun t => |binary64.val t|).sum * 2 ^ 230 < 2 ^ 256 := by
        rw [hterm]; linarith
      have hnn2 : 0 ≤ (l.map fun t => |binary64.val t|).sum * (2 : ℝ) ^ 230 := by positivity
      have hlt : p + n + T < 2 ^ 256 := by
        have : (p : ℝ) + n + T < 2 ^ 256 := by linarith
        exact_mod_cast this
      rw [FPBits.isNeg_eq binary64 ht.1, Nat.mod_eq_of_lt (show T < 2 ^ 256 by omega)]
      have hval : binary64.val t * 2 ^ 230 = sg (binary64.sgn t) * T := by
        rw [hterm, ← mul_assoc, ← CC.val_eq_sg_abs]
      cases hsg : binary64.sgn t
      · simp only [Bool.false_eq_true, if_false]
        rw [Nat.mod_eq_of_lt (show p + T < 2 ^ 256 by omega)]
        obtain ⟨p', n', e1, e2⟩ := ih (p + T) n hl' (by push_cast; linarith)
        refine ⟨p', n', e1, ?_⟩
        rw [e2]; rw [hsg] at hval; simp at hval; push_cast
        rw [add_mul, hval]; ring
      · simp only [if_true]
        rw [Nat.mod_eq_of_lt (show n + T < 2 ^ 256 by omega)]
        obtain ⟨p', n', e1, e2⟩ := ih p (n + T) hl' (by push_cast; linarith)
        refine ⟨p', n', e1, ?_⟩
        rw [e2]; rw [hsg] at hval; simp at hval; push_cast
        rw [add_mul, hval]; ring

/-- `s` is the sign of the real number `v`: `1`, `0` or `-1` -/
def IsSign (s : ℤ) (v : ℝ) : Prop := (0 < v ∧ s = 1) ∨ (v = 0 ∧ s = 0) ∨ (v < 0 ∧ s = -1)

theorem exactSignOfSum_spec {l : List ℕ} (hl : ∀ t ∈ l, binary64.Valid t ∧ (binary64.val t = 0 ∨ (2 : ℝ) ^ (-178 : ℤ) ≤ |binary64.val t|))
    (hs : (l.map fun t => |binary64.val t|).sum < 2 ^ 26) : IsSign (CC.exactSignOfSum l) (l.map fun t => binary64.val t).sum := by
  obtain ⟨p, n, e1, e2⟩ := signSum_fold l 0 0 hl (by
    have : (2 : ℝ) ^ 256 = 2 ^ 26 * 2 ^ 230 := by norm_num
    push_cast; rw [this, zero_add, zero_add]
    exact mul_lt_mul_of_pos_right hs (by positivity))
  unfold CC.exactSignOfSum
  rw [e1]
  simp only
  have hp : (0 : ℝ) < 2 ^ 230 := by positivity
  generalize (l.map fun t => binary64.val t).sum = S at *
  push_cast at e2
  have e3 : S * 2 ^ 230 = (p : ℝ) - n := by linarith
  unfold IsSign
  rcases lt_trichotomy p n with h | h | h
  · rw [if_neg (by omega), if_pos h]
    right; right
    have : (p : ℝ) < n := by exact_mod_cast h
    exact ⟨by by_contra hc; have := mul_nonneg (not_lt.1 hc) hp.le; linarith, rfl⟩
  · rw [if_neg (by omega), if_neg (by omega)]
    right; left
    rw [h, sub_self] at e3
    exact ⟨by simpa using e3, rfl⟩
  · rw [if_pos h]
    left
    have : (n : ℝ) < p := by exact_mod_cast h
    exact ⟨by by_contra hc; have := mul_nonneg (neg_nonneg.2 (not_lt.1 hc)) hp.le; linarith, rfl⟩

end Verif
