import Verif.Lemmas.LogTab
import Verif.Lemmas.LogRedF

/-!
# The tables of the float logarithms, checked by kernel evaluation
-/

namespace Verif
open Fmt Real

/-- `2^24` times the value of a float pattern between `1/2` and `2` -/
def zint (P : ℕ) : ℕ := (2 ^ 23 + P % 2 ^ 23) * 2 ^ (P / 2 ^ 23 - 126)

theorem zint_val {P : ℕ} (h1 : 126 * 2 ^ 23 ≤ P) (h2 : P < 128 * 2 ^ 23) : binary32.val P = zint P / 2 ^ 24 := by
  rw [(pat32 (P := P) (by omega) (by omega)).2]
  unfold zint
  generalize 2 ^ 23 + P % 2 ^ 23 = n
  have : P / 2 ^ 23 = 126 ∨ P / 2 ^ 23 = 127 := by omega
  rcases this with h | h <;> rw [h] <;> push_cast <;> norm_num <;> ring

theorem zint_mono {P Q : ℕ} (h : P ≤ Q) (h1 : 126 * 2 ^ 23 ≤ P) (h2 : Q < 128 * 2 ^ 23) : zint P ≤ zint Q := by
  unfold zint
  have hP : P / 2 ^ 23 = 126 ∨ P / 2 ^ 23 = 127 := by omega
  have hQ : Q / 2 ^ 23 = 126 ∨ Q / 2 ^ 23 = 127 := by omega
  rcases hP with e1 | e1 <;> rcases hQ with e2 | e2 <;> rw [e1, e2] <;> norm_num <;> omega

/-- the check for one entry: `Λn / Λd` is the factor of `logc`; `zl`, `zh` are the ends of the subinterval in units of `2^-24` -/
def logTabOkf (i ic lc zl zh Λn Λd : ℕ) : Bool :=
  let I := ints 112 ic
  let L := ints 112 lc
  intsOk 112 ic && intsOk 112 lc && decide (2 ^ 111 ≤ I) && decide (I ≤ 2 ^ 113) && decide (L.natAbs * Λn ≤ 2 ^ 112 * Λd) && decide (L.natAbs ≤ 2 ^ 112) &&
  (if 0 ≤ L then logChk 50 (2 ^ 112) I.toNat (L.natAbs * Λn) (2 ^ 112 * Λd) else logChk 50 I.toNat (2 ^ 112) (L.natAbs * Λn) (2 ^ 112 * Λd)) &&
  decide (-(10 * 2 ^ 136) ≤ 351 * (zl * I - 2 ^ 136)) && decide (97 * (zh * I - 2 ^ 136) ≤ 3 * 2 ^ 136) &&
  decide (i ≤ 8 → 41 * (zh * I - 2 ^ 136) ≤ 2 ^ 136) && decide (i = 10 → I * 10000 ≤ 9495 * 2 ^ 112)

theorem logTabOkf_spec {i ic lc zl zh Λn Λd : ℕ} (h : logTabOkf i ic lc zl zh Λn Λd = true) (hΛ : 0 < Λd) :
    binary64.Finite ic ∧ binary64.Finite lc ∧ 1 / 2 ≤ binary64.val ic ∧ binary64.val ic ≤ 2 ∧ |binary64.val lc| ≤ 1 ∧
    |log (binary64.val ic) + binary64.val lc * (Λn / Λd)| ≤ 11 / 10 / 2 ^ 50 ∧
    (∀ z : ℝ, (zl : ℝ) / 2 ^ 24 ≤ z → z ≤ (zh : ℝ) / 2 ^ 24 → -(10 / 351) ≤ z * binary64.val ic - 1 ∧ z * binary64.val ic - 1 ≤ 3 / 97 ∧
      (i ≤ 8 → z * binary64.val ic - 1 ≤ 1 / 41)) ∧ (i = 10 → binary64.val ic ≤ 9495 / 10000) := by
  unfold logTabOkf at h
  simp only [Bool.and_eq_true, decide_eq_true_eq] at h
  obtain ⟨⟨⟨⟨⟨⟨⟨⟨⟨⟨h1, h2⟩, h3⟩, h4⟩, h5⟩, h6⟩, h7⟩, h8⟩, h9⟩, h10⟩, h11⟩ := h
  obtain ⟨f1, v1⟩ := intsOk_spec h1
  obtain ⟨f2, v2⟩ := intsOk_spec h2
  rw [v1, v2]
  generalize ints 112 ic = I at *
  generalize ints 112 lc = L at *
  obtain ⟨c, rfl⟩ : ∃ c : ℕ, I = c := ⟨I.toNat, by omega⟩
  rw [Int.toNat_natCast] at h7
  have hc1 : (2 : ℝ) ^ 111 ≤ c := by exact_mod_cast h3
  have hc2 : (c : ℝ) ≤ 2 ^ 113 := by exact_mod_cast h4
  have hc0 : 0 < c := by have : (0 : ℝ) < c := lt_of_lt_of_le (by positivity) hc1
                         exact_mod_cast this
  have hc0' : (0 : ℝ) < c := by exact_mod_cast hc0
  have hΛ' : (0 : ℝ) < Λd := by exact_mod_cast hΛ
  have hLabs : |(L : ℝ)| = (L.natAbs : ℝ) := by rw [Nat.cast_natAbs, Int.cast_abs]
  have hLe : |(L : ℝ) / 2 ^ 112| * (Λn / Λd) = ((L.natAbs * Λn : ℕ) : ℝ) / ((2 ^ 112 * Λd : ℕ) : ℝ) := by
    rw [abs_div, hLabs, abs_of_pos (show (0 : ℝ) < 2 ^ 112 by positivity)]
    rw [Nat.cast_mul, Nat.cast_mul, Nat.cast_pow, Nat.cast_ofNat]
    field_simp
  have hpos : 0 < 2 ^ 112 * Λd := by positivity
  rw [Int.cast_natCast]
  refine ⟨f1, f2, ?_, ?_, ?_, ?_, ?_, ?_⟩
  · rw [le_div_iff₀ (by positivity)]; norm_num at hc1 ⊢; linarith
  · rw [div_le_iff₀ (by positivity)]; norm_num at hc2 ⊢; linarith
  · have := natAbs_le_real h6
    rw [abs_div, abs_of_pos (show (0 : ℝ) < 2 ^ 112 by positivity), div_le_iff₀ (by positivity)]
    refine this.trans ?_
    norm_num
  · split_ifs at h7 with hs
    · have := logChk_sound h7 hc0 hpos h5 (by norm_num)
      rw [← hLe] at this
      have hL0 : (0 : ℝ) ≤ L := by exact_mod_cast hs
      rw [abs_of_nonneg (show (0 : ℝ) ≤ L / 2 ^ 112 by positivity)] at this
      have e : log (((2 ^ 112 : ℕ) : ℝ) / c) = -log (c / 2 ^ 112) := by
        rw [← log_inv, inv_div, Nat.cast_pow, Nat.cast_ofNat]
      rw [e, show -log (c / 2 ^ 112) - ((L : ℝ) / 2 ^ 112) * (Λn / Λd) = -(log (c / 2 ^ 112) + (L : ℝ) / 2 ^ 112 * (Λn / Λd)) by ring, abs_neg] at this
      exact this.trans (by norm_num)
    · have := logChk_sound h7 (by positivity) hpos h5 (by norm_num)
      rw [← hLe] at this
      have hL0 : (L : ℝ) < 0 := by exact_mod_cast not_le.1 hs
      rw [abs_of_neg (show (L : ℝ) / 2 ^ 112 < 0 from div_neg_of_neg_of_pos hL0 (by positivity))] at this
      rw [Nat.cast_pow, Nat.cast_ofNat, neg_mul, sub_neg_eq_add] at this
      exact this.trans (by norm_num)
  · intro z hz1 hz2
    have g0 : (0 : ℝ) ≤ c / 2 ^ 112 := by positivity
    have g1 := mul_le_mul_of_nonneg_right hz1 g0
    have g2 := mul_le_mul_of_nonneg_right hz2 g0
    have e1 : (zl : ℝ) / 2 ^ 24 * (c / 2 ^ 112) - 1 = (zl * c - 2 ^ 136) / 2 ^ 136 := by rw [sub_div, div_mul_div_comm, ← pow_add, div_self (by positivity)]
    have e2 : (zh : ℝ) / 2 ^ 24 * (c / 2 ^ 112) - 1 = (zh * c - 2 ^ 136) / 2 ^ 136 := by rw [sub_div, div_mul_div_comm, ← pow_add, div_self (by positivity)]
    refine ⟨?_, ?_, ?_⟩
    · have : -(10 / 351 : ℝ) ≤ (zl : ℝ) / 2 ^ 24 * (c / 2 ^ 112) - 1 := by
        have k : (-(10 * 2 ^ 136) : ℝ) ≤ 351 * (zl * c - 2 ^ 136) := by exact_mod_cast h8
        rw [e1, le_div_iff₀ (by positivity)]; linarith
      linarith
    · have : (zh : ℝ) / 2 ^ 24 * (c / 2 ^ 112) - 1 ≤ 3 / 97 := by
        have k : (97 * (zh * c - 2 ^ 136) : ℝ) ≤ 3 * 2 ^ 136 := by exact_mod_cast h9
        rw [e2, div_le_iff₀ (by positivity)]; linarith
      linarith
    · intro hi
      have : (zh : ℝ) / 2 ^ 24 * (c / 2 ^ 112) - 1 ≤ 1 / 41 := by
        have k : (41 * (zh * c - 2 ^ 136) : ℝ) ≤ 2 ^ 136 := by exact_mod_cast h10 hi
        rw [e2, div_le_iff₀ (by positivity)]; linarith
      linarith
  · intro hi
    have k : (c * 10000 : ℝ) ≤ 9495 * 2 ^ 112 := by exact_mod_cast h11 hi
    rw [div_le_iff₀ (by positivity)]; linarith

/-- all entries of the table of the float `log` pass -/
theorem logTabf_ok : ∀ i < 16, logTabOkf i (CC.logInvcf.getD i 0) (CC.logLogcf.getD i 0) (zint (0x3f330000 + i * 2 ^ 19)) (zint (0x3f330000 + (i + 1) * 2 ^ 19)) 1 1 = true := by
  decide +kernel

/-- all entries of the table of the float `log2` pass -/
theorem log2Tabf_ok : ∀ i < 16, logTabOkf i (CC.log2Invcf.getD i 0) (CC.log2Logcf.getD i 0) (zint (0x3f330000 + i * 2 ^ 19)) (zint (0x3f330000 + (i + 1) * 2 ^ 19))
    ln2N (2 ^ 160) = true := by decide +kernel

end Verif
