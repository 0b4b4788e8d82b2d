import Verif.Lemmas.LogC
import Verif.Lemmas.LogPoly
import Verif.Lemmas.Ln2

/-!
# The table branch of the double logarithm
-/

namespace Verif
open Fmt Real

/-- `log` is Lipschitz with the reciprocal of the smaller argument -/
theorem log_lip {a b m : ℝ} (hm : 0 < m) (ha : m ≤ a) (hb : m ≤ b) : |log a - log b| ≤ |a - b| / m := by
  have key : ∀ {a b : ℝ}, m ≤ a → m ≤ b → log a - log b ≤ |a - b| / m := by
    intro a b ha hb
    have hb0 : 0 < b := lt_of_lt_of_le hm hb
    have ha0 : 0 < a := lt_of_lt_of_le hm ha
    rw [← log_div ha0.ne' hb0.ne']
    refine (log_le_sub_one_of_pos (div_pos ha0 hb0)).trans ?_
    rw [div_sub_one hb0.ne']
    refine (div_le_div_of_nonneg_right (le_abs_self _) hb0.le).trans ?_
    exact div_le_div_of_nonneg_left (abs_nonneg _) hm hb
  rw [abs_le]
  constructor
  · have := key hb ha
    rw [abs_sub_comm] at this
    linarith
  · exact key ha hb

/-- the reduced argument `r` computed from `z` and the table entry: relation to `(z - c)/c` -/
theorem log_r (md : Mode) {z ch cl ic : ℕ} {c ρ : ℝ} (hz : binary64.Finite z) (hch : binary64.Finite ch) (hcl : binary64.Finite cl) (hic : binary64.Finite ic)
    (mz : Mult (-53) (binary64.val z)) (mc : Mult (-53) (binary64.val ch)) (hc : binary64.val ch + binary64.val cl = c) (hc1 : 1 / 2 ≤ c) (hc2 : c ≤ 2)
    (bcl : |binary64.val cl| ≤ 1 / 2 ^ 53) (hi : |binary64.val ic * c - 1| ≤ 1 / 2 ^ 100) (hρ0 : 1 / 1000 ≤ ρ) (hρ : ρ ≤ 1 / 128) (hzc : |binary64.val z - c| ≤ ρ * c) :
    let r := binary64.hmul md (binary64.hsub md (binary64.hsub md z ch) cl) ic
    binary64.Finite r ∧ |binary64.val r - (binary64.val z - c) / c| ≤ ru md * (2 * ρ + 1 / 2 ^ 40) ∧ |(binary64.val z - c) / c| ≤ ρ := by
  have hu := ru_pos md
  have hu1 := ru_ge md
  have hu2 := ru_le md
  have hc0 : 0 < c := by linarith
  have hd : |binary64.val z - binary64.val ch| ≤ 1 := by
    have e : binary64.val z - binary64.val ch = (binary64.val z - c) + binary64.val cl := by rw [← hc]; ring
    rw [e]
    refine (abs_add_le' hzc bcl).trans ?_
    have : ρ * c ≤ 1 / 128 * 2 := mul_le_mul hρ hc2 hc0.le (by norm_num)
    norm_num at this ⊢; linarith
  obtain ⟨f1, v1⟩ := ex64 (-53) (binary64.hsub_spec md hz hch) (mz.sub mc) (by norm_num) (by norm_num; exact hd) (hd.trans (by norm_num))
  dsimp only
  have hs : |binary64.val (binary64.hsub md z ch) - binary64.val cl| ≤ ρ * c := by
    rw [v1, show binary64.val z - binary64.val ch - binary64.val cl = binary64.val z - c by rw [← hc]; ring]; exact hzc
  have hρc : ρ * c ≤ 1 / 64 := by
    have : ρ * c ≤ 1 / 128 * 2 := mul_le_mul hρ hc2 hc0.le (by norm_num)
    linarith
  obtain ⟨f2, e2⟩ := st_sub md f1 hcl hs (by norm_num; linarith)
  rw [v1, show binary64.val z - binary64.val ch - binary64.val cl = binary64.val z - c by rw [← hc]; ring] at e2
  generalize binary64.hsub md (binary64.hsub md z ch) cl = t at *
  set T := binary64.val t with hT
  set Z := binary64.val z
  set I := binary64.val ic with hI
  have hIc := abs_le.1 hi
  have hI2 : |I| * c ≤ 1 + 1 / 2 ^ 100 := by
    have : |I| * c = |I * c| := by rw [abs_mul, abs_of_pos hc0]
    rw [this]
    have h3 : |I * c| ≤ 1 + 1 / 2 ^ 100 := by
      have := abs_near hi (show |(1 : ℝ)| ≤ 1 by norm_num)
      exact this
    exact h3
  have hI3 : |I| ≤ 3 := by
    have h3 : |I| * (1 / 2) ≤ |I| * c := mul_le_mul_of_nonneg_left hc1 (abs_nonneg _)
    norm_num at hI2 ⊢; linarith
  -- the product
  have g1 : |T * I - (Z - c) * I| ≤ ru md * (ρ + 1 / 2 ^ 90) := by
    rw [← sub_mul, abs_mul]
    have h3 := mul_le_mul_of_nonneg_right e2 (abs_nonneg I)
    refine h3.trans ?_
    have e : ru md * (ρ * c + 1 / 2 ^ 140) * |I| = ru md * (ρ * (|I| * c) + 1 / 2 ^ 140 * |I|) := by ring
    rw [e]
    refine mul_le_mul_of_nonneg_left ?_ hu.le
    have h4 : ρ * (|I| * c) ≤ ρ * (1 + 1 / 2 ^ 100) := mul_le_mul_of_nonneg_left hI2 (by linarith)
    norm_num at h4 ⊢; linarith
  have g2 : |(Z - c) * I - (Z - c) / c| ≤ 1 / 2 ^ 100 := by
    have e : (Z - c) * I - (Z - c) / c = (Z - c) / c * (I * c - 1) := by field_simp
    rw [e, abs_mul, abs_div, abs_of_pos hc0]
    have h3 : |Z - c| / c ≤ 1 := by rw [div_le_one hc0]; have := mul_le_mul_of_nonneg_right (show ρ ≤ 1 by linarith) hc0.le; linarith
    calc _ ≤ 1 * (1 / 2 ^ 100) := mul_le_mul h3 hi (abs_nonneg _) (by norm_num)
      _ = _ := one_mul _
  have g3 : |(Z - c) / c| ≤ ρ := by
    rw [abs_div, abs_of_pos hc0, div_le_iff₀ hc0]; exact hzc
  have g4 : |T * I| ≤ ρ + 1 / 2 ^ 50 := by
    have h3 := abs_tri g1 g2
    have h4 := abs_near h3 g3
    refine h4.trans ?_
    have h5 := mul_le_mul_of_nonneg_right hu2 (show 0 ≤ ρ + 1 / 2 ^ 90 by positivity)
    norm_num at h5 ⊢; linarith
  obtain ⟨f3, e3⟩ := st_mul md f2 hic g4 (by norm_num; linarith)
  refine ⟨f3, ?_, g3⟩
  refine (abs_tri e3 (abs_tri g1 g2)).trans ?_
  have h6 : (1 : ℝ) / 2 ^ 100 ≤ ru md * (1 / 2 ^ 47) := by
    have := mul_le_mul_of_nonneg_right hu1 (show (0 : ℝ) ≤ 1 / 2 ^ 47 by positivity)
    norm_num at this ⊢; linarith
  calc _ ≤ ru md * (ρ + 1 / 2 ^ 50 + 1 / 2 ^ 140) + (ru md * (ρ + 1 / 2 ^ 90) + ru md * (1 / 2 ^ 47)) := by linarith
    _ = ru md * (2 * ρ + (1 / 2 ^ 50 + 1 / 2 ^ 140 + 1 / 2 ^ 90 + 1 / 2 ^ 47)) := by ring
    _ ≤ _ := mul_le_mul_of_nonneg_left (by norm_num) hu.le

/-- the two parts of `log 2` -/
theorem ln2_split : |(3048493539143 / 2 ^ 42 + 544487923021427 / 2 ^ 93 : ℝ) - log 2| ≤ 1 / 2 ^ 90 := by
  have h := ln2_bounds
  rw [abs_le]
  constructor <;> norm_num at h ⊢ <;> linarith [h.1, h.2]

end Verif
