import Verif.Lemmas.PowF6
import Verif.Lemmas.Ipow3
import Verif.Props.Sqrt

/-! The small integer powers of `powf`, the replacement of large exponents and the accuracy of `powf` (Model/PowF). -/

namespace Verif

open CC Fmt Real

theorem powfLoop_spec (m : Mode) {x : ℕ} (hx : binary64.Finite x) {X : ℝ} (hX : binary64.val x = X) : ∀ (k : ℕ) {r j : ℕ}, binary64.Finite r →
    |binary64.val r - X ^ j| ≤ j / 2 ^ 51 * |X| ^ j → j + k ≤ 24 → (∀ i ≤ j + k, (2 : ℝ) ^ (-250 : ℤ) ≤ |X| ^ i ∧ |X| ^ i ≤ 2 ^ (250 : ℤ)) →
    binary64.Finite (CC.powfLoop m x k r) ∧ |binary64.val (CC.powfLoop m x k r) - X ^ (j + k)| ≤ ((j + k : ℕ) : ℝ) / 2 ^ 51 * |X| ^ (j + k) := by
  intro k
  induction k with
  | zero => intro r j hr he _ _; exact ⟨hr, he⟩
  | succ k ih =>
    intro r j hr he hj hb
    unfold CC.powfLoop
    have R := hmul_spec binary64 m hr hx
    rw [hX] at R
    obtain ⟨b1, b2⟩ := hb (j + 1) (by omega)
    have hj' : (j : ℝ) ≤ 24 := by exact_mod_cast (by omega : j ≤ 24)
    have hX0 : (0 : ℝ) ≤ |X| := abs_nonneg X
    have d1 : |binary64.val r * X - X ^ (j + 1)| ≤ j / 2 ^ 51 * |X| ^ (j + 1) := by
      rw [pow_succ X j, ← sub_mul, abs_mul, pow_succ |X| j, ← mul_assoc]
      exact mul_le_mul_of_nonneg_right he hX0
    have hP : 0 < |X| ^ (j + 1) := lt_of_lt_of_le (two_zpow_pos _) b1
    have hPa : |X ^ (j + 1)| = |X| ^ (j + 1) := abs_pow X (j + 1)
    have hs : (j : ℝ) / 2 ^ 51 * |X| ^ (j + 1) ≤ 1 / 2 * |X| ^ (j + 1) := by
      refine mul_le_mul_of_nonneg_right ?_ hP.le
      rw [div_le_iff₀ (by norm_num)]; norm_num; linarith
    have d2 := abs_le.1 ((abs_abs_sub_abs_le (binary64.val r * X) (X ^ (j + 1))).trans (d1.trans hs))
    rw [hPa] at d2
    have lo : (2 : ℝ) ^ (-1000 : ℤ) ≤ |binary64.val r * X| := by
      have h1 : (2 : ℝ) ^ (-1000 : ℤ) ≤ 2 ^ (-251 : ℤ) := two_zpow_le (by norm_num)
      have h2 : (2 : ℝ) ^ (-250 : ℤ) = 2 ^ (-251 : ℤ) * 2 := by rw [← zpow_add_one₀ (by norm_num)]; norm_num
      refine h1.trans ?_
      rw [h2] at b1
      clear b2 h1 h2 hb
      generalize (2 : ℝ) ^ (-251 : ℤ) = u at *
      linarith [d2.1]
    have hi : |binary64.val r * X| ≤ (2 : ℝ) ^ (1000 : ℤ) := by
      have h1 : (2 : ℝ) ^ (251 : ℤ) ≤ 2 ^ (1000 : ℤ) := two_zpow_le (by norm_num)
      have h2 : (2 : ℝ) ^ (251 : ℤ) = 2 ^ (250 : ℤ) * 2 := by rw [← zpow_add_one₀ (by norm_num)]; norm_num
      refine le_trans ?_ h1
      rw [h2]
      clear b1 h1 h2 hb lo
      generalize (2 : ℝ) ^ (250 : ℤ) = u at *
      linarith [d2.2]
    obtain ⟨f1, e1⟩ := rnd_rel1000 R lo hi
    have e2 : 1 / 2 ^ 52 * |binary64.val r * X| ≤ 1 / 2 ^ 51 * |X| ^ (j + 1) := by
      clear b1 b2 lo hi hb
      have := d2.2
      norm_num at this ⊢
      linarith
    have := ih (r := binary64.hmul m r x) (j := j + 1) f1 (by
      refine (abs_sub_le _ (binary64.val r * X) _).trans ((add_le_add (e1.trans e2) d1).trans (le_of_eq ?_))
      push_cast; ring) (by omega) (fun i hi => hb i (by omega))
    rw [show j + 1 + k = j + (k + 1) by ring] at this
    exact this

/-- the size of `a^b` -/
theorem powf_size {A Y : ℝ} (hT : |Y * (log A / log 2)| ≤ 200) : (2 : ℝ) ^ (-200 : ℤ) ≤ exp (Y * log A) ∧ exp (Y * log A) ≤ 2 ^ (200 : ℤ) := by
  have l2 : 0 < log 2 := log_pos (by norm_num)
  have e : Y * log A = Y * (log A / log 2) * log 2 := by field_simp
  obtain ⟨h1, h2⟩ := abs_le.1 hT
  have c : ∀ k : ℤ, (2 : ℝ) ^ k = exp ((k : ℝ) * log 2) := by
    intro k; rw [← rpow_intCast, rpow_def_of_pos (by norm_num), mul_comm]
  rw [c, c, e]
  constructor <;> apply exp_le_exp.2 <;> apply mul_le_mul_of_nonneg_right _ l2.le <;> push_cast <;> linarith

theorem powfInt_spec {m : Mode} {x y r : ℕ} (hx : binary32.Finite x) (hx0 : binary32.val x ≠ 0) (hy : binary32.Finite y) (hT : |binary32.val y * (log |binary32.val x| / log 2)| ≤ 200)
    (h : CC.powfInt m x y = some r) :
    ∃ n : ℤ, binary32.val y = n ∧ ∃ zs w, binary32.RoundsTo m zs w r ∧ |w - binary32.val x ^ n| ≤ 1 / 2 ^ 40 * |binary32.val x ^ n| := by
  unfold CC.powfInt at h
  rw [Option.ite_none_right_eq_some] at h
  obtain ⟨hc, h⟩ := h
  simp only [Bool.and_eq_true, decide_eq_true_eq] at hc
  obtain ⟨⟨c1, c2⟩, c3⟩ := hc
  have hm : binary32.mag y = y := Nat.mod_eq_of_lt (by change y < 2 ^ 31; omega)
  have hp : 0 < binary32.val y := by
    have hne : binary32.val y ≠ 0 := by rw [Ne, val_eq_zero_iff, hm]; omega
    exact (sign32 hy hne).2.1 (by omega)
  have b1 : 2 ≤ binary32.val y := by
    have : |binary32.val 0x40000000| ≤ |binary32.val y| := by rw [mag_le32, hm]; exact c2.le
    rw [lit32_vals.2.2.2.2.2.1, abs_of_pos hp] at this
    simpa using this
  have b2 : binary32.val y ≤ 24 := by
    have : |binary32.val y| ≤ |binary32.val 0x41c00000| := by rw [mag_le32, hm]; exact c3
    have v : binary32.val 0x41c00000 = 24 := by
      have := (bits32 (e := 130) (m := 0xc00000) (by norm_num) (by norm_num) (by norm_num)).2
      norm_num at this ⊢; exact this
    rw [v, abs_of_pos hp] at this
    simpa using this
  obtain ⟨n, hn⟩ := (isIntegerF_spec hy hp.ne').1 c1
  rw [hn] at b1 b2
  have n1 : 2 ≤ n := by exact_mod_cast b1
  have n2 : n ≤ 24 := by exact_mod_cast b2
  obtain ⟨k, rfl⟩ := Int.eq_ofNat_of_zero_le (by omega : 0 ≤ n)
  have ht : CC.truncInt (binary64.hcvt binary32 m y) = (k : ℤ) := truncInt_int (by rw [(cvt_up m hy).2, hn])
  simp only [ht] at h
  refine ⟨k, hn, ?_⟩
  split_ifs at h <;> simp only [Option.some.injEq, reduceCtorEq] at h
  all_goals
    rw [Int.toNat_natCast] at h
    obtain ⟨fx, vx⟩ := cvt_up m hx
    have hA : 0 < |binary32.val x| := abs_pos.2 hx0
    have sz := powf_size hT
    rw [hn, mul_comm, ← rpow_def_of_pos hA, rpow_intCast, zpow_natCast] at sz
    have bd : ∀ i ≤ k, (2 : ℝ) ^ (-250 : ℤ) ≤ |binary32.val x| ^ i ∧ |binary32.val x| ^ i ≤ 2 ^ (250 : ℤ) := by
      intro i hi
      have z1 : (2 : ℝ) ^ (-250 : ℤ) ≤ 2 ^ (-200 : ℤ) := two_zpow_le (by norm_num)
      have z2 : (2 : ℝ) ^ (200 : ℤ) ≤ 2 ^ (250 : ℤ) := two_zpow_le (by norm_num)
      have z3 : (2 : ℝ) ^ (-250 : ℤ) ≤ 2 ^ (0 : ℤ) := two_zpow_le (by norm_num)
      have z4 : (2 : ℝ) ^ (0 : ℤ) ≤ 2 ^ (250 : ℤ) := two_zpow_le (by norm_num)
      rw [zpow_zero] at z3 z4
      rcases le_total 1 |binary32.val x| with g | g
      · exact ⟨z3.trans (one_le_pow₀ g), ((pow_le_pow_right₀ g hi).trans sz.2).trans z2⟩
      · exact ⟨z1.trans (sz.1.trans (pow_le_pow_of_le_one hA.le g hi)), (pow_le_one₀ hA.le g).trans z4⟩
    obtain ⟨f, e⟩ := powfLoop_spec m fx vx (k - 1) (r := binary64.hcvt binary32 m x) (j := 1) fx (by rw [vx, pow_one, sub_self, abs_zero]; positivity) (by omega)
      (by rw [show 1 + (k - 1) = k by omega]; exact bd)
    rw [show 1 + (k - 1) = k by omega] at e
    refine ⟨_, _, h ▸ CC.hcvt_spec binary32 binary64 m f, ?_⟩
    rw [zpow_natCast, abs_pow]
    refine e.trans (mul_le_mul_of_nonneg_right ?_ (pow_nonneg hA.le _))
    have : (k : ℝ) ≤ 24 := by exact_mod_cast n2
    rw [div_le_iff₀ (by norm_num)]; norm_num; linarith

/-- an exponent beyond the bound together with a result of moderate size: the base is `±1` -/
theorem powf_clamp_base {x y : ℕ} (hT : |binary32.val y * (log |binary32.val x| / log 2)| ≤ 200) (hx0 : binary32.val x ≠ 0)
    (hb : 0x4f170000 < binary32.mag y) : |binary32.val x| = 1 := by
  obtain ⟨v1, v2, v3, v4, -⟩ := lit32_vals
  have hY : 2533359616 ≤ |binary32.val y| := by
    have : |binary32.val 0x4f170000| ≤ |binary32.val y| := by rw [mag_le32]; exact hb.le
    rw [v3] at this; simpa using this
  have l2 := log2_lo
  have hA : 0 < |binary32.val x| := abs_pos.2 hx0
  by_contra hne
  have key : 1 / 2 ^ 24 ≤ |log (|binary32.val x|)| := by
    have one_mag : |binary32.val 0x3f800000| = 1 := by rw [v4, abs_one]
    rcases lt_or_gt_of_ne hne with h | h
    · have h1 : binary32.mag x ≤ 0x3f7fffff := by
        rw [← one_mag, ← not_le, mag_le32, show binary32.mag 0x3f800000 = 0x3f800000 by decide +kernel] at h
        omega
      have h2 : |binary32.val x| ≤ |binary32.val 0x3f7fffff| := by rw [mag_le32]; exact h1
      rw [v2, abs_of_pos (by norm_num : (0 : ℝ) < 1 - 1 / 2 ^ 24)] at h2
      have h3 := log_le_sub_one_of_pos hA
      rw [abs_of_nonpos (by linarith)]; linarith
    · have h1 : 0x3f800001 ≤ binary32.mag x := by
        rw [← one_mag, ← not_le, mag_le32, show binary32.mag 0x3f800000 = 0x3f800000 by decide +kernel] at h
        omega
      have h2 : |binary32.val 0x3f800001| ≤ |binary32.val x| := by rw [mag_le32]; exact h1
      rw [v1, abs_of_pos (by norm_num : (0 : ℝ) < 1 + 1 / 2 ^ 23)] at h2
      have h3 := one_sub_inv_le_log_of_pos hA
      have h4 : |binary32.val x|⁻¹ ≤ (1 + 1 / 2 ^ 23 : ℝ)⁻¹ := inv_anti₀ (by norm_num) h2
      have h5 : (1 + 1 / 2 ^ 23 : ℝ)⁻¹ ≤ 1 - 1 / 2 ^ 24 := by norm_num
      generalize log |binary32.val x| = L at *
      rw [abs_of_nonneg (by norm_num at h4 h5 ⊢; linarith)]; linarith
  rw [abs_mul, abs_div, abs_of_pos (by linarith : 0 < log 2)] at hT
  have h6 : (1 / 2 ^ 24 : ℝ) / (6932 / 10000) ≤ |log (|binary32.val x|)| / log 2 := div_le_div₀ (abs_nonneg _) key (by linarith) l2.2
  have h7 := mul_le_mul hY h6 (by norm_num) (abs_nonneg _)
  generalize log |binary32.val x| = L at *
  norm_num at h7
  linarith

/-- the replaced exponent -/
theorem powfClampY_big {y : ℕ} (hb : 0x4f170000 < binary32.mag y) : (CC.powfClampY y = 0x4f800000 ∨ CC.powfClampY y = 0xcf800000) := by
  unfold CC.powfClampY
  rw [abs32, if_pos hb]
  have hsm : FPBits.signMask binary32 = 2 ^ 31 := by decide +kernel
  rw [hsm]
  rw [Nat.and_two_pow]
  cases y.testBit 31 <;> simp

theorem big_even32 {y : ℕ} (hy : binary32.Valid y) (hb : 0x4f170000 < binary32.mag y) : CC.isOddIntegerF y = false := by
  obtain ⟨h1, t, h2, -⟩ := oddTest_spec32 hy
  unfold CC.isOddIntegerF
  simp only [h1]
  have : binary32.bexp y = binary32.mag y / 2 ^ 23 := rfl
  rw [decide_eq_false_iff_not]
  omega

/-- the first part of the special cases, for finite arguments -/
theorem powfYCase_split (m : Mode) {x y : ℕ} (hy : binary32.Finite y) (hy0 : binary32.val y ≠ 0) :
    CC.powfYCase m x y = none ∨ y = 0x3f000000 ∨ (y = CC.one32 ∧ CC.powfYCase m x y = some (x, {})) ∨ (y = 0x40000000 ∧ CC.powfYCase m x y = some (binary32.hmul m x x, {})) ∨
      ∃ r, CC.powfInt m x y = some r ∧ CC.powfYCase m x y = some (r, {}) := by
  have hz : binary32.heq y 0 = false := by
    rw [Bool.eq_false_iff, Ne, CC.heq_finite binary32 hy (by rw [finite_iff]; decide +kernel), show binary32.val 0 = 0 from (val_eq_zero_iff binary32 0).2 (by decide +kernel)]
    exact hy0
  have hf := ((binary32.finite_iff y).1 hy).2
  rw [inf32] at hf
  by_cases hA : FPBits.abs binary32 y &&& 0x7ffff = 0 ∨ FPBits.abs binary32 y > 0x4f170000
  swap
  · left; unfold CC.powfYCase; simp only [if_pos hA]
  by_cases h1 : y = 0x3f000000
  · exact Or.inr (Or.inl h1)
  have hi : ¬ FPBits.abs binary32 y = 0x7f800000 := by rw [abs32]; omega
  have hn : ¬ FPBits.abs binary32 y > 0x7f800000 := by rw [abs32]; omega
  have e : CC.powfYCase m x y = if y = CC.one32 then some (x, {}) else if y = 0x40000000 then some (binary32.hmul m x x, {}) else match CC.powfInt m x y with
      | some r => some (r, {})
      | none => none := by
    unfold CC.powfYCase
    simp only [if_neg (not_not.2 hA), hz, Bool.false_eq_true, if_false, if_neg hi, if_neg hn, if_neg h1]
    cases CC.powfInt m x y <;> rfl
  by_cases h2 : y = CC.one32
  · exact Or.inr (Or.inr (Or.inl ⟨h2, by rw [e, if_pos h2]⟩))
  by_cases h3 : y = 0x40000000
  · exact Or.inr (Or.inr (Or.inr (Or.inl ⟨h3, by rw [e, if_neg h2, if_pos h3]⟩)))
  rw [if_neg h2, if_neg h3] at e
  cases h4 : CC.powfInt m x y with
  | none => left; rw [e, h4]
  | some r => exact Or.inr (Or.inr (Or.inr (Or.inr ⟨r, rfl, by rw [e, h4]⟩)))

/-- the second part of the special cases does not apply to an ordinary base -/
theorem powfXCase_none (m : Mode) {x y' y : ℕ} (hx : binary32.Finite x) (hx0 : binary32.val x ≠ 0) (h1 : x ≠ CC.one32) (h2 : x ≠ 0x40000000) (h10 : x ≠ 0x41200000)
    (hi : x ≥ FPBits.signMask binary32 → CC.isIntegerF y' = true) : CC.powfXCase m x y' y = none := by
  have hz : binary32.heq x 0 = false := by
    rw [Bool.eq_false_iff, Ne, CC.heq_finite binary32 hx (by rw [finite_iff]; decide +kernel), show binary32.val 0 = 0 from (val_eq_zero_iff binary32 0).2 (by decide +kernel)]
    exact hx0
  have hf := ((binary32.finite_iff x).1 hx).2
  rw [inf32] at hf
  have hi' : ¬ FPBits.abs binary32 x = 0x7f800000 := by rw [abs32]; omega
  have hn : ¬ FPBits.abs binary32 x > 0x7f800000 := by rw [abs32]; omega
  have hl : ¬ (x ≥ FPBits.signMask binary32 ∧ (!CC.isIntegerF y') = true) := by
    rintro ⟨g1, g2⟩
    rw [hi g1] at g2
    simp at g2
  unfold CC.powfXCase
  simp only [if_neg h1, if_neg h2, if_neg h10, hz, Bool.false_eq_true, if_false, if_neg hi', if_neg hn, if_neg hl, ite_self]

/-- an integer power through the exponential, with its sign -/
theorem powf_sign {x y : ℕ} {n : ℤ} (hx : binary32.Finite x) (hx0 : binary32.val x ≠ 0) (hy : binary32.Finite y) (hn : binary32.val y = n) :
    (if (decide (x ≥ FPBits.signMask binary32) && CC.isOddIntegerF y) = true then -1 else 1) * exp (binary32.val y * log |binary32.val x|) = binary32.val x ^ n := by
  have hA : 0 < |binary32.val x| := abs_pos.2 hx0
  rw [mul_comm (binary32.val y), ← rpow_def_of_pos hA, hn, rpow_intCast]
  have hodd : CC.isOddIntegerF y = true ↔ Odd n := by
    rw [isOddF_spec hy, hn]
    constructor
    · rintro ⟨k, hk⟩; exact ⟨k, by exact_mod_cast hk⟩
    · rintro ⟨k, hk⟩; exact ⟨k, by rw [hk]; push_cast; rfl⟩
  have hs := (sign32 hx hx0).1
  simp only [Bool.and_eq_true, decide_eq_true_eq, hs, hodd]
  rcases lt_or_gt_of_ne hx0 with h | h
  · rw [abs_of_neg h]
    by_cases ho : Odd n
    · rw [if_pos ⟨h, ho⟩, ho.neg_zpow]; ring
    · rw [if_neg (fun g => ho g.2), (Int.not_odd_iff_even.1 ho).neg_zpow, one_mul]
  · rw [if_neg (fun g => (h.trans g.1).false), abs_of_pos h, one_mul]

theorem rt_false32 {m : Mode} {zs : Bool} {w V c : ℝ} {b : ℕ} (R : binary32.RoundsTo m zs w b) (hV : V ≠ 0) (e : |w - V| ≤ c * |V|) (hc : c < 1) : binary32.RoundsTo m false w b := by
  have hw0 : w ≠ 0 := by
    rintro rfl
    rw [zero_sub, abs_neg] at e
    have := abs_pos.2 hV
    nlinarith
  exact ⟨R.valid, R.value, by rw [R.sign, if_neg hw0, if_neg hw0]⟩

/-- the accuracy of `powf`, for all bases except `2` and `10` and results between `2^-200` and `2^200` -/
theorem powF_main {ce fused : Bool} {m : Mode} (hc : ce = false ∨ m = .nearest) {x y : ℕ} (hx : binary32.Finite x) (hx0 : binary32.val x ≠ 0) (h2 : x ≠ 0x40000000) (h10 : x ≠ 0x41200000)
    (hy : binary32.Finite y) (hsg : 0 < binary32.val x ∨ ∃ n : ℤ, binary32.val y = n) (hT : |binary32.val y * (log |binary32.val x| / log 2)| ≤ 200) {V : ℝ}
    (hV : V = (if (decide (x ≥ FPBits.signMask binary32) && CC.isOddIntegerF y) = true then -1 else 1) * exp (binary32.val y * log |binary32.val x|)) :
    ∃ b eff, CC.powF ce fused m x y = some (b, eff) ∧ ∃ w, binary32.RoundsTo m false w b ∧ |w - V| ≤ 1 / 2 ^ 31 * |V| := by
  have hA : 0 < |binary32.val x| := abs_pos.2 hx0
  have hPa : |V| = exp (binary32.val y * log |binary32.val x|) := by
    rw [hV, abs_mul, abs_of_pos (exp_pos _)]
    split_ifs <;> simp
  have hV0 : V ≠ 0 := by rw [← abs_pos, hPa]; exact exp_pos _
  have fin : ∀ {b eff zs w}, CC.powF ce fused m x y = some (b, eff) → binary32.RoundsTo m zs w b → |w - V| ≤ 1 / 2 ^ 31 * |V| →
      ∃ b eff, CC.powF ce fused m x y = some (b, eff) ∧ ∃ w, binary32.RoundsTo m false w b ∧ |w - V| ≤ 1 / 2 ^ 31 * |V| := by
    intro b eff zs w a1 a2 a3
    exact ⟨b, eff, a1, w, rt_false32 a2 hV0 a3 (by norm_num), a3⟩
  have fin0 : ∀ {b eff zs}, CC.powF ce fused m x y = some (b, eff) → binary32.RoundsTo m zs V b →
      ∃ b eff, CC.powF ce fused m x y = some (b, eff) ∧ ∃ w, binary32.RoundsTo m false w b ∧ |w - V| ≤ 1 / 2 ^ 31 * |V| := by
    intro b eff zs a1 a2
    exact fin a1 a2 (by rw [sub_self, abs_zero]; positivity)
  have f1 : binary32.Finite CC.one32 := by rw [finite_iff]; decide +kernel
  have v1 : binary32.val CC.one32 = 1 := lit32_vals.2.2.2.1
  have r1 := binary32.roundsTo_self (m := m) f1
  rw [v1] at r1
  by_cases hy0 : binary32.val y = 0
  · -- the exponent zero
    have e : CC.powF ce fused m x y = some (CC.one32, {}) := by
      have hz : binary32.heq y 0 = true := by
        rw [CC.heq_finite binary32 hy (by rw [finite_iff]; decide +kernel), show binary32.val 0 = 0 from (val_eq_zero_iff binary32 0).2 (by decide +kernel)]
        exact hy0
      have hm : FPBits.abs binary32 y = 0 := by rw [abs32]; exact (val_eq_zero_iff binary32 y).1 hy0
      unfold CC.powF CC.powfYCase
      simp [hz, hm]
    have hVe : V = 1 := by
      rw [hV, powf_sign hx hx0 hy (n := 0) (by rw [hy0, Int.cast_zero]), zpow_zero]
    exact fin0 e (hVe ▸ r1)
  have some_case : ∀ {r}, CC.powfYCase m x y = some r → CC.powF ce fused m x y = some r := by
    intro r h; unfold CC.powF; simp only [h]
  rcases powfYCase_split m (x := x) hy hy0 with h | h | ⟨h, he⟩ | ⟨h, he⟩ | ⟨r, hr, he⟩
  · -- the second part
    by_cases hx1 : x = CC.one32
    · have e : CC.powF ce fused m x y = some (CC.one32, {}) := by
        unfold CC.powF
        simp only [h]
        have : CC.powfXCase m x (CC.powfClampY y) y = some (CC.one32, {}) := by
          unfold CC.powfXCase
          rw [hx1]
          simp [CC.one32]
        rw [this]
      have hVe : V = 1 := by
        rw [hV, hx1, v1, abs_one, log_one, mul_zero, exp_zero, mul_one]
        exact if_neg (by rw [Bool.and_eq_true, decide_eq_true_eq]; intro g; exact absurd g.1 (by decide +kernel))
      exact fin0 e (hVe ▸ r1)
    -- the exponent after the replacement
    obtain ⟨g1, g2, g3, g4, g5, g6⟩ : binary32.Finite (CC.powfClampY y) ∧ binary32.val (CC.powfClampY y) ≠ 0 ∧ |binary32.val (CC.powfClampY y)| ≤ 2 ^ 33 ∧
        (x ≥ FPBits.signMask binary32 → CC.isIntegerF (CC.powfClampY y) = true) ∧ (x ≥ FPBits.signMask binary32 → CC.isOddIntegerF (CC.powfClampY y) = CC.isOddIntegerF y) ∧
        binary32.val (CC.powfClampY y) * log |binary32.val x| = binary32.val y * log |binary32.val x| := by
      by_cases hb : 0x4f170000 < binary32.mag y
      · have hx1' := powf_clamp_base hT hx0 hb
        have hodd := big_even32 hy.1 hb
        have v32 : binary32.val 0x4f800000 = 2 ^ 32 := lit32_vals.2.2.2.2.2.2.1
        have v32' : binary32.val 0xcf800000 = -2 ^ 32 := by
          rw [← v32, ← val_hneg]; congr 1
        rw [hodd, hx1', log_one, mul_zero, mul_zero]
        rcases powfClampY_big hb with g | g <;> rw [g]
        · refine ⟨by rw [finite_iff]; decide +kernel, by rw [v32]; norm_num, by rw [v32]; norm_num, fun _ => by decide +kernel, fun _ => by decide +kernel, rfl⟩
        · refine ⟨by rw [finite_iff]; decide +kernel, by rw [v32']; norm_num, by rw [v32']; norm_num, fun _ => by decide +kernel, fun _ => by decide +kernel, rfl⟩
      · have hcl : CC.powfClampY y = y := by unfold CC.powfClampY; rw [abs32, if_neg hb]
        rw [hcl]
        refine ⟨hy, hy0, ?_, ?_, fun _ => rfl, rfl⟩
        · have : |binary32.val y| ≤ |binary32.val 0x4f170000| := by rw [mag_le32]; exact not_lt.1 hb
          rw [lit32_vals.2.2.1] at this
          norm_num at this ⊢; linarith
        · intro g
          rcases hsg with g' | g'
          · exact absurd ((sign32 hx hx0).1.1 g) (not_lt.2 g'.le)
          · exact (isIntegerF_spec hy hy0).2 g'
    have hX := powfXCase_none m (y := y) hx hx0 hx1 h2 h10 g4
    obtain ⟨E, E1, E2, E3⟩ := powfFront m hx hx0 rfl rfl rfl rfl
    have hTe : 64 * binary32.val (CC.powfClampY y) * (log |binary32.val x| / log 2) = 64 * (binary32.val y * (log |binary32.val x| / log 2)) := by
      have := congrArg (· / log 2) g6
      simp only [mul_div_assoc] at this
      rw [mul_assoc, this]
    obtain ⟨b, eff, k1, zs, v, k2, k3⟩ := powfKernel_spec (fused := fused) hc (decide (x ≥ FPBits.signMask binary32) && CC.isOddIntegerF (CC.powfClampY y)) E1 E2 g1 g2 g3 E3 rfl
      (by rw [hTe, abs_mul, abs_of_pos (by norm_num : (0 : ℝ) < 64)]; linarith)
    have hsgn : (decide (x ≥ FPBits.signMask binary32) && CC.isOddIntegerF (CC.powfClampY y)) = (decide (x ≥ FPBits.signMask binary32) && CC.isOddIntegerF y) := by
      by_cases g : x ≥ FPBits.signMask binary32
      · rw [g5 g]
      · rw [decide_eq_false g, Bool.false_and, Bool.false_and]
    rw [hTe, g6, ← hPa] at k3
    rw [← hPa, ← hsgn] at hV
    rw [← hV] at k3
    refine fin (b := b) (eff := eff) ?_ k2 (k3.trans (mul_le_mul_of_nonneg_right ?_ (abs_nonneg _)))
    · unfold CC.powF
      simp only [h, hX]
      exact k1
    · rw [abs_mul, abs_of_pos (by norm_num : (0 : ℝ) < 64)]
      generalize |binary32.val y * (log |binary32.val x| / log 2)| = t at hT ⊢
      norm_num; linarith
  · -- the square root
    have hp : 0 < binary32.val x ∨ ¬ 0 < binary32.val x := em _
    have vy : binary32.val y = 1 / 2 := by rw [h]; exact lit32_vals.2.2.2.2.1
    have hxp : 0 < binary32.val x := by
      rcases hsg with g | ⟨n, hn⟩
      · exact g
      · exfalso
        rw [vy] at hn
        have : (1 : ℝ) = ((2 * n : ℤ) : ℝ) := by push_cast; linarith
        have h' : (1 : ℤ) = 2 * n := by exact_mod_cast this
        omega
    have f0 : binary32.Finite 0 := by rw [finite_iff]; decide +kernel
    have v0 : binary32.val 0 = 0 := (val_eq_zero_iff binary32 0).2 (by decide +kernel)
    have e : CC.powfYCase m x y = some (CC.sqrt binary32 m x, {}) := by
      have z1 : binary32.heq x 0 = false := by
        rw [Bool.eq_false_iff, Ne, CC.heq_finite binary32 hx f0, v0]; exact hx0
      have z2 : binary32.hlt x 0 = false := by
        rw [Bool.eq_false_iff, Ne, CC.hlt_finite binary32 hx f0, v0]; exact not_lt.2 hxp.le
      have z3 : x ≠ 0xff800000 := by
        rintro rfl
        exact absurd ((binary32.finite_iff _).1 hx).2 (by decide +kernel)
      have z4 : binary32.heq 0x3f000000 0 = false := by decide +kernel
      have z5 : FPBits.abs binary32 0x3f000000 = 0x3f000000 := by decide +kernel
      subst h
      unfold CC.powfYCase
      simp [z1, z2, z3, z4, z5]
    have R := C19_sqrt binary32 (by decide) (by decide) m hx hxp.le
    have hVe : V = Real.sqrt (binary32.val x) := by
      rw [hV, if_neg (by rw [Bool.and_eq_true, decide_eq_true_eq, (sign32 hx hx0).1]; exact fun g => (hxp.trans g.1).false), one_mul, abs_of_pos hxp, mul_comm,
        ← rpow_def_of_pos hxp, vy, Real.sqrt_eq_rpow]
    exact fin0 (some_case e) (hVe ▸ R)
  · have hVe : V = binary32.val x := by
      rw [hV, powf_sign hx hx0 hy (n := 1) (by rw [h, v1, Int.cast_one]), zpow_one]
    exact fin0 (some_case he) (hVe ▸ binary32.roundsTo_self (m := m) hx)
  · have hVe : V = binary32.val x * binary32.val x := by
      rw [hV, powf_sign hx hx0 hy (n := 2) (by rw [h, lit32_vals.2.2.2.2.2.1]; norm_num)]
      exact_mod_cast pow_two (binary32.val x)
    exact fin0 (some_case he) (hVe ▸ hmul_spec binary32 m hx hx)
  · obtain ⟨n, hn, zs, w, R, e⟩ := powfInt_spec hx hx0 hy hT hr
    have hVe : V = binary32.val x ^ n := by rw [hV, powf_sign hx hx0 hy hn]
    rw [← hVe] at e
    exact fin (some_case he) R (e.trans (mul_le_mul_of_nonneg_right (by norm_num) (abs_nonneg _)))

end Verif
