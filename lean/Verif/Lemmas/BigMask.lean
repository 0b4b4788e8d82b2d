import Verif.Lemmas.BigDivHalf

/-! Masks and conversions to built-in types -/

namespace Verif
namespace BI

theorem maskTrailingOnesW_eq {w c : ℕ} (hc : c ≤ w) : maskTrailingOnesW w c = 2 ^ c - 1 := by
  unfold maskTrailingOnesW
  split_ifs with h
  · rw [h]; simp
  · apply Nat.eq_of_testBit_eq
    intro i
    rw [Nat.testBit_shiftRight, Nat.testBit_two_pow_sub_one, Nat.testBit_two_pow_sub_one]
    congr 1
    simp only [eq_iff_iff]; omega

theorem maskLeadingOnesW_bit {w c : ℕ} (hc : c ≤ w) (j : ℕ) (hj : j < w) : (maskLeadingOnesW w c).testBit j = decide (w - c ≤ j) := by
  unfold maskLeadingOnesW
  rw [maskTrailingOnesW_eq (by omega)]
  have hlt : 2 ^ (w - c) - 1 < 2 ^ w := by
    have : 2 ^ (w - c) ≤ 2 ^ w := Nat.pow_le_pow_right (by norm_num) (by omega)
    have := Nat.two_pow_pos (w - c)
    omega
  have e : 2 ^ w - 1 - (2 ^ (w - c) - 1) = 2 ^ w - ((2 ^ (w - c) - 1) + 1) := by omega
  rw [e, Nat.testBit_two_pow_sub_succ hlt, Nat.testBit_two_pow_sub_one]
  simp only [hj, decide_true, Bool.true_and, ← decide_not]
  exact decide_eq_decide.2 (by omega)

theorem words_map_range {w : ℕ} (f : ℕ → ℕ) (N : ℕ) (h : ∀ i < N, f i < 2 ^ w) : Words w ((List.range N).map f) := by
  intro x hx
  obtain ⟨i, hi, rfl⟩ := List.mem_map.1 hx
  exact h i (List.mem_range.1 hi)

theorem maskTrailingOnes_spec {w : ℕ} (hw : 1 ≤ w) (N count : ℕ) (hc : count ≤ w * N) :
    Words w (maskTrailingOnes w N count) ∧ (maskTrailingOnes w N count).length = N ∧ nat w (maskTrailingOnes w N count) = 2 ^ count - 1 := by
  have hW : 2 ^ w - 1 < 2 ^ w := by have := Nat.two_pow_pos w; omega
  unfold maskTrailingOnes
  split_ifs with h
  · refine ⟨words_replicate hW, by simp, ?_⟩
    have := nat_replicate_ones w N
    rw [h]; omega
  · have hmod : count % w < w := Nat.mod_lt _ (by omega)
    have hdm := Nat.div_add_mod count w
    have hWords : Words w ((List.range N).map fun i => if i ≤ count / w then (if i < count / w then 2 ^ w - 1 else maskTrailingOnesW w (count % w)) else 0) := by
      refine words_map_range _ _ fun i _ => ?_
      rw [maskTrailingOnesW_eq hmod.le]
      have : 2 ^ (count % w) ≤ 2 ^ w := Nat.pow_le_pow_right (by norm_num) hmod.le
      have := Nat.two_pow_pos w
      split_ifs <;> omega
    refine ⟨hWords, by simp, ?_⟩
    have hb := nat_of_bits hw hWords (2 ^ count - 1) (by
      intro k hk j hj
      rw [List.length_map, List.length_range] at hk
      rw [getD_map_range _ _ _ hk, maskTrailingOnesW_eq hmod.le, Nat.testBit_two_pow_sub_one]
      rcases lt_trichotomy k (count / w) with h1 | h1 | h1
      · rw [if_pos h1.le, if_pos h1, Nat.testBit_two_pow_sub_one]
        have : w * (k + 1) ≤ w * (count / w) := Nat.mul_le_mul_left _ h1
        rw [Nat.mul_succ] at this
        simp only [hj, decide_true]; symm; simp; omega
      · rw [if_pos h1.le, if_neg (by omega), Nat.testBit_two_pow_sub_one, h1]
        congr 1; simp only [eq_iff_iff]; omega
      · rw [if_neg (by omega), Nat.zero_testBit]
        have : w * (count / w + 1) ≤ w * k := Nat.mul_le_mul_left _ h1
        rw [Nat.mul_succ] at this
        symm; simp; omega)
    rw [hb, List.length_map, List.length_range, Nat.mod_eq_of_lt]
    have : 2 ^ count ≤ 2 ^ (w * N) := Nat.pow_le_pow_right (by norm_num) hc
    have := Nat.two_pow_pos count
    omega

theorem maskLeadingOnes_spec {w : ℕ} (hw : 1 ≤ w) (N count : ℕ) (hc : count ≤ w * N) :
    Words w (maskLeadingOnes w N count) ∧ (maskLeadingOnes w N count).length = N ∧ nat w (maskLeadingOnes w N count) = 2 ^ (w * N) - 2 ^ (w * N - count) := by
  have hW : 2 ^ w - 1 < 2 ^ w := by have := Nat.two_pow_pos w; omega
  unfold maskLeadingOnes
  split_ifs with h
  · refine ⟨words_replicate hW, by simp, ?_⟩
    have := nat_replicate_ones w N
    rw [h, Nat.sub_self, pow_zero]; omega
  · have hmod : count % w < w := Nat.mod_lt _ (by omega)
    have hdm := Nat.div_add_mod count w
    generalize hD : (w * N - count - 1) / w = D
    have hWords : Words w ((List.range N).map fun i => if D ≤ i then (if i > D then 2 ^ w - 1 else maskLeadingOnesW w (count % w)) else 0) := by
      refine words_map_range _ _ fun i _ => ?_
      unfold maskLeadingOnesW
      have := Nat.two_pow_pos w
      split_ifs <;> omega
    refine ⟨hWords, by simp, ?_⟩
    -- position of the boundary
    obtain ⟨z, hz⟩ : ∃ z, w * N = count + (z + 1) := ⟨w * N - count - 1, by omega⟩
    rw [show w * N - count - 1 = z by omega] at hD
    have hDz : w * D + z % w = z := by rw [← hD]; exact Nat.div_add_mod z w
    have hzm : z % w < w := Nat.mod_lt _ (by omega)
    -- z % w + count % w + 1 is w (or the remainder of count is zero and z % w = w - 1)
    have hrel : z % w + 1 + count % w = w := by
      have h1 : w ∣ z % w + 1 + count % w := by
        have : w * N = w * (D + count / w) + (z % w + 1 + count % w) := by rw [mul_add]; omega
        exact (Nat.dvd_add_right (Dvd.intro _ rfl)).1 (this ▸ Dvd.intro _ rfl)
      obtain ⟨c, hc'⟩ := h1
      have h2 : c = 1 := by
        have h3 : 0 < w * c := by omega
        have h4 : w * c < w * 2 := by omega
        have h5 := Nat.lt_of_mul_lt_mul_left h4
        have h6 := Nat.pos_of_mul_pos_left h3
        omega
      rw [hc', h2, mul_one]
    have hb := nat_of_bits hw hWords ((2 ^ count - 1) <<< (w * N - count)) (by
      intro k hk j hj
      rw [List.length_map, List.length_range] at hk
      rw [getD_map_range _ _ _ hk, Nat.testBit_shiftLeft, Nat.testBit_two_pow_sub_one]
      have hkN : w * k + j < w * N := by
        have : w * (k + 1) ≤ w * N := Nat.mul_le_mul_left _ hk
        rw [Nat.mul_succ] at this; omega
      rcases lt_trichotomy D k with h1 | h1 | h1
      · rw [if_pos h1.le, if_pos h1, Nat.testBit_two_pow_sub_one]
        have : w * (D + 1) ≤ w * k := Nat.mul_le_mul_left _ h1
        rw [Nat.mul_succ] at this
        have e1 : w * N - count ≤ w * k + j := by omega
        have e2 : w * k + j - (w * N - count) < count := by omega
        simp [hj, e1, e2]
      · subst h1
        rw [if_pos le_rfl, if_neg (by omega), maskLeadingOnesW_bit hmod.le j hj]
        rw [← Bool.decide_and]
        exact decide_eq_decide.2 (by omega)
      · rw [if_neg (by omega), Nat.zero_testBit]
        have : w * (k + 1) ≤ w * D := Nat.mul_le_mul_left _ h1
        rw [Nat.mul_succ] at this
        symm; simp; omega)
    rw [hb, List.length_map, List.length_range, Nat.shiftLeft_eq]
    have hpc := Nat.two_pow_pos count
    have e : (2 ^ count - 1) * 2 ^ (w * N - count) = 2 ^ (w * N) - 2 ^ (w * N - count) := by
      rw [Nat.sub_mul, one_mul, ← pow_add, Nat.add_sub_cancel' hc]
    rw [e, Nat.mod_eq_of_lt]
    have := Nat.two_pow_pos (w * N - count)
    have := Nat.two_pow_pos (w * N)
    omega

theorem toT_fold {w tbits : ℕ} (hw : 1 ≤ w) {a : List ℕ} (ha : Words w a) (hwt : w ≤ tbits) (hne : 1 ≤ a.length) : ∀ n, n + 1 ≤ a.length → w * (n + 1) ≤ tbits →
    (List.range' 1 n).foldl (fun lo i => (lo + ((a.getD i 0) <<< (w * i)) % 2 ^ tbits) % 2 ^ tbits) (a.getD 0 0 % 2 ^ tbits) = nat w (a.take (n + 1))
  | 0, _, _ => by
    have h0 := getD_lt ha 0
    have : 2 ^ w ≤ 2 ^ tbits := Nat.pow_le_pow_right (by norm_num) hwt
    rw [nat_take_succ a 0 (by omega)]
    simp only [List.range'_zero, List.foldl_nil, List.take_zero, nat_nil, mul_zero, pow_zero, one_mul, zero_add]
    exact Nat.mod_eq_of_lt (by omega)
  | n + 1, h1, h2 => by
    rw [List.range'_1_concat, List.foldl_append, toT_fold hw ha hwt hne n (by omega) (by rw [Nat.mul_succ] at h2; omega)]
    simp only [List.foldl_cons, List.foldl_nil]
    rw [show 1 + n = n + 1 by omega]
    have h3 := nat_take_succ (w := w) a (n + 1) (by omega)
    have h4 : nat w (a.take (n + 1 + 1)) < 2 ^ tbits := by
      have := nat_lt (w := w) (a := a.take (n + 1 + 1)) fun x hx => ha x (List.mem_of_mem_take hx)
      rw [List.length_take, min_eq_left (by omega)] at this
      exact lt_of_lt_of_le this (Nat.pow_le_pow_right (by norm_num) h2)
    rw [Nat.shiftLeft_eq, mul_comm (a.getD (n + 1) 0), Nat.mod_eq_of_lt (a := 2 ^ _ * _) (by omega), ← h3, Nat.mod_eq_of_lt h4]

theorem int_mod_of_dvd {x y : ℤ} {m n : ℕ} (h : (2 : ℤ) ^ n ∣ x - y) (hmn : m ≤ n) : x % 2 ^ m = y % 2 ^ m :=
  Int.emod_eq_emod_iff_emod_sub_eq_zero.2 (Int.emod_eq_zero_of_dvd ((pow_dvd_pow 2 hmn).trans h))

theorem toT_spec (signed : Bool) {w tbits : ℕ} (hw : 1 ≤ w) {a : List ℕ} (ha : Words w a) (hne : 1 ≤ a.length) (hd : tbits ≤ w ∨ w ∣ tbits) :
    (toT signed w tbits a : ℤ) = (if signed then sval w a else (nat w a : ℤ)) % 2 ^ tbits := by
  have hcong : tbits ≤ w * a.length → (if signed then sval w a else (nat w a : ℤ)) % 2 ^ tbits = (nat w a : ℤ) % 2 ^ tbits := by
    intro h
    split_ifs
    · exact int_mod_of_dvd (bmod_dvd _) h
    · rfl
  unfold toT
  simp only
  by_cases h1 : tbits ≤ w
  · rw [if_pos h1, hcong (le_trans h1 (Nat.le_mul_of_pos_right _ hne))]
    have h2 := nat_take_succ (w := w) a 0 (by omega)
    have h3 := nat_take ha 1 hne
    have e : a.getD 0 0 = nat w a % 2 ^ w := by
      rw [mul_one] at h3
      rw [← h3.2.2, h2]; simp
    rw [e, Nat.mod_mod_of_dvd _ (pow_dvd_pow 2 h1)]
    push_cast; rfl
  · rw [if_neg h1]
    obtain ⟨c, hc⟩ := hd.resolve_left h1
    by_cases h2 : tbits > w * a.length
    · rw [if_pos h2]
      have hf := toT_fold (tbits := tbits) hw ha (by omega) hne (a.length - 1) (by omega) (by rw [Nat.sub_add_cancel hne]; omega)
      rw [Nat.sub_add_cancel hne, List.take_length] at hf
      rw [hf]
      have hlt : nat w a < 2 ^ tbits := lt_of_lt_of_le (nat_lt ha) (Nat.pow_le_pow_right (by norm_num) h2.le)
      have hmod : (nat w a : ℤ) % 2 ^ tbits = nat w a := Int.emod_eq_of_lt (by positivity) (by exact_mod_cast hlt)
      cases signed
      · simp [hmod]
      · simp only [h2, decide_true, Bool.and_self, Bool.true_and, isNeg, if_true]
        by_cases hn : sval w a < 0
        · obtain ⟨n1, n2⟩ := sval_neg_nat hw ha hne hn
          rw [if_pos n1, (or_mask (nat_lt ha) h2.le).1, n2]
          have hle : 2 ^ (w * a.length) ≤ 2 ^ tbits := Nat.pow_le_pow_right (by norm_num) h2.le
          have hlt' : (nat w a : ℤ) < 2 ^ (w * a.length) := by exact_mod_cast nat_lt ha
          generalize nat w a = v at hlt' ⊢
          push_cast [hle]
          have hle' : (2 : ℤ) ^ (w * a.length) ≤ 2 ^ tbits := by exact_mod_cast hle
          rw [← Int.add_emod_right, Int.emod_eq_of_lt]
          · ring
          · have : (0 : ℤ) ≤ v := by positivity
            linarith
          · linarith
        · obtain ⟨n1, n2⟩ := sval_nonneg_nat hw ha hne (by omega)
          rw [n1, n2, hmod]; simp
    · rw [if_neg h2]
      have hc1 : 1 ≤ c := by
        rcases Nat.eq_zero_or_pos c with h0 | h0
        · subst h0; omega
        · exact h0
      have hdiv : tbits / w = c := by rw [hc]; exact Nat.mul_div_cancel_left _ (by omega)
      have hca : c ≤ a.length := by
        have : w * c ≤ w * a.length := by omega
        exact Nat.le_of_mul_le_mul_left this (by omega)
      have hf := toT_fold (tbits := tbits) hw ha (by omega) hne (c - 1) (by omega) (by rw [Nat.sub_add_cancel hc1]; omega)
      rw [Nat.sub_add_cancel hc1] at hf
      rw [hdiv, hf, hcong (by omega), (nat_take ha c hca).2.2, ← hc]
      simp [h2]

end BI
end Verif
