import Verif.Lemmas.Exp7

/-!
# `exp` for doubles: assembly of the cases
-/

namespace Verif
open Fmt Real

/-- error of `scale * (1 + tmp)` before the last rounding, in units of `ru` relative to the result -/
noncomputable def expE (md : Mode) (X : ℝ) : ℝ := 1006 / 1000 * (2820 / 10 ^ 5 + pθ md + 101 / 100 * farE X) + 1124 / 10 ^ 5

theorem expE_nonneg (md : Mode) (X : ℝ) : 0 ≤ expE md X := by
  unfold expE; have := pθ_nonneg md; have := farE_nonneg X; linarith
theorem expE_le (md : Mode) (X : ℝ) : expE md X ≤ 1200 := by
  unfold expE; have := pθ_le md; have := farE_le X; linarith
theorem expE_le' (md : Mode) {X : ℝ} (h : |X| ≤ 1000) : expE md X ≤ if md = .nearest then 548 / 10 ^ 4 else 2852 / 10 ^ 4 := by
  unfold expE farE pθ; rw [if_pos h]; split_ifs <;> norm_num

/-- What `scale + scale * tmp` is for a scale of `2^(k/128 + c)`: the exponential of `X` times `2^c` up to an error of `E` units before the last rounding -/
def CoreOk (md : Mode) (X : ℝ) (k : ℤ) (tmp : ℕ) (E : ℝ) : Prop :=
  ∀ (n : ℕ) (c : ℤ), (n : ℤ) = ((1022 + k / 128 + c) * 2 ^ 52 + tabH (kIdx k)) % 2 ^ 64 → 63 ≤ 1022 + k / 128 + c →
      (k / 128 + c ≤ 899 ∨ (k / 128 + c ≤ 1023 ∧ exp X * 2 ^ c ≤ (2 : ℝ) ^ (1023 : ℤ))) →
        binary64.Finite n ∧ binary64.Finite (binary64.hmul md n tmp) ∧ binary64.Finite (binary64.hadd md n (binary64.hmul md n tmp)) ∧ 0 < binary64.val n ∧
        binary64.val n * (994 / 1000) ≤ exp X * 2 ^ c ∧ exp X * 2 ^ c ≤ binary64.val n * (1006 / 1000) ∧
        |binary64.val (binary64.hmul md n tmp)| ≤ binary64.val n * (58 / 10000) ∧ eta ≤ ru md * (binary64.val n * (1 / 10 ^ 9)) ∧
        |binary64.val (binary64.hadd md n (binary64.hmul md n tmp)) - (binary64.val n + binary64.val (binary64.hmul md n tmp))| ≤
          ru md * |binary64.val n + binary64.val (binary64.hmul md n tmp)| + eta ∧
        |binary64.val n + binary64.val (binary64.hmul md n tmp) - exp X * 2 ^ c| ≤ ru md * (exp X * 2 ^ c * E) ∧
        |binary64.val (binary64.hadd md n (binary64.hmul md n tmp)) - exp X * 2 ^ c| ≤ ru md * (exp X * 2 ^ c * (1 + E + 6 / 10 ^ 5))

theorem core_low {s A T p : ℝ} (hs : 0 < s) (hA : |A - s * (1 + T) * (1 + p)| ≤ s * (1 / 2 ^ 103)) (hT : |T| ≤ 1 / 2 ^ 53) (hp : |p| ≤ 5446 / 10 ^ 6) : s ≤ 11 / 10 * A := by
  have hTp : |T * p| ≤ 1 / 2 ^ 53 * (5446 / 10 ^ 6) := abs_mul_le hT hp
  have h5 : |T + p + T * p| ≤ 5447 / 10 ^ 6 := by
    refine le_trans (abs_add_le' (abs_add_le' hT hp) hTp) (by norm_num)
  have h6 : |s * (T + p + T * p)| ≤ s * (5447 / 10 ^ 6) := by rw [abs_mul, abs_of_pos hs]; exact mul_le_mul_of_nonneg_left h5 hs.le
  have h7 : s * (1 / 2 ^ 103) ≤ s * (1 / 10 ^ 6) := mul_le_mul_of_nonneg_left (by norm_num) hs.le
  have e : s * (1 + T) * (1 + p) = s + s * (T + p + T * p) := by ring
  rw [e] at hA
  have := (abs_le.1 hA).1
  have := (abs_le.1 h6).1
  linarith

theorem core_gen (md : Mode) {X D : ℝ} {k : ℤ} {tmp : ℕ} (hρ : |X - k * (log 2 / 128)| ≤ 541523 / 10 ^ 8) (p5 : binary64.Finite tmp)
    (p6 : |binary64.val tmp - (binary64.val (tabT (kIdx k)) + (exp (X - k * (log 2 / 128)) - 1))| ≤ ru md * D) (hD0 : 0 ≤ D) (hD1 : D ≤ 1112) :
    CoreOk md X k tmp (1006 / 1000 * D + 1124 / 10 ^ 5) := by
  have hu := ru_pos md
  have hu2 := ru_le md
  have hu3 := ru_ge md
  intro n c hn h1 h2
  have h2' : k / 128 + c ≤ 1023 := by rcases h2 with h2 | h2 <;> omega
  obtain ⟨fn, vn⟩ := scale64 hn (by omega) (by omega)
  obtain ⟨t1, t2, -, -, t5, -⟩ := tab_spec (kIdx_lt k)
  have g1 : (1 : ℝ) ≤ (tabH (kIdx k) : ℝ) / 2 ^ 52 := by
    rw [le_div_iff₀ (by positivity), one_mul]; exact_mod_cast t1
  have g2 : (tabH (kIdx k) : ℝ) / 2 ^ 52 ≤ 2 := by
    rw [div_le_iff₀ (by positivity)]
    have : (tabH (kIdx k) : ℝ) ≤ 2 ^ 53 := by exact_mod_cast t2.le
    refine le_trans this (by norm_num)
  have hp2 : (0 : ℝ) < 2 ^ (k / 128 + c) := two_zpow_pos _
  have s1 : (2 : ℝ) ^ (-960 : ℤ) ≤ binary64.val n := by
    rw [vn]
    refine le_trans (two_zpow_le (show (-960 : ℤ) ≤ k / 128 + c by omega)) ?_
    exact le_mul_of_one_le_left hp2.le g1
  have hs : 0 < binary64.val n := lt_of_lt_of_le (two_zpow_pos _) s1
  have hpp : |exp (X - k * (log 2 / 128)) - 1| ≤ 5446 / 10 ^ 6 := by
    have h3 := Real.abs_exp_sub_one_sub_id_le (x := X - k * (log 2 / 128)) (le_trans hρ (by norm_num))
    have h4 : |exp (X - k * (log 2 / 128)) - 1| ≤ 541523 / 10 ^ 8 + (X - k * (log 2 / 128)) ^ 2 := abs_near h3 hρ
    have h5 : (X - k * (log 2 / 128)) ^ 2 ≤ (541523 / 10 ^ 8) ^ 2 := by
      rw [← sq_abs]; exact pow_le_pow_left₀ (abs_nonneg _) hρ 2
    have : (541523 / 10 ^ 8 : ℝ) + (541523 / 10 ^ 8) ^ 2 ≤ 5446 / 10 ^ 6 := by norm_num
    linarith
  have hA : |exp X * 2 ^ c - binary64.val n * (1 + binary64.val (tabT (kIdx k))) * (1 + (exp (X - k * (log 2 / 128)) - 1))| ≤ binary64.val n * (1 / 2 ^ 103) := by
    have e1 : exp X = exp (k * (log 2 / 128)) * exp (X - k * (log 2 / 128)) := by rw [← Real.exp_add]; congr 1; ring
    have e2 : binary64.val n = (tabH (kIdx k) : ℝ) / 2 ^ 52 * (2 : ℝ) ^ (k / 128) * 2 ^ c := by rw [vn, zpow_add₀ (by norm_num)]; ring
    have h3 := scale_exp k
    rw [e1, e2]
    set S := (tabH (kIdx k) : ℝ) / 2 ^ 52 * (2 : ℝ) ^ (k / 128) with hS
    have hS0 : 0 < S := by rw [hS]; exact mul_pos (by linarith) (two_zpow_pos _)
    have hc0 : (0 : ℝ) < 2 ^ c := two_zpow_pos _
    have hρ0 := Real.exp_pos (X - k * (log 2 / 128))
    have hρ1 : exp (X - k * (log 2 / 128)) ≤ 2 := by rw [abs_le] at hpp; linarith [hpp.2]
    have e3 : exp (k * (log 2 / 128)) * exp (X - k * (log 2 / 128)) * 2 ^ c - S * 2 ^ c * (1 + binary64.val (tabT (kIdx k))) * (1 + (exp (X - k * (log 2 / 128)) - 1)) =
      (exp (k * (log 2 / 128)) - S * (1 + binary64.val (tabT (kIdx k)))) * (exp (X - k * (log 2 / 128)) * 2 ^ c) := by ring
    rw [e3, abs_mul, abs_of_pos (mul_pos hρ0 hc0)]
    have := mul_le_mul h3 (mul_le_mul_of_nonneg_right hρ1 hc0.le) (mul_pos hρ0 hc0).le (by positivity)
    refine le_trans this (le_of_eq ?_)
    have e4 : (1 : ℝ) / 2 ^ 103 = 2 * (1 / 2 ^ 104) := by norm_num
    rw [e4]; ring
  have s2 : binary64.val n ≤ 11 / 10 * (2 : ℝ) ^ (1023 : ℤ) := by
    rcases h2 with h2 | h2
    · rw [vn]
      have e : (2 : ℝ) ^ (900 : ℤ) = 2 * (2 : ℝ) ^ (899 : ℤ) := by rw [← two_zpow_succ]; rfl
      have h3 : (tabH (kIdx k) : ℝ) / 2 ^ 52 * 2 ^ (k / 128 + c) ≤ (2 : ℝ) ^ (900 : ℤ) := by
        rw [e]; exact mul_le_mul g2 (two_zpow_le h2) hp2.le (by norm_num)
      refine le_trans h3 (le_trans (two_zpow_le (show (900 : ℤ) ≤ 1023 by norm_num)) ?_)
      exact le_mul_of_one_le_left (two_zpow_pos _).le (by norm_num)
    · exact le_trans (core_low hs hA t5 hpp) (mul_le_mul_of_nonneg_left h2.2 (by norm_num))
  clear h2
  generalize exp X * 2 ^ c = A at *
  generalize exp (X - k * (log 2 / 128)) - 1 = p at *
  have hM : |binary64.val tmp| ≤ 57 / 10000 := by
    have h3 := abs_near p6 (abs_add_le' t5 hpp)
    have h4 : ru md * (D) ≤ 1 / 2 ^ 52 * 1112 := mul_le_mul hu2 hD1 hD0 (by positivity)
    have : (1 : ℝ) / 2 ^ 53 + 5446 / 10 ^ 6 + 1 / 2 ^ 52 * 1112 ≤ 57 / 10000 := by norm_num
    linarith
  obtain ⟨r1, r2, r3, r4, r5, r6⟩ := scale_round md fn p5 s1 s2 hM
  obtain ⟨q1, q2, q3, q4⟩ := exp_sum hu hu2 hu3 hs hA t5 hpp hD0 (by linarith) p6 r3
  have q5 := exp_rel hu hu2 q1 hs hD0 (by linarith) q4 r5 r6
  refine ⟨fn, r1, r2, hs, q1, q2, r4, r6, r5, q4, ?_⟩
  refine le_trans q5 (le_of_eq ?_)
  ring

theorem exp_core (md : Mode) {x : ℕ} (hx : binary64.Finite x) (hb : |binary64.val x| ≤ 1024) :
    ∃ (k : ℤ) (ki tmp : ℕ), CC.expParts md x = (tmp, sBits ki, ki) ∧ (ki : ℤ) = 0x433 * 2 ^ 52 + 2 ^ 51 + k ∧ |k| ≤ 189098 ∧
      |binary64.val x - k * (log 2 / 128)| ≤ 541523 / 10 ^ 8 ∧ CoreOk md (binary64.val x) k tmp (expE md (binary64.val x)) := by
  obtain ⟨k, ki, tmp, p1, p2, p3, p4, p5, p6⟩ := exp_parts md hx hb
  obtain ⟨c1, c2, -⟩ := ln2_consts
  have hρ : |binary64.val x - k * (log 2 / 128)| ≤ 541523 / 10 ^ 8 := by
    refine le_trans p4 ?_
    have h1 := rq_le md
    have h2 : (rq md + 1 / 2 ^ 33) * (log 2 / 128) ≤ (1 + 1 / 2 ^ 33) * (541522 / 10 ^ 8) := mul_le_mul (by linarith) c2 (by linarith) (by positivity)
    refine le_trans h2 (by norm_num)
  refine ⟨k, ki, tmp, p1, p2, p3, hρ, ?_⟩
  exact core_gen md hρ p5 p6 (by have := pθ_nonneg md; have := farE_nonneg (binary64.val x); linarith) (by have := pθ_le md; have := farE_le (binary64.val x); linarith)

/-- the biased exponent field compares magnitudes with a power of two -/
theorem bexp_ge {x e : ℕ} (he : 1 ≤ e) : e ≤ binary64.bexp x ↔ (2 : ℝ) ^ ((e : ℤ) - 1023) ≤ |binary64.val x| := by
  have hu : binary64.umag (e * 2 ^ 52) = 2 ^ 52 * 2 ^ (e - 1) := by
    obtain ⟨d, rfl⟩ : ∃ d, e = d + 1 := ⟨e - 1, by omega⟩
    have h : binary64.umag (d * 2 ^ 52 + 2 ^ 52) = 2 ^ 52 * 2 ^ d := binary64.umag_of (k := d) (s := 2 ^ 52) (by decide +kernel) (Or.inr (by decide +kernel))
    rw [Nat.add_sub_cancel, Nat.succ_mul]; exact h
  have h1 : (2 : ℝ) ^ ((e : ℤ) - 1023) = (binary64.umag (e * 2 ^ 52) : ℝ) * binary64.minSub := by
    rw [hu, binary64.minSub_eq_zpow]
    have : binary64.emin = -1074 := by decide +kernel
    rw [this]
    rw [Nat.cast_mul, Nat.cast_pow, Nat.cast_pow, Nat.cast_ofNat, ← zpow_natCast, ← zpow_natCast, ← zpow_add₀ (by norm_num), ← zpow_add₀ (by norm_num)]
    congr 1
    omega
  rw [h1, abs_val, mul_le_mul_iff_left₀ binary64.minSub_pos, Nat.cast_le, umag_le_iff]
  unfold bexp
  have : binary64.F = 52 := rfl
  rw [this, Nat.le_div_iff_mul_le (by positivity)]

theorem absTop_eq (x : ℕ) : (x >>> 52) &&& 0x7ff = binary64.bexp x := by
  rw [show (0x7ff : ℕ) = 2 ^ 11 - 1 from rfl, Nat.and_two_pow_sub_one_eq_mod, Nat.shiftRight_eq_div_pow]
  unfold bexp mag
  have h1 : binary64.F = 52 := rfl
  have h2 : binary64.E = 11 := rfl
  rw [h1, h2]; omega

theorem ki_sign {ki : ℕ} {k : ℤ} (j : ℕ) (hj : j ≤ 10) (h : (ki : ℤ) = (0x433 - j) * 2 ^ 52 + 2 ^ 51 + k) (hk : |k| ≤ 189098) : (ki &&& 0x80000000 = 0) ↔ 0 ≤ k := by
  rw [abs_le] at hk
  have e : ki &&& 0x80000000 = 2 ^ 31 * (ki / 2 ^ 31 % 2) := by
    rw [show (0x80000000 : ℕ) = 2 ^ 31 from rfl, Nat.and_two_pow, Nat.testBit_eq_decide_div_mod_eq, mul_comm]
    rcases Nat.mod_two_eq_zero_or_one (ki / 2 ^ 31) with h | h <;> rw [h] <;> rfl
  rw [e]; omega

end Verif
