import Verif.Lemmas.Exp4

/-!
# `exp`: the polynomial against the exponential, and what `expParts` returns
-/

namespace Verif
open Fmt Real

/-- error of the polynomial in units of the rounding error -/
noncomputable def pθ (m : Mode) : ℝ := if m = .nearest then 15 / 1000 else 244 / 1000
theorem pθ_nonneg (m : Mode) : 0 ≤ pθ m := by unfold pθ; split_ifs <;> norm_num
theorem pθ_le (m : Mode) : pθ m ≤ 244 / 1000 := by unfold pθ; split_ifs <;> norm_num

theorem exp_taylor {ρ R : ℝ} (h : |ρ| ≤ R) (hR : R ≤ 1) :
    |exp ρ - (1 + ρ + ρ ^ 2 / 2 + ρ ^ 3 / 6 + ρ ^ 4 / 24 + ρ ^ 5 / 120)| ≤ R ^ 6 * (7 / 4320) := by
  have h1 := Real.exp_bound (x := ρ) (le_trans h hR) (n := 6) (by norm_num)
  simp only [Finset.sum_range_succ, Finset.sum_range_zero, Nat.factorial] at h1
  have h2 : |ρ| ^ 6 ≤ R ^ 6 := pow_le_pow_left₀ (abs_nonneg _) h 6
  norm_num at h1
  have e : exp ρ - (1 + ρ + ρ ^ 2 / 2 + ρ ^ 3 / 6 + ρ ^ 4 / 24 + ρ ^ 5 / 120) = exp ρ - (1 + ρ + ρ ^ 2 / 2 + ρ ^ 3 / 6 + ρ ^ 4 / 24 + ρ ^ 5 / 120) := rfl
  refine le_trans h1 ?_
  have h3 : |ρ| ^ 6 = ρ ^ 6 := by rw [← abs_pow, abs_of_nonneg (by positivity)]
  rw [h3] at h2
  linarith

theorem exp_poly {ρ R e : ℝ} (h : |ρ| ≤ R) (hR : R ≤ 1)
    (hb : R ^ 2 * (3215 / 10 ^ 17) + R ^ 3 * (781 / 10 ^ 17) + R ^ 4 * (14175 / 10 ^ 12) + R ^ 5 * (2520 / 10 ^ 12) + R ^ 6 * (7 / 4320) ≤ e) :
    |ρ + ρ ^ 2 * (binary64.val CC.expC2 + ρ * binary64.val CC.expC3) + ρ ^ 4 * (binary64.val CC.expC4 + ρ * binary64.val CC.expC5) - (exp ρ - 1)| ≤ e := by
  have ht := exp_taylor h hR
  have d2 : |binary64.val CC.expC2 - 1 / 2| ≤ 3215 / 10 ^ 17 := by rw [val_c2, abs_le]; constructor <;> norm_num
  have d3 : |binary64.val CC.expC3 - 1 / 6| ≤ 781 / 10 ^ 17 := by rw [val_c3, abs_le]; constructor <;> norm_num
  have d4 : |binary64.val CC.expC4 - 1 / 24| ≤ 14175 / 10 ^ 12 := by rw [val_c4, abs_le]; constructor <;> norm_num
  have d5 : |binary64.val CC.expC5 - 1 / 120| ≤ 2520 / 10 ^ 12 := by rw [val_c5, abs_le]; constructor <;> norm_num
  generalize binary64.val CC.expC2 = C2 at *
  generalize binary64.val CC.expC3 = C3 at *
  generalize binary64.val CC.expC4 = C4 at *
  generalize binary64.val CC.expC5 = C5 at *
  have hp : ∀ n, |ρ ^ n| ≤ R ^ n := fun n => by rw [abs_pow]; exact pow_le_pow_left₀ (abs_nonneg _) h n
  have e1 : ρ + ρ ^ 2 * (C2 + ρ * C3) + ρ ^ 4 * (C4 + ρ * C5) - (exp ρ - 1) =
      ρ ^ 2 * (C2 - 1 / 2) + ρ ^ 3 * (C3 - 1 / 6) + ρ ^ 4 * (C4 - 1 / 24) + ρ ^ 5 * (C5 - 1 / 120) -
        (exp ρ - (1 + ρ + ρ ^ 2 / 2 + ρ ^ 3 / 6 + ρ ^ 4 / 24 + ρ ^ 5 / 120)) := by ring
  rw [e1]
  refine le_trans (abs_sub _ _) ?_
  have := abs_add_le' (abs_add_le' (abs_add_le' (abs_mul_le (hp 2) d2) (abs_mul_le (hp 3) d3)) (abs_mul_le (hp 4) d4)) (abs_mul_le (hp 5) d5)
  linarith

theorem poly_lip {r ρ C2 C3 C4 C5 e : ℝ} (hr : |r| ≤ 79 / 10000) (hρ : |ρ| ≤ 79 / 10000) (b2 : |C2| ≤ 51 / 100) (b3 : |C3| ≤ 17 / 100) (b4 : |C4| ≤ 42 / 1000)
    (b5 : |C5| ≤ 84 / 10000) (h : |r - ρ| ≤ e) :
    |(r ^ 2 * (C2 + r * C3) + r ^ 4 * (C4 + r * C5)) - (ρ ^ 2 * (C2 + ρ * C3) + ρ ^ 4 * (C4 + ρ * C5))| ≤ e * (9 / 1000) := by
  have he : (r ^ 2 * (C2 + r * C3) + r ^ 4 * (C4 + r * C5)) - (ρ ^ 2 * (C2 + ρ * C3) + ρ ^ 4 * (C4 + ρ * C5)) =
      (r - ρ) * ((r + ρ) * C2 + (r * r + r * ρ + ρ * ρ) * C3 + (r + ρ) * (r * r + ρ * ρ) * C4 +
        (r * r * (r * r) + r * r * (r * ρ) + r * r * (ρ * ρ) + r * ρ * (ρ * ρ) + ρ * ρ * (ρ * ρ)) * C5) := by ring
  rw [he]
  refine abs_mul_le h ?_
  have hs := abs_add_le' hr hρ
  have rr := abs_mul_le hr hr
  have rp := abs_mul_le hr hρ
  have pp := abs_mul_le hρ hρ
  refine le_trans (abs_add_le' (abs_add_le' (abs_add_le' (abs_mul_le hs b2) (abs_mul_le (abs_add_le' (abs_add_le' rr rp) pp) b3))
    (abs_mul_le (abs_mul_le hs (abs_add_le' rr pp)) b4))
    (abs_mul_le (abs_add_le' (abs_add_le' (abs_add_le' (abs_add_le' (abs_mul_le rr rr) (abs_mul_le rr rp)) (abs_mul_le rr pp)) (abs_mul_le rp pp)) (abs_mul_le pp pp)) b5)) ?_
  norm_num

/-- what the common part of `exp` and `expm1` computes -/
theorem exp_parts (md : Mode) {x : ℕ} (hx : binary64.Finite x) (hb : |binary64.val x| ≤ 1024) :
    ∃ (k : ℤ) (ki tmp : ℕ), CC.expParts md x = (tmp, sBits ki, ki) ∧ (ki : ℤ) = 0x433 * 2 ^ 52 + 2 ^ 51 + k ∧ |k| ≤ 189098 ∧
      |binary64.val x - k * (log 2 / 128)| ≤ (rq md + 1 / 2 ^ 33) * (log 2 / 128) ∧ binary64.Finite tmp ∧
      |binary64.val tmp - (binary64.val (tabT (kIdx k)) + (exp (binary64.val x - k * (log 2 / 128)) - 1))| ≤
        ru md * (2820 / 10 ^ 5 + pθ md + 101 / 100 * farE (binary64.val x)) := by
  obtain ⟨k, k1, k2, k3, r, hr, fr, er⟩ := exp_red md hx hb
  have hu := ru_pos md
  have hu2 := ru_le md
  have hu3 := ru_ge md
  obtain ⟨c1, c2, -⟩ := ln2_consts
  have hlt := kIdx_lt k
  obtain ⟨-, -, -, tf, tb, -⟩ := tab_spec hlt
  have fC2 : binary64.Finite CC.expC2 := by decide +kernel
  have fC3 : binary64.Finite CC.expC3 := by decide +kernel
  have fC4 : binary64.Finite CC.expC4 := by decide +kernel
  have fC5 : binary64.Finite CC.expC5 := by decide +kernel
  have b2 : |binary64.val CC.expC2| ≤ 51 / 100 := by rw [val_c2, abs_le]; constructor <;> norm_num
  have b3 : |binary64.val CC.expC3| ≤ 17 / 100 := by rw [val_c3, abs_le]; constructor <;> norm_num
  have b4 : |binary64.val CC.expC4| ≤ 42 / 1000 := by rw [val_c4, abs_le]; constructor <;> norm_num
  have b5 : |binary64.val CC.expC5| ≤ 84 / 10000 := by rw [val_c5, abs_le]; constructor <;> norm_num
  set X := binary64.val x
  set c := log 2 / 128
  set ρ := X - k * c with hρd
  have hE := farE_nonneg X
  have hE2 := farE_le X
  set E := farE X
  have hρR : |ρ| ≤ 54153 / 10 ^ 7 := by
    refine le_trans k3 ?_
    have h5 : (rq md + 1 / 2 ^ 33) ≤ 1 + 1 / 2 ^ 33 := by linarith [rq_le md]
    refine le_trans (mul_le_mul h5 c2 (by linarith) (by positivity)) (by norm_num)
  have e0 : ru md * (1085 / 10 ^ 5 + E) + 1 / 2 ^ 81 ≤ 1 / 10 ^ 10 := by
    have : ru md * (1085 / 10 ^ 5 + E) ≤ 1 / 2 ^ 52 * (1085 / 10 ^ 5 + 1100) := mul_le_mul hu2 (by linarith) (by linarith) (by positivity)
    have h2 : (1 : ℝ) / 2 ^ 52 * (1085 / 10 ^ 5 + 1100) + 1 / 2 ^ 81 ≤ 1 / 10 ^ 10 := by norm_num
    linarith
  have hrR : |binary64.val r| ≤ 55 / 10000 := by
    refine le_trans (abs_near (le_trans er e0) hρR) (by norm_num)
  obtain ⟨fm, em⟩ := poly_round md tf fr fr fC2 fC3 fC4 fC5 tb hrR (le_trans hrR (by norm_num)) b2 b3 b4 b5
  refine ⟨k, binary64.hadd md (binary64.hmul md CC.expInvLn2N x) CC.expShift, _, ?_, k1, k2, k3, fm, ?_⟩
  · unfold CC.expParts sBits
    rw [hr]
    simp only
    have hm := ki_mod (k := k) 0 (by norm_num) (by rw [k1]; norm_num)
    rw [hm]
    rfl
  · have hlip := poly_lip (le_trans hrR (by norm_num)) (le_trans hρR (by norm_num)) b2 b3 b4 b5 er
    have hpoly : |ρ + ρ ^ 2 * (binary64.val CC.expC2 + ρ * binary64.val CC.expC3) + ρ ^ 4 * (binary64.val CC.expC4 + ρ * binary64.val CC.expC5) - (exp ρ - 1)| ≤ ru md * pθ md := by
      unfold pθ
      by_cases hm : md = .nearest
      · rw [if_pos hm]
        refine exp_poly (R := 27077 / 10 ^ 7) ?_ (by norm_num) ?_
        · refine le_trans k3 ?_
          rw [rq, if_pos hm]
          refine le_trans (mul_le_mul_of_nonneg_left c2 (by norm_num)) (by norm_num)
        · rw [ru, if_pos hm]; norm_num
      · rw [if_neg hm]
        refine exp_poly (R := 54153 / 10 ^ 7) hρR (by norm_num) ?_
        rw [ru, if_neg hm]; norm_num
    generalize binary64.val (binary64.hadd md _ _) = M at *
    generalize binary64.val (tabT (kIdx k)) = T at *
    generalize binary64.val r = Rr at *
    generalize binary64.val CC.expC2 = C2 at *
    generalize binary64.val CC.expC3 = C3 at *
    generalize binary64.val CC.expC4 = C4 at *
    generalize binary64.val CC.expC5 = C5 at *
    have e1 : M - (T + (exp ρ - 1)) = (M - (T + Rr + Rr ^ 2 * (C2 + Rr * C3) + Rr ^ 4 * (C4 + Rr * C5))) + (Rr - ρ) +
        ((Rr ^ 2 * (C2 + Rr * C3) + Rr ^ 4 * (C4 + Rr * C5)) - (ρ ^ 2 * (C2 + ρ * C3) + ρ ^ 4 * (C4 + ρ * C5))) +
        (ρ + ρ ^ 2 * (C2 + ρ * C3) + ρ ^ 4 * (C4 + ρ * C5) - (exp ρ - 1)) := by ring
    rw [e1]
    refine le_trans (abs_add_le' (abs_add_le' (abs_add_le' em er) hlip) hpoly) ?_
    have h81 : (1 : ℝ) / 2 ^ 81 ≤ ru md * (1 / 2 ^ 28) := by
      have := mul_le_mul_of_nonneg_right hu3 (show (0 : ℝ) ≤ 1 / 2 ^ 28 by positivity)
      refine le_trans ?_ this; norm_num
    have huE : 0 ≤ ru md * E := mul_nonneg hu.le hE
    have h28 : (2 : ℝ) * (ru md * (1 / 2 ^ 28)) ≤ ru md * (1 / 10 ^ 5) := by
      have : (2 : ℝ) * (1 / 2 ^ 28) ≤ 1 / 10 ^ 5 := by norm_num
      have := mul_le_mul_of_nonneg_left this hu.le
      linarith
    linarith

end Verif
