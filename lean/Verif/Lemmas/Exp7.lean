import Verif.Lemmas.Exp6

/-!
# `exp` in the subnormal range: the result is rounded to a multiple of `2^-52` before it is scaled by `2^-1022`
-/

namespace Verif
open Fmt Real

theorem ru_rq (m : Mode) : ru m = rq m * (1 / 2 ^ 52) := by
  unfold ru rq; split_ifs <;> norm_num

theorem val_one64 : binary64.val 0x3FF0000000000000 = 1 := by
  rw [lit64 false (2 ^ 52) 52 (by decide +kernel) (by decide +kernel) (by decide +kernel) (by decide +kernel)]
  norm_num [sg]
theorem val_two64 : binary64.val 0x4000000000000000 = 2 := by
  rw [lit64 false (2 ^ 52) 51 (by decide +kernel) (by decide +kernel) (by decide +kernel) (by decide +kernel)]
  norm_num [sg]

theorem z52 : (2 : ℝ) ^ (-52 : ℤ) = 1 / 2 ^ 52 := by rw [zpow_neg, one_div]; norm_cast
theorem z51 : (2 : ℝ) ^ (-51 : ℤ) = 1 / 2 ^ 51 := by rw [zpow_neg, one_div]; norm_cast

/-- doubles that are at least 1 are multiples of `2^-52` -/
theorem mult52 {b : ℕ} (h : 1 ≤ binary64.val b) : Mult (-52) (binary64.val b) :=
  (binary64.mult_ce b).weaken (binary64.le_ce_of (by
    have : (-52 : ℤ) + (binary64.F : ℤ) = 0 := by decide
    rw [this, zpow_zero, abs_of_pos (by linarith)]; exact h))

/-- Rounding a number that is at least 1 and at most 2, or slightly more than 2. -/
theorem round12 {m : Mode} {zs : Bool} {v : ℝ} {b : ℕ} (R : binary64.RoundsTo m zs v b) (h1 : 1 ≤ v) (h2 : v ≤ 3) :
    binary64.Finite b ∧ 1 ≤ binary64.val b ∧ Mult (-52) (binary64.val b) ∧
      ((v ≤ 2 ∧ |binary64.val b - v| ≤ ru m) ∨ (2 < v ∧ |binary64.val b - v| ≤ 2 * ru m)) := by
  have f1 : binary64.Finite 0x3FF0000000000000 := by decide +kernel
  have f2 : binary64.Finite 0x4000000000000000 := by decide +kernel
  have f4 : binary64.Finite 0x4010000000000000 := by decide +kernel
  have v4 : binary64.val 0x4010000000000000 = 4 := by
    rw [lit64 false (2 ^ 52) 50 (by decide +kernel) (by decide +kernel) (by decide +kernel) (by decide +kernel)]
    norm_num [sg]
  obtain ⟨fb, b1, b2⟩ := RoundsTo.between R f1 f4 (by rw [val_one64]; exact h1) (by rw [v4]; linarith)
  rw [val_one64] at b1
  rw [v4] at b2
  refine ⟨fb, b1, mult52 b1, ?_⟩
  have hv' : |v| ≤ binary64.maxFin := le_trans (big_ge (le_trans (abs_le.2 ⟨by linarith, h2⟩) (by norm_num))) big_le
  obtain ⟨-, hulp⟩ := RoundsTo.ulp R hv'
  have hF : (binary64.F : ℤ) = 52 := rfl
  have key : ∀ g : ℤ, binary64.ce b ≤ g → |binary64.val b - v| ≤ rq m * (2 : ℝ) ^ g := by
    intro g hg
    unfold rq
    split_ifs with hm
    · rw [hm] at R
      have := (RoundsTo.half_ulp R fb).2
      refine le_trans this (le_trans (two_zpow_le (show binary64.ce b - 1 ≤ g - 1 by omega)) (le_of_eq ?_))
      rw [zpow_sub₀ (by norm_num)]; norm_num; ring
    · rw [one_mul]; exact le_trans hulp.le (two_zpow_le hg)
  by_cases hv2 : v ≤ 2
  · left
    refine ⟨hv2, ?_⟩
    obtain ⟨-, -, b3⟩ := RoundsTo.between R f1 f2 (by rw [val_one64]; exact h1) (by rw [val_two64]; exact hv2)
    rw [val_two64] at b3
    rcases lt_or_eq_of_le b3 with h | h
    · have := key (-52) (binary64.ce_le_of (by decide +kernel) (by
        rw [hF, abs_of_pos (by linarith)]; refine lt_of_lt_of_le h ?_; norm_num))
      rw [z52, ← ru_rq] at this; exact this
    · -- the result is 2
      have hbv : |binary64.val b - v| ≤ ru m := by
        unfold ru
        -- 2 - 2^-52 is a double
        have g1 : binary64.Finite 0x3FFFFFFFFFFFFFFF := by decide +kernel
        have v1 : binary64.val 0x3FFFFFFFFFFFFFFF = 2 - 1 / 2 ^ 52 := by
          rw [lit64 false (2 ^ 53 - 1) 52 (by decide +kernel) (by decide +kernel) (by decide +kernel) (by decide +kernel)]
          norm_num [sg]
        have hgt : 2 - 1 / 2 ^ 52 < v := by
          by_contra hc
          push Not at hc
          obtain ⟨-, -, b4⟩ := RoundsTo.between R f1 g1 (by rw [val_one64]; exact h1) (by rw [v1]; exact hc)
          rw [v1, h] at b4
          have : (0 : ℝ) < 1 / 2 ^ 52 := by positivity
          linarith
        split_ifs with hmn
        · rw [hmn] at R
          have hn : binary64.IsNearest v b := by
            have hval := R.value
            have hinf : ∀ s, b ≠ binary64.inf s := fun s hb => by
              have := binary64.isInf_inf s
              rw [← hb, isInf_iff] at this
              rw [finite_iff] at fb
              omega
            unfold RoundValue at hval
            simp only at hval
            split_ifs at hval
            · exact absurd hval (hinf _)
            · exact absurd hval (hinf _)
            · exact hval
          have := IsNearest.le hn g1
          rw [v1, h] at this
          rw [h]
          rw [abs_of_nonneg (by linarith)] at this ⊢
          rw [abs_of_neg (by linarith)] at this
          have e : (1 : ℝ) / 2 ^ 53 = 1 / 2 ^ 52 / 2 := by norm_num
          rw [e]; linarith
        · rw [h, abs_of_nonneg (by linarith)]; linarith
      exact hbv
  · right
    push Not at hv2
    refine ⟨hv2, ?_⟩
    have h4 : binary64.val b ≤ 3 := by
      have f3 : binary64.Finite 0x4008000000000000 := by decide +kernel
      have v3 : binary64.val 0x4008000000000000 = 3 := by
        rw [lit64 false (3 * 2 ^ 51) 51 (by decide +kernel) (by decide +kernel) (by decide +kernel) (by decide +kernel)]
        norm_num [sg]
      obtain ⟨-, -, b3⟩ := RoundsTo.between R f1 f3 (by rw [val_one64]; exact h1) (by rw [v3]; exact h2)
      rwa [v3] at b3
    have := key (-51) (binary64.ce_le_of (by decide +kernel) (by
      rw [hF, abs_of_pos (by linarith)]; refine lt_of_le_of_lt h4 ?_; norm_num))
    rw [z51] at this
    rw [ru_rq]
    refine le_trans this (le_of_eq ?_)
    ring

theorem up_ge {zs : Bool} {v : ℝ} {b : ℕ} (R : binary64.RoundsTo .up zs v b) (fb : binary64.Finite b) : v ≤ binary64.val b := by
  have hval := R.value
  unfold RoundValue at hval
  simp only at hval
  split_ifs at hval with h
  · exfalso
    have := binary64.isInf_inf false
    rw [← hval, isInf_iff] at this
    rw [finite_iff] at fb
    omega
  · exact hval.2

theorem down_le' {m : Mode} {zs : Bool} {v : ℝ} {b : ℕ} (R : binary64.RoundsTo m zs v b) (hm : m = .down ∨ m = .zero) (hv : 0 ≤ v) : binary64.val b ≤ v := by
  have hval := R.value
  unfold RoundValue at hval
  rcases hm with hm | hm
  · subst hm
    simp only at hval
    rw [if_neg (by have := binary64.maxFin_pos; linarith)] at hval
    exact hval.2
  · subst hm
    simp only at hval
    rw [if_pos hv] at hval
    exact hval.2

theorem round_nonneg {m : Mode} {zs : Bool} {v : ℝ} {b : ℕ} (R : binary64.RoundsTo m zs v b) (hv : 0 ≤ v) (h2 : v ≤ 6) : 0 ≤ binary64.val b := by
  have f0 : binary64.Finite 0 := by decide +kernel
  have v0 : binary64.val 0 = 0 := (binary64.val_eq_zero_iff _).2 (by decide +kernel)
  have f8 : binary64.Finite 0x4020000000000000 := by decide +kernel
  have v8 : binary64.val 0x4020000000000000 = 8 := by
    rw [lit64 false (2 ^ 52) 49 (by decide +kernel) (by decide +kernel) (by decide +kernel) (by decide +kernel)]
    norm_num [sg]
  have := (RoundsTo.between R f0 f8 (by rw [v0]; exact hv) (by rw [v8]; linarith)).2.1
  rwa [v0] at this

/-- The numbers of the subnormal path: everything up to the sum `hi + lo2`. -/
theorem low_aux {u s t res η d1 l1 : ℝ} (hu : 0 < u) (hu2 : u ≤ 1 / 2 ^ 52) (hs : 0 < s) (hs2 : s ≤ 2) (ht : |t| ≤ s * (58 / 10000))
    (hη : η ≤ u * (s * (1 / 10 ^ 9))) (hη2 : η ≤ u * (1 / 2 ^ 140)) (hres : |res - (s + t)| ≤ u * |s + t| + η)
    (hd : |d1 - (s - res)| ≤ u * |s - res| + η) (hl : |l1 - (d1 + t)| ≤ u * |d1 + t| + η) :
    |l1 - (s + t - res)| ≤ u * (s * (60 / 10 ^ 4)) ∧ |l1| ≤ u * (s * (102 / 100)) := by
  have hus : 0 < u * s := by positivity
  have hus2 : u * s ≤ s * (1 / 2 ^ 52) := by have := mul_le_mul_of_nonneg_right hu2 hs.le; linarith
  have h1 : |s + t| ≤ s * (10058 / 10000) := by
    refine le_trans (abs_add_le _ _) ?_
    rw [abs_of_pos hs]; linarith
  have h2 : u * |s + t| ≤ u * s * (10058 / 10000) := by have := mul_le_mul_of_nonneg_left h1 hu.le; linarith
  have h3 : |res - (s + t)| ≤ u * s * (10059 / 10000) := by linarith
  have h4 : |s - res| ≤ s * (59 / 10000) := by
    have : s - res = -t - (res - (s + t)) := by ring
    rw [this]
    refine le_trans (abs_sub _ _) ?_
    rw [abs_neg]
    have e : (1 : ℝ) / 2 ^ 52 * (10059 / 10000) ≤ 1 / 10000 := by norm_num
    have := mul_le_mul_of_nonneg_left e hs.le
    linarith
  have h5 : |d1 - (s - res)| ≤ u * s * (591 / 100000) := by have := mul_le_mul_of_nonneg_left h4 hu.le; linarith
  have h6 : |d1 + t| ≤ u * s * (102 / 100 - 1 / 1000) := by
    have : d1 + t = (d1 - (s - res)) - (res - (s + t)) := by ring
    rw [this]
    refine le_trans (abs_sub _ _) ?_
    linarith
  have h7 : |l1 - (d1 + t)| ≤ u * s * (1 / 10 ^ 5) := by
    have h8 := mul_le_mul_of_nonneg_left h6 hu.le
    have h9 : u * (u * s * (102 / 100 - 1 / 1000)) ≤ 1 / 2 ^ 52 * (u * s * (102 / 100 - 1 / 1000)) := mul_le_mul_of_nonneg_right hu2 (by nlinarith)
    have h10 : 1 / 2 ^ 52 * (u * s * (102 / 100 - 1 / 1000)) ≤ u * s * (1 / 10 ^ 9) := by
      have e : (1 : ℝ) / 2 ^ 52 * (102 / 100 - 1 / 1000) ≤ 1 / 10 ^ 9 := by norm_num
      have := mul_le_mul_of_nonneg_left e hus.le
      linarith
    linarith
  constructor
  · have : l1 - (s + t - res) = (l1 - (d1 + t)) + (d1 - (s - res)) := by ring
    rw [this]
    refine le_trans (abs_add_le' h7 h5) ?_
    linarith
  · have := abs_near h7 h6
    linarith

theorem low_aux2 {u s t res η l1 hi q l2 : ℝ} (hu : 0 < u) (hu2 : u ≤ 1 / 2 ^ 52) (hs : 0 < s) (hs2 : s ≤ 2) (hη2 : η ≤ u * (1 / 2 ^ 140)) (hη0 : 0 ≤ η)
    (h1 : |l1 - (s + t - res)| ≤ u * (s * (60 / 10 ^ 4))) (h2 : |l1| ≤ u * (s * (102 / 100))) (hh : |hi - (1 + res)| ≤ 2 * u)
    (hq : |q - (1 - hi + res)| ≤ u * |1 - hi + res| + η) (hl2 : |l2 - (q + l1)| ≤ u * |q + l1| + η) :
    |hi + l2 - (1 + (s + t))| ≤ u * (s * (60 / 10 ^ 4)) + u * (1 / 2 ^ 48) := by
  have h3 : |1 - hi + res| ≤ 2 * u := by
    have : 1 - hi + res = -(hi - (1 + res)) := by ring
    rw [this, abs_neg]; exact hh
  have hus : u * s ≤ u * 2 := mul_le_mul_of_nonneg_left hs2 hu.le
  have h4 : |q - (1 - hi + res)| ≤ u * (1 / 2 ^ 50) := by
    have := mul_le_mul_of_nonneg_left (le_trans h3 (mul_le_mul_of_nonneg_left hu2 (by norm_num))) hu.le
    have e : u * (2 * (1 / 2 ^ 52)) + u * (1 / 2 ^ 140) ≤ u * (1 / 2 ^ 50) := by
      rw [← mul_add]; exact mul_le_mul_of_nonneg_left (by norm_num) hu.le
    linarith
  have h5 : u * (1 / 2 ^ 50) ≤ u := by
    have := mul_le_mul_of_nonneg_left (show (1 : ℝ) / 2 ^ 50 ≤ 1 by norm_num) hu.le
    linarith
  have h6 : |q| ≤ 3 * u := le_trans (abs_near h4 h3) (by linarith)
  have h7 : |q + l1| ≤ 1 / 2 ^ 49 := by
    refine le_trans (abs_add_le' h6 h2) ?_
    have e : (6 : ℝ) * (1 / 2 ^ 52) ≤ 1 / 2 ^ 49 := by norm_num
    linarith
  have h8 : |l2 - (q + l1)| ≤ u * (1 / 2 ^ 49 + 1 / 2 ^ 140) := by
    have := mul_le_mul_of_nonneg_left h7 hu.le
    rw [mul_add]; linarith
  have e : hi + l2 - (1 + (s + t)) = (l2 - (q + l1)) + (q - (1 - hi + res)) + (l1 - (s + t - res)) := by ring
  rw [e]
  refine le_trans (abs_add_le' (abs_add_le' h8 h4) h1) ?_
  have : u * (1 / 2 ^ 49 + 1 / 2 ^ 140) + u * (1 / 2 ^ 50) ≤ u * (1 / 2 ^ 48) := by
    rw [← mul_add]; exact mul_le_mul_of_nonneg_left (by norm_num) hu.le
  linarith

/-- The subnormal path of `handle_special_case`: `s + t` is rounded to a multiple of `2^-52`. -/
theorem exp_low (md : Mode) {sc m R : ℕ} (fs : binary64.Finite sc) (fm : binary64.Finite m) (fR : binary64.Finite R) (hs : 0 < binary64.val sc) (hs2 : binary64.val sc ≤ 2)
    (ht : |binary64.val m| ≤ binary64.val sc * (58 / 10000)) (hη : eta ≤ ru md * (binary64.val sc * (1 / 10 ^ 9)))
    (hres : |binary64.val R - (binary64.val sc + binary64.val m)| ≤ ru md * |binary64.val sc + binary64.val m| + eta) (hR : binary64.val R < 1) :
    ∃ y, binary64.hsub md (binary64.hadd md (binary64.hadd md 0x3FF0000000000000 R) (binary64.hadd md (binary64.hadd md (binary64.hsub md 0x3FF0000000000000 (binary64.hadd md 0x3FF0000000000000 R)) R)
        (binary64.hadd md (binary64.hsub md sc R) m))) 0x3FF0000000000000 = y ∧ binary64.Finite y ∧ 0 ≤ binary64.val y ∧ Mult (-52) (binary64.val y) ∧ binary64.val y ≤ 11 / 10 ∧
      (|binary64.val y - (binary64.val sc + binary64.val m)| ≤ ru md * (1 + binary64.val sc * (60 / 10 ^ 4) + 1 / 2 ^ 48) ∨
        (1 - 1 / 2 ^ 40 ≤ binary64.val sc + binary64.val m ∧ |binary64.val y - (binary64.val sc + binary64.val m)| ≤ ru md * (2 + binary64.val sc * (60 / 10 ^ 4) + 1 / 2 ^ 48))) := by
  have hu := ru_pos md
  have hu2 := ru_le md
  have hu3 := ru_ge md
  have hη0 := eta_pos
  have hη2 : eta ≤ ru md * (1 / 2 ^ 140) := by
    refine le_trans eta_le (le_trans ?_ (mul_le_mul_of_nonneg_right hu3 (by positivity))); norm_num
  have f1 : binary64.Finite 0x3FF0000000000000 := by decide +kernel
  have hus : 0 < ru md * binary64.val sc := mul_pos hu hs
  have hst : |binary64.val sc + binary64.val m - binary64.val sc| ≤ binary64.val sc * (58 / 10000) := by rwa [add_sub_cancel_left]
  rw [abs_le] at hst
  have habs : |binary64.val sc + binary64.val m| = binary64.val sc + binary64.val m := abs_of_pos (by linarith [hst.1])
  have hus2 : ru md * binary64.val sc ≤ binary64.val sc * (1 / 2 ^ 52) := by have := mul_le_mul_of_nonneg_right hu2 hs.le; linarith
  have husm : ru md * (binary64.val sc + binary64.val m) ≤ ru md * (binary64.val sc * (10058 / 10000)) := mul_le_mul_of_nonneg_left (by linarith [hst.2]) hu.le
  have hres' : |binary64.val R - (binary64.val sc + binary64.val m)| ≤ binary64.val sc * (1 / 10 ^ 6) := by
    refine le_trans hres ?_
    rw [habs]
    have : binary64.val sc * (1 / 2 ^ 52) ≤ binary64.val sc * (1 / 10 ^ 7) := mul_le_mul_of_nonneg_left (by norm_num) hs.le
    linarith
  rw [abs_le] at hres'
  have hR0 : 0 < binary64.val R := by linarith [hres'.1, hst.1]
  -- lo1
  obtain ⟨fd, ed⟩ := err64 (binary64.hsub_spec md fs fR) (le_trans (show |binary64.val sc - binary64.val R| ≤ 4 by rw [abs_le]; constructor <;> linarith) (by norm_num))
  have hd4 : |binary64.val (binary64.hsub md sc R)| ≤ 8 := by
    have h1 : |binary64.val sc - binary64.val R| ≤ 4 := by rw [abs_le]; constructor <;> linarith
    have h2 := mul_le_mul hu2 h1 (abs_nonneg _) (by positivity)
    have := abs_near ed h1
    have := eta_le
    have : (1 : ℝ) / 2 ^ 52 * 4 + 1 / 2 ^ 200 ≤ 1 := by norm_num
    linarith
  obtain ⟨fl1, el1⟩ := err64 (binary64.hadd_spec md fd fm) (le_trans (abs_add_le' hd4 ht) (by
    have : binary64.val sc * (58 / 10000) ≤ 2 * (58 / 10000) := mul_le_mul_of_nonneg_right hs2 (by norm_num)
    have : (8 : ℝ) + 2 * (58 / 10000) ≤ 2 ^ 200 := by norm_num
    linarith))
  generalize binary64.hadd md (binary64.hsub md sc R) m = l1 at *
  generalize binary64.hsub md sc R = d1 at *
  obtain ⟨a1, a2⟩ := low_aux hu hu2 hs hs2 ht hη hη2 hres ed el1
  -- hi
  have Rh := binary64.hadd_spec md f1 fR
  rw [val_one64] at Rh
  obtain ⟨fh, h1, hM, herr⟩ := round12 Rh (by linarith) (by linarith)
  have herr' : |binary64.val (binary64.hadd md 0x3FF0000000000000 R) - (1 + binary64.val R)| ≤ ru md := by
    rcases herr with h | h
    · exact h.2
    · linarith [h.1]
  have hh2 : binary64.val (binary64.hadd md 0x3FF0000000000000 R) ≤ 2 := by
    have := (RoundsTo.between Rh f1 (show binary64.Finite 0x4000000000000000 by decide +kernel) (by rw [val_one64]; linarith) (by rw [val_two64]; linarith)).2.2
    rwa [val_two64] at this
  generalize binary64.hadd md 0x3FF0000000000000 R = hi at *
  -- 1 - hi
  have Ro := binary64.hsub_spec md f1 fh
  rw [val_one64] at Ro
  have m1 : Mult (-52) (1 : ℝ) := by rw [← val_one64]; exact mult52 val_one64.ge
  obtain ⟨fo, eo⟩ := ex64 (-52) Ro (m1.sub hM) (by norm_num) (by rw [abs_le]; norm_num; constructor <;> linarith) (by
    refine le_trans (show |1 - binary64.val hi| ≤ 1 by rw [abs_le]; constructor <;> linarith) (by norm_num))
  generalize binary64.hsub md 0x3FF0000000000000 hi = oh at *
  -- q
  have Rq := binary64.hadd_spec md fo fR
  have hv : |binary64.val oh + binary64.val R| ≤ ru md := by
    rw [eo, show 1 - binary64.val hi + binary64.val R = -(binary64.val hi - (1 + binary64.val R)) by ring, abs_neg]; exact herr'
  have h52 : (1 : ℝ) / 2 ^ 52 ≤ 1 := by norm_num
  obtain ⟨fq, eq⟩ := err64 Rq (le_trans hv (le_trans hu2 (le_trans h52 (by norm_num))))
  have hq2 : |binary64.val (binary64.hadd md oh R)| ≤ 3 := by
    have h2 := mul_le_mul (le_trans hu2 h52) (le_trans hv (le_trans hu2 h52)) (abs_nonneg _) (by norm_num)
    have := abs_near eq hv
    have := eta_le
    have : (1 : ℝ) / 2 ^ 200 ≤ 1 := by norm_num
    linarith
  -- lo2
  have Rl := binary64.hadd_spec md fq fl1
  have hl1 : |binary64.val l1| ≤ 3 := by
    have : ru md * binary64.val sc ≤ 1 * 2 := mul_le_mul (le_trans hu2 h52) hs2 hs.le (by norm_num)
    linarith
  obtain ⟨fl2, el2⟩ := err64 Rl (le_trans (abs_add_le' hq2 hl1) (by norm_num))
  have eq' := eq
  rw [eo] at eq'
  have key := low_aux2 hu hu2 hs hs2 hη2 hη0.le a1 a2 (by linarith) eq' el2
  -- hi + lo2 is at least 1
  have hge : 1 ≤ binary64.val hi + binary64.val (binary64.hadd md (binary64.hadd md oh R) l1) := by
    have hl1b := abs_le.1 a2
    have hRl : 0 < binary64.val R + binary64.val l1 := by
      have : binary64.val sc * (1 / 2 ^ 52) ≤ binary64.val sc * (1 / 10 ^ 7) := mul_le_mul_of_nonneg_left (by norm_num) hs.le
      linarith [hres'.1, hst.1, hl1b.1]
    by_cases hup : md = .up
    · subst hup
      have b1 := up_ge Rq fq
      have b2 := up_ge Rl fl2
      rw [eo] at b1
      linarith
    · by_cases hbig : (1 : ℝ) / 2 ^ 98 ≤ binary64.val sc
      · have kb := (abs_le.1 key).1
        have e2 : ru md * (1 / 2 ^ 48) ≤ 1 / 2 ^ 52 * (1 / 2 ^ 48) := mul_le_mul_of_nonneg_right hu2 (by positivity)
        have e3 : (1 : ℝ) / 2 ^ 52 * (1 / 2 ^ 48) = 1 / 4 * (1 / 2 ^ 98) := by norm_num
        have : binary64.val sc * (1 / 2 ^ 52) ≤ binary64.val sc * (1 / 10 ^ 7) := mul_le_mul_of_nonneg_left (by norm_num) hs.le
        linarith [hst.1]
      · push Not at hbig
        have hR2 : binary64.val R ≤ 1 / 2 ^ 97 := by
          have e3 : (1 : ℝ) / 2 ^ 97 = 2 * (1 / 2 ^ 98) := by norm_num
          linarith [hres'.2, hst.2]
        have hh1 : binary64.val hi = 1 := by
          refine Mult.eq_of_close hM m1 ?_
          rw [z52]
          have e3 : (1 : ℝ) / 2 ^ 97 < 1 / 2 ^ 53 := by norm_num
          have e4 : (1 : ℝ) / 2 ^ 52 = 1 / 2 ^ 53 + 1 / 2 ^ 53 := by norm_num
          rw [abs_of_nonneg (by linarith)]
          by_cases hn : md = .nearest
          · have e5 : ru md = 1 / 2 ^ 53 := by unfold ru; rw [if_pos hn]
            have := (abs_le.1 herr').2
            linarith
          · have := down_le' Rh (by cases md <;> simp_all) (by linarith)
            linarith
        have hq : binary64.val (binary64.hadd md oh R) = binary64.val R := by
          have : binary64.val oh + binary64.val R = binary64.val R := by rw [eo, hh1]; ring
          rw [this] at Rq
          exact (RoundsTo.exact binary64 fR rfl Rq).2
        rw [hq] at Rl
        have hlt : binary64.val R + binary64.val l1 ≤ 3 + 3 := by have := (abs_le.1 hl1).2; linarith
        have hle := round_nonneg Rl hRl.le (by linarith)
        linarith
  have hu1 := ru_le md
  have hc1 : ru md * (binary64.val sc * (60 / 10 ^ 4)) + ru md * (1 / 2 ^ 48) ≤ 1 / 2 ^ 52 := by
    have : ru md * (binary64.val sc * (60 / 10 ^ 4) + 1 / 2 ^ 48) ≤ 1 / 2 ^ 52 * 1 := by
      refine mul_le_mul hu2 ?_ (by linarith [show (0 : ℝ) < 1 / 2 ^ 48 by positivity]) (by positivity)
      have : (1 : ℝ) / 2 ^ 48 ≤ 1 / 2 := by norm_num
      linarith
    linarith
  have hc2 : (1 : ℝ) / 2 ^ 52 ≤ 1 / 10 ^ 6 := by norm_num
  generalize binary64.hadd md (binary64.hadd md oh R) l1 = l2 at *
  have kb := abs_le.1 key
  have Rb := binary64.hadd_spec md fh fl2
  obtain ⟨fb, b1, bM, berr⟩ := round12 Rb hge (by linarith [hres'.1])
  generalize binary64.hadd md hi l2 = b at *
  have hstop : binary64.val sc + binary64.val m ≤ 1 + 2 * (1 / 10 ^ 6) := by linarith [hres'.1]
  have hb2 : binary64.val b ≤ 2 + 1 / 20 := by
    rcases berr with h | h <;> have := (abs_le.1 h.2).2 <;> linarith
  have Ry := binary64.hsub_spec md fb f1
  rw [val_one64] at Ry
  obtain ⟨fy, ey⟩ := ex64 (-52) Ry (bM.sub m1) (by norm_num) (by rw [abs_le]; norm_num; constructor <;> linarith) (by
    refine le_trans (show |binary64.val b - 1| ≤ 3 by rw [abs_le]; constructor <;> linarith) (by norm_num))
  refine ⟨_, rfl, fy, by rw [ey]; linarith, by rw [ey]; exact bM.sub m1, by rw [ey]; linarith, ?_⟩
  rw [ey]
  have hcomb : ∀ c, |binary64.val b - (binary64.val hi + binary64.val l2)| ≤ c * ru md →
      |binary64.val b - 1 - (binary64.val sc + binary64.val m)| ≤ ru md * (c + binary64.val sc * (60 / 10 ^ 4) + 1 / 2 ^ 48) := by
    intro c hc
    have := abs_tri hc key
    rw [show binary64.val b - 1 - (binary64.val sc + binary64.val m) = binary64.val b - (1 + (binary64.val sc + binary64.val m)) by ring]
    refine le_trans this (le_of_eq ?_)
    ring
  rcases berr with h | h
  · exact Or.inl (hcomb 1 (by rw [one_mul]; exact h.2))
  · refine Or.inr ⟨?_, hcomb 2 h.2⟩
    have : (1 : ℝ) / 2 ^ 52 ≤ 1 / 2 ^ 40 := by norm_num
    linarith [h.1]

end Verif
