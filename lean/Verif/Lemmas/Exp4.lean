import Verif.Lemmas.Exp3

/-!
# Reduction of the argument by multiples of `ln 2 / 128`, and the polynomial
-/

namespace Verif
open Fmt Real

theorem val_inv : binary64.val CC.expInvLn2N = 0x171547652b82fe / 2 ^ 45 := by
  rw [lit64 false 0x171547652b82fe 45 (by decide +kernel) (by decide +kernel) (by decide +kernel) (by decide +kernel)]
  simp [sg]
theorem val_nhi : binary64.val CC.expNegLn2Hi = -(47632711549 / 2 ^ 43) := by
  rw [lit64 true 0x162e42fefa0000 60 (by decide +kernel) (by decide +kernel) (by decide +kernel) (by decide +kernel)]
  norm_num [sg]
theorem val_nlo : binary64.val CC.expNegLn2Lo = -(0x1cf79abc9e3b3a / 2 ^ 99) := by
  rw [lit64 true 0x1cf79abc9e3b3a 99 (by decide +kernel) (by decide +kernel) (by decide +kernel) (by decide +kernel)]
  norm_num [sg]
theorem val_c2 : binary64.val CC.expC2 = 0x1ffffffffffdbd / 2 ^ 54 := by
  rw [lit64 false 0x1ffffffffffdbd 54 (by decide +kernel) (by decide +kernel) (by decide +kernel) (by decide +kernel)]
  simp [sg]
theorem val_c3 : binary64.val CC.expC3 = 0x1555555555543c / 2 ^ 55 := by
  rw [lit64 false 0x1555555555543c 55 (by decide +kernel) (by decide +kernel) (by decide +kernel) (by decide +kernel)]
  simp [sg]
theorem val_c4 : binary64.val CC.expC4 = 0x155555cf172b91 / 2 ^ 57 := by
  rw [lit64 false 0x155555cf172b91 57 (by decide +kernel) (by decide +kernel) (by decide +kernel) (by decide +kernel)]
  simp [sg]
theorem val_c5 : binary64.val CC.expC5 = 0x11111167a4d017 / 2 ^ 59 := by
  rw [lit64 false 0x11111167a4d017 59 (by decide +kernel) (by decide +kernel) (by decide +kernel) (by decide +kernel)]
  norm_num [sg]

/-- loss of accuracy of the reduction for arguments that overflow or underflow anyway -/
noncomputable def farE (X : ℝ) : ℝ := if |X| ≤ 1000 then 0 else 1100
theorem farE_nonneg (X : ℝ) : 0 ≤ farE X := by unfold farE; split_ifs <;> norm_num
theorem farE_le (X : ℝ) : farE X ≤ 1100 := by unfold farE; split_ifs <;> norm_num

/-- the constants against `ln 2 / 128` -/
theorem ln2_consts : 541521 / 10 ^ 8 ≤ log 2 / 128 ∧ log 2 / 128 ≤ 541522 / 10 ^ 8 ∧ |binary64.val CC.expInvLn2N * (log 2 / 128) - 1| ≤ 1 / 2 ^ 53 ∧
    |log 2 / 128 + binary64.val CC.expNegLn2Hi| ≤ 1 / 2 ^ 46 ∧
    |log 2 / 128 + binary64.val CC.expNegLn2Hi + binary64.val CC.expNegLn2Lo| ≤ 1 / 2 ^ 99 := by
  obtain ⟨h1, h2⟩ := ln2_bounds
  rw [val_inv, val_nhi, val_nlo]
  norm_num at h1 h2
  refine ⟨by linarith, by linarith, ?_, ?_, ?_⟩
  all_goals rw [abs_le]; constructor <;> norm_num <;> linarith

theorem red_dist {X z K c O u q : ℝ} (hX : |X| ≤ 1024) (hc1 : 541521 / 10 ^ 8 ≤ c) (hc2 : c ≤ 541522 / 10 ^ 8) (hu2 : u ≤ 1 / 2 ^ 52) (hO : |O * c - 1| ≤ 1 / 2 ^ 53)
    (hz : |z - O * X| ≤ u * (190000 + 1 / 2 ^ 140)) (hK : |z - K| ≤ q) : |X - K * c| ≤ (q + 1 / 2 ^ 33) * c := by
  have hc : 0 < c := lt_of_lt_of_le (by norm_num) hc1
  have e : X - K * c = (z - K) * c - (z - O * X) * c - X * (O * c - 1) := by ring
  rw [e]
  have h1 : |(z - K) * c| ≤ q * c := by rw [abs_mul, abs_of_pos hc]; exact mul_le_mul_of_nonneg_right hK hc.le
  have h2 : |(z - O * X) * c| ≤ 1 / 2 ^ 52 * 200000 * c := by
    rw [abs_mul, abs_of_pos hc]
    refine mul_le_mul_of_nonneg_right (le_trans hz ?_) hc.le
    have : u * (190000 + 1 / 2 ^ 140) ≤ 1 / 2 ^ 52 * (190000 + 1 / 2 ^ 140) := mul_le_mul_of_nonneg_right hu2 (by positivity)
    refine le_trans this ?_; norm_num
  have h3 : |X * (O * c - 1)| ≤ 1024 * (1 / 2 ^ 53) := abs_mul_le hX hO
  have h4 : |(z - K) * c - (z - O * X) * c - X * (O * c - 1)| ≤ q * c + 1 / 2 ^ 52 * 200000 * c + 1024 * (1 / 2 ^ 53) := by
    have := abs_add_le' (abs_add_le' h1 ((abs_neg _).le.trans h2)) ((abs_neg _).le.trans h3)
    refine le_trans (le_of_eq ?_) this
    congr 1
  refine le_trans h4 ?_
  have h5 : (1 : ℝ) / 2 ^ 52 * 200000 * c + 1024 * (1 / 2 ^ 53) ≤ 1 / 2 ^ 33 * c := by
    have : (1024 : ℝ) * (1 / 2 ^ 53) ≤ (1 / 2 ^ 33 - 1 / 2 ^ 52 * 200000) * (541521 / 10 ^ 8) := by norm_num
    have h6 : (1 / 2 ^ 33 - 1 / 2 ^ 52 * 200000) * (541521 / 10 ^ 8) ≤ (1 / 2 ^ 33 - 1 / 2 ^ 52 * 200000 : ℝ) * c :=
      mul_le_mul_of_nonneg_left hc1 (by norm_num)
    linarith
  linarith

theorem red_last' {u X K c hi lo P1 V1 P2 r E : ℝ} (hu : 0 < u) (hu2 : u ≤ 1 / 2 ^ 52) (hK : |K| ≤ 190000) (hE : 0 ≤ E) (hE2 : E ≤ 1100)
    (hρ : |X - K * c| ≤ 54157 / 10 ^ 7) (hhi : |c + hi| ≤ 1 / 2 ^ 46) (hlo : |c + hi + lo| ≤ 1 / 2 ^ 99)
    (h1 : |P1 - K * hi| ≤ u * E) (h2 : |V1 - (X + P1)| ≤ u * (542 / 10 ^ 5 + 1 / 2 ^ 140)) (h3 : |P2 - K * lo| ≤ u * (1 / 2 ^ 27 + 1 / 2 ^ 140))
    (h4 : |r - (V1 + P2)| ≤ u * (542 / 10 ^ 5 + 1 / 2 ^ 140)) : |r - (X - K * c)| ≤ u * (1085 / 10 ^ 5 + E) + 1 / 2 ^ 81 := by
  have e : r - (X - K * c) = (r - (V1 + P2)) + (V1 - (X + P1)) + (P2 - K * lo) + (P1 - K * hi) + K * (c + hi + lo) := by ring
  rw [e]
  refine le_trans (abs_add_le' (abs_add_le' (abs_add_le' (abs_add_le' h4 h2) h3) h1) (abs_mul_le hK hlo)) ?_
  have : (190000 : ℝ) * (1 / 2 ^ 99) ≤ 1 / 2 ^ 81 := by norm_num
  have : u * (542 / 10 ^ 5 + 1 / 2 ^ 140) + u * (542 / 10 ^ 5 + 1 / 2 ^ 140) + u * (1 / 2 ^ 27 + 1 / 2 ^ 140) ≤ u * (1085 / 10 ^ 5) := by
    rw [← mul_add, ← mul_add]
    exact mul_le_mul_of_nonneg_left (by norm_num) hu.le
  linarith

/-- the reduced argument of `exp` -/
theorem exp_red (md : Mode) {x : ℕ} (hx : binary64.Finite x) (hb : |binary64.val x| ≤ 1024) :
    ∃ k : ℤ, (binary64.hadd md (binary64.hmul md CC.expInvLn2N x) CC.expShift : ℤ) = 0x433 * 2 ^ 52 + 2 ^ 51 + k ∧ |k| ≤ 189098 ∧
      |binary64.val x - k * (log 2 / 128)| ≤ (rq md + 1 / 2 ^ 33) * (log 2 / 128) ∧
      ∃ r, r = binary64.hadd md (binary64.hadd md x (binary64.hmul md
          (binary64.hsub md (binary64.hadd md (binary64.hmul md CC.expInvLn2N x) CC.expShift) CC.expShift) CC.expNegLn2Hi))
          (binary64.hmul md (binary64.hsub md (binary64.hadd md (binary64.hmul md CC.expInvLn2N x) CC.expShift) CC.expShift) CC.expNegLn2Lo) ∧
        binary64.Finite r ∧ |binary64.val r - (binary64.val x - k * (log 2 / 128))| ≤ ru md * (1085 / 10 ^ 5 + farE (binary64.val x)) + 1 / 2 ^ 81 := by
  obtain ⟨c1, c2, cO, chi, clo⟩ := ln2_consts
  have hu := ru_pos md
  have hu2 := ru_le md
  have fi : binary64.Finite CC.expInvLn2N := (binary64.finite_iff _).2 ⟨by decide +kernel, by decide +kernel⟩
  have fh : binary64.Finite CC.expNegLn2Hi := (binary64.finite_iff _).2 ⟨by decide +kernel, by decide +kernel⟩
  have fl : binary64.Finite CC.expNegLn2Lo := (binary64.finite_iff _).2 ⟨by decide +kernel, by decide +kernel⟩
  have bi : |binary64.val CC.expInvLn2N| ≤ 1846650 / 10 ^ 4 := by rw [val_inv, abs_of_pos (by norm_num)]; norm_num
  set c := log 2 / 128
  obtain ⟨fz, ez⟩ := st_mul md fi hx (B := 190000) (le_trans (abs_mul_le bi hb) (by norm_num)) (by norm_num)
  set z := binary64.hmul md CC.expInvLn2N x
  have bz : |binary64.val z| ≤ 1890970 / 10 := by
    refine le_trans (abs_near ez (abs_mul_le bi hb)) ?_
    have : ru md * (190000 + 1 / 2 ^ 140) ≤ 1 / 2 ^ 52 * (190000 + 1 / 2 ^ 140) := mul_le_mul_of_nonneg_right hu2 (by positivity)
    refine le_trans (add_le_add_right this _) ?_
    norm_num
  obtain ⟨k, k1, k2, k3, k4⟩ := shift64 md 0 (by norm_num) (sh := CC.expShift) fz (by decide +kernel) (le_trans bz (by norm_num))
  simp only [Nat.cast_zero, neg_zero, zpow_zero, mul_one, sub_zero] at k1 k2 k4
  have hkr : |(k : ℝ)| ≤ 1890980 / 10 := by
    have e : (k : ℝ) = binary64.val z - (binary64.val z - k) := by ring
    rw [e]
    have h3 := abs_sub (binary64.val z) (binary64.val z - k)
    have := rq_le md
    linarith
  have hk : |k| ≤ 189098 := by
    have : |(k : ℝ)| ≤ ((189098 : ℤ) : ℝ) := le_trans hkr (by norm_num)
    exact_mod_cast this
  have hρ := red_dist hb c1 c2 hu2 cO ez k2
  refine ⟨k, k1, hk, hρ, _, rfl, ?_⟩
  have hρ2 : |binary64.val x - k * c| ≤ 54157 / 10 ^ 7 := by
    refine le_trans hρ ?_
    have h5 : (rq md + 1 / 2 ^ 33) ≤ 1 + 1 / 2 ^ 33 := by linarith [rq_le md]
    refine le_trans (mul_le_mul h5 c2 (by linarith) (by positivity)) (by norm_num)
  set kd := binary64.hsub md (binary64.hadd md z CC.expShift) CC.expShift
  have hk' : |(k : ℝ)| ≤ 190000 := le_trans hkr (by norm_num)
  -- k * hi
  have hP1 : binary64.Finite (binary64.hmul md kd CC.expNegLn2Hi) ∧
      |binary64.val (binary64.hmul md kd CC.expNegLn2Hi) - k * binary64.val CC.expNegLn2Hi| ≤ ru md * farE (binary64.val x) := by
    unfold farE
    split_ifs with hf
    · have hk2 : |(k : ℝ)| ≤ 185000 := by
        have bz2 : |binary64.val z| ≤ 184999 := by
          refine le_trans (abs_near ez (abs_mul_le bi hf)) ?_
          have : ru md * (190000 + 1 / 2 ^ 140) ≤ 1 / 2 ^ 52 * (190000 + 1 / 2 ^ 140) := mul_le_mul_of_nonneg_right hu2 (by positivity)
          refine le_trans (add_le_add_right this _) ?_
          norm_num
        have e : (k : ℝ) = binary64.val z - (binary64.val z - k) := by ring
        rw [e]
        have h3 := abs_sub (binary64.val z) (binary64.val z - k)
        have := rq_le md
        linarith
      have R := binary64.hmul_spec md k3 fh
      have hb3 : |binary64.val kd * binary64.val CC.expNegLn2Hi| ≤ 185000 * (47632711549 / 2 ^ 43) := by
        rw [k4]; refine abs_mul_le hk2 ?_
        rw [val_nhi, abs_neg, abs_of_pos (by norm_num)]
      obtain ⟨f1, v1⟩ := ex64 (-43) R (by
        rw [k4, val_nhi]
        refine ⟨-k * 47632711549, ?_⟩
        push_cast
        have : (2 : ℝ) ^ (-43 : ℤ) = 1 / 2 ^ 43 := by norm_num
        rw [this]; ring) (by norm_num) (le_trans hb3 (by norm_num)) (le_trans hb3 (by norm_num))
      refine ⟨f1, ?_⟩
      rw [v1, k4]; simp
    · have hb3 : |binary64.val kd * binary64.val CC.expNegLn2Hi| ≤ 1099 := by
        rw [k4]; refine le_trans (abs_mul_le hk' (B := 547 / 10 ^ 5) ?_) (by norm_num)
        rw [val_nhi, abs_neg, abs_of_pos (by norm_num)]; norm_num
      obtain ⟨f1, v1⟩ := st_mul md k3 fh hb3 (by norm_num)
      refine ⟨f1, ?_⟩
      rw [k4] at v1
      exact le_trans v1 (mul_le_mul_of_nonneg_left (by norm_num) hu.le)
  obtain ⟨f1, e1⟩ := hP1
  set P1 := binary64.hmul md kd CC.expNegLn2Hi
  have hE := farE_nonneg (binary64.val x)
  have hE2 := farE_le (binary64.val x)
  set E := farE (binary64.val x)
  have hsmall : ru md * E ≤ 1 / 10 ^ 12 := by
    refine le_trans (mul_le_mul hu2 hE2 hE (by positivity)) (by norm_num)
  have bV1 : |binary64.val x + binary64.val P1| ≤ 542 / 10 ^ 5 := by
    have e : binary64.val x + binary64.val P1 = (binary64.val x - k * c) + k * (c + binary64.val CC.expNegLn2Hi) + (binary64.val P1 - k * binary64.val CC.expNegLn2Hi) := by ring
    rw [e]
    refine le_trans (abs_add_le' (abs_add_le' hρ2 (abs_mul_le hk' chi)) (le_trans e1 hsmall)) (by norm_num)
  obtain ⟨f2, e2⟩ := st_add md hx f1 bV1 (by norm_num)
  set V1 := binary64.hadd md x P1
  have bP2 : |binary64.val kd * binary64.val CC.expNegLn2Lo| ≤ 1 / 2 ^ 27 := by
    rw [k4]; refine le_trans (abs_mul_le hk' (B := 0x1cf79abc9e3b3a / 2 ^ 99) ?_) (by norm_num)
    rw [val_nlo, abs_neg, abs_of_pos (by norm_num)]
  obtain ⟨f3, e3⟩ := st_mul md k3 fl bP2 (by norm_num)
  set P2 := binary64.hmul md kd CC.expNegLn2Lo
  rw [k4] at e3
  have bV2 : |binary64.val V1 + binary64.val P2| ≤ 542 / 10 ^ 5 := by
    have e : binary64.val V1 + binary64.val P2 = (binary64.val x - k * c) + k * (c + binary64.val CC.expNegLn2Hi + binary64.val CC.expNegLn2Lo) + (binary64.val P1 - k * binary64.val CC.expNegLn2Hi) +
      (binary64.val V1 - (binary64.val x + binary64.val P1)) + (binary64.val P2 - k * binary64.val CC.expNegLn2Lo) := by ring
    rw [e]
    have t1 : ru md * (542 / 10 ^ 5 + 1 / 2 ^ 140) ≤ 1 / 2 ^ 52 * (542 / 10 ^ 5 + 1 / 2 ^ 140) := mul_le_mul_of_nonneg_right hu2 (by positivity)
    have t2 : ru md * (1 / 2 ^ 27 + 1 / 2 ^ 140) ≤ 1 / 2 ^ 52 * (1 / 2 ^ 27 + 1 / 2 ^ 140) := mul_le_mul_of_nonneg_right hu2 (by positivity)
    refine le_trans (abs_add_le' (abs_add_le' (abs_add_le' (abs_add_le' hρ2 (abs_mul_le hk' clo)) (le_trans e1 hsmall)) (le_trans e2 t1)) (le_trans e3 t2)) (by norm_num)
  obtain ⟨f4, e4⟩ := st_add md f2 f3 bV2 (by norm_num)
  exact ⟨f4, red_last' hu hu2 hk' hE hE2 hρ2 chi clo e1 e2 e3 e4⟩

end Verif
