import Verif.Lemmas.Ipow1
import Verif.Lemmas.RoundScale
import Verif.Props.Rsqrt

/-!
# pow: the reciprocal of a pair and the final scaling
-/

namespace Verif
open Fmt Real

/-- one step of the reciprocal -/
theorem refine_err (m : Mode) {d : CC.Pair} {r : ℕ} (fh : binary64.Finite d.hi) (fl : binary64.Finite d.lo) (fr : binary64.Finite r)
    (h1 : 98 / 100 ≤ |binary64.val d.hi + binary64.val d.lo|) (h2 : |binary64.val d.lo| ≤ 21 / 10 / 2 ^ 52) (h3 : |binary64.val d.hi| ≤ 21 / 10)
    (hr : |binary64.val r * (binary64.val d.hi + binary64.val d.lo) - 1| ≤ 6 / 2 ^ 52) :
    ∃ q zs w, CC.reciprocalRefine m d r = some q ∧ binary64.RoundsTo m zs w q ∧ |w * (binary64.val d.hi + binary64.val d.lo) - 1| ≤ 1 / 2 ^ 97 ∧ |w| ≤ 11 / 10 := by
  set D := binary64.val d.hi + binary64.val d.lo with hD
  have bD : ∀ {u e : ℝ}, |u * D - 1| ≤ e → |u| * (98 / 100) ≤ 1 + e := fun {u e} h => by
    have : |u * D| ≤ 1 + e := by
      rw [show u * D = (u * D - 1) + 1 by ring]
      refine (abs_add_le' h (le_of_eq abs_one)).trans (by linarith)
    rw [abs_mul] at this
    exact (mul_le_mul_of_nonneg_left h1 (abs_nonneg u)).trans this
  have rb : |binary64.val r| ≤ 103 / 100 := by
    have := bD hr
    norm_num at this ⊢; linarith
  have p1 : |binary64.val d.hi * binary64.val r - 1| ≤ 9 / 2 ^ 52 := by
    rw [show binary64.val d.hi * binary64.val r - 1 = (binary64.val r * D - 1) + -(binary64.val d.lo * binary64.val r) by rw [hD]; ring]
    refine (abs_add_le' hr ((abs_neg _).trans_le (abs_mul_le h2 rb))).trans ?_
    norm_num
  have p2 : |binary64.val d.hi * binary64.val r| ≤ 1 + 9 / 2 ^ 52 := by
    rw [show binary64.val d.hi * binary64.val r = (binary64.val d.hi * binary64.val r - 1) + 1 by ring]
    refine (abs_add_le' p1 (le_of_eq abs_one)).trans (by linarith)
  have p3 : 1 / 2 ≤ |binary64.val d.hi * binary64.val r| := by
    have := (abs_le.1 p1).1
    refine le_trans ?_ (le_abs_self _)
    norm_num at this; linarith
  have big : (4 : ℝ) ≤ 2 ^ (1023 : ℤ) := by
    have : (2 : ℝ) ^ (2 : ℤ) ≤ 2 ^ (1023 : ℤ) := two_zpow_le (by norm_num)
    exact le_trans (by norm_num) this
  have small : (2 : ℝ) ^ (-969 : ℤ) ≤ 1 / 2 := by
    have : (2 : ℝ) ^ (-969 : ℤ) ≤ 2 ^ (-1 : ℤ) := two_zpow_le (by norm_num)
    exact this.trans (by norm_num)
  obtain ⟨p, hp, ⟨zs, Rp⟩, gh, gl, ep⟩ := C33_two_prod m fh fr ((p2.trans (by norm_num)).trans (big.trans maxFin64)) (Or.inr (small.trans p3))
  clear big small
  obtain ⟨-, eh⟩ := rnd_le Rp p2 (by norm_num)
  have o := one64_val
  have ra := binary64.hsub_spec m o.1 gh
  rw [o.2] at ra
  have la : |1 - binary64.val p.hi| ≤ 11 / 2 ^ 52 := by
    rw [show 1 - binary64.val p.hi = -(binary64.val d.hi * binary64.val r - 1) + -(binary64.val p.hi - binary64.val d.hi * binary64.val r) by ring]
    refine (abs_add_le' ((abs_neg _).trans_le p1) ((abs_neg _).trans_le eh)).trans (by norm_num)
  obtain ⟨fa, ea⟩ := rnd_le ra la (by norm_num)
  have llo : |binary64.val p.lo| ≤ 11 / 10 / 2 ^ 52 := by
    rw [show binary64.val p.lo = -(binary64.val p.hi - binary64.val d.hi * binary64.val r) by linarith, abs_neg]
    exact eh.trans (by norm_num)
  have rb2 := binary64.hsub_spec m fa gl
  have lb : |binary64.val (binary64.hsub m CC.one64 p.hi) - binary64.val p.lo| ≤ 13 / 2 ^ 52 := by
    rw [show binary64.val (binary64.hsub m CC.one64 p.hi) - binary64.val p.lo = (binary64.val (binary64.hsub m CC.one64 p.hi) - (1 - binary64.val p.hi)) + ((1 - binary64.val p.hi) + -binary64.val p.lo) by ring]
    refine (abs_add_le' ea (abs_add_le' la ((abs_neg _).trans_le llo))).trans (by norm_num)
  obtain ⟨fb, eb⟩ := rnd_le rb2 lb (by norm_num)
  have hdef : CC.reciprocalRefine m d r = (CC.exactFma m (binary64.hneg d.lo) r (binary64.hsub m (binary64.hsub m CC.one64 p.hi) p.lo)).bind fun err => CC.exactFma m r err r := by
    unfold CC.reciprocalRefine
    rw [hp]; rfl
  rw [hdef]
  clear hdef
  generalize binary64.hsub m CC.one64 p.hi = a at *
  generalize binary64.hsub m a p.lo = b at *
  obtain ⟨e, z1, he, Re⟩ := exactFma_spec m (binary64.finite_hneg fl) fr fb
  rw [val_hneg] at Re
  have le1 : |-binary64.val d.lo * binary64.val r + binary64.val b| ≤ 16 / 2 ^ 52 := by
    refine (abs_add_le' (abs_mul_le ((abs_neg _).trans_le h2) rb) (abs_near eb lb)).trans (by norm_num)
  obtain ⟨fe, ee⟩ := rnd_le Re le1 (by norm_num)
  obtain ⟨q, z2, hq, Rq⟩ := exactFma_spec m fr fe fr
  have herr : |binary64.val e - (1 - binary64.val r * D)| ≤ 41 / 2 ^ 104 := by
    rw [show binary64.val e - (1 - binary64.val r * D) = (binary64.val e - (-binary64.val d.lo * binary64.val r + binary64.val b)) +
      ((binary64.val b - (binary64.val a - binary64.val p.lo)) + (binary64.val a - (1 - binary64.val p.hi))) by rw [hD]; linear_combination -ep]
    refine (abs_add_le' ee (abs_add_le' eb ea)).trans (by norm_num)
  have hw : |(binary64.val r * binary64.val e + binary64.val r) * D - 1| ≤ 1 / 2 ^ 97 := by
    rw [show (binary64.val r * binary64.val e + binary64.val r) * D - 1 = (binary64.val r * D) * (binary64.val e - (1 - binary64.val r * D)) +
      -((binary64.val r * D - 1) * (binary64.val r * D - 1)) by ring]
    have rD : |binary64.val r * D| ≤ 11 / 10 := by
      rw [show binary64.val r * D = (binary64.val r * D - 1) + 1 by ring]
      refine (abs_add_le' hr (le_of_eq abs_one)).trans (by norm_num)
    refine (abs_add_le' (abs_mul_le rD herr) ((abs_neg _).trans_le (abs_mul_le hr hr))).trans (by norm_num)
  refine ⟨q, z2, _, by rw [he]; exact hq, Rq, hw, ?_⟩
  have := bD hw
  norm_num at this ⊢; linarith

/-- the reciprocal of a pair is the correctly rounded value of a number within `2^-96` of the exact one -/
theorem reciprocal_err (m : Mode) {p : CC.Pair} (fh : binary64.Finite p.hi) (fl : binary64.Finite p.lo) (h1 : 1 ≤ |binary64.val p.hi|) (h2 : |binary64.val p.hi| ≤ 2)
    (h3 : |binary64.val p.lo| ≤ 3 / 2 ^ 52) :
    ∃ q zs w, CC.reciprocal m p = some q ∧ binary64.RoundsTo m zs w q ∧ |w * (binary64.val p.hi + binary64.val p.lo) - 1| ≤ 1 / 2 ^ 96 ∧ |w| ≤ 11 / 10 ∧
      (binary64.val p.lo = 0 → w = (binary64.val p.hi)⁻¹) := by
  obtain ⟨-, g1, g2, g3, g4, g5⟩ := exactAdd_err m fh fl (h2.trans (by norm_num)) (h3.trans (by norm_num))
  have hs : |binary64.val p.hi + binary64.val p.lo| ≤ 2 + 3 / 2 ^ 52 := abs_add_le' h2 h3
  have u2 : ru m * |binary64.val p.hi + binary64.val p.lo| ≤ (2 + 3 / 2 ^ 52) / 2 ^ 52 := by
    have := mul_le_mul (ru_le m) hs (abs_nonneg _) (by norm_num)
    rwa [one_div_mul_eq_div] at this
  have hs1 : 999 / 1000 ≤ |binary64.val p.hi + binary64.val p.lo| := by
    have : |binary64.val p.hi| ≤ |binary64.val p.hi + binary64.val p.lo| + 3 / 2 ^ 52 := by
      rw [show binary64.val p.hi = (binary64.val p.hi + binary64.val p.lo) + -binary64.val p.lo by ring]
      refine (abs_add_le' le_rfl ((abs_neg _).trans_le h3)).trans (by simp)
    norm_num at this ⊢; linarith
  have hz0 := exactAdd_zero m fh fl
  unfold CC.reciprocal
  dsimp only at hz0 ⊢
  generalize CC.exactAdd binary64 m p.hi p.lo = d at *
  set D0 := binary64.val p.hi + binary64.val p.lo with hD0
  set D := binary64.val d.hi + binary64.val d.lo with hD
  have d1 : |binary64.val d.lo| ≤ 21 / 10 / 2 ^ 52 := by
    refine g5.trans ?_
    norm_num at u2 ⊢; linarith
  have d2 : |binary64.val d.hi| ≤ 21 / 10 := by
    rw [show binary64.val d.hi = (binary64.val d.hi - D0) + D0 by ring]
    refine (abs_add_le' g4 hs).trans ?_
    norm_num at u2 ⊢; linarith
  have d3 : 98 / 100 ≤ |D| := by
    have : |D0| ≤ |D| + 31 / 2 ^ 104 := by
      have e : D0 = D + -(D - D0) := by ring
      calc |D0| = |D + -(D - D0)| := by rw [← e]
        _ ≤ _ := abs_add_le' le_rfl ((abs_neg _).trans_le g3)
    norm_num at this ⊢; linarith
  have d4 : 97 / 100 ≤ |binary64.val d.hi| := by
    have : |D0| ≤ |binary64.val d.hi| + (ru m * |D0| + 1 / 2 ^ 200) := by
      have e : D0 = binary64.val d.hi + -(binary64.val d.hi - D0) := by ring
      calc |D0| = |binary64.val d.hi + -(binary64.val d.hi - D0)| := by rw [← e]
        _ ≤ _ := abs_add_le' le_rfl ((abs_neg _).trans_le g4)
    norm_num at this u2 ⊢; linarith
  have dn : binary64.val d.hi ≠ 0 := by
    intro h; rw [h, abs_zero] at d4; norm_num at d4
  have R0 := binary64.hdiv_spec m one64_val.1 g1 dn
  rw [one64_val.2] at R0
  have i1 : |1 / binary64.val d.hi| ≤ 104 / 100 := by
    rw [abs_div, abs_one, div_le_iff₀ (by linarith)]; linarith
  obtain ⟨f0, e0⟩ := rnd_le R0 i1 (by norm_num)
  generalize hr0 : binary64.hdiv m CC.one64 d.hi = r0 at *
  have q1 : |binary64.val r0 * binary64.val d.hi - 1| ≤ 22 / 10 / 2 ^ 52 := by
    rw [show binary64.val r0 * binary64.val d.hi - 1 = (binary64.val r0 - 1 / binary64.val d.hi) * binary64.val d.hi by field_simp]
    refine (abs_mul_le e0 d2).trans (by norm_num)
  have n0 : binary64.val r0 ≠ 0 := by
    intro h; rw [h] at q1; norm_num at q1
  have c1 : (binary64.heq r0 (binary64.zero false) || !FPBits.isFinite binary64 r0) = false := by
    have : binary64.heq r0 (binary64.zero false) = false := by
      rw [← Bool.not_eq_true, CC.heq_finite binary64 f0 (binary64.finite_zero false), val_zero]; exact n0
    rw [this, FPBits.isFinite_eq]
    simp [((binary64.finite_iff r0).1 f0).2]
  rw [c1]
  simp only [Bool.false_eq_true, if_false]
  by_cases hz : binary64.heq d.lo (binary64.zero false) = true
  · rw [if_pos hz]
    have z0 : binary64.val d.lo = 0 := by
      rw [CC.heq_finite binary64 g2 (binary64.finite_zero false), val_zero] at hz; exact hz
    refine ⟨r0, _, _, rfl, R0, ?_, i1.trans (by norm_num), fun h => by rw [(hz0 h).2.2.1, one_div]⟩
    rw [show 1 / binary64.val d.hi * D0 - 1 = 1 / binary64.val d.hi * (-(D - D0)) by rw [hD, z0]; field_simp; ring]
    refine (abs_mul_le i1 ((abs_neg _).trans_le g3)).trans (by norm_num)
  · rw [if_neg hz]
    have q2 : |binary64.val r0 * D - 1| ≤ 6 / 2 ^ 52 := by
      rw [show binary64.val r0 * D - 1 = (binary64.val r0 * binary64.val d.hi - 1) + binary64.val r0 * binary64.val d.lo by rw [hD]; ring]
      refine (abs_add_le' q1 (abs_mul_le (abs_near e0 i1) d1)).trans (by norm_num)
    obtain ⟨r1, z1, w1, h4, R1, e1, b1⟩ := refine_err m g1 g2 f0 d3 d1 d2 q2
    obtain ⟨f1, e2⟩ := rnd_le R1 b1 (by norm_num)
    have hDu : |D| ≤ 22 / 10 := by rw [hD]; exact (abs_add_le' d2 d1).trans (by norm_num)
    have q3 : |binary64.val r1 * D - 1| ≤ 6 / 2 ^ 52 := by
      rw [show binary64.val r1 * D - 1 = (binary64.val r1 - w1) * D + (w1 * D - 1) by ring]
      refine (abs_add_le' (abs_mul_le e2 hDu) e1).trans (by norm_num)
    obtain ⟨r2, z2, w2, h5, R2, e3, b2⟩ := refine_err m g1 g2 f1 d3 d1 d2 q3
    refine ⟨r2, z2, w2, by rw [h4]; exact h5, R2, ?_, b2, fun h => absurd ((CC.heq_finite binary64 g2 (binary64.finite_zero false)).2 (by rw [val_zero]; exact (hz0 h).2.2.2)) hz⟩
    rw [show w2 * D0 - 1 = (w2 * D - 1) + w2 * -(D - D0) by ring]
    refine (abs_add_le' e3 (abs_mul_le b2 ((abs_neg _).trans_le g3))).trans (by norm_num)

/-- the final scaling by a power of two is exact when the target is normal -/
theorem scale_finish (m : Mode) {zs : Bool} {v X : ℝ} {h : ℕ} {k : ℤ} (R : binary64.RoundsTo m zs v h) (v1 : 1 / 4 ≤ |v|) (v2 : |v| ≤ 4)
    (hX : |v * 2 ^ k - X| ≤ |X| / 2 ^ 83) (X1 : (2 : ℝ) ^ (-1021 : ℤ) ≤ |X|) (X2 : |X| ≤ (1 - 1 / 2 ^ 50) * 2 ^ (1024 : ℤ)) :
    binary64.Finite (CC.ldexp binary64 m h k) ∧ binary64.RoundsTo m zs (v * 2 ^ k) (CC.ldexp binary64 m h k) ∧
      (2 : ℝ) ^ (-1022 : ℤ) ≤ |binary64.val (CC.ldexp binary64 m h k)| := by
  obtain ⟨fh, eh⟩ := err64 R (v2.trans (by norm_num))
  have pk := two_zpow_pos k
  have X0 : 0 < |X| := lt_of_lt_of_le (two_zpow_pos _) X1
  have eh2 : |binary64.val h - v| ≤ |v| * (1 / 2 ^ 52 + 1 / 2 ^ 190) := by
    have := mul_le_mul_of_nonneg_right (ru_le m) (abs_nonneg v)
    have e0 := eta_le
    have e1 : (1 : ℝ) / 2 ^ 200 ≤ |v| * (1 / 2 ^ 190) := le_trans (by norm_num) (mul_le_mul_of_nonneg_right v1 (by norm_num))
    linarith
  have eh3 : |binary64.val h * 2 ^ k - v * 2 ^ k| ≤ |v * 2 ^ k| * (1 / 2 ^ 52 + 1 / 2 ^ 190) := by
    rw [← sub_mul, abs_mul, abs_mul, abs_of_pos pk]
    have := mul_le_mul_of_nonneg_right eh2 pk.le
    linarith
  have b1 : |v * 2 ^ k| ≤ |X| * (1 + 1 / 2 ^ 83) := by
    have := abs_sub_abs_le_abs_sub (v * 2 ^ k) X
    linarith
  have b2 : |X| * (1 - 1 / 2 ^ 83) ≤ |v * 2 ^ k| := by
    have := abs_sub_abs_le_abs_sub X (v * 2 ^ k)
    rw [abs_sub_comm] at this
    linarith
  have t1 := abs_sub_abs_le_abs_sub (binary64.val h * 2 ^ k) (v * 2 ^ k)
  have t2 := abs_sub_abs_le_abs_sub (v * 2 ^ k) (binary64.val h * 2 ^ k)
  rw [abs_sub_comm] at t2
  have c1 : |binary64.val h * 2 ^ k| ≤ |X| * (1 + 1 / 2 ^ 51) := by
    have h1 := mul_le_mul_of_nonneg_right b1 (show (0 : ℝ) ≤ 1 + (1 / 2 ^ 52 + 1 / 2 ^ 190) by norm_num)
    have h2 : |X| * (1 + 1 / 2 ^ 83) * (1 + (1 / 2 ^ 52 + 1 / 2 ^ 190)) ≤ |X| * (1 + 1 / 2 ^ 51) := by
      rw [mul_assoc]; exact mul_le_mul_of_nonneg_left (by norm_num) X0.le
    linarith
  have c2 : |X| / 2 ≤ |binary64.val h * 2 ^ k| := by
    have h1 := mul_le_mul_of_nonneg_right b2 (show (0 : ℝ) ≤ 1 - (1 / 2 ^ 52 + 1 / 2 ^ 190) by norm_num)
    have h2 : |X| * (1 / 2) ≤ |X| * (1 - 1 / 2 ^ 83) * (1 - (1 / 2 ^ 52 + 1 / 2 ^ 190)) := by
      rw [mul_assoc]; exact mul_le_mul_of_nonneg_left (by norm_num) X0.le
    linarith
  have hmn : binary64.minNormal = (2 : ℝ) ^ (-1022 : ℤ) := by
    have : (1 : ℤ) - binary64.bias = -1022 := by decide
    unfold Fmt.minNormal; rw [this]
  have hbb : (binary64.bias : ℤ) + 1 = 1024 := by decide
  have half : (2 : ℝ) ^ (-1022 : ℤ) ≤ |X| / 2 := by
    rw [show (-1021 : ℤ) = -1022 + 1 by norm_num, zpow_add_one₀ (by norm_num)] at X1
    generalize (2 : ℝ) ^ (-1022 : ℤ) = z at *
    linarith
  have d1 : binary64.minNormal ≤ |binary64.val h * 2 ^ k| := by rw [hmn]; exact half.trans c2
  have d2 : |binary64.val h * 2 ^ k| < 2 ^ ((binary64.bias : ℤ) + 1) := by
    rw [hbb]
    refine lt_of_le_of_lt (c1.trans (mul_le_mul_of_nonneg_right X2 (by norm_num))) ?_
    have := two_zpow_pos 1024
    generalize (2 : ℝ) ^ (1024 : ℤ) = z at *
    have : (1 - 1 / 2 ^ 50) * z * (1 + 1 / 2 ^ 51) = z * ((1 - 1 / 2 ^ 50) * (1 + 1 / 2 ^ 51)) := by ring
    rw [this]
    have h3 : ((1 : ℝ) - 1 / 2 ^ 50) * (1 + 1 / 2 ^ 51) < 1 := by norm_num
    have := mul_lt_mul_of_pos_left h3 ‹0 < z›
    linarith
  obtain ⟨c, fc, vc, sc⟩ := binary64.scale_exact (x := h) (k := k) (Or.inr d1) d2
  rw [C13_ldexp_exact binary64 m fh fc k vc sc]
  refine ⟨fc, RoundsTo.scale binary64 (by decide) R k ?_ ?_ ?_ fh fc vc sc, ?_⟩
  · rw [hmn]
    refine le_trans ?_ v1
    have : (2 : ℝ) ^ (-1022 : ℤ) ≤ 2 ^ (-2 : ℤ) := two_zpow_le (by norm_num)
    exact this.trans (by norm_num)
  · rw [hbb]
    refine lt_of_le_of_lt v2 ?_
    have : (2 : ℝ) ^ (3 : ℤ) ≤ 2 ^ (1024 : ℤ) := two_zpow_le (by norm_num)
    exact lt_of_lt_of_le (by norm_num) this
  · rw [hmn]
    refine half.trans (le_trans ?_ b2)
    have h2 : |X| * (1 / 2) ≤ |X| * (1 - 1 / 2 ^ 83) := mul_le_mul_of_nonneg_left (by norm_num) X0.le
    linarith
  · rw [vc]; exact half.trans c2

theorem SPow.rel {s : CC.ScaledPow} {V : ℝ} {K : ℕ} (h : SPow s V K) (hV : 0 < V) (hK : K ≤ 4096) :
    |(binary64.val s.mantissa.hi + binary64.val s.mantissa.lo) * 2 ^ s.exp2 - V| ≤ V * (1001 / 1000 / 2 ^ 84) := by
  obtain ⟨-, -, -, -, -, l, u⟩ := h
  have hK' : (K : ℝ) ≤ 4096 := by exact_mod_cast hK
  have k0 : (0 : ℝ) ≤ K := Nat.cast_nonneg K
  have b := one_add_mul_le_pow (a := -(1 / 2 ^ 96 : ℝ)) (by norm_num) K
  have hb : (1 : ℝ) - 1 / 2 ^ 84 ≤ (1 - 1 / 2 ^ 96) ^ K := by
    rw [← sub_eq_add_neg] at b
    refine le_trans ?_ b
    have : (K : ℝ) * (1 / 2 ^ 96) ≤ 4096 * (1 / 2 ^ 96) := mul_le_mul_of_nonneg_right hK' (by norm_num)
    norm_num at this ⊢; linarith
  have hc : ((1 : ℝ) + 1 / 2 ^ 96) ^ K ≤ 1 + 1001 / 1000 / 2 ^ 84 := by
    have h1 : ((1 : ℝ) + 1 / 2 ^ 96) ^ K * (1 - 1 / 2 ^ 96) ^ K ≤ 1 := by
      rw [← mul_pow]; exact pow_le_one₀ (by norm_num) (by norm_num)
    have h2 := mul_le_mul_of_nonneg_left hb (show (0 : ℝ) ≤ (1 + 1 / 2 ^ 96) ^ K by positivity)
    have h3 : (1 : ℝ) ≤ (1 + 1001 / 1000 / 2 ^ 84) * (1 - 1 / 2 ^ 84) := by norm_num
    refine le_of_mul_le_mul_right ((h2.trans h1).trans h3) (by norm_num)
  have l' := (mul_le_mul_of_nonneg_left hb hV.le).trans l
  have u' := u.trans (mul_le_mul_of_nonneg_left hc hV.le)
  rw [abs_le]
  constructor
  · have : V * (1 / 2 ^ 84) ≤ V * (1001 / 1000 / 2 ^ 84) := mul_le_mul_of_nonneg_left (by norm_num) hV.le
    linarith
  · linarith

/-- loading a positive normal number -/
theorem SPow.load (m : Mode) {x : ℕ} (hx : binary64.Finite x) (x0 : 0 < binary64.val x) (hb : binary64.bexp x ≠ 0) :
    SPow (CC.loadScaled m { hi := x, lo := 0 }) (binary64.val x) 0 := by
  have z : binary64.Finite 0 ∧ binary64.val 0 = 0 := ⟨by rw [finite_iff]; decide +kernel, (binary64.val_eq_zero_iff 0).2 (by decide)⟩
  obtain ⟨e, he, g1, g2, g3, g4, g5, g6, g7⟩ := scale_pair m (p := { hi := x, lo := 0 }) hx z.1 x0 hb (by
    show |binary64.val 0| ≤ _
    rw [z.2, abs_zero]; exact mul_nonneg (by norm_num) x0.le)
  have hl : CC.ldexp binary64 m 0 (-e) = 0 := C13_ldexp_exact binary64 m z.1 z.1 _ (by rw [z.2, zero_mul]) rfl
  have c1 : (2 : ℝ) ^ (-e) * 2 ^ e = 1 := by rw [← zpow_add₀ (by norm_num)]; simp
  have hd : CC.loadScaled m { hi := x, lo := 0 } = { mantissa := { hi := CC.ldexp binary64 m x (-e), lo := CC.ldexp binary64 m 0 (-e) }, exp2 := e } := by
    unfold CC.loadScaled
    simp only [he]
  rw [hd]
  dsimp only at *
  refine ⟨g1, g2, g4, g5, g7, ?_, ?_⟩ <;>
  · dsimp only
    rw [pow_zero, mul_one, hl, z.2, add_zero, g3, mul_assoc, c1, mul_one]

theorem SPow.one : SPow { mantissa := { hi := CC.one64, lo := 0 }, exp2 := 0 } 1 0 := by
  have z : binary64.Finite 0 ∧ binary64.val 0 = 0 := ⟨by rw [finite_iff]; decide +kernel, (binary64.val_eq_zero_iff 0).2 (by decide)⟩
  have o := one64_val
  refine ⟨o.1, z.1, ?_, ?_, ?_, ?_, ?_⟩ <;> norm_num [o.2, z.2]

theorem ipow_spec (m : Mode) {s : CC.ScaledPow} {V : ℝ} {K n : ℕ} (hs : SPow s V K) (hV : 0 < V) (hn : n < 2 ^ 64) :
    ∃ out, CC.ipowScaled m s n = some out ∧ SPow out (V ^ n) (n * (K + 1)) := by
  obtain ⟨out, h1, h2⟩ := SPow.loop m 64 SPow.one hs one_pos hV hn
  exact ⟨out, h1, by simpa using h2⟩

end Verif
