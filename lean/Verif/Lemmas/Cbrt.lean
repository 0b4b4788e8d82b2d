import Verif.Model.Cbrt
import Verif.Lemmas.LogH
import Verif.Props.Exp
import Verif.Props.ExpF

/-!
# Error of the cube root
-/

namespace Verif
open Fmt Real

/-- relative error of one rounding in the format `f` -/
noncomputable def fu (f : Fmt) (md : Mode) : ℝ := if md = .nearest then (2 : ℝ) ^ (-(f.F : ℤ)) / 2 else (2 : ℝ) ^ (-(f.F : ℤ))

theorem fu_pos (f : Fmt) (md : Mode) : 0 < fu f md := by unfold fu; split_ifs <;> positivity

/-- one rounding in the normal range -/
theorem rel_err {f : Fmt} {m : Mode} {zs : Bool} {v : ℝ} {b : ℕ} (R : f.RoundsTo m zs v b) (h1 : f.minNormal ≤ |v|) (h2 : |v| ≤ f.maxFin) :
    f.Finite b ∧ |f.val b - v| ≤ fu f m * |v| := by
  refine ⟨(RoundsTo.ulp R h2).1, ?_⟩
  have hg : f.gapBound v ≤ (2 : ℝ) ^ (-(f.F : ℤ)) * |v| := by
    unfold gapBound
    refine max_le (le_of_eq (by ring)) ?_
    have : f.minSub = (2 : ℝ) ^ (-(f.F : ℤ)) * f.minNormal := by
      unfold minSub minNormal; rw [← zpow_add₀ (by norm_num)]; congr 1; ring
    rw [this]
    exact mul_le_mul_of_nonneg_left h1 (by positivity)
  unfold fu
  split_ifs with h
  · subst h
    have := RoundsTo.err_nearest R h2
    linarith
  · exact le_trans (RoundsTo.err R h2) hg

/-- the multiplicative form -/
theorem rel_err' {f : Fmt} {m : Mode} {zs : Bool} {v : ℝ} {b : ℕ} (R : f.RoundsTo m zs v b) (h0 : 0 < v) (h1 : f.minNormal ≤ v) (h2 : v ≤ f.maxFin) :
    f.Finite b ∧ ∃ δ, |δ| ≤ fu f m ∧ f.val b = v * (1 + δ) := by
  obtain ⟨a, b'⟩ := rel_err R (by rwa [abs_of_pos h0]) (by rwa [abs_of_pos h0])
  refine ⟨a, f.val b / v - 1, ?_, by field_simp; ring⟩
  rw [abs_of_pos h0] at b'
  rw [show f.val b / v - 1 = (f.val b - v) / v by field_simp, abs_div, abs_of_pos h0, div_le_iff₀ h0]
  exact b'

/-- Newton's step from a starting value of relative error `Y - 1` -/
theorem newton3 {u Y T δ1 δ2 δ3 δ4 r : ℝ} (hu : 0 < u) (hu2 : u ≤ 1 / 2 ^ 23) (hY : |Y - 1| ≤ 1 / 10 ^ 4) (hY2 : (Y - 1) ^ 2 ≤ u / 500)
    (h1 : |δ1| ≤ u) (h2 : |δ2| ≤ u) (h3 : |δ3| ≤ u) (h4 : |δ4| ≤ u) (hT : T * (1 + δ1) = 1 + δ2)
    (hr : r = (2 * Y + T / Y ^ 2) * (1 + δ3) / 3 * (1 + δ4)) : |r - 1| ≤ 27 / 10 * u := by
  obtain ⟨y1, y2⟩ := abs_le.1 hY
  have hY0 : 0 < Y := by norm_num at y1; linarith
  have hYs : 999 / 1000 ≤ Y ^ 2 := by nlinarith
  have d1 := abs_le.1 h1
  have d2 := abs_le.1 h2
  have hu3 : u ≤ 1 / 1000 := hu2.trans (by norm_num)
  have hT1 : T ≤ 1003 / 1000 := by
    by_contra hc
    nlinarith
  have hT0 : 0 ≤ T := by
    by_contra hc
    nlinarith
  have a1 : |T - 1| ≤ 2004 / 1000 * u := by
    have : T - 1 = δ2 - T * δ1 := by linear_combination hT
    rw [this]
    have : |T * δ1| ≤ 1003 / 1000 * u := abs_mul_le (by rw [abs_of_nonneg hT0]; exact hT1) h1
    refine (abs_sub _ _).trans ?_
    linarith
  have a2 : |(T - 1) / Y ^ 2| ≤ 2007 / 1000 * u := by
    rw [abs_div, abs_of_pos (show (0 : ℝ) < Y ^ 2 by positivity), div_le_iff₀ (by positivity)]
    refine a1.trans ?_
    have := mul_le_mul_of_nonneg_left hYs (show (0 : ℝ) ≤ 2007 / 1000 * u by positivity)
    linarith
  obtain ⟨W, hW⟩ : ∃ W, 2 * Y + T / Y ^ 2 = 3 * (1 + W) := ⟨(2 * Y + T / Y ^ 2) / 3 - 1, by ring⟩
  have a3 : 3 * W = (Y - 1) ^ 2 * (2 * Y + 1) / Y ^ 2 + (T - 1) / Y ^ 2 := by
    have : 3 * W = 2 * Y + T / Y ^ 2 - 3 := by linear_combination -hW
    rw [this]; field_simp; ring
  have a4 : |(Y - 1) ^ 2 * (2 * Y + 1) / Y ^ 2| ≤ 7 / 1000 * u := by
    rw [abs_of_nonneg (by positivity), div_le_iff₀ (by positivity)]
    have e1 : (Y - 1) ^ 2 * (2 * Y + 1) ≤ u / 500 * (3001 / 1000) := mul_le_mul hY2 (by norm_num at y2; linarith) (by linarith) (by positivity)
    have := mul_le_mul_of_nonneg_left hYs (show (0 : ℝ) ≤ 7 / 1000 * u by positivity)
    linarith
  have a5 : |W| ≤ 672 / 1000 * u := by
    have : |3 * W| ≤ 2014 / 1000 * u := by rw [a3]; refine (abs_add_le _ _).trans ?_; linarith
    rw [abs_mul, abs_of_pos (show (0 : ℝ) < 3 by norm_num)] at this
    linarith
  have e : r - 1 = (W + δ3 + δ4) + (W * δ3 + W * δ4 + δ3 * δ4 + W * (δ3 * δ4)) := by rw [hr, hW]; ring
  have b1 : |W * δ3| ≤ 672 / 1000 * u * u := abs_mul_le a5 h3
  have b2 : |W * δ4| ≤ 672 / 1000 * u * u := abs_mul_le a5 h4
  have b3 : |δ3 * δ4| ≤ u * u := abs_mul_le h3 h4
  have b4 : |W * (δ3 * δ4)| ≤ 672 / 1000 * u * (u * u) := abs_mul_le a5 b3
  have b5 : u * u ≤ 1 / 2 ^ 23 * u := mul_le_mul_of_nonneg_right hu2 hu.le
  have b6 : u * (u * u) ≤ 1 * (u * u) := mul_le_mul_of_nonneg_right (hu3.trans (by norm_num)) (by positivity)
  rw [e]
  refine (abs_add_le _ _).trans ?_
  have c1 := abs_add_le (W + δ3) δ4
  have c2 := abs_add_le W δ3
  have c3 := abs_add_le (W * δ3 + W * δ4 + δ3 * δ4) (W * (δ3 * δ4))
  have c4 := abs_add_le (W * δ3 + W * δ4) (δ3 * δ4)
  have c5 := abs_add_le (W * δ3) (W * δ4)
  norm_num at b5
  linarith

theorem T_le {T a b : ℝ} (h : T * (1 + a) = 1 + b) (ha : -(1 / 1000) ≤ a) (hb : b ≤ 1 / 1000) : T ≤ 101 / 100 := by
  by_contra hc
  push Not at hc
  have : 101 / 100 * (999 / 1000) < T * (1 + a) := mul_lt_mul hc (by linarith) (by norm_num) (by linarith)
  linarith
theorem T_ge {T a b : ℝ} (h0 : 0 ≤ T) (h : T * (1 + a) = 1 + b) (ha : a ≤ 1 / 1000) (hb : -(1 / 1000) ≤ b) : 1 / 2 ≤ T := by
  have := mul_le_mul_of_nonneg_left ha h0
  linarith

/-- the last lines of `cbrt_impl` -/
theorem cbrt_step {f : Fmt} {md : Mode} {ax y two three : ℕ} {c lo hi : ℝ} (hlo : f.minNormal ≤ lo) (hhi : hi ≤ f.maxFin) (hlo0 : 0 < lo) (hu : fu f md ≤ 1 / 2 ^ 23)
    (hax : f.Finite ax) (hc : 0 < c) (hac : f.val ax = c ^ 3) (hy : f.Finite y) (hY : |f.val y - c| ≤ 1 / 10 ^ 4 * c) (hY2 : (f.val y - c) ^ 2 ≤ fu f md / 500 * c ^ 2)
    (h2 : f.Finite two ∧ f.val two = 2) (h3 : f.Finite three ∧ f.val three = 3)
    (b1 : 4 * lo ≤ c) (b2 : 4 * c ≤ hi) (b3 : 4 * lo ≤ c ^ 2) (b4 : 4 * c ^ 2 ≤ hi) :
    f.Finite (f.hdiv md (f.hadd md (f.hmul md two y) (f.hdiv md ax (f.hmul md y y))) three) ∧
      |f.val (f.hdiv md (f.hadd md (f.hmul md two y) (f.hdiv md ax (f.hmul md y y))) three) - c| ≤ 27 / 10 * fu f md * c := by
  have hu0 := fu_pos f md
  obtain ⟨Y, hYc⟩ : ∃ Y, f.val y = c * Y := ⟨f.val y / c, by field_simp⟩
  have e1 : |Y - 1| ≤ 1 / 10 ^ 4 := by
    rw [hYc, show c * Y - c = c * (Y - 1) by ring, abs_mul, abs_of_pos hc, mul_comm] at hY
    exact le_of_mul_le_mul_right hY hc
  have e2 : (Y - 1) ^ 2 ≤ fu f md / 500 := by
    rw [hYc, show (c * Y - c) ^ 2 = (Y - 1) ^ 2 * c ^ 2 by ring] at hY2
    exact le_of_mul_le_mul_right hY2 (by positivity)
  obtain ⟨y1, y2⟩ := abs_le.1 e1
  have y1' : 999 / 1000 ≤ Y := by norm_num at y1; linarith
  have y2' : Y ≤ 1001 / 1000 := by norm_num at y2; linarith
  have hY0 : 0 < Y := by linarith
  have hYs : 998 / 1000 ≤ Y ^ 2 ∧ Y ^ 2 ≤ 1003 / 1000 := ⟨by nlinarith, by nlinarith⟩
  have hu3 : fu f md ≤ 1 / 1000 := hu.trans (by norm_num)
  -- y * y
  have R1 := hmul_spec f md hy hy
  rw [hYc, show c * Y * (c * Y) = c ^ 2 * Y ^ 2 by ring] at R1
  have hc2 : 0 < c ^ 2 := by positivity
  have q1 : lo ≤ c ^ 2 * Y ^ 2 := by have := mul_le_mul_of_nonneg_left hYs.1 hc2.le; linarith
  have q2 : c ^ 2 * Y ^ 2 ≤ hi := by have := mul_le_mul_of_nonneg_left hYs.2 hc2.le; linarith
  obtain ⟨f1, δ1, hδ1, v1⟩ := rel_err' R1 (by positivity) (hlo.trans q1) (q2.trans hhi)
  obtain ⟨d1, d2⟩ := abs_le.1 hδ1
  have p1 : 0 < 1 + δ1 := by linarith
  -- ax / (y * y)
  have hne : f.val (f.hmul md y y) ≠ 0 := by rw [v1]; positivity
  have R2 := hdiv_spec f md hax f1 hne
  rw [v1, hac, show c ^ 3 / (c ^ 2 * Y ^ 2 * (1 + δ1)) = c * (1 / (Y ^ 2 * (1 + δ1))) by field_simp] at R2
  have hq : 99 / 100 ≤ 1 / (Y ^ 2 * (1 + δ1)) ∧ 1 / (Y ^ 2 * (1 + δ1)) ≤ 101 / 100 := by
    have hp : 0 < Y ^ 2 * (1 + δ1) := by positivity
    have g1 : Y ^ 2 * (1 + δ1) ≤ 1003 / 1000 * (1001 / 1000) := mul_le_mul hYs.2 (by linarith) p1.le (by norm_num)
    have g2 : 998 / 1000 * (999 / 1000) ≤ Y ^ 2 * (1 + δ1) := mul_le_mul hYs.1 (by linarith) (by norm_num) (by positivity)
    rw [le_div_iff₀ hp, div_le_iff₀ hp]
    constructor <;> linarith
  have q3 : lo ≤ c * (1 / (Y ^ 2 * (1 + δ1))) := by have := mul_le_mul_of_nonneg_left hq.1 hc.le; linarith
  have q4 : c * (1 / (Y ^ 2 * (1 + δ1))) ≤ hi := by have := mul_le_mul_of_nonneg_left hq.2 hc.le; linarith
  obtain ⟨f2, δ2, hδ2, v2⟩ := rel_err' R2 (lt_of_lt_of_le hlo0 q3) (hlo.trans q3) (q4.trans hhi)
  obtain ⟨d3, d4⟩ := abs_le.1 hδ2
  -- 2 * y
  have hmax : f.maxFin < (2 : ℝ) ^ ((f.bias : ℤ) + 1) := by
    unfold maxFin
    rw [zpow_add₀ (by norm_num)]
    have := two_zpow_pos (-(f.F : ℤ))
    have : (2 : ℝ) ^ (f.bias : ℤ) * (2 - 2 ^ (-(f.F : ℤ))) < 2 ^ (f.bias : ℤ) * 2 := mul_lt_mul_of_pos_left (by linarith) (two_zpow_pos _)
    simpa using this
  have q5 : 2 * (c * Y) ≤ hi := by have := mul_le_mul_of_nonneg_left y2' hc.le; linarith
  have R3 := hmul_spec f md h2.1 hy
  obtain ⟨b, hb1, hb2, -⟩ := f.scale_exact (x := y) (k := 1) (Or.inl (by norm_num)) (by
    rw [hYc, zpow_one, abs_of_pos (by positivity)]; linarith)
  obtain ⟨f3, v3⟩ := RoundsTo.exact f hb1 (by rw [hb2, h2.2]; ring) R3
  rw [h2.2, hYc] at v3
  -- sum
  have R4 := hadd_spec f md f3 f2
  rw [v2, v3] at R4
  obtain ⟨T, hT⟩ : ∃ T, (1 / (1 + δ1)) * (1 + δ2) = T := ⟨_, rfl⟩
  have hT' : T * (1 + δ1) = 1 + δ2 := by rw [← hT]; field_simp
  have e3 : 2 * (c * Y) + c * (1 / (Y ^ 2 * (1 + δ1))) * (1 + δ2) = c * (2 * Y + T / Y ^ 2) := by
    rw [← hT]; field_simp
  rw [e3] at R4
  have hs : 2 ≤ 2 * Y + T / Y ^ 2 ∧ 2 * Y + T / Y ^ 2 ≤ 4 - 1 / 2 := by
    have hTp : 0 < T := by rw [← hT]; exact mul_pos (by positivity) (by linarith)
    have hTu : T ≤ 101 / 100 := T_le hT' (by linarith) (by linarith)
    have hTl : 1 / 2 ≤ T := T_ge hTp.le hT' (by linarith) (by linarith)
    have g1 : T / Y ^ 2 ≤ 11 / 10 := by rw [div_le_iff₀ (by positivity)]; linarith [hYs.1]
    have g2 : 1 / 4 ≤ T / Y ^ 2 := by rw [le_div_iff₀ (by positivity)]; linarith [hYs.2]
    constructor <;> linarith
  have q6 : lo ≤ c * (2 * Y + T / Y ^ 2) := by have := mul_le_mul_of_nonneg_left hs.1 hc.le; linarith
  have q7 : c * (2 * Y + T / Y ^ 2) ≤ hi := by have := mul_le_mul_of_nonneg_left hs.2 hc.le; linarith
  obtain ⟨f4, δ3, hδ3, v4⟩ := rel_err' R4 (lt_of_lt_of_le hlo0 q6) (hlo.trans q6) (q7.trans hhi)
  obtain ⟨d5, d6⟩ := abs_le.1 hδ3
  -- / 3
  have R5 := hdiv_spec f md f4 h3.1 (by rw [h3.2]; norm_num)
  rw [v4, h3.2] at R5
  have q8 : lo ≤ c * (2 * Y + T / Y ^ 2) * (1 + δ3) / 3 := by
    have : c * 2 ≤ c * (2 * Y + T / Y ^ 2) := mul_le_mul_of_nonneg_left hs.1 hc.le
    have : c * 2 * (9 / 10) ≤ c * (2 * Y + T / Y ^ 2) * (1 + δ3) := mul_le_mul this (by linarith) (by norm_num) (by linarith)
    rw [le_div_iff₀ (by norm_num)]; linarith
  have q9 : c * (2 * Y + T / Y ^ 2) * (1 + δ3) / 3 ≤ hi := by
    have : c * (2 * Y + T / Y ^ 2) ≤ c * 4 := mul_le_mul_of_nonneg_left (by linarith [hs.2]) hc.le
    have : c * (2 * Y + T / Y ^ 2) * (1 + δ3) ≤ c * 4 * 2 := mul_le_mul this (by linarith) (by linarith) (by positivity)
    rw [div_le_iff₀ (by norm_num)]; linarith
  obtain ⟨f5, δ4, hδ4, v5⟩ := rel_err' R5 (lt_of_lt_of_le hlo0 q8) (hlo.trans q8) (q9.trans hhi)
  refine ⟨f5, ?_⟩
  rw [v5]
  have key := newton3 hu0 hu e1 e2 hδ1 hδ2 hδ3 hδ4 hT' (r := (2 * Y + T / Y ^ 2) * (1 + δ3) / 3 * (1 + δ4)) rfl
  rw [show c * (2 * Y + T / Y ^ 2) * (1 + δ3) / 3 * (1 + δ4) - c = ((2 * Y + T / Y ^ 2) * (1 + δ3) / 3 * (1 + δ4) - 1) * c by ring, abs_mul, abs_of_pos hc]
  exact mul_le_mul_of_nonneg_right key hc.le

end Verif
