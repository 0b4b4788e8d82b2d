import Verif.Lemmas.Rsqrt
import Verif.Props.Manip

namespace Verif
open Fmt

theorem maxFin64 : (2 : ℝ) ^ (1023 : ℤ) ≤ binary64.maxFin := by
  have h1 := binary64.maxFin_add
  have hb : (binary64.bias : ℤ) = 1023 := by decide
  have hF : binary64.F = 52 := rfl
  rw [hb, hF] at h1
  have h2 := two_zpow_succ 1023
  have h3 : (2 : ℝ) ^ ((1023 : ℤ) - (52 : ℕ)) ≤ (2 : ℝ) ^ (1023 : ℤ) := two_zpow_le (by norm_num)
  linarith

theorem emin64 : binary64.emin = -1074 := by decide

theorem gapBound64 {v : ℝ} (h : |v| ≤ 2 ^ (52 : ℕ)) : binary64.gapBound v ≤ 1 := by
  unfold gapBound
  apply max_le
  · have hF : binary64.F = 52 := rfl
    rw [hF, zpow_neg]
    have : ((2 : ℝ) ^ ((52 : ℕ) : ℤ))⁻¹ = (2 ^ (52 : ℕ))⁻¹ := by rw [zpow_natCast]
    rw [this, inv_mul_le_iff₀ (by positivity)]; linarith
  · rw [minSub_eq_zpow, emin64]
    exact zpow_le_one_of_nonpos₀ (by norm_num) (by norm_num)

theorem twoProd_terms (m : Mode) {a b : ℕ} {g : ℤ} (ha : binary64.Finite a) (hb : binary64.Finite b)
    (hmx : |binary64.val a * binary64.val b| ≤ 2 ^ 6) (hg : -178 ≤ g) (hm : Mult g (binary64.val a * binary64.val b)) :
    ∃ r, CC.twoProd m a b = some r ∧ binary64.Finite r.hi ∧ binary64.Finite r.lo ∧
      binary64.val r.hi + binary64.val r.lo = binary64.val a * binary64.val b ∧ Mult g (binary64.val r.hi) ∧ Mult g (binary64.val r.lo) ∧
      |binary64.val r.hi| ≤ 2 ^ 7 ∧ |binary64.val r.lo| ≤ 1 := by
  have hp6 : (2 : ℝ) ^ 6 ≤ (2 : ℝ) ^ (1023 : ℤ) := by
    rw [← zpow_natCast]; exact two_zpow_le (by norm_num)
  have hmx' : |binary64.val a * binary64.val b| ≤ binary64.maxFin := le_trans hmx (le_trans hp6 maxFin64)
  have hlo : binary64.val a * binary64.val b = 0 ∨ (2 : ℝ) ^ (-969 : ℤ) ≤ |binary64.val a * binary64.val b| := by
    by_cases h0 : binary64.val a * binary64.val b = 0
    · exact Or.inl h0
    · right
      exact le_trans (two_zpow_le (by omega)) (hm.ge h0)
  obtain ⟨r, e1, ⟨zs, e2⟩, e3, e4, e5⟩ := C33_two_prod m ha hb hmx' hlo
  have hu := (RoundsTo.ulp e2 hmx').2
  have hlt : |binary64.val a * binary64.val b| < (2 : ℝ) ^ ((binary64.bias : ℤ) + 1) := by
    have hbi : (binary64.bias : ℤ) = 1023 := by decide
    rw [hbi, two_zpow_succ]
    have := two_zpow_pos 1023
    exact lt_of_le_of_lt (le_trans hmx hp6) (lt_mul_of_one_lt_left this one_lt_two)
  have hmh := RoundsTo.mult e2 hm (by rw [emin64]; omega) hlt hu
  have herr := le_trans (RoundsTo.err e2 hmx') (gapBound64 (by linarith [show (2 : ℝ) ^ 6 ≤ 2 ^ 52 by norm_num]))
  have hloe : binary64.val r.lo = binary64.val a * binary64.val b - binary64.val r.hi := by linarith
  refine ⟨r, e1, e3, e4, e5, hmh, by rw [hloe]; exact hm.sub hmh, ?_, ?_⟩
  · have h1 := abs_sub_abs_le_abs_sub (binary64.val r.hi) (binary64.val a * binary64.val b)
    have : (2 : ℝ) ^ 7 = 2 ^ 6 + 64 := by norm_num
    linarith
  · rw [hloe, abs_sub_comm]; exact herr

theorem Mult.small {g : ℤ} {v : ℝ} (hm : Mult g v) (hg : -178 ≤ g) : v = 0 ∨ (2 : ℝ) ^ (-178 : ℤ) ≤ |v| := by
  by_cases h0 : v = 0
  · exact Or.inl h0
  · exact Or.inr (le_trans (two_zpow_le hg) (hm.ge h0))

theorem two64_val : binary64.Finite CC.two64 ∧ binary64.val CC.two64 = 2 := by
  refine ⟨by rw [finite_iff]; decide +kernel, ?_⟩
  rw [val_of_ival binary64 (a := 2) (by decide +kernel)]; norm_num

theorem half64_val : binary64.Finite CC.half64 ∧ binary64.val CC.half64 = 2⁻¹ := by
  refine ⟨by rw [finite_iff]; decide +kernel, ?_⟩
  have h : binary64.ival CC.half64 * 2 = 1 * binary64.uscale := by decide +kernel
  have h2 : (binary64.ival CC.half64 : ℝ) * 2 = binary64.uscale := by
    have : ((binary64.ival CC.half64 * 2 : ℤ) : ℝ) = ((1 * binary64.uscale : ℤ) : ℝ) := by rw [h]
    push_cast at this; linarith
  rw [val_eq_ival]
  have h3 := binary64.uscale_minSub
  rw [← h2] at h3
  linarith

/-- exact scaling by `ldexp` into the range around one -/
theorem ldexp_unit (m : Mode) {x : ℕ} {k : ℤ} (hx : binary64.Finite x) (h1 : binary64.val x = 0 ∨ (2 : ℝ) ^ (-1000 : ℤ) ≤ |binary64.val x * 2 ^ k|)
    (h2 : |binary64.val x * 2 ^ k| ≤ 2 ^ (1000 : ℤ)) :
    binary64.Finite (CC.ldexp binary64 m x k) ∧ binary64.val (CC.ldexp binary64 m x k) = binary64.val x * 2 ^ k ∧
      binary64.sgn (CC.ldexp binary64 m x k) = binary64.sgn x := by
  have hb : (binary64.bias : ℤ) = 1023 := by decide
  rcases h1 with h0 | h1
  · have : CC.ldexp binary64 m x k = x := C13_ldexp_exact binary64 m hx hx k (by rw [h0]; simp) rfl
    rw [this]; exact ⟨hx, by rw [h0]; simp, rfl⟩
  · obtain ⟨b, hf, hv, hs⟩ := binary64.scale_exact (x := x) (k := k) (Or.inr (by
      refine le_trans ?_ h1
      show (2 : ℝ) ^ (1 - (binary64.bias : ℤ)) ≤ _
      rw [hb]; exact two_zpow_le (by norm_num))) (by
      rw [hb]; exact lt_of_le_of_lt h2 (two_zpow_lt (by norm_num)))
    rw [C13_ldexp_exact binary64 m hx hf k hv hs]
    exact ⟨hf, hv, hs⟩

set_option maxHeartbeats 1000000 in
/-- C47 core: the residual sign is exact -/
theorem rsqrtResidualSign_spec (m : Mode) {ch cl x : ℕ} {k : ℤ} (hch : binary64.Finite ch) (hcl : binary64.Finite cl) (hx : binary64.Finite x)
    (hk1 : (2 : ℝ) ^ k ≤ binary64.val ch) (hk2 : binary64.val ch < (2 : ℝ) ^ (k + 1)) (hk : -1022 ≤ k)
    (hcl' : binary64.val cl = 0 ∨ binary64.val cl = (2 : ℝ) ^ (k - 53))
    (hx1 : 1 / 2 ≤ binary64.val ch ^ 2 * binary64.val x) (hx2 : binary64.val ch ^ 2 * binary64.val x ≤ 2) :
    ∃ s, CC.rsqrtResidualSign m ch cl x = some s ∧ IsSign s ((binary64.val ch + binary64.val cl) ^ 2 * binary64.val x - 1) := by
  have hF : binary64.F = 52 := rfl
  have hbias : (binary64.bias : ℤ) = 1023 := by decide
  have pk : (0 : ℝ) < 2 ^ k := two_zpow_pos k
  have hchp : 0 < binary64.val ch := lt_of_lt_of_le pk hk1
  have hkk : (FPBits.biasedExp binary64 ch : ℤ) - binary64.bias = k := by
    rw [FPBits.biasedExp_eq, bexp_of_window (by rw [abs_of_pos hchp]; exact hk1) (by rw [abs_of_pos hchp]; exact hk2) hk, hbias]; ring
  -- scaled operands
  have sc : ∀ v : ℝ, v * 2 ^ (-k) = v / 2 ^ k := fun v => by rw [zpow_neg]; rfl
  have c1 : 1 ≤ binary64.val ch * 2 ^ (-k) := by rw [sc, le_div_iff₀ pk]; linarith
  have c2 : binary64.val ch * 2 ^ (-k) < 2 := by rw [sc, div_lt_iff₀ pk]; rw [two_zpow_succ] at hk2; linarith
  have one_le : (1 : ℝ) ≤ 2 ^ (1000 : ℤ) := one_le_zpow₀ (by norm_num) (by norm_num)
  have le_one : (2 : ℝ) ^ (-1000 : ℤ) ≤ 1 := zpow_le_one_of_nonpos₀ (by norm_num) (by norm_num)
  have two_le : (2 : ℝ) ^ 6 ≤ 2 ^ (1000 : ℤ) := by rw [← zpow_natCast]; exact two_zpow_le (by norm_num)
  have two_le' : (2 : ℝ) ≤ 2 ^ (1000 : ℤ) := le_trans (by norm_num) two_le
  obtain ⟨f1, v1, -⟩ := ldexp_unit m (k := -k) hch (Or.inr (by rw [abs_of_nonneg (by linarith)]; exact le_trans le_one c1)) (by
    rw [abs_of_nonneg (by linarith)]; exact le_trans c2.le two_le')
  have hclv : binary64.val cl * 2 ^ (-k) = 0 ∨ binary64.val cl * 2 ^ (-k) = (2 : ℝ) ^ (-53 : ℤ) := by
    rcases hcl' with h | h
    · left; rw [h, zero_mul]
    · right; rw [h, ← zpow_add₀ (by norm_num)]; congr 1; ring
  obtain ⟨f2, v2, -⟩ := ldexp_unit m (k := -k) hcl (by
      rcases hcl' with h | h
      · exact Or.inl h
      · right; rw [h, ← zpow_add₀ (by norm_num), abs_of_pos (two_zpow_pos _)]; exact two_zpow_le (by linarith)) (by
      rcases hclv with h | h
      · rw [h, abs_zero]; exact (two_zpow_pos _).le
      · rw [h, abs_of_pos (two_zpow_pos _)]; exact two_zpow_le (by norm_num))
  have ex : (2 : ℝ) ^ (2 * k) = 2 ^ k * 2 ^ k := by rw [two_mul, zpow_add₀ (by norm_num)]
  have hxp : 0 < binary64.val x := by
    by_contra hc
    have := mul_nonpos_of_nonneg_of_nonpos (sq_nonneg (binary64.val ch)) (not_lt.1 hc)
    linarith
  -- c'^2 x' = c^2 x
  have hprod : (binary64.val ch * 2 ^ (-k)) ^ 2 * (binary64.val x * 2 ^ (2 * k)) = binary64.val ch ^ 2 * binary64.val x := by
    rw [sc, ex]; field_simp
  generalize hC : binary64.val ch * 2 ^ (-k) = C at *
  generalize hX : binary64.val x * 2 ^ (2 * k) = X at *
  generalize hD : binary64.val cl * 2 ^ (-k) = D at *
  have hXp : 0 < X := by rw [← hX]; exact mul_pos hxp (two_zpow_pos _)
  have hC2 : 1 ≤ C ^ 2 := by nlinarith
  have hC4 : C ^ 2 < 4 := by nlinarith
  have hX1 : 1 / 8 ≤ X := by
    by_contra hc
    have := mul_lt_mul_of_pos_right hC4 hXp
    linarith [not_le.1 hc]
  have hX2 : X ≤ 2 := by
    have := mul_le_mul_of_nonneg_right hC2 hXp.le
    linarith
  obtain ⟨f3, v3, -⟩ := ldexp_unit m (k := 2 * k) hx (Or.inr (by
      rw [hX, abs_of_pos hXp]
      have : (2 : ℝ) ^ (-1000 : ℤ) ≤ 2 ^ (-3 : ℤ) := two_zpow_le (by norm_num)
      have e : (2 : ℝ) ^ (-3 : ℤ) = 1 / 8 := by norm_num
      exact le_trans (le_trans this e.le) hX1)) (by rw [hX, abs_of_pos hXp]; exact le_trans hX2 two_le')
  rw [hX] at v3
  generalize hch' : CC.ldexp binary64 m ch (-k) = ch' at *
  generalize hcl'' : CC.ldexp binary64 m cl (-k) = cl' at *
  generalize hx' : CC.ldexp binary64 m x (2 * k) = x' at *
  -- granularity
  have mC : Mult (-52) C := by
    rw [← v1]
    refine (binary64.mult_ce ch').weaken (binary64.le_ce_of ?_)
    rw [hF, v1, abs_of_pos (by linarith)]; norm_num; exact c1
  have mX : Mult (-55) X := by
    rw [← v3]
    refine (binary64.mult_ce x').weaken (binary64.le_ce_of ?_)
    rw [hF, v3, abs_of_pos hXp]; norm_num; linarith
  -- ch'^2
  have mCC : Mult (-104) (C * C) := mC.mul mC
  have bCC : |C * C| ≤ 2 ^ 2 := by rw [abs_of_nonneg (by positivity)]; nlinarith
  obtain ⟨r0, p0, a1, a2, a3, a4, a5, a6, a7⟩ := twoProd_terms m f1 f1 (by rw [v1]; linarith [show (2 : ℝ) ^ 2 ≤ 2 ^ 6 by norm_num]) (g := -104)
    (by norm_num) (by rw [v1]; exact mCC)
  rw [v1] at a3
  have a6' : |binary64.val r0.hi| ≤ 2 ^ 3 := by
    have h1 : binary64.val r0.hi = C * C - binary64.val r0.lo := by linarith
    rw [h1]
    have := abs_sub (C * C) (binary64.val r0.lo)
    have e : (2 : ℝ) ^ 3 = 2 ^ 2 + 4 := by norm_num
    linarith
  have hXabs : |X| ≤ 2 := by rw [abs_of_pos hXp]; exact hX2
  -- cross
  have hDabs : |D| ≤ 1 := by
    rcases hclv with h | h
    · rw [h, abs_zero]; norm_num
    · rw [h, abs_of_pos (two_zpow_pos _)]; exact zpow_le_one_of_nonpos₀ (by norm_num) (by norm_num)
  have hCDb : C * |D| ≤ 2 := by
    have := mul_le_mul c2.le hDabs (abs_nonneg _) (by norm_num)
    linarith
  have hDDb : |D| * |D| ≤ 1 := mul_le_one₀ hDabs (abs_nonneg _) hDabs
  have bias24 : (2 : ℝ) ^ 6 < (2 : ℝ) ^ ((binary64.bias : ℤ) + 1) := by
    rw [hbias, ← zpow_natCast]; exact two_zpow_lt (by norm_num)
  have hCD : binary64.Finite (binary64.hmul m ch' cl') ∧ binary64.val (binary64.hmul m ch' cl') = C * D := by
    have H := binary64.hmul_spec m f1 f2
    rw [v1, v2] at H
    apply RoundsTo.exact_of H
    rcases hclv with h | h
    · rw [h, mul_zero]; exact ⟨_, binary64.finite_zero false, binary64.val_zero false⟩
    · refine binary64.rep (g := -105) ?_ (by rw [emin64]; norm_num) ?_ ?_
      · rw [h]; exact mC.mul (Mult.two_zpow _)
      · rw [h, abs_mul, abs_of_pos (by linarith : 0 < C), abs_of_pos (two_zpow_pos _), hF, show (-105 : ℤ) + (52 : ℕ) + 1 = -53 + 1 by norm_num, two_zpow_succ]
        exact mul_le_mul_of_nonneg_right c2.le (two_zpow_pos _).le
      · refine lt_of_le_of_lt ?_ bias24
        rw [abs_mul, abs_of_pos (by linarith : 0 < C)]
        norm_num; linarith only [hCDb]
  have hcross : binary64.Finite (binary64.hmul m CC.two64 (binary64.hmul m ch' cl')) ∧ binary64.val (binary64.hmul m CC.two64 (binary64.hmul m ch' cl')) = 2 * (C * D) := by
    have H := binary64.hmul_spec m two64_val.1 hCD.1
    rw [hCD.2, two64_val.2] at H
    apply RoundsTo.exact_of H
    rcases hclv with h | h
    · rw [h, mul_zero, mul_zero]; exact ⟨_, binary64.finite_zero false, binary64.val_zero false⟩
    · have e : 2 * (C * D) = C * 2 ^ (-52 : ℤ) := by
        rw [h, show (-52 : ℤ) = -53 + 1 by norm_num, two_zpow_succ]; ring
      refine binary64.rep (g := -104) ?_ (by rw [emin64]; norm_num) ?_ ?_
      · rw [e]; exact mC.mul (Mult.two_zpow _)
      · rw [e, abs_mul, abs_of_pos (by linarith : 0 < C), abs_of_pos (two_zpow_pos _), hF, show (-104 : ℤ) + (52 : ℕ) + 1 = -52 + 1 by norm_num, two_zpow_succ]
        exact mul_le_mul_of_nonneg_right c2.le (two_zpow_pos _).le
      · refine lt_of_le_of_lt ?_ bias24
        rw [abs_mul, abs_mul, abs_of_pos (by linarith : 0 < C), abs_of_pos (by norm_num : (0 : ℝ) < 2)]
        norm_num; linarith only [hCDb]
  have hsq : binary64.Finite (binary64.hmul m cl' cl') ∧ binary64.val (binary64.hmul m cl' cl') = D * D := by
    have H := binary64.hmul_spec m f2 f2
    rw [v2] at H
    apply RoundsTo.exact_of H
    rcases hclv with h | h
    · rw [h, mul_zero]; exact ⟨_, binary64.finite_zero false, binary64.val_zero false⟩
    · refine binary64.rep (g := -106) ?_ (by rw [emin64]; norm_num) ?_ ?_
      · rw [h]; exact (Mult.two_zpow (-53)).mul (Mult.two_zpow _)
      · rw [h, ← zpow_add₀ (by norm_num), abs_of_pos (two_zpow_pos _), hF]; exact two_zpow_le (by norm_num)
      · refine lt_of_le_of_lt ?_ bias24
        rw [abs_mul]; exact le_trans hDDb (by norm_num)
  have mD : Mult (-53) D := by
    rcases hclv with h | h
    · rw [h]; exact Mult.zero _
    · rw [h]; exact Mult.two_zpow _
  -- the four products with x'
  have bnd : ∀ u : ℝ, |u| ≤ 2 ^ 4 → |u * X| ≤ 2 ^ 6 := by
    intro u hu
    rw [abs_mul]
    have : |u| * |X| ≤ 2 ^ 4 * 2 := mul_le_mul hu hXabs (abs_nonneg _) (by norm_num)
    linarith [show (2 : ℝ) ^ 4 * 2 ≤ 2 ^ 6 by norm_num]
  have bCD : |2 * (C * D)| ≤ 2 ^ 4 := by
    rw [abs_mul, abs_mul, abs_of_pos (by linarith : 0 < C), abs_of_pos (by norm_num : (0 : ℝ) < 2)]
    norm_num; linarith only [hCDb]
  have bDD : |D * D| ≤ 2 ^ 4 := by rw [abs_mul]; exact le_trans hDDb (by norm_num)
  obtain ⟨t0, q0, b1, b2, b3, b4, b5, b6, b7⟩ := twoProd_terms m (g := -104 + -55) a1 f3
    (by rw [v3]; exact bnd _ (by linarith [show (2 : ℝ) ^ 3 ≤ 2 ^ 4 by norm_num])) (by norm_num) (by rw [v3]; exact a4.mul mX)
  obtain ⟨t1, q1, d1, d2, d3, d4, d5, d6, d7⟩ := twoProd_terms m (g := -104 + -55) a2 f3
    (by rw [v3]; exact bnd _ (by linarith [show (1 : ℝ) ≤ 2 ^ 4 by norm_num])) (by norm_num) (by rw [v3]; exact a5.mul mX)
  have m2 : Mult (-105) (2 * (C * D)) := by
    have := Mult.int_mul 2 (mC.mul mD)
    push_cast at this
    exact this
  obtain ⟨t2, q2, g1, g2, g3, g4, g5, g6, g7⟩ := twoProd_terms m (g := -105 + -55) hcross.1 f3
    (by rw [v3, hcross.2]; exact bnd _ bCD) (by norm_num) (by rw [v3, hcross.2]; exact m2.mul mX)
  obtain ⟨t3, q3, h1, h2, h3, h4, h5, h6, h7⟩ := twoProd_terms m (g := -106 + -55) hsq.1 f3
    (by rw [v3, hsq.2]; exact bnd _ bDD) (by norm_num) (by rw [v3, hsq.2]; exact (mD.mul mD).mul mX)
  have hone := one64_val
  have hmone : binary64.val (binary64.hneg CC.one64) = -1 := by rw [val_hneg, hone.2]
  refine ⟨CC.exactSignOfSum [t0.hi, t0.lo, t1.hi, t1.lo, t2.hi, t2.lo, t3.hi, t3.lo, binary64.hneg CC.one64], ?_, ?_⟩
  rotate_left
  · have S := exactSignOfSum_spec (l := [t0.hi, t0.lo, t1.hi, t1.lo, t2.hi, t2.lo, t3.hi, t3.lo, binary64.hneg CC.one64]) ?_ ?_
    · have e : ([t0.hi, t0.lo, t1.hi, t1.lo, t2.hi, t2.lo, t3.hi, t3.lo, binary64.hneg CC.one64].map fun t => binary64.val t).sum =
          (binary64.val ch + binary64.val cl) ^ 2 * binary64.val x - 1 := by
        simp only [List.map_cons, List.map_nil, List.sum_cons, List.sum_nil, hmone]
        rw [v3] at b3 d3; rw [v3, hcross.2] at g3; rw [v3, hsq.2] at h3
        have e1 : binary64.val r0.hi * X + binary64.val r0.lo * X = C * C * X := by rw [← add_mul, a3]
        have e2 : (binary64.val ch + binary64.val cl) ^ 2 * binary64.val x = (C + D) ^ 2 * X := by
          rw [← hC, ← hD, ← hX, sc, sc, ex]; field_simp
        rw [e2]
        linear_combination b3 + d3 + g3 + h3 + e1
      rw [e] at S
      exact S
    · intro t ht
      simp only [List.mem_cons, List.not_mem_nil, or_false] at ht
      rcases ht with rfl | rfl | rfl | rfl | rfl | rfl | rfl | rfl | rfl
      · exact ⟨b1.1, b4.small (by norm_num)⟩
      · exact ⟨b2.1, b5.small (by norm_num)⟩
      · exact ⟨d1.1, d4.small (by norm_num)⟩
      · exact ⟨d2.1, d5.small (by norm_num)⟩
      · exact ⟨g1.1, g4.small (by norm_num)⟩
      · exact ⟨g2.1, g5.small (by norm_num)⟩
      · exact ⟨h1.1, h4.small (by norm_num)⟩
      · exact ⟨h2.1, h5.small (by norm_num)⟩
      · refine ⟨binary64.valid_hneg _, Or.inr ?_⟩
        rw [hmone, abs_neg, abs_one]
        exact zpow_le_one_of_nonpos₀ (by norm_num) (by norm_num)
    · simp only [List.map_cons, List.map_nil, List.sum_cons, List.sum_nil, hmone, abs_neg, abs_one]
      have : (2 : ℝ) ^ 7 = 128 := by norm_num
      rw [this] at b6 d6 g6 h6
      norm_num
      linarith
  · unfold CC.rsqrtResidualSign
    simp only [hkk, hch', hcl'', hx', p0, q0, q1, q2, q3, Option.bind_eq_bind, Option.bind_some]
    rfl

end Verif
