import Verif.Lemmas.Cbrt2
import Verif.Lemmas.FpSupport

/-!
# Perfect cubes: the Newton step of the cube root is exact
-/

namespace Verif
open Fmt Real

theorem mult_of_even (f : Fmt) {b : ℕ} (h : b % 2 = 0) : Mult (f.ce b + 1) (f.val b) := by
  rw [mod_two_eq_gs f] at h
  obtain ⟨n, hn⟩ : ∃ n, f.gs (f.mag b) = 2 * n := ⟨f.gs (f.mag b) / 2, by omega⟩
  refine ⟨(if f.sgn b then -1 else 1) * (n : ℤ), ?_⟩
  rw [val_eq, umag_eq_gs, minSub_eq_zpow, hn]; unfold ce
  rw [two_zpow_succ, zpow_add₀ (by norm_num), zpow_natCast]
  push_cast
  unfold sg
  split_ifs <;> ring

theorem RoundsTo.le_down {f : Fmt} {m : Mode} {zs : Bool} {v : ℝ} {b : ℕ} (h : f.RoundsTo m zs v b) (hm : m = .down ∨ m = .zero) (h0 : 0 ≤ v) : f.val b ≤ v := by
  have hv := h.value
  unfold RoundValue at hv
  have : 0 ≤ f.maxFin := by have := f.maxFin_pos; linarith
  rcases hm with rfl | rfl
  · simp only at hv
    rw [if_neg (by linarith)] at hv
    exact hv.le
  · simp only at hv
    rw [if_pos h0] at hv
    exact hv.le

theorem RoundsTo.ge_up {f : Fmt} {zs : Bool} {v : ℝ} {b : ℕ} (h : f.RoundsTo .up zs v b) (h0 : v ≤ f.maxFin) : v ≤ f.val b := by
  have hv := h.value
  unfold RoundValue at hv
  simp only at hv
  rw [if_neg (by linarith)] at hv
  exact hv.ge

/-- the remainder of the Newton step -/
theorem newton_rem {c y : ℝ} (hc : 0 < c) (hy : |y - c| ≤ 1 / 10 ^ 4 * c) :
    c ^ 3 / y ^ 2 = 3 * c - 2 * y + (y - c) ^ 2 * (2 * y + c) / y ^ 2 ∧ 0 ≤ (y - c) ^ 2 * (2 * y + c) / y ^ 2 ∧
      (y - c) ^ 2 * (2 * y + c) / y ^ 2 * c ≤ 302 / 100 * (y - c) ^ 2 := by
  obtain ⟨h1, h2⟩ := abs_le.1 hy
  have hy0 : 0 < y := by norm_num at h1; linarith
  refine ⟨by field_simp; ring, by positivity, ?_⟩
  rw [show (y - c) ^ 2 * (2 * y + c) / y ^ 2 * c = (y - c) ^ 2 * ((2 * y + c) * c / y ^ 2) by ring, mul_comm (302 / 100 : ℝ)]
  apply mul_le_mul_of_nonneg_left _ (sq_nonneg _)
  rw [div_le_iff₀ (by positivity)]
  norm_num at h1 h2
  have e1 : 9999 / 10000 * c ≤ y := by linarith
  have e2 : (9999 / 10000 * c) ^ 2 ≤ y ^ 2 := pow_le_pow_left₀ (by positivity) e1 2
  have e3 : (2 * y + c) * c ≤ (30002 / 10000 * c) * c := mul_le_mul_of_nonneg_right (by linarith) hc.le
  nlinarith

theorem cube_over {c e : ℝ} (hc : 0 < c) (he : |e| ≤ 1 / 10 ^ 4 * c) : c ^ 3 ≤ (c ^ 2 + 2 * c * e + 401 / 100 * e ^ 2) * (c - 2 * e) := by
  obtain ⟨h1, h2⟩ := abs_le.1 he
  have : (c ^ 2 + 2 * c * e + 401 / 100 * e ^ 2) * (c - 2 * e) - c ^ 3 = e ^ 2 * (1 / 100 * c - 802 / 100 * e) := by ring
  have : 0 ≤ e ^ 2 * (1 / 100 * c - 802 / 100 * e) := mul_nonneg (sq_nonneg _) (by norm_num at h2; linarith)
  linarith

set_option maxHeartbeats 1600000 in
/-- If `c` and `c ^ 3` are floating-point numbers (`c` a multiple of `2^(k-W)` in `[2^k, 2^(k+1))`) the Newton step from `y` near `c` returns `c`. -/
theorem cbrt_step_exact {f : Fmt} {md : Mode} {ax y two three : ℕ} {c lo hi : ℝ} {k : ℤ} {W : ℕ} (hlo : f.minNormal ≤ lo) (hhi : hi ≤ f.maxFin) (hlo0 : 0 < lo) (hu : fu f md ≤ 1 / 2 ^ 23)
    (hax : f.Finite ax) (hc : 0 < c) (hac : f.val ax = c ^ 3) (hy : f.Finite y) (hY : |f.val y - c| ≤ 1 / 10 ^ 4 * c)
    (h2 : f.Finite two ∧ f.val two = 2) (h3 : f.Finite three ∧ f.val three = 3)
    (b1 : 4 * lo ≤ c) (b2 : 4 * c ≤ hi) (b3 : 4 * lo ≤ c ^ 2) (b4 : 4 * c ^ 2 ≤ hi)
    (k1 : (2 : ℝ) ^ k ≤ c) (k2 : c < (2 : ℝ) ^ (k + 1)) (hW : Mult (k - W) c) (W2 : 2 ≤ W) (WF : W + 3 ≤ f.F) (e1 : f.emin ≤ k - f.F - 2) (e2 : f.emin ≤ 2 * k - f.F - 2) (e3 : k + 4 ≤ (f.bias : ℤ))
    (hA : 302 / 100 * (f.val y - c) ^ 2 ≤ 98 / 100 * fu f md * (2 : ℝ) ^ (k - W) * c)
    (hU : 401 / 100 * (f.val y - c) ^ 2 ≤ 2 * (2 : ℝ) ^ (k - W) * (2 : ℝ) ^ (k - f.F))
    (hR : 2 * |f.val y - c| + 2 * (2 : ℝ) ^ (k - f.F) ≤ 1 / 100 * (2 : ℝ) ^ (k - W)) :
    f.Finite (f.hdiv md (f.hadd md (f.hmul md two y) (f.hdiv md ax (f.hmul md y y))) three) ∧
      f.val (f.hdiv md (f.hadd md (f.hmul md two y) (f.hdiv md ax (f.hmul md y y))) three) = c := by
  have hu0 := fu_pos f md
  have hp := two_zpow_pos k
  have hg := two_zpow_pos (k - f.F)
  have hw := two_zpow_pos (k - W)
  have hkk : (2 : ℝ) ^ (k + 1) = 2 * 2 ^ k := two_zpow_succ k
  have hup : c + (2 : ℝ) ^ (k - W) ≤ 2 ^ (k + 1) := hW.lt_imp ((Mult.two_zpow (k + 1)).weaken (by omega)) k2
  obtain ⟨y1, y2⟩ := abs_le.1 hY
  norm_num at y1 y2
  have hy0 : 0 < f.val y := by linarith
  obtain ⟨n1, n2, n3⟩ := newton_rem hc hY
  -- the grid of 2 y
  have my : Mult (k - f.F) (2 * f.val y) := by
    have : Mult (k - f.F - 1) (f.val y) := (f.mult_ce y).weaken (f.le_ce_of (by
      rw [abs_of_pos hy0, show k - (f.F : ℤ) - 1 + f.F = k - 1 by ring]
      have : (2 : ℝ) ^ (k - 1 + 1) = 2 * 2 ^ (k - 1) := two_zpow_succ (k - 1)
      rw [show k - 1 + 1 = k by ring] at this
      linarith))
    obtain ⟨a, ha⟩ := this
    refine ⟨a, ?_⟩
    rw [ha, show k - (f.F : ℤ) = k - f.F - 1 + 1 by ring, two_zpow_succ]; ring_nf
  have mc : Mult (k - f.F) c := hW.weaken (by omega)
  have m3c : Mult (k - W) (3 * c) := by have := hW.int_mul 3; push_cast at this; exact this
  have mN : Mult (k - f.F) (3 * c - 2 * f.val y) := (m3c.weaken (by omega)).sub my
  have hr1 := (abs_le.1 (show |f.val y - c| ≤ 1 / 200 * (2 : ℝ) ^ (k - W) - (2 : ℝ) ^ (k - f.F) by linarith))
  have hbig : (2 : ℝ) ^ (k + 1) < 2 ^ ((f.bias : ℤ) + 1) := two_zpow_lt (by omega)
  set g : ℝ := (2 : ℝ) ^ (k - f.F) with hgdef
  set w : ℝ := (2 : ℝ) ^ (k - W) with hwdef
  have repN : ∀ n : ℤ, |(n : ℝ)| ≤ 2 → ∃ b, f.Finite b ∧ f.val b = 3 * c - 2 * f.val y + n * g := by
    intro n hn
    have hn' := abs_le.1 hn
    have g1 : (n : ℝ) * g ≤ 2 * g := mul_le_mul_of_nonneg_right hn'.2 hg.le
    have g2 : (-2 : ℝ) * g ≤ n * g := mul_le_mul_of_nonneg_right hn'.1 hg.le
    have hb : |3 * c - 2 * f.val y + n * g| ≤ (2 : ℝ) ^ (k + 1) := by
      rw [abs_le]; constructor <;> linarith
    exact f.rep (mN.add ((Mult.two_zpow _).int_mul n)) (by omega) (by rw [show k - (f.F : ℤ) + f.F + 1 = k + 1 by ring]; exact hb) (lt_of_le_of_lt hb hbig)
  -- y * y
  have R1 := hmul_spec f md hy hy
  have hys : 998 / 1000 * c ^ 2 ≤ f.val y * f.val y ∧ f.val y * f.val y ≤ 1003 / 1000 * c ^ 2 := ⟨by nlinarith, by nlinarith⟩
  have hc2 : 0 < c ^ 2 := by positivity
  obtain ⟨f1, δ1, hδ1, v1⟩ := rel_err' R1 (by positivity) (hlo.trans (by linarith)) (le_trans (by linarith) hhi)
  obtain ⟨d1, d2⟩ := abs_le.1 hδ1
  have hu3 : fu f md ≤ 1 / 1000 := hu.trans (by norm_num)
  have p1 : 0 < 1 + δ1 := by linarith
  have hsq : 0 < f.val (f.hmul md y y) := by rw [v1]; positivity
  have R2 := hdiv_spec f md hax f1 hsq.ne'
  rw [hac] at R2
  have hQ : c ^ 3 / f.val (f.hmul md y y) = (3 * c - 2 * f.val y + (f.val y - c) ^ 2 * (2 * f.val y + c) / f.val y ^ 2) / (1 + δ1) := by
    rw [← n1, v1]; field_simp
  have hQ0 : 0 < c ^ 3 / f.val (f.hmul md y y) := by positivity
  obtain ⟨t, ht⟩ : ∃ t, t = (f.val y - c) ^ 2 * (2 * f.val y + c) / f.val y ^ 2 := ⟨_, rfl⟩
  rw [← ht] at hQ n1 n2 n3
  have ht2 : t ≤ 98 / 100 * fu f md * w := by
    have := n3.trans hA
    exact le_of_mul_le_mul_right this hc
  have hfg : (2 : ℝ) ^ (-(f.F : ℤ)) * 2 ^ k = g := by rw [hgdef, ← zpow_add₀ (by norm_num)]; congr 1; ring
  obtain ⟨N, hN⟩ : ∃ N, N = 3 * c - 2 * f.val y := ⟨_, rfl⟩
  rw [← hN] at hQ repN mN n1
  have hN0 : 0 < N := by rw [hN]; linarith
  have hNup : N + 99 / 100 * w + 2 * g ≤ 2 * 2 ^ k := by rw [hN]; linarith
  -- the sum
  have rep3 : ∃ b, f.Finite b ∧ f.val b = 3 * c :=
    f.rep m3c (by omega) (by
      rw [abs_of_pos (by linarith)]
      have : (2 : ℝ) ^ (k + 1 + 1) = 2 * 2 ^ (k + 1) := two_zpow_succ _
      have : (2 : ℝ) ^ (k + 1 + 1 + 1) = 2 * 2 ^ (k + 1 + 1) := two_zpow_succ _
      refine le_trans ?_ (two_zpow_le (show k + 1 + 1 + 1 ≤ k - (W : ℤ) + f.F + 1 by omega))
      linarith) (by
      rw [abs_of_pos (by linarith)]
      have : (2 : ℝ) ^ (k + 1 + 1) = 2 * 2 ^ (k + 1) := two_zpow_succ _
      have : (2 : ℝ) ^ (k + 1 + 1 + 1) = 2 * 2 ^ (k + 1 + 1) := two_zpow_succ _
      refine lt_of_lt_of_le ?_ (two_zpow_le (show k + 1 + 1 + 1 ≤ (f.bias : ℤ) + 1 by omega))
      linarith)
  obtain ⟨fd, vd⟩ := RoundsTo.exact_of (hmul_spec f md h2.1 hy) (by
    rw [h2.2]
    have hb : |2 * f.val y| ≤ (2 : ℝ) ^ (k + 1 + 1) := by
      have : (2 : ℝ) ^ (k + 1 + 1) = 2 * 2 ^ (k + 1) := two_zpow_succ _
      rw [abs_of_pos (by linarith)]; linarith
    obtain ⟨b, hb1, hb2⟩ := f.rep (g := f.ce y + 1) (v := 2 * f.val y) (by
      obtain ⟨a, ha⟩ := f.mult_ce y
      exact ⟨a, by rw [ha, two_zpow_succ]; simp only [← ha]; rw [mul_left_comm, ← ha]⟩) (by have := f.ce_ge y; omega)
      (by
        have := f.abs_val_lt_ce y
        rw [abs_mul, show (|(2 : ℝ)|) = 2 by norm_num, show f.ce y + 1 + (f.F : ℤ) + 1 = f.ce y + f.F + 1 + 1 by ring, two_zpow_succ]; linarith)
      (lt_of_le_of_lt hb (two_zpow_lt (by omega)))
    exact ⟨b, hb1, hb2⟩)
  rw [h2.2] at vd
  obtain ⟨r3, fr3, vr3⟩ := rep3
  obtain ⟨bN, fN, vN⟩ := repN 0 (by norm_num)
  have vN : f.val bN = N := by rw [vN]; push_cast; ring
  -- it is enough that the sum is 3 c
  suffices hS : f.Finite (f.hadd md (f.hmul md two y) (f.hdiv md ax (f.hmul md y y))) ∧ f.val (f.hadd md (f.hmul md two y) (f.hdiv md ax (f.hmul md y y))) = 3 * c by
    have R4 := hdiv_spec f md hS.1 h3.1 (by rw [h3.2]; norm_num)
    rw [hS.2, h3.2, show 3 * c / 3 = c by ring] at R4
    exact RoundsTo.exact_of R4 (f.rep mc (by omega) (by rw [abs_of_pos hc, show k - (f.F : ℤ) + f.F + 1 = k + 1 by ring]; exact k2.le) (by rw [abs_of_pos hc]; exact k2.trans hbig))
  have grid : ∀ b, 2 ^ (k + 1) ≤ f.val b → Mult (k + 1 - f.F) (f.val b) := fun b hb =>
    (f.mult_ce b).weaken (f.le_ce_of (by rw [show k + 1 - (f.F : ℤ) + f.F = k + 1 by ring]; exact hb.trans (le_abs_self _)))
  have m3' : Mult (k + 1 - f.F) (3 * c) := m3c.weaken (by omega)
  have h2g : (2 : ℝ) ^ (k + 1 - f.F) = 2 * g := by rw [show k + 1 - (f.F : ℤ) = k - f.F + 1 by ring, two_zpow_succ]
  have hgw : g ≤ 1 / 8 * 2 ^ k := by
    rw [hgdef]
    have : (2 : ℝ) ^ (k - 3 + 3) = 8 * 2 ^ (k - 3) := by rw [zpow_add₀ (by norm_num)]; norm_num; ring
    rw [show k - 3 + 3 = k by ring] at this
    have := two_zpow_le (show k - (f.F : ℤ) ≤ k - 3 by omega)
    linarith
  have hfinv : 2 * f.val y + N = 3 * c := by rw [hN]; ring
  by_cases hm : md = .nearest
  · subst hm
    have hfu : 2 * fu f .nearest * 2 ^ k = g := by unfold fu; rw [if_pos rfl, ← hfg]; ring
    obtain ⟨bl, fl, vl⟩ := repN (-1) (by norm_num)
    obtain ⟨bu, fb, vu⟩ := repN 1 (by norm_num)
    push_cast at vl vu
    have q1 : N - g ≤ c ^ 3 / f.val (f.hmul .nearest y y) := by
      rw [hQ, le_div_iff₀ p1]
      rcases le_or_gt 0 (N - g) with h | h
      · have := mul_le_mul_of_nonneg_left d2 h
        have : (N - g) * fu f .nearest ≤ 2 * 2 ^ k * fu f .nearest := mul_le_mul_of_nonneg_right (by linarith) hu0.le
        linarith
      · have := mul_nonneg_of_nonpos_of_nonpos h.le (show -(1 + δ1) ≤ 0 by linarith)
        linarith
    have q2 : c ^ 3 / f.val (f.hmul .nearest y y) ≤ N + g := by
      rw [hQ, div_le_iff₀ p1]
      have := mul_le_mul_of_nonneg_left d1 (show 0 ≤ N + g by linarith)
      have : (N + g) * fu f .nearest ≤ (2 * 2 ^ k - 99 / 100 * w) * fu f .nearest := mul_le_mul_of_nonneg_right (by linarith) hu0.le
      linarith
    obtain ⟨fq, ql, qu⟩ := RoundsTo.between R2 fl fb (by rw [vl]; linarith) (by rw [vu]; linarith)
    rw [vl] at ql; rw [vu] at qu
    generalize f.hdiv .nearest ax (f.hmul .nearest y y) = q at *
    have R3 := hadd_spec f .nearest fd fq
    rw [vd] at R3
    have fS : f.Finite (f.hadd .nearest (f.hmul .nearest two y) q) := by
      refine RoundsTo.finite_of_le f R3 (le_trans ?_ hhi)
      rw [abs_le]; constructor <;> linarith
    refine ⟨fS, ?_⟩
    have near := RoundsTo.isNearest R3 fS
    generalize f.hadd .nearest (f.hmul .nearest two y) q = S at *
    by_contra hne
    have hb := near.best r3 fr3
    rw [vr3] at hb
    have hv : |3 * c - (2 * f.val y + f.val q)| ≤ g := by rw [abs_le]; constructor <;> linarith
    have hSc : |f.val S - 3 * c| ≤ 2 * g := by
      obtain ⟨h1, h2⟩ := abs_le.1 (hb.trans hv)
      obtain ⟨h3, h4⟩ := abs_le.1 hv
      rw [abs_le]; constructor <;> linarith
    have hS1 : 2 ^ (k + 1) ≤ f.val S := by have := (abs_le.1 hSc).1; linarith
    have hge := ((grid S hS1).sub m3').ge (sub_ne_zero.2 hne)
    rw [h2g] at hge
    have hSv : g ≤ |f.val S - (2 * f.val y + f.val q)| := by
      have := abs_sub_le (f.val S) (2 * f.val y + f.val q) (3 * c)
      rw [abs_sub_comm (2 * f.val y + f.val q) (3 * c)] at this
      linarith
    have hev := near.ties_even r3 fr3 (by rw [vr3]; linarith) (by rw [vr3]; exact Ne.symm hne)
    have m4 : Mult (k + 2 - f.F) (f.val S) := (mult_of_even f hev).weaken (by
      have := f.le_ce_of (x := S) (g := k + 1 - f.F) (by rw [show k + 1 - (f.F : ℤ) + f.F = k + 1 by ring]; exact hS1.trans (le_abs_self _))
      omega)
    have hge4 := (m4.sub (m3c.weaken (by omega))).ge (sub_ne_zero.2 hne)
    rw [show k + 2 - (f.F : ℤ) = k + 1 - f.F + 1 by ring, two_zpow_succ, h2g] at hge4
    linarith
  · have hfu : fu f md * 2 ^ k = g := by unfold fu; rw [if_neg hm, ← hfg]
    by_cases hup' : md = .up
    · subst hup'
      have hge := RoundsTo.ge_up R1 (le_trans (by linarith) hhi)
      have q2 : c ^ 3 / f.val (f.hmul .up y y) ≤ N := by
        rw [div_le_iff₀ hsq]
        have hco := cube_over hc (e := f.val y - c) (by norm_num at hY ⊢; exact hY)
        have hNe : c - 2 * (f.val y - c) = N := by rw [hN]; ring
        rw [hNe] at hco
        refine hco.trans ?_
        rw [mul_comm]
        apply mul_le_mul_of_nonneg_left _ hN0.le
        by_cases he : f.val y - c = 0
        · rw [he]
          have : f.val y = c := by linarith
          rw [this] at hge
          linarith
        · have he2 : 0 < (f.val y - c) ^ 2 := by positivity
          have ms : Mult (2 * k - W - f.F + 1) (f.val (f.hmul .up y y)) := (f.mult_ce _).weaken (by
            have := f.le_ce_of (x := f.hmul .up y y) (g := 2 * k - 1 - f.F) (by
              rw [show 2 * k - 1 - (f.F : ℤ) + f.F = 2 * k - 1 by ring, abs_of_pos hsq]
              refine le_trans ?_ (hge.trans' hys.1)
              have h1 : (2 : ℝ) ^ (2 * k - 1 + 1) = 2 * 2 ^ (2 * k - 1) := two_zpow_succ _
              rw [show 2 * k - 1 + 1 = k + k by ring, zpow_add₀ (by norm_num)] at h1
              have h2 : (2 : ℝ) ^ k * 2 ^ k ≤ c * c := mul_le_mul k1 k1 hp.le hc.le
              nlinarith)
            omega)
          have mcc : Mult (2 * k - W - f.F + 1) (c ^ 2) := by
            rw [pow_two]; exact (hW.mul hW).weaken (by omega)
          have mce : Mult (2 * k - W - f.F + 1) (2 * c * (f.val y - c)) := by
            rcases eq_or_lt_of_le k1 with h | h
            · have : Mult (k - f.F) (2 * f.val y - 2 * c) := my.sub (by have := mc.int_mul 2; push_cast at this; exact this)
              have := (Mult.two_zpow k).mul this
              rw [h] at this
              rw [show 2 * c * (f.val y - c) = c * (2 * f.val y - 2 * c) by ring]
              exact this.weaken (by omega)
            · have hcw : 2 ^ k + w ≤ c := ((Mult.two_zpow k).weaken (by omega)).lt_imp hW h
              have my' : Mult (k - f.F) (f.val y) := (f.mult_ce y).weaken (f.le_ce_of (by
                rw [abs_of_pos hy0, show k - (f.F : ℤ) + f.F = k by ring]; linarith))
              obtain ⟨a, ha⟩ := hW.mul (my'.sub mc)
              exact ⟨a, by rw [show 2 * c * (f.val y - c) = 2 * (c * (f.val y - c)) by ring, ha, show 2 * k - (W : ℤ) - f.F + 1 = k - W + (k - f.F) + 1 by ring, two_zpow_succ]; ring⟩
          have := (mcc.add mce).lt_imp ms (by nlinarith)
          have hz : (2 : ℝ) ^ (2 * k - W - f.F + 1 : ℤ) = 2 * w * g := by
            rw [hwdef, hgdef, two_zpow_succ, mul_assoc, ← zpow_add₀ (by norm_num)]; congr 2; ring
          rw [hz] at this
          linarith
      obtain ⟨bl, fl, vl⟩ := repN (-2) (by norm_num)
      push_cast at vl
      have q1 : N - 2 * g < c ^ 3 / f.val (f.hmul .up y y) := by
        rw [hQ, lt_div_iff₀ p1]
        rcases le_or_gt 0 (N - 2 * g) with h | h
        · have := mul_le_mul_of_nonneg_left d2 h
          have : (N - 2 * g) * fu f .up ≤ (2 * 2 ^ k - 2 * g) * fu f .up := mul_le_mul_of_nonneg_right (by linarith) hu0.le
          have : 0 < g * fu f .up := mul_pos hg hu0
          linarith
        · have := mul_neg_of_neg_of_pos h p1
          linarith
      have hQm : c ^ 3 / f.val (f.hmul .up y y) ≤ f.maxFin := le_trans (by linarith) hhi
      have hqg := RoundsTo.ge_up R2 hQm
      obtain ⟨fq, -, qu⟩ := RoundsTo.between R2 fl fN (by rw [vl]; linarith) (by rw [vN]; exact q2)
      rw [vN] at qu
      generalize f.hdiv .up ax (f.hmul .up y y) = q at *
      have R3 := hadd_spec f .up fd fq
      rw [vd] at R3
      have hm3 : 2 * f.val y + f.val q ≤ 3 * c := by linarith
      have hSg := RoundsTo.ge_up R3 (le_trans (by linarith) hhi)
      have fS : f.Finite (f.hadd .up (f.hmul .up two y) q) := by
        refine RoundsTo.finite_of_le f R3 (le_trans ?_ hhi)
        rw [abs_le]; constructor <;> linarith
      have hSl := RoundsTo.le_of R3 fr3 (by rw [vr3]; exact hm3)
      rw [xval_of_finite f fS, xval_of_finite f fr3] at hSl
      have hSl : f.val (f.hadd .up (f.hmul .up two y) q) ≤ 3 * c := by rw [← vr3]; exact_mod_cast hSl
      refine ⟨fS, ?_⟩
      generalize f.hadd .up (f.hmul .up two y) q = S at *
      by_contra hne
      have := (grid S (by linarith)).lt_imp m3' (lt_of_le_of_ne hSl hne)
      rw [h2g] at this
      linarith
    · have hdz : md = .down ∨ md = .zero := by cases md <;> simp_all
      have hle := RoundsTo.le_down R1 hdz (by positivity)
      have q1 : N ≤ c ^ 3 / f.val (f.hmul md y y) := by
        have h1 : c ^ 3 / f.val y ^ 2 ≤ c ^ 3 / f.val (f.hmul md y y) := div_le_div_of_nonneg_left (by positivity) hsq (by rw [pow_two]; exact hle)
        linarith
      obtain ⟨bu, fb, vu⟩ := repN 2 (by norm_num)
      push_cast at vu
      have q2 : c ^ 3 / f.val (f.hmul md y y) < N + 2 * g := by
        rw [hQ, div_lt_iff₀ p1]
        have := mul_le_mul_of_nonneg_left d1 (show 0 ≤ N + 2 * g by linarith)
        have : (N + 2 * g) * fu f md ≤ (2 * 2 ^ k - 99 / 100 * w) * fu f md := mul_le_mul_of_nonneg_right (by linarith) hu0.le
        have : 0 < fu f md * w := mul_pos hu0 hw
        linarith
      have hql := RoundsTo.le_down R2 hdz hQ0.le
      obtain ⟨fq, ql, -⟩ := RoundsTo.between R2 fN fb (by rw [vN]; exact q1) (by rw [vu]; exact q2.le)
      rw [vN] at ql
      generalize f.hdiv md ax (f.hmul md y y) = q at *
      have R3 := hadd_spec f md fd fq
      rw [vd] at R3
      have hSl := RoundsTo.le_down R3 hdz (by linarith)
      have fS : f.Finite (f.hadd md (f.hmul md two y) q) := by
        refine RoundsTo.finite_of_le f R3 (le_trans ?_ hhi)
        rw [abs_le]; constructor <;> linarith
      have hSg := RoundsTo.ge_of R3 fr3 (by rw [vr3]; linarith)
      rw [xval_of_finite f fS, xval_of_finite f fr3] at hSg
      have hSg : 3 * c ≤ f.val (f.hadd md (f.hmul md two y) q) := by rw [← vr3]; exact_mod_cast hSg
      refine ⟨fS, ?_⟩
      generalize f.hadd md (f.hmul md two y) q = S at *
      by_contra hne
      have := m3'.lt_imp (grid S (by linarith)) (lt_of_le_of_ne hSg (Ne.symm hne))
      rw [h2g] at this
      linarith

end Verif
