import Verif.Lemmas.EFT

/-!
# Error-free products: residual, Veltkamp's splitting, Dekker's product
-/

namespace Verif
open Fmt
variable {f : Fmt}

theorem abs_mul_lt_ce (a b : ℕ) : |f.val a * f.val b| < (2 : ℝ) ^ (f.ce a + f.ce b + 2 * f.F + 2) := by
  rw [abs_mul, show f.ce a + f.ce b + 2 * (f.F : ℤ) + 2 = (f.ce a + f.F + 1) + (f.ce b + f.F + 1) by ring, zpow_add₀ (by norm_num)]
  exact mul_lt_mul'' (f.abs_val_lt_ce a) (f.abs_val_lt_ce b) (abs_nonneg _) (abs_nonneg _)

/-- a product well above the least subnormal has an error that is not below it -/
theorem ce_add_ge {a b : ℕ} (h : (2 : ℝ) ^ (2 * f.F + 1) * f.minSub ≤ |f.val a * f.val b|) : f.emin ≤ f.ce a + f.ce b := by
  rw [minSub_eq_zpow, ← zpow_natCast, ← zpow_add₀ (by norm_num)] at h
  have := two_zpow_lt_iff.1 (lt_of_le_of_lt h (abs_mul_lt_ce a b))
  push_cast at this; omega

/-- The rounding error of a product is a format value, in every mode. -/
theorem residual_mul {m : Mode} {zs : Bool} {a b h : ℕ} (hg : f.emin ≤ f.ce a + f.ce b) (hmx : |f.val a * f.val b| ≤ f.maxFin)
    (H : f.RoundsTo m zs (f.val a * f.val b) h) : f.Finite h ∧ ∃ c, f.Finite c ∧ f.val c = f.val a * f.val b - f.val h := by
  obtain ⟨hf, hu⟩ := RoundsTo.ulp H hmx
  have hhuge : f.maxFin < (2 : ℝ) ^ ((f.bias : ℤ) + 1) := by rw [← f.maxFin_add]; linarith [two_zpow_pos ((f.bias : ℤ) - f.F)]
  have m1 := (f.mult_ce a).mul (f.mult_ce b)
  have m2 := RoundsTo.mult H m1 hg (lt_of_le_of_lt hmx hhuge) hu
  have hb := abs_mul_lt_ce (f := f) a b
  have he : |f.val h - f.val a * f.val b| < (2 : ℝ) ^ (f.ce a + f.ce b + f.F + 1) :=
    RoundsTo.ulp_of H hmx (by omega) (by refine le_trans hb.le (two_zpow_le (by omega)))
  rw [abs_sub_comm] at he hu
  refine ⟨hf, f.rep (g := f.ce a + f.ce b) (m1.sub m2) hg he.le (lt_of_lt_of_le hu (two_zpow_le ?_))⟩
  have := f.ce_le_max hf; omega

theorem residual_mul_nearest {zs : Bool} {a b h : ℕ} (hg : f.emin ≤ f.ce a + f.ce b)
    (H : f.RoundsTo .nearest zs (f.val a * f.val b) h) (hf : f.Finite h) :
    Mult (f.ce a + f.ce b) (f.val h) ∧ |f.val a * f.val b - f.val h| ≤ (2 : ℝ) ^ (f.ce a + f.ce b + f.F) ∧
      ∃ c, f.Finite c ∧ f.val c = f.val a * f.val b - f.val h := by
  obtain ⟨hv, hu⟩ := RoundsTo.half_ulp H hf
  have m1 := (f.mult_ce a).mul (f.mult_ce b)
  have m2 := RoundsTo.mult_nearest H hf m1 hg
  have hb := abs_mul_lt_ce (f := f) a b
  have he := RoundsTo.half_of H hf (g := f.ce a + f.ce b + f.F + 1) (by omega) (by refine le_trans hb.le (two_zpow_le (by omega)))
  rw [add_sub_cancel_right] at he
  rw [abs_sub_comm] at he hu
  refine ⟨m2, he, f.rep (g := f.ce a + f.ce b) (m1.sub m2) hg (le_trans he (two_zpow_le (by omega))) (lt_of_le_of_lt hu (two_zpow_lt ?_))⟩
  have := f.ce_le_max hf; omega

/-- Veltkamp's splitting with the constant `C = 2^σ + 1`: `x = hi + lo` with `hi` a multiple of `2^σ` units of the last place of `x` and `lo` at
most `2^(σ-1)` of them. -/
theorem veltkamp_spec {z1 z2 z3 z4 : Bool} {σ : ℕ} (hσ : 2 ≤ σ) (hσF : σ + 1 ≤ f.F) {C x γ δ hi lo : ℕ}
    (hn : (2 : ℝ) ^ (f.ce x + f.F) ≤ |f.val x|) (hC : f.val C = 2 ^ σ + 1) (hbig : |f.val x| * 2 ^ (σ + 1) ≤ (2 : ℝ) ^ (f.bias : ℤ))
    (G : f.RoundsTo .nearest z1 (f.val C * f.val x) γ)
    (D : f.Finite γ → f.RoundsTo .nearest z2 (f.val x - f.val γ) δ)
    (HI : f.Finite γ → f.Finite δ → f.RoundsTo .nearest z3 (f.val γ + f.val δ) hi)
    (LO : f.Finite hi → f.RoundsTo .nearest z4 (f.val x - f.val hi) lo) :
    f.Finite hi ∧ f.Finite lo ∧ f.val hi + f.val lo = f.val x ∧ Mult (f.ce x + σ) (f.val hi) ∧ |f.val hi| ≤ (2 : ℝ) ^ (f.ce x + f.F + 1) ∧
      Mult (f.ce x) (f.val lo) ∧ |f.val lo| ≤ (2 : ℝ) ^ (f.ce x + σ - 1) := by
  set e := f.ce x with he
  have hemin := f.ce_ge x
  rw [← he] at hemin
  have hp := two_zpow_pos e
  -- powers
  have P : ∀ k : ℕ, (2 : ℝ) ^ (e + k) = 2 ^ k * (2 : ℝ) ^ e := fun k => by rw [zpow_add₀ (by norm_num), zpow_natCast, mul_comm]
  have hxu := f.abs_val_le_ce x
  rw [← he] at hxu
  have hxu' : |f.val x| + (2 : ℝ) ^ e ≤ 2 ^ (f.F + 1) * (2 : ℝ) ^ e := by
    have := P (f.F + 1); push_cast at this; rw [← add_assoc] at this; rwa [this] at hxu
  have hn' : 2 ^ f.F * (2 : ℝ) ^ e ≤ |f.val x| := by rw [← P]; exact hn
  have hS : (4 : ℝ) ≤ 2 ^ σ := by
    calc (4 : ℝ) = 2 ^ 2 := by norm_num
      _ ≤ 2 ^ σ := pow_le_pow_right₀ (by norm_num) hσ
  have hS2 : (2 : ℝ) ^ σ * 2 ≤ 2 ^ f.F := by
    rw [← pow_succ]; exact pow_le_pow_right₀ (by norm_num) hσF
  have hF2 : (2 : ℝ) ^ (f.F + 1) = 2 * 2 ^ f.F := by rw [pow_succ]; ring
  have hS1 : (2 : ℝ) ^ (σ + 1) = 2 * 2 ^ σ := by rw [pow_succ]; ring
  have bnd : (2 : ℝ) ^ (f.bias : ℤ) < f.maxFin := by
    have h1 := f.maxFin_add
    have h2 : (2 : ℝ) ^ ((f.bias : ℤ) - f.F) < 2 ^ (f.bias : ℤ) := two_zpow_lt (by have := f.hF; omega)
    have h3 := two_zpow_succ (f.bias : ℤ)
    linarith
  have small : ∀ v : ℝ, |v| ≤ (2 : ℝ) ^ (f.bias : ℤ) → |v| < (2 : ℝ) ^ ((f.bias : ℤ) + 1) := fun v hv =>
    lt_of_le_of_lt hv (two_zpow_lt (by omega))
  have hax : 0 ≤ |f.val x| := abs_nonneg _
  have hSp : (0 : ℝ) < 2 ^ σ := by positivity
  have hQU : 0 < 2 ^ f.F * (2 : ℝ) ^ e := by positivity
  have hX2 : |f.val x| ≤ 2 * (2 ^ f.F * (2 : ℝ) ^ e) := by rw [hF2] at hxu'; linarith
  have hSX : (2 ^ σ + 1) * |f.val x| ≤ 2 * (2 ^ σ * |f.val x|) := by nlinarith
  have hSX2 : 2 ^ σ * |f.val x| + 2 ^ σ * (2 : ℝ) ^ e ≤ 2 * (2 ^ σ * (2 ^ f.F * (2 : ℝ) ^ e)) := by
    rw [hF2] at hxu'
    have := mul_le_mul_of_nonneg_left hxu' hSp.le
    linarith
  have hSX3 : 2 ^ σ * (2 ^ f.F * (2 : ℝ) ^ e) ≤ 2 ^ σ * |f.val x| := mul_le_mul_of_nonneg_left hn' hSp.le
  have hbig' : 2 * (2 ^ σ * |f.val x|) ≤ (2 : ℝ) ^ (f.bias : ℤ) := by rw [hS1] at hbig; linarith
  have hSU : 2 * (2 ^ σ * (2 : ℝ) ^ e) ≤ 2 ^ f.F * (2 : ℝ) ^ e := by
    have := mul_le_mul_of_nonneg_right hS2 hp.le
    linarith
  have hSUp : 0 < 2 ^ σ * (2 : ℝ) ^ e := by positivity
  have hX4 : 4 * |f.val x| ≤ 2 ^ σ * |f.val x| := mul_le_mul_of_nonneg_right hS hax
  have hQQ : 2 ^ σ * (2 ^ f.F * (2 : ℝ) ^ e) * 2 ≤ 2 ^ f.F * (2 ^ f.F * (2 : ℝ) ^ e) := by
    have := mul_le_mul_of_nonneg_right hS2 hQU.le
    linarith
  -- γ
  have hCx : |f.val C * f.val x| = (2 ^ σ + 1) * |f.val x| := by
    rw [abs_mul, hC, abs_of_pos (by positivity)]
  have hγf : f.Finite γ := RoundsTo.finite_of_le f G (by
    rw [hCx]; linarith)
  have D := D hγf
  -- bound of the error of γ: half of `2^(e+σ+1)`
  obtain ⟨ε, hε⟩ : ∃ ε, ε = f.val γ - f.val C * f.val x := ⟨_, rfl⟩
  have hγv : f.val γ = (2 ^ σ + 1) * f.val x + ε := by rw [hε, hC]; ring
  have hε1 : |ε| ≤ 2 ^ σ * (2 : ℝ) ^ e := by
    have := RoundsTo.half_of G hγf (g := e + σ + 1) (by omega) (by
      rw [hCx]
      have h1 := P (σ + 1 + f.F + 1)
      push_cast at h1
      rw [show e + σ + 1 + f.F + 1 = e + ((σ : ℤ) + 1 + f.F + 1) by ring, h1]
      have e4 : (2 : ℝ) ^ (σ + 1 + f.F + 1) * (2 : ℝ) ^ e = 4 * (2 ^ σ * (2 ^ f.F * (2 : ℝ) ^ e)) := by ring
      rw [e4]; linarith)
    rw [← hε, add_sub_cancel_right, P] at this
    exact this
  -- γ is a multiple of `2^(e+σ)`
  have hγ0 : 2 ^ f.F * 2 ^ σ * (2 : ℝ) ^ e ≤ |f.val γ| := by
    have hge : 2 ^ f.F * 2 ^ σ * (2 : ℝ) ^ e ≤ |f.val γ| + |ε| - |f.val x| := by
      have : (2 ^ σ + 1) * |f.val x| ≤ |f.val γ| + |ε| := by
        rw [← hCx]
        have := abs_add_le (f.val γ) (-ε)
        rw [abs_neg] at this
        rwa [show f.val γ + -ε = f.val C * f.val x by rw [hε]; ring] at this
      linarith
    linarith
  have hγm : Mult (e + σ) (f.val γ) := (f.mult_ce γ).weaken (f.le_ce_of (by
    have := P (σ + f.F); push_cast at this
    rw [show e + (σ : ℤ) + f.F = e + (σ + f.F) by ring, this, pow_add]; linarith [hγ0]))
  -- δ
  have hxγ : f.val x - f.val γ = -(2 ^ σ * f.val x) - ε := by rw [hγv]; ring
  have hxγb : |f.val x - f.val γ| ≤ 2 ^ σ * |f.val x| + |ε| := by
    rw [hxγ]
    have := abs_add_le (-(2 ^ σ * f.val x)) (-ε)
    rw [abs_neg, abs_neg, abs_mul, abs_of_pos (show (0 : ℝ) < 2 ^ σ by positivity)] at this
    exact this
  have hxγu : |f.val x - f.val γ| ≤ (2 : ℝ) ^ (e + σ + f.F + 1) := by
    have := P (σ + (f.F + 1)); push_cast at this
    have e4 : (2 : ℝ) ^ (σ + (f.F + 1)) * (2 : ℝ) ^ e = 2 * (2 ^ σ * (2 ^ f.F * (2 : ℝ) ^ e)) := by ring
    rw [show e + (σ : ℤ) + f.F + 1 = e + (σ + (f.F + 1)) by ring, this, e4]
    linarith
  have hδf : f.Finite δ := RoundsTo.finite_of_le f D (by
    linarith)
  have HI := HI hγf hδf
  obtain ⟨η, hη⟩ : ∃ η, η = f.val δ - (f.val x - f.val γ) := ⟨_, rfl⟩
  have hη1 : |η| ≤ (2 : ℝ) ^ (e + σ - 1) := by
    have := RoundsTo.half_of D hδf (g := e + σ) (by omega) hxγu
    rwa [← hη] at this
  have hsum : f.val γ + f.val δ = f.val x + η := by rw [hη]; ring
  have eh : (2 : ℝ) ^ (e + σ) = 2 * (2 : ℝ) ^ (e + σ - 1) := by rw [← two_zpow_succ]; congr 1; ring
  have hph := two_zpow_pos (e + σ - 1)
  have hPs := P σ
  -- δ is a multiple of `2^(e+σ)`, or everything is exact
  have hδm : Mult (e + σ) (f.val x + η) := by
    rcases eq_or_lt_of_le hn' with hpow | hpow
    · -- |x| = 2^(e+F): no rounding at all
      have hxm : Mult (e + f.F) (f.val x) := by
        rcases abs_choice (f.val x) with k | k
        · rw [← k, ← hpow, ← P]; exact Mult.two_zpow _
        · have : f.val x = -|f.val x| := by rw [k]; ring
          rw [this, ← hpow, ← P]; exact (Mult.two_zpow _).neg
      have hCm : Mult (e + f.F) (f.val C * f.val x) := by
        rw [hC]
        have := hxm.int_mul (2 ^ σ + 1)
        push_cast at this; exact this
      have g1 := RoundsTo.exact_of G (f.rep (g := e + f.F) hCm (by omega) (by
          rw [hCx, ← hpow]
          have := P (f.F + (f.F + 1)); push_cast at this
          have e4 : (2 : ℝ) ^ (f.F + (f.F + 1)) * (2 : ℝ) ^ e = 2 * (2 ^ f.F * (2 ^ f.F * (2 : ℝ) ^ e)) := by ring
          rw [show e + (f.F : ℤ) + f.F + 1 = e + (f.F + (f.F + 1)) by ring, this, e4]
          linarith) (small _ (by rw [hCx]; linarith)))
      have d1 : f.val x - f.val γ = -(2 ^ σ * f.val x) := by rw [g1.2, hC]; ring
      have d2 := RoundsTo.exact_of D (by
        rw [d1]
        refine f.rep (g := e + f.F) (by
            have := (hxm.int_mul (2 ^ σ)).neg
            push_cast at this; exact this) (by omega) ?_ (small _ ?_)
        · rw [abs_neg, abs_mul, abs_of_pos (show (0 : ℝ) < 2 ^ σ by positivity), ← hpow]
          have := P (f.F + (f.F + 1)); push_cast at this
          have e4 : (2 : ℝ) ^ (f.F + (f.F + 1)) * (2 : ℝ) ^ e = 2 * (2 ^ f.F * (2 ^ f.F * (2 : ℝ) ^ e)) := by ring
          rw [show e + (f.F : ℤ) + f.F + 1 = e + (f.F + (f.F + 1)) by ring, this, e4]
          linarith
        · rw [abs_neg, abs_mul, abs_of_pos (show (0 : ℝ) < 2 ^ σ by positivity)]
          linarith)
      have : η = 0 := by rw [hη, d2.2]; ring
      rw [this, add_zero]
      exact hxm.weaken (by omega)
    · -- |x| ≥ 2^(e+F) + 2^e
      rw [← hsum]
      refine hγm.add ((f.mult_ce δ).weaken (f.le_ce_of ?_))
      have hpow' : 2 ^ f.F * (2 : ℝ) ^ e + (2 : ℝ) ^ e ≤ |f.val x| := by
        have h1 : Mult e (|f.val x|) := by
          rcases abs_choice (f.val x) with k | k <;> rw [k]
          · exact f.mult_ce x
          · exact (f.mult_ce x).neg
        have h2 : Mult e (2 ^ f.F * (2 : ℝ) ^ e) := by rw [← P]; exact (Mult.two_zpow _).weaken (by omega)
        exact h2.lt_imp h1 hpow
      have hlow : 2 ^ σ * (2 ^ f.F * (2 : ℝ) ^ e) ≤ |f.val x - f.val γ| := by
        have : 2 ^ σ * |f.val x| ≤ |f.val x - f.val γ| + |ε| := by
          have := abs_add_le (f.val x - f.val γ) ε
          rw [show f.val x - f.val γ + ε = -(2 ^ σ * f.val x) by rw [hxγ]; ring, abs_neg, abs_mul, abs_of_pos (show (0 : ℝ) < 2 ^ σ by positivity)] at this
          exact this
        have := mul_le_mul_of_nonneg_left hpow' hSp.le
        linarith
      -- the bound is a format value, so `δ` respects it
      have hPF := P (σ + f.F); push_cast at hPF
      rw [show e + (σ : ℤ) + f.F = e + (σ + f.F) by ring, hPF, pow_add, mul_assoc]
      rw [pow_add, mul_assoc] at hPF
      have hsz : 2 ^ σ * (2 ^ f.F * (2 : ℝ) ^ e) ≤ (2 : ℝ) ^ (f.bias : ℤ) := by
        linarith
      have hpos : 0 < 2 ^ σ * (2 ^ f.F * (2 : ℝ) ^ e) := by positivity
      have hmm : Mult (e + (σ + f.F)) (2 ^ σ * (2 ^ f.F * (2 : ℝ) ^ e)) := by rw [← hPF]; exact Mult.two_zpow _
      have hle : 2 ^ σ * (2 ^ f.F * (2 : ℝ) ^ e) ≤ (2 : ℝ) ^ (e + (σ + f.F) + f.F + 1) := by rw [← hPF]; exact two_zpow_le (by omega)
      rcases le_abs.1 hlow with k | k
      · obtain ⟨c, c1, c2⟩ := f.rep hmm (by omega) (by rwa [abs_of_pos hpos]) (small _ (by rwa [abs_of_pos hpos]))
        have := RoundsTo.ge_of D c1 (by rw [c2]; exact k)
        rw [f.xval_of_finite hδf, f.xval_of_finite c1, EReal.coe_le_coe_iff, c2] at this
        exact le_trans this (le_abs_self _)
      · obtain ⟨c, c1, c2⟩ := f.rep hmm.neg (by omega) (by rwa [abs_neg, abs_of_pos hpos]) (small _ (by rwa [abs_neg, abs_of_pos hpos]))
        have := RoundsTo.le_of D c1 (by rw [c2]; linarith)
        rw [f.xval_of_finite hδf, f.xval_of_finite c1, EReal.coe_le_coe_iff, c2] at this
        exact le_trans (by linarith) (neg_le_abs _)
  -- hi
  have hhiB : |f.val x + η| ≤ (2 : ℝ) ^ (e + f.F + 1) := by
    -- a multiple of `2^(e+σ)` below `2^(e+F+1) + 2^(e+σ-1)`
    by_contra hcon
    push Not at hcon
    have h1 : Mult (e + σ) (|f.val x + η|) := by
      rcases abs_choice (f.val x + η) with k | k <;> rw [k]
      · exact hδm
      · exact hδm.neg
    have h2 : Mult (e + σ) ((2 : ℝ) ^ (e + f.F + 1)) := (Mult.two_zpow _).weaken (by omega)
    have h3 := h2.lt_imp h1 hcon
    have := abs_add_le (f.val x) η
    linarith
  have hiB' : |f.val x + η| ≤ (2 : ℝ) ^ (f.bias : ℤ) := by
    refine le_trans (abs_add_le _ _) ?_
    linarith
  rw [hsum] at HI
  obtain ⟨hi1, hi2⟩ := RoundsTo.exact_of HI (f.rep hδm (by omega) (le_trans hhiB (two_zpow_le (by omega))) (small _ hiB'))
  have LO := LO hi1
  have hlov : f.val x - f.val hi = -η := by rw [hi2]; ring
  have hηm : Mult e (-η) := by
    rw [← hlov, hi2]; exact (f.mult_ce x).sub (hδm.weaken (by omega))
  rw [hlov] at LO
  obtain ⟨lo1, lo2⟩ := RoundsTo.exact_of LO (f.rep hηm hemin (by rw [abs_neg]; exact le_trans hη1 (two_zpow_le (by omega)))
    (small _ (by
      rw [abs_neg]; linarith)))
  refine ⟨hi1, lo1, by rw [hi2, lo2]; ring, by rw [hi2]; exact hδm, by rw [hi2]; exact hhiB, by rw [lo2]; exact hηm, by rw [lo2, abs_neg]; exact hη1⟩

theorem abs_mul_le_zpow {u v : ℝ} {i j : ℤ} (hu : |u| ≤ (2 : ℝ) ^ i) (hv : |v| ≤ (2 : ℝ) ^ j) : |u * v| ≤ (2 : ℝ) ^ (i + j) := by
  rw [abs_mul, zpow_add₀ (by norm_num)]
  exact mul_le_mul hu hv (abs_nonneg _) (two_zpow_pos _).le

/-- Dekker's product from the two splittings. -/
theorem dekker_spec {z0 z1 z2 z3 z4 z5 z6 z7 z8 : Bool} {σ : ℕ} (h2σ : f.F + 1 ≤ 2 * σ) (hσ3 : 2 * σ ≤ f.F + 3) (hσF : σ + 2 ≤ f.F)
    {a b ah al bh bl h p1 t1 p2 t2 p3 t3 p4 lo : ℕ}
    (na : (2 : ℝ) ^ (f.ce a + f.F) ≤ |f.val a|) (nb : (2 : ℝ) ^ (f.ce b + f.F) ≤ |f.val b|)
    (hg : f.emin ≤ f.ce a + f.ce b) (hbig : |f.val a * f.val b| ≤ (2 : ℝ) ^ ((f.bias : ℤ) - 2))
    (sa : f.val ah + f.val al = f.val a) (mah : Mult (f.ce a + σ) (f.val ah)) (bah : |f.val ah| ≤ (2 : ℝ) ^ (f.ce a + f.F + 1))
    (mal : Mult (f.ce a) (f.val al)) (bal : |f.val al| ≤ (2 : ℝ) ^ (f.ce a + σ - 1))
    (sb : f.val bh + f.val bl = f.val b) (mbh : Mult (f.ce b + σ) (f.val bh)) (bbh : |f.val bh| ≤ (2 : ℝ) ^ (f.ce b + f.F + 1))
    (mbl : Mult (f.ce b) (f.val bl)) (bbl : |f.val bl| ≤ (2 : ℝ) ^ (f.ce b + σ - 1))
    (H : f.RoundsTo .nearest z0 (f.val a * f.val b) h)
    (P1 : f.RoundsTo .nearest z1 (f.val ah * f.val bh) p1) (T1 : f.Finite p1 → f.Finite h → f.RoundsTo .nearest z2 (f.val p1 - f.val h) t1)
    (P2 : f.RoundsTo .nearest z3 (f.val ah * f.val bl) p2) (T2 : f.Finite p2 → f.Finite t1 → f.RoundsTo .nearest z4 (f.val p2 + f.val t1) t2)
    (P3 : f.RoundsTo .nearest z5 (f.val al * f.val bh) p3) (T3 : f.Finite p3 → f.Finite t2 → f.RoundsTo .nearest z6 (f.val p3 + f.val t2) t3)
    (P4 : f.RoundsTo .nearest z7 (f.val al * f.val bl) p4) (LO : f.Finite p4 → f.Finite t3 → f.RoundsTo .nearest z8 (f.val p4 + f.val t3) lo) :
    f.Finite h ∧ f.Finite lo ∧ f.val h + f.val lo = f.val a * f.val b := by
  obtain ⟨g, hgd⟩ : ∃ g, g = f.ce a + f.ce b := ⟨_, rfl⟩
  rw [← hgd] at hg
  -- size of the product
  have hab : (2 : ℝ) ^ (g + 2 * f.F) ≤ |f.val a * f.val b| := by
    rw [abs_mul, show g + 2 * (f.F : ℤ) = (f.ce a + f.F) + (f.ce b + f.F) by rw [hgd]; ring, zpow_add₀ (by norm_num)]
    exact mul_le_mul na nb (two_zpow_pos _).le (abs_nonneg _)
  have hgb : g + 2 * f.F ≤ (f.bias : ℤ) - 2 := by
    by_contra hc
    have := two_zpow_lt (show (f.bias : ℤ) - 2 < g + 2 * f.F by omega)
    linarith
  have sm : ∀ v : ℝ, |v| ≤ (2 : ℝ) ^ (g + 2 * f.F + 2) → |v| < (2 : ℝ) ^ ((f.bias : ℤ) + 1) := fun v hv =>
    lt_of_le_of_lt hv (two_zpow_lt (by omega))
  have hmx : |f.val a * f.val b| ≤ f.maxFin := by
    have h1 := f.maxFin_add
    have h2 : (2 : ℝ) ^ ((f.bias : ℤ) - f.F) ≤ 2 ^ (f.bias : ℤ) := two_zpow_le (by omega)
    have h3 := two_zpow_succ (f.bias : ℤ)
    have h4 : (2 : ℝ) ^ ((f.bias : ℤ) - 2) ≤ 2 ^ (f.bias : ℤ) := two_zpow_le (by omega)
    linarith
  have hf := RoundsTo.finite_of_le f H hmx
  obtain ⟨mh, bη, hres⟩ := residual_mul_nearest (by rwa [← hgd]) H hf
  rw [← hgd] at mh bη
  -- ulp of h
  have hh : (2 : ℝ) ^ (g + 2 * f.F) ≤ |f.val h| := by
    have hM : Mult (g + 2 * f.F) ((2 : ℝ) ^ (g + 2 * (f.F : ℤ))) := Mult.two_zpow _
    have hpos := two_zpow_pos (g + 2 * (f.F : ℤ))
    have hl : (2 : ℝ) ^ (g + 2 * (f.F : ℤ)) ≤ (2 : ℝ) ^ (g + 2 * (f.F : ℤ) + f.F + 1) := two_zpow_le (by omega)
    have hl2 : (2 : ℝ) ^ (g + 2 * (f.F : ℤ)) ≤ (2 : ℝ) ^ (g + 2 * (f.F : ℤ) + 2) := two_zpow_le (by omega)
    rcases le_abs.1 hab with k | k
    · obtain ⟨c, c1, c2⟩ := f.rep hM (by omega) (by rwa [abs_of_pos hpos]) (sm _ (by rwa [abs_of_pos hpos]))
      have := RoundsTo.ge_of H c1 (by rw [c2]; exact k)
      rw [f.xval_of_finite hf, f.xval_of_finite c1, EReal.coe_le_coe_iff, c2] at this
      exact le_trans this (le_abs_self _)
    · obtain ⟨c, c1, c2⟩ := f.rep hM.neg (by omega) (by rwa [abs_neg, abs_of_pos hpos]) (sm _ (by rwa [abs_neg, abs_of_pos hpos]))
      have := RoundsTo.le_of H c1 (by rw [c2]; linarith)
      rw [f.xval_of_finite hf, f.xval_of_finite c1, EReal.coe_le_coe_iff, c2] at this
      exact le_trans (by linarith) (neg_le_abs _)
  have mhF : Mult (g + f.F) (f.val h) := (f.mult_ce h).weaken (f.le_ce_of (by rwa [show g + (f.F : ℤ) + f.F = g + 2 * f.F by ring]))
  -- the four partial products
  have m1 : Mult (g + 2 * σ) (f.val ah * f.val bh) := (mah.mul mbh).weaken (by rw [hgd]; omega)
  have b1 : |f.val ah * f.val bh| ≤ (2 : ℝ) ^ (g + 2 * f.F + 2) := le_trans (abs_mul_le_zpow bah bbh) (two_zpow_le (by rw [hgd]; omega))
  have m2 : Mult (g + σ) (f.val ah * f.val bl) := (mah.mul mbl).weaken (by rw [hgd]; omega)
  have b2 : |f.val ah * f.val bl| ≤ (2 : ℝ) ^ (g + f.F + σ) := le_trans (abs_mul_le_zpow bah bbl) (two_zpow_le (by rw [hgd]; omega))
  have m3 : Mult (g + σ) (f.val al * f.val bh) := (mal.mul mbh).weaken (by rw [hgd]; omega)
  have b3 : |f.val al * f.val bh| ≤ (2 : ℝ) ^ (g + f.F + σ) := le_trans (abs_mul_le_zpow bal bbh) (two_zpow_le (by rw [hgd]; omega))
  have m4 : Mult g (f.val al * f.val bl) := (mal.mul mbl).weaken (by rw [hgd])
  have b4 : |f.val al * f.val bl| ≤ (2 : ℝ) ^ (g + f.F + 1) := le_trans (abs_mul_le_zpow bal bbl) (two_zpow_le (by rw [hgd]; omega))
  obtain ⟨f1, v1⟩ := RoundsTo.exact_of P1 (f.rep m1 (by omega) (le_trans b1 (two_zpow_le (by omega))) (sm _ b1))
  obtain ⟨f2, v2⟩ := RoundsTo.exact_of P2 (f.rep m2 (by omega) (le_trans b2 (two_zpow_le (by omega))) (sm _ (le_trans b2 (two_zpow_le (by omega)))))
  obtain ⟨f3, v3⟩ := RoundsTo.exact_of P3 (f.rep m3 (by omega) (le_trans b3 (two_zpow_le (by omega))) (sm _ (le_trans b3 (two_zpow_le (by omega)))))
  obtain ⟨f4, v4⟩ := RoundsTo.exact_of P4 (f.rep m4 (by omega) b4 (sm _ (le_trans b4 (two_zpow_le (by omega)))))
  -- comparison of the magnitudes involved
  have c0 : (2 : ℝ) ^ (g + f.F + σ) * 2 = (2 : ℝ) ^ (g + f.F + σ + 1) := by rw [two_zpow_succ]; ring
  have c1 : (2 : ℝ) ^ (g + f.F + σ + 1) * 2 = (2 : ℝ) ^ (g + f.F + σ + 1 + 1) := by rw [two_zpow_succ (g + f.F + σ + 1)]; ring
  have c2 : (2 : ℝ) ^ (g + (f.F : ℤ)) * 2 = (2 : ℝ) ^ (g + f.F + 1) := by rw [two_zpow_succ]; ring
  have c3 : (2 : ℝ) ^ (g + (f.F : ℤ) + 1) * 2 = (2 : ℝ) ^ (g + f.F + 1 + 1) := by rw [two_zpow_succ (g + (f.F : ℤ) + 1)]; ring
  have c4 : (2 : ℝ) ^ (g + f.F + 1 + 1) ≤ (2 : ℝ) ^ (g + f.F + σ) := two_zpow_le (by omega)
  have c5 : (2 : ℝ) ^ (g + f.F + σ + 1 + 1) ≤ (2 : ℝ) ^ (g + f.F + f.F + 1) := two_zpow_le (by omega)
  have c6 := two_zpow_pos (g + (f.F : ℤ))
  -- the three intermediate sums
  have T1 := T1 f1 hf
  rw [v1] at T1
  have w1 : f.val ah * f.val bh - f.val h = -(f.val ah * f.val bl) - f.val al * f.val bh - f.val al * f.val bl + (f.val a * f.val b - f.val h) := by
    rw [← sa, ← sb]; ring
  have k1 : |f.val ah * f.val bh - f.val h| ≤ (2 : ℝ) ^ (g + f.F + f.F + 1) := by
    rw [w1]
    have := abs_add_le (-(f.val ah * f.val bl) - f.val al * f.val bh - f.val al * f.val bl) (f.val a * f.val b - f.val h)
    have t3 := abs_sub (-(f.val ah * f.val bl) - f.val al * f.val bh) (f.val al * f.val bl)
    have t2 := abs_sub (-(f.val ah * f.val bl)) (f.val al * f.val bh)
    rw [abs_neg] at t2
    linarith
  obtain ⟨ft1, vt1⟩ := RoundsTo.exact_of T1 (f.rep (g := g + f.F) ((m1.weaken (by omega)).sub mhF) (by omega) k1
    (sm _ (le_trans k1 (two_zpow_le (by omega)))))
  have mt1 : Mult (g + f.F) (f.val t1) := by rw [vt1]; exact (m1.weaken (by omega)).sub mhF
  have T2 := T2 f2 ft1
  rw [v2] at T2
  have mt2 : Mult (g + σ) (f.val ah * f.val bl + f.val t1) := m2.add (mt1.weaken (by omega))
  have k2 : |f.val ah * f.val bl + f.val t1| ≤ (2 : ℝ) ^ (g + f.F + σ + 1) := by
    rw [vt1, w1, show f.val ah * f.val bl + (-(f.val ah * f.val bl) - f.val al * f.val bh - f.val al * f.val bl + (f.val a * f.val b - f.val h)) =
      -(f.val al * f.val bh) - f.val al * f.val bl + (f.val a * f.val b - f.val h) by ring]
    have := abs_add_le (-(f.val al * f.val bh) - f.val al * f.val bl) (f.val a * f.val b - f.val h)
    have t3 := abs_sub (-(f.val al * f.val bh)) (f.val al * f.val bl)
    rw [abs_neg] at t3
    linarith
  obtain ⟨ft2, vt2⟩ := RoundsTo.exact_of T2 (f.rep mt2 (by omega) (le_trans k2 (two_zpow_le (by omega))) (sm _ (le_trans k2 (two_zpow_le (by omega)))))
  have T3 := T3 f3 ft2
  rw [v3] at T3
  have mt3 : Mult (g + σ) (f.val al * f.val bh + f.val t2) := by rw [vt2]; exact m3.add mt2
  have e3 : f.val al * f.val bh + f.val t2 = -(f.val al * f.val bl) + (f.val a * f.val b - f.val h) := by rw [vt2, vt1, w1]; ring
  have k3 : |f.val al * f.val bh + f.val t2| ≤ (2 : ℝ) ^ (g + f.F + 1 + 1) := by
    rw [e3]
    have := abs_add_le (-(f.val al * f.val bl)) (f.val a * f.val b - f.val h)
    rw [abs_neg] at this
    linarith
  obtain ⟨ft3, vt3⟩ := RoundsTo.exact_of T3 (f.rep mt3 (by omega) (le_trans k3 (two_zpow_le (by omega))) (sm _ (le_trans k3 (two_zpow_le (by omega)))))
  have LO := LO f4 ft3
  rw [v4, vt3, e3, show f.val al * f.val bl + (-(f.val al * f.val bl) + (f.val a * f.val b - f.val h)) = f.val a * f.val b - f.val h by ring] at LO
  obtain ⟨fl, vl⟩ := RoundsTo.exact_of LO hres
  exact ⟨hf, fl, by rw [vl]; ring⟩

end Verif
