import Verif.Lemmas.HwSpec

/-! # Representability and monotonicity of rounding -/

namespace Verif
namespace Fmt
variable (f : Fmt)

/-- `s·2^k` units with at most `F+1` significant bits is a grid point. -/
theorem umag_floorIdx_of_dvd {s k : ℕ} (hs : s ≤ 2 ^ (f.F + 1)) : f.umag (f.floorIdx (s * 2 ^ k)) = s * 2 ^ k := by
  rw [umag_floorIdx_eq]
  apply Nat.div_mul_cancel
  rcases Nat.eq_zero_or_pos s with rfl | h0
  · simp
  rcases Nat.lt_or_ge s (2 ^ (f.F + 1)) with hlt | hge
  · apply Nat.dvd_trans (Nat.pow_dvd_pow 2 _) (Nat.dvd_mul_left _ s)
    have hpos : s * 2 ^ k ≠ 0 := Nat.mul_ne_zero (by omega) (by positivity)
    have h1 : (s * 2 ^ k).log2 < f.F + 1 + k := by
      rw [Nat.log2_lt hpos, pow_add]
      exact Nat.mul_lt_mul_of_pos_right hlt (by positivity)
    omega
  · have : s = 2 ^ (f.F + 1) := by omega
    rw [this, ← pow_add, Nat.log2_two_pow]
    exact Nat.pow_dvd_pow 2 (by omega)

theorem abs_val (x : ℕ) : |f.val x| = (f.umag (f.mag x) : ℝ) * f.minSub := by
  have := f.minSub_pos
  rw [val_eq, abs_mul, abs_sg, one_mul, abs_of_nonneg (by positivity)]

theorem abs_val_le {c : ℕ} (hc : f.Finite c) : |f.val c| ≤ f.maxFin := by
  rw [abs_val, maxFin_eq]
  have h1 := ((f.finite_iff c).1 hc).2
  have : f.umag (f.mag c) ≤ f.umag (f.infMag - 1) := f.umag_le_iff.2 (by omega)
  have h3 : (f.umag (f.mag c) : ℝ) ≤ f.umag (f.infMag - 1) := by exact_mod_cast this
  exact mul_le_mul_of_nonneg_right h3 f.minSub_pos.le

theorem maxFin_lt_threshold : f.maxFin < (2 : ℝ) ^ (f.bias : ℤ) * (2 - (2 : ℝ) ^ (-(f.F : ℤ) - 1)) := by
  unfold maxFin
  apply mul_lt_mul_of_pos_left _ (zpow_pos (by norm_num) _)
  have : (2 : ℝ) ^ (-(f.F : ℤ) - 1) < (2 : ℝ) ^ (-(f.F : ℤ)) := zpow_lt_zpow_right₀ (by norm_num) (by omega)
  linarith

theorem maxFin_pos : 0 < f.maxFin := by
  rw [maxFin_eq]
  have h := f.minSub_pos
  have h2 := f.infMag_pos
  have h3 : 2 ≤ 2 ^ (f.F + 1) := by rw [pow_succ]; have := f.two_pow_F_pos; omega
  have h4 : 0 < f.umag (f.infMag - 1) := by
    have := f.umag_lt_iff (a := 0) (b := f.infMag - 1); simp at this; omega
  have : (0 : ℝ) < f.umag (f.infMag - 1) := by exact_mod_cast h4
  positivity

/-- A representable lower bound survives rounding. -/
theorem RoundsTo.ge_of {f : Fmt} {m : Mode} {zs : Bool} {v : ℝ} {b c : ℕ} (h : f.RoundsTo m zs v b)
    (hc : f.Finite c) (hv : f.val c ≤ v) : f.xval c ≤ f.xval b := by
  have hmc := abs_le.1 (f.abs_val_le hc)
  have hth := f.maxFin_lt_threshold
  have hval := h.value
  rw [xval_of_finite f hc]
  unfold RoundValue at hval
  cases m
  · simp only at hval
    split at hval
    · rw [hval, xval_inf]; simp
    split at hval
    · linarith [hmc.1]
    rw [xval_of_finite f hval.finite, EReal.coe_le_coe_iff]
    by_contra hlt
    push Not at hlt
    have := hval.best c hc
    rw [abs_of_nonpos (by linarith), abs_of_nonpos (by linarith)] at this
    linarith
  · simp only at hval
    split at hval
    · rw [xval_of_finite f hval.finite, EReal.coe_le_coe_iff]; exact hval.greatest c hc hv
    · rw [xval_of_finite f hval.finite, EReal.coe_le_coe_iff]; exact le_trans hv hval.ge
  · simp only at hval
    split at hval
    · linarith [hmc.1]
    · rw [xval_of_finite f hval.finite, EReal.coe_le_coe_iff]; exact hval.greatest c hc hv
  · simp only at hval
    split at hval
    · rw [hval, xval_inf]; simp
    · rw [xval_of_finite f hval.finite, EReal.coe_le_coe_iff]; exact le_trans hv hval.ge

/-- A representable upper bound survives rounding. -/
theorem RoundsTo.le_of {f : Fmt} {m : Mode} {zs : Bool} {v : ℝ} {b c : ℕ} (h : f.RoundsTo m zs v b)
    (hc : f.Finite c) (hv : v ≤ f.val c) : f.xval b ≤ f.xval c := by
  have hmc := abs_le.1 (f.abs_val_le hc)
  have hth := f.maxFin_lt_threshold
  have hval := h.value
  rw [xval_of_finite f hc]
  unfold RoundValue at hval
  cases m
  · simp only at hval
    split at hval
    · linarith [hmc.2]
    split at hval
    · rw [hval, xval_inf]; simp
    rw [xval_of_finite f hval.finite, EReal.coe_le_coe_iff]
    by_contra hlt
    push Not at hlt
    have := hval.best c hc
    rw [abs_of_nonneg (by linarith), abs_of_nonneg (by linarith)] at this
    linarith
  · simp only at hval
    split at hval
    · rw [xval_of_finite f hval.finite, EReal.coe_le_coe_iff]; exact le_trans hval.le hv
    · rw [xval_of_finite f hval.finite, EReal.coe_le_coe_iff]; exact hval.least c hc hv
  · simp only at hval
    split at hval
    · rw [hval, xval_inf]; simp
    · rw [xval_of_finite f hval.finite, EReal.coe_le_coe_iff]; exact le_trans hval.le hv
  · simp only at hval
    split at hval
    · linarith [hmc.2]
    · rw [xval_of_finite f hval.finite, EReal.coe_le_coe_iff]; exact hval.least c hc hv

theorem RoundValue.cases {m : Mode} {v : ℝ} {b : ℕ} (h : f.RoundValue m v b) :
    f.Finite b ∨ (b = f.inf false ∧ f.maxFin < v) ∨ (b = f.inf true ∧ v < -f.maxFin) := by
  have hth := f.maxFin_lt_threshold
  unfold RoundValue at h
  cases m <;> simp only at h
  · split at h
    · exact Or.inr (Or.inl ⟨h, by linarith⟩)
    split at h
    · exact Or.inr (Or.inr ⟨h, by linarith⟩)
    exact Or.inl h.finite
  · split at h <;> exact Or.inl h.finite
  · split at h
    · exact Or.inr (Or.inr ⟨h, by assumption⟩)
    · exact Or.inl h.finite
  · split at h
    · exact Or.inr (Or.inl ⟨h, by assumption⟩)
    · exact Or.inl h.finite

theorem RoundsTo.cases {m : Mode} {zs : Bool} {v : ℝ} {b : ℕ} (h : f.RoundsTo m zs v b) :
    f.Finite b ∨ (b = f.inf false ∧ f.maxFin < v) ∨ (b = f.inf true ∧ v < -f.maxFin) :=
  RoundValue.cases f h.value

theorem RoundsTo.not_nan {m : Mode} {zs : Bool} {v : ℝ} {b : ℕ} (h : f.RoundsTo m zs v b) : ¬ f.IsNaN b := by
  rw [isNaN_iff]
  rcases RoundsTo.cases f h with h | ⟨h, _⟩ | ⟨h, _⟩
  · have := ((f.finite_iff b).1 h).2; omega
  · have := ((f.isInf_iff b).1 (h ▸ f.isInf_inf false)).2; omega
  · have := ((f.isInf_iff b).1 (h ▸ f.isInf_inf true)).2; omega

/-- No overflow: a value within the finite range rounds to a finite datum. -/
theorem RoundsTo.finite_of_le {m : Mode} {zs : Bool} {v : ℝ} {b : ℕ} (h : f.RoundsTo m zs v b)
    (hv : |v| ≤ f.maxFin) : f.Finite b := by
  have := abs_le.1 hv
  rcases RoundsTo.cases f h with h | ⟨_, h⟩ | ⟨_, h⟩
  · exact h
  · linarith [this.2]
  · linarith [this.1]

theorem finite_maxFin (s : Bool) : f.Finite (f.pack s (f.infMag - 1)) ∧
    f.val (f.pack s (f.infMag - 1)) = sg s * f.maxFin := by
  have h := f.infMag_pos
  have h2 : 0 < 2 ^ (f.F + 1) := by positivity
  refine ⟨f.finite_pack s (by omega), ?_⟩
  rw [val_pack f s (by have := f.infMag_lt; omega), maxFin_eq]

/-- Rounding is monotone. -/
theorem RoundsTo.mono {f : Fmt} {m : Mode} {zs zs' : Bool} {v w : ℝ} {b c : ℕ} (hb : f.RoundsTo m zs v b)
    (hc : f.RoundsTo m zs' w c) (h : v ≤ w) : f.xval b ≤ f.xval c := by
  rcases eq_or_lt_of_le h with rfl | hlt
  · -- same value
    rcases RoundsTo.cases f hb with h1 | ⟨h1, h2⟩ | ⟨h1, h2⟩
    · by_cases hv0 : v = 0
      · have e1 := RoundsTo.exact f (f.finite_zero false) (by rw [f.val_zero, hv0]) hb
        have e2 := RoundsTo.exact f (f.finite_zero false) (by rw [f.val_zero, hv0]) hc
        rw [f.xval_of_finite e1.1, f.xval_of_finite e2.1, e1.2, e2.2]
      · have : f.RoundsTo m zs v c := ⟨hc.valid, hc.value, by rw [hc.sign]; simp [hv0]⟩
        rw [RoundsTo.unique f hb this]
    · have hv0 : v ≠ 0 := by have := f.maxFin_pos; intro h; linarith
      have : f.RoundsTo m zs v c := ⟨hc.valid, hc.value, by rw [hc.sign]; simp [hv0]⟩
      rw [RoundsTo.unique f hb this]
    · rw [h1, xval_inf]; simp
  have hmf := f.maxFin_pos
  rcases RoundsTo.cases f hb with h1 | ⟨h1, h2⟩ | ⟨h1, h2⟩
  · rcases RoundsTo.cases f hc with g1 | ⟨g1, g2⟩ | ⟨g1, g2⟩
    · rw [f.xval_of_finite h1, f.xval_of_finite g1, EReal.coe_le_coe_iff]
      by_contra hh
      push Not at hh
      -- c < b: both candidates for each other
      rcases le_total (f.val b) v with hbv | hbv
      · have := hc.ge_of h1 (by linarith)
        rw [f.xval_of_finite h1, f.xval_of_finite g1, EReal.coe_le_coe_iff] at this
        linarith
      · rcases le_total w (f.val c) with hcw | hcw
        · have := hb.le_of g1 (by linarith)
          rw [f.xval_of_finite h1, f.xval_of_finite g1, EReal.coe_le_coe_iff] at this
          linarith
        · -- v ≤ b, c ≤ w, c < b
          by_cases hvc : v ≤ f.val c
          · have := hb.le_of g1 hvc
            rw [f.xval_of_finite h1, f.xval_of_finite g1, EReal.coe_le_coe_iff] at this
            linarith
          by_cases hwb : f.val b ≤ w
          · have := hc.ge_of h1 hwb
            rw [f.xval_of_finite h1, f.xval_of_finite g1, EReal.coe_le_coe_iff] at this
            linarith
          push Not at hvc hwb
          have hbV := hb.value
          have hcV := hc.value
          have hnm : m = .nearest := by
            cases m
            · rfl
            · exfalso
              simp only [RoundValue] at hbV hcV
              split at hbV
              · linarith [hbV.le]
              · split at hcV
                · have q := hbV.least (f.zero false) (f.finite_zero _) (by rw [f.val_zero]; linarith)
                  have q2 := hcV.greatest (f.zero false) (f.finite_zero _) (by rw [f.val_zero]; linarith)
                  rw [f.val_zero] at q q2; linarith
                · linarith [hcV.ge]
            · exfalso
              simp only [RoundValue] at hbV
              split at hbV
              · rw [finite_iff, hbV] at h1
                have := (f.isInf_iff _).1 (f.isInf_inf true)
                omega
              · linarith [hbV.le]
            · exfalso
              simp only [RoundValue] at hcV
              split at hcV
              · rw [finite_iff, hcV] at g1
                have := (f.isInf_iff _).1 (f.isInf_inf false)
                omega
              · linarith [hcV.ge]
          subst hnm
          have nofin : ∀ s, ¬ f.Finite (f.inf s) := fun s hh => by
            have := (f.isInf_iff _).1 (f.isInf_inf s)
            rw [finite_iff] at hh; omega
          simp only [RoundValue] at hbV hcV
          split at hbV
          · exact nofin _ (hbV ▸ h1)
          split at hbV
          · exact nofin _ (hbV ▸ h1)
          split at hcV
          · exact nofin _ (hcV ▸ g1)
          split at hcV
          · exact nofin _ (hcV ▸ g1)
          have b1 := hbV.best c g1
          have b2 := hcV.best b h1
          rw [abs_of_nonneg (by linarith), abs_of_nonpos (by linarith)] at b1
          rw [abs_of_nonpos (by linarith), abs_of_nonneg (by linarith)] at b2
          linarith
    · rw [g1, xval_inf]; simp
    · have hm := (f.finite_maxFin true)
      have hle : v ≤ f.val (f.pack true (f.infMag - 1)) := by rw [hm.2, sg_true]; linarith
      -- v < w < -maxFin and b finite: c = -inf impossible unless rounding of w overflowed; b ≤ -maxFin
      have hcV := hc.value
      have hbV := hb.value
      have nofin : ¬ f.Finite (f.inf true) := fun hh => by
        have := (f.isInf_iff _).1 (f.isInf_inf true)
        rw [finite_iff] at hh; omega
      exfalso
      cases m <;> simp only [RoundValue] at hbV hcV
      · split at hcV
        · rw [g1] at hcV
          have : f.sgn (f.inf true) = f.sgn (f.inf false) := by rw [hcV]
          rw [sgn_inf, sgn_inf] at this; cases this
        split at hcV
        · split at hbV
          · have := f.maxFin_lt_threshold; linarith
          split at hbV
          · exact nofin (hbV ▸ h1)
          · linarith
        · exact nofin (g1 ▸ hcV.finite)
      · split at hcV
        · exact nofin (g1 ▸ hcV.finite)
        · exact nofin (g1 ▸ hcV.finite)
      · split at hbV
        · exact nofin (hbV ▸ h1)
        · linarith
      · split at hcV
        · rw [g1] at hcV
          have : f.sgn (f.inf true) = f.sgn (f.inf false) := by rw [hcV]
          rw [sgn_inf, sgn_inf] at this; cases this
        · exact nofin (g1 ▸ hcV.finite)
  · -- b = +inf
    rcases RoundsTo.cases f hc with g1 | ⟨g1, g2⟩ | ⟨g1, g2⟩
    · exfalso
      have hcV := hc.value
      have hbV := hb.value
      have nofin : ¬ f.Finite (f.inf false) := fun hh => by
        have := (f.isInf_iff _).1 (f.isInf_inf false)
        rw [finite_iff] at hh; omega
      cases m <;> simp only [RoundValue] at hbV hcV
      · split at hbV
        · split at hcV
          · exact nofin (hcV ▸ g1)
          · linarith
        split at hbV
        · rw [h1] at hbV
          have : f.sgn (f.inf true) = f.sgn (f.inf false) := by rw [hbV]
          rw [sgn_inf, sgn_inf] at this; cases this
        · exact nofin (h1 ▸ hbV.finite)
      · split at hbV
        · exact nofin (h1 ▸ hbV.finite)
        · exact nofin (h1 ▸ hbV.finite)
      · split at hbV
        · rw [h1] at hbV
          have : f.sgn (f.inf true) = f.sgn (f.inf false) := by rw [hbV]
          rw [sgn_inf, sgn_inf] at this; cases this
        · exact nofin (h1 ▸ hbV.finite)
      · split at hcV
        · exact nofin (hcV ▸ g1)
        · linarith
    · rw [g1, h1]
    · linarith
  · rw [h1, xval_inf]; simp

end Fmt
end Verif
