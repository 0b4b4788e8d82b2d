import Verif.Lemmas.Exact

/-!
# Error of a correctly rounded operation
-/

namespace Verif
open Fmt
variable (f : Fmt)

/-- A value between two finite format values rounds to a finite value between them. -/
theorem RoundsTo.between {f : Fmt} {m : Mode} {zs : Bool} {v : ℝ} {b lo hi : ℕ} (h : f.RoundsTo m zs v b) (hlo : f.Finite lo) (hhi : f.Finite hi)
    (h1 : f.val lo ≤ v) (h2 : v ≤ f.val hi) : f.Finite b ∧ f.val lo ≤ f.val b ∧ f.val b ≤ f.val hi := by
  have hf : f.Finite b := by
    apply RoundsTo.finite_of_le f h
    have := abs_le.1 (f.abs_val_le hlo)
    have := abs_le.1 (f.abs_val_le hhi)
    rw [abs_le]; constructor <;> linarith
  have a := RoundsTo.ge_of h hlo h1
  have b := RoundsTo.le_of h hhi h2
  rw [f.xval_of_finite hf, f.xval_of_finite hlo, EReal.coe_le_coe_iff] at a
  rw [f.xval_of_finite hf, f.xval_of_finite hhi, EReal.coe_le_coe_iff] at b
  exact ⟨hf, a, b⟩

/-- the unit of `v`: the larger of `2^-F·|v|` and the least subnormal; an upper bound of the gap between neighbours around `v` -/
noncomputable def Fmt.gapBound (v : ℝ) : ℝ := max ((2 : ℝ) ^ (-(f.F : ℤ)) * |v|) f.minSub

/-- Either `v` is a format value or it lies between two finite neighbours at most `gapBound v` apart. -/
theorem exists_neighbours {v : ℝ} (hv : |v| ≤ f.maxFin) :
    (∃ c, f.Finite c ∧ f.val c = v) ∨ ∃ lo hi, f.Finite lo ∧ f.Finite hi ∧ f.val lo ≤ v ∧ v ≤ f.val hi ∧ f.val hi - f.val lo ≤ f.gapBound v := by
  obtain ⟨s, t, ht, hvt, -⟩ := f.exists_decomp false v
  have hm := f.minSub_pos
  have habs : |v| = t * f.minSub := by rw [hvt, abs_mul, abs_sg, one_mul, abs_of_nonneg (by positivity)]
  have hfl := f.isFloor_floorIdx ht
  generalize f.floorIdx ⌊t⌋₊ = n at hfl
  have hu1 := (IsFloor.le_iff f hfl (j := n)).2 le_rfl
  have hu2 : t < f.umag (n + 1) := by
    by_contra h; push Not at h; have := (IsFloor.le_iff f hfl).1 h; omega
  have hmax : t ≤ f.umag (f.infMag - 1) := by
    rw [habs, f.maxFin_eq] at hv; exact le_of_mul_le_mul_right hv hm
  have hI := f.infMag_pos
  have hp : 0 < 2 ^ (f.F + 1) := by positivity
  have hn : n ≤ f.infMag - 1 := by
    have : (f.umag n : ℝ) ≤ f.umag (f.infMag - 1) := le_trans hu1 hmax
    exact f.umag_le_iff.1 (by exact_mod_cast this)
  have hlt := f.infMag_lt
  rcases Nat.lt_or_ge (n + 1) f.infMag with hn1 | hn1
  · right
    have v1 := f.val_pack s (n := n) (by omega)
    have v2 := f.val_pack s (n := n + 1) (by omega)
    have hgap : ((f.umag (n + 1) : ℝ) - f.umag n) * f.minSub ≤ f.gapBound v := by
      unfold gapBound
      rw [f.umag_succ, habs]; push_cast; rw [add_sub_cancel_left]
      by_cases hk : f.gk n = 0
      · rw [hk, pow_zero, one_mul]; exact le_max_right _ _
      · refine le_trans ?_ (le_max_left _ _)
        rw [← mul_assoc]
        apply mul_le_mul_of_nonneg_right _ hm.le
        have hg := f.gs_ge n hk
        have hg' : (2 : ℝ) ^ f.F * 2 ^ f.gk n ≤ f.umag n := by
          rw [f.umag_eq_gs]; push_cast
          apply mul_le_mul_of_nonneg_right _ (by positivity); exact_mod_cast hg
        rw [zpow_neg, zpow_natCast, inv_mul_eq_div, le_div_iff₀ (by positivity)]
        linarith
    cases s
    · refine ⟨f.pack false n, f.pack false (n + 1), f.finite_pack _ (by omega), f.finite_pack _ hn1, ?_, ?_, ?_⟩
      all_goals simp only [v1, v2, sg_false, one_mul] at *
      · rw [hvt]; nlinarith
      · rw [hvt]; nlinarith
      · linarith
    · refine ⟨f.pack true (n + 1), f.pack true n, f.finite_pack _ hn1, f.finite_pack _ (by omega), ?_, ?_, ?_⟩
      all_goals simp only [v1, v2, sg_true, neg_one_mul] at *
      · rw [hvt]; nlinarith
      · rw [hvt]; nlinarith
      · linarith
  · left
    have he : n = f.infMag - 1 := by omega
    refine ⟨f.pack s n, f.finite_pack _ (by omega), ?_⟩
    rw [f.val_pack s (by omega), hvt]
    rw [← he] at hmax
    rw [le_antisymm hmax hu1]

/-- In every rounding mode the error is at most one unit. -/
theorem RoundsTo.err {f : Fmt} {m : Mode} {zs : Bool} {v : ℝ} {b : ℕ} (h : f.RoundsTo m zs v b) (hv : |v| ≤ f.maxFin) :
    |f.val b - v| ≤ f.gapBound v := by
  have h0 : 0 ≤ f.gapBound v := le_trans f.minSub_pos.le (le_max_right _ _)
  rcases exists_neighbours f hv with ⟨c, hc, rfl⟩ | ⟨lo, hi, h1, h2, h3, h4, h5⟩
  · rw [(RoundsTo.exact f hc rfl h).2]; simpa using h0
  · obtain ⟨-, h6, h7⟩ := RoundsTo.between h h1 h2 h3 h4
    rw [abs_le]; constructor <;> linarith

/-- Rounding to nearest: at most half a unit. -/
theorem RoundsTo.err_nearest {f : Fmt} {zs : Bool} {v : ℝ} {b : ℕ} (h : f.RoundsTo .nearest zs v b) (hv : |v| ≤ f.maxFin) :
    |f.val b - v| ≤ f.gapBound v / 2 := by
  have h0 : 0 ≤ f.gapBound v := le_trans f.minSub_pos.le (le_max_right _ _)
  rcases exists_neighbours f hv with ⟨c, hc, rfl⟩ | ⟨lo, hi, h1, h2, h3, h4, h5⟩
  · rw [(RoundsTo.exact f hc rfl h).2]; simp; linarith
  · have hth := f.maxFin_lt_threshold
    have hv' := abs_le.1 hv
    have hn := h.value
    unfold RoundValue at hn
    simp only at hn
    rw [if_neg (by linarith), if_neg (by linarith)] at hn
    have a := hn.best lo h1
    have b := hn.best hi h2
    rw [abs_of_nonpos (by linarith : f.val lo - v ≤ 0)] at a
    rw [abs_of_nonneg (by linarith : 0 ≤ f.val hi - v)] at b
    linarith

end Verif
