import Verif.Model.Rem
import Verif.Lemmas.Exact
import Verif.Props.Nearest

/-!
# Lemmas for `fmod`, `remainder`, `remquo`
-/

namespace Verif
open Fmt
variable (f : Fmt)

/-- An integer combination of two data not exceeding either in magnitude is a datum (contains Sterbenz' lemma). -/
theorem exact_comb {x y : ℕ} (hx : f.Finite x) (hy : f.Finite y) (a b : ℤ) (h1 : |(a : ℝ) * f.val x + b * f.val y| ≤ |f.val x|)
    (h2 : |(a : ℝ) * f.val x + b * f.val y| ≤ |f.val y|) : ∃ r, f.Finite r ∧ f.val r = a * f.val x + b * f.val y := by
  have hms := f.minSub_pos
  rw [f.val_eq_ival, f.val_eq_ival] at h1 h2 ⊢
  have key : ∀ {x y : ℕ} (hx : f.Finite x) (hle : f.gk (f.mag x) ≤ f.gk (f.mag y)) (a b : ℤ)
      (h1 : |(a : ℝ) * (f.ival x * f.minSub) + b * (f.ival y * f.minSub)| ≤ |f.ival x * f.minSub|),
      ∃ r, f.Finite r ∧ f.val r = (a : ℝ) * (f.ival x * f.minSub) + b * (f.ival y * f.minSub) := by
    intro x y hx hle a b h1
    have ex : ∀ z : ℕ, ∃ c : ℤ, f.ival z = c * 2 ^ f.gk (f.mag z) ∧ c.natAbs = f.gs (f.mag z) := by
      intro z
      unfold ival
      have := f.umag_eq_gs (f.mag z)
      cases f.sgn z
      · exact ⟨f.gs (f.mag z), by rw [this]; push_cast; rfl, by simp⟩
      · exact ⟨-f.gs (f.mag z), by rw [this]; push_cast; simp, by simp⟩
    obtain ⟨cx, hcx, hax⟩ := ex x
    obtain ⟨cy, hcy, -⟩ := ex y
    obtain ⟨d, hd⟩ := Nat.exists_eq_add_of_le hle
    have hz : (a : ℝ) * (f.ival x * f.minSub) + b * (f.ival y * f.minSub) =
        ((a * cx + b * cy * 2 ^ d : ℤ) : ℝ) * 2 ^ f.gk (f.mag x) * f.minSub := by
      rw [hcx, hcy, hd]; push_cast; ring
    have hle2 : ((a * cx + b * cy * 2 ^ d : ℤ)).natAbs ≤ cx.natAbs := by
      rw [hz, hcx, abs_mul, abs_mul, abs_mul] at h1
      push_cast at h1
      rw [abs_mul] at h1
      have h3 := le_of_mul_le_mul_right (le_of_mul_le_mul_right h1 (abs_pos.2 hms.ne')) (abs_pos.2 (by positivity))
      have h4 : |a * cx + b * cy * 2 ^ d| ≤ |cx| := by exact_mod_cast h3
      rwa [Int.abs_eq_natAbs, Int.abs_eq_natAbs, Nat.cast_le] at h4
    rw [hz]
    apply f.exists_exact_int
    · rw [hax] at hle2
      exact le_trans hle2 (f.gs_lt _).le
    · calc _ ≤ f.gs (f.mag x) * 2 ^ f.gk (f.mag x) := Nat.mul_le_mul_right _ (by rw [hax] at hle2; exact hle2)
        _ = f.umag (f.mag x) := (f.umag_eq_gs _).symm
        _ < _ := f.umag_lt_inf hx
  rcases le_total (f.gk (f.mag x)) (f.gk (f.mag y)) with h | h
  · exact key hx h a b h1
  · obtain ⟨r, hr1, hr2⟩ := key hy h b a (by rw [add_comm]; exact h2)
    exact ⟨r, hr1, by rw [hr2, add_comm]⟩

/-- Sterbenz: `y/2 ≤ x ≤ 2y` makes the subtraction exact in every rounding mode. -/
theorem sterbenz (hm : Mode) {x y : ℕ} (hx : f.Finite x) (hy : f.Finite y) (h1 : f.val y ≤ 2 * f.val x) (h2 : f.val x ≤ 2 * f.val y) :
    f.Finite (f.hsub hm x y) ∧ f.val (f.hsub hm x y) = f.val x - f.val y := by
  have hx0 : 0 ≤ f.val x := by linarith
  have hy0 : 0 ≤ f.val y := by linarith
  obtain ⟨r, hr1, hr2⟩ := exact_comb f hx hy 1 (-1)
    (by push_cast; rw [abs_of_nonneg hx0, abs_le]; constructor <;> linarith)
    (by push_cast; rw [abs_of_nonneg hy0, abs_le]; constructor <;> linarith)
  exact RoundsTo.exact f hr1 (by rw [hr2]; push_cast; ring) (f.hsub_spec hm hx hy)

theorem twoPowLit_val {j : ℕ} (hj : j ≤ f.bias) : f.Finite (CC.twoPowLit f j) ∧ f.val (CC.twoPowLit f j) = 2 ^ j ∧ f.sgn (CC.twoPowLit f j) = false := by
  have hb := f.bias_pos
  obtain ⟨h1, h2, h3⟩ := f.pow2_val false (e := f.bias + j) (by omega) (by omega)
  refine ⟨h1, ?_, h3⟩
  unfold CC.twoPowLit
  rw [h2, sg_false, one_mul, show ((f.bias + j : ℕ) : ℤ) - f.bias = j by push_cast; ring, zpow_natCast]

theorem halfLit_val (hb : 2 ≤ f.bias) : f.Finite (CC.halfLit f) ∧ f.val (CC.halfLit f) = 1 / 2 ∧ f.sgn (CC.halfLit f) = false := by
  obtain ⟨h1, h2, h3⟩ := f.pow2_val false (e := f.bias - 1) (by omega) (by omega)
  refine ⟨h1, ?_, h3⟩
  unfold CC.halfLit
  rw [h2, sg_false, one_mul, show ((f.bias - 1 : ℕ) : ℤ) - f.bias = -1 by omega]; norm_num

/-- multiplication by `2^j` is exact below overflow -/
theorem hmul_pow2 (hm : Mode) {j y : ℕ} (hj : j ≤ f.bias) (hy : f.Finite y) (h : |f.val y * 2 ^ j| < (2 : ℝ) ^ ((f.bias : ℤ) + 1)) :
    f.Finite (f.hmul hm (CC.twoPowLit f j) y) ∧ f.val (f.hmul hm (CC.twoPowLit f j) y) = 2 ^ j * f.val y ∧
      f.sgn (f.hmul hm (CC.twoPowLit f j) y) = f.sgn y := by
  obtain ⟨h1, h2, h3⟩ := twoPowLit_val f hj
  have hr := f.hmul_spec hm h1 hy
  rw [h2, h3, Bool.false_xor] at hr
  obtain ⟨b, hb1, hb2, hb3⟩ := f.scale_exact (x := y) (k := (j : ℤ)) (Or.inl (by positivity)) (by rw [zpow_natCast]; exact h)
  rw [zpow_natCast] at hb2
  have := RoundsTo.exact f hb1 (by rw [hb2]; ring) hr
  refine ⟨this.1, this.2, ?_⟩
  have e : f.hmul hm (CC.twoPowLit f j) y = b := by
    rw [mul_comm, ← hb2] at hr
    exact RoundsTo.exact_eq f hb1 hr (fun _ => hb3)
  rw [e, hb3]

/-- the pattern bounds used by `remquo` as bounds on values -/
theorem val_lt_of_mag {y k : ℕ} (h : f.mag y < (k + 1) * 2 ^ f.F) : |f.val y| < (2 : ℝ) ^ ((k : ℤ) + 1 - f.bias) := by
  rw [f.abs_val]
  have hp := f.two_pow_F_pos
  have e : (f.umag ((k + 1) * 2 ^ f.F) : ℝ) * f.minSub = (2 : ℝ) ^ ((k : ℤ) + 1 - f.bias) := by
    have := f.umag_of (k := k) (s := 2 ^ f.F) (by rw [pow_succ]; omega) (Or.inr le_rfl)
    rw [← Nat.succ_mul] at this
    rw [Nat.succ_eq_add_one] at this
    rw [this]; push_cast
    unfold minSub
    rw [← zpow_natCast, ← zpow_natCast, ← zpow_add₀ (by norm_num), ← zpow_add₀ (by norm_num)]
    congr 1; ring
  rw [← e]
  exact mul_lt_mul_of_pos_right (by exact_mod_cast f.umag_lt_iff.2 h) f.minSub_pos

theorem val_ge_of_mag {y k : ℕ} (h : (k + 1) * 2 ^ f.F ≤ f.mag y) : (2 : ℝ) ^ ((k : ℤ) + 1 - f.bias) ≤ |f.val y| := by
  rw [f.abs_val]
  have hp := f.two_pow_F_pos
  have e : (f.umag ((k + 1) * 2 ^ f.F) : ℝ) * f.minSub = (2 : ℝ) ^ ((k : ℤ) + 1 - f.bias) := by
    have := f.umag_of (k := k) (s := 2 ^ f.F) (by rw [pow_succ]; omega) (Or.inr le_rfl)
    rw [← Nat.succ_mul] at this
    rw [Nat.succ_eq_add_one] at this
    rw [this]; push_cast
    unfold minSub
    rw [← zpow_natCast, ← zpow_natCast, ← zpow_add₀ (by norm_num), ← zpow_add₀ (by norm_num)]
    congr 1; ring
  rw [← e]
  exact mul_le_mul_of_nonneg_right (by exact_mod_cast f.umag_le_iff.2 h) f.minSub_pos.le

namespace CC

/-- one conditional subtraction of `2^j y` -/
theorem remquoRed_spec (hm : Mode) {j c y : ℕ} (hj : j ≤ f.bias) (hc : c + 1 = (2 * f.bias - j + 1) * 2 ^ f.F) (hy : f.Finite y)
    (hy0 : 0 < f.val y) {st : ℕ × ℤ} (hx : f.Finite st.1) (hx0 : 0 ≤ f.val st.1) (hx1 : f.val st.1 < 2 ^ (j + 1) * f.val y) :
    let r := remquoRed f hm c j y st
    ∃ a : ℤ, f.Finite r.1 ∧ f.val r.1 = f.val st.1 - a * 2 ^ j * f.val y ∧ r.2 = st.2 + a * 2 ^ j ∧ 0 ≤ f.val r.1 ∧
      f.val r.1 < 2 ^ j * f.val y ∧ 0 ≤ a ∧ a ≤ 1 := by
  intro r
  have hbig := f.abs_val_lt_huge hx
  rw [abs_of_nonneg hx0] at hbig
  have hr : r = remquoRed f hm c j y st := rfl
  clear_value r
  unfold remquoRed at hr
  by_cases hm1 : f.mag y ≤ c
  · have hlt := val_lt_of_mag f (y := y) (k := 2 * f.bias - j) (by omega)
    rw [abs_of_pos hy0] at hlt
    have hs : |f.val y * 2 ^ j| < (2 : ℝ) ^ ((f.bias : ℤ) + 1) := by
      rw [abs_of_pos (by positivity)]
      calc f.val y * 2 ^ j < (2 : ℝ) ^ (((2 * f.bias - j : ℕ) : ℤ) + 1 - f.bias) * 2 ^ j := mul_lt_mul_of_pos_right hlt (by positivity)
        _ = _ := by rw [← zpow_natCast, ← zpow_add₀ (by norm_num)]; congr 1; omega
    obtain ⟨p1, p2, -⟩ := hmul_pow2 f hm hj hy hs
    simp only [hm1, decide_true, Bool.true_and] at hr
    by_cases hge : f.hge st.1 (f.hmul hm (twoPowLit f j) y) = true
    · rw [if_pos hge] at hr
      have hle := (hle_finite f p1 hx).1 hge
      rw [p2] at hle
      obtain ⟨q1, q2⟩ := sterbenz f hm hx p1 (by rw [p2]; linarith) (by rw [p2]; rw [pow_succ] at hx1; linarith)
      rw [hr]
      refine ⟨1, q1, by rw [q2, p2]; push_cast; ring, by push_cast; ring, by simp only; rw [q2, p2]; linarith, ?_, by norm_num, by norm_num⟩
      simp only
      rw [q2, p2]; rw [pow_succ] at hx1; linarith
    · rw [if_neg hge] at hr
      have hlt2 : f.val st.1 < 2 ^ j * f.val y := by
        by_contra hcon
        exact hge ((hle_finite f p1 hx).2 (by rw [p2]; linarith))
      rw [hr]
      exact ⟨0, hx, by push_cast; ring, by push_cast; ring, hx0, hlt2, by norm_num, by norm_num⟩
  · simp only [hm1, decide_false, Bool.false_and, Bool.false_eq_true, if_false] at hr
    rw [hr]
    have hge := val_ge_of_mag f (y := y) (k := 2 * f.bias - j) (by omega)
    rw [abs_of_pos hy0] at hge
    refine ⟨0, hx, by push_cast; ring, by push_cast; ring, hx0, lt_of_lt_of_le hbig ?_, by norm_num, by norm_num⟩
    calc (2 : ℝ) ^ ((f.bias : ℤ) + 1) = 2 ^ j * (2 : ℝ) ^ (((2 * f.bias - j : ℕ) : ℤ) + 1 - f.bias) := by
          rw [← zpow_natCast, ← zpow_add₀ (by norm_num)]; congr 1; omega
      _ ≤ _ := mul_le_mul_of_nonneg_left hge (by positivity)

/-- the comparison of `x` with half of `y` -/
theorem remquoLast_spec (hm : Mode) {cs y : ℕ} (hb : 3 ≤ f.bias) (hcs : cs = 2 * 2 ^ f.F) (hy : f.Finite y) (hy0 : 0 < f.val y) {st : ℕ × ℤ}
    (hx : f.Finite st.1) (hx0 : 0 ≤ f.val st.1) (hx1 : f.val st.1 < 2 * f.val y) :
    let r := remquoLast f hm cs y st
    ∃ a : ℤ, f.Finite r.1 ∧ f.val r.1 = f.val st.1 - a * f.val y ∧ r.2 = st.2 + a ∧ IsRoundHalfEven (f.val st.1 / f.val y) a ∧ 0 ≤ a ∧ a ≤ 2 := by
  intro r
  have hr : r = remquoLast f hm cs y st := rfl
  clear_value r
  -- what the comparisons decide
  have fin : ∀ (P Q : Bool), (P = true ↔ f.val y < 2 * f.val st.1) →
      (f.val y < 2 * f.val st.1 → (Q = true ↔ f.val y ≤ 2 * (f.val st.1 - f.val y))) →
      r = (if P then (if Q then (f.hsub hm (f.hsub hm st.1 y) y, st.2 + 1 + 1) else (f.hsub hm st.1 y, st.2 + 1)) else st) →
      ∃ a : ℤ, f.Finite r.1 ∧ f.val r.1 = f.val st.1 - a * f.val y ∧ r.2 = st.2 + a ∧ IsRoundHalfEven (f.val st.1 / f.val y) a ∧ 0 ≤ a ∧ a ≤ 2 := by
    intro P Q hP hQ hr
    have hdist : ∀ a : ℤ, |(a : ℝ) - f.val st.1 / f.val y| ≤ 1 / 2 ↔ |a * f.val y - f.val st.1| ≤ f.val y / 2 := by
      intro a
      rw [show (a : ℝ) - f.val st.1 / f.val y = (a * f.val y - f.val st.1) / f.val y by field_simp, abs_div, abs_of_pos hy0, div_le_iff₀ hy0]
      constructor <;> intro h <;> linarith
    have hdeq : ∀ a : ℤ, |(a : ℝ) - f.val st.1 / f.val y| = 1 / 2 ↔ |a * f.val y - f.val st.1| = f.val y / 2 := by
      intro a
      rw [show (a : ℝ) - f.val st.1 / f.val y = (a * f.val y - f.val st.1) / f.val y by field_simp, abs_div, abs_of_pos hy0, div_eq_iff hy0.ne']
      constructor <;> intro h <;> linarith
    by_cases h1 : f.val y < 2 * f.val st.1
    · rw [if_pos (hP.2 h1)] at hr
      obtain ⟨s1, s2⟩ := sterbenz f hm hx hy (by linarith) (by linarith)
      by_cases h2 : f.val y ≤ 2 * (f.val st.1 - f.val y)
      · rw [if_pos ((hQ h1).2 h2)] at hr
        obtain ⟨t1, t2⟩ := sterbenz f hm s1 hy (by rw [s2]; linarith) (by rw [s2]; linarith)
        rw [hr]
        refine ⟨2, t1, by simp only; rw [t2, s2]; push_cast; ring, by simp only; ring, ?_, by norm_num, by norm_num⟩
        refine ⟨(hdist 2).2 ?_, fun _ => by decide⟩
        rw [abs_le]; push_cast; constructor <;> linarith
      · rw [if_neg (fun h => h2 ((hQ h1).1 h))] at hr
        rw [hr]
        refine ⟨1, s1, by simp only; rw [s2]; push_cast; ring, rfl, ?_, by norm_num, by norm_num⟩
        push Not at h2
        refine ⟨(hdist 1).2 ?_, fun h => ?_⟩
        · rw [abs_le]; push_cast; constructor <;> linarith
        · exfalso
          have := (hdeq 1).1 h
          push_cast at this
          rcases _root_.abs_eq (by linarith) |>.1 this with h | h <;> linarith
    · rw [if_neg (fun h => h1 (hP.1 h))] at hr
      rw [hr]
      push Not at h1
      refine ⟨0, hx, by push_cast; ring, by simp, ?_, by norm_num, by norm_num⟩
      refine ⟨(hdist 0).2 ?_, fun _ => by decide⟩
      push_cast
      rw [abs_le]; constructor <;> linarith
  unfold remquoLast at hr
  have hylt := f.abs_val_lt_huge hy
  by_cases hsm : f.mag y < cs
  · rw [if_pos hsm] at hr
    have hyl : f.val y < (2 : ℝ) ^ ((2 : ℤ) - f.bias) := by
      have := val_lt_of_mag f (y := y) (k := 1) (by omega)
      rwa [abs_of_pos hy0, show ((1 : ℕ) : ℤ) + 1 - f.bias = 2 - f.bias by push_cast; ring] at this
    -- doubling is exact
    have dbl : ∀ z, f.Finite z → 0 ≤ f.val z → f.val z < 2 * f.val y → f.Finite (f.hadd hm z z) ∧ f.val (f.hadd hm z z) = 2 * f.val z := by
      intro z hz hz0 hz1
      obtain ⟨b, b1, b2, -⟩ := f.scale_exact (x := z) (k := 1) (Or.inl (by norm_num)) (by
        rw [abs_of_nonneg (by rw [zpow_one]; linarith), zpow_one]
        calc f.val z * 2 < 2 ^ ((2 : ℤ) - f.bias) * 4 := by linarith
          _ = (2 : ℝ) ^ ((4 : ℤ) - f.bias) := by
            rw [show (4 : ℝ) = (2 : ℝ) ^ (2 : ℤ) by norm_num, ← zpow_add₀ (by norm_num)]; congr 1; ring
          _ ≤ _ := zpow_le_zpow_right₀ (by norm_num) (by omega))
      have := RoundsTo.exact f b1 (by rw [b2, zpow_one]; ring) (f.hadd_spec hm hz hz)
      exact ⟨this.1, by rw [this.2]; ring⟩
    obtain ⟨d1, d2⟩ := dbl _ hx hx0 hx1
    refine fin (f.hgt (f.hadd hm st.1 st.1) y) (f.hge (f.hadd hm (f.hsub hm st.1 y) (f.hsub hm st.1 y)) y) ?_ ?_ hr
    · rw [show f.hgt (f.hadd hm st.1 st.1) y = f.hlt y (f.hadd hm st.1 st.1) from rfl, hlt_finite f hy d1, d2]
    · intro h1
      obtain ⟨s1, s2⟩ := sterbenz f hm hx hy (by linarith) (by linarith)
      -- the difference may be negative
      have : f.Finite (f.hadd hm (f.hsub hm st.1 y) (f.hsub hm st.1 y)) ∧
          f.val (f.hadd hm (f.hsub hm st.1 y) (f.hsub hm st.1 y)) = 2 * (f.val st.1 - f.val y) := by
        obtain ⟨b, b1, b2, -⟩ := f.scale_exact (x := f.hsub hm st.1 y) (k := 1) (Or.inl (by norm_num)) (by
          rw [zpow_one, s2]
          calc |(f.val st.1 - f.val y) * 2| < 2 ^ ((2 : ℤ) - f.bias) * 4 := by
                rw [abs_lt]; constructor <;> linarith
            _ = (2 : ℝ) ^ ((4 : ℤ) - f.bias) := by
              rw [show (4 : ℝ) = (2 : ℝ) ^ (2 : ℤ) by norm_num, ← zpow_add₀ (by norm_num)]; congr 1; ring
            _ ≤ _ := zpow_le_zpow_right₀ (by norm_num) (by omega))
        have := RoundsTo.exact f b1 (by rw [b2, zpow_one]; ring) (f.hadd_spec hm s1 s1)
        exact ⟨this.1, by rw [this.2, s2]; ring⟩
      rw [show ∀ a b, f.hge a b = f.hle b a from fun _ _ => rfl, hle_finite f hy this.1, this.2]
  · rw [if_neg hsm] at hr
    have hyg := val_ge_of_mag f (y := y) (k := 1) (by omega)
    rw [abs_of_pos hy0] at hyg
    have half : f.Finite (f.hmul hm (halfLit f) y) ∧ f.val (f.hmul hm (halfLit f) y) = f.val y / 2 := by
      obtain ⟨h1, h2, -⟩ := halfLit_val f (by omega)
      have hr := f.hmul_spec hm h1 hy
      rw [h2] at hr
      obtain ⟨b, b1, b2, -⟩ := f.scale_exact (x := y) (k := -1) (Or.inr (by
          rw [zpow_neg_one, abs_of_pos (by positivity)]
          unfold minNormal
          have e : (2 : ℝ) ^ ((1 : ℕ) + 1 - (f.bias : ℤ)) = 2 * (2 : ℝ) ^ (1 - (f.bias : ℤ)) := by
            rw [← zpow_one_add₀ (by norm_num)]; congr 1; push_cast; ring
          rw [e] at hyg
          linarith)) (by
          rw [zpow_neg_one, abs_of_pos (by positivity)]
          rw [abs_of_pos hy0] at hylt; linarith)
      have := RoundsTo.exact f b1 (by rw [b2, zpow_neg_one]; ring) hr
      exact ⟨this.1, by rw [this.2]; ring⟩
    refine fin (f.hgt st.1 (f.hmul hm (halfLit f) y)) (f.hge (f.hsub hm st.1 y) (f.hmul hm (halfLit f) y)) ?_ ?_ hr
    · rw [show ∀ a b, f.hgt a b = f.hlt b a from fun _ _ => rfl, hlt_finite f half.1 hx, half.2]
      constructor <;> intro h <;> linarith
    · intro h1
      obtain ⟨s1, s2⟩ := sterbenz f hm hx hy (by linarith) (by linarith)
      rw [show ∀ a b, f.hge a b = f.hle b a from fun _ _ => rfl, hle_finite f half.1 s1, half.2, s2]
      constructor <;> intro h <;> linarith

end CC
end Verif
