import Verif.Lemmas.Ldexp

/-!
# `scalbn`: up to three multiplications, one rounding
-/

namespace Verif
open Fmt
namespace CC
variable (f : Fmt)

theorem pow2Lit_spec {e : ℕ} (h1 : 1 ≤ e) (h2 : e ≤ 2 * f.bias) :
    f.Finite (pow2Lit f e) ∧ f.val (pow2Lit f e) = (2 : ℝ) ^ ((e : ℤ) - f.bias) ∧ f.sgn (pow2Lit f e) = false := by
  obtain ⟨a, b, c⟩ := f.pow2_val false h1 h2
  exact ⟨a, by rw [pow2Lit, b, sg_false, one_mul], c⟩

theorem hmul_pow2 (m : Mode) {x e : ℕ} (hx : f.Finite x) (h1 : 1 ≤ e) (h2 : e ≤ 2 * f.bias) :
    f.RoundsTo m (f.sgn x) (f.val x * 2 ^ ((e : ℤ) - f.bias)) (f.hmul m x (pow2Lit f e)) := by
  obtain ⟨a, b, c⟩ := pow2Lit_spec f h1 h2
  have := f.hmul_spec m hx a
  rwa [b, c, Bool.xor_false] at this

theorem hmul_pow2_exact (m : Mode) {x e : ℕ} (hx : f.Finite x) (h1 : 1 ≤ e) (h2 : e ≤ 2 * f.bias)
    (hlo : f.bias ≤ e ∨ f.minNormal ≤ |f.val x * 2 ^ ((e : ℤ) - f.bias)|)
    (hhi : |f.val x * 2 ^ ((e : ℤ) - f.bias)| < (2 : ℝ) ^ ((f.bias : ℤ) + 1)) :
    f.Finite (f.hmul m x (pow2Lit f e)) ∧ f.val (f.hmul m x (pow2Lit f e)) = f.val x * 2 ^ ((e : ℤ) - f.bias) ∧
      f.sgn (f.hmul m x (pow2Lit f e)) = f.sgn x := by
  obtain ⟨b, hb, hv, hs⟩ := f.scale_exact (x := x) (k := (e : ℤ) - f.bias) (hlo.imp (by omega) id) hhi
  have h := hmul_pow2 f m hx h1 h2
  rw [← hv] at h
  have := RoundsTo.exact_eq f hb h (fun _ => hs)
  rw [this]; exact ⟨hb, hv, hs⟩

/-- state of an upward chain: exact so far, or overflowed -/
def UpState (m : Mode) (s : Bool) (w : ℝ) (t : ℕ) : Prop :=
  (f.Finite t ∧ f.val t = w ∧ f.sgn t = s) ∨
    ((2 : ℝ) ^ ((f.bias : ℤ) + 1) ≤ |w| ∧ decide (w < 0) = s ∧ t = f.ovf m s)

theorem ovf_mul (m : Mode) (s : Bool) {e : ℕ} (h1 : f.bias < e) (h2 : e ≤ 2 * f.bias) :
    f.hmul m (f.ovf m s) (pow2Lit f e) = f.ovf m s := by
  have hb1 := f.bias_pos
  by_cases hk : kind m s = .trunc
  · have ho : f.ovf m s = f.pack s (f.infMag - 1) := by unfold ovf; rw [if_pos hk]
    obtain ⟨hfin, hv⟩ := f.finite_maxFin s
    have hsgn : f.sgn (f.pack s (f.infMag - 1)) = s := f.sgn_pack s (by have := f.infMag_lt; omega)
    rw [ho]
    have hr := hmul_pow2 f m hfin (by omega) h2
    -- the product is huge or equals ... at least twice maxFin ≥ 2^(bias+1)
    have hmf : (2 : ℝ) ^ (f.bias : ℤ) ≤ f.maxFin := by
      unfold maxFin
      have h3 : (2 : ℝ) ^ (-(f.F : ℤ)) ≤ 1 := zpow_le_one_of_nonpos₀ (by norm_num) (by omega)
      have h4 : (0 : ℝ) < (2 : ℝ) ^ (f.bias : ℤ) := zpow_pos (by norm_num) _
      nlinarith
    have hpe : (2 : ℝ) ≤ 2 ^ ((e : ℤ) - f.bias) := by
      calc (2 : ℝ) = 2 ^ (1 : ℤ) := by norm_num
        _ ≤ _ := zpow_le_zpow_right₀ (by norm_num) (by omega)
    have hmp := f.maxFin_pos
    have hne : f.val (f.pack s (f.infMag - 1)) ≠ 0 := by rw [hv]; exact mul_ne_zero (sg_ne_zero _) hmp.ne'
    have hss := sign_scaled f hne ((e : ℤ) - f.bias)
    have := RoundsTo.huge f hr (by
      rw [hv, abs_mul, abs_mul, abs_sg, one_mul, abs_of_pos hmp, abs_of_pos (by linarith), zpow_add_one₀ (by norm_num)]
      exact mul_le_mul hmf hpe (by norm_num) hmp.le)
    rw [this, hss.1, hsgn, ho]
  · have ho : f.ovf m s = f.inf s := by unfold ovf; rw [if_neg hk, inf_eq_pack]
    rw [ho]
    obtain ⟨a, b, c⟩ := pow2Lit_spec f (e := e) (by omega) h2
    have hnan : f.nanB (pow2Lit f e) = false := (f.finite_B a).1
    have hinf := (f.infB_iff (f.valid_inf s)).2 (f.isInf_inf s)
    have hnan2 : f.nanB (f.inf s) = false := by
      rw [inf_eq_pack]; unfold nanB; rw [mag_pack f s f.infMag_lt]; simp
    have hz : f.zeroB (pow2Lit f e) = false := by
      unfold zeroB
      have : f.val (pow2Lit f e) ≠ 0 := by rw [b]; exact zpow_ne_zero _ (by norm_num)
      simpa using fun h => this ((f.val_eq_zero_iff _).2 h)
    unfold hmul
    rw [hnan, hnan2, hinf, hz, f.sgn_inf, c]
    simp

theorem UpState.step {m : Mode} {s : Bool} {w : ℝ} {t e : ℕ} (h : UpState f m s w t) (h1 : f.bias < e) (h2 : e ≤ 2 * f.bias) :
    UpState f m s (w * 2 ^ ((e : ℤ) - f.bias)) (f.hmul m t (pow2Lit f e)) := by
  have hb1 := f.bias_pos
  have hpos : (0 : ℝ) < 2 ^ ((e : ℤ) - f.bias) := zpow_pos (by norm_num) _
  have hge1 : (1 : ℝ) ≤ 2 ^ ((e : ℤ) - f.bias) := one_le_zpow₀ (by norm_num) (by omega)
  rcases h with ⟨a, b, c⟩ | ⟨a, b, c⟩
  · rcases lt_or_ge |w * 2 ^ ((e : ℤ) - f.bias)| ((2 : ℝ) ^ ((f.bias : ℤ) + 1)) with hlt | hge
    · left
      have := hmul_pow2_exact f m a (e := e) (by omega) h2 (Or.inl h1.le) (by rw [b]; exact hlt)
      rw [b, c] at this; exact this
    · right
      have hr := hmul_pow2 f m a (e := e) (by omega) h2
      rw [b] at hr
      have h0 : f.val t ≠ 0 := by
        rw [b]; rintro rfl
        rw [zero_mul, abs_zero] at hge
        have : (0 : ℝ) < (2 : ℝ) ^ ((f.bias : ℤ) + 1) := zpow_pos (by norm_num) _
        linarith
      have hss := (sign_scaled f h0 ((e : ℤ) - f.bias)).1
      rw [b, c] at hss
      refine ⟨hge, hss, ?_⟩
      rw [RoundsTo.huge f hr hge, hss]
  · right
    refine ⟨?_, ?_, ?_⟩
    · rw [abs_mul, abs_of_pos hpos]; nlinarith [abs_nonneg w]
    · rw [← b]; congr 1
      rw [eq_iff_iff]
      constructor
      · intro h; by_contra hc; push Not at hc; nlinarith
      · intro h; nlinarith
    · rw [c, ovf_mul f m s h1 h2]

theorem UpState.roundsTo {m : Mode} {s : Bool} {w : ℝ} {t : ℕ} (h : UpState f m s w t) : f.RoundsTo m s w t := by
  rcases h with ⟨a, b, c⟩ | ⟨a, b, c⟩
  · have := f.roundsTo_self (m := m) a; rwa [b, c] at this
  · have := f.roundsTo_huge (m := m) (zs := s) a; rwa [b, ← c] at this

/-- state of a downward chain: exact so far, or below the normal range with the sign and the non-zeroness that the mode asks for -/
def DownState (m : Mode) (s : Bool) (w : ℝ) (t : ℕ) : Prop :=
  (f.Finite t ∧ f.val t = w ∧ f.sgn t = s) ∨
    (w ≠ 0 ∧ |w| < f.minNormal ∧ decide (w < 0) = s ∧ f.Finite t ∧ f.sgn t = s ∧ |f.val t| ≤ f.minNormal ∧
      (f.val t = 0 → kind m s ≠ .away))

theorem minNormal_data (s : Bool) : f.Finite (f.pack s (2 ^ f.F)) ∧ f.val (f.pack s (2 ^ f.F)) = sg s * f.minNormal := by
  have hlt : 2 ^ f.F < f.infMag := by have := f.infMag_pos; rw [pow_succ] at this; have := f.two_pow_F_pos; omega
  refine ⟨f.finite_pack s hlt, ?_⟩
  rw [val_pack f s (lt_trans hlt f.infMag_lt), minNormal_eq]

theorem minNormal_pos : 0 < f.minNormal := zpow_pos (by norm_num) _

theorem minNormal_lt_huge : f.minNormal < (2 : ℝ) ^ ((f.bias : ℤ) + 1) :=
  zpow_lt_zpow_right₀ (by norm_num) (by have := f.bias_pos; omega)

/-- a result below the least normal number stays at most the least normal number -/
theorem RoundsTo.le_minNormal {m : Mode} {zs : Bool} {v : ℝ} {b : ℕ} (h : f.RoundsTo m zs v b) (hv : |v| ≤ f.minNormal) :
    f.Finite b ∧ |f.val b| ≤ f.minNormal := by
  have hp := minNormal_pos f
  obtain ⟨p1, p2⟩ := minNormal_data f false
  obtain ⟨n1, n2⟩ := minNormal_data f true
  rw [sg_false, one_mul] at p2
  rw [sg_true, neg_one_mul] at n2
  rw [abs_le] at hv
  have hfin : f.Finite b := RoundsTo.finite_of_le f h (le_trans (abs_le.2 hv) (by rw [← p2]; exact le_trans (le_abs_self _) (f.abs_val_le p1)))
  have u := h.le_of p1 (by rw [p2]; exact hv.2)
  have l := h.ge_of n1 (by rw [n2]; exact hv.1)
  rw [f.xval_of_finite hfin, f.xval_of_finite p1, EReal.coe_le_coe_iff, p2] at u
  rw [f.xval_of_finite hfin, f.xval_of_finite n1, EReal.coe_le_coe_iff, n2] at l
  exact ⟨hfin, abs_le.2 ⟨l, u⟩⟩

/-- rounding away from zero does not produce zero -/
theorem RoundsTo.ne_zero_of_away {m : Mode} {zs : Bool} {v : ℝ} {b : ℕ} (h : f.RoundsTo m zs v b) (hv : v ≠ 0)
    (hk : kind m (decide (v < 0)) = .away) (hb : f.Finite b) : f.val b ≠ 0 := by
  intro h0
  have hval := h.value
  cases m
  · simp [kind] at hk
  · simp [kind] at hk
  · have hneg : v < 0 := by
      by_contra hc; simp [kind, hc] at hk
    simp only [RoundValue] at hval
    split at hval
    · rw [hval] at hb; exact hb.2 (f.isInf_inf true).2.1
    · have := hval.le; rw [h0] at this; linarith
  · have hpos : 0 < v := by
      by_contra hc
      have : v < 0 := lt_of_le_of_ne (not_lt.1 hc) hv
      simp [kind, this] at hk
    simp only [RoundValue] at hval
    split at hval
    · rw [hval] at hb; exact hb.2 (f.isInf_inf false).2.1
    · have := hval.ge; rw [h0] at this; linarith

theorem sgn_of_ne {m : Mode} {zs : Bool} {v : ℝ} {b : ℕ} (h : f.RoundsTo m zs v b) (hv : v ≠ 0) : f.sgn b = decide (v < 0) := by
  rw [h.sign, if_neg hv]

theorem DownState.step {m : Mode} {s : Bool} {w : ℝ} {t e : ℕ} (h : DownState f m s w t) (h1 : 1 ≤ e) (h2 : e ≤ f.bias) :
    DownState f m s (w * 2 ^ ((e : ℤ) - f.bias)) (f.hmul m t (pow2Lit f e)) := by
  have hpos : (0 : ℝ) < 2 ^ ((e : ℤ) - f.bias) := zpow_pos (by norm_num) _
  have hle1 : (2 : ℝ) ^ ((e : ℤ) - f.bias) ≤ 1 := zpow_le_one_of_nonpos₀ (by norm_num) (by omega)
  rcases h with ⟨a, b, c⟩ | ⟨a, b, c, d, g, i, j⟩
  · have hr := hmul_pow2 f m a (e := e) h1 (by omega)
    rw [b, c] at hr
    by_cases h0 : w = 0
    · left
      rw [h0, zero_mul] at hr ⊢
      have hz := RoundsTo.exact f (f.finite_zero s) (f.val_zero s) hr
      exact ⟨hz.1, hz.2, by rw [hr.sign, if_pos rfl]⟩
    have h0t : f.val t ≠ 0 := by rw [b]; exact h0
    have hss := sign_scaled f h0t ((e : ℤ) - f.bias)
    rw [b, c] at hss
    rcases lt_or_ge |w * 2 ^ ((e : ℤ) - f.bias)| f.minNormal with hlt | hge
    · right
      have hmn := RoundsTo.le_minNormal f hr hlt.le
      refine ⟨hss.2, hlt, hss.1, hmn.1, by rw [sgn_of_ne f hr hss.2, hss.1], hmn.2, ?_⟩
      intro hz hk
      exact RoundsTo.ne_zero_of_away f hr hss.2 (by rw [hss.1]; exact hk) hmn.1 hz
    · left
      have hhi : |w * 2 ^ ((e : ℤ) - f.bias)| < (2 : ℝ) ^ ((f.bias : ℤ) + 1) := by
        rw [abs_mul, abs_of_pos hpos]
        have := f.abs_val_lt_huge a
        rw [b] at this
        nlinarith [abs_nonneg w]
      have := hmul_pow2_exact f m a (e := e) h1 (by omega) (Or.inr (by rw [b]; exact hge)) (by rw [b]; exact hhi)
      rw [b, c] at this; exact this
  · right
    have hr := hmul_pow2 f m d (e := e) h1 (by omega)
    rw [g] at hr
    have hmn := RoundsTo.le_minNormal f hr (by rw [abs_mul, abs_of_pos hpos]; nlinarith [abs_nonneg (f.val t)])
    refine ⟨mul_ne_zero a hpos.ne', ?_, ?_, hmn.1, ?_, hmn.2, ?_⟩
    · rw [abs_mul, abs_of_pos hpos]; nlinarith [abs_nonneg w]
    · rw [← c]; congr 1; rw [eq_iff_iff]
      constructor
      · intro h; by_contra hc; push Not at hc; nlinarith
      · intro h; nlinarith
    · by_cases h0 : f.val t = 0
      · rw [hr.sign, h0, zero_mul, if_pos rfl]
      · have hss := sign_scaled f h0 ((e : ℤ) - f.bias)
        rw [sgn_of_ne f hr hss.2, hss.1, g]
    · intro hz hk
      by_cases h0 : f.val t = 0
      · exact j h0 hk
      · have hss := sign_scaled f h0 ((e : ℤ) - f.bias)
        rw [g] at hss
        exact RoundsTo.ne_zero_of_away f hr hss.2 (by rw [hss.1]; exact hk) hmn.1 hz

/-- last multiplication of a downward chain, by at most `2^-(F+2)` -/
theorem DownState.last {m : Mode} {s : Bool} {w : ℝ} {t e : ℕ} (h : DownState f m s w t) (h1 : 1 ≤ e)
    (h2 : e + (f.F + 2) ≤ f.bias) : f.RoundsTo m s (w * 2 ^ ((e : ℤ) - f.bias)) (f.hmul m t (pow2Lit f e)) := by
  have hpos : (0 : ℝ) < 2 ^ ((e : ℤ) - f.bias) := zpow_pos (by norm_num) _
  rcases h with ⟨a, b, c⟩ | ⟨a, b, c, d, g, i, j⟩
  · have hr := hmul_pow2 f m a (e := e) h1 (by omega)
    rw [b, c] at hr; exact hr
  · have hr := hmul_pow2 f m d (e := e) h1 (by omega)
    rw [g] at hr
    have hsm : ∀ z : ℝ, |z| ≤ f.minNormal → |z * 2 ^ ((e : ℤ) - f.bias)| < f.minSub / 2 := by
      intro z hz
      rw [abs_mul, abs_of_pos hpos]
      calc |z| * 2 ^ ((e : ℤ) - f.bias) ≤ f.minNormal * 2 ^ ((e : ℤ) - f.bias) := mul_le_mul_of_nonneg_right hz hpos.le
        _ = (2 : ℝ) ^ ((1 - (f.bias : ℤ)) + ((e : ℤ) - f.bias)) := by unfold minNormal; rw [← zpow_add₀ (by norm_num)]
        _ < (2 : ℝ) ^ ((1 - (f.bias : ℤ) - f.F) - 1) := zpow_lt_zpow_right₀ (by norm_num) (by omega)
        _ = f.minSub / 2 := by unfold minSub; rw [zpow_sub_one₀ (by norm_num)]; ring
    have hw0 : w * 2 ^ ((e : ℤ) - f.bias) ≠ 0 := mul_ne_zero a hpos.ne'
    have hws : decide (w * 2 ^ ((e : ℤ) - f.bias) < 0) = s := by
      rw [← c]; congr 1; rw [eq_iff_iff]
      constructor
      · intro h; by_contra hc; push Not at hc; nlinarith
      · intro h; nlinarith
    have ht := f.roundsTo_tiny (m := m) (zs := s) hw0 (hsm w b.le)
    rw [hws] at ht
    have : f.hmul m t (pow2Lit f e) = f.udf m s := by
      by_cases h0 : f.val t = 0
      · have hk := j h0
        have hz : f.hmul m t (pow2Lit f e) = f.zero s := by
          rw [h0, zero_mul] at hr
          have := RoundsTo.exact f (f.finite_zero s) (f.val_zero s) hr
          exact f.eq_of_val_eq hr.valid (f.valid_zero s) (by rw [this.2, f.val_zero]) (by rw [hr.sign, if_pos rfl, f.sgn_zero])
        rw [hz]; unfold udf; rw [if_neg hk, zero_eq_pack]
      · have hss := sign_scaled f h0 ((e : ℤ) - f.bias)
        rw [g] at hss
        rw [RoundsTo.tiny f hr hss.2 (hsm _ i), hss.1]
    rw [this]; exact ht

/-- two values that underflow totally round alike -/
theorem RoundsTo.tiny_congr {m : Mode} {zs : Bool} {v w : ℝ} {b : ℕ} (h : f.RoundsTo m zs v b) (hv0 : v ≠ 0) (hw0 : w ≠ 0)
    (hv : |v| < f.minSub / 2) (hw : |w| < f.minSub / 2) (hs : decide (v < 0) = decide (w < 0)) : f.RoundsTo m zs w b := by
  rw [RoundsTo.tiny f h hv0 hv, hs]; exact f.roundsTo_tiny hw0 hw

theorem RoundsTo.huge_congr {m : Mode} {zs : Bool} {v w : ℝ} {b : ℕ} (h : f.RoundsTo m zs v b)
    (hv : (2 : ℝ) ^ ((f.bias : ℤ) + 1) ≤ |v|) (hw : (2 : ℝ) ^ ((f.bias : ℤ) + 1) ≤ |w|) (hs : decide (v < 0) = decide (w < 0)) :
    f.RoundsTo m zs w b := by
  rw [RoundsTo.huge f h hv, hs]; exact f.roundsTo_huge hw

theorem scalbn_finite (hb : 3 * f.F + 6 ≤ f.bias) (m : Mode) {x : ℕ} (hx : f.Finite x) (n : ℤ) :
    f.RoundsTo m (f.sgn x) (f.val x * 2 ^ n) (scalbn f m x n) := by
  have lit : ∀ e : ℕ, e <<< f.F = pow2Lit f e := by
    intro e; unfold pow2Lit; rw [pack_false, Nat.shiftLeft_eq]
  have e2b : ((2 * f.bias : ℕ) : ℤ) - f.bias = f.bias := by push_cast; ring
  have eF : ((f.F + 2 : ℕ) : ℤ) - f.bias = f.F + 2 - f.bias := by push_cast; ring
  unfold scalbn
  simp only
  rw [lit]
  by_cases h1 : n > f.bias
  · simp only [if_pos h1]
    have u0 : UpState f m (f.sgn x) (f.val x) x := Or.inl ⟨hx, rfl, rfl⟩
    have u1 := UpState.step f u0 (e := 2 * f.bias) (by omega) le_rfl
    rw [e2b] at u1
    by_cases h2 : n - f.bias > f.bias
    · simp only [if_pos h2]
      have u2 := UpState.step f u1 (e := 2 * f.bias) (by omega) le_rfl
      rw [e2b] at u2
      by_cases h3 : n - f.bias - f.bias ≤ f.bias
      · rw [min_eq_left h3]
        have u3 := UpState.step f u2 (e := ((f.bias : ℤ) + (n - f.bias - f.bias)).toNat) (by omega) (by omega)
        have e3 : ((((f.bias : ℤ) + (n - f.bias - f.bias)).toNat : ℕ) : ℤ) - f.bias = n - f.bias - f.bias := by omega
        rw [e3, mul_assoc, mul_assoc, ← zpow_add₀ (by norm_num), ← zpow_add₀ (by norm_num)] at u3
        have e4 : (f.bias : ℤ) + ((f.bias : ℤ) + (n - f.bias - f.bias)) = n := by ring
        rw [e4] at u3
        exact UpState.roundsTo f u3
      · rw [min_eq_right (by omega)]
        have u3 := UpState.step f u2 (e := ((f.bias : ℤ) + f.bias).toNat) (by omega) (by omega)
        have e3 : ((((f.bias : ℤ) + f.bias).toNat : ℕ) : ℤ) - f.bias = f.bias := by omega
        rw [e3, mul_assoc, mul_assoc, ← zpow_add₀ (by norm_num), ← zpow_add₀ (by norm_num)] at u3
        have hR := UpState.roundsTo f u3
        by_cases h0 : f.val x = 0
        · rw [h0, zero_mul] at hR ⊢; exact hR
        have hms := finite_sub_huge f h0
        have hbig : ∀ k : ℤ, 3 * (f.bias : ℤ) ≤ k → (2 : ℝ) ^ ((f.bias : ℤ) + 1) ≤ |f.val x * 2 ^ k| := by
          intro k hk
          have hpn : (0 : ℝ) < 2 ^ k := zpow_pos (by norm_num) _
          rw [abs_mul, abs_of_pos hpn]
          calc (2 : ℝ) ^ ((f.bias : ℤ) + 1) ≤ (2 : ℝ) ^ (k + (1 - (f.bias : ℤ) - f.F)) := zpow_le_zpow_right₀ (by norm_num) (by omega)
            _ = f.minSub * 2 ^ k := by rw [← minSub_zpow, mul_comm]
            _ ≤ _ := mul_le_mul_of_nonneg_right hms hpn.le
        exact RoundsTo.huge_congr f hR (hbig _ (by omega)) (hbig _ (by omega))
          (by rw [(sign_scaled f h0 _).1, (sign_scaled f h0 _).1])
    · simp only [if_neg h2]
      have u3 := UpState.step f u1 (e := ((f.bias : ℤ) + (n - f.bias)).toNat) (by omega) (by omega)
      have e3 : ((((f.bias : ℤ) + (n - f.bias)).toNat : ℕ) : ℤ) - f.bias = n - f.bias := by omega
      rw [e3, mul_assoc, ← zpow_add₀ (by norm_num)] at u3
      have e4 : (f.bias : ℤ) + (n - f.bias) = n := by ring
      rw [e4] at u3
      have := UpState.roundsTo f u3
      rw [e4]; exact this
  · simp only [if_neg h1]
    by_cases h2 : n < 1 - f.bias
    · simp only [if_pos h2]
      have u0 : DownState f m (f.sgn x) (f.val x) x := Or.inl ⟨hx, rfl, rfl⟩
      have u1 := DownState.step f u0 (e := f.F + 2) (by omega) (by omega)
      rw [eF] at u1
      by_cases h3 : n + (f.bias - 1 - (f.F + 1)) < 1 - f.bias
      · simp only [if_pos h3]
        have u2 := DownState.step f u1 (e := f.F + 2) (by omega) (by omega)
        rw [eF] at u2
        by_cases h4 : 1 - (f.bias : ℤ) ≤ n + (f.bias - 1 - (f.F + 1)) + (f.bias - 1 - (f.F + 1))
        · rw [max_eq_left h4]
          have u3 := DownState.last f u2 (e := ((f.bias : ℤ) + (n + (f.bias - 1 - (f.F + 1)) + (f.bias - 1 - (f.F + 1)))).toNat)
            (by omega) (by omega)
          have e3 : ((((f.bias : ℤ) + (n + (f.bias - 1 - (f.F + 1)) + (f.bias - 1 - (f.F + 1)))).toNat : ℕ) : ℤ) - f.bias =
            (n + (f.bias - 1 - (f.F + 1)) + (f.bias - 1 - (f.F + 1))) := by omega
          rw [e3, mul_assoc, mul_assoc, ← zpow_add₀ (by norm_num), ← zpow_add₀ (by norm_num)] at u3
          have e4 : (f.F : ℤ) + 2 - f.bias + ((f.F : ℤ) + 2 - f.bias + (n + (f.bias - 1 - (f.F + 1)) + (f.bias - 1 - (f.F + 1)))) = n := by ring
          rw [e4] at u3
          exact u3
        · rw [max_eq_right (by omega)]
          have u3 := DownState.last f u2 (e := ((f.bias : ℤ) + (1 - f.bias)).toNat) (by omega) (by omega)
          have e3 : ((((f.bias : ℤ) + (1 - f.bias)).toNat : ℕ) : ℤ) - f.bias = 1 - f.bias := by omega
          rw [e3, mul_assoc, mul_assoc, ← zpow_add₀ (by norm_num), ← zpow_add₀ (by norm_num)] at u3
          by_cases h0 : f.val x = 0
          · rw [h0, zero_mul] at u3 ⊢; exact u3
          have hsm : ∀ k : ℤ, k ≤ 5 + 2 * (f.F : ℤ) - 3 * f.bias → |f.val x * 2 ^ k| < f.minSub / 2 := by
            intro k hk
            have hpn : (0 : ℝ) < 2 ^ k := zpow_pos (by norm_num) _
            rw [abs_mul, abs_of_pos hpn]
            calc |f.val x| * 2 ^ k < (2 : ℝ) ^ ((f.bias : ℤ) + 1) * 2 ^ k := mul_lt_mul_of_pos_right (f.abs_val_lt_huge hx) hpn
              _ = (2 : ℝ) ^ ((f.bias : ℤ) + 1 + k) := by rw [← zpow_add₀ (by norm_num)]
              _ ≤ (2 : ℝ) ^ ((1 - (f.bias : ℤ) - f.F) - 1) := zpow_le_zpow_right₀ (by norm_num) (by omega)
              _ = f.minSub / 2 := by unfold minSub; rw [zpow_sub_one₀ (by norm_num)]; ring
          exact RoundsTo.tiny_congr f u3 (sign_scaled f h0 _).2 (sign_scaled f h0 _).2 (hsm _ (by omega)) (hsm _ (by omega))
            (by rw [(sign_scaled f h0 _).1, (sign_scaled f h0 _).1])
      · simp only [if_neg h3]
        have u3 := DownState.last f u1 (e := ((f.bias : ℤ) + (n + (f.bias - 1 - (f.F + 1)))).toNat) (by omega) (by omega)
        have e3 : ((((f.bias : ℤ) + (n + (f.bias - 1 - (f.F + 1)))).toNat : ℕ) : ℤ) - f.bias = n + (f.bias - 1 - (f.F + 1)) := by omega
        rw [e3, mul_assoc, ← zpow_add₀ (by norm_num)] at u3
        have e4 : (f.F : ℤ) + 2 - f.bias + (n + (f.bias - 1 - (f.F + 1))) = n := by ring
        rw [e4] at u3
        exact u3
    · simp only [if_neg h2]
      have hr := hmul_pow2 f m hx (e := ((f.bias : ℤ) + n).toNat) (by omega) (by omega)
      have e3 : ((((f.bias : ℤ) + n).toNat : ℕ) : ℤ) - f.bias = n := by omega
      rwa [e3] at hr

end CC
end Verif
