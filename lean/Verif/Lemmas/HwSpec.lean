import Verif.Hw
import Mathlib.Algebra.Order.Floor.Semifield

/-! # The hardware operations meet the IEEE rounding specification -/

namespace Verif
namespace Fmt
variable (f : Fmt)

theorem rndMag_roundMag (k : Kind) {N D : ℕ} (hD : 0 < D) :
    f.RndMag k ((N : ℝ) / D) (f.roundMag k N D) := by
  have hDr : (0 : ℝ) < D := by exact_mod_cast hD
  have hfl : ⌊(N : ℝ) / D⌋₊ = N / D := Nat.floor_div_eq_div N D
  have hf := f.isFloor_floorIdx (t := (N : ℝ) / D) (by positivity)
  rw [hfl] at hf
  refine ⟨_, hf, ?_⟩
  have hs := f.umag_succ (f.floorIdx (N / D))
  generalize hn0 : f.floorIdx (N / D) = n0 at hs hf
  unfold roundMag
  simp only [hn0]
  have hmid : ((f.umag n0 : ℝ) + f.umag (n0 + 1)) = ((2 * f.umag n0 + 2 ^ f.gk n0 : ℕ) : ℝ) := by
    rw [hs]; push_cast; ring
  cases k
  · simp only
    rw [hmid]
    have e : 2 * ((N : ℝ) / D) = ((2 * N : ℕ) : ℝ) / D := by push_cast; ring
    rw [e]
    by_cases h1 : 2 * N < (2 * f.umag n0 + 2 ^ f.gk n0) * D
    · left; rw [if_pos h1]
      exact ⟨by rw [div_lt_iff₀ hDr]; exact_mod_cast h1, rfl⟩
    · rw [if_neg h1]
      by_cases h2 : 2 * N = (2 * f.umag n0 + 2 ^ f.gk n0) * D
      · right; left; rw [if_pos h2]
        refine ⟨by rw [div_eq_iff hDr.ne']; exact_mod_cast h2, rfl⟩
      · right; right; rw [if_neg h2]
        refine ⟨by rw [lt_div_iff₀ hDr]; exact_mod_cast (show (2 * f.umag n0 + 2 ^ f.gk n0) * D < 2 * N by omega), rfl⟩
  · simp only
  · simp only
    have : (N : ℝ) / D = f.umag n0 ↔ N = f.umag n0 * D := by
      rw [div_eq_iff hDr.ne']
      constructor
      · intro h; exact_mod_cast h
      · intro h; exact_mod_cast h
    by_cases h : N = f.umag n0 * D
    · rw [if_pos h, if_pos (this.2 h)]
    · rw [if_neg h, if_neg (fun h' => h (this.1 h'))]

theorem roundsTo_roundQ (m : Mode) (s zs : Bool) {N D : ℕ} (hD : 0 < D) (hz : N = 0 → s = zs) :
    f.RoundsTo m zs (sg s * ((N : ℝ) / D * f.minSub)) (f.roundQ m s N D) := by
  have hDr : (0 : ℝ) < D := by exact_mod_cast hD
  refine f.roundsTo_of_rndMag (by positivity) rfl ?_ (f.rndMag_roundMag _ hD)
  intro h
  rcases div_eq_zero_iff.1 h with h | h
  · exact hz (by exact_mod_cast h)
  · exfalso; linarith

theorem val_eq_ival (x : ℕ) : f.val x = (f.ival x : ℝ) * f.minSub := by
  rw [val_eq]; unfold ival
  cases h : f.sgn x <;> simp

theorem nanB_iff {x : ℕ} (h : f.Valid x) : f.nanB x = true ↔ f.IsNaN x := by
  rw [isNaN_iff]; unfold nanB; simp [h]
theorem infB_iff {x : ℕ} (h : f.Valid x) : f.infB x = true ↔ f.IsInf x := by
  rw [isInf_iff]; unfold infB; simp [h]
theorem finite_B {x : ℕ} (h : f.Finite x) : f.nanB x = false ∧ f.infB x = false := by
  have := ((f.finite_iff x).1 h).2
  unfold nanB infB; simp; omega
theorem finite_of_B {x : ℕ} (hv : f.Valid x) (h1 : f.nanB x = false) (h2 : f.infB x = false) : f.Finite x := by
  rw [finite_iff]; refine ⟨hv, ?_⟩
  unfold nanB at h1; unfold infB at h2
  simp at h1 h2; omega
theorem Finite.valid {f : Fmt} {x : ℕ} (h : f.Finite x) : f.Valid x := h.1

theorem umag_eq_zero {n : ℕ} : f.umag n = 0 ↔ n = 0 := by
  constructor
  · intro h; rw [← f.umag_zero] at h; exact f.umag_inj.1 h
  · rintro rfl; simp

theorem val_eq_zero_iff (x : ℕ) : f.val x = 0 ↔ f.mag x = 0 := by
  rw [val_eq]
  have := f.minSub_pos
  constructor
  · intro h
    rcases mul_eq_zero.1 h with h | h
    · exact absurd h (sg_ne_zero _)
    · rcases mul_eq_zero.1 h with h | h
      · exact f.umag_eq_zero.1 (by exact_mod_cast h)
      · linarith
  · intro h; rw [h]; simp

theorem ival_eq_zero_iff (x : ℕ) : f.ival x = 0 ↔ f.mag x = 0 := by
  rw [← f.umag_eq_zero]; unfold ival; split <;> omega

theorem valid_zero (s : Bool) : f.Valid (f.zero s) := f.valid_pack s (Nat.pow_pos (by decide))
theorem finite_zero (s : Bool) : f.Finite (f.zero s) := by
  have := f.infMag_pos; have : 0 < 2 ^ (f.F + 1) := Nat.pow_pos (by decide)
  exact f.finite_pack s (n := 0) (by omega)
theorem val_zero (s : Bool) : f.val (f.zero s) = 0 := by
  rw [zero_eq_pack, val_pack f s (Nat.pow_pos (by decide))]; simp
theorem sgn_zero (s : Bool) : f.sgn (f.zero s) = s := f.sgn_pack s (Nat.pow_pos (by decide))
theorem valid_inf (s : Bool) : f.Valid (f.inf s) := f.valid_pack s f.infMag_lt
theorem isInf_inf (s : Bool) : f.IsInf (f.inf s) := by
  rw [isInf_iff]; exact ⟨f.valid_inf s, f.mag_pack s f.infMag_lt⟩
theorem sgn_inf (s : Bool) : f.sgn (f.inf s) = s := f.sgn_pack s f.infMag_lt

theorem qnan_mag : f.mag f.qnan = f.qnan ∧ f.infMag < f.qnan := by
  have h := f.infMag_add
  have h2 : 2 ^ f.F = 2 * 2 ^ (f.F - 1) := by
    have := f.hF
    rw [← pow_succ']; congr 1; omega
  have h3 : 0 < 2 ^ (f.F - 1) := Nat.pow_pos (by decide)
  unfold qnan mag
  exact ⟨Nat.mod_eq_of_lt (by omega), by omega⟩
theorem valid_qnan : f.Valid f.qnan := by
  have h := f.qnan_mag.1
  have h2 := f.mag_lt f.qnan
  unfold Valid; rw [two_pow_EF_succ]; omega
theorem isNaN_qnan : f.IsNaN f.qnan := by
  rw [isNaN_iff, f.qnan_mag.1]; exact ⟨f.valid_qnan, f.qnan_mag.2⟩

theorem roundValue_exact {m : Mode} {v : ℝ} {b : ℕ} (hb : f.Finite b) (hv : f.val b = v)
    {r : ℕ} (h : f.RoundValue m v r) : f.Finite r ∧ f.val r = v := by
  have hmax : |v| ≤ f.maxFin := by
    rw [← hv, val_eq, abs_mul, abs_sg, one_mul, maxFin_eq, abs_of_nonneg (by have := f.minSub_pos; positivity)]
    have h1 := ((f.finite_iff b).1 hb).2
    exact mul_le_mul_of_nonneg_right (by exact_mod_cast f.umag_le_iff.2 (by omega)) f.minSub_pos.le
  have hmax' := abs_le.1 hmax
  cases m
  · simp only [RoundValue] at h
    have ht : f.maxFin < (2 : ℝ) ^ (f.bias : ℤ) * (2 - (2 : ℝ) ^ (-(f.F : ℤ) - 1)) := by
      rw [threshold_eq, maxFin_eq]
      have hp := f.infMag_pos; have : 0 < 2 ^ (f.F + 1) := Nat.pow_pos (by decide)
      have h1 : (f.umag (f.infMag - 1) : ℝ) < f.umag f.infMag := by
        exact_mod_cast f.umag_lt_iff.2 (by omega)
      exact mul_lt_mul_of_pos_right (by linarith) f.minSub_pos
    rw [if_neg (by linarith), if_neg (by linarith)] at h
    refine ⟨h.finite, ?_⟩
    have := h.best b hb
    rw [hv, sub_self, abs_zero] at this
    have := abs_nonpos_iff.1 this
    linarith
  · simp only [RoundValue] at h
    split at h
    · exact ⟨h.finite, le_antisymm h.le (by have := h.greatest b hb hv.le; linarith)⟩
    · exact ⟨h.finite, le_antisymm (by have := h.least b hb hv.ge; linarith) h.ge⟩
  · simp only [RoundValue] at h
    rw [if_neg (by linarith)] at h
    exact ⟨h.finite, le_antisymm h.le (by have := h.greatest b hb hv.le; linarith)⟩
  · simp only [RoundValue] at h
    rw [if_neg (by linarith)] at h
    exact ⟨h.finite, le_antisymm (by have := h.least b hb hv.ge; linarith) h.ge⟩

/-- A representable value is its own rounding. -/
theorem RoundsTo.exact {m : Mode} {zs : Bool} {v : ℝ} {b r : ℕ} (hb : f.Finite b) (hv : f.val b = v)
    (h : f.RoundsTo m zs v r) : f.Finite r ∧ f.val r = v :=
  f.roundValue_exact hb hv h.value

/-- A representable non-zero value rounds to its own pattern. -/
theorem RoundsTo.exact_eq {m : Mode} {zs : Bool} {b r : ℕ} (hb : f.Finite b)
    (h : f.RoundsTo m zs (f.val b) r) (hs : f.val b = 0 → f.sgn b = zs) : r = b := by
  obtain ⟨h1, h2⟩ := RoundsTo.exact f hb rfl h
  refine f.eq_of_val_eq h.valid hb.valid h2 ?_
  rw [h.sign]
  by_cases h0 : f.val b = 0
  · rw [if_pos h0]; exact (hs h0).symm
  · rw [if_neg h0]
    have hu := f.minSub_pos
    rw [val_eq] at h0 ⊢
    have hpos : 0 < (f.umag (f.mag b) : ℝ) * f.minSub := by
      refine lt_of_le_of_ne (by positivity) ?_
      intro h; apply h0; rw [← h]; simp
    cases f.sgn b
    · rw [sg_false, one_mul]; simp; exact hpos.le
    · rw [sg_true]; simp; exact hpos

theorem roundsTo_self {m : Mode} {b : ℕ} (hb : f.Finite b) : f.RoundsTo m (f.sgn b) (f.val b) b := by
  obtain ⟨r, hr⟩ := f.exists_roundsTo m (f.sgn b) (f.val b)
  have := RoundsTo.exact_eq f hb hr (fun _ => rfl)
  rwa [this] at hr

/-- `x + y`: correctly rounded sum; an exact zero gets the IEEE sign. -/
theorem hadd_spec (m : Mode) {x y : ℕ} (hx : f.Finite x) (hy : f.Finite y) :
    f.RoundsTo m (zeroSign m (f.sgn x) (f.sgn y)) (f.val x + f.val y) (f.hadd m x y) := by
  obtain ⟨x1, x2⟩ := f.finite_B hx
  obtain ⟨y1, y2⟩ := f.finite_B hy
  unfold hadd
  rw [x1, x2, y1, y2]
  simp only [Bool.or_self, Bool.false_eq_true, if_false]
  rw [val_eq_ival, val_eq_ival, ← add_mul]
  have hz : ((f.ival x : ℝ) + f.ival y) = ((f.ival x + f.ival y : ℤ) : ℝ) := by push_cast; rfl
  rw [hz]
  generalize f.ival x + f.ival y = z
  by_cases h0 : z = 0
  · rw [if_pos h0, h0]
    simp only [Int.cast_zero, zero_mul]
    have := f.roundsTo_self (m := m) (f.finite_zero (zeroSign m (f.sgn x) (f.sgn y)))
    rwa [val_zero, sgn_zero] at this
  · rw [if_neg h0]
    have := f.roundsTo_roundQ m (decide (z < 0)) (zeroSign m (f.sgn x) (f.sgn y)) (N := z.natAbs) (D := 1) (by decide)
      (fun h => by omega)
    convert this using 1
    have : (z : ℝ) = sg (decide (z < 0)) * (z.natAbs : ℝ) := by
      rcases lt_or_ge z 0 with h | h
      · simp only [h, decide_true, sg_true]
        rw [Nat.cast_natAbs, abs_of_neg h]; push_cast; ring
      · simp only [not_lt.2 h, decide_false, sg_false]
        rw [Nat.cast_natAbs, abs_of_nonneg h]; ring
    rw [this]; push_cast; ring

theorem valid_hneg (x : ℕ) : f.Valid (f.hneg x) := f.valid_pack _ (f.mag_lt x)
theorem sgn_hneg (x : ℕ) : f.sgn (f.hneg x) = !f.sgn x := f.sgn_pack _ (f.mag_lt x)
theorem mag_hneg (x : ℕ) : f.mag (f.hneg x) = f.mag x := f.mag_pack _ (f.mag_lt x)
theorem val_hneg (x : ℕ) : f.val (f.hneg x) = - f.val x := by
  rw [val_eq, val_eq, sgn_hneg, mag_hneg, sg_not]; ring
theorem finite_hneg {x : ℕ} (h : f.Finite x) : f.Finite (f.hneg x) := by
  rw [finite_iff, mag_hneg]; exact ⟨f.valid_hneg x, ((f.finite_iff x).1 h).2⟩

theorem hsub_spec (m : Mode) {x y : ℕ} (hx : f.Finite x) (hy : f.Finite y) :
    f.RoundsTo m (zeroSign m (f.sgn x) (!f.sgn y)) (f.val x - f.val y) (f.hsub m x y) := by
  have := f.hadd_spec m hx (f.finite_hneg hy)
  rw [val_hneg, sgn_hneg, ← sub_eq_add_neg] at this
  exact this

theorem uscale_pos : 0 < f.uscale := Nat.pow_pos (by decide)
theorem uscale_minSub : (f.uscale : ℝ) * f.minSub = 1 := by
  unfold uscale minSub
  push_cast
  rw [← zpow_natCast, ← zpow_add₀ (by norm_num)]
  have := f.hF
  rw [show ((f.bias + f.F - 1 : ℕ) : ℤ) + (1 - (f.bias : ℤ) - (f.F : ℤ)) = 0 by omega]
  simp

theorem sg_xor (a b : Bool) : sg (xor a b) = sg a * sg b := by cases a <;> cases b <;> simp

theorem hmul_spec (m : Mode) {x y : ℕ} (hx : f.Finite x) (hy : f.Finite y) :
    f.RoundsTo m (xor (f.sgn x) (f.sgn y)) (f.val x * f.val y) (f.hmul m x y) := by
  obtain ⟨x1, x2⟩ := f.finite_B hx
  obtain ⟨y1, y2⟩ := f.finite_B hy
  unfold hmul
  rw [x1, x2, y1, y2]
  simp only [Bool.or_self, Bool.false_eq_true, if_false]
  have := f.roundsTo_roundQ m (xor (f.sgn x) (f.sgn y)) (xor (f.sgn x) (f.sgn y))
    (N := f.umag (f.mag x) * f.umag (f.mag y)) (D := f.uscale) f.uscale_pos (fun _ => rfl)
  convert this using 1
  rw [val_eq, val_eq, sg_xor]
  have h1 := f.uscale_minSub
  have h2 : (f.uscale : ℝ) ≠ 0 := by exact_mod_cast f.uscale_pos.ne'
  have h3 : f.minSub = 1 / f.uscale := by field_simp; linarith
  rw [h3]; push_cast; field_simp

theorem hdiv_spec (m : Mode) {x y : ℕ} (hx : f.Finite x) (hy : f.Finite y) (h0 : f.val y ≠ 0) :
    f.RoundsTo m (xor (f.sgn x) (f.sgn y)) (f.val x / f.val y) (f.hdiv m x y) := by
  obtain ⟨x1, x2⟩ := f.finite_B hx
  obtain ⟨y1, y2⟩ := f.finite_B hy
  have y3 : f.mag y ≠ 0 := fun h => h0 ((f.val_eq_zero_iff y).2 h)
  have y4 : f.zeroB y = false := by unfold zeroB; simp [y3]
  have y5 : 0 < f.umag (f.mag y) := Nat.pos_of_ne_zero (fun h => y3 (f.umag_eq_zero.1 h))
  unfold hdiv
  rw [x1, x2, y1, y2, y4]
  simp only [Bool.or_self, Bool.false_eq_true, if_false]
  have := f.roundsTo_roundQ m (xor (f.sgn x) (f.sgn y)) (xor (f.sgn x) (f.sgn y))
    (N := f.umag (f.mag x) * f.uscale) (D := f.umag (f.mag y)) y5 (fun _ => rfl)
  convert this using 1
  rw [val_eq, val_eq, sg_xor]
  have h1 := f.uscale_minSub
  have h2 : (f.uscale : ℝ) ≠ 0 := by exact_mod_cast f.uscale_pos.ne'
  have h3 : f.minSub = 1 / f.uscale := by field_simp; linarith
  have h4 : (f.umag (f.mag y) : ℝ) ≠ 0 := by exact_mod_cast y5.ne'
  rw [h3]; push_cast
  have h5 := sg_mul_self (f.sgn y)
  have h6 := sg_ne_zero (f.sgn y)
  field_simp
  linear_combination (f.umag (f.mag x) : ℝ) * sg (f.sgn x) * (-h5)

/-- keys order data like their extended values -/
theorem xval_of_finite {x : ℕ} (h : f.Finite x) : f.xval x = ((f.val x : ℝ) : EReal) := by
  unfold xval; rw [if_neg h.2]

theorem xval_inf (s : Bool) : f.xval (f.inf s) = if s then ⊥ else ⊤ := by
  unfold xval; rw [if_pos (f.isInf_inf s).2.1, sgn_inf]

theorem isInf_eq {x : ℕ} (h : f.IsInf x) : x = f.inf (f.sgn x) := by
  rw [isInf_iff] at h
  conv_lhs => rw [← f.pack_sgn_mag h.1, h.2]
  rfl

theorem val_lt_iff_key {x y : ℕ} : f.val x < f.val y ↔ f.key x < f.key y := by
  have hu := f.minSub_pos
  rw [val_eq_ival, val_eq_ival, mul_lt_mul_iff_left₀ hu, Int.cast_lt]
  unfold ival key
  have h1 := f.umag_lt_iff (a := f.mag x) (b := f.mag y)
  have h2 := f.umag_lt_iff (a := f.mag y) (b := f.mag x)
  have h3 := f.umag_eq_zero (n := f.mag x)
  have h4 := f.umag_eq_zero (n := f.mag y)
  split <;> split <;> omega

theorem val_le_iff_key {x y : ℕ} : f.val x ≤ f.val y ↔ f.key x ≤ f.key y := by
  rw [← not_lt, ← not_lt, val_lt_iff_key]
theorem val_eq_iff_key {x y : ℕ} : f.val x = f.val y ↔ f.key x = f.key y := by
  rw [le_antisymm_iff, le_antisymm_iff, val_le_iff_key, val_le_iff_key]

theorem key_inf (s : Bool) : f.key (f.inf s) = if s then -(f.infMag : ℤ) else f.infMag := by
  unfold key; rw [sgn_inf, inf_eq_pack, mag_pack f s f.infMag_lt]

theorem key_finite {x : ℕ} (h : f.Finite x) : -(f.infMag : ℤ) < f.key x ∧ f.key x < f.infMag := by
  have := ((f.finite_iff x).1 h).2
  unfold key; split <;> omega

theorem not_nan_cases {x : ℕ} (hv : f.Valid x) (h : ¬ f.IsNaN x) : f.Finite x ∨ f.IsInf x := by
  rw [isNaN_iff] at h; rw [finite_iff, isInf_iff]
  rcases lt_trichotomy (f.mag x) f.infMag with h1 | h1 | h1
  · left; exact ⟨hv, h1⟩
  · right; exact ⟨hv, h1⟩
  · exact absurd ⟨hv, h1⟩ h

theorem xval_lt_iff_key {x y : ℕ} (hx : f.Valid x) (hy : f.Valid y) (nx : ¬ f.IsNaN x) (ny : ¬ f.IsNaN y) :
    f.xval x < f.xval y ↔ f.key x < f.key y := by
  have hp : 0 < f.infMag := lt_of_lt_of_le (Nat.pow_pos (by decide)) f.infMag_pos
  rcases f.not_nan_cases hx nx with h1 | h1 <;> rcases f.not_nan_cases hy ny with h2 | h2
  · rw [xval_of_finite f h1, xval_of_finite f h2, EReal.coe_lt_coe_iff, val_lt_iff_key]
  · rw [isInf_eq f h2, xval_inf, key_inf, xval_of_finite f h1]
    have := f.key_finite h1
    cases f.sgn y
    · simp [EReal.coe_lt_top]; omega
    · simp; omega
  · rw [isInf_eq f h1, xval_inf, key_inf, xval_of_finite f h2]
    have := f.key_finite h2
    cases f.sgn x
    · simp; omega
    · simp [EReal.bot_lt_coe]; omega
  · rw [isInf_eq f h1, isInf_eq f h2, xval_inf, key_inf, xval_inf, key_inf]
    cases f.sgn x <;> cases f.sgn y <;> (simp; try omega)

theorem hlt_spec {x y : ℕ} (hx : f.Valid x) (hy : f.Valid y) :
    f.hlt x y = true ↔ ¬ f.IsNaN x ∧ ¬ f.IsNaN y ∧ f.xval x < f.xval y := by
  unfold hlt
  simp only [Bool.and_eq_true, Bool.not_eq_true', decide_eq_true_eq]
  rw [← f.nanB_iff hx, ← f.nanB_iff hy]
  simp only [Bool.not_eq_true]
  constructor
  · rintro ⟨⟨h1, h2⟩, h3⟩
    exact ⟨h1, h2, (f.xval_lt_iff_key hx hy (by rw [← f.nanB_iff hx, h1]; simp) (by rw [← f.nanB_iff hy, h2]; simp)).2 h3⟩
  · rintro ⟨h1, h2, h3⟩
    exact ⟨⟨h1, h2⟩, (f.xval_lt_iff_key hx hy (by rw [← f.nanB_iff hx, h1]; simp) (by rw [← f.nanB_iff hy, h2]; simp)).1 h3⟩

theorem hle_spec {x y : ℕ} (hx : f.Valid x) (hy : f.Valid y) :
    f.hle x y = true ↔ ¬ f.IsNaN x ∧ ¬ f.IsNaN y ∧ f.xval x ≤ f.xval y := by
  unfold hle
  simp only [Bool.and_eq_true, Bool.not_eq_true', decide_eq_true_eq]
  rw [← f.nanB_iff hx, ← f.nanB_iff hy]
  simp only [Bool.not_eq_true]
  rw [← not_lt, ← not_lt, and_assoc]
  refine and_congr_right fun h1 => and_congr_right fun h2 => not_congr ?_
  exact (f.xval_lt_iff_key hy hx (by rw [← f.nanB_iff hy, h2]; simp) (by rw [← f.nanB_iff hx, h1]; simp)).symm

theorem heq_spec {x y : ℕ} (hx : f.Valid x) (hy : f.Valid y) :
    f.heq x y = true ↔ ¬ f.IsNaN x ∧ ¬ f.IsNaN y ∧ f.xval x = f.xval y := by
  have h1 := f.hle_spec hx hy
  have h2 := f.hle_spec hy hx
  have h : f.heq x y = (f.hle x y && f.hle y x) := by
    unfold heq hle
    cases f.nanB x <;> cases f.nanB y <;> simp [le_antisymm_iff]
  rw [h, Bool.and_eq_true, h1, h2, le_antisymm_iff]
  tauto

end Fmt
end Verif
