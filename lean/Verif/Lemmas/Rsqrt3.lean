import Verif.Lemmas.Rsqrt2

namespace Verif
open Fmt

/-- value of the positive pattern `n` -/
noncomputable def pv (n : ℕ) : ℝ := (binary64.umag n : ℝ) * binary64.minSub

theorem pv_val {n : ℕ} (h : n < 2 ^ 63) : binary64.val n = pv n ∧ binary64.sgn n = false ∧ binary64.mag n = n := by
  have hm : binary64.mag n = n := Nat.mod_eq_of_lt h
  have hs : binary64.sgn n = false := by
    show decide (2 ^ 63 ≤ n) = false
    rw [decide_eq_false_iff_not]; omega
  exact ⟨by rw [val_eq, hs, hm, sg_false, one_mul]; rfl, hs, hm⟩

theorem pv_le {a b : ℕ} : pv a ≤ pv b ↔ a ≤ b := by
  unfold pv
  rw [mul_le_mul_iff_left₀ binary64.minSub_pos, Nat.cast_le, umag_le_iff]
theorem pv_lt {a b : ℕ} : pv a < pv b ↔ a < b := by rw [← not_le, pv_le, not_le]
theorem pv_nonneg (a : ℕ) : 0 ≤ pv a := mul_nonneg (Nat.cast_nonneg _) binary64.minSub_pos.le

theorem pv_min : pv (2 ^ 52) = (2 : ℝ) ^ (-1022 : ℤ) := by
  unfold pv
  rw [binary64.umag_small (by norm_num [binary64]), minSub_eq_zpow, emin64]
  rw [Nat.cast_pow, Nat.cast_two, ← zpow_natCast, ← zpow_add₀ (by norm_num)]; norm_num

theorem pv_inf : pv binary64.infMag = (2 : ℝ) ^ (1024 : ℤ) := by
  unfold pv; rw [huge_eq]; rfl

theorem infMag64 : binary64.infMag = 2047 * 2 ^ 52 := by decide

/-- next value up, normal range -/
theorem pv_succ_le {n : ℕ} (h : 2 ^ 52 ≤ n) : pv (n + 1) * 2 ^ 52 ≤ pv n * (2 ^ 52 + 1) := by
  have h1 : 2 ^ binary64.gk n * 2 ^ 52 ≤ binary64.umag n := by
    rw [umag_eq_gs, mul_comm]
    apply Nat.mul_le_mul_right
    by_cases hk : binary64.gk n = 0
    · have := binary64.gk_gs n
      rw [hk] at this; omega
    · exact binary64.gs_ge n hk
  have h2 := binary64.umag_succ n
  have h3 : binary64.umag (n + 1) * 2 ^ 52 ≤ binary64.umag n * (2 ^ 52 + 1) := by rw [h2]; nlinarith
  have h4 : ((binary64.umag (n + 1) * 2 ^ 52 : ℕ) : ℝ) ≤ ((binary64.umag n * (2 ^ 52 + 1) : ℕ) : ℝ) := by exact_mod_cast h3
  push_cast at h4
  unfold pv
  have := mul_le_mul_of_nonneg_right h4 binary64.minSub_pos.le
  linarith

/-- candidates near the reciprocal square root of `X` -/
def Near (X : ℝ) (n : ℕ) : Prop := 1 / 2 ≤ pv n ^ 2 * X ∧ pv n ^ 2 * X ≤ 2

theorem Near.range {X : ℝ} {n : ℕ} (h : Near X n) (h1 : (2 : ℝ) ^ (-1074 : ℤ) ≤ X) (h2 : X < (2 : ℝ) ^ (1024 : ℤ)) :
    2 ^ 52 ≤ n ∧ n + 1 < binary64.infMag := by
  have hp := pv_nonneg n
  have hX : 0 < X := lt_of_lt_of_le (two_zpow_pos _) h1
  constructor
  · rw [← pv_le, pv_min]
    by_contra hc
    have hc := not_le.1 hc
    have h3 : pv n ^ 2 < ((2 : ℝ) ^ (-1022 : ℤ)) ^ 2 := by
      exact pow_lt_pow_left₀ hc hp (by norm_num)
    have h4 : pv n ^ 2 * X < ((2 : ℝ) ^ (-1022 : ℤ)) ^ 2 * (2 : ℝ) ^ (1024 : ℤ) :=
      mul_lt_mul'' h3 h2 (sq_nonneg _) hX.le
    have h5 : ((2 : ℝ) ^ (-1022 : ℤ)) ^ 2 * (2 : ℝ) ^ (1024 : ℤ) = (2 : ℝ) ^ (-1020 : ℤ) := by
      rw [sq, ← zpow_add₀ (by norm_num), ← zpow_add₀ (by norm_num)]; norm_num
    have h6 : (2 : ℝ) ^ (-1020 : ℤ) ≤ (2 : ℝ) ^ (-1 : ℤ) := two_zpow_le (by norm_num)
    have h7 : (2 : ℝ) ^ (-1 : ℤ) = 1 / 2 := by norm_num
    rw [h5] at h4
    exact absurd (lt_of_lt_of_le h4 (le_trans h6 (h7.le.trans h.1))) (lt_irrefl _)
  · have : n < 2046 * 2 ^ 52 := by
      by_contra hc
      have h0 : (2046 : ℕ) * 2 ^ 52 ≤ n := not_lt.1 hc
      have hv : pv (2046 * 2 ^ 52) = (2 : ℝ) ^ (1023 : ℤ) := by
        have := (binary64.pow2_val false (e := 2046) (by norm_num) (by decide)).2.1
        rw [CC.pack_false, sg_false, one_mul] at this
        rw [← (pv_val (n := 2046 * 2 ^ 52) (by norm_num)).1]
        exact this
      have hc : (2 : ℝ) ^ (1023 : ℤ) ≤ pv n := by rw [← hv]; exact pv_le.2 h0
      have h3 : ((2 : ℝ) ^ (1023 : ℤ)) ^ 2 ≤ pv n ^ 2 := pow_le_pow_left₀ (two_zpow_pos _).le hc 2
      have h4 : ((2 : ℝ) ^ (1023 : ℤ)) ^ 2 * (2 : ℝ) ^ (-1074 : ℤ) ≤ pv n ^ 2 * X :=
        mul_le_mul h3 h1 (two_zpow_pos _).le (sq_nonneg _)
      have h5 : ((2 : ℝ) ^ (1023 : ℤ)) ^ 2 * (2 : ℝ) ^ (-1074 : ℤ) = (2 : ℝ) ^ (972 : ℤ) := by
        rw [sq, ← zpow_add₀ (by norm_num), ← zpow_add₀ (by norm_num)]; norm_num
      have h6 : (2 : ℝ) ^ (2 : ℤ) ≤ (2 : ℝ) ^ (972 : ℤ) := two_zpow_le (by norm_num)
      rw [h5] at h4
      have h7 := le_trans h6 (le_trans h4 h.2)
      norm_num at h7
    rw [infMag64]; omega

section walk
variable {x : ℕ} (hx : binary64.Finite x) (hx0 : 0 < binary64.val x)
include hx hx0

theorem x_range : (2 : ℝ) ^ (-1074 : ℤ) ≤ binary64.val x ∧ binary64.val x < (2 : ℝ) ^ (1024 : ℤ) := by
  constructor
  · have := (binary64.mult_emin x).ge hx0.ne'
    rw [emin64, abs_of_pos hx0] at this; exact this
  · have := abs_val_lt_huge binary64 hx
    rw [abs_of_pos hx0] at this; exact this

theorem near_window {n : ℕ} (h : Near (binary64.val x) n) :
    binary64.Finite n ∧ n < 2 ^ 63 ∧ ∃ k : ℤ, -1022 ≤ k ∧ (2 : ℝ) ^ k ≤ pv n ∧ pv n < (2 : ℝ) ^ (k + 1) ∧ pv (n + 1) - pv n = (2 : ℝ) ^ (k - 52) := by
  obtain ⟨h1, h2⟩ := h.range (x_range hx hx0).1 (x_range hx hx0).2
  have hlt : n < 2 ^ 63 := by rw [infMag64] at h2; omega
  obtain ⟨e1, e2, e3⟩ := pv_val hlt
  have hb : binary64.bexp n = n / 2 ^ 52 := by show binary64.mag n / 2 ^ 52 = _; rw [e3]
  have hb0 : binary64.bexp n ≠ 0 := by rw [hb]; omega
  obtain ⟨w1, w2⟩ := normal_window hb0
  rw [e1, abs_of_nonneg (pv_nonneg n)] at w1 w2
  refine ⟨by rw [finite_iff, e3]; exact ⟨by show n < 2 ^ 64; omega, by omega⟩, hlt, (binary64.bexp n : ℤ) - 1023, ?_, w1, ?_, ?_⟩
  · have : 1 ≤ binary64.bexp n := by omega
    omega
  · rw [show (binary64.bexp n : ℤ) - 1023 + 1 = (binary64.bexp n : ℤ) - 1022 by ring]; exact w2
  · unfold pv
    rw [umag_succ, Nat.cast_add, add_mul, add_sub_cancel_left, minSub_eq_zpow, emin64]
    have hk : binary64.gk n = binary64.bexp n - 1 := by rw [hb]; rfl
    rw [hk, Nat.cast_pow, Nat.cast_two, ← zpow_natCast, ← zpow_add₀ (by norm_num)]
    congr 1
    have : 1 ≤ binary64.bexp n := by omega
    omega

variable {t : ℝ} (ht : 0 < t) (htx : t ^ 2 * binary64.val x = 1)
include ht htx

theorem sign_cmp {v : ℝ} (hv : 0 ≤ v) : (v ^ 2 * binary64.val x - 1 > 0 ↔ t < v) ∧ (v ^ 2 * binary64.val x - 1 = 0 ↔ v = t) ∧
    (v ^ 2 * binary64.val x - 1 < 0 ↔ v < t) := by
  have e : v ^ 2 * binary64.val x - 1 = (v - t) * ((v + t) * binary64.val x) := by
    rw [← htx]; ring
  have hp : 0 < (v + t) * binary64.val x := mul_pos (by linarith) hx0
  rw [e]
  refine ⟨?_, ?_, ?_⟩
  · rw [gt_iff_lt, mul_pos_iff_of_pos_right hp, sub_pos]
  · rw [mul_eq_zero, or_iff_left hp.ne', sub_eq_zero]
  · rw [mul_neg_iff_of_pos_right hp, sub_neg]
where
  mul_neg_iff_of_pos_right {a b : ℝ} (hb : 0 < b) : a * b < 0 ↔ a < 0 := by
    constructor
    · intro h; by_contra hc; have := mul_nonneg (not_lt.1 hc) hb.le; linarith
    · intro h; exact mul_neg_of_neg_of_pos h hb

theorem res0 (m : Mode) {n : ℕ} (h : Near (binary64.val x) n) :
    ∃ s, CC.rsqrtResidualSign m n 0 x = some s ∧ (s > 0 ↔ t < pv n) ∧ (s = 0 ↔ pv n = t) ∧ (s < 0 ↔ pv n < t) := by
  obtain ⟨hf, hlt, k, hk, k1, k2, -⟩ := near_window hx hx0 h
  have hv := (pv_val hlt).1
  have h0 : binary64.val 0 = 0 := binary64.val_zero false
  obtain ⟨s, e1, e2⟩ := rsqrtResidualSign_spec m hf (binary64.finite_zero false) hx (by rw [hv]; exact k1) (by rw [hv]; exact k2) hk
    (Or.inl (binary64.val_zero false)) (by rw [hv]; exact h.1) (by rw [hv]; exact h.2)
  rw [binary64.val_zero false, add_zero, hv] at e2
  obtain ⟨c1, c2, c3⟩ := sign_cmp hx hx0 ht htx (pv_nonneg n)
  refine ⟨s, e1, ?_⟩
  rw [← c1, ← c2, ← c3]
  unfold IsSign at e2
  rcases e2 with ⟨a, rfl⟩ | ⟨a, rfl⟩ | ⟨a, rfl⟩
  · exact ⟨⟨fun _ => a, fun _ => by norm_num⟩, ⟨fun h => by omega, fun h => by linarith⟩, ⟨fun h => by omega, fun h => by linarith⟩⟩
  · exact ⟨⟨fun h => by omega, fun h => by linarith⟩, ⟨fun _ => a, fun _ => rfl⟩, ⟨fun h => by omega, fun h => by linarith⟩⟩
  · exact ⟨⟨fun h => by omega, fun h => by linarith⟩, ⟨fun h => by omega, fun h => by linarith⟩, ⟨fun _ => a, fun _ => by norm_num⟩⟩

theorem near_down {r : ℕ} (h : Near (binary64.val x) r) (hr : t < pv r) : Near (binary64.val x) (r - 1) ∧ 1 ≤ r := by
  have hrg := h.range (x_range hx hx0).1 (x_range hx hx0).2
  have hr1 : r - 1 + 1 = r := by omega
  have h52 : 2 ^ 52 ≤ r - 1 ∨ r = 2 ^ 52 := by omega
  have hmono : pv (r - 1) ≤ pv r := pv_le.2 (by omega)
  have hp := pv_nonneg (r - 1)
  refine ⟨⟨?_, ?_⟩, by omega⟩
  · -- `r - 1` is at least `3/4` of `r`
    have h34 : 3 / 4 * pv r ≤ pv (r - 1) := by
      rcases h52 with h52 | h52
      · have := pv_succ_le h52
        rw [hr1] at this
        have hp2 := pv_nonneg r
        nlinarith
      · exfalso
        have hc : pv r = (2 : ℝ) ^ (-1022 : ℤ) := by rw [h52]; exact pv_min
        have h3 := h.1
        rw [hc] at h3
        have h4 : ((2 : ℝ) ^ (-1022 : ℤ)) ^ 2 * binary64.val x ≤ ((2 : ℝ) ^ (-1022 : ℤ)) ^ 2 * (2 : ℝ) ^ (1024 : ℤ) :=
          mul_le_mul_of_nonneg_left (x_range hx hx0).2.le (sq_nonneg _)
        have h5 : ((2 : ℝ) ^ (-1022 : ℤ)) ^ 2 * (2 : ℝ) ^ (1024 : ℤ) = (2 : ℝ) ^ (-1020 : ℤ) := by
          rw [sq, ← zpow_add₀ (by norm_num), ← zpow_add₀ (by norm_num)]; norm_num
        rw [h5] at h4
        have h6 : (2 : ℝ) ^ (-1020 : ℤ) ≤ (2 : ℝ) ^ (-2 : ℤ) := two_zpow_le (by norm_num)
        have h7 := le_trans h3 (le_trans h4 h6)
        norm_num at h7
    have a1 : 3 / 4 * t ≤ pv (r - 1) := by linarith
    have a2 : (3 / 4 * t) ^ 2 ≤ pv (r - 1) ^ 2 := pow_le_pow_left₀ (by positivity) a1 2
    have a3 := mul_le_mul_of_nonneg_right a2 hx0.le
    have a4 : (3 / 4 * t) ^ 2 * binary64.val x = 9 / 16 := by rw [mul_pow, mul_assoc, htx]; norm_num
    linarith
  · have a2 : pv (r - 1) ^ 2 ≤ pv r ^ 2 := pow_le_pow_left₀ hp hmono 2
    have a3 := mul_le_mul_of_nonneg_right a2 hx0.le
    linarith [h.2]

theorem near_up {r : ℕ} (h : Near (binary64.val x) r) (hr : pv r ≤ t) : Near (binary64.val x) (r + 1) := by
  have hrg := h.range (x_range hx hx0).1 (x_range hx hx0).2
  have hmono : pv r ≤ pv (r + 1) := pv_le.2 (by omega)
  have hp := pv_nonneg r
  constructor
  · have a2 : pv r ^ 2 ≤ pv (r + 1) ^ 2 := pow_le_pow_left₀ hp hmono 2
    have a3 := mul_le_mul_of_nonneg_right a2 hx0.le
    linarith [h.1]
  · have h54 : pv (r + 1) ≤ 5 / 4 * t := by
      have := pv_succ_le hrg.1
      nlinarith
    have a2 : pv (r + 1) ^ 2 ≤ (5 / 4 * t) ^ 2 := pow_le_pow_left₀ (by linarith) h54 2
    have a3 := mul_le_mul_of_nonneg_right a2 hx0.le
    have a4 : (5 / 4 * t) ^ 2 * binary64.val x = 25 / 16 := by rw [mul_pow, mul_assoc, htx]; norm_num
    linarith

theorem rsqrtDown_spec (m : Mode) : ∀ (fuel r : ℕ), Near (binary64.val x) r → t < pv r → r < 2 ^ 63 → r ≤ fuel →
    ∃ n, CC.rsqrtDown m x fuel r = some n ∧ Near (binary64.val x) n ∧ pv n ≤ t ∧ t < pv (n + 1) := by
  intro fuel
  induction fuel with
  | zero =>
    intro r h hr _ h0
    have := near_down hx hx0 ht htx h hr
    omega
  | succ fuel ih =>
    intro r h hr hlt hle
    obtain ⟨hn, h1⟩ := near_down hx hx0 ht htx h hr
    have hr' : (r + 2 ^ 64 - 1) % 2 ^ 64 = r - 1 := by
      rw [show r + 2 ^ 64 - 1 = (r - 1) + 2 ^ 64 by omega, Nat.add_mod_right, Nat.mod_eq_of_lt (by omega)]
    obtain ⟨s, e1, c1, c2, c3⟩ := res0 hx hx0 ht htx m hn
    unfold CC.rsqrtDown
    simp only [hr', e1, Option.bind_eq_bind, Option.bind_some]
    by_cases hs : s > 0
    · rw [if_pos hs]
      exact ih (r - 1) hn (c1.1 hs) (by omega) (by omega)
    · rw [if_neg hs]
      refine ⟨r - 1, rfl, hn, not_lt.1 (fun hc => hs (c1.2 hc)), ?_⟩
      rw [show r - 1 + 1 = r by omega]; exact hr

theorem rsqrtUp_spec (m : Mode) : ∀ (fuel r : ℕ), Near (binary64.val x) r → pv r ≤ t → r < 2 ^ 63 → 2 ^ 63 ≤ r + fuel →
    ∃ n, CC.rsqrtUp m x fuel r = some n ∧ Near (binary64.val x) n ∧ pv n ≤ t ∧ t < pv (n + 1) := by
  intro fuel
  induction fuel with
  | zero => intro r _ _ h1 h2; omega
  | succ fuel ih =>
    intro r h hr hlt hle
    have hn := near_up hx hx0 ht htx h hr
    have hlt' := (near_window hx hx0 hn).2.1
    have hr' : (r + 1) % 2 ^ 64 = r + 1 := Nat.mod_eq_of_lt (by omega)
    obtain ⟨s, e1, c1, c2, c3⟩ := res0 hx hx0 ht htx m hn
    unfold CC.rsqrtUp
    simp only [hr', e1, Option.bind_eq_bind, Option.bind_some]
    by_cases hs : s ≤ 0
    · rw [if_pos hs]
      refine ih (r + 1) hn (not_lt.1 fun hc => ?_) hlt' (by omega)
      have := c1.2 hc; omega
    · rw [if_neg hs]
      exact ⟨r, rfl, h, hr, c1.1 (by omega)⟩

end walk

/-- rounding of a positive real from its bracket -/
theorem roundsTo_of_bracket {m : Mode} {t : ℝ} {n r : ℕ} (h1 : pv n ≤ t) (h2 : t < pv (n + 1)) (hn : n + 1 < binary64.infMag)
    (h : match m with
      | .up => r = if t = pv n then n else n + 1
      | .nearest => (2 * t < pv n + pv (n + 1) ∧ r = n) ∨ (2 * t = pv n + pv (n + 1) ∧ r = n + n % 2) ∨ (pv n + pv (n + 1) < 2 * t ∧ r = n + 1)
      | _ => r = n) : binary64.RoundsTo m false t r := by
  have hu := binary64.minSub_pos
  have ht0 : 0 ≤ t := le_trans (pv_nonneg n) h1
  have e1 : (binary64.umag n : ℝ) = pv n / binary64.minSub := by unfold pv; field_simp
  have e2 : (binary64.umag (n + 1) : ℝ) = pv (n + 1) / binary64.minSub := by unfold pv; field_simp
  have hfl : binary64.IsFloor (t / binary64.minSub) n := by
    constructor
    · rw [e1]; gcongr
    · rw [e2]; gcongr
  have hr : binary64.RndMag (kind m false) (t / binary64.minSub) r := by
    refine ⟨n, hfl, ?_⟩
    cases m
    · simp only at h
      show _ ∨ _ ∨ _
      rw [e1, e2, ← add_div, ← mul_div_assoc, div_lt_div_iff_of_pos_right hu, div_lt_div_iff_of_pos_right hu, div_left_inj' hu.ne']
      exact h
    all_goals first
      | exact h
      | (show r = if _ then _ else _
         rw [e1]; simp only [div_left_inj' hu.ne']; exact h)
  have hrn : r ≤ n + 1 := by
    cases m
    · simp only at h; rcases h with ⟨-, h⟩ | ⟨-, h⟩ | ⟨-, h⟩ <;> omega
    all_goals first
      | (simp only at h; omega)
      | (simp only at h; split_ifs at h <;> omega)
  have := binary64.roundsTo_of_rndMag (m := m) (zs := false) (s := false) (v := t) (t := t / binary64.minSub) (n := r) (by positivity)
    (by rw [sg_false, one_mul]; field_simp) (fun _ => rfl) hr
  rw [CC.pack_false] at this
  unfold cap at this
  rw [if_pos (by omega)] at this
  exact this

theorem crRsqrt_spec (m : Mode) {x : ℕ} (hx : binary64.Finite x) (hx0 : 0 < binary64.val x) :
    ∃ r, CC.crRsqrt m x = some r ∧ binary64.RoundsTo m false (1 / Real.sqrt (binary64.val x)) r := by
  obtain ⟨xr1, xr2⟩ := x_range hx hx0
  have hu := binary64.minSub_pos
  generalize hS : Real.sqrt (binary64.val x) = S
  have hSp : 0 < S := by rw [← hS]; exact Real.sqrt_pos.2 hx0
  have hSS : S * S = binary64.val x := by rw [← hS]; exact Real.mul_self_sqrt hx0.le
  -- range of S
  have hS1 : (2 : ℝ) ^ (-537 : ℤ) ≤ S := by
    by_contra hc
    have h3 := mul_lt_mul'' (not_le.1 hc) (not_le.1 hc) hSp.le hSp.le
    rw [hSS, ← zpow_add₀ (by norm_num)] at h3
    exact absurd (lt_of_le_of_lt xr1 h3) (lt_irrefl _)
  have hS2 : S ≤ (2 : ℝ) ^ (512 : ℤ) := by
    by_contra hc
    have h3 := mul_lt_mul'' (not_le.1 hc) (not_le.1 hc) (two_zpow_pos _).le (two_zpow_pos _).le
    rw [hSS, ← zpow_add₀ (by norm_num)] at h3
    exact absurd (lt_trans h3 xr2) (lt_irrefl _)
  have gb : ∀ v : ℝ, (2 : ℝ) ^ (-600 : ℤ) ≤ |v| → binary64.gapBound v ≤ |v| / 16 := by
    intro v hv
    unfold gapBound
    apply max_le
    · have hF : binary64.F = 52 := rfl
      rw [hF]
      have : (2 : ℝ) ^ (-((52 : ℕ) : ℤ)) ≤ (2 : ℝ) ^ (-4 : ℤ) := two_zpow_le (by norm_num)
      have h2 := mul_le_mul_of_nonneg_right this (abs_nonneg v)
      norm_num at h2 ⊢
      linarith
    · rw [minSub_eq_zpow, emin64]
      have h2 : (2 : ℝ) ^ (-600 : ℤ) / 16 ≤ |v| / 16 := by gcongr
      refine le_trans ?_ h2
      rw [show (16 : ℝ) = 2 ^ (4 : ℤ) by norm_num, ← zpow_sub₀ (by norm_num)]
      exact two_zpow_le (by norm_num)
  have hs := C19_sqrt binary64 (by decide) (by decide) m hx hx0.le
  rw [hS] at hs
  have hSa : |S| = S := abs_of_pos hSp
  have hSmax : |S| ≤ binary64.maxFin := by
    rw [hSa]; exact le_trans hS2 (le_trans (two_zpow_le (by norm_num)) maxFin64)
  have hsf := (RoundsTo.ulp hs hSmax).1
  have hse := le_trans (RoundsTo.err hs hSmax) (gb S (by rw [hSa]; exact le_trans (two_zpow_le (by norm_num)) hS1))
  generalize hsq : CC.sqrt binary64 m x = q at *
  rw [hSa, abs_le] at hse
  have hq1 : 15 / 16 * S ≤ binary64.val q := by linarith
  have hq2 : binary64.val q ≤ 17 / 16 * S := by linarith
  have hqp : 0 < binary64.val q := by linarith
  -- the seed
  have hd := binary64.hdiv_spec m one64_val.1 hsf hqp.ne'
  rw [one64_val.2] at hd
  have hip : 0 < 1 / binary64.val q := by positivity
  have hi1 : (2 : ℝ) ^ (-600 : ℤ) ≤ |1 / binary64.val q| := by
    rw [abs_of_pos hip, le_div_iff₀ hqp]
    have a1 : binary64.val q ≤ 2 * (2 : ℝ) ^ (512 : ℤ) := by
      refine le_trans hq2 ?_
      refine le_trans ?_ (mul_le_mul_of_nonneg_left hS2 (by norm_num : (0 : ℝ) ≤ 2))
      linarith
    have a2 : (2 : ℝ) ^ (-600 : ℤ) * (2 * (2 : ℝ) ^ (512 : ℤ)) ≤ 1 := by
      rw [← two_zpow_succ, ← zpow_add₀ (by norm_num)]
      exact zpow_le_one_of_nonpos₀ (by norm_num) (by norm_num)
    exact le_trans (mul_le_mul_of_nonneg_left a1 (two_zpow_pos _).le) a2
  have hi2 : |1 / binary64.val q| ≤ binary64.maxFin := by
    rw [abs_of_pos hip]
    refine le_trans ?_ maxFin64
    rw [div_le_iff₀ hqp]
    have a1 : (2 : ℝ) ^ (-538 : ℤ) ≤ binary64.val q := by
      have : (2 : ℝ) ^ (-537 : ℤ) = 2 * (2 : ℝ) ^ (-538 : ℤ) := by rw [← two_zpow_succ]; norm_num
      refine le_trans ?_ hq1
      rw [this] at hS1
      linarith only [hS1, hSp]
    have a2 : (1 : ℝ) ≤ (2 : ℝ) ^ (1023 : ℤ) * (2 : ℝ) ^ (-538 : ℤ) := by
      rw [← zpow_add₀ (by norm_num)]
      exact one_le_zpow₀ (by norm_num) (by norm_num)
    exact le_trans a2 (mul_le_mul_of_nonneg_left a1 (two_zpow_pos _).le)
  have hrf := (RoundsTo.ulp hd hi2).1
  have hre := le_trans (RoundsTo.err hd hi2) (gb _ hi1)
  have hrs : binary64.sgn (binary64.hdiv m CC.one64 q) = false := by
    rw [hd.sign, if_neg hip.ne', decide_eq_false_iff_not]; linarith
  generalize hr0 : binary64.hdiv m CC.one64 q = r at *
  have hrlt : r < 2 ^ 63 := by
    have : decide (2 ^ 63 ≤ r) = false := hrs
    rw [decide_eq_false_iff_not] at this; omega
  have hrv := (pv_val hrlt).1
  rw [abs_of_pos hip, hrv, abs_le] at hre
  -- t
  have htp : 0 < 1 / S := by positivity
  have htx : (1 / S) ^ 2 * binary64.val x = 1 := by rw [← hSS]; field_simp
  have hnear : Near (binary64.val x) r := by
    have e : pv r * S = pv r * binary64.val q * (S / binary64.val q) := by field_simp
    have b1 : 15 / 16 ≤ pv r * binary64.val q := by
      have : 15 / 16 * (1 / binary64.val q) ≤ pv r := by linarith
      have := mul_le_mul_of_nonneg_right this hqp.le
      rw [mul_assoc, one_div_mul_cancel hqp.ne', mul_one] at this; exact this
    have b2 : pv r * binary64.val q ≤ 17 / 16 := by
      have : pv r ≤ 17 / 16 * (1 / binary64.val q) := by linarith
      have := mul_le_mul_of_nonneg_right this hqp.le
      rw [mul_assoc, one_div_mul_cancel hqp.ne', mul_one] at this; exact this
    have b3 : 16 / 17 ≤ S / binary64.val q := by rw [le_div_iff₀ hqp]; linarith
    have b4 : S / binary64.val q ≤ 16 / 15 := by rw [div_le_iff₀ hqp]; linarith
    have b5 : 15 / 16 * (16 / 17) ≤ pv r * S := by
      rw [e]; exact mul_le_mul b1 b3 (by norm_num) (by linarith)
    have b6 : pv r * S ≤ 17 / 16 * (16 / 15) := by
      rw [e]; exact mul_le_mul b2 b4 (by positivity) (by norm_num)
    have e2 : pv r ^ 2 * binary64.val x = (pv r * S) ^ 2 := by rw [← hSS]; ring
    unfold Near
    rw [e2]
    norm_num at b5 b6
    constructor <;> nlinarith
  have hrg := hnear.range xr1 xr2
  have hmagr := (pv_val hrlt).2.2
  have hearly : (!FPBits.isFinite binary64 r || FPBits.isZero binary64 r || FPBits.isSubnormal binary64 r) = false := by
    rw [FPBits.isFinite_eq, FPBits.isZero_eq, FPBits.isSubnormal_eq, zeroB, hmagr]
    have hb : binary64.bexp r = r / 2 ^ 52 := by show binary64.mag r / 2 ^ 52 = _; rw [hmagr]
    rw [hb]
    simp only [Bool.or_eq_false_iff, Bool.not_eq_false', decide_eq_true_eq, decide_eq_false_iff_not]
    refine ⟨⟨by omega, by omega⟩, by omega⟩
  -- the walk
  obtain ⟨s, e1, c1, c2, c3⟩ := res0 hx hx0 htp htx m hnear
  have hwalk : ∃ n, (if s > 0 then CC.rsqrtDown m x (2 ^ 64) r else if s < 0 then CC.rsqrtUp m x (2 ^ 64) r else some r) = some n ∧
      Near (binary64.val x) n ∧ pv n ≤ 1 / S ∧ 1 / S < pv (n + 1) := by
    by_cases hs1 : s > 0
    · rw [if_pos hs1]
      exact rsqrtDown_spec hx hx0 htp htx m (2 ^ 64) r hnear (c1.1 hs1) hrlt (by omega)
    · rw [if_neg hs1]
      by_cases hs2 : s < 0
      · rw [if_pos hs2]
        exact rsqrtUp_spec hx hx0 htp htx m (2 ^ 64) r hnear (c3.1 hs2).le hrlt (by omega)
      · rw [if_neg hs2]
        have h0 := c2.1 (by omega)
        refine ⟨r, rfl, hnear, h0.le, ?_⟩
        rw [← h0]; exact pv_lt.2 (by omega)
  obtain ⟨n, w1, w2, w3, w4⟩ := hwalk
  obtain ⟨s', e1', d1, d2, d3⟩ := res0 hx hx0 htp htx m w2
  obtain ⟨hnr1, hnr2⟩ := w2.range xr1 xr2
  obtain ⟨hnf, hnlt, k, hk, k1, k2, k3⟩ := near_window hx hx0 w2
  have hn1 : (n + 1) % 2 ^ 64 = n + 1 := Nat.mod_eq_of_lt (by omega)
  have hn1lt : n + 1 < 2 ^ 63 := by rw [infMag64] at hnr2; omega
  have hn1f : binary64.Finite (n + 1) := by
    rw [finite_iff, (pv_val hn1lt).2.2]; exact ⟨by show n + 1 < 2 ^ 64; omega, hnr2⟩
  have key : CC.crRsqrt m x =
      if s' = 0 then some n else if m = .up then some (n + 1) else if m ≠ .nearest then some n else
        (CC.rsqrtResidualSign m n (binary64.hmul m CC.half64 (binary64.hsub m (n + 1) n)) x).bind fun sm =>
          if sm > 0 then some n else if sm < 0 then some (n + 1) else some (if n &&& 1 = 0 then n else n + 1) := by
    unfold CC.crRsqrt
    simp only [hsq, hr0, hearly, e1, Option.bind_eq_bind, Option.bind_some, Bool.false_eq_true, if_false]
    by_cases hs1 : s > 0
    · rw [if_pos hs1] at w1 ⊢
      simp only [w1, e1', Option.bind_some, hn1]; rfl
    · rw [if_neg hs1] at w1 ⊢
      by_cases hs2 : s < 0
      · rw [if_pos hs2] at w1 ⊢
        simp only [w1, e1', Option.bind_some, hn1]; rfl
      · rw [if_neg hs2] at w1 ⊢
        obtain rfl := Option.some.inj w1
        simp only [Option.pure_def, e1', Option.bind_some, hn1]
  rw [key]
  by_cases h0 : s' = 0
  · rw [if_pos h0]
    refine ⟨n, rfl, roundsTo_of_bracket w3 w4 hnr2 ?_⟩
    have ht := d2.1 h0
    cases m
    · left
      refine ⟨?_, rfl⟩
      have : pv n < pv (n + 1) := pv_lt.2 (by omega)
      linarith
    all_goals simp [ht]
  rw [if_neg h0]
  have hne : pv n ≠ 1 / S := fun h => h0 (d2.2 h)
  by_cases hup : m = .up
  · rw [if_pos hup]
    refine ⟨n + 1, rfl, roundsTo_of_bracket w3 w4 hnr2 ?_⟩
    subst hup
    simp only
    rw [if_neg (Ne.symm hne)]
  rw [if_neg hup]
  by_cases hnn : m = .nearest
  swap
  · rw [if_pos hnn]
    refine ⟨n, rfl, roundsTo_of_bracket w3 w4 hnr2 ?_⟩
    cases m <;> simp_all
  rw [if_neg (by simp [hnn])]
  -- half an ulp
  have hbias : (binary64.bias : ℤ) = 1023 := by decide
  have hkhi : k < 1024 := by
    have a := abs_val_lt_huge binary64 hnf
    rw [(pv_val hnlt).1, abs_of_nonneg (pv_nonneg n), hbias] at a
    exact two_zpow_lt_iff.1 (lt_of_le_of_lt k1 a)
  have k53 : -1074 ≤ k - 53 := by
    by_contra hc
    have h3 : pv n < (2 : ℝ) ^ (-1020 : ℤ) := lt_of_lt_of_le k2 (two_zpow_le (by omega))
    have h4 : pv n ^ 2 < ((2 : ℝ) ^ (-1020 : ℤ)) ^ 2 := pow_lt_pow_left₀ h3 (pv_nonneg n) (by norm_num)
    have h5 : pv n ^ 2 * binary64.val x < ((2 : ℝ) ^ (-1020 : ℤ)) ^ 2 * (2 : ℝ) ^ (1024 : ℤ) := mul_lt_mul'' h4 xr2 (sq_nonneg _) hx0.le
    rw [sq ((2 : ℝ) ^ (-1020 : ℤ)), ← zpow_add₀ (by norm_num), ← zpow_add₀ (by norm_num)] at h5
    have h6 : (2 : ℝ) ^ ((-1020 : ℤ) + -1020 + 1024) ≤ (2 : ℝ) ^ (-2 : ℤ) := two_zpow_le (by norm_num)
    have h7 := lt_of_le_of_lt w2.1 (lt_of_lt_of_le h5 h6)
    norm_num at h7
  have repz : ∀ j : ℤ, -1074 ≤ j → j < 1024 → ∃ c, binary64.Finite c ∧ binary64.val c = (2 : ℝ) ^ j := by
    intro j j1 j2
    refine binary64.rep (Mult.two_zpow j) (by rw [emin64]; exact j1) ?_ ?_
    · rw [abs_of_pos (two_zpow_pos _)]; exact two_zpow_le (by have := binary64.hF; omega)
    · rw [abs_of_pos (two_zpow_pos _), hbias]; exact two_zpow_lt (by omega)
  have hsub : binary64.Finite (binary64.hsub m (n + 1) n) ∧ binary64.val (binary64.hsub m (n + 1) n) = (2 : ℝ) ^ (k - 52) := by
    have H := binary64.hsub_spec m hn1f hnf
    rw [(pv_val hn1lt).1, (pv_val hnlt).1, k3] at H
    exact RoundsTo.exact_of H (repz _ (by omega) (by omega))
  have hhalf : binary64.Finite (binary64.hmul m CC.half64 (binary64.hsub m (n + 1) n)) ∧
      binary64.val (binary64.hmul m CC.half64 (binary64.hsub m (n + 1) n)) = (2 : ℝ) ^ (k - 53) := by
    have H := binary64.hmul_spec m half64_val.1 hsub.1
    have e : (2 : ℝ)⁻¹ * (2 : ℝ) ^ (k - 52) = (2 : ℝ) ^ (k - 53) := by
      rw [show k - 52 = (k - 53) + 1 by ring, two_zpow_succ]; ring
    rw [half64_val.2, hsub.2, e] at H
    exact RoundsTo.exact_of H (repz _ k53 (by omega))
  obtain ⟨sm, m1, m2⟩ := rsqrtResidualSign_spec m hnf hhalf.1 hx (by rw [(pv_val hnlt).1]; exact k1) (by rw [(pv_val hnlt).1]; exact k2) hk
    (Or.inr hhalf.2) (by rw [(pv_val hnlt).1]; exact w2.1) (by rw [(pv_val hnlt).1]; exact w2.2)
  rw [m1, Option.bind_some]
  rw [(pv_val hnlt).1, hhalf.2] at m2
  have hmid : pv n + pv (n + 1) = 2 * (pv n + (2 : ℝ) ^ (k - 53)) := by
    have e : (2 : ℝ) ^ (k - 52) = 2 * (2 : ℝ) ^ (k - 53) := by rw [← two_zpow_succ]; congr 1; ring
    rw [e] at k3; linarith
  obtain ⟨g1, g2, g3⟩ := sign_cmp hx hx0 htp htx (v := pv n + (2 : ℝ) ^ (k - 53)) (by have := pv_nonneg n; have := two_zpow_pos (k - 53); linarith)
  subst hnn
  rcases m2 with ⟨a, rfl⟩ | ⟨a, rfl⟩ | ⟨a, rfl⟩
  · refine ⟨n, by simp, roundsTo_of_bracket w3 w4 hnr2 (Or.inl ⟨?_, rfl⟩)⟩
    rw [hmid]; have := g1.1 a; linarith
  · refine ⟨n + n % 2, ?_, roundsTo_of_bracket w3 w4 hnr2 (Or.inr (Or.inl ⟨?_, rfl⟩))⟩
    · simp only [gt_iff_lt, lt_irrefl, if_false]
      rw [Nat.and_one_is_mod]
      rcases Nat.mod_two_eq_zero_or_one n with h | h <;> simp [h]
    · rw [hmid, g2.1 a]
  · refine ⟨n + 1, by simp, roundsTo_of_bracket w3 w4 hnr2 (Or.inr (Or.inr ⟨?_, rfl⟩))⟩
    rw [hmid]; have := g3.1 a; linarith

end Verif
