import Verif.Props.Ext2

/-!
# C53 (`unlerp`, `mix`, `remap` end points), C54 (`normalize`, `smoothstep`), C55 (`delta_angle`), C56 (`chgsign`, `approximately`)
-/

namespace Verif
open Fmt
variable (f : Fmt)

private theorem onev : f.val (CC.oneLit f false) = 1 := by rw [CC.val_one, sg_false]

/-! ## C53 -/

section C53
variable (m : Mode) {s e x : ℕ}

private theorem sub_self_val (hx : f.Finite x) : f.Finite (f.hsub m x x) ∧ f.val (f.hsub m x x) = 0 := by
  obtain ⟨h1, h2⟩ := RoundsTo.exact f (f.finite_zero false) (by rw [f.val_zero]; ring) (f.hsub_spec m hx hx)
  exact ⟨h1, by rw [h2]; ring⟩

private theorem sub_ne_zero' (hx : f.Finite x) (hs : f.Finite s) (hne : f.val s ≠ f.val x) (hf : f.Finite (f.hsub m x s)) :
    f.val (f.hsub m x s) ≠ 0 := by
  have R := f.hsub_spec m hx hs
  obtain ⟨h1, h1v⟩ := minSub_datum f
  have hm := minSub_le_sub f hne.symm
  have mp := f.minSub_pos
  rcases lt_or_gt_of_ne hne with h | h
  · rw [abs_of_pos (by linarith)] at hm
    have := RoundsTo.ge_of R h1 (by rw [h1v]; exact hm)
    rw [f.xval_of_finite h1, f.xval_of_finite hf, h1v] at this
    have : f.minSub ≤ f.val (f.hsub m x s) := by exact_mod_cast this
    linarith
  · rw [abs_of_neg (by linarith)] at hm
    have := RoundsTo.le_of R (f.finite_hneg h1) (by rw [f.val_hneg, h1v]; linarith)
    rw [f.xval_of_finite (f.finite_hneg h1), f.xval_of_finite hf, f.val_hneg, h1v] at this
    have : f.val (f.hsub m x s) ≤ -f.minSub := by exact_mod_cast this
    linarith

/-- **C53** `unlerp(start, end, start) = 0` and `unlerp(start, end, end) = 1` for finite distinct bounds whose distance does not
overflow, in every rounding mode; the safe variant agrees and returns 0 for an empty interval. -/
theorem C53_unlerp (hs : f.Finite s) (he : f.Finite e) (hd : |f.val e - f.val s| ≤ f.maxFin) :
    (f.val s ≠ f.val e → f.Finite (CC.unlerp f m s e s) ∧ f.val (CC.unlerp f m s e s) = 0 ∧
      CC.unlerp f m s e e = CC.oneLit f false ∧
      (∀ v, CC.safeUnlerp f m s e v = CC.unlerp f m s e v)) ∧
    (f.val s = f.val e → ∀ v, CC.safeUnlerp f m s e v = f.zero false) := by
  have R := f.hsub_spec m he hs
  have D := RoundsTo.finite_of_le f R hd
  constructor
  · intro hne
    have D0 := sub_ne_zero' f m he hs hne D
    obtain ⟨z1, z2⟩ := sub_self_val f m hs
    obtain ⟨q1, q2⟩ := RoundsTo.exact f (f.finite_zero false) (by rw [f.val_zero, z2]; simp) (f.hdiv_spec m z1 D D0)
    obtain ⟨p1, p2⟩ := RoundsTo.exact f (CC.finite_one f false) (by rw [onev, div_self D0]) (f.hdiv_spec m D D D0)
    refine ⟨q1, by unfold CC.unlerp; rw [q2, z2]; simp, ?_, ?_⟩
    · refine eq_of_val_ne f p1.valid (CC.finite_one f false).valid ?_ ?_
      · unfold CC.unlerp; rw [p2, div_self D0, onev]
      · rw [onev]; exact one_ne_zero
    · intro v
      unfold CC.safeUnlerp CC.unlerp
      dsimp only
      rw [if_neg]
      rw [CC.heq_finite f D (f.finite_zero _), f.val_zero]; exact D0
  · intro heq v
    unfold CC.safeUnlerp
    dsimp only
    rw [if_pos]
    rw [CC.heq_finite f D (f.finite_zero _), f.val_zero]
    obtain ⟨h1, h2⟩ := RoundsTo.exact f (f.finite_zero false) (by rw [f.val_zero, heq]; ring) R
    rw [h2, heq]; ring

example : binary64.Finite 0x3ff0000000000000 ∧ binary64.Finite 0x4014000000000000 ∧
    CC.unlerp binary64 .nearest 0x3ff0000000000000 0x4014000000000000 0x4008000000000000 = 0x3fe0000000000000 := by decide +kernel

/-- **C53** `mix(x, y, 0) = x` and `mix(x, y, 1) = y` numerically, for finite arguments in every rounding mode. -/
theorem C53_mix {y a : ℕ} (hx : f.Finite x) (hy : f.Finite y) (ha : f.Finite a) :
    (f.val a = 0 → f.Finite (CC.mix f m x y a) ∧ f.val (CC.mix f m x y a) = f.val x) ∧
    (f.val a = 1 → f.Finite (CC.mix f m x y a) ∧ f.val (CC.mix f m x y a) = f.val y) := by
  have one := CC.finite_one f false
  constructor <;> intro h <;> unfold CC.mix
  · obtain ⟨s1, s2⟩ := RoundsTo.exact f one (by rw [h]; ring) (f.hsub_spec m one ha)
    have s3 : f.val (f.hsub m (CC.oneLit f false) a) = 1 := by rw [s2, h, onev]; ring
    obtain ⟨p1, p2⟩ := RoundsTo.exact f hx (by rw [s3]; ring) (f.hmul_spec m hx s1)
    obtain ⟨q1, q2⟩ := RoundsTo.exact f (f.finite_zero false) (by rw [h, f.val_zero]; ring) (f.hmul_spec m hy ha)
    obtain ⟨r1, r2⟩ := RoundsTo.exact f hx (by rw [p2, q2, s3, h]; ring) (f.hadd_spec m p1 q1)
    exact ⟨r1, by rw [r2, p2, q2, s3, h]; ring⟩
  · obtain ⟨s1, s2⟩ := RoundsTo.exact f (f.finite_zero false) (by rw [h, onev, f.val_zero]; ring) (f.hsub_spec m one ha)
    have s3 : f.val (f.hsub m (CC.oneLit f false) a) = 0 := by rw [s2, h, onev]; ring
    obtain ⟨p1, p2⟩ := RoundsTo.exact f (f.finite_zero false) (by rw [s3, f.val_zero]; ring) (f.hmul_spec m hx s1)
    obtain ⟨q1, q2⟩ := RoundsTo.exact f hy (by rw [h]; ring) (f.hmul_spec m hy ha)
    obtain ⟨r1, r2⟩ := RoundsTo.exact f hy (by rw [p2, q2, s3, h]; ring) (f.hadd_spec m p1 q1)
    exact ⟨r1, by rw [r2, p2, q2, s3, h]; ring⟩

/-- **C53** `remap` sends `src_start` exactly to `dst_start` (finite arguments, distinct source bounds, differences in range); the safe
variant agrees there and returns `dst_start` for an empty source interval. -/
theorem C53_remap_start {ds de : ℕ} (hs : f.Finite s) (he : f.Finite e) (hds : f.Finite ds) (hde : f.Finite de)
    (hd : |f.val e - f.val s| ≤ f.maxFin) (hd' : |f.val de - f.val ds| ≤ f.maxFin) :
    (f.val s ≠ f.val e → f.Finite (CC.remap f m s e ds de s) ∧ f.val (CC.remap f m s e ds de s) = f.val ds ∧
      ∀ v, CC.safeRemap f m s e ds de v = CC.remap f m s e ds de v) ∧
    (f.val s = f.val e → ∀ v, CC.safeRemap f m s e ds de v = ds) := by
  have R := f.hsub_spec m he hs
  have D := RoundsTo.finite_of_le f R hd
  have D' := RoundsTo.finite_of_le f (f.hsub_spec m hde hds) hd'
  constructor
  · intro hne
    have D0 := sub_ne_zero' f m he hs hne D
    obtain ⟨z1, z2⟩ := sub_self_val f m hs
    obtain ⟨p1, p2⟩ := RoundsTo.exact f (f.finite_zero false) (by rw [z2, f.val_zero]; ring) (f.hmul_spec m z1 D')
    rw [z2, zero_mul] at p2
    obtain ⟨q1, q2⟩ := RoundsTo.exact f (f.finite_zero false) (by rw [p2, f.val_zero]; simp) (f.hdiv_spec m p1 D D0)
    rw [p2, zero_div] at q2
    obtain ⟨r1, r2⟩ := RoundsTo.exact f hds (by rw [q2]; ring) (f.hadd_spec m hds q1)
    refine ⟨r1, by unfold CC.remap; rw [r2, q2]; ring, ?_⟩
    intro v
    unfold CC.safeRemap CC.remap
    dsimp only
    rw [if_neg]
    rw [CC.heq_finite f D (f.finite_zero _), f.val_zero]; exact D0
  · intro heq v
    unfold CC.safeRemap
    dsimp only
    rw [if_pos]
    rw [CC.heq_finite f D (f.finite_zero _), f.val_zero]
    obtain ⟨h1, h2⟩ := RoundsTo.exact f (f.finite_zero false) (by rw [f.val_zero, heq]; ring) R
    rw [h2, heq]; ring

/-- ... but `remap` does not send `src_end` exactly to `dst_end`: rounding can miss it. -/
theorem C53_remap_end_inexact : ∃ s e ds de, binary64.Finite s ∧ binary64.Finite e ∧ binary64.Finite ds ∧ binary64.Finite de ∧
    CC.remap binary64 .nearest s e ds de e ≠ de :=
  ⟨0, 0x3ff0000000000000, 0x4341c37937e08000, 0x3ff0000000000000 + 1, by decide +kernel⟩

/-- `mix` is not bounded by its end points even for equal end points and `0 ≤ a ≤ 1` (unlike `lerp`, `C42_lerp_bounded`):
a concrete pair where it exceeds both. -/
theorem C53_mix_not_bounded : ∃ x a, binary64.Finite x ∧ binary64.hle (binary64.zero false) a = true ∧
    binary64.hle a (CC.oneLit binary64 false) = true ∧ binary64.hgt (CC.mix binary64 .nearest x x a) x = true :=
  ⟨0x3fb999999999999a, 0x3fc70a3d70a3d70a, by decide +kernel⟩

end C53

/-! ## C54 -/

section C54
variable (m : Mode)

/-- **C54** `normalize` always returns a number in `[0, 1]`: for every bit pattern of every argument, NaN, infinities and an empty or
reversed interval included, in every rounding mode. -/
theorem C54_normalize_range {v lo hi : ℕ} :
    f.Finite (CC.normalize f m v lo hi) ∧ 0 ≤ f.val (CC.normalize f m v lo hi) ∧ f.val (CC.normalize f m v lo hi) ≤ 1 ∧
    f.Finite (CC.safeNormalize f m v lo hi) ∧ 0 ≤ f.val (CC.safeNormalize f m v lo hi) ∧
    f.val (CC.safeNormalize f m v lo hi) ≤ 1 := by
  obtain ⟨a, b, c, -⟩ := C40_saturate f (v := f.hdiv m (f.hsub m v lo) (f.hsub m hi lo)) (valid_hdiv f m _ _)
  refine ⟨a, b, c, ?_⟩
  unfold CC.safeNormalize
  dsimp only
  split_ifs
  · rw [f.val_zero]; exact ⟨f.finite_zero _, le_refl _, zero_le_one⟩
  · exact ⟨a, b, c⟩

/-- the quotient used by `normalize` and `smoothstep` -/
private theorem quot_le (m : Mode) {x lo hi : ℕ} (hx : f.Finite x) (hlo : f.Finite lo) (hhi : f.Finite hi) (hlt : f.val lo < f.val hi)
    (hd : f.val hi - f.val lo ≤ f.maxFin) :
    (f.val x ≤ f.val lo → f.val (CC.normalize f m x lo hi) = 0) ∧
    (f.val hi ≤ f.val x → f.val (CC.normalize f m x lo hi) = 1) := by
  have R := f.hsub_spec m hhi hlo
  have D := RoundsTo.finite_of_le f R (by rw [abs_of_pos (by linarith)]; exact hd)
  have RX := f.hsub_spec m hx hlo
  have Dpos : 0 < f.val (f.hsub m hi lo) := by
    have h := (hsub_pos_iff f hhi hlo (m := m)).2 hlt
    unfold Fmt.hgt at h
    rwa [CC.hlt_finite f (f.finite_zero _) D, f.val_zero] at h
  set q := f.hdiv m (f.hsub m x lo) (f.hsub m hi lo) with hq
  have hqv : f.Valid q := valid_hdiv f m _ _
  obtain ⟨-, -, -, s1, s2, s3, -⟩ := C40_saturate f hqv
  have e : CC.normalize f m x lo hi = CC.saturate f q := rfl
  rw [e]
  have sD : f.sgn (f.hsub m hi lo) = false := by
    have := R.sign; rw [if_neg (by linarith), decide_eq_false (by linarith)] at this; exact this
  have infcase : ∀ s, f.hsub m x lo = f.inf s → q = f.inf s := by
    intro s hs
    have hD := f.finite_B D
    have h1 : f.nanB (f.inf s) = false := by
      rw [← Bool.not_eq_true, f.nanB_iff (f.valid_inf s)]
      intro h; have := f.isInf_inf s; rw [isInf_iff] at this; rw [isNaN_iff] at h; omega
    have h2 : f.infB (f.inf s) = true := (f.infB_iff (f.valid_inf s)).2 (f.isInf_inf s)
    rw [hq, hs]
    unfold Fmt.hdiv
    simp only [h1, hD.1, hD.2, h2, sD, f.sgn_inf, Bool.or_self, Bool.false_eq_true, if_false, if_true, Bool.xor_false]
  have nanInf : ∀ s, ¬ f.IsNaN (f.inf s) := by
    intro s h; have := f.isInf_inf s; rw [isInf_iff] at this; rw [isNaN_iff] at h; omega
  constructor
  · intro h
    rcases RoundsTo.cases f RX with hf | ⟨-, h2⟩ | ⟨h1, -⟩
    · have hle : f.val (f.hsub m x lo) ≤ 0 := by
        have := RoundsTo.le_of RX (f.finite_zero false) (by rw [f.val_zero]; linarith)
        rw [f.xval_of_finite hf, f.xval_of_finite (f.finite_zero _), f.val_zero] at this
        exact_mod_cast this
      have RQ := f.hdiv_spec m hf D Dpos.ne'
      have hv0 : f.val (f.hsub m x lo) / f.val (f.hsub m hi lo) ≤ 0 := div_nonpos_of_nonpos_of_nonneg hle Dpos.le
      have h3 := RoundsTo.le_of RQ (f.finite_zero false) (by rw [f.val_zero]; exact hv0)
      rw [f.xval_of_finite (f.finite_zero _), f.val_zero] at h3
      rcases lt_or_eq_of_le h3 with h4 | h4
      · exact s2 RQ.not_nan h4
      · have qf : f.Finite q := by
          rcases f.not_nan_cases hqv RQ.not_nan with h | h
          · exact h
          · exfalso
            change f.xval q = _ at h4
            rw [f.isInf_eq h, xval_inf] at h4
            split_ifs at h4 <;> simp at h4
        have : f.val q = 0 := by
          change f.xval q = _ at h4
          rw [f.xval_of_finite qf] at h4; exact_mod_cast h4
        rw [s1 qf (by rw [this]) (by rw [this]; exact zero_le_one), this]
    · exfalso; have := f.maxFin_pos; linarith
    · have := infcase true h1
      rw [this] at s2 ⊢
      exact s2 (nanInf true) (by rw [xval_inf]; simp)
  · intro h
    have hmono := RoundsTo.mono R RX (by linarith)
    rcases RoundsTo.cases f RX with hf | ⟨h1, -⟩ | ⟨-, h2⟩
    · rw [f.xval_of_finite D, f.xval_of_finite hf] at hmono
      have hle : f.val (f.hsub m hi lo) ≤ f.val (f.hsub m x lo) := by exact_mod_cast hmono
      have RQ := f.hdiv_spec m hf D Dpos.ne'
      have h3 := RoundsTo.ge_of RQ (CC.finite_one f false) (by rw [onev, le_div_iff₀ Dpos]; linarith)
      rw [f.xval_of_finite (CC.finite_one f false), onev] at h3
      rcases lt_or_eq_of_le h3 with h4 | h4
      · exact s3 RQ.not_nan h4
      · have qf : f.Finite q := by
          rcases f.not_nan_cases hqv RQ.not_nan with h | h
          · exact h
          · exfalso
            change _ = f.xval q at h4
            rw [f.isInf_eq h, xval_inf] at h4
            split_ifs at h4
            · exact EReal.coe_ne_bot 1 h4
            · exact EReal.coe_ne_top 1 h4
        have : f.val q = 1 := by
          change _ = f.xval q at h4
          rw [f.xval_of_finite qf] at h4; exact_mod_cast h4.symm
        rw [s1 qf (by rw [this]; exact zero_le_one) (by rw [this]), this]
    · have := infcase false h1
      rw [this] at s3 ⊢
      exact s3 (nanInf false) (by rw [xval_inf]; simpa using EReal.coe_lt_top 1)
    · exfalso; have := f.maxFin_pos; linarith

/-- **C54** `normalize` saturates: at or below `min` it is 0, at or above `max` it is 1 (finite arguments, `min < max`, width in range). -/
theorem C54_normalize_ends {x lo hi : ℕ} (hx : f.Finite x) (hlo : f.Finite lo) (hhi : f.Finite hi) (hlt : f.val lo < f.val hi)
    (hd : f.val hi - f.val lo ≤ f.maxFin) :
    (f.val x ≤ f.val lo → f.val (CC.normalize f m x lo hi) = 0) ∧
    (f.val hi ≤ f.val x → f.val (CC.normalize f m x lo hi) = 1) := quot_le f m hx hlo hhi hlt hd

example : binary64.Valid 0x7ff8000000000000 ∧ CC.normalize binary64 .up 0x7ff8000000000000 0 0 = 0 ∧
    CC.normalize binary64 .nearest 0x4008000000000000 0x3ff0000000000000 0x4014000000000000 = 0x3fe0000000000000 := by decide +kernel

private theorem smooth_core (hw : f.Wide) (hF : 2 ≤ f.F) {x : ℕ} (hx : f.Finite x) (h0 : 0 ≤ f.val x) (h1 : f.val x ≤ 1) :
    f.Finite (f.hmul .nearest (f.hmul .nearest x x) (f.hsub .nearest (CC.lit f 3) (f.hmul .nearest (CC.twoLit f false) x))) ∧
    0 ≤ f.val (f.hmul .nearest (f.hmul .nearest x x) (f.hsub .nearest (CC.lit f 3) (f.hmul .nearest (CC.twoLit f false) x))) ∧
    f.val (f.hmul .nearest (f.hmul .nearest x x) (f.hsub .nearest (CC.lit f 3) (f.hmul .nearest (CC.twoLit f false) x))) ≤ 1 ∧
    (f.val x = 0 → f.val (f.hmul .nearest (f.hmul .nearest x x) (f.hsub .nearest (CC.lit f 3) (f.hmul .nearest (CC.twoLit f false) x))) = 0) ∧
    (f.val x = 1 → f.val (f.hmul .nearest (f.hmul .nearest x x) (f.hsub .nearest (CC.lit f 3) (f.hmul .nearest (CC.twoLit f false) x))) = 1) := by
  have hb2 := hw.2
  have hbF := hw.1
  obtain ⟨t1, t2, -⟩ := CC.two_val f hw false
  have t3 : f.val (CC.twoLit f false) = 2 := by rw [t2, sg_false]; norm_num
  have hF4 : 4 ≤ 2 ^ f.F := by
    have : 2 ^ 2 ≤ 2 ^ f.F := Nat.pow_le_pow_right (by decide) hF
    simpa using this
  obtain ⟨l1, l2⟩ := lit_spec f hw (k := 3) (by omega)
  have l3 : f.val (CC.lit f 3) = 3 := by rw [l2]; norm_num
  have z0 := f.finite_zero false
  have z0v := f.val_zero false
  have one := CC.finite_one f false
  -- 2x exact
  obtain ⟨w, w1, w2, -⟩ := f.scale_exact (x := x) (k := 1) (Or.inl (by norm_num)) (by
    rw [zpow_one, abs_of_nonneg (by positivity)]
    have h3 := two_zpow_le (show (2 : ℤ) ≤ (f.bias : ℤ) + 1 by omega)
    have h4 : ((2 : ℝ) ^ (2 : ℤ)) = 4 := by norm_num
    linarith)
  rw [zpow_one] at w2
  obtain ⟨d1, d2⟩ := RoundsTo.exact f w1 (by rw [w2, t3]; ring) (f.hmul_spec .nearest t1 hx)
  rw [t3] at d2
  -- x²
  have RS := f.hmul_spec .nearest hx hx
  obtain ⟨s1, s2, s3⟩ := RoundsTo.between RS z0 one (by rw [z0v]; positivity) (by rw [onev]; nlinarith)
  rw [z0v] at s2; rw [onev] at s3
  have RT := f.hsub_spec .nearest l1 d1
  rw [l3, d2] at RT
  obtain ⟨T1, T2, T3⟩ := RoundsTo.between RT one l1 (by rw [onev]; linarith) (by rw [l3]; linarith)
  rw [onev] at T2; rw [l3] at T3
  have RP := f.hmul_spec .nearest s1 T1
  have hup : f.val (f.hmul .nearest x x) * f.val (f.hsub .nearest (CC.lit f 3) (f.hmul .nearest (CC.twoLit f false) x)) ≤ 1 ∨
      (1 < f.val (f.hmul .nearest x x) * f.val (f.hsub .nearest (CC.lit f 3) (f.hmul .nearest (CC.twoLit f false) x)) ∧
       f.val (f.hmul .nearest x x) * f.val (f.hsub .nearest (CC.lit f 3) (f.hmul .nearest (CC.twoLit f false) x)) <
        1 + (2 : ℝ) ^ (-(f.F : ℤ) - 1)) := by
    by_cases hc : f.val (f.hmul .nearest x x) * f.val (f.hsub .nearest (CC.lit f 3) (f.hmul .nearest (CC.twoLit f false) x)) ≤ 1
    · exact Or.inl hc
    · refine Or.inr ⟨not_le.1 hc, ?_⟩
      rcases lt_or_ge (f.val x) (1 / 2) with hlt | hge
      · exfalso
        obtain ⟨b, b1, b2⟩ := f.rep (g := -2) (v := 1 / 4) ⟨1, by norm_num⟩ (by unfold Fmt.emin; omega)
          (by
            have h := two_zpow_le (show (-2 : ℤ) ≤ -2 + f.F + 1 by omega)
            have e : (2 : ℝ) ^ (-2 : ℤ) = 1 / 4 := by norm_num
            rw [abs_of_pos (by norm_num)]; rw [e] at h; exact h)
          (by
            have h := two_zpow_le (show (0 : ℤ) ≤ (f.bias : ℤ) + 1 by omega)
            rw [zpow_zero] at h; rw [abs_of_pos (by norm_num)]; linarith)
        have h5 := (RoundsTo.between RS z0 b1 (by rw [z0v]; positivity) (by rw [b2]; nlinarith)).2.2
        rw [b2] at h5
        nlinarith
      · -- 3 - 2x is exact
        have ex : ∃ c, f.Finite c ∧ f.val c = 3 - 2 * f.val x := by
          have hce : -(f.F : ℤ) - 1 ≤ f.ce x := f.le_ce_of (by
            rw [abs_of_nonneg h0]
            have e : (-(f.F : ℤ) - 1 + f.F) = -1 := by ring
            rw [e]; norm_num; linarith)
          have m1 : Mult (-(f.F : ℤ)) (2 * f.val x) := by
            obtain ⟨a, ha⟩ := (f.mult_ce x).weaken hce
            refine ⟨a, ?_⟩
            rw [ha]
            have := two_zpow_succ (-(f.F : ℤ) - 1)
            rw [sub_add_cancel] at this
            rw [this]; ring
          have m2 : Mult (-(f.F : ℤ)) (3 : ℝ) := by
            have := (Mult.int_mul 3 (Mult.two_zpow 0)).weaken (show -(f.F : ℤ) ≤ 0 by omega)
            rw [zpow_zero, mul_one] at this; push_cast at this; exact this
          refine f.rep (m2.sub m1) (by unfold Fmt.emin; omega) ?_ ?_
          · have e : (-(f.F : ℤ) + f.F + 1) = 1 := by ring
            rw [e, zpow_one, abs_of_nonneg (by linarith)]; linarith
          · have h := two_zpow_le (show (2 : ℤ) ≤ (f.bias : ℤ) + 1 by omega)
            have e : (2 : ℝ) ^ (2 : ℤ) = 4 := by norm_num
            rw [abs_of_nonneg (by linarith)]; rw [e] at h; linarith
        have hT := (RoundsTo.exact_of RT ex).2
        -- error of the square
        have hS := RoundsTo.half_of RS s1 (g := -(f.F : ℤ) - 1) (by unfold Fmt.emin; omega) (by
          have e : (-(f.F : ℤ) - 1 + f.F + 1) = 0 := by ring
          rw [e, zpow_zero, abs_of_nonneg (by positivity)]; nlinarith)
        have e4 : (2 : ℝ) ^ (-(f.F : ℤ) - 1) = 2 * (2 : ℝ) ^ (-(f.F : ℤ) - 1 - 1) := by
          have := two_zpow_succ (-(f.F : ℤ) - 1 - 1)
          rw [sub_add_cancel] at this; exact this
        have ep := two_zpow_pos (-(f.F : ℤ) - 1 - 1)
        rw [e4, hT]
        set E := (2 : ℝ) ^ (-(f.F : ℤ) - 1 - 1) with hE
        have hS2 := (abs_le.1 hS).2
        set X := f.val x
        set S := f.val (f.hmul .nearest x x)
        have b1 : S ≤ X * X + E := by linarith
        have b2 : S * (3 - 2 * X) ≤ (X * X + E) * (3 - 2 * X) := mul_le_mul_of_nonneg_right b1 (by linarith)
        rcases eq_or_lt_of_le hge with h | h
        · rw [← h] at b2; rw [← h]; nlinarith
        · have b3 : X * X * (3 - 2 * X) ≤ 1 := by nlinarith [sq_nonneg (1 - X), mul_nonneg (sq_nonneg (1 - X)) h0]
          nlinarith
  have hle : f.xval (f.hmul .nearest (f.hmul .nearest x x) (f.hsub .nearest (CC.lit f 3) (f.hmul .nearest (CC.twoLit f false) x))) ≤ 1 := by
    rcases hup with h | ⟨ha, hb⟩
    · have := RoundsTo.le_of RP one (by rw [onev]; exact h)
      rw [f.xval_of_finite one, onev] at this
      exact this
    · -- nearest: 1 is strictly closer than anything above
      have hfin : f.Finite (f.hmul .nearest (f.hmul .nearest x x) (f.hsub .nearest (CC.lit f 3) (f.hmul .nearest (CC.twoLit f false) x))) := by
        refine RoundsTo.finite_of_le f RP ?_
        rw [abs_of_nonneg (by positivity)]
        have h3 := f.abs_val_le l1
        rw [l3, abs_of_pos (by norm_num)] at h3
        have h5 := mul_le_mul s3 T3 (by linarith) (by norm_num : (0 : ℝ) ≤ 1)
        linarith
      have hd := RoundsTo.le_dist RP hfin one
      rw [onev, abs_of_neg (by linarith : (1 : ℝ) - _ < 0)] at hd
      rw [f.xval_of_finite hfin]
      by_contra hcon
      have hgt : 1 < f.val (f.hmul .nearest (f.hmul .nearest x x) (f.hsub .nearest (CC.lit f 3) (f.hmul .nearest (CC.twoLit f false) x))) := by
        rw [not_le] at hcon; exact_mod_cast hcon
      set p := f.hmul .nearest (f.hmul .nearest x x) (f.hsub .nearest (CC.lit f 3) (f.hmul .nearest (CC.twoLit f false) x)) with hp
      -- p ≥ 1 + 2^-F
      have hce : -(f.F : ℤ) ≤ f.ce p := f.le_ce_of (by
        rw [abs_of_pos (by linarith)]
        have e : (-(f.F : ℤ) + f.F) = 0 := by ring
        rw [e, zpow_zero]; exact hgt.le)
      have m1 := (f.mult_ce p).weaken hce
      have m2 : Mult (-(f.F : ℤ)) (1 : ℝ) := by
        have := (Mult.two_zpow 0).weaken (show -(f.F : ℤ) ≤ 0 by omega)
        rwa [zpow_zero] at this
      have h6 := Mult.lt_imp m2 m1 hgt
      have e4 : (2 : ℝ) ^ (-(f.F : ℤ)) = 2 * (2 : ℝ) ^ (-(f.F : ℤ) - 1) := by
        have := two_zpow_succ (-(f.F : ℤ) - 1)
        rw [sub_add_cancel] at this; exact this
      rw [e4] at h6
      have h7 := (abs_le.1 hd).2
      linarith
  have hge := RoundsTo.ge_of RP z0 (by rw [z0v]; positivity)
  rw [f.xval_of_finite z0, z0v] at hge
  have hfin : f.Finite (f.hmul .nearest (f.hmul .nearest x x) (f.hsub .nearest (CC.lit f 3) (f.hmul .nearest (CC.twoLit f false) x))) := by
    rcases f.not_nan_cases RP.valid RP.not_nan with h | h
    · exact h
    · exfalso
      rw [f.isInf_eq h, xval_inf] at hle hge
      split_ifs at hle hge
      · simp at hge
      · exact EReal.coe_ne_top 1 (top_le_iff.1 hle)
  rw [f.xval_of_finite hfin] at hle hge
  refine ⟨hfin, by exact_mod_cast hge, by exact_mod_cast hle, ?_, ?_⟩
  · intro hx0
    have e1 := (RoundsTo.exact f z0 (by rw [z0v, hx0]; ring) RS).2
    rw [hx0, mul_zero] at e1
    have e2 := (RoundsTo.exact f z0 (by rw [z0v, e1]; ring) RP).2
    rw [e2, e1, zero_mul]
  · intro hx1
    have e1 := (RoundsTo.exact f one (by rw [onev, hx1]; ring) RS).2
    rw [hx1, mul_one] at e1
    have e3 := (RoundsTo.exact f one (by rw [onev, hx1]; ring) RT).2
    have e2 := (RoundsTo.exact f one (by rw [onev, e1, e3, hx1]; ring) RP).2
    rw [e2, e1, e3, hx1]; ring

/-- **C54** `smoothstep` (default rounding) always returns a number in `[0, 1]`, for every bit pattern of every argument; it is 0 at or
below `edge0` and 1 at or above `edge1` (finite edges, `edge0 < edge1`, width in range).
Partial: only in the default rounding mode; in upward rounding the range claim is false, see `C54_smoothstep_up_above_one`. -/
theorem C54_smoothstep_partial (hw : f.Wide) (hF : 2 ≤ f.F) {e0 e1 x : ℕ} :
    f.Finite (CC.smoothstep f .nearest e0 e1 x) ∧ 0 ≤ f.val (CC.smoothstep f .nearest e0 e1 x) ∧
    f.val (CC.smoothstep f .nearest e0 e1 x) ≤ 1 ∧
    (f.Finite e0 → f.Finite e1 → f.Finite x → f.val e0 < f.val e1 → f.val e1 - f.val e0 ≤ f.maxFin →
      (f.val x ≤ f.val e0 → f.val (CC.smoothstep f .nearest e0 e1 x) = 0) ∧
      (f.val e1 ≤ f.val x → f.val (CC.smoothstep f .nearest e0 e1 x) = 1)) := by
  obtain ⟨a, b, c, -⟩ := C54_normalize_range f .nearest (v := x) (lo := e0) (hi := e1)
  obtain ⟨s1, s2, s3, s4, s5⟩ := smooth_core f hw hF a b c
  refine ⟨s1, s2, s3, ?_⟩
  intro h0 h1 hxf hlt hd
  obtain ⟨n1, n2⟩ := quot_le f .nearest hxf h0 h1 hlt hd
  exact ⟨fun h => s4 (n1 h), fun h => s5 (n2 h)⟩

/-- ... in upward rounding `smoothstep(0, 1, 1 - 2^-53)` exceeds 1. -/
theorem C54_smoothstep_up_above_one : ∃ x, binary64.Finite x ∧
    binary64.hgt (CC.smoothstep binary64 .up 0 0x3ff0000000000000 x) (CC.oneLit binary64 false) = true :=
  ⟨0x3fefffffffffffff, by decide +kernel⟩

example : binary64.Valid 0x3fe0000000000000 ∧ CC.smoothstep binary64 .nearest 0 0x3ff0000000000000 0x3fe0000000000000 = 0x3fe0000000000000 ∧
    CC.smoothstep binary64 .nearest 0 0x3ff0000000000000 0x3fefffffffffffff = 0x3ff0000000000000 := by decide +kernel

end C54

/-! ## C55 -/

/-- **C55** `delta_angle` on whole degrees (both angles integers with `|target - current| + 360 ≤ 2^F`): the result is exactly the
representative of `target - current` modulo 360 in `(-180, 180]`, in every rounding mode. -/
theorem C55_delta_angle (hw : f.Wide) (m : Mode) {c t : ℕ} {C T : ℤ} (hc : f.Finite c) (ht : f.Finite t) (ec : f.val c = C)
    (et : f.val t = T) (hCT : |T - C| + 360 ≤ 2 ^ f.F) :
    f.Finite (CC.deltaAngle f m c t) ∧ CC.safeDeltaAngle f m c t = CC.deltaAngle f m c t ∧
    ∃ R : ℤ, f.val (CC.deltaAngle f m c t) = R ∧ -180 < R ∧ R ≤ 180 ∧ (360 : ℤ) ∣ R - (T - C) := by
  have h360 : (360 : ℕ) ≤ 2 ^ f.F := by
    have h : (360 : ℤ) ≤ 2 ^ f.F := by linarith [abs_nonneg (T - C)]
    exact_mod_cast h
  obtain ⟨l1, l2⟩ := lit_spec f hw h360
  obtain ⟨k1, k2⟩ := lit_spec f hw (k := 180) (by omega)
  have l3 : f.val (CC.lit f 360) = ((360 : ℤ) : ℝ) := by rw [l2]; norm_num
  have k3 : f.val (CC.lit f 180) = ((180 : ℤ) : ℝ) := by rw [k2]; norm_num
  obtain ⟨d, d1, d2⟩ := int_datum f hw (z := T - C) (by linarith)
  obtain ⟨s1, s2⟩ := RoundsTo.exact f d1 (by rw [d2, ec, et]; push_cast; ring) (f.hsub_spec m ht hc)
  have s3 : f.val (f.hsub m t c) = ((T - C : ℤ) : ℝ) := by rw [s2, ec, et]; push_cast; ring
  obtain ⟨r1, r2, r3⟩ := C43_repeat_partial f hw m s1 l1 s3 l3 (by norm_num) hCT
  have e0 := Int.emod_nonneg (T - C) (by norm_num : (360 : ℤ) ≠ 0)
  have e1 := Int.emod_lt_of_pos (T - C) (by norm_num : (0 : ℤ) < 360)
  have dv : (360 : ℤ) ∣ (T - C) % 360 - (T - C) := by
    have := Int.emod_add_mul_ediv (T - C) 360
    exact ⟨-((T - C) / 360), by linarith⟩
  have hs : CC.safeDeltaAngle f m c t = CC.deltaAngle f m c t := by
    unfold CC.safeDeltaAngle CC.deltaAngle; rw [r3]
  refine ⟨?_, hs, ?_⟩
  · unfold CC.deltaAngle
    dsimp only
    split_ifs with h
    · unfold Fmt.hgt at h
      rw [CC.hlt_finite f k1 r1, k3, r2] at h
      obtain ⟨b, b1, b2⟩ := int_datum f hw (z := (T - C) % 360 - 360) (by rw [abs_le]; constructor <;> linarith [abs_nonneg (T - C)])
      exact (RoundsTo.exact f b1 (by rw [b2, r2, l3, Int.cast_sub]) (f.hsub_spec m r1 l1)).1
    · exact r1
  · unfold CC.deltaAngle
    dsimp only
    split_ifs with h
    · unfold Fmt.hgt at h
      rw [CC.hlt_finite f k1 r1, k3, r2] at h
      have h' : 180 < (T - C) % 360 := by exact_mod_cast h
      obtain ⟨b, b1, b2⟩ := int_datum f hw (z := (T - C) % 360 - 360) (by rw [abs_le]; constructor <;> linarith [abs_nonneg (T - C)])
      have := (RoundsTo.exact f b1 (by rw [b2, r2, l3, Int.cast_sub]) (f.hsub_spec m r1 l1)).2
      refine ⟨(T - C) % 360 - 360, by rw [this, r2, l3, Int.cast_sub], by linarith, by linarith, ?_⟩
      obtain ⟨q, hq⟩ := dv
      exact ⟨q - 1, by linarith⟩
    · unfold Fmt.hgt at h
      rw [CC.hlt_finite f k1 r1, k3, r2] at h
      have h' : ¬ 180 < (T - C) % 360 := by
        intro hc; apply h; exact_mod_cast hc
      exact ⟨(T - C) % 360, r2, by linarith, by linarith, dv⟩

example : binary64.Finite 0x4075e00000000000 ∧ CC.deltaAngle binary64 .nearest 0x4075e00000000000 0x4024000000000000 = 0x4034000000000000 ∧
    CC.deltaAngle binary32 .nearest 0x41200000 0x43af0000 = 0xc1a00000 := by decide +kernel -- 350→10: 20;  10→350: -20

/-! ## C56 -/

/-- **C56** `chgsign(x, y)` is the magnitude of `x` with the sign bit of `y`, bit for bit, for every non-NaN `x` and every `y`. -/
theorem C56_chgsign {x y : ℕ} (hx : f.Valid x) (hy : f.Valid y) (nx : ¬ f.IsNaN x) :
    ∀ i, (CC.chgsign f x y).testBit i = if i = f.E + f.F then y.testBit i else x.testBit i := by
  have h1 : f.nanB x = false := by rw [← Bool.not_eq_true, f.nanB_iff hx]; exact nx
  have ha : CC.abs f x = f.mag x := by rw [CC.abs_eq f hx, h1]; simp
  have hsm : FPBits.signMask f = 2 ^ (f.E + f.F) := by unfold FPBits.signMask; rw [Nat.shiftLeft_eq, one_mul]
  have hc : CC.chgsign f x y = f.pack (f.sgn y) (f.mag x) := by
    unfold CC.chgsign
    dsimp only
    rw [ha, hsm, Nat.and_two_pow]
    have ht : y.testBit (f.E + f.F) = f.sgn y := (testBit_top hy)
    rw [ht]
    cases f.sgn y
    · simp [CC.pack_false]
    · simp only [Bool.toNat_true, one_mul]
      rw [if_pos (by positivity)]
      unfold Fmt.hneg
      rw [CC.sgn_mag, CC.mag_mag]; rfl
  intro i
  rw [hc]
  have hml := f.mag_lt x
  have hbits : ∀ s, (f.pack s (f.mag x)).testBit i = if i = f.E + f.F then s else (f.mag x).testBit i := by
    intro s
    have hv := f.valid_pack s hml
    by_cases hi : i = f.E + f.F
    · subst hi; rw [if_pos rfl, testBit_top hv]; exact f.sgn_pack s hml
    · rw [if_neg hi]
      cases s
      · rw [CC.pack_false]
      · unfold Fmt.pack
        simp only [if_true]
        by_cases hlt : i < f.E + f.F
        · rw [Nat.testBit_two_pow_add_gt hlt]
        · have h3 : 2 ^ (f.E + f.F) + f.mag x < 2 ^ i := by
            calc 2 ^ (f.E + f.F) + f.mag x < 2 ^ (f.E + f.F + 1) := by rw [pow_succ]; omega
              _ ≤ 2 ^ i := Nat.pow_le_pow_right (by decide) (by omega)
          rw [Nat.testBit_lt_two_pow h3, Nat.testBit_lt_two_pow (by omega)]
  rw [hbits]
  by_cases hi : i = f.E + f.F
  · rw [if_pos hi, if_pos hi, hi, testBit_top hy]; rfl
  · rw [if_neg hi, if_neg hi]
    unfold Fmt.mag
    rw [Nat.testBit_mod_two_pow]
    by_cases hlt : i < f.E + f.F
    · simp [hlt]
    · have : x < 2 ^ i := lt_of_lt_of_le hx (Nat.pow_le_pow_right (by decide) (by omega))
      rw [Nat.testBit_lt_two_pow this]; simp

example : binary64.Valid 0x3ff0000000000000 ∧ CC.chgsign binary64 0x3ff0000000000000 0xfff8000000000000 = 0xbff0000000000000 ∧
    CC.chgsign binary64 0xbff0000000000000 0x4000000000000000 = 0x3ff0000000000000 := by decide +kernel

theorem ival_hneg (x : ℕ) : f.ival (f.hneg x) = -f.ival x := by
  unfold Fmt.ival
  rw [f.sgn_hneg, f.mag_hneg]
  cases f.sgn x <;> simp

/-- in the default mode exchanging the operands of a subtraction only changes the sign -/
theorem mag_hsub_comm {a b : ℕ} (ha : f.Finite a) (hb : f.Finite b) :
    f.mag (f.hsub .nearest a b) = f.mag (f.hsub .nearest b a) := by
  have a1 := f.finite_B ha
  have b1 := f.finite_B hb
  have a2 := f.finite_B (f.finite_hneg ha)
  have b2 := f.finite_B (f.finite_hneg hb)
  unfold Fmt.hsub Fmt.hadd
  simp only [a1.1, a1.2, b1.1, b1.2, a2.1, a2.2, b2.1, b2.2, Bool.or_self, Bool.false_eq_true, if_false, ival_hneg]
  have e : f.ival b + -f.ival a = -(f.ival a + -f.ival b) := by ring
  rw [e]
  by_cases hz : f.ival a + -f.ival b = 0
  · rw [hz]
    simp only [neg_zero, if_true]
    have : ∀ s, f.mag (f.zero s) = 0 := fun s => (f.val_eq_zero_iff _).1 (f.val_zero s)
    rw [this, this]
  · rw [if_neg hz, if_neg (by omega), Int.natAbs_neg]
    unfold Fmt.roundQ
    have hk : ∀ s, kind .nearest s = .nearest := fun s => rfl
    have hlt := fun s => lt_of_le_of_lt (f.cap_le (kind .nearest s) (f.roundMag (kind .nearest s) (f.ival a + -f.ival b).natAbs 1)) f.infMag_lt
    rw [f.mag_pack _ (hlt _), f.mag_pack _ (hlt _), hk, hk]

/-- **C56** `approximately(a, b, eps)` for finite `a`, `b` and finite `eps ≥ 0`: never rejects when the exact distance is within `eps`,
and is symmetric; it accepts a pair with larger exact distance only if the distance *rounds* to at most `eps`. -/
theorem C56_approximately (m : Mode) {a b e : ℕ} (ha : f.Finite a) (hb : f.Finite b) (he : f.Finite e) :
    (|f.val a - f.val b| ≤ f.val e → CC.approximately f m a b e = true) ∧
    (CC.approximately f m a b e = true ↔ f.Finite (f.hsub m a b) ∧ |f.val (f.hsub m a b)| ≤ f.val e) ∧
    (f.val e < 0 → CC.approximately f m a b e = false) ∧
    (CC.approximately f .nearest a b e = CC.approximately f .nearest b a e) := by
  have char : ∀ {m : Mode} {a b : ℕ}, f.Finite a → f.Finite b →
      (CC.approximately f m a b e = true ↔ f.Finite (f.hsub m a b) ∧ |f.val (f.hsub m a b)| ≤ f.val e) := by
    intro m a b ha hb
    have R := f.hsub_spec m ha hb
    unfold CC.approximately
    constructor
    · intro h
      rcases f.not_nan_cases R.valid R.not_nan with hf | hi
      · obtain ⟨c1, c2, -⟩ := C03_fabs_value f hf
        rw [CC.hle_finite f c1 he, c2] at h
        exact ⟨hf, h⟩
      · exfalso
        obtain ⟨a1, a2⟩ := abs_not_nan f R.valid R.not_nan
        have h' := ((f.hle_spec a1 he.valid).1 h).2.2
        have : f.IsInf (CC.abs f (f.hsub m a b)) ∧ f.sgn (CC.abs f (f.hsub m a b)) = false := by
          have h1 : f.nanB (f.hsub m a b) = false := by rw [← Bool.not_eq_true, f.nanB_iff R.valid]; exact R.not_nan
          rw [CC.abs_eq f R.valid, h1]
          simp only [Bool.false_eq_true, if_false]
          rw [isInf_iff] at hi ⊢
          exact ⟨⟨CC.valid_mag f _, by rw [CC.mag_mag]; exact hi.2⟩, CC.sgn_mag f _⟩
        rw [f.isInf_eq this.1, this.2, xval_inf, f.xval_of_finite he] at h'
        simp at h'
    · rintro ⟨hf, h⟩
      exact abs_hle_of f hf he h
  refine ⟨?_, char ha hb, ?_, ?_⟩
  · intro h
    rw [char ha hb]
    obtain ⟨h1, h2⟩ := abs_le.1 h
    obtain ⟨b1, b2, b3⟩ := RoundsTo.between (f.hsub_spec m ha hb) (f.finite_hneg he) he (by rw [f.val_hneg]; exact h1) h2
    rw [f.val_hneg] at b2
    exact ⟨b1, abs_le.2 ⟨b2, b3⟩⟩
  · intro h
    rw [← Bool.not_eq_true, char ha hb]
    rintro ⟨-, h2⟩
    linarith [abs_nonneg (f.val (f.hsub m a b))]
  · unfold CC.approximately
    have R := f.hsub_spec .nearest ha hb
    have R' := f.hsub_spec .nearest hb ha
    rw [CC.abs_eq f R.valid, CC.abs_eq f R'.valid, mag_hsub_comm f ha hb]
    have n1 : f.nanB (f.hsub .nearest a b) = false := by rw [← Bool.not_eq_true, f.nanB_iff R.valid]; exact R.not_nan
    have n2 : f.nanB (f.hsub .nearest b a) = false := by rw [← Bool.not_eq_true, f.nanB_iff R'.valid]; exact R'.not_nan
    rw [n1, n2]

example : binary64.Finite 0x3fd3333333333334 ∧ CC.approximately binary64 .nearest 0x3fd3333333333334 0x3fd3333333333333 0x3cb0000000000000 = true ∧
    CC.approximately binary64 .nearest 0x3fd3333333333334 0x3fd3333333333333 0x3c80000000000000 = false := by decide +kernel

end Verif
