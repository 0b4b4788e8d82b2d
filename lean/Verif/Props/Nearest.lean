import Verif.Lemmas.Nearest

/-!
# C06 (trunc), C07 (floor, ceil), C08 (round), C09 (rint, nearbyint), C10 (monotone, idempotent)

`Fmt.Wide` (precision at most the exponent bias) holds of binary32 and binary64 (`binary32_wide`, `binary64_wide`).
-/

namespace Verif
open Fmt

/-- `n` is a nearest integer to `v`; a half-way case goes away from zero. -/
def IsRoundHalfAway (v : ℝ) (n : ℤ) : Prop := |(n : ℝ) - v| ≤ 1 / 2 ∧ (|(n : ℝ) - v| = 1 / 2 → |v| < |(n : ℝ)|)
/-- `n` is a nearest integer to `v`; a half-way case goes to the even neighbour. -/
def IsRoundHalfEven (v : ℝ) (n : ℤ) : Prop := |(n : ℝ) - v| ≤ 1 / 2 ∧ (|(n : ℝ) - v| = 1 / 2 → Even n)
/-- truncation of a real number -/
noncomputable def truncR (v : ℝ) : ℤ := if 0 ≤ v then ⌊v⌋ else ⌈v⌉
/-- the integer rounding direction `m` selects -/
def IsRintOf (m : Mode) (v : ℝ) (n : ℤ) : Prop :=
  match m with
  | .nearest => IsRoundHalfEven v n
  | .zero => n = truncR v
  | .down => n = ⌊v⌋
  | .up => n = ⌈v⌉

/-- `g` rounds to integers according to `P`: finite data go to the integer chosen by `P`, keep their sign bit;
infinities and NaN are returned unchanged. -/
structure RoundsToInt (f : Fmt) (P : ℝ → ℤ → Prop) (g : ℕ → ℕ) : Prop where
  finite : ∀ {x}, f.Finite x → f.Finite (g x) ∧ f.sgn (g x) = f.sgn x ∧ ∃ n : ℤ, f.val (g x) = n ∧ P (f.val x) n
  other : ∀ {x}, f.Valid x → ¬ f.Finite x → g x = x

section conv
open CC

theorem conv_trunc {s : Bool} {u : ℝ} {k : ℕ} (hu : 0 ≤ u) (h : MagSpec .towardzero s u k) :
    ∃ n : ℤ, sg s * (k : ℝ) = n ∧ n = truncR (sg s * u) := by
  simp only [MagSpec] at h
  cases s
  · refine ⟨k, by simp, ?_⟩
    unfold truncR; rw [sg_false, one_mul, if_pos hu, eq_comm, Int.floor_eq_iff]
    exact ⟨by exact_mod_cast h.1, by exact_mod_cast h.2⟩
  · refine ⟨-k, by simp, ?_⟩
    unfold truncR; rw [sg_true]
    split
    · have : u = 0 := by linarith
      subst this
      have : k = 0 := by have := h.1; exact_mod_cast le_antisymm this (Nat.cast_nonneg k)
      subst this; simp
    · rw [eq_comm, Int.ceil_eq_iff]
      push_cast
      constructor <;> linarith [h.1, h.2]

theorem conv_down {s : Bool} {u : ℝ} {k : ℕ} (h : MagSpec .downward s u k) :
    ∃ n : ℤ, sg s * (k : ℝ) = n ∧ n = ⌊sg s * u⌋ := by
  simp only [MagSpec] at h
  cases s
  · refine ⟨k, by simp, ?_⟩
    simp at h
    rw [sg_false, one_mul, eq_comm, Int.floor_eq_iff]
    exact ⟨by exact_mod_cast h.1, by exact_mod_cast h.2⟩
  · refine ⟨-k, by simp, ?_⟩
    simp at h
    rw [sg_true, eq_comm, Int.floor_eq_iff]
    push_cast; constructor <;> linarith [h.1, h.2]

theorem conv_up {s : Bool} {u : ℝ} {k : ℕ} (h : MagSpec .upward s u k) :
    ∃ n : ℤ, sg s * (k : ℝ) = n ∧ n = ⌈sg s * u⌉ := by
  simp only [MagSpec] at h
  cases s
  · refine ⟨k, by simp, ?_⟩
    simp at h
    rw [sg_false, one_mul, eq_comm, Int.ceil_eq_iff]
    push_cast; constructor <;> linarith [h.1, h.2]
  · refine ⟨-k, by simp, ?_⟩
    simp at h
    rw [sg_true, eq_comm, Int.ceil_eq_iff]
    push_cast; constructor <;> linarith [h.1, h.2]

theorem conv_dist (s : Bool) (u : ℝ) (k : ℕ) :
    |(((if s then -(k : ℤ) else k) : ℤ) : ℝ) - sg s * u| = |(k : ℝ) - u| := by
  cases s
  · simp
  · simp only [if_true, sg_true]; push_cast; rw [← abs_neg]; congr 1; ring

theorem conv_even {s : Bool} {u : ℝ} {k : ℕ} (h : MagSpec .tonearest s u k) :
    ∃ n : ℤ, sg s * (k : ℝ) = n ∧ IsRoundHalfEven (sg s * u) n := by
  simp only [MagSpec] at h
  refine ⟨if s then -(k : ℤ) else k, by cases s <;> simp, ?_⟩
  unfold IsRoundHalfEven
  rw [conv_dist]
  refine ⟨h.1, fun h' => ?_⟩
  have := h.2 h'
  cases s
  · simpa using this
  · simpa using this

theorem conv_away {s : Bool} {u : ℝ} {k : ℕ} (hu : 0 ≤ u) (h : MagSpec .tonearestfromzero s u k) :
    ∃ n : ℤ, sg s * (k : ℝ) = n ∧ IsRoundHalfAway (sg s * u) n := by
  simp only [MagSpec] at h
  refine ⟨if s then -(k : ℤ) else k, by cases s <;> simp, ?_⟩
  unfold IsRoundHalfAway
  rw [conv_dist]
  refine ⟨h.1, fun h' => ?_⟩
  have := h.2 h'
  rw [abs_mul, abs_sg, one_mul, abs_of_nonneg hu]
  cases s <;> simpa using this

end conv

section
variable (f : Fmt)

theorem notFinite_infOrNan {x : ℕ} (hx : f.Valid x) (h : ¬ f.Finite x) : FPBits.isInfOrNan f x = true := by
  unfold FPBits.isInfOrNan; rw [FPBits.isFinite_eq]; simp
  by_contra hc
  exact h ((f.finite_iff x).2 ⟨hx, by omega⟩)

theorem notFinite_inf_nan {x : ℕ} (hx : f.Valid x) (h : ¬ f.Finite x) : (CC.isinf f x || CC.isnan f x) = true := by
  rw [CC.isinf_eq, CC.isnan_eq, Bool.or_eq_true]
  by_contra hc
  rw [not_or, Bool.not_eq_true, Bool.not_eq_true] at hc
  exact h (f.finite_of_B hx hc.2 hc.1)

theorem directionalRound_other (hm : Mode) (d : CC.DMode) {x : ℕ} (hx : f.Valid x) (h : ¬ f.Finite x) :
    CC.directionalRound f hm d x = x := by
  unfold CC.directionalRound; rw [notFinite_infOrNan f hx h]; simp

theorem early_finite {x : ℕ} (hx : f.Finite x) :
    (CC.isinf f x || f.heq x (f.zero false) || CC.isnan f x) = f.zeroB x := by
  rw [CC.isinf_eq, CC.isnan_eq, (f.finite_B hx).1, (f.finite_B hx).2, CC.heq_zero]; simp

/-- all facts about `trunc` in one: sign kept, magnitude the floor of the magnitude -/
theorem trunc_mag {x : ℕ} (hx : f.Finite x) : ∃ k : ℕ, f.Finite (CC.trunc f x) ∧
    f.val (CC.trunc f x) = sg (f.sgn x) * k ∧ f.sgn (CC.trunc f x) = f.sgn x ∧
    CC.MagSpec .towardzero (f.sgn x) |f.val x| k := by
  obtain ⟨k, h | h⟩ := CC.trunc_spec f hx
  · exact ⟨k, h.1, h.2.1, h.2.2.1, h.2.2.2.1⟩
  · rw [h.1]
    exact ⟨k, hx, by rw [CC.val_eq_sg_abs, h.2], rfl, by rw [h.2]; exact CC.MagSpec.self _ _ _⟩

/-- **C06**: `trunc` discards the fractional part, exactly, for every finite datum of every format, keeping the sign bit (also of
zero results); infinities and NaN are returned unchanged. -/
theorem C06_trunc : RoundsToInt f (fun v n => n = truncR v) (CC.trunc f) where
  finite := by
    intro x hx
    obtain ⟨k, h1, h2, h3, h4⟩ := trunc_mag f hx
    refine ⟨h1, h3, ?_⟩
    obtain ⟨n, hn, hp⟩ := conv_trunc (abs_nonneg _) h4
    exact ⟨n, by rw [h2, hn], by rw [CC.val_eq_sg_abs]; exact hp⟩
  other := by
    intro x hx h
    unfold CC.trunc; rw [notFinite_infOrNan f hx h]; simp

/-- **C06**, magnitude form: `|trunc x|` is the largest integer not above `|x|`. -/
theorem C06_trunc_mag {x : ℕ} (hx : f.Finite x) : |f.val (CC.trunc f x)| = (⌊|f.val x|⌋₊ : ℝ) := by
  obtain ⟨k, h1, h2, h3, h4⟩ := trunc_mag f hx
  simp only [CC.MagSpec] at h4
  rw [h2, abs_mul, abs_sg, one_mul, (Nat.floor_eq_iff (abs_nonneg _)).2 h4]
  simp

example : binary64.Finite 0xc002666666666666 ∧ CC.trunc binary64 0xc002666666666666 = 0xc000000000000000 ∧
    CC.trunc binary64 0xbfe8000000000000 = 0x8000000000000000 ∧ CC.trunc binary32 0x7f800000 = 0x7f800000 := by decide +kernel

theorem hpos_iff {x : ℕ} (hx : f.Finite x) : (f.hgt x (f.zero false) = true ↔ 0 < f.val x) ∧
    (f.hlt x (f.zero false) = true ↔ f.val x < 0) := by
  unfold hgt
  rw [CC.hlt_finite f (f.finite_zero _) hx, CC.hlt_finite f hx (f.finite_zero _), f.val_zero]
  exact ⟨Iff.rfl, Iff.rfl⟩

theorem sgn_of_pos {x : ℕ} (h : 0 < f.val x) : f.sgn x = false := by
  by_contra hc
  have hs : f.sgn x = true := by simpa using hc
  rw [CC.val_eq_sg_abs, hs, sg_true] at h
  linarith [abs_nonneg (f.val x)]
theorem sgn_of_neg {x : ℕ} (h : f.val x < 0) : f.sgn x = true := by
  by_contra hc
  have hs : f.sgn x = false := by simpa using hc
  rw [CC.val_eq_sg_abs, hs, sg_false] at h
  linarith [abs_nonneg (f.val x)]

/-- **C07**: `floor x` is the greatest integer not above `x`, exactly, in every rounding mode. -/
theorem C07_floor (hw : f.Wide) (hm : Mode) : RoundsToInt f (fun v n => n = ⌊v⌋) (CC.floor f hm) where
  finite := by
    intro x hx
    unfold CC.floor
    rw [early_finite f hx]
    by_cases h0 : f.zeroB x = true
    · rw [if_pos h0]
      have : f.val x = 0 := (f.val_eq_zero_iff x).2 (by simpa [zeroB] using h0)
      exact ⟨hx, rfl, 0, by rw [this]; simp, by rw [this]; simp⟩
    rw [if_neg h0]
    have hne : f.val x ≠ 0 := fun h => h0 (by simpa [zeroB] using (f.val_eq_zero_iff x).1 h)
    obtain ⟨k, h1, h2, h3, h4⟩ := trunc_mag f hx
    simp only [CC.MagSpec] at h4
    have hT := C06_trunc f
    obtain ⟨_, _, n, hn, hP⟩ := hT.finite hx
    simp only
    split
    · rename_i hc
      refine ⟨h1, h3, n, hn, ?_⟩
      rw [Bool.or_eq_true, CC.heq_finite f h1 hx, (hpos_iff f hx).1] at hc
      rcases hc with hc | hc
      · rw [← hc, hn]; simp
      · rw [hP]; unfold truncR; rw [if_pos hc.le]
    · rename_i hc
      rw [Bool.or_eq_true, CC.heq_finite f h1 hx, (hpos_iff f hx).1, not_or] at hc
      have hlt : f.val x < 0 := lt_of_le_of_ne (not_lt.1 hc.2) hne
      have hs := sgn_of_neg f hlt
      have hq : k < 2 ^ f.F := by
        rcases CC.trunc_spec f hx with ⟨k', h | h⟩
        · -- k' = k
          by_contra hh
          push Not at hh
          have e : (k : ℝ) = k' := by
            have := h.2.1; rw [h2] at this; exact mul_left_cancel₀ (sg_ne_zero _) this
          -- then |x| ≥ 2^F hence integral, contradiction with trunc ≠ x
          have hle := h.2.2.2.2
          rw [← e] at hle
          have hk : k = 2 ^ f.F := le_antisymm (by exact_mod_cast hle) hh
          -- |val x| ≥ 2^F
          have hx2 : (2 : ℝ) ^ f.F ≤ |f.val x| := by
            have := h4.1; rw [hk] at this; exact_mod_cast this
          rcases CC.range f (x := x) with ⟨n, hn', he⟩ | ⟨h', he⟩ | ⟨t, q, r, ht, htF, he, hr, hS, hv⟩
          · apply hc.1
            unfold CC.trunc
            rw [CC.isInfOrNan_finite f hx, CC.heq_zero]
            simp only [Bool.false_eq_true, if_false]
            rw [if_neg h0, if_pos (by exact he)]
          · have : (1 : ℝ) ≤ 2 ^ f.F := one_le_pow₀ (by norm_num)
            linarith
          · have hT := CC.truncated_spec f hx ht htF he hr hS
            have hq1 := hT.2.2.2.1
            have hp : (0 : ℝ) < 2 ^ t := by positivity
            have h1' : (r : ℝ) / 2 ^ t < 1 := by rw [div_lt_one hp]; exact_mod_cast hr
            have : ((q + 1 : ℕ) : ℝ) ≤ 2 ^ f.F := by exact_mod_cast hq1
            push_cast at this
            linarith
        · exact absurd (by rw [h.1]) hc.1
      rw [hs] at h2 h3
      have := CC.hadd_one f hw hm h1 h2 hq
      rw [CC.hsub_one]
      refine ⟨this.1, by rw [this.2.2, hs], -((k + 1 : ℕ) : ℤ), by rw [this.2.1]; simp, ?_⟩
      rw [eq_comm, Int.floor_eq_iff]
      rw [abs_of_neg hlt] at h4
      have hkne : (k : ℝ) ≠ - f.val x := by
        intro h; apply hc.1; rw [h2, sg_true, h]; ring
      have hklt : (k : ℝ) < - f.val x := lt_of_le_of_ne h4.1 hkne
      push_cast
      constructor <;> linarith [h4.2]
  other := by
    intro x hx h
    unfold CC.floor
    have := notFinite_inf_nan f hx h
    rw [Bool.or_eq_true] at this
    rcases this with h | h <;> simp [h]

theorem nearest_k_lt {x k : ℕ} (hx : f.Finite x) (h0 : ¬ f.zeroB x = true)
    (h2 : f.val (CC.trunc f x) = sg (f.sgn x) * k) (hne : ¬ f.val (CC.trunc f x) = f.val x) : k < 2 ^ f.F := by
  have hT1 : CC.trunc f x = (if FPBits.getExponent f x ≥ (f.F : ℤ) then x
    else if FPBits.getExponent f x ≤ -1 then FPBits.zero f (FPBits.isNeg f x)
    else FPBits.setMantissa f x ((FPBits.getMantissa f x >>> ((f.F : ℤ) - FPBits.getExponent f x).toNat) <<<
      ((f.F : ℤ) - FPBits.getExponent f x).toNat)) := by
    unfold CC.trunc
    rw [CC.isInfOrNan_finite f hx, CC.heq_zero]
    simp only [Bool.false_eq_true, if_false]
    rw [if_neg h0]
  rcases CC.range f (x := x) with ⟨n, hn', he⟩ | ⟨h', he⟩ | ⟨t, q, r, ht, htF, he, hr, hS, hv⟩
  · exact absurd (by rw [hT1, if_pos (by exact he)]) hne
  · rw [if_neg (by omega), if_pos he, FPBits.zero_eq] at hT1
    rw [hT1, ← zero_eq_pack, f.val_zero] at h2
    have : (k : ℝ) = 0 := by
      rcases mul_eq_zero.1 h2.symm with h | h
      · exact absurd h (sg_ne_zero _)
      · exact h
    have : k = 0 := by exact_mod_cast this
    subst this; positivity
  · have ht' : ((f.F : ℤ) - FPBits.getExponent f x).toNat = t := by rw [he]; omega
    have hT := CC.truncated_spec f hx ht htF he hr hS
    rw [if_neg (by omega), if_neg (by omega), ht'] at hT1
    rw [hT1, hT.2.1] at h2
    have : (q : ℝ) = k := mul_left_cancel₀ (sg_ne_zero _) h2
    have : q = k := by exact_mod_cast this
    rw [← this]; exact hT.2.2.2.1

/-- **C07**: `ceil x` is the least integer not below `x`, exactly, in every rounding mode. -/
theorem C07_ceil (hw : f.Wide) (hm : Mode) : RoundsToInt f (fun v n => n = ⌈v⌉) (CC.ceil f hm) where
  finite := by
    intro x hx
    unfold CC.ceil
    rw [early_finite f hx]
    by_cases h0 : f.zeroB x = true
    · rw [if_pos h0]
      have : f.val x = 0 := (f.val_eq_zero_iff x).2 (by simpa [zeroB] using h0)
      exact ⟨hx, rfl, 0, by rw [this]; simp, by rw [this]; simp⟩
    rw [if_neg h0]
    have hne : f.val x ≠ 0 := fun h => h0 (by simpa [zeroB] using (f.val_eq_zero_iff x).1 h)
    obtain ⟨k, h1, h2, h3, h4⟩ := trunc_mag f hx
    simp only [CC.MagSpec] at h4
    obtain ⟨_, _, n, hn, hP⟩ := (C06_trunc f).finite hx
    simp only
    split
    · rename_i hc
      refine ⟨h1, h3, n, hn, ?_⟩
      rw [Bool.or_eq_true, CC.heq_finite f h1 hx, (hpos_iff f hx).2] at hc
      rcases hc with hc | hc
      · rw [← hc, hn]; simp
      · rw [hP]; unfold truncR; rw [if_neg (not_le.2 hc)]
    · rename_i hc
      rw [Bool.or_eq_true, CC.heq_finite f h1 hx, (hpos_iff f hx).2, not_or] at hc
      have hgt : 0 < f.val x := lt_of_le_of_ne (not_lt.1 hc.2) (Ne.symm hne)
      have hs := sgn_of_pos f hgt
      have hq := nearest_k_lt f hx h0 h2 hc.1
      rw [hs] at h2 h3
      have := CC.hadd_one f hw hm h1 h2 hq
      refine ⟨this.1, by rw [this.2.2, hs], ((k + 1 : ℕ) : ℤ), by rw [this.2.1]; simp, ?_⟩
      rw [eq_comm, Int.ceil_eq_iff]
      rw [abs_of_pos hgt] at h4
      have hkne : (k : ℝ) ≠ f.val x := by
        intro h; apply hc.1; rw [h2, sg_false, h]; ring
      have hklt : (k : ℝ) < f.val x := lt_of_le_of_ne h4.1 hkne
      push_cast
      constructor <;> linarith [h4.2]
  other := by
    intro x hx h
    unfold CC.ceil
    have := notFinite_inf_nan f hx h
    rw [Bool.or_eq_true] at this
    rcases this with h | h <;> simp [h]

example : binary64.Wide ∧ CC.floor binary64 .up 0xc002666666666666 = 0xc008000000000000 ∧
    CC.ceil binary64 .down 0x3fb999999999999a = 0x3ff0000000000000 ∧
    CC.ceil binary64 .down 0xbfe0000000000000 = 0x8000000000000000 ∧ CC.floor binary32 .nearest 0x80000001 = 0xbf800000 :=
  ⟨binary64_wide, by decide +kernel⟩

/-- **C08**: `round` returns the nearest integer, ties away from zero, whatever the rounding mode. -/
theorem C08_round (hw : f.Wide) (hm : Mode) : RoundsToInt f IsRoundHalfAway (CC.round f hm) where
  finite := by
    intro x hx
    unfold CC.round
    rw [early_finite f hx]
    by_cases h0 : f.zeroB x = true
    · rw [if_pos h0]
      have : f.val x = 0 := (f.val_eq_zero_iff x).2 (by simpa [zeroB] using h0)
      exact ⟨hx, rfl, 0, by rw [this]; simp, by rw [this]; unfold IsRoundHalfAway; norm_num⟩
    rw [if_neg h0]
    obtain ⟨k, h1, h2, h3, h4⟩ := CC.directionalRound_spec f hw hm .tonearestfromzero hx
    refine ⟨h1, h3, ?_⟩
    obtain ⟨n, hn, hp⟩ := conv_away (abs_nonneg _) h4
    exact ⟨n, by rw [h2, hn], by rw [CC.val_eq_sg_abs]; exact hp⟩
  other := by
    intro x hx h
    unfold CC.round
    have := notFinite_inf_nan f hx h
    rw [Bool.or_eq_true] at this
    rcases this with h | h <;> simp [h]

example : CC.round binary64 .zero 0x3fe0000000000000 = 0x3ff0000000000000 ∧
    CC.round binary64 .zero 0x3fdfffffffffffff = 0 ∧
    CC.round binary64 .nearest 0xc004000000000000 = 0xc008000000000000 := by decide +kernel

/-- **C09**: `rint` and `nearbyint` select the integer of the current rounding direction. -/
theorem C09_rint (hw : f.Wide) (m : Mode) : RoundsToInt f (IsRintOf m) (CC.rint f m) ∧
    RoundsToInt f (IsRintOf m) (CC.nearbyint f m) := by
  have h : RoundsToInt f (IsRintOf m) (CC.rint f m) := by
    constructor
    · intro x hx
      unfold CC.rint
      obtain ⟨k, h1, h2, h3, h4⟩ := CC.directionalRound_spec f hw m (CC.DMode.ofMode m) hx
      refine ⟨h1, h3, ?_⟩
      rw [h2, CC.val_eq_sg_abs f x]
      cases m <;> simp only [CC.DMode.ofMode] at h4 <;> simp only [IsRintOf]
      · obtain ⟨n, hn, hp⟩ := conv_even h4; exact ⟨n, hn, hp⟩
      · obtain ⟨n, hn, hp⟩ := conv_trunc (abs_nonneg _) h4; exact ⟨n, hn, hp⟩
      · obtain ⟨n, hn, hp⟩ := conv_down h4; exact ⟨n, hn, hp⟩
      · obtain ⟨n, hn, hp⟩ := conv_up h4; exact ⟨n, hn, hp⟩
    · intro x hx h; exact directionalRound_other f _ _ hx h
  exact ⟨h, h⟩

example : CC.rint binary64 .nearest 0x4004000000000000 = 0x4000000000000000 ∧
    CC.rint binary64 .nearest 0x3ff8000000000000 = 0x4000000000000000 ∧
    CC.rint binary64 .up 0x3ff0000000000001 = 0x4000000000000000 ∧
    CC.rint binary64 .down 0xbff0000000000001 = 0xc000000000000000 := by decide +kernel

/-! ## C10 -/

/-- a choice of integers that is monotone and keeps integers -/
structure GoodChoice (P : ℝ → ℤ → Prop) : Prop where
  mono : ∀ {v w : ℝ} {n k : ℤ}, v ≤ w → P v n → P w k → n ≤ k
  fix : ∀ {n k : ℤ}, P (n : ℝ) k → k = n

theorem good_floor : GoodChoice (fun v n => n = ⌊v⌋) :=
  ⟨fun h hn hk => by rw [hn, hk]; exact Int.floor_mono h, fun h => by simpa using h⟩
theorem good_ceil : GoodChoice (fun v n => n = ⌈v⌉) :=
  ⟨fun h hn hk => by rw [hn, hk]; exact Int.ceil_mono h, fun h => by simpa using h⟩
theorem good_trunc : GoodChoice (fun v n => n = truncR v) := by
  constructor
  · intro v w n k h hn hk
    rw [hn, hk]; unfold truncR
    split_ifs with h1 h2 h2
    · exact Int.floor_mono h
    · linarith
    · exact le_trans (Int.ceil_le.2 (by push_cast; linarith)) (Int.floor_nonneg.2 h2)
    · exact Int.ceil_mono h
  · intro n k h; rw [h]; unfold truncR; split <;> simp

theorem half_mono {v w : ℝ} {n k : ℤ} (h : v ≤ w) (hn : |(n : ℝ) - v| ≤ 1 / 2) (hk : |(k : ℝ) - w| ≤ 1 / 2)
    (hlt : k < n) : n = k + 1 ∧ v = k + 1 / 2 ∧ w = k + 1 / 2 := by
  rw [abs_le] at hn hk
  have h1 : n = k + 1 := by
    have : (n : ℝ) ≤ k + 1 := by linarith
    have : n ≤ k + 1 := by exact_mod_cast this
    omega
  have h2 : (n : ℝ) = k + 1 := by exact_mod_cast h1
  exact ⟨h1, by linarith, by linarith⟩

theorem fix_half {n k : ℤ} (h : |(k : ℝ) - (n : ℝ)| ≤ 1 / 2) : k = n := by
  have h1 : |((k - n : ℤ) : ℝ)| < 1 := by push_cast; linarith
  have h2 : |k - n| < 1 := by exact_mod_cast h1
  have := Int.abs_lt_one_iff.1 h2
  omega

theorem good_even : GoodChoice IsRoundHalfEven := by
  constructor
  · intro v w n k h hn hk
    by_contra hc
    obtain ⟨h1, h2, h3⟩ := half_mono h hn.1 hk.1 (by omega)
    have e1 := hn.2 (by rw [h1, h2]; push_cast; norm_num)
    have e2 := hk.2 (by rw [h3]; norm_num)
    rw [h1, Int.even_add_one] at e1
    exact e1 e2
  · intro n k h; exact fix_half h.1

theorem good_away : GoodChoice IsRoundHalfAway := by
  constructor
  · intro v w n k h hn hk
    by_contra hc
    obtain ⟨h1, h2, h3⟩ := half_mono h hn.1 hk.1 (by omega)
    have e1 := hn.2 (by rw [h1, h2]; push_cast; norm_num)
    have e2 := hk.2 (by rw [h3]; norm_num)
    rw [h1, h2] at e1; rw [h3] at e2
    rcases le_or_gt 0 k with hk0 | hk0
    · have : (0 : ℝ) ≤ k := by exact_mod_cast hk0
      rw [abs_of_nonneg (by linarith), abs_of_nonneg this] at e2; linarith
    · have : (k : ℝ) ≤ -1 := by exact_mod_cast Int.le_sub_one_of_lt hk0
      push_cast at e1
      rw [abs_of_nonpos (by linarith), abs_of_nonpos (by linarith)] at e1; linarith
  · intro n k h; exact fix_half h.1

theorem good_rint (m : Mode) : GoodChoice (IsRintOf m) := by
  cases m
  · exact good_even
  · exact good_trunc
  · exact good_floor
  · exact good_ceil

/-- The claim of C10 for a function `g` on patterns of format `f`. -/
structure MonotoneIdempotent (f : Fmt) (g : ℕ → ℕ) : Prop where
  /-- `x ≤ y` implies `g x ≤ g y`, infinities included -/
  mono : ∀ {x y}, f.Valid x → f.Valid y → ¬ f.IsNaN x → ¬ f.IsNaN y → f.xval x ≤ f.xval y → f.xval (g x) ≤ f.xval (g y)
  /-- `g (g x) = g x`, bit for bit -/
  idem : ∀ {x}, f.Valid x → g (g x) = g x
  /-- integer-valued data are returned bit for bit -/
  fix : ∀ {x}, f.Finite x → (∃ n : ℤ, f.val x = n) → g x = x

theorem not_finite_of_inf {x : ℕ} (h : f.IsInf x) : ¬ f.Finite x := fun h' => h'.2 h.2.1
theorem not_finite_of_nan {x : ℕ} (h : f.IsNaN x) : ¬ f.Finite x := fun h' => h'.2 h.2.1

theorem RoundsToInt.monotoneIdempotent {f : Fmt} {P : ℝ → ℤ → Prop} {g : ℕ → ℕ} (h : RoundsToInt f P g) (hP : GoodChoice P) :
    MonotoneIdempotent f g := by
  have hfix : ∀ {x}, f.Finite x → (∃ n : ℤ, f.val x = n) → g x = x := by
    intro x hx hn
    obtain ⟨n, hn⟩ := hn
    obtain ⟨h1, h2, k, hk, hp⟩ := h.finite hx
    rw [hn] at hp
    have := hP.fix hp
    exact f.eq_of_val_eq h1.valid hx.valid (by rw [hk, this, hn]) h2
  refine ⟨?_, ?_, hfix⟩
  · intro x y hx hy nx ny hle
    rcases f.not_nan_cases hx nx with fx | ix
    · obtain ⟨h1, _, n, hn, pn⟩ := h.finite fx
      rcases f.not_nan_cases hy ny with fy | iy
      · obtain ⟨h1', _, k, hk, pk⟩ := h.finite fy
        rw [f.xval_of_finite fx, f.xval_of_finite fy, EReal.coe_le_coe_iff] at hle
        rw [f.xval_of_finite h1, f.xval_of_finite h1', EReal.coe_le_coe_iff, hn, hk]
        exact_mod_cast hP.mono hle pn pk
      · rw [h.other hy (not_finite_of_inf f iy)]
        rw [isInf_eq f iy, xval_inf] at hle ⊢
        cases hs : f.sgn y
        · simp
        · rw [f.xval_of_finite fx, hs] at hle; simp at hle
    · rw [h.other hx (not_finite_of_inf f ix)]
      rw [isInf_eq f ix, xval_inf] at hle ⊢
      cases hs : f.sgn x
      · rw [hs] at hle
        rcases f.not_nan_cases hy ny with fy | iy
        · rw [f.xval_of_finite fy] at hle; simp at hle
        · rw [h.other hy (not_finite_of_inf f iy)]; exact hle
      · simp
  · intro x hx
    by_cases hf : f.Finite x
    · obtain ⟨h1, _, n, hn, _⟩ := h.finite hf
      exact hfix h1 ⟨n, hn⟩
    · rw [h.other hx hf, h.other hx hf]

/-- **C10**: all five rounding functions (rint and nearbyint in each mode) are monotone, idempotent and fix integers. -/
theorem C10_monotone_idempotent (hw : f.Wide) (hm : Mode) :
    MonotoneIdempotent f (CC.trunc f) ∧ MonotoneIdempotent f (CC.floor f hm) ∧ MonotoneIdempotent f (CC.ceil f hm) ∧
    MonotoneIdempotent f (CC.round f hm) ∧ MonotoneIdempotent f (CC.rint f hm) ∧ MonotoneIdempotent f (CC.nearbyint f hm) :=
  ⟨(C06_trunc f).monotoneIdempotent good_trunc, (C07_floor f hw hm).monotoneIdempotent good_floor,
   (C07_ceil f hw hm).monotoneIdempotent good_ceil, (C08_round f hw hm).monotoneIdempotent good_away,
   (C09_rint f hw hm).1.monotoneIdempotent (good_rint hm), (C09_rint f hw hm).2.monotoneIdempotent (good_rint hm)⟩

example : ¬ binary64.IsNaN 0xc004000000000000 ∧ ¬ binary64.IsNaN 0x7ff0000000000000 ∧
    CC.round binary64 .up (CC.round binary64 .up 0xc004000000000000) = 0xc008000000000000 := by decide +kernel

end
end Verif
