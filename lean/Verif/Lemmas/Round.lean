import Verif.Lemmas.Value

/-! # Magnitude rounding implies the IEEE rounding specification; existence and uniqueness -/

namespace Verif
namespace Fmt
variable (f : Fmt)

theorem sgn_pack' {s : Bool} {n : ℕ} (h : n ≤ f.infMag) : f.sgn (f.pack s n) = s :=
  f.sgn_pack s (lt_of_le_of_lt h f.infMag_lt)

theorem infMag_even : f.infMag % 2 = 0 := by
  rw [infMag_eq]
  have h := f.hF
  obtain ⟨j, hj⟩ : ∃ j, f.F = j + 1 := ⟨f.F - 1, by omega⟩
  rw [hj, pow_succ]
  have : 2 * f.bias * (2 ^ j * 2) = 2 * (2 * f.bias * 2 ^ j) := by ring
  omega

theorem two_pow_EF_even : 2 ^ (f.E + f.F) % 2 = 0 := by
  have h := f.hF
  obtain ⟨j, hj⟩ : ∃ j, f.E + f.F = j + 1 := ⟨f.E + f.F - 1, by omega⟩
  rw [hj, pow_succ]; omega

theorem pack_mod_two (s : Bool) (n : ℕ) : f.pack s n % 2 = n % 2 := by
  have := f.two_pow_EF_even
  unfold pack; split <;> omega

theorem IsFloor.le_of_le {t : ℝ} {n j : ℕ} (h : f.IsFloor t n) (hj : j ≤ n) : (f.umag j : ℝ) ≤ f.umag n ∧ (f.umag n : ℝ) ≤ t := by
  exact ⟨by exact_mod_cast f.umag_le_iff.2 hj, h.1⟩

theorem IsFloor.lt_of_lt {t : ℝ} {n j : ℕ} (h : f.IsFloor t n) (hj : n < j) :
    (f.umag (n + 1) : ℝ) ≤ f.umag j ∧ t < f.umag (n + 1) := by
  exact ⟨by exact_mod_cast f.umag_le_iff.2 hj, h.2⟩

theorem IsFloor.le_iff {t : ℝ} {n j : ℕ} (h : f.IsFloor t n) : (f.umag j : ℝ) ≤ t ↔ j ≤ n := by
  constructor
  · intro hj
    by_contra hc
    have := IsFloor.lt_of_lt f h (j := j) (by omega)
    linarith
  · intro hj
    have := IsFloor.le_of_le f h hj
    linarith

theorem IsGreatestBelow.neg {v : ℝ} {s : Bool} {n : ℕ} (hn : n < f.infMag)
    (h : f.IsGreatestBelow v (f.pack s n)) : f.IsLeastAbove (-v) (f.pack (!s) n) := by
  have hlt : n < 2 ^ (f.E + f.F) := lt_trans hn f.infMag_lt
  have hval : f.val (f.pack (!s) n) = - f.val (f.pack s n) := by
    rw [val_pack f _ hlt, val_pack f _ hlt, sg_not]; ring
  refine ⟨f.finite_pack _ hn, ?_, ?_⟩
  · rw [hval]; linarith [h.le]
  · intro c hc hvc
    have hcm := (f.finite_iff c).1 hc
    have hclt := lt_trans hcm.2 f.infMag_lt
    have hc' : f.val (f.pack (!f.sgn c) (f.mag c)) = - f.val c := by
      rw [val_pack f _ hclt, f.val_eq c, sg_not]; ring
    have := h.greatest (f.pack (!f.sgn c) (f.mag c)) (f.finite_pack _ hcm.2) (by rw [hc']; linarith)
    rw [hval]; rw [hc'] at this; linarith

theorem IsLeastAbove.neg {v : ℝ} {s : Bool} {n : ℕ} (hn : n < f.infMag)
    (h : f.IsLeastAbove v (f.pack s n)) : f.IsGreatestBelow (-v) (f.pack (!s) n) := by
  have hlt : n < 2 ^ (f.E + f.F) := lt_trans hn f.infMag_lt
  have hval : f.val (f.pack (!s) n) = - f.val (f.pack s n) := by
    rw [val_pack f _ hlt, val_pack f _ hlt, sg_not]; ring
  refine ⟨f.finite_pack _ hn, ?_, ?_⟩
  · rw [hval]; linarith [h.ge]
  · intro c hc hvc
    have hcm := (f.finite_iff c).1 hc
    have hclt := lt_trans hcm.2 f.infMag_lt
    have hc' : f.val (f.pack (!f.sgn c) (f.mag c)) = - f.val c := by
      rw [val_pack f _ hclt, f.val_eq c, sg_not]; ring
    have := h.least (f.pack (!f.sgn c) (f.mag c)) (f.finite_pack _ hcm.2) (by rw [hc']; linarith)
    rw [hval]; rw [hc'] at this; linarith

theorem cap_trunc_lt (n : ℕ) : f.cap .trunc n < f.infMag := by
  have := f.infMag_pos; have : 0 < 2 ^ (f.F + 1) := Nat.pow_pos (by decide)
  unfold cap; split <;> simp <;> omega

theorem cap_le (k : Kind) (n : ℕ) : f.cap k n ≤ f.infMag := by
  unfold cap; split
  · omega
  · cases k <;> simp

theorem greatestBelow_trunc {t : ℝ} {n : ℕ} (_ht : 0 ≤ t) (h : f.IsFloor t n) :
    f.IsGreatestBelow (t * f.minSub) (f.pack false (f.cap .trunc n)) := by
  have hu := f.minSub_pos
  have hc := f.cap_trunc_lt n
  have hlt : f.cap .trunc n < 2 ^ (f.E + f.F) := lt_trans hc f.infMag_lt
  have hle : f.cap .trunc n ≤ n := by unfold cap; split <;> simp; omega
  refine ⟨f.finite_pack _ hc, ?_, ?_⟩
  · rw [val_pack f _ hlt, sg_false, one_mul]
    exact mul_le_mul_of_nonneg_right ((IsFloor.le_iff f h).2 hle) hu.le
  · intro c hcf hv
    rw [val_pack f _ hlt, sg_false, one_mul]
    rw [val_eq] at hv ⊢
    cases hs : f.sgn c
    · rw [hs] at hv; rw [sg_false, one_mul] at hv ⊢
      have h1 : (f.umag (f.mag c) : ℝ) ≤ t := le_of_mul_le_mul_right hv hu
      have h2 := (IsFloor.le_iff f h).1 h1
      have h3 := ((f.finite_iff c).1 hcf).2
      have h4 : f.mag c ≤ f.cap .trunc n := by unfold cap; split <;> (try dsimp only) <;> omega
      exact mul_le_mul_of_nonneg_right (by exact_mod_cast f.umag_le_iff.2 h4) hu.le
    · rw [sg_true]
      have : 0 ≤ (f.umag (f.mag c) : ℝ) * f.minSub := by positivity
      have : 0 ≤ (f.umag (f.cap .trunc n) : ℝ) * f.minSub := by positivity
      linarith

theorem leastAbove_away {t : ℝ} {n : ℕ} (ht : 0 ≤ t) (hmax : t * f.minSub ≤ f.maxFin) (h : f.RndMag .away t n) :
    n < f.infMag ∧ f.IsLeastAbove (t * f.minSub) (f.pack false n) := by
  have hu := f.minSub_pos
  have hip := f.infMag_pos
  have hpp : 0 < 2 ^ (f.F + 1) := Nat.pow_pos (by decide)
  rw [maxFin_eq] at hmax
  have hmax' : t ≤ f.umag (f.infMag - 1) := le_of_mul_le_mul_right hmax hu
  obtain ⟨n0, hf, hn⟩ := h
  simp only at hn
  have hn0 : n0 ≤ f.infMag - 1 := by
    by_contra hc
    have := (IsFloor.le_iff f hf (j := n0)).2 le_rfl
    have h2 : f.umag (f.infMag - 1) < f.umag n0 := f.umag_lt_iff.2 (by omega)
    have h2' : (f.umag (f.infMag - 1) : ℝ) < f.umag n0 := by exact_mod_cast h2
    linarith
  have hnlt : n < f.infMag := by
    by_cases he : t = f.umag n0
    · rw [if_pos he] at hn; omega
    · rw [if_neg he] at hn
      rcases Nat.lt_or_ge n0 (f.infMag - 1) with h1 | h1
      · omega
      · have h2 : n0 = f.infMag - 1 := by omega
        exfalso; apply he
        apply le_antisymm
        · rw [h2]; exact hmax'
        · exact hf.1
  have hlt : n < 2 ^ (f.E + f.F) := lt_trans hnlt f.infMag_lt
  have htn : t ≤ f.umag n := by
    by_cases he : t = f.umag n0
    · rw [if_pos he] at hn; rw [hn, he]
    · rw [if_neg he] at hn; rw [hn]; exact hf.2.le
  refine ⟨hnlt, f.finite_pack _ hnlt, ?_, ?_⟩
  · rw [val_pack f _ hlt, sg_false, one_mul]
    exact mul_le_mul_of_nonneg_right htn hu.le
  · intro c hcf hv
    rw [val_pack f _ hlt, sg_false, one_mul]
    rw [val_eq] at hv ⊢
    cases hs : f.sgn c
    · rw [hs] at hv; rw [sg_false, one_mul] at hv ⊢
      have h1 : t ≤ (f.umag (f.mag c) : ℝ) := le_of_mul_le_mul_right hv hu
      have h4 : n ≤ f.mag c := by
        by_cases he : t = f.umag n0
        · rw [if_pos he] at hn; rw [he] at h1
          have := f.umag_le_iff.1 (show f.umag n0 ≤ f.umag (f.mag c) by exact_mod_cast h1)
          omega
        · rw [if_neg he] at hn
          by_contra hcc
          have h5 := (IsFloor.le_iff f hf (j := f.mag c)).2 (by omega)
          have h6 : t = f.umag (f.mag c) := le_antisymm h1 h5
          have h7 : f.mag c = n0 := by
            apply le_antisymm ((IsFloor.le_iff f hf).1 h5)
            have := hf.1; rw [h6] at this
            exact f.umag_le_iff.1 (by exact_mod_cast this)
          rw [h7] at h6; exact he h6
      exact mul_le_mul_of_nonneg_right (by exact_mod_cast f.umag_le_iff.2 h4) hu.le
    · rw [hs] at hv; rw [sg_true] at hv ⊢
      have h1 : 0 ≤ (f.umag (f.mag c) : ℝ) * f.minSub := by positivity
      have h2 : 0 ≤ t * f.minSub := by positivity
      have h3 : t * f.minSub = 0 := by linarith
      have h4 : t = 0 := by
        rcases mul_eq_zero.1 h3 with h | h
        · exact h
        · linarith
      have h5 : n0 = 0 := by
        have := hf.1; rw [h4] at this
        have h6 : f.umag n0 ≤ f.umag 0 := by rw [umag_zero]; exact_mod_cast this
        have := f.umag_le_iff.1 h6; omega
      have h6 : n = 0 := by rw [hn, h5, h4]; simp
      rw [h6, umag_zero]
      have : (f.umag (f.mag c) : ℝ) * f.minSub = 0 := by linarith
      rw [this]; simp

theorem away_overflow {t : ℝ} {n : ℕ} (hmax : f.maxFin < t * f.minSub) (h : f.RndMag .away t n) :
    f.infMag ≤ n := by
  have hu := f.minSub_pos
  rw [maxFin_eq] at hmax
  have hmax' : (f.umag (f.infMag - 1) : ℝ) < t := lt_of_mul_lt_mul_right hmax hu.le
  obtain ⟨n0, hf, hn⟩ := h
  simp only at hn
  have h1 := (IsFloor.le_iff f hf).1 hmax'.le
  by_cases he : t = f.umag n0
  · rw [if_pos he] at hn
    rw [he] at hmax'
    have := f.umag_lt_iff.1 (show f.umag (f.infMag - 1) < f.umag n0 by exact_mod_cast hmax')
    omega
  · rw [if_neg he] at hn; omega

/-- distance facts for nearest rounding of magnitudes -/
theorem nearest_dist {t : ℝ} {n : ℕ} (h : f.RndMag .nearest t n) (j : ℕ) :
    |(f.umag n : ℝ) - t| ≤ |(f.umag j : ℝ) - t| ∧
    (|(f.umag n : ℝ) - t| = |(f.umag j : ℝ) - t| → j ≠ n → n % 2 = 0 ∧ j % 2 = 1) := by
  obtain ⟨n0, hf, hn⟩ := h
  simp only at hn
  have h0 := hf.1
  have h1 := hf.2
  have hlow : j ≤ n0 → |(f.umag j : ℝ) - t| = t - f.umag j ∧ (f.umag j : ℝ) ≤ f.umag n0 := by
    intro hj
    have := IsFloor.le_of_le f hf hj
    refine ⟨?_, this.1⟩
    rw [abs_sub_comm, abs_of_nonneg (by linarith)]
  have hhigh : n0 < j → |(f.umag j : ℝ) - t| = f.umag j - t ∧ (f.umag (n0 + 1) : ℝ) ≤ f.umag j := by
    intro hj
    have := IsFloor.lt_of_lt f hf hj
    refine ⟨?_, this.1⟩
    rw [abs_of_nonneg (by linarith)]
  have hl0 : |(f.umag n0 : ℝ) - t| = t - f.umag n0 := by rw [abs_sub_comm, abs_of_nonneg (by linarith)]
  have hl1 : |(f.umag (n0 + 1) : ℝ) - t| = f.umag (n0 + 1) - t := by rw [abs_of_nonneg (by linarith)]
  have hs0 : j < n0 → (f.umag j : ℝ) < f.umag n0 := fun h => by exact_mod_cast f.umag_lt_iff.2 h
  have hs1 : n0 + 1 < j → (f.umag (n0 + 1) : ℝ) < f.umag j := fun h => by exact_mod_cast f.umag_lt_iff.2 h
  rcases hn with ⟨hc, rfl⟩ | ⟨hc, hn⟩ | ⟨hc, rfl⟩
  · rw [hl0]
    rcases Nat.lt_or_ge n j with hj | hj
    · obtain ⟨e, e'⟩ := hhigh hj
      rw [e]
      exact ⟨by linarith, fun h => by exfalso; linarith⟩
    · obtain ⟨e, e'⟩ := hlow hj
      rw [e]
      refine ⟨by linarith, fun h hne => ?_⟩
      have := hs0 (by omega); exfalso; linarith
  · have hd : |(f.umag n : ℝ) - t| = t - f.umag n0 ∧ |(f.umag n : ℝ) - t| = f.umag (n0 + 1) - t := by
      rcases Nat.mod_two_eq_zero_or_one n0 with h | h
      · rw [h, Nat.add_zero] at hn; rw [hn, hl0]; exact ⟨rfl, by linarith⟩
      · rw [h] at hn; rw [hn, hl1]; exact ⟨by linarith, rfl⟩
    rcases Nat.lt_or_ge n0 j with hj | hj
    · obtain ⟨e, e'⟩ := hhigh hj
      rw [e, hd.2]
      refine ⟨by linarith, fun h hne => ?_⟩
      have : j = n0 + 1 := by
        by_contra hcc
        have := hs1 (by omega); linarith
      omega
    · obtain ⟨e, e'⟩ := hlow hj
      rw [e, hd.1]
      refine ⟨by linarith, fun h hne => ?_⟩
      have : j = n0 := by
        by_contra hcc
        have := hs0 (by omega); linarith
      omega
  · rw [hl1]
    rcases Nat.lt_or_ge n0 j with hj | hj
    · obtain ⟨e, e'⟩ := hhigh hj
      rw [e]
      refine ⟨by linarith, fun h hne => ?_⟩
      have := hs1 (by omega); exfalso; linarith
    · obtain ⟨e, e'⟩ := hlow hj
      rw [e]
      exact ⟨by linarith, fun h => by exfalso; linarith⟩

theorem nearest_overflow_iff {t : ℝ} {n : ℕ} (h : f.RndMag .nearest t n) :
    ((f.umag (f.infMag - 1) : ℝ) + f.umag f.infMag) / 2 ≤ t ↔ f.infMag ≤ n := by
  have hip := f.infMag_pos
  have hpp : 0 < 2 ^ (f.F + 1) := Nat.pow_pos (by decide)
  have hev := f.infMag_even
  obtain ⟨n0, hf, hn⟩ := h
  simp only at hn
  have hm : (f.umag (f.infMag - 1) : ℝ) < f.umag f.infMag := by
    exact_mod_cast f.umag_lt_iff.2 (show f.infMag - 1 < f.infMag by omega)
  have h1 : (f.umag (f.infMag - 1) : ℝ) ≤ t ↔ f.infMag - 1 ≤ n0 := IsFloor.le_iff f hf
  have h2 : (f.umag f.infMag : ℝ) ≤ t ↔ f.infMag ≤ n0 := IsFloor.le_iff f hf
  constructor
  · intro ht
    have h3 := h1.1 (by linarith)
    rcases Nat.lt_or_ge n0 f.infMag with h4 | h4
    · have h5 : n0 = f.infMag - 1 := by omega
      have h6 : n0 + 1 = f.infMag := by omega
      rw [h6, h5] at hn
      rcases hn with ⟨hc, hn⟩ | ⟨hc, hn⟩ | ⟨hc, hn⟩
      · exfalso; linarith
      · omega
      · omega
    · rcases hn with ⟨hc, hn⟩ | ⟨hc, hn⟩ | ⟨hc, hn⟩ <;> omega
  · intro hge
    by_contra hlt
    have h3 : ¬ f.infMag ≤ n0 := fun h => by have := h2.2 h; linarith
    have h4 : n0 = f.infMag - 1 := by
      rcases hn with ⟨hc, hn⟩ | ⟨hc, hn⟩ | ⟨hc, hn⟩ <;> omega
    have h6 : n0 + 1 = f.infMag := by omega
    rw [h6, h4] at hn
    rcases hn with ⟨hc, hn⟩ | ⟨hc, hn⟩ | ⟨hc, hn⟩
    · omega
    · linarith
    · linarith

theorem isNearest_of {t : ℝ} {n : ℕ} (s : Bool) (ht : 0 ≤ t) (hn : n < f.infMag) (h : f.RndMag .nearest t n) :
    f.IsNearest (sg s * (t * f.minSub)) (f.pack s n) := by
  have hu := f.minSub_pos
  have hlt : n < 2 ^ (f.E + f.F) := lt_trans hn f.infMag_lt
  have hval : |f.val (f.pack s n) - sg s * (t * f.minSub)| = |(f.umag n : ℝ) - t| * f.minSub := by
    rw [val_pack f _ hlt, ← mul_sub, abs_mul, abs_sg, one_mul, ← sub_mul, abs_mul, abs_of_pos hu]
  have hc : ∀ c, (f.sgn c = s ∧ |f.val c - sg s * (t * f.minSub)| = |(f.umag (f.mag c) : ℝ) - t| * f.minSub) ∨
      (f.sgn c = !s ∧ |f.val c - sg s * (t * f.minSub)| = ((f.umag (f.mag c) : ℝ) + t) * f.minSub) := by
    intro c
    by_cases hs : f.sgn c = s
    · left; refine ⟨hs, ?_⟩
      rw [val_eq, hs, ← mul_sub, abs_mul, abs_sg, one_mul, ← sub_mul, abs_mul, abs_of_pos hu]
    · right
      have hs' : f.sgn c = !s := by revert hs; cases f.sgn c <;> cases s <;> simp
      refine ⟨hs', ?_⟩
      rw [val_eq, hs', sg_not]
      rw [show -sg s * (↑(f.umag (f.mag c)) * f.minSub) - sg s * (t * f.minSub) =
        (-sg s) * (((f.umag (f.mag c) : ℝ) + t) * f.minSub) by ring]
      rw [abs_mul, abs_neg, abs_sg, one_mul, abs_of_nonneg (by positivity)]
  have hd0 := (f.nearest_dist h 0).1
  rw [umag_zero] at hd0
  simp only [Nat.cast_zero, zero_sub, abs_neg, abs_of_nonneg ht] at hd0
  refine ⟨f.finite_pack _ hn, ?_, ?_⟩
  · intro c _
    rw [hval]
    rcases hc c with ⟨_, h1⟩ | ⟨_, h1⟩
    · rw [h1]; exact mul_le_mul_of_nonneg_right (f.nearest_dist h _).1 hu.le
    · rw [h1]
      refine mul_le_mul_of_nonneg_right ?_ hu.le
      have : (0 : ℝ) ≤ f.umag (f.mag c) := by positivity
      linarith
  · intro c _ he hne
    rw [pack_mod_two]
    rw [hval] at he
    rcases hc c with ⟨hs, h1⟩ | ⟨hs, h1⟩
    · rw [h1] at he
      have he' := mul_right_cancel₀ hu.ne' he
      refine ((f.nearest_dist h _).2 he' ?_).1
      intro hm
      apply hne; rw [val_eq, hs, hm, val_pack f _ hlt]
    · rw [h1] at he
      have he' := mul_right_cancel₀ hu.ne' he
      have hz : (f.umag (f.mag c) : ℝ) = 0 := by
        have : (0 : ℝ) ≤ f.umag (f.mag c) := by positivity
        linarith
      by_cases hn0 : n = 0
      · rw [hn0]
      · refine ((f.nearest_dist h 0).2 ?_ (Ne.symm hn0)).1
        rw [he', hz, umag_zero]; simp [abs_of_nonneg ht]

/-- The engine: magnitude rounding with overflow handling meets the IEEE specification. -/
theorem roundsTo_of_rndMag {m : Mode} {zs s : Bool} {v t : ℝ} {n : ℕ} (ht : 0 ≤ t)
    (hv : v = sg s * (t * f.minSub)) (hs : t = 0 → s = zs)
    (h : f.RndMag (kind m s) t n) : f.RoundsTo m zs v (f.pack s (f.cap (kind m s) n)) := by
  have hu := f.minSub_pos
  have hcl := f.cap_le (kind m s) n
  have hip := f.infMag_pos
  have hpp : 0 < 2 ^ (f.F + 1) := Nat.pow_pos (by decide)
  refine ⟨f.valid_pack _ (lt_of_le_of_lt hcl f.infMag_lt), ?_, ?_⟩
  · unfold RoundValue
    cases m
    · -- nearest
      have h' : f.RndMag .nearest t n := by cases s <;> exact h
      have hk : kind Mode.nearest s = .nearest := by cases s <;> rfl
      rw [hk]
      simp only
      rw [threshold_eq]
      have hio := f.nearest_overflow_iff h'
      set mid := ((f.umag (f.infMag - 1) : ℝ) + f.umag f.infMag) / 2 with hmid
      have hmidpos : 0 < mid := by
        have : f.umag 0 < f.umag f.infMag := f.umag_lt_iff.2 (by omega)
        rw [umag_zero] at this
        have : (0 : ℝ) < f.umag f.infMag := by exact_mod_cast this
        rw [hmid]; positivity
      have hmu : 0 < mid * f.minSub := by positivity
      have htu : 0 ≤ t * f.minSub := by positivity
      have hle : mid * f.minSub ≤ t * f.minSub ↔ mid ≤ t :=
        ⟨fun h => le_of_mul_le_mul_right h hu, fun h => mul_le_mul_of_nonneg_right h hu.le⟩
      by_cases hov : mid ≤ t
      · have hn := hio.1 hov
        have hcap : f.cap .nearest n = f.infMag := by unfold cap; rw [if_neg (by omega)]
        rw [hcap]
        have := hle.2 hov
        cases s
        · rw [hv, sg_false, one_mul, if_pos this]; rfl
        · rw [hv, sg_true, if_neg (by linarith), if_pos (by linarith)]; rfl
      · have hn : n < f.infMag := by
          by_contra hc; exact hov (hio.2 (by omega))
        have hcap : f.cap .nearest n = n := by unfold cap; rw [if_pos hn]
        rw [hcap]
        have h1 : ¬ mid * f.minSub ≤ t * f.minSub := fun h => hov (hle.1 h)
        have h2 : ¬ (mid * f.minSub ≤ v) := by
          rw [hv]; cases s
          · rw [sg_false, one_mul]; exact h1
          · rw [sg_true]; linarith
        have h3 : ¬ (v ≤ -(mid * f.minSub)) := by
          rw [hv]; cases s
          · rw [sg_false, one_mul]; linarith
          · rw [sg_true]; push Not at h1 ⊢; linarith
        rw [if_neg h2, if_neg h3, hv]
        exact f.isNearest_of s ht hn h'
    · -- zero
      have hk : kind Mode.zero s = .trunc := by cases s <;> rfl
      rw [hk] at h ⊢
      obtain ⟨n0, hf, hn⟩ := h
      simp only at hn; subst hn
      have hg := f.greatestBelow_trunc ht hf
      simp only
      have htu : 0 ≤ t * f.minSub := by positivity
      cases s
      · rw [hv, sg_false, one_mul, if_pos htu]; exact hg
      · rw [hv, sg_true]
        have hl := IsGreatestBelow.neg f (f.cap_trunc_lt _) hg
        by_cases h0 : 0 ≤ -1 * (t * f.minSub)
        · rw [if_pos h0]
          have h00 : t * f.minSub = 0 := by linarith
          rw [h00] at hl hg ⊢
          have hz : f.val (f.pack true (f.cap .trunc n)) = 0 := by
            have hlt := lt_trans (f.cap_trunc_lt n) f.infMag_lt
            have a := hl.ge
            have b := hg.le
            have e1 := f.val_pack true hlt
            have e2 := f.val_pack false hlt
            rw [sg_true] at e1; rw [sg_false] at e2
            simp only [Bool.not_false] at a
            have : 0 ≤ (f.umag (f.cap .trunc n) : ℝ) * f.minSub := by positivity
            linarith
          refine ⟨f.finite_pack _ (f.cap_trunc_lt _), by rw [hz]; simp, fun c _ hvc => by rw [hz]; linarith⟩
        · rw [if_neg h0]
          simpa using hl
    · -- down
      simp only
      have htu : 0 ≤ t * f.minSub := by positivity
      have hmaxpos : 0 ≤ f.maxFin := by rw [maxFin_eq]; positivity
      cases s
      · rw [hv, sg_false, one_mul, if_neg (by linarith)]
        obtain ⟨n0, hf, hn⟩ := h
        simp only [kind] at hn; subst hn
        exact f.greatestBelow_trunc ht hf
      · have h' : f.RndMag .away t n := h
        rw [hv, sg_true]
        by_cases hov : f.maxFin < t * f.minSub
        · rw [if_pos (by linarith)]
          have := f.away_overflow hov h'
          have hcap : f.cap .away n = f.infMag := by unfold cap; rw [if_neg (by omega)]
          change f.pack true (f.cap .away n) = _
          rw [hcap]; rfl
        · rw [if_neg (by linarith)]
          obtain ⟨h1, h2⟩ := f.leastAbove_away ht (not_lt.1 hov) h'
          have hcap : f.cap .away n = n := by unfold cap; rw [if_pos h1]
          have h3 := IsLeastAbove.neg f h1 h2
          change f.IsGreatestBelow _ (f.pack true (f.cap .away n))
          rw [hcap]; simpa using h3
    · -- up
      simp only
      have htu : 0 ≤ t * f.minSub := by positivity
      have hmaxpos : 0 ≤ f.maxFin := by rw [maxFin_eq]; positivity
      cases s
      · have h' : f.RndMag .away t n := h
        rw [hv, sg_false, one_mul]
        by_cases hov : f.maxFin < t * f.minSub
        · rw [if_pos (by linarith)]
          have := f.away_overflow hov h'
          have hcap : f.cap .away n = f.infMag := by unfold cap; rw [if_neg (by omega)]
          change f.pack false (f.cap .away n) = _
          rw [hcap]; rfl
        · rw [if_neg (by linarith)]
          obtain ⟨h1, h2⟩ := f.leastAbove_away ht (not_lt.1 hov) h'
          have hcap : f.cap .away n = n := by unfold cap; rw [if_pos h1]
          change f.IsLeastAbove _ (f.pack false (f.cap .away n))
          rw [hcap]; exact h2
      · rw [hv, sg_true, if_neg (by linarith)]
        obtain ⟨n0, hf, hn⟩ := h
        simp only [kind] at hn; subst hn
        have := IsGreatestBelow.neg f (f.cap_trunc_lt _) (f.greatestBelow_trunc ht hf)
        simpa [kind] using this
  · rw [sgn_pack' f hcl, hv]
    by_cases h0 : t = 0
    · rw [h0, zero_mul, mul_zero, if_pos rfl]; exact hs h0
    · have htpos : 0 < t := lt_of_le_of_ne ht (Ne.symm h0)
      have htu : 0 < t * f.minSub := by positivity
      cases s
      · rw [sg_false, one_mul, if_neg htu.ne']; simp [htu.le]
      · rw [sg_true, if_neg (by linarith)]; simp [htu]

theorem exists_rndMag (k : Kind) {t : ℝ} (ht : 0 ≤ t) : ∃ n, f.RndMag k t n := by
  have hf := f.isFloor_floorIdx ht
  cases k
  · rcases lt_trichotomy (2 * t) (f.umag (f.floorIdx ⌊t⌋₊) + f.umag (f.floorIdx ⌊t⌋₊ + 1)) with h | h | h
    · exact ⟨_, _, hf, Or.inl ⟨h, rfl⟩⟩
    · exact ⟨_, _, hf, Or.inr (Or.inl ⟨h, rfl⟩)⟩
    · exact ⟨_, _, hf, Or.inr (Or.inr ⟨h, rfl⟩)⟩
  · exact ⟨_, _, hf, rfl⟩
  · exact ⟨_, _, hf, rfl⟩

/-- sign-magnitude decomposition of a real number -/
theorem exists_decomp (zs : Bool) (v : ℝ) : ∃ s t, 0 ≤ t ∧ v = sg s * (t * f.minSub) ∧ (t = 0 → s = zs) := by
  have hu := f.minSub_pos
  rcases lt_trichotomy v 0 with h | h | h
  · refine ⟨true, -v / f.minSub, by apply div_nonneg <;> linarith, ?_, ?_⟩
    · rw [sg_true]; field_simp
    · intro h0
      rcases div_eq_zero_iff.1 h0 with h1 | h1 <;> exfalso <;> linarith
  · exact ⟨zs, 0, le_rfl, by rw [h]; ring, fun _ => rfl⟩
  · refine ⟨false, v / f.minSub, by positivity, ?_, ?_⟩
    · rw [sg_false]; field_simp
    · intro h0
      rcases div_eq_zero_iff.1 h0 with h1 | h1 <;> exfalso <;> linarith

theorem exists_roundsTo (m : Mode) (zs : Bool) (v : ℝ) : ∃ b, f.RoundsTo m zs v b := by
  obtain ⟨s, t, ht, hv, hs⟩ := f.exists_decomp zs v
  obtain ⟨n, hn⟩ := f.exists_rndMag (kind m s) ht
  exact ⟨_, f.roundsTo_of_rndMag ht hv hs hn⟩

theorem eq_of_val_eq {a b : ℕ} (ha : f.Valid a) (hb : f.Valid b) (hv : f.val a = f.val b)
    (hs : f.sgn a = f.sgn b) : a = b := by
  rw [val_eq, val_eq, hs] at hv
  have h1 := mul_left_cancel₀ (sg_ne_zero _) hv
  have h2 := mul_right_cancel₀ f.minSub_pos.ne' h1
  have h3 := f.umag_inj.1 (by exact_mod_cast h2)
  rw [← f.pack_sgn_mag ha, ← f.pack_sgn_mag hb, hs, h3]

/-- Correct rounding determines the bit pattern. -/
theorem RoundsTo.unique {m : Mode} {zs : Bool} {v : ℝ} {a b : ℕ}
    (ha : f.RoundsTo m zs v a) (hb : f.RoundsTo m zs v b) : a = b := by
  have hs : f.sgn a = f.sgn b := by rw [ha.sign, hb.sign]
  have key : ∀ a b, f.RoundsTo m zs v a → f.RoundsTo m zs v b → f.sgn a = f.sgn b → m ≠ .nearest → a = b := by
    intro a b ha hb hs hm
    have h1 := ha.value
    have h2 := hb.value
    cases m
    · exact absurd rfl hm
    · simp only [RoundValue] at h1 h2
      split at h1
      · rw [if_pos (by assumption)] at h2
        exact f.eq_of_val_eq ha.valid hb.valid (le_antisymm (h2.greatest _ h1.finite h1.le) (h1.greatest _ h2.finite h2.le)) hs
      · rw [if_neg (by assumption)] at h2
        exact f.eq_of_val_eq ha.valid hb.valid (le_antisymm (h1.least _ h2.finite h2.ge) (h2.least _ h1.finite h1.ge)) hs
    · simp only [RoundValue] at h1 h2
      split at h1
      · rw [if_pos (by assumption)] at h2; rw [h1, h2]
      · rw [if_neg (by assumption)] at h2
        exact f.eq_of_val_eq ha.valid hb.valid (le_antisymm (h2.greatest _ h1.finite h1.le) (h1.greatest _ h2.finite h2.le)) hs
    · simp only [RoundValue] at h1 h2
      split at h1
      · rw [if_pos (by assumption)] at h2; rw [h1, h2]
      · rw [if_neg (by assumption)] at h2
        exact f.eq_of_val_eq ha.valid hb.valid (le_antisymm (h1.least _ h2.finite h2.ge) (h2.least _ h1.finite h1.ge)) hs
  by_cases hm : m = .nearest
  · subst hm
    obtain ⟨s, t, ht, hv, hss⟩ := f.exists_decomp zs v
    obtain ⟨n, hn⟩ := f.exists_rndMag .nearest ht
    have h0 : f.RoundsTo .nearest zs v (f.pack s (f.cap .nearest n)) := by
      have := f.roundsTo_of_rndMag (m := .nearest) ht hv hss (by cases s <;> exact hn)
      cases s <;> exact this
    have one : ∀ a, f.RoundsTo .nearest zs v a → a = f.pack s (f.cap .nearest n) := by
      intro a ha
      have hsa : f.sgn a = s := by
        rw [ha.sign, ← h0.sign, sgn_pack' f (f.cap_le _ _)]
      have hu := f.minSub_pos
      have h1 := ha.value
      have h2 := h0.value
      simp only [RoundValue] at h1 h2
      split at h1
      · rw [if_pos (by assumption)] at h2; rw [h1, h2]
      · rw [if_neg (by assumption)] at h2
        split at h1
        · rw [if_pos (by assumption)] at h2; rw [h1, h2]
        · rw [if_neg (by assumption)] at h2
          have hlt : f.cap .nearest n < f.infMag := by
            have := ((f.finite_iff _).1 h2.finite).2
            rwa [mag_pack f _ (lt_of_le_of_lt (f.cap_le _ _) f.infMag_lt)] at this
          have hcap : f.cap .nearest n = n := by
            unfold cap at hlt ⊢; split
            · rfl
            · rw [if_neg (by assumption)] at hlt; simp at hlt
          rw [hcap] at h2 ⊢
          by_cases hva : f.val a = f.val (f.pack s n)
          · exact f.eq_of_val_eq ha.valid (h0.valid |> fun h => by rwa [hcap] at h) hva
              (by rw [hsa, sgn_pack' f (by rw [← hcap]; exact f.cap_le _ _)])
          · exfalso
            have e1 := h1.best _ h2.finite
            have e2 := h2.best _ h1.finite
            have e := le_antisymm e1 e2
            have p1 := h1.ties_even _ h2.finite e (Ne.symm hva)
            have hltn : n < 2 ^ (f.E + f.F) := by rw [hcap] at hlt; exact lt_trans hlt f.infMag_lt
            have d1 : |f.val a - v| = |(f.umag (f.mag a) : ℝ) - t| * f.minSub := by
              rw [hv, val_eq, hsa, ← mul_sub, abs_mul, abs_sg, one_mul, ← sub_mul, abs_mul, abs_of_pos hu]
            have d2 : |f.val (f.pack s n) - v| = |(f.umag n : ℝ) - t| * f.minSub := by
              rw [hv, val_pack f _ hltn, ← mul_sub, abs_mul, abs_sg, one_mul, ← sub_mul, abs_mul, abs_of_pos hu]
            rw [d1, d2] at e
            have e' := mul_right_cancel₀ hu.ne' e
            have hne : f.mag a ≠ n := by
              intro hm; apply hva; rw [val_eq, hsa, hm, val_pack f _ hltn]
            have := ((f.nearest_dist hn (f.mag a)).2 e'.symm hne).2
            have h3 := f.pack_sgn_mag ha.valid
            rw [← h3, pack_mod_two] at p1
            omega
    rw [one a ha, one b hb]
  · exact key a b ha hb hs hm

end Fmt
end Verif
