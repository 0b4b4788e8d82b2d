import Verif.Lemmas.FpSupport

/-!
# C44 `nearest_integer`, C49 exceptional-value tables
-/

namespace Verif
open Fmt
variable (f : Fmt) {m : Mode}

/-- the expression `r` of `nearest_integer` -/
theorem nearestInteger_inner (hw : f.Wide) (hb : (f.F : ℤ) + 2 ≤ f.bias) (m : Mode) {x : ℕ} (hx : f.Finite x)
    (hlt : |f.val x| < (2 : ℝ) ^ ((f.F : ℤ) + 1)) {r : ℕ}
    (hr : r = if f.hlt x (f.zero false) then f.hadd m (f.hsub m x (CC.pow2 f false f.F)) (CC.pow2 f false f.F)
      else f.hsub m (f.hadd m x (CC.pow2 f false f.F)) (CC.pow2 f false f.F)) :
    f.Finite r ∧ ∃ n : ℤ, f.val r = n ∧ |f.val x - n| ≤ 1 ∧
      (|f.val x| < (2 : ℝ) ^ (f.F : ℤ) → |f.val x - n| < 1 ∧ |n| ≤ 2 ^ f.F ∧
        (m = .nearest → |f.val x - n| ≤ 1 / 2 ∧ (|f.val x - n| = 1 / 2 → Even n))) ∧
      ((2 : ℝ) ^ (f.F : ℤ) ≤ |f.val x| → ∃ k : ℤ, f.val x = k) := by
  obtain ⟨o1, o2⟩ := pow2_spec f false (k := (f.F : ℤ)) (by have := f.hF; omega) (by omega)
  rw [sg_false, one_mul] at o2
  have hmx : ∀ y : ℝ, |y| ≤ (2 : ℝ) ^ ((f.F : ℤ) + 1 + 1) → |y| ≤ f.maxFin := by
    intro y hy
    obtain ⟨u1, u2⟩ := pow2_spec f false (k := (f.F : ℤ) + 1 + 1) (by omega) (by omega)
    have := f.abs_val_le u1
    rw [u2, sg_false, one_mul, abs_of_pos (two_zpow_pos _)] at this
    exact le_trans hy this
  have hp := two_zpow_pos (f.F : ℤ)
  have hp1 : (2 : ℝ) ^ ((f.F : ℤ) + 1) = 2 * (2 : ℝ) ^ (f.F : ℤ) := two_zpow_succ _
  have hp2 : (2 : ℝ) ^ ((f.F : ℤ) + 1 + 1) = 4 * (2 : ℝ) ^ (f.F : ℤ) := by rw [two_zpow_succ, hp1]; ring
  have hz := CC.hlt_finite f hx (f.finite_zero false)
  rw [f.val_zero] at hz
  rw [hp1] at hlt
  rw [abs_lt] at hlt
  by_cases h0 : f.val x < 0
  · rw [if_pos (hz.2 h0)] at hr
    have R := f.hsub_spec m hx o1
    rw [o2] at R
    have fa := RoundsTo.finite_of_le f R (hmx _ (by rw [hp2, abs_le]; constructor <;> linarith))
    have Q := f.hadd_spec m fa o1
    rw [o2] at Q
    have := magic_core f hw hb (σ := -1) (Or.inr ⟨rfl, h0.le⟩) (by rw [abs_lt, hp1]; exact hlt)
      (by rw [neg_one_mul, ← sub_eq_add_neg]; exact R) (r := r) (zs' := _) (by rw [hr, neg_one_mul, sub_neg_eq_add]; exact Q)
    exact this.2
  · rw [if_neg (by rw [hz]; exact h0)] at hr
    have R := f.hadd_spec m hx o1
    rw [o2] at R
    have fa := RoundsTo.finite_of_le f R (hmx _ (by rw [hp2, abs_le]; constructor <;> linarith))
    have Q := f.hsub_spec m fa o1
    rw [o2] at Q
    have := magic_core f hw hb (σ := 1) (Or.inl ⟨rfl, not_lt.1 h0⟩) (by rw [abs_lt, hp1]; exact hlt)
      (by rw [one_mul]; exact R) (r := r) (zs' := _) (by rw [hr, one_mul]; exact Q)
    exact this.2

theorem nearestInteger_guard (hb : (f.F : ℤ) + 2 ≤ f.bias) {x : ℕ} (hx : f.Finite x) :
    (f.hlt x (CC.pow2 f false (f.F + 1)) && f.hgt x (CC.pow2 f true (f.F + 1))) = true ↔ |f.val x| < (2 : ℝ) ^ ((f.F : ℤ) + 1) := by
  obtain ⟨a1, a2⟩ := pow2_spec f false (k := (f.F : ℤ) + 1) (by omega) (by omega)
  obtain ⟨b1, b2⟩ := pow2_spec f true (k := (f.F : ℤ) + 1) (by omega) (by omega)
  unfold Fmt.hgt
  rw [Bool.and_eq_true, CC.hlt_finite f hx a1, CC.hlt_finite f b1 hx, a2, b2, sg_false, sg_true, abs_lt, one_mul, neg_one_mul]
  exact and_comm

/-- C44: in the default rounding mode, for `|x| < 2^F` (`2^52` for double), both the constant-evaluation and the run-time form return the integer
nearest to `x`, choosing the even one of two equally near integers. -/
theorem C44_nearest_even (hw : f.Wide) (hb : (f.F : ℤ) + 2 ≤ f.bias) (ce : Bool) {x : ℕ} (hx : f.Finite x)
    (hlt : |f.val x| < (2 : ℝ) ^ (f.F : ℤ)) :
    f.Finite (CC.nearestInteger f ce .nearest x) ∧ ∃ n : ℤ, f.val (CC.nearestInteger f ce .nearest x) = n ∧
      |f.val x - n| ≤ 1 / 2 ∧ (|f.val x - n| = 1 / 2 → Even n) := by
  have hlt1 : |f.val x| < (2 : ℝ) ^ ((f.F : ℤ) + 1) := lt_trans hlt (two_zpow_lt (by omega))
  unfold CC.nearestInteger
  rw [if_pos ((nearestInteger_guard f hb hx).2 hlt1)]
  dsimp only
  obtain ⟨r1, n, r2, -, r3, -⟩ := nearestInteger_inner f hw hb .nearest hx hlt1 rfl
  obtain ⟨-, -, h3⟩ := r3 hlt
  obtain ⟨h3, h4⟩ := h3 rfl
  obtain ⟨p1, p2⟩ := pow2_spec f false (k := -1) (by have := hw.2; omega) (by omega)
  obtain ⟨q1, q2⟩ := pow2_spec f true (k := -1) (by have := hw.2; omega) (by omega)
  rw [sg_false, one_mul] at p2
  rw [sg_true, neg_one_mul] at q2
  have ehalf : (2 : ℝ) ^ (-1 : ℤ) = 1 / 2 := by norm_num
  rw [ehalf] at p2 q2
  generalize hr : (if f.hlt x (f.zero false) then f.hadd .nearest (f.hsub .nearest x (CC.pow2 f false f.F)) (CC.pow2 f false f.F)
      else f.hsub .nearest (f.hadd .nearest x (CC.pow2 f false f.F)) (CC.pow2 f false f.F)) = r at r1 r2 ⊢
  cases ce
  · have D := f.hsub_spec .nearest hx r1
    rw [r2] at D
    rw [abs_le] at h3
    obtain ⟨d1, d2, d3⟩ := RoundsTo.between D q1 p1 (by rw [q2]; linarith [h3.1]) (by rw [p2]; linarith [h3.2])
    have c1 : ¬ f.hgt (f.hsub .nearest x r) (CC.pow2 f false (-1)) = true := by
      unfold Fmt.hgt
      rw [CC.hlt_finite f p1 d1]; linarith
    have c2 : ¬ f.hlt (f.hsub .nearest x r) (CC.pow2 f true (-1)) = true := by
      rw [CC.hlt_finite f d1 q1]; linarith
    rw [Bool.not_false, if_pos rfl, if_neg c1, if_neg c2]
    exact ⟨r1, n, r2, abs_le.2 h3, h4⟩
  · rw [Bool.not_true, if_neg (by decide)]
    exact ⟨r1, n, r2, h3, h4⟩

/-- non-vacuity of `C44_nearest_even`: `2.5` goes to the even neighbour -/
example : binary64.Finite 0x4004000000000000 ∧ CC.nearestInteger binary64 false .nearest 0x4004000000000000 = 0x4000000000000000 ∧
    CC.nearestInteger binary64 true .nearest 0x4004000000000000 = 0x4000000000000000 := by decide +kernel

/-- run-time form, any mode -/
theorem nearestInteger_runtime (hw : f.Wide) (hb : (f.F : ℤ) + 2 ≤ f.bias) (m : Mode) {x : ℕ} (hx : f.Finite x) :
    f.Finite (CC.nearestInteger f false m x) ∧ ∃ n : ℤ, f.val (CC.nearestInteger f false m x) = n ∧
      |f.val x - n| ≤ 1 / 2 + (2 : ℝ) ^ (-(f.F : ℤ) - 1) ∧ (m = .nearest → |f.val x - n| ≤ 1 / 2) := by
  have he0 : f.emin ≤ 0 := by unfold emin; have := hw.1; have := hw.2; omega
  have hF := f.hF
  have hε := two_zpow_pos (-(f.F : ℤ) - 1)
  unfold CC.nearestInteger
  by_cases hg : |f.val x| < (2 : ℝ) ^ ((f.F : ℤ) + 1)
  swap
  · rw [if_neg (by rw [nearestInteger_guard f hb hx]; exact hg)]
    have : Mult 0 (f.val x) := (f.mult_ce x).weaken (f.le_ce_of (by
      rw [zero_add]; exact le_trans (two_zpow_le (by omega)) (not_lt.1 hg)))
    obtain ⟨n, hn⟩ := this.int
    refine ⟨hx, n, hn, ?_, fun _ => ?_⟩ <;> rw [hn, sub_self, abs_zero]
    · linarith
    · norm_num
  rw [if_pos ((nearestInteger_guard f hb hx).2 hg)]
  dsimp only
  obtain ⟨r1, n, r2, r3, r4, r5⟩ := nearestInteger_inner f hw hb m hx hg rfl
  obtain ⟨p1, p2⟩ := pow2_spec f false (k := -1) (by have := hw.2; omega) (by omega)
  obtain ⟨q1, q2⟩ := pow2_spec f true (k := -1) (by have := hw.2; omega) (by omega)
  obtain ⟨o1, o2⟩ := pow2_spec f false (k := 0) (by omega) (by omega)
  rw [sg_false, one_mul] at p2 o2
  rw [sg_true, neg_one_mul] at q2
  rw [zpow_zero] at o2
  have ehalf : (2 : ℝ) ^ (-1 : ℤ) = 1 / 2 := by norm_num
  rw [ehalf] at p2 q2
  generalize hr : (if f.hlt x (f.zero false) then f.hadd m (f.hsub m x (CC.pow2 f false f.F)) (CC.pow2 f false f.F)
      else f.hsub m (f.hadd m x (CC.pow2 f false f.F)) (CC.pow2 f false f.F)) = r at r1 r2 ⊢
  rw [Bool.not_false, if_pos rfl]
  have D := f.hsub_spec m hx r1
  rw [r2] at D
  obtain ⟨b1, b1v⟩ := int_datum f hw (z := 1) (by rw [abs_one]; exact_mod_cast Nat.one_le_two_pow)
  obtain ⟨b2, b2v⟩ := int_datum f hw (z := -1) (by rw [abs_neg, abs_one]; exact_mod_cast Nat.one_le_two_pow)
  have r3' := abs_le.1 r3
  obtain ⟨d1, -, -⟩ := RoundsTo.between D b2v.1 b1v.1 (by rw [b2v.2]; push_cast; linarith) (by rw [b1v.2]; push_cast; linarith)
  -- result `k` when `x` itself is the integer `k`
  have hone : ∀ t : ℤ, (t : ℝ) = f.val x ∨ |t| ≤ 2 ^ f.F → ∃ c, f.Finite c ∧ f.val c = t := by
    rintro t (h | h)
    · exact ⟨x, hx, h.symm⟩
    · exact int_datum f hw h
  -- the integer `n ± 1` is representable whenever the correction fires
  have hcase : ∀ e : ℤ, (e = 1 ∨ e = -1) → (1 / 2 : ℝ) ≤ e * (f.val x - n) →
      (∃ c, f.Finite c ∧ f.val c = ((n + e : ℤ) : ℝ)) ∧ |f.val x - ((n + e : ℤ) : ℝ)| ≤ 1 / 2 := by
    intro e he h
    rcases lt_or_ge |f.val x| ((2 : ℝ) ^ (f.F : ℤ)) with hl | hgE
    · obtain ⟨l1, l2, -⟩ := r4 hl
      rw [abs_lt] at l1
      rw [two_zpow_F_nat, abs_lt] at hl
      rw [abs_le] at l2
      refine ⟨hone _ (Or.inr ?_), ?_⟩
      · rw [abs_le]
        rcases he with he | he <;> subst he
        · push_cast at h
          have : ((n : ℤ) : ℝ) < ((2 ^ f.F : ℤ) : ℝ) := by linarith
          have : n < 2 ^ f.F := by exact_mod_cast this
          omega
        · push_cast at h
          have : ((-(2 ^ f.F) : ℤ) : ℝ) < ((n : ℤ) : ℝ) := by push_cast at hl ⊢; linarith
          have : -(2 ^ f.F) < n := by exact_mod_cast this
          omega
      · rw [abs_le]
        rcases he with he | he <;> subst he <;> push_cast at h ⊢ <;> constructor <;> linarith
    · obtain ⟨k, hk⟩ := r5 hgE
      have hkn : k = n + e := by
        rw [hk, ← Int.cast_sub, ← Int.cast_abs] at r3
        have h1 : |k - n| ≤ 1 := by exact_mod_cast r3
        rw [abs_le] at h1
        rw [hk] at h
        rcases he with he | he <;> subst he
        · push_cast at h
          have : ((n : ℤ) : ℝ) < ((k : ℤ) : ℝ) := by linarith
          have : n < k := by exact_mod_cast this
          omega
        · push_cast at h
          have : ((k : ℤ) : ℝ) < ((n : ℤ) : ℝ) := by linarith
          have : k < n := by exact_mod_cast this
          omega
      refine ⟨⟨x, hx, by rw [hk, hkn]⟩, ?_⟩
      rw [hk, hkn, sub_self, abs_zero]; norm_num
  by_cases c1 : f.hgt (f.hsub m x r) (CC.pow2 f false (-1)) = true
  · rw [if_pos c1]
    unfold Fmt.hgt at c1
    rw [CC.hlt_finite f p1 d1, p2] at c1
    have h : (1 / 2 : ℝ) ≤ f.val x - n := by
      by_contra hc
      obtain ⟨-, -, h2⟩ := RoundsTo.between D b2v.1 p1 (by rw [b2v.2]; push_cast; linarith) (by rw [p2]; linarith)
      rw [p2] at h2; linarith
    obtain ⟨⟨c, e1, e2⟩, e3⟩ := hcase 1 (Or.inl rfl) (by push_cast; linarith)
    have A := f.hadd_spec m r1 o1
    rw [r2, o2] at A
    obtain ⟨a1, a2⟩ := RoundsTo.exact f e1 (by rw [e2]; push_cast; rfl) A
    exact ⟨a1, n + 1, by rw [a2]; push_cast; rfl, by linarith, fun _ => e3⟩
  rw [if_neg c1]
  by_cases c2 : f.hlt (f.hsub m x r) (CC.pow2 f true (-1)) = true
  · rw [if_pos c2]
    rw [CC.hlt_finite f d1 q1, q2] at c2
    have h : (1 / 2 : ℝ) ≤ -(f.val x - n) := by
      by_contra hc
      obtain ⟨-, h2, -⟩ := RoundsTo.between D q1 b1v.1 (by rw [q2]; linarith) (by rw [b1v.2]; push_cast; linarith)
      rw [q2] at h2; linarith
    obtain ⟨⟨c, e1, e2⟩, e3⟩ := hcase (-1) (Or.inr rfl) (by push_cast; linarith)
    have A := f.hsub_spec m r1 o1
    rw [r2, o2] at A
    obtain ⟨a1, a2⟩ := RoundsTo.exact f e1 (by rw [e2]; push_cast; ring) A
    exact ⟨a1, n + -1, by rw [a2]; push_cast; ring, by linarith, fun _ => e3⟩
  rw [if_neg c2]
  unfold Fmt.hgt at c1
  rw [CC.hlt_finite f p1 d1, p2] at c1
  rw [CC.hlt_finite f d1 q1, q2] at c2
  -- `1/2 + 2^(-F-1)` is representable
  have hrep : ∀ σ : ℝ, σ = 1 ∨ σ = -1 → ∃ c, f.Finite c ∧ f.val c = σ * (1 / 2 + (2 : ℝ) ^ (-(f.F : ℤ) - 1)) := by
    intro σ hσ
    have hM : Mult (-(f.F : ℤ) - 1) (1 / 2 + (2 : ℝ) ^ (-(f.F : ℤ) - 1)) :=
      Mult.add (by rw [← ehalf]; exact (Mult.two_zpow (-1)).weaken (by omega)) (Mult.two_zpow _)
    have hle : (2 : ℝ) ^ (-(f.F : ℤ) - 1) ≤ 1 / 2 := by rw [← ehalf]; exact two_zpow_le (by omega)
    have habs : |σ * (1 / 2 + (2 : ℝ) ^ (-(f.F : ℤ) - 1))| ≤ 1 := by
      rcases hσ with h | h <;> rw [h, abs_le] <;> constructor <;> linarith
    refine f.rep (g := -(f.F : ℤ) - 1) ?_ (by unfold emin; have := hw.2; omega) ?_ ?_
    · rcases hσ with h | h <;> rw [h]
      · rw [one_mul]; exact hM
      · rw [neg_one_mul]; exact hM.neg
    · refine le_trans habs ?_
      rw [show -(f.F : ℤ) - 1 + f.F + 1 = 0 by ring, zpow_zero]
    · refine lt_of_le_of_lt habs ?_
      rw [← zpow_zero (2 : ℝ)]; exact two_zpow_lt (by omega)
  refine ⟨r1, n, r2, ?_, ?_⟩
  · rw [abs_le]
    constructor
    · by_contra hc
      obtain ⟨c, e1, e2⟩ := hrep (-1) (Or.inr rfl)
      obtain ⟨-, -, h2⟩ := RoundsTo.between D b2v.1 e1 (by rw [b2v.2]; push_cast; linarith) (by rw [e2]; linarith)
      rw [e2] at h2; linarith
    · by_contra hc
      obtain ⟨c, e1, e2⟩ := hrep 1 (Or.inl rfl)
      obtain ⟨-, h2, -⟩ := RoundsTo.between D e1 b1v.1 (by rw [e2]; linarith) (by rw [b1v.2]; push_cast; linarith)
      rw [e2] at h2; linarith
  · intro hm
    subst hm
    rcases lt_or_ge |f.val x| ((2 : ℝ) ^ (f.F : ℤ)) with hl | hgE
    · exact ((r4 hl).2.2 rfl).1
    · obtain ⟨k, hk⟩ := r5 hgE
      obtain ⟨b, hb1, hb2⟩ : ∃ c, f.Finite c ∧ f.val c = f.val x - n := by
        rw [hk, ← Int.cast_sub]
        refine int_datum f hw ?_
        rw [hk, ← Int.cast_sub, ← Int.cast_abs] at r3
        have h1 : |k - n| ≤ 1 := by exact_mod_cast r3
        exact le_trans h1 (by exact_mod_cast Nat.one_le_two_pow)
      have := (RoundsTo.exact f hb1 hb2 D).2
      rw [this] at c1 c2
      rw [abs_le]; constructor <;> linarith

/-- C44: at run time in the default rounding mode, the result is an integer within `1/2` of `x`, for every finite `x`. -/
theorem C44_runtime (hw : f.Wide) (hb : (f.F : ℤ) + 2 ≤ f.bias) {x : ℕ} (hx : f.Finite x) :
    f.Finite (CC.nearestInteger f false .nearest x) ∧
      ∃ n : ℤ, f.val (CC.nearestInteger f false .nearest x) = n ∧ |f.val x - n| ≤ 1 / 2 := by
  obtain ⟨h1, n, h2, -, h3⟩ := nearestInteger_runtime f hw hb .nearest hx
  exact ⟨h1, n, h2, h3 rfl⟩

/-- an odd integer of the last binade before the bound is returned unchanged at run time -/
example : binary64.Finite 0x4330000000000001 ∧ CC.nearestInteger binary64 false .nearest 0x4330000000000001 = 0x4330000000000001 := by decide +kernel

/-- C44 in every rounding mode: at run time the result is an integer and differs from `x` by at most `1/2 + 2^(-F-1)`.  The full claim (at most
`1/2`) fails in directed modes, see `C44_directed_wrong`. -/
theorem C44_directed_partial (hw : f.Wide) (hb : (f.F : ℤ) + 2 ≤ f.bias) (m : Mode) {x : ℕ} (hx : f.Finite x) :
    f.Finite (CC.nearestInteger f false m x) ∧
      ∃ n : ℤ, f.val (CC.nearestInteger f false m x) = n ∧ |f.val x - n| ≤ 1 / 2 + (2 : ℝ) ^ (-(f.F : ℤ) - 1) := by
  obtain ⟨h1, n, h2, h3, -⟩ := nearestInteger_runtime f hw hb m hx
  exact ⟨h1, n, h2, h3⟩

/-- in upward mode `2.3` is corrected to `2` -/
example : CC.nearestInteger binary64 false .up 0x4002666666666666 = 0x4000000000000000 := by decide +kernel

/-- C44 fails in upward mode: the greatest double below `1/2` is sent to `1`. -/
theorem C44_directed_wrong : binary64.Finite 0x3FDFFFFFFFFFFFFF ∧ CC.nearestInteger binary64 false .up 0x3FDFFFFFFFFFFFFF = 0x3FF0000000000000 := by
  decide +kernel

/-- C44 fails in constant evaluation: the odd integer `2^52 + 1` is sent to `2^52`. -/
theorem C44_constexpr_wrong : binary64.Finite 0x4330000000000001 ∧
    CC.nearestInteger binary64 true .nearest 0x4330000000000001 = 0x4330000000000000 := by decide +kernel

/-- C44: infinities and NaNs are returned unchanged. -/
theorem C44_special (hb : (f.F : ℤ) + 2 ≤ f.bias) (ce : Bool) (m : Mode) {x : ℕ} (hx : f.IsNaN x ∨ f.IsInf x) :
    CC.nearestInteger f ce m x = x := by
  unfold CC.nearestInteger
  refine if_neg ?_
  obtain ⟨a1, a2⟩ := pow2_spec f false (k := (f.F : ℤ) + 1) (by omega) (by omega)
  obtain ⟨b1, b2⟩ := pow2_spec f true (k := (f.F : ℤ) + 1) (by omega) (by omega)
  unfold Fmt.hgt
  rcases hx with h | h
  · rw [Bool.and_eq_true, f.hlt_spec h.1 a1.1]
    exact fun hc => hc.1.1 h
  · rw [Bool.and_eq_true, f.hlt_spec h.1 a1.1, f.hlt_spec b1.1 h.1]
    rintro ⟨⟨-, -, h1⟩, -, -, h2⟩
    rw [f.isInf_eq h, xval_inf] at h1 h2
    split_ifs at h1 h2
    · exact absurd h2 (by simp)
    · exact absurd h1 (by simp)

example : binary64.IsInf 0x7FF0000000000000 := by decide +kernel


/-! ### C49 -/

/-- offset column of a table row for a rounding mode -/
def rowOffset (r : CC.Mapping) : Mode → ℕ
  | .up => r.up
  | .down => r.down
  | .nearest => r.near
  | .zero => 0

/-- Every row of the table gives the correctly rounded value of `g` at its input, in each of the four modes. -/
def TableOk (g : ℝ → ℝ) (tab : List CC.Mapping) : Prop :=
  ∀ r ∈ tab, ∀ m : Mode, f.Valid r.rz ∧ f.RoundsTo m false (g (f.val r.input)) ((r.rz + rowOffset r m) % 2 ^ (f.E + f.F + 1))

/-- C49: the lookup finds nothing exactly when no row has the argument as input. -/
theorem C49_lookup_none (m : Mode) (tab : List CC.Mapping) (x : ℕ) :
    (CC.lookup f m tab x = none ↔ ∀ r ∈ tab, r.input ≠ x) ∧
    ∀ s, (CC.lookupOdd f m tab x s = none ↔ ∀ r ∈ tab, r.input ≠ x) := by
  constructor
  · induction tab with
    | nil => simp [CC.lookup]
    | cons r rs ih =>
      unfold CC.lookup
      split_ifs with h
      · subst h; simp
      · rw [ih]; simp only [List.mem_cons, forall_eq_or_imp]
        exact ⟨fun hh => ⟨fun e => h e.symm, hh⟩, fun hh => hh.2⟩
  · intro s
    induction tab with
    | nil => simp [CC.lookupOdd]
    | cons r rs ih =>
      unfold CC.lookupOdd
      split_ifs with h
      · subst h; simp
      · rw [ih]; simp only [List.mem_cons, forall_eq_or_imp]
        exact ⟨fun hh => ⟨fun e => h e.symm, hh⟩, fun hh => hh.2⟩

theorem out_eq {r : CC.Mapping} (hv : f.Valid r.rz) (m : Mode) : r.out f m = (r.rz + rowOffset r m) % 2 ^ (f.E + f.F + 1) := by
  cases m <;> unfold CC.Mapping.out rowOffset <;> try rfl
  exact (Nat.mod_eq_of_lt hv).symm

theorem outOdd_eq {r : CC.Mapping} (hv : f.Valid r.rz) (m : Mode) (s : Bool) :
    r.outOdd f m s = (r.rz + rowOffset r (if s then m.flip else m)) % 2 ^ (f.E + f.F + 1) := by
  cases m <;> cases s <;> unfold CC.Mapping.outOdd rowOffset Mode.flip <;> try rfl
  · exact (Nat.mod_eq_of_lt hv).symm
  · exact (Nat.mod_eq_of_lt hv).symm

/-- C49: the first row whose input is the argument decides. -/
theorem C49_lookup_first (m : Mode) (pre post : List CC.Mapping) (r : CC.Mapping) (hpre : ∀ q ∈ pre, q.input ≠ r.input) (hv : f.Valid r.rz) :
    CC.lookup f m (pre ++ r :: post) r.input = some ((r.rz + rowOffset r m) % 2 ^ (f.E + f.F + 1)) := by
  induction pre with
  | nil => rw [List.nil_append]; unfold CC.lookup; rw [if_pos rfl, out_eq f hv]
  | cons q qs ih =>
    rw [List.cons_append]; unfold CC.lookup
    rw [if_neg (fun h => hpre q (List.mem_cons_self ..) h.symm)]
    exact ih fun q' hq' => hpre q' (List.mem_cons_of_mem _ hq')

/-- C49: with a correct table the lookup returns the correctly rounded value in every mode. -/
theorem C49_lookup_correct {g : ℝ → ℝ} {tab : List CC.Mapping} (hT : TableOk f g tab) {m : Mode} {x b : ℕ}
    (h : CC.lookup f m tab x = some b) : f.RoundsTo m false (g (f.val x)) b := by
  induction tab with
  | nil => simp [CC.lookup] at h
  | cons r rs ih =>
    unfold CC.lookup at h
    split_ifs at h with hx
    · obtain ⟨h1, h2⟩ := hT r (List.mem_cons_self ..) m
      rw [out_eq f h1] at h
      obtain rfl := Option.some.inj h
      rw [hx]; exact h2
    · exact ih (fun q hq => hT q (List.mem_cons_of_mem _ hq)) h

/-- C49: with a correct table for an odd function, the odd lookup with a sign returns the correctly rounded value at the signed argument, in every
mode. -/
theorem C49_lookup_odd_correct {g : ℝ → ℝ} (hodd : ∀ t, g (-t) = -g t) {tab : List CC.Mapping} (hT : TableOk f g tab) {m : Mode}
    {xabs b : ℕ} {s : Bool} (h : CC.lookupOdd f m tab xabs s = some b) :
    f.RoundsTo m s (g (if s then -f.val xabs else f.val xabs)) b := by
  induction tab with
  | nil => simp [CC.lookupOdd] at h
  | cons r rs ih =>
    unfold CC.lookupOdd at h
    by_cases hx : xabs = r.input
    · rw [if_pos hx] at h
      have hv := (hT r (List.mem_cons_self ..) m).1
      dsimp only at h
      rw [outOdd_eq f hv] at h
      obtain rfl := Option.some.inj h
      cases s
      · rw [hx]
        exact (hT r (List.mem_cons_self ..) m).2
      · rw [hx]
        simp only [if_true, hodd]
        have := RoundsTo.neg (hT r (List.mem_cons_self ..) m.flip).2
        rw [show m.flip.flip = m by cases m <;> rfl] at this
        exact this
    · rw [if_neg hx] at h
      exact ih (fun q hq => hT q (List.mem_cons_of_mem _ hq)) h

/-- C49: the odd lookup is odd: with the mirrored mode and the sign set it returns the negated result. -/
theorem C49_lookup_odd_odd (tab : List CC.Mapping) (hv : ∀ r ∈ tab, f.Valid r.rz) (m : Mode) (xabs : ℕ) :
    CC.lookupOdd f m.flip tab xabs true = (CC.lookupOdd f m tab xabs false).map f.hneg := by
  induction tab with
  | nil => rfl
  | cons r rs ih =>
    unfold CC.lookupOdd
    by_cases hx : xabs = r.input
    · rw [if_pos hx, if_pos hx]
      have h := hv r (List.mem_cons_self ..)
      dsimp only
      rw [outOdd_eq f h, outOdd_eq f h]
      cases m <;> rfl
    · rw [if_neg hx, if_neg hx]
      exact ih fun q hq => hv q (List.mem_cons_of_mem _ hq)

/-- a two-row table: `g t = t/3` at `1` and `3` -/
example : CC.lookup binary64 .up [⟨0x3FF0000000000000, 0x3FD5555555555555, 1, 0, 0⟩, ⟨0x4008000000000000, 0x3FF0000000000000, 0, 0, 0⟩] 0x3FF0000000000000
      = some 0x3FD5555555555556 ∧
    CC.lookupOdd binary64 .up [⟨0x3FF0000000000000, 0x3FD5555555555555, 1, 0, 0⟩] 0x3FF0000000000000 true = some 0xBFD5555555555555 := by decide +kernel

/-- the constant function `1` has a correct one-row table -/
example : TableOk binary64 (fun _ => 1) [⟨0, 0x3FF0000000000000, 0, 0, 0⟩] := by
  intro r hr m
  rw [List.mem_singleton] at hr
  subst hr
  refine ⟨by decide, ?_⟩
  have h1 := CC.finite_one binary64 false
  have h2 : binary64.val (CC.oneLit binary64 false) = 1 := by rw [CC.val_one, sg_false]
  obtain ⟨s, t, ht, hv, hz⟩ := binary64.exists_decomp false 1
  obtain ⟨n, hn⟩ := binary64.exists_rndMag (kind m s) ht
  have h3 := binary64.roundsTo_of_rndMag ht hv hz hn
  have h4 := RoundsTo.exact binary64 h1 h2 h3
  have h5 := eq_of_val_ne binary64 h4.1.1 h1.1 (by rw [h4.2, h2]) (by rw [h2]; norm_num)
  rw [h5] at h3
  have e : (0x3FF0000000000000 + rowOffset ⟨0, 0x3FF0000000000000, 0, 0, 0⟩ m) % 2 ^ (binary64.E + binary64.F + 1) = CC.oneLit binary64 false := by
    cases m <;> decide +kernel
  rw [e]; exact h3


/-! ### C57: nudging a result by one unit -/

/-- sum of a large `v` and `σ` times the least normal number -/
theorem slightly_aux (hw : f.Wide) {v : ℕ} (h1 : (2 : ℝ) ^ ((f.F : ℤ) + 4 - f.bias) ≤ |f.val v|)
    (h2 : |f.val v| < (2 : ℝ) ^ (f.bias : ℤ)) {σ : ℝ} (hσ : |σ| = 1) {zs : Bool} {b : ℕ} (hv : f.Finite v)
    (R : f.RoundsTo m zs (f.val v + σ * f.minNormal) b) :
    f.Finite b ∧ (m = .nearest → b = v) ∧
      (m = .down → σ = -1 → f.val b < f.val v ∧ ∀ c, f.Finite c → f.val c < f.val v → f.val c ≤ f.val b) ∧
      (m = .up → σ = 1 → f.val v < f.val b ∧ ∀ c, f.Finite c → f.val v < f.val c → f.val b ≤ f.val c) := by
  have hgap : ∀ c, f.val c ≠ f.val v → (2 : ℝ) ^ (4 - (f.bias : ℤ) - 1) ≤ |f.val v - f.val c| := fun c hc =>
    gap_of_ne f (by rw [show 4 - (f.bias : ℤ) + f.F = f.F + 4 - f.bias by ring]; exact h1) hc
  have e8 : (2 : ℝ) ^ (4 - (f.bias : ℤ) - 1) = 4 * f.minNormal := by
    unfold Fmt.minNormal
    rw [show 4 - (f.bias : ℤ) - 1 = (1 - f.bias) + 1 + 1 by ring, two_zpow_succ, two_zpow_succ]; ring
  rw [e8] at hgap
  have hμ := CC.minNormal_pos f
  have hmax : f.maxFin = (2 : ℝ) ^ ((f.bias : ℤ) + 1) - (2 : ℝ) ^ ((f.bias : ℤ) - f.F) := by rw [← f.maxFin_add]; ring
  have hF := f.hF
  have hle : |f.val v + σ * f.minNormal| ≤ f.maxFin := by
    have h3 : |σ * f.minNormal| = f.minNormal := by rw [abs_mul, hσ, one_mul, abs_of_pos hμ]
    have h4 := abs_add_le (f.val v) (σ * f.minNormal)
    have h5 : f.minNormal ≤ (2 : ℝ) ^ ((f.bias : ℤ) - 1) := two_zpow_le (by have := hw.2; omega)
    have h6 : (2 : ℝ) ^ ((f.bias : ℤ) - f.F) ≤ (2 : ℝ) ^ ((f.bias : ℤ) - 1) := two_zpow_le (by omega)
    have h7 : (2 : ℝ) ^ (f.bias : ℤ) = 2 * (2 : ℝ) ^ ((f.bias : ℤ) - 1) := by rw [← two_zpow_succ]; congr 1; ring
    have h8 := two_zpow_succ (f.bias : ℤ)
    rw [hmax]; linarith
  have hb := RoundsTo.finite_of_le f R hle
  have hv0 : f.val v ≠ 0 := by
    intro h; rw [h, abs_zero] at h1; exact absurd h1 (not_le.2 (two_zpow_pos _))
  refine ⟨hb, ?_, ?_, ?_⟩
  · intro hm; subst hm
    have h3 := RoundsTo.le_dist R hb hv
    have h4 : |f.val v - (f.val v + σ * f.minNormal)| = f.minNormal := by
      rw [show f.val v - (f.val v + σ * f.minNormal) = -(σ * f.minNormal) by ring, abs_neg, abs_mul, hσ, one_mul, abs_of_pos hμ]
    by_contra hne
    have hne' : f.val b ≠ f.val v := fun h => hne (eq_of_val_ne f hb.1 hv.1 h hv0)
    have h5 := hgap b hne'
    have h6 := abs_sub_le (f.val v) (f.val v + σ * f.minNormal) (f.val b)
    rw [abs_sub_comm (f.val v + σ * f.minNormal) (f.val b)] at h6
    linarith
  · intro hm hσ'; subst hm hσ'
    have hV := R.value
    have hn : ¬ f.val v + -1 * f.minNormal < -f.maxFin := by rw [abs_le] at hle; linarith [hle.1]
    simp only [RoundValue, if_neg hn] at hV
    refine ⟨by linarith [hV.le], fun c hc hcv => hV.greatest c hc ?_⟩
    have := hgap c hcv.ne
    rw [abs_of_pos (by linarith)] at this
    linarith
  · intro hm hσ'; subst hm hσ'
    have hV := R.value
    have hn : ¬ f.maxFin < f.val v + 1 * f.minNormal := by rw [abs_le] at hle; linarith [hle.2]
    simp only [RoundValue, if_neg hn] at hV
    refine ⟨by linarith [hV.ge], fun c hc hcv => hV.least c hc ?_⟩
    have := hgap c hcv.ne'
    rw [abs_of_neg (by linarith)] at this
    linarith

/-- C57: in the default mode nothing changes. -/
theorem C57_slightly_nearest (hw : f.Wide) (ce : Bool) {v : ℕ} (hv : f.Finite v) (h1 : (2 : ℝ) ^ ((f.F : ℤ) + 4 - f.bias) ≤ |f.val v|)
    (h2 : |f.val v| < (2 : ℝ) ^ (f.bias : ℤ)) : CC.roundSlightlyDown f ce .nearest v = v ∧ CC.roundSlightlyUp f ce .nearest v = v := by
  obtain ⟨n1, n2⟩ := CC.minNormal_data f false
  unfold CC.roundSlightlyDown CC.roundSlightlyUp
  cases ce
  · rw [FPBits.minNormal_eq, if_neg (by decide), if_neg (by decide)]
    have D := f.hsub_spec .nearest hv n1
    have U := f.hadd_spec .nearest hv n1
    rw [n2, sg_false, one_mul] at D U
    exact ⟨(slightly_aux f hw h1 h2 (σ := -1) (by norm_num) hv (by rw [neg_one_mul, ← sub_eq_add_neg]; exact D)).2.1 rfl,
      (slightly_aux f hw h1 h2 (σ := 1) (by norm_num) hv (by rw [one_mul]; exact U)).2.1 rfl⟩
  · exact ⟨rfl, rfl⟩

example : CC.roundSlightlyDown binary64 false .nearest 0x3FF0000000000000 = 0x3FF0000000000000 := by decide +kernel

/-- C57: in downward mode `round_result_slightly_down` gives the next number below, in upward mode `round_result_slightly_up` the next above. -/
theorem C57_slightly_directed (hw : f.Wide) {v : ℕ} (hv : f.Finite v) (h1 : (2 : ℝ) ^ ((f.F : ℤ) + 4 - f.bias) ≤ |f.val v|)
    (h2 : |f.val v| < (2 : ℝ) ^ (f.bias : ℤ)) :
    (f.Finite (CC.roundSlightlyDown f false .down v) ∧ f.val (CC.roundSlightlyDown f false .down v) < f.val v ∧
      ∀ c, f.Finite c → f.val c < f.val v → f.val c ≤ f.val (CC.roundSlightlyDown f false .down v)) ∧
    (f.Finite (CC.roundSlightlyUp f false .up v) ∧ f.val v < f.val (CC.roundSlightlyUp f false .up v) ∧
      ∀ c, f.Finite c → f.val v < f.val c → f.val (CC.roundSlightlyUp f false .up v) ≤ f.val c) := by
  obtain ⟨n1, n2⟩ := CC.minNormal_data f false
  unfold CC.roundSlightlyDown CC.roundSlightlyUp
  rw [FPBits.minNormal_eq, if_neg (by decide), if_neg (by decide)]
  have D := f.hsub_spec .down hv n1
  have U := f.hadd_spec .up hv n1
  rw [n2, sg_false, one_mul] at D U
  have A := slightly_aux f hw h1 h2 (σ := -1) (by norm_num) hv (by rw [neg_one_mul, ← sub_eq_add_neg]; exact D)
  have B := slightly_aux f hw h1 h2 (σ := 1) (by norm_num) hv (by rw [one_mul]; exact U)
  exact ⟨⟨A.1, A.2.2.1 rfl rfl⟩, B.1, B.2.2.2 rfl rfl⟩

example : CC.roundSlightlyDown binary64 false .down 0x3FF0000000000000 = 0x3FEFFFFFFFFFFFFF ∧
    CC.roundSlightlyUp binary64 false .up 0x3FF0000000000000 = 0x3FF0000000000001 := by decide +kernel

end Verif
