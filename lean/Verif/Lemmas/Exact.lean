import Verif.Lemmas.Nearest

/-!
# Representable results, overflow and total underflow
-/

namespace Verif
namespace Fmt
variable (f : Fmt)

theorem umag_eq_gs (n : ℕ) : f.umag n = f.gs n * 2 ^ f.gk n := rfl

/-- `2^(bias+1)`, the first power of two beyond the finite range -/
theorem huge_eq : (f.umag f.infMag : ℝ) * f.minSub = (2 : ℝ) ^ ((f.bias : ℤ) + 1) := by
  rw [umag_infMag]; unfold minSub
  push_cast
  rw [← pow_add, ← zpow_natCast, ← zpow_add₀ (by norm_num)]
  congr 1; push_cast; ring

theorem minSub_zpow (k : ℤ) : (2 : ℝ) ^ k * f.minSub = (2 : ℝ) ^ (k + (1 - (f.bias : ℤ) - f.F)) := by
  unfold minSub; rw [← zpow_add₀ (by norm_num)]

/-- an integer of at most `F+1` bits times a power of two is representable -/
theorem exists_exact (s : Bool) {a k : ℕ} (ha : a ≤ 2 ^ (f.F + 1)) (hlt : a * 2 ^ k < f.umag f.infMag) :
    ∃ b, f.Finite b ∧ f.val b = sg s * (((a * 2 ^ k : ℕ) : ℝ) * f.minSub) ∧ f.sgn b = s := by
  have hu := f.umag_floorIdx_of_dvd (k := k) ha
  rw [← hu, umag_lt_iff] at hlt
  refine ⟨f.pack s _, f.finite_pack s hlt, ?_, f.sgn_pack s (lt_trans hlt f.infMag_lt)⟩
  rw [val_pack f s (lt_trans hlt f.infMag_lt), hu]

/-- signed version -/
theorem exists_exact_int {z : ℤ} {k : ℕ} (hz : z.natAbs ≤ 2 ^ (f.F + 1)) (hlt : z.natAbs * 2 ^ k < f.umag f.infMag) :
    ∃ b, f.Finite b ∧ f.val b = (z : ℝ) * 2 ^ k * f.minSub := by
  obtain ⟨b, h1, h2, _⟩ := f.exists_exact (decide (z < 0)) hz hlt
  refine ⟨b, h1, ?_⟩
  rw [h2]
  push_cast
  by_cases h : z < 0
  · have : (z.natAbs : ℝ) = -(z : ℝ) := by
      have : (z.natAbs : ℤ) = -z := by omega
      rw [← Int.cast_natCast, this]; push_cast; rfl
    simp [h, this]
  · have : (z.natAbs : ℝ) = (z : ℝ) := by
      have : (z.natAbs : ℤ) = z := by omega
      rw [← Int.cast_natCast, this]
    simp [h, this]

theorem umag_lt_inf {x : ℕ} (hx : f.Finite x) : f.umag (f.mag x) < f.umag f.infMag :=
  f.umag_lt_iff.2 ((f.finite_iff x).1 hx).2

theorem abs_val_lt_huge {x : ℕ} (hx : f.Finite x) : |f.val x| < (2 : ℝ) ^ ((f.bias : ℤ) + 1) := by
  rw [abs_val, ← huge_eq]
  exact mul_lt_mul_of_pos_right (by exact_mod_cast f.umag_lt_inf hx) f.minSub_pos

/-- The overflow result of mode `m` and sign `s`. -/
def ovf (m : Mode) (s : Bool) : ℕ := f.pack s (if kind m s = .trunc then f.infMag - 1 else f.infMag)
/-- The total-underflow result of mode `m` and sign `s`. -/
def udf (m : Mode) (s : Bool) : ℕ := f.pack s (if kind m s = .away then 1 else 0)

theorem decomp_of_ne (v : ℝ) : v = sg (decide (v < 0)) * ((|v| / f.minSub) * f.minSub) := by
  rw [div_mul_cancel₀ _ f.minSub_pos.ne']
  by_cases h : v < 0
  · simp [h, abs_of_neg h]
  · simp [h, abs_of_nonneg (not_lt.1 h)]

theorem roundsTo_huge {m : Mode} {zs : Bool} {v : ℝ} (hv : (2 : ℝ) ^ ((f.bias : ℤ) + 1) ≤ |v|) :
    f.RoundsTo m zs v (f.ovf m (decide (v < 0))) := by
  have hp : (0 : ℝ) < (2 : ℝ) ^ ((f.bias : ℤ) + 1) := zpow_pos (by norm_num) _
  have hv0 : v ≠ 0 := fun h => by rw [h, abs_zero] at hv; linarith
  have hu := f.minSub_pos
  have ht : 0 ≤ |v| / f.minSub := by positivity
  obtain ⟨n, hn⟩ := f.exists_rndMag (kind m (decide (v < 0))) ht
  have h1 := f.roundsTo_of_rndMag (zs := zs) ht (f.decomp_of_ne v)
    (fun h => by exfalso; rw [div_eq_zero_iff] at h; rcases h with h | h
                 · exact hv0 (abs_eq_zero.1 h)
                 · exact hu.ne' h) hn
  have hge : f.infMag ≤ n := by
    obtain ⟨n0, hf, hk⟩ := hn
    have : (f.umag f.infMag : ℝ) ≤ |v| / f.minSub := by rw [le_div_iff₀ hu, huge_eq]; exact hv
    have h0 : f.infMag ≤ n0 := (IsFloor.le_iff f hf).1 this
    have : n0 ≤ n := by
      revert hk
      cases kind m (decide (v < 0)) <;> intro hk <;> simp only at hk
      · rcases hk with h | h | h <;> omega
      · omega
      · rw [hk]; split <;> omega
    omega
  have : f.cap (kind m (decide (v < 0))) n = if kind m (decide (v < 0)) = .trunc then f.infMag - 1 else f.infMag := by
    unfold cap; rw [if_neg (by omega)]
    cases kind m (decide (v < 0)) <;> rfl
  rw [this] at h1; exact h1

theorem RoundsTo.huge {m : Mode} {zs : Bool} {v : ℝ} {b : ℕ} (h : f.RoundsTo m zs v b)
    (hv : (2 : ℝ) ^ ((f.bias : ℤ) + 1) ≤ |v|) : b = f.ovf m (decide (v < 0)) :=
  RoundsTo.unique f h (f.roundsTo_huge hv)

theorem umag_one' : f.umag 1 = 1 := by
  have := f.two_pow_F_pos
  rw [umag_small]; rw [pow_succ]; omega

theorem roundsTo_tiny {m : Mode} {zs : Bool} {v : ℝ} (hv0 : v ≠ 0) (hv : |v| < f.minSub / 2) :
    f.RoundsTo m zs v (f.udf m (decide (v < 0))) := by
  have hu := f.minSub_pos
  have ht : 0 ≤ |v| / f.minSub := by positivity
  have hlt : 2 * (|v| / f.minSub) < 1 := by
    rw [← mul_div_assoc, div_lt_one hu]; linarith
  have hne : |v| / f.minSub ≠ 0 := by
    intro h; rw [div_eq_zero_iff] at h; rcases h with h | h
    · exact hv0 (abs_eq_zero.1 h)
    · exact hu.ne' h
  have hR : f.RndMag (kind m (decide (v < 0))) (|v| / f.minSub) (if kind m (decide (v < 0)) = .away then 1 else 0) := by
    refine ⟨0, ⟨by rw [umag_zero]; simpa using ht, by rw [zero_add, umag_one']; push_cast; linarith⟩, ?_⟩
    cases kind m (decide (v < 0)) <;> simp only [zero_add, umag_zero, umag_one']
    · left; constructor
      · push_cast; linarith
      · simp
    · simp
    · rw [if_pos trivial, if_neg (by rw [Nat.cast_zero]; exact hne)]
  have h1 := f.roundsTo_of_rndMag (zs := zs) ht (f.decomp_of_ne v) (fun h => absurd h hne) hR
  have hip := f.infMag_pos
  have : f.cap (kind m (decide (v < 0))) (if kind m (decide (v < 0)) = .away then 1 else 0) =
      (if kind m (decide (v < 0)) = .away then 1 else 0) := by
    unfold cap; rw [if_pos]
    have h4 : 2 ≤ 2 ^ (f.F + 1) := by rw [pow_succ]; have := f.two_pow_F_pos; omega
    split <;> omega
  rw [this] at h1; exact h1

theorem RoundsTo.tiny {m : Mode} {zs : Bool} {v : ℝ} {b : ℕ} (h : f.RoundsTo m zs v b) (hv0 : v ≠ 0)
    (hv : |v| < f.minSub / 2) : b = f.udf m (decide (v < 0)) :=
  RoundsTo.unique f h (f.roundsTo_tiny hv0 hv)

/-! ### scaling by powers of two -/

/-- the datum `2^(e - bias)` -/
theorem pow2_val (s : Bool) {e : ℕ} (h1 : 1 ≤ e) (h2 : e ≤ 2 * f.bias) :
    f.Finite (f.pack s (e * 2 ^ f.F)) ∧ f.val (f.pack s (e * 2 ^ f.F)) = sg s * (2 : ℝ) ^ ((e : ℤ) - f.bias) ∧
      f.sgn (f.pack s (e * 2 ^ f.F)) = s := by
  have hlt : e * 2 ^ f.F < f.infMag := by
    rw [infMag_eq]
    have := Nat.mul_le_mul_right (2 ^ f.F) h2
    have := f.two_pow_F_pos
    omega
  refine ⟨f.finite_pack s hlt, ?_, f.sgn_pack s (lt_trans hlt f.infMag_lt)⟩
  rw [val_pack f s (lt_trans hlt f.infMag_lt)]
  have : e * 2 ^ f.F = (e - 1) * 2 ^ f.F + 2 ^ f.F := by
    obtain ⟨k, rfl⟩ : ∃ k, e = k + 1 := ⟨e - 1, by omega⟩
    simp; ring
  rw [this, umag_of f (by rw [pow_succ]; have := f.two_pow_F_pos; omega) (Or.inr le_rfl)]
  push_cast
  rw [← pow_add, ← zpow_natCast, minSub_zpow]
  congr 2; push_cast [Nat.cast_sub h1]; ring

/-- scaling by a power of two is exact when nothing is shifted out and the result does not overflow -/
theorem scale_exact {x : ℕ} {k : ℤ} (hlo : 0 ≤ k ∨ f.minNormal ≤ |f.val x * 2 ^ k|)
    (hhi : |f.val x * 2 ^ k| < (2 : ℝ) ^ ((f.bias : ℤ) + 1)) :
    ∃ b, f.Finite b ∧ f.val b = f.val x * 2 ^ k ∧ f.sgn b = f.sgn x := by
  have hu := f.minSub_pos
  have hkpos : (0 : ℝ) < (2 : ℝ) ^ k := zpow_pos (by norm_num) _
  have hval : f.val x * 2 ^ k = sg (f.sgn x) * ((f.gs (f.mag x) : ℝ) * (2 : ℝ) ^ ((f.gk (f.mag x) : ℤ) + k) * f.minSub) := by
    rw [val_eq, umag_eq_gs, zpow_add₀ (by norm_num)]; push_cast; rw [zpow_natCast]; ring
  have habs : |f.val x * 2 ^ k| = (f.gs (f.mag x) : ℝ) * (2 : ℝ) ^ ((f.gk (f.mag x) : ℤ) + k) * f.minSub := by
    rw [hval, abs_mul, abs_sg, one_mul, abs_of_nonneg]
    exact mul_nonneg (mul_nonneg (Nat.cast_nonneg _) (zpow_pos (by norm_num) _).le) hu.le
  have hnn : 0 ≤ (f.gk (f.mag x) : ℤ) + k := by
    rcases hlo with h | h
    · omega
    · by_contra hc
      rw [habs, minNormal_eq] at h
      have h1 := le_of_mul_le_mul_right h hu
      have h2 : f.umag (2 ^ f.F) = 2 ^ f.F := f.umag_small (by rw [pow_succ]; have := f.two_pow_F_pos; omega)
      rw [h2] at h1
      have h3 : (2 : ℝ) ^ ((f.gk (f.mag x) : ℤ) + k) ≤ (2 : ℝ) ^ (-1 : ℤ) := zpow_le_zpow_right₀ (by norm_num) (by omega)
      have h4 : (f.gs (f.mag x) : ℝ) < 2 ^ (f.F + 1) := by exact_mod_cast f.gs_lt _
      have h5 : (f.gs (f.mag x) : ℝ) * (2 : ℝ) ^ ((f.gk (f.mag x) : ℤ) + k) ≤ (f.gs (f.mag x) : ℝ) * (2 : ℝ) ^ (-1 : ℤ) :=
        mul_le_mul_of_nonneg_left h3 (Nat.cast_nonneg _)
      rw [pow_succ] at h4
      push_cast at h1
      norm_num at h5
      linarith
  obtain ⟨j, hj⟩ := Int.eq_ofNat_of_zero_le hnn
  rw [hj] at hval habs
  obtain ⟨b, h1, h2, h3⟩ := f.exists_exact (f.sgn x) (a := f.gs (f.mag x)) (k := j) (f.gs_lt _).le (by
    rw [habs, ← huge_eq] at hhi
    have := lt_of_mul_lt_mul_right hhi hu.le
    rw [zpow_natCast] at this
    exact_mod_cast this)
  refine ⟨b, h1, ?_, h3⟩
  rw [h2, hval]; push_cast; rw [zpow_natCast]

end Fmt
end Verif
