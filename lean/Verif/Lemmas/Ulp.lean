import Verif.Lemmas.RelErr

/-!
# Units in the last place

`ce x` is the exponent of the unit in the last place of `x`; `Mult g v` says that the real `v` is an integer
multiple of `2^g`.  These are the notions used in the textbook proofs of error-free transformations.
-/

namespace Verif
namespace Fmt
variable (f : Fmt)

/-- exponent of the least subnormal -/
def emin : ℤ := 1 - (f.bias : ℤ) - f.F
/-- exponent of the unit in the last place of the finite pattern `x` -/
def ce (x : ℕ) : ℤ := (f.gk (f.mag x) : ℤ) + f.emin

end Fmt

/-- `v` is an integer multiple of `2^g` -/
def Mult (g : ℤ) (v : ℝ) : Prop := ∃ a : ℤ, v = (a : ℝ) * (2 : ℝ) ^ g

theorem Mult.weaken {g h : ℤ} {v : ℝ} (hv : Mult g v) (hh : h ≤ g) : Mult h v := by
  obtain ⟨a, rfl⟩ := hv
  refine ⟨a * 2 ^ (g - h).toNat, ?_⟩
  push_cast
  rw [mul_assoc, ← zpow_natCast, ← zpow_add₀ (by norm_num)]
  congr 2; omega

theorem Mult.add {g : ℤ} {v w : ℝ} (hv : Mult g v) (hw : Mult g w) : Mult g (v + w) := by
  obtain ⟨a, rfl⟩ := hv; obtain ⟨b, rfl⟩ := hw
  exact ⟨a + b, by push_cast; ring⟩

theorem Mult.neg {g : ℤ} {v : ℝ} (hv : Mult g v) : Mult g (-v) := by
  obtain ⟨a, rfl⟩ := hv
  exact ⟨-a, by push_cast; ring⟩

theorem Mult.sub {g : ℤ} {v w : ℝ} (hv : Mult g v) (hw : Mult g w) : Mult g (v - w) := by
  rw [sub_eq_add_neg]; exact hv.add hw.neg

theorem Mult.mul {g h : ℤ} {v w : ℝ} (hv : Mult g v) (hw : Mult h w) : Mult (g + h) (v * w) := by
  obtain ⟨a, rfl⟩ := hv; obtain ⟨b, rfl⟩ := hw
  exact ⟨a * b, by rw [zpow_add₀ (by norm_num)]; push_cast; ring⟩

theorem Mult.zero (g : ℤ) : Mult g 0 := ⟨0, by simp⟩

theorem Mult.two_zpow (g : ℤ) : Mult g ((2 : ℝ) ^ g) := ⟨1, by simp⟩

theorem Mult.int_mul {g : ℤ} {v : ℝ} (n : ℤ) (hv : Mult g v) : Mult g ((n : ℝ) * v) := by
  obtain ⟨a, rfl⟩ := hv
  exact ⟨n * a, by push_cast; ring⟩

/-- a nonzero multiple of `2^g` is at least `2^g` -/
theorem Mult.ge {g : ℤ} {v : ℝ} (hv : Mult g v) (h0 : v ≠ 0) : (2 : ℝ) ^ g ≤ |v| := by
  obtain ⟨a, rfl⟩ := hv
  have hp : (0 : ℝ) < (2 : ℝ) ^ g := zpow_pos (by norm_num) _
  rw [abs_mul, abs_of_pos hp]
  have ha : a ≠ 0 := by rintro rfl; simp at h0
  have : (1 : ℝ) ≤ |(a : ℝ)| := by
    rw [← Int.cast_abs]; exact_mod_cast Int.one_le_abs ha
  nlinarith

/-- two different multiples of `2^g` differ by at least `2^g` -/
theorem Mult.lt_imp {g : ℤ} {v w : ℝ} (hv : Mult g v) (hw : Mult g w) (h : v < w) : v + (2 : ℝ) ^ g ≤ w := by
  have := (hw.sub hv).ge (by linarith [h] |> fun (h : w - v > 0) => ne_of_gt h)
  rw [abs_of_pos (by linarith)] at this
  linarith

theorem two_zpow_le {a b : ℤ} (h : a ≤ b) : (2 : ℝ) ^ a ≤ (2 : ℝ) ^ b := zpow_le_zpow_right₀ (by norm_num) h
theorem two_zpow_lt {a b : ℤ} (h : a < b) : (2 : ℝ) ^ a < (2 : ℝ) ^ b := zpow_lt_zpow_right₀ (by norm_num) h
theorem two_zpow_pos (a : ℤ) : (0 : ℝ) < (2 : ℝ) ^ a := zpow_pos (by norm_num) _
theorem two_zpow_lt_iff {a b : ℤ} : (2 : ℝ) ^ a < (2 : ℝ) ^ b ↔ a < b := zpow_lt_zpow_iff_right₀ (by norm_num)
theorem two_zpow_succ (a : ℤ) : (2 : ℝ) ^ (a + 1) = 2 * (2 : ℝ) ^ a := by rw [zpow_add_one₀ (by norm_num)]; ring

namespace Fmt
variable (f : Fmt)

theorem minSub_eq_zpow : f.minSub = (2 : ℝ) ^ f.emin := rfl

theorem ce_ge (x : ℕ) : f.emin ≤ f.ce x := by unfold ce; omega

theorem val_ce (x : ℕ) : ∃ a : ℤ, f.val x = (a : ℝ) * (2 : ℝ) ^ f.ce x ∧ |a| < 2 ^ (f.F + 1) ∧ (f.ce x = f.emin ∨ 2 ^ f.F ≤ |a|) := by
  refine ⟨(if f.sgn x then -1 else 1) * (f.gs (f.mag x) : ℤ), ?_, ?_, ?_⟩
  · rw [val_eq, umag_eq_gs, minSub_eq_zpow]; unfold ce
    rw [zpow_add₀ (by norm_num), zpow_natCast]
    push_cast
    unfold sg
    split_ifs <;> ring
  · rw [abs_mul]
    have h := f.gs_lt (f.mag x)
    have : |(if f.sgn x then -1 else 1 : ℤ)| = 1 := by split_ifs <;> rfl
    rw [this, one_mul, Nat.abs_cast]
    exact_mod_cast h
  · rw [abs_mul]
    have : |(if f.sgn x then -1 else 1 : ℤ)| = 1 := by split_ifs <;> rfl
    rw [this, one_mul, Nat.abs_cast]
    by_cases h : f.gk (f.mag x) = 0
    · left; unfold ce; rw [h]; simp
    · right; exact_mod_cast f.gs_ge _ h

theorem mult_ce (x : ℕ) : Mult (f.ce x) (f.val x) := by
  obtain ⟨a, h, -⟩ := f.val_ce x; exact ⟨a, h⟩

theorem mult_emin (x : ℕ) : Mult f.emin (f.val x) := (f.mult_ce x).weaken (f.ce_ge x)

theorem abs_val_lt_ce (x : ℕ) : |f.val x| < (2 : ℝ) ^ (f.ce x + f.F + 1) := by
  obtain ⟨a, h, h1, -⟩ := f.val_ce x
  rw [h, abs_mul, abs_of_pos (two_zpow_pos _), add_assoc, zpow_add₀ (by norm_num), mul_comm]
  apply mul_lt_mul_of_pos_left _ (two_zpow_pos _)
  rw [← Int.cast_abs]
  have : ((|a| : ℤ) : ℝ) < ((2 ^ (f.F + 1) : ℤ) : ℝ) := by exact_mod_cast h1
  push_cast at this ⊢
  have e : (2 : ℝ) ^ ((f.F : ℤ) + 1) = 2 ^ (f.F + 1) := by rw [← zpow_natCast]; push_cast; rfl
  rw [e]; exact this

/-- the same bound with the last unit taken off -/
theorem abs_val_le_ce (x : ℕ) : |f.val x| + (2 : ℝ) ^ f.ce x ≤ (2 : ℝ) ^ (f.ce x + f.F + 1) := by
  have h1 : Mult (f.ce x) (|f.val x|) := by
    rcases abs_choice (f.val x) with h | h <;> rw [h]
    · exact f.mult_ce x
    · exact (f.mult_ce x).neg
  have h2 : Mult (f.ce x) ((2 : ℝ) ^ (f.ce x + f.F + 1)) := (Mult.two_zpow _).weaken (by omega)
  exact h1.lt_imp h2 (f.abs_val_lt_ce x)

theorem ce_normal (x : ℕ) : f.ce x = f.emin ∨ (2 : ℝ) ^ (f.ce x + f.F) ≤ |f.val x| := by
  obtain ⟨a, h, -, h2⟩ := f.val_ce x
  refine h2.imp id (fun h2 => ?_)
  rw [h, abs_mul, abs_of_pos (two_zpow_pos _), zpow_add₀ (by norm_num), mul_comm]
  apply mul_le_mul_of_nonneg_right _ (two_zpow_pos _).le
  rw [← Int.cast_abs]
  have : ((2 ^ f.F : ℤ) : ℝ) ≤ ((|a| : ℤ) : ℝ) := by exact_mod_cast h2
  push_cast at this ⊢
  rw [zpow_natCast]; exact this

/-- the unit in the last place is determined by the magnitude -/
theorem ce_le_of {x : ℕ} {g : ℤ} (hg : f.emin ≤ g) (h : |f.val x| < (2 : ℝ) ^ (g + f.F + 1)) : f.ce x ≤ g := by
  rcases f.ce_normal x with h1 | h1
  · omega
  · have := two_zpow_lt_iff.1 (lt_of_le_of_lt h1 h); omega

theorem le_ce_of {x : ℕ} {g : ℤ} (h : (2 : ℝ) ^ (g + f.F) ≤ |f.val x|) : g ≤ f.ce x := by
  have := two_zpow_lt_iff.1 (lt_of_le_of_lt h (f.abs_val_lt_ce x)); omega

theorem ce_le_max {x : ℕ} (hx : f.Finite x) : f.ce x ≤ (f.bias : ℤ) - f.F := by
  have := f.bias_pos
  refine f.ce_le_of (by unfold emin; omega) ?_
  have := f.abs_val_lt_huge hx
  rwa [show (f.bias : ℤ) - f.F + f.F + 1 = f.bias + 1 by ring]

theorem maxFin_add : f.maxFin + (2 : ℝ) ^ ((f.bias : ℤ) - f.F) = (2 : ℝ) ^ ((f.bias : ℤ) + 1) := by
  unfold maxFin
  rw [zpow_sub₀ (by norm_num), zpow_add_one₀ (by norm_num), zpow_neg]
  ring

/-- A multiple of `2^g` of at most `F+1` significant bits is a format value. -/
theorem rep {g : ℤ} {v : ℝ} (hm : Mult g v) (hg : f.emin ≤ g) (h1 : |v| ≤ (2 : ℝ) ^ (g + f.F + 1)) (h2 : |v| < (2 : ℝ) ^ ((f.bias : ℤ) + 1)) :
    ∃ b, f.Finite b ∧ f.val b = v := by
  obtain ⟨a, rfl⟩ := hm
  have hk : ((g - f.emin).toNat : ℤ) = g - f.emin := Int.toNat_of_nonneg (by omega)
  have hv : (a : ℝ) * (2 : ℝ) ^ g = a * 2 ^ (g - f.emin).toNat * f.minSub := by
    rw [minSub_eq_zpow, mul_assoc, ← zpow_natCast, ← zpow_add₀ (by norm_num), hk]; congr 2; ring
  have hab : |(a : ℝ) * (2 : ℝ) ^ g| = (a.natAbs : ℝ) * (2 : ℝ) ^ g := by
    rw [abs_mul, abs_of_pos (two_zpow_pos g), Nat.cast_natAbs, Int.cast_abs]
  have := f.exists_exact_int (z := a) (k := (g - f.emin).toNat) ?_ ?_
  · rw [hv]; exact this
  · rw [hab, add_assoc, zpow_add₀ (by norm_num), mul_comm] at h1
    have h1 := le_of_mul_le_mul_left h1 (two_zpow_pos g)
    have e : (2 : ℝ) ^ ((f.F : ℤ) + 1) = ((2 ^ (f.F + 1) : ℕ) : ℝ) := by push_cast; rw [← zpow_natCast]; push_cast; rfl
    rw [e] at h1; exact_mod_cast h1
  · rw [hv, abs_mul, abs_of_pos f.minSub_pos, ← f.huge_eq, abs_mul] at h2
    have h2 := lt_of_mul_lt_mul_right h2 f.minSub_pos.le
    rw [abs_of_pos (a := (2 : ℝ) ^ _) (by positivity), ← Int.cast_abs, ← Nat.cast_natAbs] at h2
    exact_mod_cast h2

end Fmt

open Fmt

/-- What one correct rounding guarantees, in units of the last place of the *result*. -/
theorem RoundsTo.ulp {f : Fmt} {m : Mode} {zs : Bool} {v : ℝ} {b : ℕ} (h : f.RoundsTo m zs v b) (hv : |v| ≤ f.maxFin) :
    f.Finite b ∧ |f.val b - v| < (2 : ℝ) ^ f.ce b := by
  have hf := RoundsTo.finite_of_le f h hv
  refine ⟨hf, ?_⟩
  have hb := f.abs_val_le_ce b
  have hh := f.abs_val_lt_huge hf
  have hc := two_zpow_pos (f.ce b)
  have hmx := f.maxFin_add
  have hpm := two_zpow_pos ((f.bias : ℤ) - f.F)
  by_contra hcon
  push Not at hcon
  rw [abs_le] at hv
  rcases le_abs.1 hcon with h1 | h1
  · obtain ⟨c, hc1, hc2⟩ := f.rep (g := f.ce b) (v := f.val b - (2 : ℝ) ^ f.ce b) ((f.mult_ce b).sub (Mult.two_zpow _)) (f.ce_ge b)
      (by rw [abs_le]; have := abs_le.1 (le_refl |f.val b|); constructor <;> linarith)
      (by rw [abs_lt] at hh ⊢; constructor <;> linarith)
    have := RoundsTo.le_of h hc1 (by linarith)
    rw [f.xval_of_finite hf, f.xval_of_finite hc1, EReal.coe_le_coe_iff] at this
    linarith
  · obtain ⟨c, hc1, hc2⟩ := f.rep (g := f.ce b) (v := f.val b + (2 : ℝ) ^ f.ce b) ((f.mult_ce b).add (Mult.two_zpow _)) (f.ce_ge b)
      (by rw [abs_le]; have := abs_le.1 (le_refl |f.val b|); constructor <;> linarith)
      (by rw [abs_lt] at hh ⊢; constructor <;> linarith)
    have := RoundsTo.ge_of h hc1 (by linarith)
    rw [f.xval_of_finite hf, f.xval_of_finite hc1, EReal.coe_le_coe_iff] at this
    linarith

theorem IsNearest.le {f : Fmt} {v : ℝ} {b c : ℕ} (h : f.IsNearest v b) (hc : f.Finite c) : |f.val b - v| ≤ |f.val c - v| := by
  exact h.best c hc

/-- In round-to-nearest the result is within half a unit in its last place, as soon as it is finite. -/
theorem RoundsTo.half_ulp {f : Fmt} {zs : Bool} {v : ℝ} {b : ℕ} (h : f.RoundsTo .nearest zs v b) (hf : f.Finite b) :
    |v| < (2 : ℝ) ^ ((f.bias : ℤ) + 1) ∧ |f.val b - v| ≤ (2 : ℝ) ^ (f.ce b - 1) := by
  have hval := h.value
  unfold RoundValue at hval
  simp only at hval
  have hinf : ∀ s, b ≠ f.inf s := fun s hb => by
    have := f.isInf_inf s; rw [← hb, isInf_iff] at this; rw [finite_iff] at hf; omega
  split_ifs at hval with h1 h2
  · exact absurd hval (hinf _)
  · exact absurd hval (hinf _)
  push Not at h1 h2
  have hth : (2 : ℝ) ^ (f.bias : ℤ) * (2 - (2 : ℝ) ^ (-(f.F : ℤ) - 1)) = f.maxFin + (2 : ℝ) ^ ((f.bias : ℤ) - f.F - 1) := by
    unfold maxFin
    rw [show (f.bias : ℤ) - f.F - 1 = f.bias + (-(f.F : ℤ) - 1) by ring, zpow_add₀ (by norm_num), zpow_sub₀ (by norm_num) (-(f.F : ℤ)) 1]
    ring
  rw [hth] at h1 h2
  have hmx := f.maxFin_add
  have e2 : (2 : ℝ) ^ ((f.bias : ℤ) - f.F) = 2 * (2 : ℝ) ^ ((f.bias : ℤ) - f.F - 1) := by rw [← two_zpow_succ]; congr 1; ring
  have e3 : (2 : ℝ) ^ (f.ce b) = 2 * (2 : ℝ) ^ (f.ce b - 1) := by rw [← two_zpow_succ]; congr 1; ring
  have hpm := two_zpow_pos ((f.bias : ℤ) - f.F - 1)
  have hc := two_zpow_pos (f.ce b - 1)
  refine ⟨by rw [abs_lt]; constructor <;> linarith, ?_⟩
  have hb := f.abs_val_le_ce b
  have hbm := abs_le.1 (f.abs_val_le hf)
  have hcm : (2 : ℝ) ^ (f.ce b - 1) ≤ (2 : ℝ) ^ ((f.bias : ℤ) - f.F - 1) := two_zpow_le (by have := f.ce_le_max hf; omega)
  by_contra hcon
  push Not at hcon
  have hbb := abs_le.1 (le_refl |f.val b|)
  rcases lt_abs.1 hcon with g | g
  · by_cases hw : -(2 : ℝ) ^ ((f.bias : ℤ) + 1) < f.val b - (2 : ℝ) ^ f.ce b
    · obtain ⟨c, hc1, hc2⟩ := f.rep (g := f.ce b) (v := f.val b - (2 : ℝ) ^ f.ce b) ((f.mult_ce b).sub (Mult.two_zpow _)) (f.ce_ge b)
        (by rw [abs_le]; constructor <;> linarith)
        (by rw [abs_lt]; constructor <;> linarith)
      have := IsNearest.le hval hc1
      rw [hc2, abs_of_pos (a := f.val b - v) (by linarith)] at this
      rcases le_abs.1 this with q | q <;> linarith
    · push Not at hw
      -- `b` is the most negative finite number
      have hb' : f.val b = -f.maxFin := by linarith
      have : (f.bias : ℤ) - f.F ≤ f.ce b := f.le_ce_of (by
        rw [hb', abs_neg, show (f.bias : ℤ) - f.F + f.F = f.bias by ring]
        have : (2 : ℝ) ^ ((f.bias : ℤ) - f.F) ≤ 2 ^ (f.bias : ℤ) := two_zpow_le (by omega)
        have e := two_zpow_succ (f.bias : ℤ)
        refine le_trans ?_ (le_abs_self _); linarith)
      have := two_zpow_le (show (f.bias : ℤ) - f.F - 1 ≤ f.ce b - 1 by omega)
      linarith
  · by_cases hw : f.val b + (2 : ℝ) ^ f.ce b < (2 : ℝ) ^ ((f.bias : ℤ) + 1)
    · obtain ⟨c, hc1, hc2⟩ := f.rep (g := f.ce b) (v := f.val b + (2 : ℝ) ^ f.ce b) ((f.mult_ce b).add (Mult.two_zpow _)) (f.ce_ge b)
        (by rw [abs_le]; constructor <;> linarith)
        (by rw [abs_lt]; constructor <;> linarith)
      have := IsNearest.le hval hc1
      rw [hc2, abs_of_neg (a := f.val b - v) (by linarith)] at this
      rcases le_abs.1 this with q | q <;> linarith
    · push Not at hw
      have hb' : f.val b = f.maxFin := by linarith
      have : (f.bias : ℤ) - f.F ≤ f.ce b := f.le_ce_of (by
        rw [hb', show (f.bias : ℤ) - f.F + f.F = f.bias by ring]
        have : (2 : ℝ) ^ ((f.bias : ℤ) - f.F) ≤ 2 ^ (f.bias : ℤ) := two_zpow_le (by omega)
        have e := two_zpow_succ (f.bias : ℤ)
        refine le_trans ?_ (le_abs_self _); linarith)
      have := two_zpow_le (show (f.bias : ℤ) - f.F - 1 ≤ f.ce b - 1 by omega)
      linarith

/-- Rounding keeps multiples of `2^g`. -/
theorem RoundsTo.mult {f : Fmt} {m : Mode} {zs : Bool} {v : ℝ} {b : ℕ} {g : ℤ} (h : f.RoundsTo m zs v b) (hm : Mult g v) (hg : f.emin ≤ g)
    (hv : |v| < (2 : ℝ) ^ ((f.bias : ℤ) + 1)) (he : |f.val b - v| < (2 : ℝ) ^ f.ce b) : Mult g (f.val b) := by
  rcases le_or_gt g (f.ce b) with hc | hc
  · exact (f.mult_ce b).weaken hc
  · have h1 := f.abs_val_le_ce b
    obtain ⟨c, hc1, hc2⟩ := f.rep hm hg (by
      have : |v| ≤ |f.val b| + |f.val b - v| := by
        have := abs_sub_abs_le_abs_sub v (f.val b); rw [abs_sub_comm v] at this; linarith
      have := two_zpow_le (show f.ce b + f.F + 1 ≤ g + f.F + 1 by omega)
      linarith) hv
    rw [(RoundsTo.exact f hc1 hc2 h).2]; exact hm

end Verif
