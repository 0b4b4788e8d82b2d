import Mathlib.Analysis.SpecialFunctions.Pow.Real
import Verif.Model.Sqrt
import Verif.Lemmas.Fma

/-!
# Lemmas for the digit-by-digit square root
-/

namespace Verif
open Fmt
namespace CC
variable (f : Fmt)

/-- loop invariant: `c` is the weight of the last digit, `N` the scaled radicand -/
structure SqrtInv (N c r y : ℕ) : Prop where
  rem : r * c + y * y = N
  ub : r < 2 * y + c

theorem sqrtStep_inv {S N c r y B : ℕ} (hS : 4 * B ≤ S) (hy : y + 2 * c ≤ B) (h : SqrtInv N (2 * c) r y) :
    let st := sqrtStep S c (r, y)
    SqrtInv N c st.1 st.2 ∧ st.2 + c ≤ B ∧ y ≤ st.2 := by
  obtain ⟨h1, h2⟩ := h
  unfold sqrtStep
  simp only [Nat.shiftLeft_eq, pow_one]
  rw [Nat.mod_eq_of_lt (show r * 2 < S by omega), Nat.mod_eq_of_lt (show y * 2 < S by omega),
    Nat.mod_eq_of_lt (show y * 2 + c < S by omega), Nat.mod_eq_of_lt (show y + c < S by omega)]
  split
  · rename_i hge
    refine ⟨⟨?_, ?_⟩, by simp only; omega, by simp only; omega⟩
    · simp only
      obtain ⟨d, hd⟩ := Nat.exists_eq_add_of_le hge
      rw [hd, Nat.add_sub_cancel_left, ← h1]
      nlinarith
    · simp only; omega
  · rename_i hlt
    refine ⟨⟨by simp only; rw [← h1]; ring, by simp only; omega⟩, by simp only; omega, le_rfl⟩

theorem sqrtLoop_inv {S N B : ℕ} (hS : 4 * B ≤ S) : ∀ (n r y : ℕ), y + 2 ^ n ≤ B → SqrtInv N (2 ^ n) r y →
    let st := sqrtLoop S n (r, y)
    SqrtInv N 1 st.1 st.2 ∧ st.2 + 1 ≤ B ∧ y ≤ st.2 := by
  intro n
  induction n with
  | zero => intro r y hy h; exact ⟨h, hy, le_rfl⟩
  | succ n ih =>
    intro r y hy h
    unfold sqrtLoop
    have e : 2 ^ (n + 1) = 2 * 2 ^ n := by ring
    rw [e] at hy h
    obtain ⟨a, b, c⟩ := sqrtStep_inv (S := S) (B := B) hS hy h
    obtain ⟨a', b', c'⟩ := ih _ _ b a
    exact ⟨a', b', le_trans c c'⟩

/-- the digits, the round bit and the remainder describe the exact square root -/
theorem sqrt_rbits {N r y : ℕ} (h : SqrtInv N 1 r y) :
    let rb := decide (r * 4 ≥ y * 4 + 1)
    RBits (Real.sqrt N) y rb ((if rb then r * 4 - (y * 4 + 1) else r * 4) != 0) := by
  obtain ⟨h1, h2⟩ := h
  have hN : (N : ℝ) = r + y * y := by rw [← h1]; push_cast; ring
  have hs0 : 0 ≤ Real.sqrt N := Real.sqrt_nonneg _
  have hss : Real.sqrt N * Real.sqrt N = N := Real.mul_self_sqrt (Nat.cast_nonneg _)
  have hy0 : (0 : ℝ) ≤ y := Nat.cast_nonneg _
  have hr0 : (0 : ℝ) ≤ r := Nat.cast_nonneg _
  have hlo : (y : ℝ) ≤ Real.sqrt N := by apply Real.le_sqrt_of_sq_le; rw [hN]; nlinarith
  have hub : (r : ℝ) ≤ 2 * y := by exact_mod_cast (by omega : r ≤ 2 * y)
  have heq : ∀ a : ℝ, 0 ≤ a → (Real.sqrt N = a ↔ (N : ℝ) = a * a) := by
    intro a ha
    rw [Real.sqrt_eq_iff_mul_self_eq (Nat.cast_nonneg _) ha]
  intro rb
  refine ⟨hlo, ?_, ?_, ?_, ?_⟩
  · rw [Real.sqrt_lt' (by linarith), hN]; nlinarith
  · simp only [rb, decide_eq_true_eq]
    rw [Real.le_sqrt' (by linarith), hN]
    constructor
    · intro h
      have : (y : ℝ) * 4 + 1 ≤ r * 4 := by exact_mod_cast h
      nlinarith
    · intro h
      have : (y : ℝ) * 4 + 1 ≤ r * 4 := by nlinarith
      exact_mod_cast this
  · intro hrb
    rw [hrb]
    simp only [Bool.false_eq_true, if_false]
    rw [heq _ hy0, hN]
    constructor
    · intro h
      have : r = 0 := by simpa using h
      rw [this]; simp
    · intro h
      have : (r : ℝ) = 0 := by linarith
      have : r = 0 := by exact_mod_cast this
      simp [this]
  · intro hrb
    have hge : r * 4 ≥ y * 4 + 1 := by simpa [rb] using hrb
    rw [hrb]
    simp only [if_true]
    rw [heq _ (by linarith), hN]
    constructor
    · intro h
      have : r * 4 - (y * 4 + 1) = 0 := by simpa using h
      have : r * 4 = y * 4 + 1 := by omega
      have : (r : ℝ) * 4 = y * 4 + 1 := by exact_mod_cast this
      nlinarith
    · intro h
      have : (r : ℝ) * 4 = y * 4 + 1 := by nlinarith
      have : r * 4 = y * 4 + 1 := by exact_mod_cast this
      simp [this]

/-- decoding: mantissa in `[2^F, 2^(F+2))`, even exponent -/
theorem sqrt_decode (hE : 3 ≤ f.E) {x : ℕ} (hx : f.Finite x) (h0 : f.val x ≠ 0) (hs : f.sgn x = false) :
    let S := 2 ^ (f.E + f.F + 1)
    let em := if FPBits.isSubnormal f x then sqrtNormalize f (FPBits.getExponent f x + 1) (FPBits.getMantissa f x)
      else (FPBits.getExponent f x, FPBits.getMantissa f x ||| 1 <<< f.F)
    let em := if em.1 % 2 ≠ 0 then (em.1 - 1, (em.2 <<< 1) % S) else em
    2 ^ f.F ≤ em.2 ∧ em.2 < 2 ^ (f.F + 2) ∧ em.1 % 2 = 0 ∧ f.val x = (em.2 : ℝ) * 2 ^ (em.1 - f.F) ∧
      -(f.bias : ℤ) - f.F ≤ em.1 ∧ em.1 ≤ f.bias := by
  have hF := f.frac_lt x
  have hp := f.two_pow_F_pos
  have h2b := f.two_bias
  have hbl := f.bexp_lt x
  have hmag : f.mag x ≠ 0 := fun h => h0 ((f.val_eq_zero_iff x).2 h)
  have hve := explicit_val f h0
  rw [explicitExponent_eq f h0, explicitMantissa_eq, hs, sg_false, one_mul] at hve
  -- first stage
  have key : ∃ (e : ℤ) (M : ℕ), (if FPBits.isSubnormal f x then sqrtNormalize f (FPBits.getExponent f x + 1) (FPBits.getMantissa f x)
      else (FPBits.getExponent f x, FPBits.getMantissa f x ||| 1 <<< f.F)) = (e, M) ∧ 2 ^ f.F ≤ M ∧ M < 2 ^ (f.F + 1) ∧
      f.val x = (M : ℝ) * 2 ^ (e - f.F) ∧ 1 - (f.bias : ℤ) - f.F ≤ e ∧ e ≤ f.bias := by
    rw [FPBits.isSubnormal_eq, FPBits.getMantissa_eq]
    unfold FPBits.getExponent
    rw [FPBits.biasedExp_eq]
    by_cases hb : f.bexp x = 0
    · rw [hb] at hve
      simp only [if_true, zero_add] at hve
      simp only [hb, decide_true, if_true]
      have hme := f.mag_eq x
      rw [hb, zero_mul, zero_add] at hme
      have hm0 : 0 < f.frac x := by omega
      obtain ⟨b1, b2, b3⟩ := bitWidth_spec hm0
      have b4 := bitWidth_le.2 hF
      unfold sqrtNormalize
      have hsh : ((f.E + f.F + 1 : ℕ) - (bitWidth (f.frac x) : ℤ)) - ((f.E + f.F + 1 : ℕ) - 1 - (f.F : ℤ)) = ((f.F + 1 - bitWidth (f.frac x) : ℕ) : ℤ) := by
        omega
      simp only [hsh, Int.toNat_natCast]
      have hlt : f.frac x * 2 ^ (f.F + 1 - bitWidth (f.frac x)) < 2 ^ (f.F + 1) := by
        calc _ < 2 ^ bitWidth (f.frac x) * 2 ^ (f.F + 1 - bitWidth (f.frac x)) := Nat.mul_lt_mul_of_pos_right b3 (by positivity)
          _ = _ := by rw [← pow_add]; congr 1; omega
      have hge : 2 ^ f.F ≤ f.frac x * 2 ^ (f.F + 1 - bitWidth (f.frac x)) := by
        calc 2 ^ f.F = 2 ^ (bitWidth (f.frac x) - 1) * 2 ^ (f.F + 1 - bitWidth (f.frac x)) := by rw [← pow_add]; congr 1; omega
          _ ≤ _ := Nat.mul_le_mul_right _ b2
      rw [Nat.shiftLeft_eq, Nat.mod_eq_of_lt (lt_of_lt_of_le hlt (Nat.pow_le_pow_right (by decide) (by omega)))]
      refine ⟨_, _, rfl, hge, hlt, ?_, by push_cast; omega, by push_cast; omega⟩
      rw [hve]
      push_cast
      rw [← zpow_natCast 2 (f.F + 1 - bitWidth (f.frac x)), mul_assoc, ← zpow_add₀ (by norm_num)]
      congr 2; ring
    · simp only [hb, if_false] at hve
      simp only [hb, decide_false, Bool.false_eq_true, if_false]
      have hor : f.frac x ||| 1 <<< f.F = 2 ^ f.F + f.frac x := by
        rw [Nat.lor_comm, Nat.one_shiftLeft, two_pow_or_eq_add hF]
      rw [hor]
      have hbne := hx.2
      refine ⟨_, _, rfl, by omega, by rw [pow_succ]; omega, hve, by omega, by omega⟩
  obtain ⟨e, M, he, h1, h2, h3, h4, h5⟩ := key
  intro S
  simp only [he]
  by_cases hodd : e % 2 ≠ 0
  · rw [if_pos hodd]
    have hlt : M <<< 1 < 2 ^ (f.F + 2) := by rw [Nat.shiftLeft_eq, pow_one, pow_succ]; omega
    have hSm : M <<< 1 % S = M * 2 := by
      rw [Nat.mod_eq_of_lt (lt_of_lt_of_le hlt (Nat.pow_le_pow_right (by decide) (by omega))), Nat.shiftLeft_eq, pow_one]
    rw [Nat.shiftLeft_eq, pow_one] at hlt
    simp only [hSm]
    refine ⟨by omega, hlt, by omega, ?_, by omega, by omega⟩
    rw [h3, show e - (f.F : ℤ) = (e - 1 - f.F) + 1 by ring, zpow_add_one₀ (by norm_num)]; push_cast; ring
  · rw [if_neg hodd]
    simp only
    refine ⟨h1, by rw [pow_add]; rw [pow_succ] at h2; omega, by omega, h3, by omega, by omega⟩

theorem sqrtCalcBits_spec (hE : 3 ≤ f.E) (hb : f.F + 2 ≤ f.bias) (md : Mode) {x : ℕ} (hx : f.Finite x) (h0 : f.val x ≠ 0)
    (hs : f.sgn x = false) : f.RoundsTo md false (Real.sqrt (f.val x)) (sqrtCalcBits f md x) := by
  obtain ⟨a1, a2, a3, a4, a5, a6⟩ := sqrt_decode f hE hx h0 hs
  have hp := f.two_pow_F_pos
  unfold sqrtCalcBits
  simp only [] at a1 a2 a3 a4 a5 a6 ⊢
  generalize hem : (if (if FPBits.isSubnormal f x = true then sqrtNormalize f (FPBits.getExponent f x + 1) (FPBits.getMantissa f x)
      else (FPBits.getExponent f x, FPBits.getMantissa f x ||| 1 <<< f.F)).1 % 2 ≠ 0 then
      ((if FPBits.isSubnormal f x = true then sqrtNormalize f (FPBits.getExponent f x + 1) (FPBits.getMantissa f x)
      else (FPBits.getExponent f x, FPBits.getMantissa f x ||| 1 <<< f.F)).1 - 1,
      (if FPBits.isSubnormal f x = true then sqrtNormalize f (FPBits.getExponent f x + 1) (FPBits.getMantissa f x)
      else (FPBits.getExponent f x, FPBits.getMantissa f x ||| 1 <<< f.F)).2 <<< 1 % 2 ^ (f.E + f.F + 1)) else
      (if FPBits.isSubnormal f x = true then sqrtNormalize f (FPBits.getExponent f x + 1) (FPBits.getMantissa f x)
      else (FPBits.getExponent f x, FPBits.getMantissa f x ||| 1 <<< f.F))) = em at *
  obtain ⟨e, X⟩ := em
  simp only at a1 a2 a3 a4 a5 a6 ⊢
  rw [Nat.one_shiftLeft]
  have hSS : 4 * (2 ^ (f.F + 1)) ≤ 2 ^ (f.E + f.F + 1) := by
    calc 4 * 2 ^ (f.F + 1) = 2 ^ (f.F + 3) := by rw [show f.F + 3 = f.F + 1 + 2 by omega, pow_add _ (f.F + 1)]; ring
      _ ≤ _ := Nat.pow_le_pow_right (by decide) (by omega)
  have hSS8 : 8 * (2 ^ (f.F + 1)) ≤ 2 ^ (f.E + f.F + 1) := by
    calc 8 * 2 ^ (f.F + 1) = 2 ^ (f.F + 4) := by rw [show f.F + 4 = f.F + 1 + 3 by omega, pow_add _ (f.F + 1)]; ring
      _ ≤ _ := Nat.pow_le_pow_right (by decide) (by omega)
  have hX4 : X < 4 * 2 ^ f.F := by rw [pow_add] at a2; omega
  have hinv0 : SqrtInv (X * 2 ^ f.F) (2 ^ f.F) (X - 2 ^ f.F) (2 ^ f.F) := by
    refine ⟨?_, by omega⟩
    rw [← Nat.add_mul, Nat.sub_add_cancel a1]
  obtain ⟨i1, i2, i3⟩ := sqrtLoop_inv (B := 2 ^ (f.F + 1)) hSS f.F _ _ (by rw [pow_succ]; omega) hinv0
  generalize sqrtLoop (2 ^ (f.E + f.F + 1)) f.F (X - 2 ^ f.F, 2 ^ f.F) = st at *
  obtain ⟨r, y⟩ := st
  simp only at i1 i2 i3 ⊢
  have hub := i1.ub
  have hrb := sqrt_rbits i1
  have hm1 : r <<< 2 % 2 ^ (f.E + f.F + 1) = r * 4 := by
    rw [Nat.shiftLeft_eq, Nat.mod_eq_of_lt (by omega)]
  have hm2 : (y <<< 2 % 2 ^ (f.E + f.F + 1) + 1) % 2 ^ (f.E + f.F + 1) = y * 4 + 1 := by
    rw [Nat.shiftLeft_eq, Nat.mod_eq_of_lt (a := y * 2 ^ 2) (by omega), Nat.mod_eq_of_lt (by omega)]
  rw [hm1, hm2]
  simp only at hrb
  generalize hRB : decide (r * 4 ≥ y * 4 + 1) = rb at *
  generalize hST : ((if rb = true then r * 4 - (y * 4 + 1) else r * 4) != 0) = sb at *
  obtain ⟨k, hk⟩ : ∃ k : ℕ, e / 2 + (f.bias : ℤ) = ((k + 1 : ℕ) : ℤ) := ⟨(e / 2 + (f.bias : ℤ) - 1).toNat, by omega⟩
  have hk2 : k + 1 ≤ 2 * f.bias := by omega
  have h2b := f.two_bias
  have hylt : y - 2 ^ f.F < 2 ^ f.F := by rw [pow_succ] at i2; omega
  have hpat : (y - 2 ^ f.F) ||| ((k + 1) <<< f.F % 2 ^ (f.E + f.F + 1)) = k * 2 ^ f.F + y := by
    have hlt : (k + 1) <<< f.F < 2 ^ (f.E + f.F + 1) := by
      rw [Nat.shiftLeft_eq]
      calc (k + 1) * 2 ^ f.F < 2 ^ f.E * 2 ^ f.F := Nat.mul_lt_mul_of_pos_right (by omega) hp
        _ ≤ _ := by rw [← pow_add]; exact Nat.pow_le_pow_right (by decide) (by omega)
    rw [Nat.mod_eq_of_lt hlt, Nat.lor_comm, or_eq_add_of_lt hylt, Nat.succ_mul]; omega
  rw [hk, Int.toNat_natCast, hpat]
  have hpar : ((k * 2 ^ f.F + y) &&& 1 != 0) = decide (y % 2 = 1) := by
    rw [and_one_bne]
    have : 2 ^ f.F = 2 * 2 ^ (f.F - 1) := by rw [← pow_succ']; congr 1; have := f.hF; omega
    rw [this, show k * (2 * 2 ^ (f.F - 1)) + y = 2 * (k * 2 ^ (f.F - 1)) + y by ring, Nat.mul_add_mod]
  rw [hpar]
  have hvpos : 0 < f.val x := by
    rw [a4]; exact mul_pos (by exact_mod_cast lt_of_lt_of_le hp a1) (zpow_pos (by norm_num) _)
  have hsq : Real.sqrt (f.val x) = Real.sqrt ((X * 2 ^ f.F : ℕ) : ℝ) * 2 ^ k * f.minSub := by
    have e1 : f.val x = ((X * 2 ^ f.F : ℕ) : ℝ) * ((2 : ℝ) ^ (e / 2 - f.F)) ^ 2 := by
      rw [a4]; push_cast
      rw [mul_assoc, ← zpow_natCast 2 f.F, ← zpow_natCast _ 2, ← zpow_mul, ← zpow_add₀ (by norm_num)]
      congr 2; push_cast; omega
    rw [e1, Real.sqrt_mul (Nat.cast_nonneg _), Real.sqrt_sq (zpow_pos (by norm_num) _).le]
    unfold minSub
    rw [mul_assoc, ← zpow_natCast, ← zpow_add₀ (by norm_num)]
    congr 2; omega
  have hfin := finish_round f (m := md) (s := false) (zs := false) hrb hsq (Real.sqrt_pos.2 hvpos) (by omega) (Or.inr i3) (by
    rw [infMag_eq]
    have h3 := Nat.mul_le_mul_right (2 ^ f.F) (show k ≤ 2 * f.bias - 1 by omega)
    have h4 : (2 * f.bias - 1) * 2 ^ f.F + 2 ^ f.F = 2 * f.bias * 2 ^ f.F := by
      rw [← Nat.succ_mul]; congr 1; have := f.bias_pos; omega
    rw [pow_succ] at i2; omega)
  have hR := hfin.1
  rw [sg_false, one_mul] at hR
  convert hR using 1
  unfold pack
  simp only [Bool.false_eq_true, if_false, zero_add]
  cases md <;> simp only [roundIncrement, Bool.not_false, Bool.true_and, Bool.false_and, Bool.false_eq_true, if_false, add_zero]
  · split <;> simp_all
  · split <;> simp_all

end CC
end Verif
