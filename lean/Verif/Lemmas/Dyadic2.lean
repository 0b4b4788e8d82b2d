import Verif.Lemmas.Dyadic
import Verif.Lemmas.BigInt2

/-!
# Lemmas on dyadic floats: construction, addition, multiplication
-/

namespace Verif
open Fmt
variable (f : Fmt)

theorem Dy.val_sg (d : Dy) : d.val = sg d.s * ((d.m : ℝ) * 2 ^ d.e) := rfl

theorem Dy.abs_val (d : Dy) : |d.val| = (d.m : ℝ) * 2 ^ d.e := by
  have : (0 : ℝ) < 2 ^ d.e := two_zpow_pos _
  rw [d.val_sg, abs_mul, abs_sg, one_mul, abs_of_nonneg (by positivity)]

theorem Dy.val_eq_zero (d : Dy) : d.val = 0 ↔ d.m = 0 := by
  rw [← abs_eq_zero, d.abs_val]
  have : (0 : ℝ) < 2 ^ d.e := two_zpow_pos _
  constructor
  · intro h
    rcases mul_eq_zero.1 h with h | h
    · exact_mod_cast h
    · exact absurd h this.ne'
  · intro h; rw [h]; simp

namespace CC

theorem dyNormalize_spec {B : ℕ} {d : Dy} (hm : d.m < 2 ^ B) :
    (dyNormalize B d).Normal B ∧ (dyNormalize B d).val = d.val ∧ (dyNormalize B d).s = d.s ∧ (d.m = 0 → dyNormalize B d = d) ∧
      d.e - B ≤ (dyNormalize B d).e ∧ (dyNormalize B d).e ≤ d.e := by
  unfold dyNormalize
  by_cases h0 : d.m = 0
  · rw [if_neg (by simpa using h0)]
    exact ⟨⟨hm, Or.inl h0⟩, rfl, rfl, fun _ => rfl, by omega, le_rfl⟩
  rw [if_pos h0]
  obtain ⟨w1, w2, w3⟩ := bitWidth_spec (Nat.pos_of_ne_zero h0)
  have w4 : bitWidth d.m ≤ B := bitWidth_le.2 hm
  have e1 : d.m <<< (B - bitWidth d.m) < 2 ^ B := by
    rw [Nat.shiftLeft_eq]
    calc d.m * 2 ^ (B - bitWidth d.m) < 2 ^ bitWidth d.m * 2 ^ (B - bitWidth d.m) := Nat.mul_lt_mul_of_pos_right w3 (by positivity)
      _ = 2 ^ B := by rw [← pow_add]; congr 1; omega
  have e2 : 2 ^ (B - 1) ≤ d.m <<< (B - bitWidth d.m) := by
    rw [Nat.shiftLeft_eq]
    calc 2 ^ (B - 1) = 2 ^ (bitWidth d.m - 1) * 2 ^ (B - bitWidth d.m) := by rw [← pow_add]; congr 1; omega
      _ ≤ _ := Nat.mul_le_mul_right _ w2
  simp only [Nat.mod_eq_of_lt e1]
  refine ⟨⟨e1, Or.inr e2⟩, ?_, trivial, fun h => absurd h h0, by omega, by omega⟩
  unfold Dy.val
  simp only
  congr 1
  rw [Nat.shiftLeft_eq]
  push_cast
  rw [mul_assoc, ← zpow_natCast 2 (B - bitWidth d.m), ← zpow_add₀ (by norm_num)]
  congr 2
  omega

/-- l.117-125: every finite number is represented exactly -/
theorem dyOf_spec {B : ℕ} (hB : f.F + 1 ≤ B) {x : ℕ} (hx : f.Finite x) :
    (dyOf f B x).Normal B ∧ (dyOf f B x).val = f.val x ∧ (dyOf f B x).s = f.sgn x ∧ (f.val x ≠ 0 → 1 - (f.bias : ℤ) - f.F - B ≤ (dyOf f B x).e) := by
  have hM : FPBits.explicitMantissa f x < 2 ^ (f.F + 1) := by
    rw [explicitMantissa_eq, pow_succ]; have := f.frac_lt x; have := f.two_pow_F_pos; split <;> omega
  have hMB : FPBits.explicitMantissa f x < 2 ^ B := lt_of_lt_of_le hM (Nat.pow_le_pow_right (by norm_num) hB)
  unfold dyOf
  rw [Nat.mod_eq_of_lt hMB]
  obtain ⟨h1, h2, h3, h4, h5, -⟩ := dyNormalize_spec (d := ⟨FPBits.isNeg f x, FPBits.explicitExponent f x - f.F, FPBits.explicitMantissa f x⟩) hMB
  have hs : FPBits.isNeg f x = f.sgn x := FPBits.isNeg_eq f hx.valid
  refine ⟨h1, ?_, by rw [h3]; exact hs, ?_⟩
  · rw [h2]
    by_cases h0 : f.val x = 0
    · rw [h0, Dy.val_eq_zero]
      have : f.mag x = 0 := (f.val_eq_zero_iff x).1 h0
      simp only [explicitMantissa_eq]
      have e := f.mag_eq x
      rw [this] at e
      have hb : f.bexp x = 0 := by unfold bexp; rw [this]; simp
      rw [if_pos hb]; omega
    · rw [explicit_val f h0, Dy.val_sg]; simp only [hs]
  · intro h0
    refine le_trans ?_ h5
    simp only [explicitExponent_eq f h0]
    split <;> omega

theorem toWords_spec {w : ℕ} (hw : 1 ≤ w) (N a : ℕ) : BI.Words w (toWords w N a) ∧ (toWords w N a).length = N ∧ BI.nat w (toWords w N a) = a % 2 ^ (w * N) := by
  have hl : (toWords w N a).length = N := by simp [toWords]
  have hW : BI.Words w (toWords w N a) := by
    intro d hd
    unfold toWords at hd
    rw [List.mem_map] at hd
    obtain ⟨i, -, rfl⟩ := hd
    exact Nat.mod_lt _ (by positivity)
  refine ⟨hW, hl, ?_⟩
  rw [BI.nat_of_bits hw hW a, hl]
  intro k hk j hj
  rw [hl] at hk
  unfold toWords
  rw [BI.getD_map_range _ _ _ hk, Nat.testBit_mod_two_pow, Nat.testBit_div_two_pow]
  simp [hj, add_comm]

/-- `quick_mul_hi` on normalized mantissas -/
theorem mulHi_spec (wide : Bool) {w N : ℕ} (hw : 1 ≤ w) (he : wide = false → w % 2 = 0) (hN : 1 ≤ N) (hM : N < 2 ^ w) {a b : ℕ}
    (ha : a < 2 ^ (w * N)) (hb : b < 2 ^ (w * N)) :
    ∃ L, L ≤ (a % 2 ^ (w * (N - 1))) * (b % 2 ^ (w * (N - 1))) ∧ L + N * 2 ^ (w * (N - 1)) ≤ (N - 1) * 2 ^ (w * N) + 1 ∧ L ≤ a * b ∧
      mulHi wide w N a b = (a * b - L) / 2 ^ (w * N) := by
  obtain ⟨a1, a2, a3⟩ := toWords_spec hw N a
  obtain ⟨b1, b2, b3⟩ := toWords_spec hw N b
  rw [Nat.mod_eq_of_lt ha] at a3
  rw [Nat.mod_eq_of_lt hb] at b3
  obtain ⟨-, -, L, h1, h2, h3, h4⟩ := BI.quickMulHi_exact wide hw he a1 b1 (by rw [a2, b2]) (by omega) (by omega)
  rw [a2] at h1 h2 h4
  rw [a3, b3] at h3 h4
  have := BI.low_le a1 b1 (N - 1)
  rw [a3, b3, ← h1] at this
  exact ⟨L, this, h2, h3, h4⟩

/-- dropping the products of low words keeps the product of normalized mantissas above a quarter -/
theorem mul_low_ge {X w a b : ℕ} (hw : 1 ≤ w) (hX : 0 < X) (ha : 2 ^ (w - 1) * X ≤ a) (hb : 2 ^ (w - 1) * X ≤ b) :
    2 ^ (2 * w - 2) * (X * X) + (a % X) * (b % X) ≤ a * b := by
  have a1 := Nat.div_add_mod a X
  have b1 := Nat.div_add_mod b X
  have a2 : 2 ^ (w - 1) ≤ a / X := (Nat.le_div_iff_mul_le hX).2 ha
  have b2 : 2 ^ (w - 1) ≤ b / X := (Nat.le_div_iff_mul_le hX).2 hb
  have e : 2 ^ (2 * w - 2) = 2 ^ (w - 1) * 2 ^ (w - 1) := by rw [← pow_add]; congr 1; omega
  have h := Nat.mul_le_mul a2 b2
  have h2 := Nat.mul_le_mul_right (X * X) h
  rw [e]
  generalize a / X = p at *
  generalize b / X = q at *
  generalize a % X = r at *
  generalize b % X = t at *
  rw [← a1, ← b1]
  nlinarith [Nat.zero_le (X * p * t), Nat.zero_le (X * q * r)]

theorem quickMul_spec (wide : Bool) {w N : ℕ} (hw : 1 ≤ w) (he : wide = false → w % 2 = 0) (hN : 1 ≤ N) (hM : N < 2 ^ w) {a b : Dy}
    (ha : a.Normal (w * N)) (hb : b.Normal (w * N)) (ha0 : a.m ≠ 0) (hb0 : b.m ≠ 0) (hB : 2 ≤ w * N) :
    (quickMul wide w N a b).Normal (w * N) ∧ (quickMul wide w N a b).m ≠ 0 ∧ (quickMul wide w N a b).s = (a.s != b.s) ∧
    |(quickMul wide w N a b).val| = (mulHi wide w N a.m b.m : ℝ) * 2 ^ (a.e + b.e + (w * N : ℕ)) ∧ 2 ^ (w * N - 2) ≤ mulHi wide w N a.m b.m ∧
    a.e + b.e + (w * N : ℕ) - 1 ≤ (quickMul wide w N a b).e := by
  obtain ⟨a1, a2⟩ := ha
  obtain ⟨b1, b2⟩ := hb
  have a2 : 2 ^ (w * N - 1) ≤ a.m := by tauto
  have b2 : 2 ^ (w * N - 1) ≤ b.m := by tauto
  obtain ⟨L, l1, l2, l3, l4⟩ := mulHi_spec wide hw he hN hM a1 b1
  have eB : w * N = w * (N - 1) + w := by rw [← Nat.mul_succ]; congr 1; omega
  have hlow : 2 ^ (w * N - 2) ≤ mulHi wide w N a.m b.m := by
    rw [l4, Nat.le_div_iff_mul_le (by positivity)]
    have h := mul_low_ge (X := 2 ^ (w * (N - 1))) hw (by positivity) (a := a.m) (b := b.m) (by
      rw [← pow_add]; refine le_trans (le_of_eq ?_) a2; congr 1; omega) (by rw [← pow_add]; refine le_trans (le_of_eq ?_) b2; congr 1; omega)
    have e : 2 ^ (w * N - 2) * 2 ^ (w * N) = 2 ^ (2 * w - 2) * (2 ^ (w * (N - 1)) * 2 ^ (w * (N - 1))) := by
      rw [← pow_add, ← pow_add, ← pow_add]; congr 1; omega
    rw [e]; omega
  have hhi : mulHi wide w N a.m b.m < 2 ^ (w * N) := by
    rw [l4, Nat.div_lt_iff_lt_mul (by positivity)]
    have := Nat.mul_lt_mul'' a1 b1
    omega
  unfold quickMul
  simp only
  rw [if_pos (by tauto)]
  generalize mulHi wide w N a.m b.m = m at *
  have hz : (2 : ℕ) ^ (w * N - 2) > 0 := by positivity
  have htop : (m / 2 ^ (w * (N - 1))) >>> (w - 1) = 0 ↔ m < 2 ^ (w * N - 1) := by
    rw [Nat.shiftRight_eq_div_pow, Nat.div_div_eq_div_mul, ← pow_add, Nat.div_eq_zero_iff_lt (by positivity)]
    have : w * (N - 1) + (w - 1) = w * N - 1 := by omega
    rw [this]
  by_cases h : (m / 2 ^ (w * (N - 1))) >>> (w - 1) = 0
  · rw [if_pos h]
    have hlt := htop.1 h
    unfold dyShl
    rw [if_pos (by omega)]
    have e2 : 2 ^ (w * N) = 2 * 2 ^ (w * N - 1) := by rw [← pow_succ']; congr 1; omega
    have e3 : 2 ^ (w * N - 1) = 2 * 2 ^ (w * N - 2) := by rw [← pow_succ']; congr 1; omega
    have e4 : (m <<< 1) % 2 ^ (w * N) = 2 * m := by
      rw [Nat.shiftLeft_eq, pow_one, Nat.mod_eq_of_lt (by omega), mul_comm]
    simp only [e4]
    refine ⟨⟨by simp only; omega, Or.inr (by simp only; omega)⟩, by omega, trivial, ?_, hlow, ?_⟩
    · rw [Dy.abs_val]
      push_cast
      rw [zpow_sub₀ (by norm_num)]; ring_nf
    · push_cast; omega
  · rw [if_neg h]
    refine ⟨⟨hhi, Or.inr (not_lt.1 fun hc => h (htop.2 hc))⟩, by simp only; omega, rfl, Dy.abs_val _, hlow, by simp only; omega⟩

theorem quickMul_zero (wide : Bool) {w N : ℕ} {a b : Dy} (h : a.m = 0 ∨ b.m = 0) : (quickMul wide w N a b).m = 0 ∧ (quickMul wide w N a b).s = (a.s != b.s) := by
  unfold quickMul
  simp only
  rw [if_neg (by tauto)]
  exact ⟨rfl, rfl⟩

end CC
end Verif
