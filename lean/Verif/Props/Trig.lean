import Verif.Lemmas.PayneHanek2

/-!
# C48 Payne-Hanek reduction
-/

namespace Verif
open Fmt

theorem bexp_of_ge {x : ℕ} (h : 1 / 2 ^ 201 ≤ |binary64.val x|) : 822 ≤ binary64.bexp x := by
  have := binary64.le_ce_of (x := x) (g := -253) (by
    refine le_trans (le_of_eq ?_) h
    rw [show (-253 : ℤ) + (binary64.F : ℤ) = -((201 : ℕ) : ℤ) from rfl, zpow_neg, zpow_natCast, one_div])
  have e : binary64.ce x = (binary64.gk (binary64.mag x) : ℤ) + (-1074) := rfl
  rw [e] at this
  have e2 : binary64.gk (binary64.mag x) = binary64.bexp x - 1 := rfl
  omega

/-- C48: the 32 stored words are the first 2048 bits of the fraction of `8/π` (`8/π = 2.54...`). -/
theorem C48_table :
    ((CC.frac8OverPi.foldl (fun a w => a * 2 ^ 64 + w) 0 : ℕ) : ℝ) / 2 ^ 2048 ≤ 8 / Real.pi - 2 ∧
      8 / Real.pi - 2 < ((CC.frac8OverPi.foldl (fun a w => a * 2 ^ 64 + w) 0 : ℕ) + 1) / 2 ^ 2048 := table_spec

/-- the first word, as a check of the order -/
example : (CC.frac8OverPi.foldl (fun a w => a * 2 ^ 64 + w) 0) / 2 ^ 1984 = 0x8be60db9391054a7 := by decide +kernel

/-- C48: `mul64` returns the two words of the exact product. -/
theorem C48_mul64 {a b : ℕ} (ha : a < 2 ^ 64) (hb : b < 2 ^ 64) :
    (CC.mul64 a b).1 * 2 ^ 64 + (CC.mul64 a b).2 = a * b ∧ (CC.mul64 a b).1 < 2 ^ 64 ∧ (CC.mul64 a b).2 < 2 ^ 64 := mul64_spec ha hb

/-- `(2^64 - 1)^2` -/
example : CC.mul64 (2 ^ 64 - 1) (2 ^ 64 - 1) = (2 ^ 64 - 2, 1) := by decide +kernel

/-- C48, the accumulator: for every finite double of magnitude at least `2^-201` (the code uses it from `2^20` on), the four words hold
`|x| 8/π` modulo 16 in units of `2^-252`, and at most the last two bits are lost. -/
theorem C48_accumulator {x : ℕ} (hx : binary64.Finite x) (hb : 1 / 2 ^ 201 ≤ |binary64.val x|) :
    ∃ a0 a1 a2 a3 n : ℕ, CC.phAcc x = [a0, a1, a2, a3] ∧ a0 < 2 ^ 64 ∧ a1 < 2 ^ 64 ∧ a2 < 2 ^ 64 ∧ a3 < 2 ^ 64 ∧
      16 * (n : ℝ) + ((a0 + 2 ^ 64 * a1 + 2 ^ 128 * a2 + 2 ^ 192 * a3 : ℕ) : ℝ) / 2 ^ 252 ≤ |binary64.val x| * (8 / Real.pi) ∧
      |binary64.val x| * (8 / Real.pi) < 16 * (n : ℝ) + ((a0 + 2 ^ 64 * a1 + 2 ^ 128 * a2 + 2 ^ 192 * a3 : ℕ) : ℝ) / 2 ^ 252 + 3 / 2 ^ 252 := by
  obtain ⟨⟨hlen, hw⟩, n, s1, s2⟩ := phAcc_spec hx (bexp_of_ge hb)
  generalize CC.phAcc x = acc at *
  obtain ⟨a0, a1, a2, a3, rfl⟩ : ∃ a0 a1 a2 a3, acc = [a0, a1, a2, a3] := by
    match acc, hlen with
    | [a0, a1, a2, a3], _ => exact ⟨a0, a1, a2, a3, rfl⟩
  refine ⟨a0, a1, a2, a3, n, rfl, hw a0 (by simp), hw a1 (by simp), hw a2 (by simp), hw a3 (by simp), ?_⟩
  have e : accVal [a0, a1, a2, a3] = a0 + 2 ^ 64 * a1 + 2 ^ 128 * a2 + 2 ^ 192 * a3 := by
    simp only [accVal_cons]
    have : accVal [] = 0 := rfl
    rw [this]; omega
  rw [e] at s1 s2
  generalize ((a0 + 2 ^ 64 * a1 + 2 ^ 128 * a2 + 2 ^ 192 * a3 : ℕ) : ℝ) = A at *
  generalize |binary64.val x| * (8 / Real.pi) = V at *
  constructor
  · have : 16 * (n : ℝ) + A / 2 ^ 252 = (2 ^ 256 * n + A) / 2 ^ 252 := by ring
    rw [this, div_le_iff₀ (by positivity)]; exact s1
  · have : 16 * (n : ℝ) + A / 2 ^ 252 + 3 / 2 ^ 252 = (2 ^ 256 * n + A + 3) / 2 ^ 252 := by ring
    rw [this, lt_div_iff₀ (by positivity)]; exact s2

/-- non-vacuity: the largest finite double -/
example : binary64.Finite 0x7FEFFFFFFFFFFFFF ∧ (CC.phAcc 0x7FEFFFFFFFFFFFFF).getD 3 0 >>> 60 = 7 := by decide +kernel

/-- C48, the reduction: for every rounding mode, with or without a fused `multiply_add`, and every finite double of magnitude at least `2^-201`,
`x = K π/8 + Y` for an integer `K` that agrees with the returned `k` modulo 16, `Y` is within `π/16` (up to `2^-200` of it) and `y` differs from `Y` by
at most two rounding errors relative to `Y` plus `1.75 * 2^-53` rounding errors; one rounding error is `2^-53` in the default mode and `2^-52` in the others. -/
theorem C48_reduce (fused : Bool) (md : Mode) {x : ℕ} (hx : binary64.Finite x) (hb : 1 / 2 ^ 201 ≤ |binary64.val x|) :
    binary64.Finite (CC.payneHanek fused md x).2 ∧ ∃ K : ℤ, K % 16 = (CC.payneHanek fused md x).1 ∧
      |binary64.val x - K * (Real.pi / 8)| ≤ (1 / 2 + 1 / 2 ^ 200) * (Real.pi / 8) ∧
      |binary64.val (CC.payneHanek fused md x).2 - (binary64.val x - K * (Real.pi / 8))| ≤
        (2 + 1 / 2 ^ 40) * (if md = .nearest then 1 / 2 ^ 53 else 1 / 2 ^ 52) * |binary64.val x - K * (Real.pi / 8)| +
          1.75 * ((if md = .nearest then 1 / 2 ^ 53 else 1 / 2 ^ 52) / 2 ^ 53) :=
  payneHanek_spec fused md hx (bexp_of_ge hb)

/-- `-2^20 = (16 n + 15) π/8 + 0.0558...` -/
example : binary64.Finite 0xC130000000000000 ∧ CC.payneHanek true .nearest 0xC130000000000000 = (15, 0x3fac9b6498c1137f) := by
  decide +kernel

end Verif
