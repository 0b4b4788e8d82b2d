import Verif.Lemmas.PowK7

/-!
# The double-double exponential of the pow kernel
-/

namespace Verif
open Fmt Real

theorem neg_bits {n : ℕ} (h : binary64.Finite n) (hn : n < 2 ^ 63) : binary64.Finite (2 ^ 63 + n) ∧ binary64.val (2 ^ 63 + n) = -binary64.val n := by
  have e : binary64.hneg n = 2 ^ 63 + n := by
    have h1 : binary64.sgn n = false := by unfold sgn; exact decide_eq_false (by change ¬ 2 ^ 63 ≤ n; omega)
    have h2 : binary64.mag n = n := Nat.mod_eq_of_lt hn
    unfold hneg
    rw [h1, h2]; rfl
  rw [← e]
  exact ⟨binary64.finite_hneg h, binary64.val_hneg n⟩

theorem nlt63 {p f : ℕ} (hp : p ≤ 2045) (hf : f < 2 ^ 52) : p * 2 ^ 52 + (2 ^ 52 + f) < 2 ^ 63 := by omega

theorem shift_core (sign : Bool) {x n n0 b f0 p q : ℕ} (hx : x = b * 2 ^ 63 + n0) (hb : b ≤ 1) (F : f0 < 2 ^ 52) (hpl : p ≤ 2045) (hql : q ≤ 2045)
    (hn : n = q * 2 ^ 52 + (2 ^ 52 + f0)) (hn0 : n0 = p * 2 ^ 52 + (2 ^ 52 + f0)) (fn : binary64.Finite n) (fn0 : binary64.Finite n0)
    (hv : binary64.val n = binary64.val n0 * 2 ^ ((q : ℤ) - p)) :
    binary64.Finite ((((q : ℤ) - p) * 2 ^ 52 + x + (if sign then 2 ^ 63 else 0)) % 2 ^ 64 : ℤ).toNat ∧
      binary64.val ((((q : ℤ) - p) * 2 ^ 52 + x + (if sign then 2 ^ 63 else 0)) % 2 ^ 64 : ℤ).toNat = (if sign then -1 else 1) * (binary64.val x * 2 ^ ((q : ℤ) - p)) := by
  have l1 : n < 2 ^ 63 := by rw [hn]; exact nlt63 hql F
  have l2 : n0 < 2 ^ 63 := by rw [hn0]; exact nlt63 hpl F
  obtain ⟨c1, c2⟩ := neg_bits fn l1
  obtain ⟨d1, d2⟩ := neg_bits fn0 l2
  have hqp : ((q : ℤ) - p) * 2 ^ 52 = n - n0 := by rw [hn, hn0]; push_cast; ring
  rw [hqp]
  clear hqp hn hn0
  obtain rfl | rfl : b = 0 ∨ b = 1 := by omega
  · have hx0 : x = n0 := by omega
    subst hx0
    cases sign
    · have : (((n : ℤ) - x + x + (if false = true then 2 ^ 63 else 0)) % 2 ^ 64 : ℤ).toNat = n := by
        simp only [Bool.false_eq_true, if_false]; omega
      rw [this]
      exact ⟨fn, by rw [hv]; norm_num⟩
    · have : (((n : ℤ) - x + x + (if true = true then 2 ^ 63 else 0)) % 2 ^ 64 : ℤ).toNat = 2 ^ 63 + n := by
        simp only [if_true]; omega
      rw [this]
      exact ⟨c1, by rw [c2, hv]; norm_num⟩
  · have hx0 : x = 2 ^ 63 + n0 := by omega
    cases sign
    · have : (((n : ℤ) - n0 + x + (if false = true then 2 ^ 63 else 0)) % 2 ^ 64 : ℤ).toNat = 2 ^ 63 + n := by
        simp only [Bool.false_eq_true, if_false]; omega
      rw [this, hx0]
      exact ⟨c1, by rw [c2, d2, hv]; simp⟩
    · have : (((n : ℤ) - n0 + x + (if true = true then 2 ^ 63 else 0)) % 2 ^ 64 : ℤ).toNat = n := by
        simp only [if_true]; omega
      rw [this, hx0]
      exact ⟨fn, by rw [d2, hv]; simp⟩

/-- shifting the exponent field of a normal number, and the sign bit -/
theorem shift_bits (sign : Bool) {x : ℕ} {k : ℤ} (hx : x < 2 ^ 64) (e1 : 1 ≤ binary64.bexp x) (e2 : binary64.bexp x ≤ 2046) (h1 : 1 ≤ (binary64.bexp x : ℤ) + k)
    (h2 : (binary64.bexp x : ℤ) + k ≤ 2046) :
    binary64.Finite ((k * 2 ^ 52 + x + (if sign then 2 ^ 63 else 0)) % 2 ^ 64 : ℤ).toNat ∧
      binary64.val ((k * 2 ^ 52 + x + (if sign then 2 ^ 63 else 0)) % 2 ^ 64 : ℤ).toNat = (if sign then -1 else 1) * (binary64.val x * 2 ^ k) := by
  obtain ⟨b, e, f0, hb, he, F, hxe⟩ : ∃ b e f0 : ℕ, b ≤ 1 ∧ binary64.bexp x = e ∧ f0 < 2 ^ 52 ∧ x = b * 2 ^ 63 + e * 2 ^ 52 + f0 :=
    ⟨x / 2 ^ 63, x % 2 ^ 63 / 2 ^ 52, x % 2 ^ 52, by omega, rfl, by omega, by omega⟩
  rw [he] at e1 e2 h1 h2
  obtain ⟨p, hp⟩ : ∃ p : ℕ, e = p + 1 := ⟨e - 1, by omega⟩
  obtain ⟨q, hq⟩ : ∃ q : ℕ, (e : ℤ) + k = q + 1 := ⟨((e : ℤ) + k - 1).toNat, by omega⟩
  have hpl : p ≤ 2045 := by omega
  have hql : q ≤ 2045 := by omega
  have hk : k = q - p := by omega
  clear hq h1 h2
  subst hp hk
  obtain ⟨a1, a2⟩ := bits64 (e := p) (m := 2 ^ 52 + f0) (by omega) (by omega) hpl
  obtain ⟨b1, b2⟩ := bits64 (e := q) (m := 2 ^ 52 + f0) (by omega) (by omega) hql
  refine shift_core sign (b := b) (by rw [hxe]; ring) hb F hpl hql rfl rfl b1 a1 ?_
  rw [a2, b2, mul_assoc, ← zpow_add₀ (by norm_num)]
  congr 2
  ring

/-- what is checked of one entry of the table of powers of two -/
def powExpOk (i : ℕ) : Bool :=
  let h := CC.powExpHi.getD i 0
  let l := CC.powExpMid.getD i 0
  let a : ℤ := ints 240 h + ints 240 l
  intsOk 240 h && intsOk 240 l && decide (h < 2 ^ 63) && decide (binary64.bexp h = 1023) && decide (l < 2 ^ 64) &&
    (decide (i = 0 ∧ l = 0) || decide (900 ≤ binary64.bexp l ∧ binary64.bexp l ≤ 1000)) && decide ((ints 240 l).natAbs ≤ 2 ^ 190) &&
    decide ((a * (2 ^ 100 - 1)) ^ 64 ≤ 2 ^ i * (2 ^ 340) ^ 64) && decide (2 ^ i * (2 ^ 340) ^ 64 ≤ (a * (2 ^ 100 + 1)) ^ 64)

theorem powExp_ok : ∀ i < 64, powExpOk i = true := by decide +kernel

theorem powExp_row {i : ℕ} (hi : i < 64) :
    CC.powExpHi[i]? = some (CC.powExpHi.getD i 0) ∧ CC.powExpMid[i]? = some (CC.powExpMid.getD i 0) ∧
    CC.powExpHi.getD i 0 < 2 ^ 64 ∧ binary64.bexp (CC.powExpHi.getD i 0) = 1023 ∧ CC.powExpMid.getD i 0 < 2 ^ 64 ∧
    ((i = 0 ∧ CC.powExpMid.getD i 0 = 0) ∨ (900 ≤ binary64.bexp (CC.powExpMid.getD i 0) ∧ binary64.bexp (CC.powExpMid.getD i 0) ≤ 1000)) ∧
    1 ≤ binary64.val (CC.powExpHi.getD i 0) ∧ binary64.val (CC.powExpHi.getD i 0) ≤ 2 ∧ |binary64.val (CC.powExpMid.getD i 0)| ≤ 1 / 2 ^ 50 ∧
    |exp (i * (log 2 / 64)) - (binary64.val (CC.powExpHi.getD i 0) + binary64.val (CC.powExpMid.getD i 0))| ≤
      (binary64.val (CC.powExpHi.getD i 0) + binary64.val (CC.powExpMid.getD i 0)) * (1 / 2 ^ 100) := by
  have h := powExp_ok i hi
  have g : ∀ (l : List ℕ), i < l.length → l[i]? = some (l.getD i 0) := fun l h => by rw [List.getD_eq_getElem _ _ h, List.getElem?_eq_getElem h]
  have g1 := g CC.powExpHi (lt_of_lt_of_le hi (by decide +kernel))
  have g2 := g CC.powExpMid (lt_of_lt_of_le hi (by decide +kernel))
  simp only [powExpOk, Bool.and_eq_true, Bool.or_eq_true, decide_eq_true_eq] at h
  obtain ⟨⟨⟨⟨⟨⟨⟨⟨h1, h2⟩, h3⟩, h4⟩, h5⟩, h6⟩, h7⟩, h8⟩, h9⟩ := h
  obtain ⟨f1, v1⟩ := intsOk_spec h1
  obtain ⟨f2, v2⟩ := intsOk_spec h2
  set x := CC.powExpHi.getD i 0
  set y := CC.powExpMid.getD i 0
  obtain ⟨w, hw, hx⟩ : ∃ w, w < 2 ^ 52 ∧ x = 1022 * 2 ^ 52 + (2 ^ 52 + w) := by
    have : x % 2 ^ 63 / 2 ^ 52 = 1023 := h4
    exact ⟨x % 2 ^ 52, by omega, by omega⟩
  have hv := (bits64 (e := 1022) (m := 2 ^ 52 + w) (by omega) (by omega) (by omega)).2
  rw [← hx] at hv
  have hm : (w : ℝ) ≤ 2 ^ 52 := by exact_mod_cast hw.le
  have hm0 : (0 : ℝ) ≤ w := Nat.cast_nonneg _
  rw [show ((1022 : ℕ) : ℤ) - 1074 = -52 by norm_num, show ((2 ^ 52 + w : ℕ) : ℝ) = 2 ^ 52 + w by rw [Nat.cast_add, Nat.cast_pow]; rfl, show (2 : ℝ) ^ (-52 : ℤ) = 1 / 2 ^ 52 by norm_num] at hv
  have b1 : 1 ≤ binary64.val x := by rw [hv]; linarith
  have b2 : binary64.val x ≤ 2 := by rw [hv]; linarith
  have b3 : |binary64.val y| ≤ 1 / 2 ^ 50 := by
    rw [v2, abs_div, abs_of_pos (show (0 : ℝ) < 2 ^ 240 by positivity), div_le_iff₀ (by positivity)]
    have := natAbs_le_real h7
    push_cast at this
    refine this.trans (le_of_eq ?_); norm_num
  have hA : binary64.val x + binary64.val y = ((ints 240 x + ints 240 y : ℤ) : ℝ) / 2 ^ 240 := by rw [v1, v2]; push_cast; ring
  have hA0 : 0 < binary64.val x + binary64.val y := by have := (abs_le.1 b3).1; norm_num at this; linarith
  refine ⟨g1, g2, by omega, h4, h5, h6, b1, b2, b3, ?_⟩
  have r := root128 (A := binary64.val x + binary64.val y) (ε := 1 / 2 ^ 100) 63 rfl hA0 (by norm_num) i ?_ ?_
  · norm_num at r ⊢; exact r
  · rw [hA]
    generalize ints 240 x + ints 240 y = a at *
    have h8' : ((a * (2 ^ 100 - 1)) ^ 64 : ℝ) ≤ 2 ^ i * (2 ^ 340) ^ 64 := by exact_mod_cast h8
    have e : ((a : ℝ) / 2 ^ 240 * (1 - 1 / 2 ^ 100)) ^ (63 + 1) = (a * (2 ^ 100 - 1)) ^ 64 / (2 ^ 340) ^ 64 := by
      rw [← div_pow]; congr 1
      rw [show (2 : ℝ) ^ 340 = 2 ^ 240 * 2 ^ 100 by rw [← pow_add]]; field_simp
    rw [e, div_le_iff₀ (by positivity)]; exact h8'
  · rw [hA]
    generalize ints 240 x + ints 240 y = a at *
    have h9' : (2 ^ i * (2 ^ 340) ^ 64 : ℝ) ≤ (a * (2 ^ 100 + 1)) ^ 64 := by exact_mod_cast h9
    have e : ((a : ℝ) / 2 ^ 240 * (1 + 1 / 2 ^ 100)) ^ (63 + 1) = (a * (2 ^ 100 + 1)) ^ 64 / (2 ^ 340) ^ 64 := by
      rw [← div_pow]; congr 1
      rw [show (2 : ℝ) ^ 340 = 2 ^ 240 * 2 ^ 100 by rw [← pow_add]]; field_simp
    rw [e, le_div_iff₀ (by positivity)]; exact h9'

/-- the table lookup and the shift of the exponent: `±2^(n/64)` as a pair -/
theorem powExpHm_spec (sign : Bool) {n : ℤ} (h1 : -40001 ≤ n) (h2 : n ≤ 40001) :
    ∃ e, CC.powExpHm sign n = some e ∧ binary64.Finite e.hi ∧ binary64.Finite e.lo ∧
      9 / 10 * exp (n * (log 2 / 64)) ≤ |binary64.val e.hi| ∧ |binary64.val e.hi| ≤ 11 / 10 * exp (n * (log 2 / 64)) ∧
      |binary64.val e.lo| ≤ 1 / 2 ^ 50 * exp (n * (log 2 / 64)) ∧
      |pairV e - (if sign then -1 else 1) * exp (n * (log 2 / 64))| ≤ 1 / 2 ^ 98 * exp (n * (log 2 / 64)) ∧
      (2 : ℝ) ^ (-626 : ℤ) ≤ exp (n * (log 2 / 64)) ∧ exp (n * (log 2 / 64)) ≤ 2 ^ (628 : ℤ) := by
  obtain ⟨i, hi, hin⟩ : ∃ i : ℕ, i < 64 ∧ (n % 64).toNat = i := ⟨(n % 64).toNat, by omega, rfl⟩
  obtain ⟨g1, g2, l1, x1, l2, hm, b1, b2, b3, er⟩ := powExp_row hi
  set x := CC.powExpHi.getD i 0
  set y := CC.powExpMid.getD i 0
  set k := n / 64 with hk
  have k1 : -626 ≤ k := by omega
  have k2 : k ≤ 626 := by omega
  have hG : exp (n * (log 2 / 64)) = exp (i * (log 2 / 64)) * 2 ^ k := by
    have hn : (n : ℝ) = i + 64 * k := by
      have : n = i + 64 * k := by omega
      exact_mod_cast this
    have h2k : (2 : ℝ) ^ k = exp (k * log 2) := by rw [mul_comm, ← Real.rpow_def_of_pos (by norm_num), Real.rpow_intCast]
    rw [h2k, ← exp_add, hn]; congr 1; ring
  obtain ⟨s1, s2⟩ := shift_bits sign (k := k) l1 (by rw [x1]; norm_num) (by rw [x1]; norm_num) (by rw [x1]; push_cast; omega) (by rw [x1]; push_cast; omega)
  obtain ⟨t1, t2⟩ : binary64.Finite (if i ≠ 0 then ((k * 2 ^ 52 + y + (if sign then 2 ^ 63 else 0)) % 2 ^ 64 : ℤ).toNat else (if sign then 2 ^ 63 else 0 : ℤ).toNat) ∧
      binary64.val (if i ≠ 0 then ((k * 2 ^ 52 + y + (if sign then 2 ^ 63 else 0)) % 2 ^ 64 : ℤ).toNat else (if sign then 2 ^ 63 else 0 : ℤ).toNat) =
        (if sign then -1 else 1) * (binary64.val y * 2 ^ k) := by
    by_cases h0 : i = 0
    · have hy : y = 0 := by
        rcases hm with h | h
        · exact h.2
        · have : ¬ 900 ≤ binary64.bexp y := by subst h0; decide +kernel
          omega
      rw [if_neg (by simpa using h0), hy, val64_zero]
      cases sign
      · exact ⟨by decide +kernel, by simp [val64_zero]⟩
      · exact ⟨by decide +kernel, by rw [(binary64.val_eq_zero_iff _).2 (by decide +kernel)]; simp⟩
    · rw [if_pos h0]
      have hm' := hm.resolve_left (fun h => h0 h.1)
      exact shift_bits sign (k := k) l2 (by omega) (by omega) (by omega) (by omega)
  have hs : CC.powExpHm sign n = some { hi := ((k * 2 ^ 52 + x + (if sign then 2 ^ 63 else 0)) % 2 ^ 64 : ℤ).toNat, lo := if i ≠ 0 then ((k * 2 ^ 52 + y + (if sign then 2 ^ 63 else 0)) % 2 ^ 64 : ℤ).toNat else (if sign then 2 ^ 63 else 0 : ℤ).toNat } := by
    unfold CC.powExpHm
    simp only [hin, g1, g2, Option.bind_eq_bind, Option.bind_some, pure]
    rfl
  refine ⟨_, hs, s1, t1, ?_⟩
  unfold pairV
  simp only []
  rw [s2, t2, hG]
  have hW : (0 : ℝ) < 2 ^ k := two_zpow_pos _
  have hg1 : 1 ≤ exp (i * (log 2 / 64)) := one_le_exp (by have := log2_lo.1; positivity)
  have w1 : (2 : ℝ) ^ (-626 : ℤ) ≤ 2 ^ k := two_zpow_le k1
  have w2 : 2 * (2 * (2 : ℝ) ^ k) ≤ 2 ^ (628 : ℤ) := by rw [← two_zpow_succ, ← two_zpow_succ]; exact two_zpow_le (by omega)
  generalize exp (i * (log 2 / 64)) = g at *
  generalize binary64.val x = X at *
  generalize binary64.val y = Y at *
  have hY := abs_le.1 b3
  have hE := abs_le.1 er
  have hg2 : g ≤ 2 + 1 / 2 ^ 48 := by nlinarith
  have hg3 : |X - g| ≤ 1 / 2 ^ 49 := by rw [abs_le]; constructor <;> nlinarith
  have hX := abs_le.1 hg3
  have aσ : |(if sign then -1 else 1 : ℝ)| = 1 := by cases sign <;> simp
  generalize (if sign then -1 else 1 : ℝ) = σ at *
  have aW : |(2 : ℝ) ^ k| = 2 ^ k := abs_of_pos hW
  have e1 : |σ * (X * 2 ^ k)| = X * 2 ^ k := by rw [abs_mul, aσ, one_mul, abs_of_pos (by positivity)]
  have e2 : |σ * (Y * 2 ^ k)| = |Y| * 2 ^ k := by rw [abs_mul, aσ, one_mul, abs_mul, aW]
  have e3 : |σ * (X * 2 ^ k) + σ * (Y * 2 ^ k) - σ * (g * 2 ^ k)| = |g - (X + Y)| * 2 ^ k := by
    rw [show σ * (X * 2 ^ k) + σ * (Y * 2 ^ k) - σ * (g * 2 ^ k) = -(σ * ((g - (X + Y)) * 2 ^ k)) by ring, abs_neg, abs_mul, aσ, one_mul, abs_mul, aW]
  rw [e1, e2, e3]
  generalize (2 : ℝ) ^ k = W at *
  refine ⟨?_, ?_, ?_, ?_, ?_, ?_⟩
  · have : 9 / 10 * g ≤ X := by linarith
    nlinarith
  · have : X ≤ 11 / 10 * g := by linarith
    nlinarith
  · have : |Y| ≤ 1 / 2 ^ 50 * g := by linarith
    nlinarith
  · have : |g - (X + Y)| ≤ 1 / 2 ^ 98 * g := by
      refine er.trans ?_
      linarith
    nlinarith
  · nlinarith
  · generalize (2 : ℝ) ^ (628 : ℤ) = Z at *
    have : g * W ≤ 4 * W := mul_le_mul_of_nonneg_right (by linarith) hW.le
    linarith

/-- the reduction of the exponent: an integer and a pair below 9/16 -/
theorem powExpReduce {ce : Bool} {m : Mode} (hc : ce = false ∨ m = .nearest) {y : CC.Pair} (f1 : binary64.Finite y.hi) (f2 : binary64.Finite y.lo)
    (h1 : |binary64.val y.hi| ≤ 40000) (h2 : |binary64.val y.lo| ≤ 1 / 2 ^ 29) :
    ∃ n : ℤ, -40001 ≤ n ∧ n ≤ 40001 ∧ CC.castInt32 (CC.nearestInteger binary64 ce m y.hi) = some n ∧
      binary64.Finite (CC.exactAdd binary64 m (binary64.hsub m y.hi (CC.nearestInteger binary64 ce m y.hi)) y.lo).hi ∧
      binary64.Finite (CC.exactAdd binary64 m (binary64.hsub m y.hi (CC.nearestInteger binary64 ce m y.hi)) y.lo).lo ∧
      |binary64.val (CC.exactAdd binary64 m (binary64.hsub m y.hi (CC.nearestInteger binary64 ce m y.hi)) y.lo).hi| ≤ 9 / 16 ∧
      |binary64.val (CC.exactAdd binary64 m (binary64.hsub m y.hi (CC.nearestInteger binary64 ce m y.hi)) y.lo).lo| ≤ 1 / 2 ^ 49 ∧
      |pairV (CC.exactAdd binary64 m (binary64.hsub m y.hi (CC.nearestInteger binary64 ce m y.hi)) y.lo)| ≤ 9 / 16 ∧
      |pairV (CC.exactAdd binary64 m (binary64.hsub m y.hi (CC.nearestInteger binary64 ce m y.hi)) y.lo) - (pairV y - n)| ≤ 1 / 2 ^ 53 + 1 / 2 ^ 78 := by
  obtain ⟨fn, n, vn, en⟩ := nearInt64 hc f1 (h1.trans (by norm_num))
  have R := hsub_spec binary64 m f1 fn
  set N := CC.nearestInteger binary64 ce m y.hi
  rw [vn] at R
  have hH := abs_le.1 h1
  have hn := abs_le.1 en
  obtain ⟨fa, ea⟩ := rnd_zpow (k := 0) R (by rw [zpow_zero]; exact en.trans (by norm_num)) (by norm_num) (by norm_num)
  rw [show (2 : ℝ) ^ (0 - 53 : ℤ) = 1 / 2 ^ 53 by norm_num] at ea
  set a := binary64.hsub m y.hi N
  have ha := abs_lt.1 ea
  have hL := abs_le.1 h2
  have n1 : -40001 ≤ n := by
    have : (-40001 : ℝ) ≤ n := by linarith
    exact_mod_cast this
  have n2 : n ≤ 40001 := by
    have : (n : ℝ) ≤ 40001 := by linarith
    exact_mod_cast this
  have S : |binary64.val a + binary64.val y.lo| ≤ 51 / 100 := by rw [abs_le]; constructor <;> linarith
  obtain ⟨c1, c2, c3, c4, c5⟩ := exactAdd_crude m fa f2 h2 S (by
    refine le_trans (b := (2 : ℝ) ^ (-1 : ℤ)) (two_zpow_le (by norm_num)) (by norm_num)) (by norm_num) (by norm_num)
  refine ⟨n, n1, n2, ?_, c1, c2, ?_, c5.trans (by norm_num), ?_, ?_⟩
  · have ht : CC.truncInt N = n := truncInt_int (by rw [vn])
    unfold CC.castInt32
    rw [ht, if_pos ⟨((binary64.finite_iff _).1 fn).2, by omega, by omega⟩]
  all_goals
    have h3 := abs_le.1 c3
    have h4 := abs_le.1 c4
    have h5 := abs_le.1 c5
    have h6 := abs_le.1 S
  · rw [abs_le]; constructor <;> linarith
  · unfold pairV; rw [abs_le]; constructor <;> linarith
  · unfold pairV; rw [abs_le]; constructor <;> linarith

/-- an error in the exponent becomes a relative error of the exponential -/
theorem exp_perturb {a b d : ℝ} (h : |a - b| ≤ d) (hd : d ≤ 1 / 2 ^ 40) : |exp a - exp b| ≤ (1 + 1 / 2 ^ 39) * d * exp b := by
  have h0 : 0 ≤ d := (abs_nonneg _).trans h
  have e : exp a - exp b = exp b * (exp (a - b) - 1) := by rw [mul_sub, ← exp_add]; ring_nf
  have q := Real.abs_exp_sub_one_sub_id_le (x := a - b) (h.trans (hd.trans (by norm_num)))
  have q2 : (a - b) ^ 2 ≤ 1 / 2 ^ 40 * d := by
    rw [← sq_abs]
    nlinarith [abs_nonneg (a - b)]
  have q3 : |exp (a - b) - 1| ≤ (1 + 1 / 2 ^ 39) * d := by
    have q4 := abs_le.1 q
    have h5 := abs_le.1 h
    rw [abs_le]; constructor <;> linarith
  rw [e, abs_mul, abs_of_pos (exp_pos b), mul_comm]
  exact mul_le_mul_of_nonneg_right q3 (exp_pos b).le

/-- the polynomial is close to one -/
theorem exp_near_one {t : ℝ} (h : |t| ≤ 9 / 16) : |exp (t * (log 2 / 64)) - 1| ≤ 1 / 100 := by
  have hl := log2_lo
  have ht := abs_le.1 h
  have h1 : |t * (log 2 / 64)| ≤ 62 / 10000 := by
    rw [abs_mul, abs_of_pos (by linarith : 0 < log 2 / 64)]
    nlinarith [abs_nonneg t]
  have q := Real.abs_exp_sub_one_sub_id_le (h1.trans (by norm_num))
  have q2 : (t * (log 2 / 64)) ^ 2 ≤ (62 / 10000) ^ 2 := by rw [← sq_abs]; gcongr
  have q4 := abs_le.1 q
  have h5 := abs_le.1 h1
  rw [abs_le]; constructor <;> linarith

/-- the last product of the exponential -/
theorem powExpMul (m : Mode) {e p : CC.Pair} {σ G P : ℝ} (fe : binary64.Finite e.hi) (fe' : binary64.Finite e.lo) (fp : binary64.Finite p.hi) (fp' : binary64.Finite p.lo)
    (hσ : |σ| = 1) (g1 : (2 : ℝ) ^ (-626 : ℤ) ≤ G) (g2 : G ≤ 2 ^ (628 : ℤ)) (e1 : 9 / 10 * G ≤ |binary64.val e.hi|) (e2 : |binary64.val e.hi| ≤ 11 / 10 * G)
    (e3 : |binary64.val e.lo| ≤ 1 / 2 ^ 49 * G) (e4 : |pairV e - σ * G| ≤ 1 / 2 ^ 98 * G) (p1 : |P - 1| ≤ 1 / 100) (p2 : |pairV p - P| ≤ 1 / 2 ^ 76)
    (p3 : |binary64.val p.lo| ≤ 1 / 2 ^ 47) :
    ∃ q, CC.quickMult m e p = some q ∧ binary64.Finite q.hi ∧ binary64.Finite q.lo ∧ |pairV q - σ * G * P| ≤ 1 / 2 ^ 71 * G := by
  have hG : 0 < G := lt_of_lt_of_le (two_zpow_pos _) g1
  have a1 := abs_le.1 p1
  have a2 := abs_le.1 p2
  have a3 := abs_le.1 p3
  unfold pairV at a2
  have b1 : 98 / 100 ≤ binary64.val p.hi := by linarith
  have b2 : binary64.val p.hi ≤ 102 / 100 := by linarith
  have b3 : |binary64.val p.hi| = binary64.val p.hi := abs_of_pos (by linarith)
  set A := binary64.val e.hi with hA
  set B := binary64.val p.hi with hB
  have ab : |A * B| = |A| * B := by rw [abs_mul, b3]
  have ab1 : G * (8 / 10) ≤ |A * B| := by rw [ab]; nlinarith [abs_nonneg A]
  have ab2 : |A * B| ≤ G * (12 / 10) := by rw [ab]; nlinarith [abs_nonneg A]
  have P2 : ∀ i j : ℤ, i + 2 ≤ j → 4 * (2 : ℝ) ^ i ≤ 2 ^ j := fun i j h => by
    have := two_zpow_le h
    rw [zpow_add₀ (by norm_num)] at this
    norm_num at this ⊢; linarith
  have k1 := P2 (-1022) (-626) (by norm_num)
  have k2 := P2 628 900 (by norm_num)
  have k3 := P2 (-900) (-626) (by norm_num)
  have k4 := P2 (-740) (-626) (by norm_num)
  have k5 := P2 (-1022) (-1) (by norm_num)
  have k6 := P2 0 900 (by norm_num)
  have k7 := P2 (-800) (-626) (by norm_num)
  have k8 := P2 628 1000 (by norm_num)
  have z1 : (0 : ℝ) < 2 ^ (-1022 : ℤ) := two_zpow_pos _
  have z2 : (0 : ℝ) < 2 ^ (-900 : ℤ) := two_zpow_pos _
  have z3 : (0 : ℝ) < 2 ^ (-740 : ℤ) := two_zpow_pos _
  have z4 : (0 : ℝ) < 2 ^ (-800 : ℤ) := two_zpow_pos _
  have z5 : (0 : ℝ) < 2 ^ (628 : ℤ) := two_zpow_pos _
  rw [show (2 : ℝ) ^ (-1 : ℤ) = 1 / 2 by norm_num] at k5
  rw [zpow_zero] at k6
  have u1 : G * 3 ≤ 2 ^ (900 : ℤ) := by
    clear k6 k8
    generalize (2 : ℝ) ^ (900 : ℤ) = Z at *
    generalize (2 : ℝ) ^ (628 : ℤ) = Z' at *
    linarith only [k2, g2, hG, z5]
  have u2 : G * (13 / 10) ≤ 2 ^ (1000 : ℤ) := by
    clear k6 k2 u1
    generalize (2 : ℝ) ^ (1000 : ℤ) = Z at *
    generalize (2 : ℝ) ^ (628 : ℤ) = Z' at *
    linarith only [k8, g2, hG, z5]
  obtain ⟨⟨zs, R⟩, f1, f2, er⟩ := exactMult_any m fe fp (by linarith only [k1, g1, e1, hG, z1]) (e2.trans (le_trans (by linarith only [hG]) u1)) (by rw [b3]; linarith only [k5, b1, z1])
    (by rw [b3]; exact le_trans (by linarith only [b2]) k6) (by linarith only [k3, g1, ab1, hG, z2]) (ab2.trans (le_trans (by linarith only [hG]) u1))
  obtain ⟨-, rr⟩ := rnd_rel (C := |A * B|) R le_rfl (by linarith only [k7, g1, ab1, hG, z4]) (ab2.trans (le_trans (by linarith only [hG]) u2))
  clear k1 k2 k3 k5 k6 k7 k8 z1 z2 z4 R
  have kk : (11 / 10 * G) * 2 ≤ 2 ^ (900 : ℤ) := le_trans (by linarith only [hG]) u1
  obtain ⟨q, hq, -, f3, f4, eq, -⟩ := quickMult_core m (a := e) (b := p) fe fe' fp fp' (X := 11 / 10 * G) (Y := 2) (ε := 1 / 2 ^ 72 * |A * B|) e2 (by rw [← hB, b3]; linarith)
    (e3.trans (by linarith)) (p3.trans (by norm_num)) (by linarith only [k4, g1, hG, z3]) kk f1 f2 er (by
      have h1 := abs_le.1 er
      have h2 := abs_le.1 rr
      rw [abs_le]
      generalize |A * B| = AB at *
      constructor <;> linarith)
  refine ⟨q, hq, f3, f4, ?_⟩
  have t1 : |pairV e * pairV p - σ * G * P| ≤ 1 / 2 ^ 98 * G * (102 / 100) + G * (1 / 2 ^ 76) := by
    have hp : |pairV p| ≤ 102 / 100 := by
      rw [abs_le]; unfold pairV; constructor <;> linarith
    rw [show pairV e * pairV p - σ * G * P = (pairV e - σ * G) * pairV p + σ * (G * (pairV p - P)) by ring]
    refine abs_add_le' ?_ ?_
    · rw [abs_mul]; exact mul_le_mul e4 hp (abs_nonneg _) (by positivity)
    · rw [abs_mul, hσ, one_mul, abs_mul, abs_of_pos hG]; exact mul_le_mul_of_nonneg_left p2 hG.le
  have t2 : |pairV q - pairV e * pairV p| ≤ 1 / 2 ^ 72 * |A * B| + 1 / 2 ^ 94 * (11 / 10 * G * 2) := eq
  have h1 := abs_le.1 t1
  have h2 := abs_le.1 t2
  generalize |A * B| = AB at *
  rw [abs_le]
  constructor <;> linarith

/-- `±2^(T/64)` to a relative error below `2^-59.5` -/
theorem powExp2_spec {ce : Bool} {m : Mode} (hc : ce = false ∨ m = .nearest) (sign : Bool) {y : CC.Pair} (f1 : binary64.Finite y.hi) (f2 : binary64.Finite y.lo)
    (h1 : |binary64.val y.hi| ≤ 40000) (h2 : |binary64.val y.lo| ≤ 1 / 2 ^ 29) :
    ∃ q, CC.powExp2 ce m y sign = some q ∧ binary64.Finite q.hi ∧ binary64.Finite q.lo ∧
      |pairV q - (if sign then -1 else 1) * exp (pairV y * (log 2 / 64))| ≤ 11 / 1000 * (1 / 2 ^ 53) * exp (pairV y * (log 2 / 64)) := by
  obtain ⟨n, n1, n2, hn, c1, c2, c3, c4, c5, c6⟩ := powExpReduce hc f1 f2 h1 h2
  obtain ⟨p, hp, d1, d2, d3, d4, d5⟩ := powExpPoly_err m c1 c2 c3 c4 c5
  obtain ⟨e, he, e1, e2, e3, e4, e5, e6, e7, e8⟩ := powExpHm_spec sign n1 n2
  replace e5 := e5.trans (mul_le_mul_of_nonneg_right (by norm_num : (1 : ℝ) / 2 ^ 50 ≤ 1 / 2 ^ 49) (exp_pos _).le)
  have d6 := ecPoly_near c5
  have d7 := exp_near_one c5
  set L := CC.exactAdd binary64 m (binary64.hsub m y.hi (CC.nearestInteger binary64 ce m y.hi)) y.lo with hL
  have hσ : |(if sign then -1 else 1 : ℝ)| = 1 := by cases sign <;> simp
  obtain ⟨q, hq, q1, q2, q3⟩ := powExpMul m (P := exp (pairV L * (log 2 / 64))) e1 e2 d1 d2 hσ e7 e8 e3 e4 e5 e6 d7 (by
    have := abs_le.1 d5
    have := abs_le.1 d6
    rw [abs_le]; constructor <;> linarith) (d4.trans (by norm_num))
  refine ⟨q, ?_, q1, q2, ?_⟩
  · unfold CC.powExp2
    simp only [hn, Option.bind_eq_bind, Option.bind_some, he, ← hL, hp, hq]
  · have hl := log2_lo
    have b1 : |pairV L * (log 2 / 64) - (pairV y - n) * (log 2 / 64)| ≤ (1 / 2 ^ 53 + 1 / 2 ^ 78) * (6932 / 10000 / 64) := by
      rw [← sub_mul, abs_mul, abs_of_pos (by linarith : 0 < log 2 / 64)]
      refine mul_le_mul c6 (by linarith) (by linarith) (by norm_num)
    have b2 := exp_perturb b1 (by norm_num)
    have hE : exp (pairV y * (log 2 / 64)) = exp (n * (log 2 / 64)) * exp ((pairV y - n) * (log 2 / 64)) := by rw [← exp_add]; congr 1; ring
    have hG := exp_pos (n * (log 2 / 64))
    rw [hE]
    have hH := exp_pos ((pairV y - n) * (log 2 / 64))
    generalize exp (n * (log 2 / 64)) = G at *
    generalize exp ((pairV y - n) * (log 2 / 64)) = H at *
    generalize exp (pairV L * (log 2 / 64)) = P at *
    generalize (if sign then -1 else 1 : ℝ) = σ at *
    have b3 := abs_le.1 b2
    have b4 := abs_le.1 d7
    have H1 : 98 / 100 ≤ H := by norm_num at b3; linarith
    have b5 : |σ * G * P - σ * (G * H)| ≤ G * (1085 / 100000 * (1 / 2 ^ 53) * H) := by
      rw [show σ * G * P - σ * (G * H) = σ * (G * (P - H)) by ring, abs_mul, hσ, one_mul, abs_mul, abs_of_pos hG]
      refine mul_le_mul_of_nonneg_left (b2.trans ?_) hG.le
      exact mul_le_mul_of_nonneg_right (by norm_num) hH.le
    rw [show pairV q - σ * (G * H) = (pairV q - σ * G * P) + (σ * G * P - σ * (G * H)) by ring]
    refine (abs_add_le' q3 b5).trans ?_
    have : G * (98 / 100) ≤ G * H := mul_le_mul_of_nonneg_left H1 hG.le
    nlinarith

end Verif
