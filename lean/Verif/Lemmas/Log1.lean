import Mathlib.Analysis.SpecialFunctions.Log.Basic
import Mathlib.Analysis.SpecialFunctions.Exponential
import Mathlib.Analysis.Complex.Exponential
import Mathlib.Tactic.Positivity
import Mathlib.Tactic.FieldSimp
import Mathlib.Tactic.Linarith
import Verif.Lemmas.Ln2
import Verif.Lemmas.FErr

/-!
# Checking tables of logarithms by kernel evaluation

`expNum n D k N`, `expDen ...`: numerator and denominator of the partial sum of the exponential series at `n / D`. `logChk` compares it with a given fraction.
-/

namespace Verif
open Real Finset Fmt

/-- numerator and denominator of `1 + (y/k)(1 + (y/(k+1))(...))` with `N` levels, `y = n / D` -/
def expFrac (n D : ℕ) : ℕ → ℕ → ℕ × ℕ
  | _, 0 => (1, 1)
  | k, N + 1 =>
    let p := expFrac n D (k + 1) N
    (D * k * p.2 + n * p.1, D * k * p.2)

/-- the same over the reals -/
noncomputable def eh (y : ℝ) : ℕ → ℕ → ℝ
  | _, 0 => 1
  | k, N + 1 => 1 + y / k * eh y (k + 1) N

theorem expFrac_pos (n : ℕ) {D : ℕ} (hD : 0 < D) (N : ℕ) : ∀ k, 0 < k → 0 < (expFrac n D k N).2 := by
  induction N with
  | zero => intro k _; simp [expFrac]
  | succ N ih =>
    intro k hk
    have := ih (k + 1) (by omega)
    simp only [expFrac]; positivity

theorem expFrac_eq (n : ℕ) {D : ℕ} (hD : 0 < D) (N : ℕ) : ∀ k, 0 < k → ((expFrac n D k N).1 : ℝ) / (expFrac n D k N).2 = eh (n / D) k N := by
  induction N with
  | zero => intro k _; simp [expFrac, eh]
  | succ N ih =>
    intro k hk
    have h1 := ih (k + 1) (by omega)
    have h2 := expFrac_pos n hD N (k + 1) (by omega)
    simp only [expFrac, eh, ← h1]
    have h3 : (0 : ℝ) < (expFrac n D (k + 1) N).2 := by exact_mod_cast h2
    have h4 : (0 : ℝ) < D := by exact_mod_cast hD
    have h5 : (0 : ℝ) < k := by exact_mod_cast hk
    push_cast
    field_simp

theorem eh_sum (y : ℝ) (N : ℕ) : ∀ k, eh y (k + 1) N = ∑ m ∈ range (N + 1), y ^ m * (k.factorial / (k + m).factorial) := by
  induction N with
  | zero => intro k; simp [eh]; exact (div_self (by exact_mod_cast k.factorial_ne_zero)).symm
  | succ N ih =>
    intro k
    rw [sum_range_succ']
    simp only [eh, ih (k + 1)]
    have h0 : ((k.factorial : ℕ) : ℝ) ≠ 0 := by exact_mod_cast k.factorial_ne_zero
    rw [mul_sum]
    have e : (y ^ 0 * ((k.factorial : ℝ) / (k + 0).factorial)) = 1 := by simp [h0]
    rw [e, add_comm]
    congr 1
    refine sum_congr rfl fun m _ => ?_
    have e2 : k + 1 + m = k + (m + 1) := by ring
    rw [e2, Nat.factorial_succ k]
    have h1 : (((k + (m + 1)).factorial : ℕ) : ℝ) ≠ 0 := by exact_mod_cast (k + (m + 1)).factorial_ne_zero
    have h2 : ((k : ℝ) + 1) ≠ 0 := by positivity
    push_cast
    field_simp
    ring

theorem eh_exp {y : ℝ} (h0 : 0 ≤ y) (h1 : y ≤ 1) : eh y 1 29 ≤ exp y ∧ exp y ≤ eh y 1 29 + 1 / 2 ^ 105 := by
  have e : eh y 1 29 = ∑ m ∈ range 30, y ^ m / m.factorial := by
    rw [eh_sum y 29 0]
    refine sum_congr rfl fun m _ => ?_
    rw [Nat.zero_add, Nat.factorial_zero]; push_cast; ring
  constructor
  · rw [e]; exact sum_le_exp_of_nonneg h0 30
  · have h := Real.exp_bound' h0 h1 (n := 30) (by norm_num)
    rw [← e] at h
    refine h.trans ?_
    have h2 : y ^ 30 ≤ 1 := pow_le_one₀ h0 h1
    have h3 : y ^ 30 * ((30 : ℕ) + 1 : ℝ) / ((Nat.factorial 30 : ℕ) * (30 : ℕ)) ≤ 1 * ((30 : ℕ) + 1 : ℝ) / ((Nat.factorial 30 : ℕ) * (30 : ℕ)) := by
      gcongr
    have h4 : (1 : ℝ) * ((30 : ℕ) + 1 : ℝ) / ((Nat.factorial 30 : ℕ) * (30 : ℕ)) ≤ 1 / 2 ^ 105 := by
      norm_num [Nat.factorial]
    linarith

/-- `cn / cd ≤ (expFrac tn td) (1 + 2^-p)` and `≥ (expFrac tn td) (1 - 2^-p)` -/
def logChk (p cn cd tn td : ℕ) : Bool :=
  let e := expFrac tn td 1 29
  Nat.ble (cn * e.2 * 2 ^ p) (e.1 * cd * (2 ^ p + 1)) && Nat.ble (e.1 * cd * (2 ^ p - 1)) (cn * e.2 * 2 ^ p)

theorem log_near {c E u : ℝ} (hE : 0 < E) (hu : u ≤ 1 / 2) (hu0 : 0 ≤ u) (h1 : c ≤ E * (1 + u)) (h2 : E * (1 - u) ≤ c) : |log c - log E| ≤ u + 2 * u ^ 2 := by
  have hc : 0 < c := lt_of_lt_of_le (mul_pos hE (by linarith)) h2
  rw [← log_div hc.ne' hE.ne']
  have h3 : c / E ≤ 1 + u := by rw [div_le_iff₀ hE]; linarith
  have h4 : 1 - u ≤ c / E := by rw [le_div_iff₀ hE]; linarith
  have hp : 0 < c / E := div_pos hc hE
  rw [abs_le]
  constructor
  · have := one_sub_inv_le_log_of_pos hp
    have h5 : (c / E)⁻¹ ≤ (1 - u)⁻¹ := inv_anti₀ (by linarith) h4
    have h6 : (1 - u)⁻¹ ≤ 1 + u + 2 * u ^ 2 := by
      rw [inv_le_comm₀ (by linarith) (by positivity), inv_eq_one_div, div_le_iff₀ (by positivity)]
      nlinarith [sq_nonneg u, mul_nonneg hu0 hu0]
    linarith
  · have := log_le_sub_one_of_pos hp
    nlinarith [sq_nonneg u]

theorem logChk_aux {p cn cd P Q : ℕ} {y S : ℝ} (h1 : cn * Q * 2 ^ p ≤ P * cd * (2 ^ p + 1)) (h2 : P * cd * (2 ^ p - 1) ≤ cn * Q * 2 ^ p) (hcd : 0 < cd) (d : 0 < Q)
    (e : (P : ℝ) / Q = S) (hp1 : 2 ≤ p) (hy0 : 0 ≤ y) (x1 : S ≤ exp y) (x2 : exp y ≤ S + 1 / 2 ^ 105) (hS1 : 1 ≤ S) :
    |log ((cn : ℝ) / cd) - y| ≤ (1 / 2 ^ p) + 1 / 2 ^ 104 + 4 / 2 ^ (2 * p) := by
  have hQ : (0 : ℝ) < Q := by exact_mod_cast d
  have hcd' : (0 : ℝ) < cd := by exact_mod_cast hcd
  have two : (0 : ℝ) < 2 ^ p := by positivity
  have r1 : (cn : ℝ) / cd ≤ S * (1 + 1 / 2 ^ p) := by
    have := (Nat.cast_le (α := ℝ)).2 h1
    push_cast at this
    rw [← e, div_le_iff₀ hcd']
    rw [show (P : ℝ) / Q * (1 + 1 / 2 ^ p) * cd = (P * cd * (2 ^ p + 1)) / (Q * 2 ^ p) by field_simp, le_div_iff₀ (by positivity)]
    linarith
  have r2 : S * (1 - 1 / 2 ^ p) ≤ (cn : ℝ) / cd := by
    have := (Nat.cast_le (α := ℝ)).2 h2
    rw [Nat.cast_mul, Nat.cast_mul, Nat.cast_sub Nat.one_le_two_pow] at this
    push_cast at this
    rw [← e, le_div_iff₀ hcd']
    rw [show (P : ℝ) / Q * (1 - 1 / 2 ^ p) * cd = (P * cd * (2 ^ p - 1)) / (Q * 2 ^ p) by field_simp, div_le_iff₀ (by positivity)]
    linarith
  have q : (1 : ℝ) / 2 ^ p ≤ 1 / 4 := by
    rw [div_le_div_iff₀ two (by norm_num)]
    have := pow_le_pow_right₀ (show (1 : ℝ) ≤ 2 by norm_num) hp1
    norm_num at this ⊢; linarith
  have a1 := log_near (by linarith : 0 < S) (show (1 : ℝ) / 2 ^ p ≤ 1 / 2 by linarith) (by positivity) r1 r2
  have a2 : |log S - y| ≤ 1 / 2 ^ 105 + 2 * (1 / 2 ^ 105) ^ 2 := by
    have := log_near (c := S) (exp_pos y) (show (1 : ℝ) / 2 ^ 105 ≤ 1 / 2 by norm_num) (by positivity)
      (by nlinarith [exp_pos y]) (by
        have : 1 ≤ exp y := one_le_exp hy0
        nlinarith)
    rwa [log_exp] at this
  refine le_trans (abs_tri a1 a2) ?_
  have e3 : (1 / (2 : ℝ) ^ p) ^ 2 = 1 / 2 ^ (2 * p) := by rw [div_pow, one_pow, ← pow_mul, mul_comm]
  rw [e3]
  have e4 : (0 : ℝ) < 1 / 2 ^ (2 * p) := by positivity
  have e5 : (1 : ℝ) / 2 ^ 105 + 2 * (1 / 2 ^ 105) ^ 2 ≤ 1 / 2 ^ 104 := by norm_num
  have e6 : (4 : ℝ) / 2 ^ (2 * p) = 4 * (1 / 2 ^ (2 * p)) := by ring
  rw [e6]
  linarith

theorem eh_one {y : ℝ} (hy0 : 0 ≤ y) (N k : ℕ) : 1 ≤ eh y k N := by
  have : ∀ N k, 1 ≤ eh y k N := by
    intro N
    induction N with
    | zero => intro k; simp [eh]
    | succ N ih =>
      intro k
      have := ih (k + 1)
      simp only [eh]
      have : 0 ≤ y / k * eh y (k + 1) N := by positivity
      linarith
  exact this N k

theorem logChk_sound {p cn cd tn td : ℕ} (h : logChk p cn cd tn td = true) (hcd : 0 < cd) (htd : 0 < td) (ht : tn ≤ td) (hp1 : 2 ≤ p) :
    |log ((cn : ℝ) / cd) - (tn : ℝ) / td| ≤ (1 / 2 ^ p) + 1 / 2 ^ 104 + 4 / 2 ^ (2 * p) := by
  have htd' : (0 : ℝ) < td := by exact_mod_cast htd
  have hy0 : 0 ≤ (tn : ℝ) / td := by positivity
  have hy1 : (tn : ℝ) / td ≤ 1 := by rw [div_le_one htd']; exact_mod_cast ht
  have e := expFrac_eq tn htd 29 1 one_pos
  have d := expFrac_pos tn htd 29 1 one_pos
  obtain ⟨x1, x2⟩ := eh_exp hy0 hy1
  have hS1 := eh_one hy0 29 1
  unfold logChk at h
  generalize expFrac tn td 1 29 = PQ at *
  simp only [Bool.and_eq_true, Nat.ble_eq] at h
  exact logChk_aux h.1 h.2 hcd d e hp1 hy0 x1 x2 hS1

/-- `2^p` times the value of a normal double (or 0) with a large enough exponent -/
def ints (p x : ℕ) : ℤ :=
  let m : ℤ := if binary64.bexp x = 0 then 0 else (2 ^ 52 + binary64.frac x : ℕ)
  (if binary64.sgn x then -m else m) * 2 ^ (binary64.bexp x + p - 1075)

/-- the double is zero or normal with a value that is a multiple of `2^-p` by its exponent -/
def intsOk (p x : ℕ) : Bool := Nat.blt x (2 ^ 64) && (binary64.mag x == 0 || (Nat.ble 1 (binary64.bexp x) && Nat.ble 1075 (binary64.bexp x + p) && Nat.blt (binary64.bexp x) 2047))

theorem intsOk_spec {p x : ℕ} (h : intsOk p x = true) : binary64.Finite x ∧ binary64.val x = (ints p x : ℝ) / 2 ^ p := by
  simp only [intsOk, Bool.and_eq_true, Bool.or_eq_true, beq_iff_eq, Nat.ble_eq, Nat.blt_eq] at h
  obtain ⟨hlt, h | ⟨⟨h1, h2⟩, h3⟩⟩ := h
  · have hb : binary64.bexp x = 0 := by unfold Fmt.bexp; rw [h]; simp
    refine ⟨(binary64.finite_iff x).2 ⟨hlt, by rw [h]; decide⟩, ?_⟩
    rw [(binary64.val_eq_zero_iff x).2 h]
    simp [ints, hb]
  · refine ⟨(binary64.finite_iff x).2 ⟨hlt, ?_⟩, ?_⟩
    · have : binary64.bexp x = binary64.mag x / 2 ^ 52 := rfl
      have e : binary64.infMag = 2047 * 2 ^ 52 := by decide
      rw [e]
      have := Nat.div_add_mod (binary64.mag x) (2 ^ 52)
      have := Nat.mod_lt (binary64.mag x) (show 0 < 2 ^ 52 by norm_num)
      omega
    · have h0 : binary64.bexp x ≠ 0 := by omega
      by_cases hk : binary64.bexp x ≤ 1075
      · obtain ⟨k, hk⟩ : ∃ k, binary64.bexp x + k = 1075 := ⟨1075 - binary64.bexp x, by omega⟩
        rw [lit64 (binary64.sgn x) _ k rfl h0 rfl hk]
        have e : binary64.bexp x + p - 1075 = p - k := by omega
        simp only [ints, if_neg h0, e]
        have e2 : (2 : ℝ) ^ p = 2 ^ (p - k) * 2 ^ k := by rw [← pow_add, show p - k + k = p by omega]
        rw [e2]
        cases binary64.sgn x <;> · simp only [sg]; push_cast; norm_num; field_simp; try ring
      · have := CC.val_normal binary64 (x := x) (k := (binary64.bexp x : ℤ) - 1023) h0 (by
          unfold FPBits.getExponent; rw [FPBits.biasedExp_eq]; congr 1)
        rw [CC.val_eq_sg_abs binary64 x, this]
        have hF : binary64.F = 52 := rfl
        rw [hF]
        simp only [ints, if_neg h0]
        have e : (binary64.bexp x : ℤ) - 1023 - ((52 : ℕ) : ℤ) = ((binary64.bexp x + p - 1075 : ℕ) : ℤ) - (p : ℤ) := by push_cast; omega
        rw [e, zpow_sub₀ (by norm_num), zpow_natCast, zpow_natCast]
        cases binary64.sgn x <;> · simp only [sg]; push_cast; norm_num; field_simp; try ring

end Verif
