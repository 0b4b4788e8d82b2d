import Verif.Lemmas.Ldexp
import Verif.Model.Fma

/-!
# Rounding from a quotient, a round bit and a sticky bit
-/

namespace Verif
open Fmt

/-- `q` is the integer part of `w`, `rb` tells whether the rest is at least one half, `st` whether anything remains beyond. -/
structure RBits (w : ℝ) (q : ℕ) (rb st : Bool) : Prop where
  lo : (q : ℝ) ≤ w
  hi : w < q + 1
  half : rb = true ↔ (q : ℝ) + 1 / 2 ≤ w
  exact0 : rb = false → (st = false ↔ w = q)
  exact1 : rb = true → (st = false ↔ w = q + 1 / 2)

theorem RBits.exact_iff {w : ℝ} {q : ℕ} {rb st : Bool} (h : RBits w q rb st) : (rb || st) = false ↔ w = q := by
  cases hrb : rb
  · simpa using h.exact0 hrb
  · have := h.half.1 hrb
    simp only [Bool.true_or, Bool.true_eq_false, false_iff]
    intro hw; linarith

theorem testBit_split {M : ℕ} {n : ℕ} : M = M / 2 ^ (n + 1) * 2 ^ (n + 1) + (if M.testBit n then 2 ^ n else 0) + M % 2 ^ n := by
  have h1 := Nat.div_add_mod M (2 ^ (n + 1))
  have h2 : M % 2 ^ (n + 1) = M % 2 ^ n + 2 ^ n * (M / 2 ^ n % 2) := by rw [pow_succ, Nat.mod_mul]
  have h3 : M.testBit n = decide (M / 2 ^ n % 2 = 1) := Nat.testBit_eq_decide_div_mod_eq
  have h4 : M / 2 ^ n % 2 < 2 := Nat.mod_lt _ (by decide)
  rw [h2] at h1
  have : (if M.testBit n then 2 ^ n else 0) = 2 ^ n * (M / 2 ^ n % 2) := by
    rw [h3]
    rcases Nat.lt_or_ge (M / 2 ^ n % 2) 1 with h | h
    · have : M / 2 ^ n % 2 = 0 := by omega
      rw [this]; simp
    · have : M / 2 ^ n % 2 = 1 := by omega
      rw [this]; simp
  rw [this]; nth_rewrite 1 [← h1]; ring

/-- shifting right by `n+1` with a round bit and sticky bits -/
theorem shift_rbits {M n j : ℕ} {v : ℝ} (hj : j ≤ n) (hd : 2 ^ j ∣ M) (h1 : (M : ℝ) ≤ v) (h2 : v < (M : ℝ) + 2 ^ j) {tl : Bool}
    (ht : tl = true ↔ v ≠ M) : RBits (v / 2 ^ (n + 1)) (M / 2 ^ (n + 1)) (M.testBit n) (tl || decide (M % 2 ^ n ≠ 0)) := by
  have hsplit := testBit_split (M := M) (n := n)
  have hl : M % 2 ^ n < 2 ^ n := Nat.mod_lt _ (by positivity)
  have hdl : 2 ^ j ∣ M % 2 ^ n := (Nat.dvd_mod_iff (pow_dvd_pow 2 hj)).2 hd
  have hl2 : M % 2 ^ n + 2 ^ j ≤ 2 ^ n := by
    obtain ⟨a, ha⟩ := hdl
    obtain ⟨b, hb⟩ := pow_dvd_pow 2 hj
    rw [ha, hb] at hl
    have : a < b := lt_of_mul_lt_mul_left hl (Nat.zero_le _)
    rw [ha, hb, ← Nat.mul_succ]
    exact Nat.mul_le_mul_left _ this
  generalize hQ : M / 2 ^ (n + 1) = q at *
  generalize hL : M % 2 ^ n = l at *
  generalize hB : M.testBit n = b at *
  have hH : (0 : ℝ) < 2 ^ n := by positivity
  have hM : (M : ℝ) = q * (2 * 2 ^ n) + (if b then 2 ^ n else 0) + l := by
    rw [hsplit]; cases b <;> simp only [Bool.false_eq_true, if_false, if_true] <;> push_cast <;> rw [pow_succ] <;> ring
  have hl2' : (l : ℝ) + 2 ^ j ≤ 2 ^ n := by exact_mod_cast hl2
  have hl0 : (0 : ℝ) ≤ l := Nat.cast_nonneg _
  have hw : v / 2 ^ (n + 1) * (2 * 2 ^ n) = v := by rw [pow_succ]; field_simp
  set w := v / 2 ^ (n + 1)
  set H : ℝ := 2 ^ n
  set J : ℝ := 2 ^ j
  have hst : (tl || decide (l ≠ 0)) = false ↔ v = M ∧ l = 0 := by
    rw [Bool.or_eq_false_iff, decide_eq_false_iff_not, not_not]
    constructor
    · rintro ⟨a, b⟩; exact ⟨by by_contra h; rw [ht.2 h] at a; simp at a, b⟩
    · rintro ⟨a, b⟩; exact ⟨by by_contra h; exact ht.1 (by simpa using h) a, b⟩
  cases b
  · simp only [Bool.false_eq_true, if_false, add_zero] at hM
    have hlt : w < q + 1 / 2 := by
      by_contra h; push Not at h
      have := mul_le_mul_of_nonneg_right h (show (0 : ℝ) ≤ 2 * H by linarith)
      nlinarith
    refine ⟨?_, by linarith, ?_, fun _ => ?_, fun h => by simp at h⟩
    · by_contra h; push Not at h
      have := mul_lt_mul_of_pos_right h (show (0 : ℝ) < 2 * H by linarith)
      nlinarith
    · constructor
      · intro h; simp at h
      · intro h; linarith
    · rw [hst]
      constructor
      · rintro ⟨a, b⟩
        subst b
        rw [hM] at a
        have : (w - q) * (2 * H) = 0 := by rw [sub_mul, hw, a]; simp
        rcases mul_eq_zero.1 this with h | h <;> linarith
      · intro h
        rw [h] at hw
        have : (l : ℝ) ≤ 0 := by linarith
        have hl' : l = 0 := by exact_mod_cast le_antisymm this hl0
        refine ⟨?_, hl'⟩
        rw [← hw, hM, hl']; simp
  · simp only [if_true] at hM
    have hge : (q : ℝ) + 1 / 2 ≤ w := by
      by_contra h; push Not at h
      have := mul_lt_mul_of_pos_right h (show (0 : ℝ) < 2 * H by linarith)
      nlinarith
    refine ⟨by linarith, ?_, by simpa using hge, fun h => by simp at h, fun _ => ?_⟩
    · by_contra h; push Not at h
      have := mul_le_mul_of_nonneg_right h (show (0 : ℝ) ≤ 2 * H by linarith)
      nlinarith
    · rw [hst]
      constructor
      · rintro ⟨a, b⟩
        subst b
        rw [hM] at a
        have : (w - (q + 1 / 2)) * (2 * H) = 0 := by rw [sub_mul, hw, a]; push_cast; ring
        rcases mul_eq_zero.1 this with h | h <;> linarith
      · intro h
        rw [h] at hw
        have : (l : ℝ) ≤ 0 := by nlinarith
        have hl' : l = 0 := by exact_mod_cast le_antisymm this hl0
        refine ⟨?_, hl'⟩
        rw [← hw, hM, hl']; push_cast; ring

namespace CC
variable (f : Fmt)

/-- the common rounding increment produces the correctly rounded magnitude -/
theorem rndMag_bits {m : Mode} {s : Bool} {t w : ℝ} {k q : ℕ} {rb st : Bool} (hb : RBits w q rb st) (htw : t = w * 2 ^ k)
    (hq : q < 2 ^ (f.F + 1)) (hk : k = 0 ∨ 2 ^ f.F ≤ q) :
    f.RndMag (kind m s) t (k * 2 ^ f.F + q + (if roundIncrement m s rb st (decide (q % 2 = 1)) then 1 else 0)) := by
  have hu := f.umag_of hq hk
  have hgk := f.gk_of hq hk
  have hu1 := f.umag_succ (k * 2 ^ f.F + q)
  rw [hu, hgk] at hu1
  have hP : (0 : ℝ) < 2 ^ k := by positivity
  have uR : ((f.umag (k * 2 ^ f.F + q) : ℕ) : ℝ) = q * 2 ^ k := by rw [hu]; push_cast; rfl
  have uR1 : ((f.umag (k * 2 ^ f.F + q + 1) : ℕ) : ℝ) = (q + 1) * 2 ^ k := by rw [hu1]; push_cast; ring
  refine ⟨k * 2 ^ f.F + q, ⟨?_, ?_⟩, ?_⟩
  · rw [uR, htw]; exact mul_le_mul_of_nonneg_right hb.lo hP.le
  · rw [uR1, htw]; exact mul_lt_mul_of_pos_right hb.hi hP
  have hpar : (k * 2 ^ f.F + q) % 2 = q % 2 := by
    have : 2 ^ f.F = 2 * 2 ^ (f.F - 1) := by rw [← pow_succ']; congr 1; have := f.hF; omega
    rw [this, show k * (2 * 2 ^ (f.F - 1)) + q = 2 * (k * 2 ^ (f.F - 1)) + q by ring, Nat.mul_add_mod]
  have heq : t = q * 2 ^ k ↔ w = q := by
    rw [htw]; exact mul_left_inj' hP.ne'
  have hnear : ∀ (c : Bool), c = (rb && (decide (q % 2 = 1) || st)) →
      (2 * t < (f.umag (k * 2 ^ f.F + q) : ℝ) + f.umag (k * 2 ^ f.F + q + 1) ∧ k * 2 ^ f.F + q + (if c then 1 else 0) = k * 2 ^ f.F + q) ∨
      (2 * t = (f.umag (k * 2 ^ f.F + q) : ℝ) + f.umag (k * 2 ^ f.F + q + 1) ∧
        k * 2 ^ f.F + q + (if c then 1 else 0) = k * 2 ^ f.F + q + (k * 2 ^ f.F + q) % 2) ∨
      ((f.umag (k * 2 ^ f.F + q) : ℝ) + f.umag (k * 2 ^ f.F + q + 1) < 2 * t ∧
        k * 2 ^ f.F + q + (if c then 1 else 0) = k * 2 ^ f.F + q + 1) := by
    intro c hc
    rw [uR, uR1, htw, hpar]
    cases hrb : rb
    · left
      have : w < q + 1 / 2 := by
        by_contra h; push Not at h; have := hb.half.2 h; rw [hrb] at this; simp at this
      refine ⟨by nlinarith, ?_⟩
      rw [hc, hrb]; simp
    · cases hst : st
      · right; left
        have hw := (hb.exact1 hrb).1 hst
        refine ⟨by rw [hw]; ring, ?_⟩
        rw [hc, hrb, hst]
        rcases Nat.mod_two_eq_zero_or_one q with h | h <;> simp [h]
      · right; right
        have hw := hb.half.1 hrb
        have hne : w ≠ q + 1 / 2 := fun h => by have := (hb.exact1 hrb).2 h; rw [hst] at this; simp at this
        have hlt := lt_of_le_of_ne hw (Ne.symm hne)
        refine ⟨by nlinarith, ?_⟩
        rw [hc, hrb, hst]; simp
  have haway : ∀ c : Bool, c = (rb || st) → k * 2 ^ f.F + q + (if c then 1 else 0) =
      if t = (f.umag (k * 2 ^ f.F + q) : ℝ) then k * 2 ^ f.F + q else k * 2 ^ f.F + q + 1 := by
    intro c hc
    rw [uR]
    by_cases h : w = q
    · rw [if_pos (heq.2 h), hc, hb.exact_iff.2 h]; simp
    · have : (rb || st) = true := by by_contra h'; exact h (hb.exact_iff.1 (by simpa using h'))
      rw [if_neg (fun h' => h (heq.1 h')), hc, this]; simp
  cases m <;> cases s <;> simp only [kind, roundIncrement]
  all_goals first
    | exact hnear _ rfl
    | (exact haway _ (by simp))
    | simp

/-- the capped magnitude equals the raw one when the exponent is in range -/
theorem cap_bits {m : Mode} {s : Bool} {n : ℕ} {c rb st : Bool} (hn : n < f.infMag) :
    f.cap (kind m s) (n + (if roundIncrement m s rb st c then 1 else 0)) = n + (if roundIncrement m s rb st c then 1 else 0) := by
  cases hc : roundIncrement m s rb st c
  · unfold cap; simp [hn]
  · simp only [if_true]
    unfold cap
    by_cases h : n + 1 < f.infMag
    · rw [if_pos h]
    · rw [if_neg h]
      have : n + 1 = f.infMag := by omega
      rw [this]
      cases m <;> cases s <;> simp_all [kind, roundIncrement]

theorem pack_succ (s : Bool) (n : ℕ) (c : Bool) : (if c then f.pack s n + 1 else f.pack s n) = f.pack s (n + if c then 1 else 0) := by
  cases c <;> simp [pack]; omega

end CC
end Verif
