import Verif.Lemmas.PayneHanek2
import Verif.Lemmas.EFT

/-!
# Distance of a number of a format to the multiples of `π/2`

For each exponent the distance of `m β` to the integers, `0 < m < 2^(F+1)`, `β = 2^g * 2/π`, is at least that of the last convergent of `β` with
denominator at most `2^(F+1)`.
-/

namespace Verif
open Fmt

/-- consecutive convergents `p1/q1`, `p2/q2` of `x/y`, with `q2 > M` -/
def cf (M : ℕ) : ℕ → ℕ → ℕ → ℕ → ℕ → ℕ → ℕ → ℕ × ℕ × ℕ × ℕ
  | 0, _, _, p1, q1, p2, q2 => (p1, q1, p2, q2)
  | fuel + 1, x, y, p1, q1, p2, q2 =>
    if M < q2 then (p1, q1, p2, q2) else cf M fuel y (x % y) p2 q2 (x / y * p2 + p1) (x / y * q2 + q1)

/-- the distance to the integers, scaled by `2^N`, is at least `D` for multipliers up to `M` -/
def dioChk (M D N L : ℕ) : Bool :=
  let lo := L % 2 ^ N
  match cf M 200 (2 ^ N) lo 1 0 0 1 with
  | (p1, q1, p2, q2) =>
    decide (M < q2) && ((decide (p2 * q1 = p1 * q2 + 1) && decide (p1 * 2 ^ N + D ≤ q1 * lo) && decide (q2 * (lo + 1) ≤ p2 * 2 ^ N)) ||
      (decide (p1 * q2 = p2 * q1 + 1) && decide (q1 * (lo + 1) + D ≤ p1 * 2 ^ N) && decide (p2 * 2 ^ N ≤ q2 * lo)))

theorem dio_core {φ D W : ℝ} {p1 q1 p2 q2 m n : ℤ} (h : q1 * p2 - p1 * q2 = 1) (hq1 : 0 ≤ q1) (hm : 0 < m) (hm2 : m < q2)
    (h1 : D ≤ q1 * φ - p1 * W) (h2 : q2 * φ - p2 * W ≤ 0) (hD : 0 ≤ D) : D ≤ |m * φ - n * W| := by
  obtain ⟨a, ha⟩ : ∃ a, a = m * p2 - n * q2 := ⟨_, rfl⟩
  obtain ⟨b, hb⟩ : ∃ b, b = n * q1 - m * p1 := ⟨_, rfl⟩
  have em : m = a * q1 + b * q2 := by rw [ha, hb]; linear_combination (-m) * h
  have en : n = a * p1 + b * p2 := by rw [ha, hb]; linear_combination (-n) * h
  have e : (m : ℝ) * φ - n * W = a * (q1 * φ - p1 * W) + b * (q2 * φ - p2 * W) := by
    rw [em, en]; push_cast; ring
  rw [e]
  have e1 : 0 ≤ (q1 : ℝ) * φ - p1 * W := le_trans hD h1
  rcases lt_trichotomy a 0 with h0 | h0 | h0
  · have hb1 : 0 < b := by
      by_contra hc
      have : a * q1 ≤ 0 := mul_nonpos_of_nonpos_of_nonneg h0.le hq1
      have : b * q2 ≤ 0 := mul_nonpos_of_nonpos_of_nonneg (by omega) (by omega)
      omega
    have a1 : (a : ℝ) ≤ -1 := by exact_mod_cast (by omega : a ≤ -1)
    have b1 : (0 : ℝ) ≤ b := by exact_mod_cast hb1.le
    have k1 := mul_le_mul_of_nonneg_right a1 e1
    have k2 := mul_nonpos_of_nonneg_of_nonpos b1 h2
    rw [← abs_neg]
    refine le_trans ?_ (le_abs_self _)
    linarith
  · exfalso
    rw [h0, zero_mul, zero_add] at em
    rcases le_or_gt b 0 with hb0 | hb0
    · have : b * q2 ≤ 0 := mul_nonpos_of_nonpos_of_nonneg hb0 (by omega)
      omega
    · have : 1 * q2 ≤ b * q2 := mul_le_mul_of_nonneg_right (by omega) (by omega)
      omega
  · have hb1 : b ≤ 0 := by
      by_contra hc
      have : 0 ≤ a * q1 := mul_nonneg h0.le hq1
      have : 1 * q2 ≤ b * q2 := mul_le_mul_of_nonneg_right (by omega) (by omega)
      omega
    have a1 : (1 : ℝ) ≤ a := by exact_mod_cast (by omega : 1 ≤ a)
    have b1 : (b : ℝ) ≤ 0 := by exact_mod_cast hb1
    have k1 := mul_le_mul_of_nonneg_right a1 e1
    have k2 := mul_nonneg_of_nonpos_of_nonpos b1 h2
    refine le_trans ?_ (le_abs_self _)
    linarith

theorem dio_spec {M D N L : ℕ} (hc : dioChk M D N L = true) {B : ℝ} (h1 : (L : ℝ) ≤ B) (h2 : B ≤ L + 1) {m n : ℤ} (hm : 0 < m) (hm2 : m ≤ M) :
    (D : ℝ) ≤ |m * B - n * 2 ^ N| := by
  unfold dioChk at hc
  dsimp only at hc
  generalize cf M 200 (2 ^ N) (L % 2 ^ N) 1 0 0 1 = c at hc
  obtain ⟨p1, q1, p2, q2⟩ := c
  dsimp only at hc
  have hL : L = 2 ^ N * (L / 2 ^ N) + L % 2 ^ N := (Nat.div_add_mod _ _).symm
  generalize L % 2 ^ N = lo at *
  generalize L / 2 ^ N = I at *
  have hLr : (L : ℝ) = 2 ^ N * I + lo := by rw [hL]; push_cast; ring
  have e : (m : ℝ) * B - n * 2 ^ N = m * (B - 2 ^ N * I) - ((n - m * I : ℤ) : ℝ) * 2 ^ N := by push_cast; ring
  rw [e]
  have f1 : (lo : ℝ) ≤ B - 2 ^ N * I := by linarith
  have f2 : B - 2 ^ N * I ≤ lo + 1 := by linarith
  generalize B - 2 ^ N * (I : ℝ) = φ at *
  generalize n - m * I = n' at *
  simp only [Bool.and_eq_true, Bool.or_eq_true, decide_eq_true_eq] at hc
  obtain ⟨hM, hc⟩ := hc
  have hm3 : m < (q2 : ℤ) := by omega
  have d0 : (0 : ℝ) ≤ D := Nat.cast_nonneg _
  have n1 : (0 : ℝ) ≤ q1 := Nat.cast_nonneg _
  have n2 : (0 : ℝ) ≤ q2 := Nat.cast_nonneg _
  rcases hc with ⟨⟨a1, a2⟩, a3⟩ | ⟨⟨a1, a2⟩, a3⟩
  · have b2 : (p1 : ℝ) * 2 ^ N + D ≤ q1 * lo := by exact_mod_cast a2
    have b3 : (q2 : ℝ) * (lo + 1) ≤ p2 * 2 ^ N := by exact_mod_cast a3
    have k1 := mul_le_mul_of_nonneg_left f1 n1
    have k2 := mul_le_mul_of_nonneg_left f2 n2
    refine dio_core (p1 := p1) (q1 := q1) (p2 := p2) (q2 := q2) ?_ (by omega) hm hm3 ?_ ?_ d0
    · have : (p2 : ℤ) * q1 = p1 * q2 + 1 := by exact_mod_cast a1
      linarith
    · push_cast; linarith
    · push_cast; linarith
  · have b2 : (q1 : ℝ) * (lo + 1) + D ≤ p1 * 2 ^ N := by exact_mod_cast a2
    have b3 : (p2 : ℝ) * 2 ^ N ≤ q2 * lo := by exact_mod_cast a3
    have k1 := mul_le_mul_of_nonneg_left f2 n1
    have k2 := mul_le_mul_of_nonneg_left f1 n2
    rw [← abs_neg]
    have e2 : -((m : ℝ) * φ - n' * 2 ^ N) = m * (-φ) - ((-n' : ℤ) : ℝ) * 2 ^ N := by push_cast; ring
    rw [e2]
    refine dio_core (p1 := -p1) (q1 := q1) (p2 := -p2) (q2 := q2) ?_ (by omega) hm hm3 ?_ ?_ d0
    · have : (p1 : ℤ) * q2 = p2 * q1 + 1 := by exact_mod_cast a1
      linarith
    · push_cast; linarith
    · push_cast; linarith

theorem slice_real (A sh : ℕ) {B : ℝ} (h1 : (A : ℝ) ≤ B) (h2 : B ≤ A + 1) : ((A >>> sh : ℕ) : ℝ) ≤ B / 2 ^ sh ∧ B / 2 ^ sh ≤ (A >>> sh : ℕ) + 1 := by
  rw [Nat.shiftRight_eq_div_pow]
  have hp : (0 : ℝ) < 2 ^ sh := by positivity
  have e : A = 2 ^ sh * (A / 2 ^ sh) + A % 2 ^ sh := (Nat.div_add_mod _ _).symm
  have hl : A % 2 ^ sh + 1 ≤ 2 ^ sh := Nat.mod_lt _ (by positivity)
  have er : (A : ℝ) = 2 ^ sh * (A / 2 ^ sh : ℕ) + (A % 2 ^ sh : ℕ) := by exact_mod_cast e
  have hlr : ((A % 2 ^ sh : ℕ) : ℝ) + 1 ≤ 2 ^ sh := by exact_mod_cast hl
  have h0 : (0 : ℝ) ≤ (A % 2 ^ sh : ℕ) := Nat.cast_nonneg _
  rw [le_div_iff₀ hp, div_le_iff₀ hp]
  constructor <;> nlinarith

/-- the bits of `8/π * 2^(s+100)` -/
def bits8 (s : ℕ) : ℕ := (2 ^ (2048 + 1) + fracTable) >>> (1948 - s)

theorem bits8_gen (r p : ℝ) (hr : 0 < r) (T a b c : ℕ) (hA : (T : ℝ) / r ^ a ≤ 8 / p - 2 ∧ 8 / p - 2 < (T + 1) / r ^ a) (h : c + b = a) (h2 : r = 2) :
    (((2 ^ (a + 1) + T) >>> b : ℕ) : ℝ) ≤ 8 / p * 2 ^ c ∧ 8 / p * 2 ^ c ≤ (((2 ^ (a + 1) + T) >>> b : ℕ) : ℝ) + 1 := by
  have hp : (0 : ℝ) < r ^ a := by positivity
  obtain ⟨h3, h4⟩ := hA
  rw [div_le_iff₀ hp] at h3
  rw [lt_div_iff₀ hp] at h4
  subst h2
  have k1 : (((2 ^ (a + 1) + T : ℕ)) : ℝ) ≤ 8 / p * 2 ^ a := by push_cast; rw [pow_succ]; linarith
  have k2 : 8 / p * 2 ^ a ≤ ((2 ^ (a + 1) + T : ℕ) : ℝ) + 1 := by push_cast; rw [pow_succ]; linarith
  have := slice_real (2 ^ (a + 1) + T) b k1 k2
  have e : 8 / p * 2 ^ a / 2 ^ b = 8 / p * (2 : ℝ) ^ c := by
    rw [← h, pow_add]; field_simp
  rwa [e] at this

theorem bits8_spec {s : ℕ} (hs : s ≤ 1948) : (bits8 s : ℝ) ≤ 8 / Real.pi * 2 ^ (s + 100) ∧ 8 / Real.pi * 2 ^ (s + 100) ≤ bits8 s + 1 := by
  unfold bits8
  exact bits8_gen 2 Real.pi (by norm_num) fracTable 2048 (1948 - s) (s + 100) table_spec (by omega) rfl

/-- exponents from `2^-58` to `2^971` and 53-bit significands: `D` for the large arguments -/
theorem dio64_all : ∀ s < 1027, dioChk (2 ^ 53) (2 ^ 98) 160 (bits8 (s + 3)) = true := by decide +kernel

/-- the same for arguments below `2^20` -/
theorem dio64_small : ∀ s < 23, dioChk (2 ^ 53) (2 ^ (84 + s)) 160 (bits8 (s + 3)) = true := by decide +kernel

theorem dio32_all : ∀ s < 131, dioChk (2 ^ 24) (2 ^ 130) 160 (bits8 (s + 32)) = true := by decide +kernel

theorem dio32_small : ∀ s < 21, dioChk (2 ^ 24) (2 ^ (115 + s)) 160 (bits8 (s + 32)) = true := by decide +kernel

theorem dio_val {M D s : ℕ} (hs : s ≤ 1948) (hc : dioChk M D 160 (bits8 s) = true) {a : ℤ} (ha : a ≠ 0) (ha2 : |a| ≤ M) (n : ℤ) :
    (D : ℝ) / 2 ^ 160 * (Real.pi / 2) ≤ |(a : ℝ) * (2 : ℝ) ^ ((s : ℤ) - 58) - n * (Real.pi / 2)| := by
  have hpi := Real.pi_pos
  obtain ⟨b1, b2⟩ := bits8_spec hs
  have key : (D : ℝ) ≤ |(a : ℝ) * (8 / Real.pi * 2 ^ (s + 100)) - n * 2 ^ 160| := by
    rcases lt_or_gt_of_ne ha with h | h
    · have := dio_spec hc b1 b2 (m := -a) (n := -n) (by omega) (by rw [← abs_of_neg h]; exact ha2)
      rw [← abs_neg]
      refine le_trans this (le_of_eq ?_)
      congr 1; push_cast; ring
    · exact dio_spec hc b1 b2 h (by rw [← abs_of_pos h]; exact ha2)
  have e : (a : ℝ) * (2 : ℝ) ^ ((s : ℤ) - 58) - n * (Real.pi / 2) = ((a : ℝ) * (8 / Real.pi * 2 ^ (s + 100)) - n * 2 ^ 160) * (Real.pi / 2 / 2 ^ 160) := by
    have e1 : (2 : ℝ) ^ ((s : ℤ) - 58) = 2 ^ (s + 100) / 2 ^ 158 := by
      rw [eq_div_iff (by positivity), ← zpow_natCast, ← zpow_natCast, ← zpow_add₀ (by norm_num)]
      congr 1; push_cast; ring
    rw [e1]
    generalize (2 : ℝ) ^ (s + 100) = w
    field_simp
    ring
  rw [e, abs_mul, abs_of_pos (by positivity : 0 < Real.pi / 2 / 2 ^ 160)]
  have := mul_le_mul_of_nonneg_right key (by positivity : 0 ≤ Real.pi / 2 / 2 ^ 160)
  refine le_trans (le_of_eq ?_) this
  ring

/-- a double of magnitude at least `1/8` is not closer than `2^-62 * π/2` to a multiple of `π/2` -/
theorem halfpi64 {x : ℕ} (hx : binary64.Finite x) (hb : 1 / 8 ≤ |binary64.val x|) (n : ℤ) :
    1 / 2 ^ 62 * (Real.pi / 2) ≤ |binary64.val x - n * (Real.pi / 2)| := by
  have c1 : -55 ≤ binary64.ce x := by
    refine binary64.le_ce_of (le_trans (le_of_eq ?_) hb)
    rw [show (-55 : ℤ) + (binary64.F : ℤ) = -3 by decide +kernel]; norm_num
  have c2 : binary64.ce x ≤ 971 := le_trans (binary64.ce_le_max hx) (by decide +kernel)
  obtain ⟨a, ea, ha, -⟩ := binary64.val_ce x
  have ha0 : a ≠ 0 := by
    rintro rfl
    rw [ea] at hb; norm_num at hb
  obtain ⟨s, hs⟩ : ∃ s : ℕ, (s : ℤ) = binary64.ce x + 55 := ⟨(binary64.ce x + 55).toNat, by omega⟩
  have := dio_val (s := s + 3) (by omega) (dio64_all s (by omega)) ha0 (le_trans ha.le (by decide +kernel)) n
  rw [show ((s + 3 : ℕ) : ℤ) - 58 = binary64.ce x by omega, ← ea] at this
  refine le_trans (le_of_eq ?_) this
  norm_num

/-- a double in `[1/8, 2^20)` is not closer than `2^-74 * |x| * π/2` to a multiple of `π/2` -/
theorem halfpi64_small {x : ℕ} (hx : binary64.Finite x) (hb : 1 / 8 ≤ |binary64.val x|) (hb2 : |binary64.val x| < 2 ^ 20) (n : ℤ) :
    1 / 2 ^ 74 * |binary64.val x| * (Real.pi / 2) ≤ |binary64.val x - n * (Real.pi / 2)| := by
  have c1 : -55 ≤ binary64.ce x := by
    refine binary64.le_ce_of (le_trans (le_of_eq ?_) hb)
    rw [show (-55 : ℤ) + (binary64.F : ℤ) = -3 by decide +kernel]; norm_num
  have c2 : binary64.ce x ≤ -33 := by
    refine binary64.ce_le_of (by decide +kernel) ?_
    rw [show (-33 : ℤ) + (binary64.F : ℤ) + 1 = ((20 : ℕ) : ℤ) by decide +kernel, zpow_natCast]; exact hb2
  obtain ⟨a, ea, ha, -⟩ := binary64.val_ce x
  have ha0 : a ≠ 0 := by
    rintro rfl
    rw [ea] at hb; norm_num at hb
  obtain ⟨s, hs⟩ : ∃ s : ℕ, (s : ℤ) = binary64.ce x + 55 := ⟨(binary64.ce x + 55).toNat, by omega⟩
  have := dio_val (s := s + 3) (by omega) (dio64_small s (by omega)) ha0 (le_trans ha.le (by decide +kernel)) n
  rw [show ((s + 3 : ℕ) : ℤ) - 58 = binary64.ce x by omega, ← ea] at this
  refine le_trans (mul_le_mul_of_nonneg_right ?_ (by positivity)) this
  have h3 := (binary64.abs_val_lt_ce x).le
  have e : binary64.ce x + (binary64.F : ℤ) + 1 = (s : ℤ) - 2 := by
    have : (binary64.F : ℤ) = 52 := rfl
    omega
  rw [e, zpow_sub₀ (by norm_num), zpow_natCast] at h3
  have e2 : (((2 ^ (84 + s) : ℕ) : ℝ)) / 2 ^ 160 = 1 / 2 ^ 74 * ((2 : ℝ) ^ s / 2 ^ (2 : ℤ)) := by
    push_cast; rw [pow_add]; generalize (2 : ℝ) ^ s = w; norm_num; ring
  rw [e2]
  exact mul_le_mul_of_nonneg_left h3 (by norm_num)

theorem halfpi32 {x : ℕ} (hx : binary32.Finite x) (hb : 1 / 8 ≤ |binary32.val x|) (n : ℤ) :
    1 / 2 ^ 30 * (Real.pi / 2) ≤ |binary32.val x - n * (Real.pi / 2)| := by
  have c1 : -26 ≤ binary32.ce x := by
    refine binary32.le_ce_of (le_trans (le_of_eq ?_) hb)
    rw [show (-26 : ℤ) + (binary32.F : ℤ) = -3 by decide +kernel]; norm_num
  have c2 : binary32.ce x ≤ 104 := le_trans (binary32.ce_le_max hx) (by decide +kernel)
  obtain ⟨a, ea, ha, -⟩ := binary32.val_ce x
  have ha0 : a ≠ 0 := by
    rintro rfl
    rw [ea] at hb; norm_num at hb
  obtain ⟨s, hs⟩ : ∃ s : ℕ, (s : ℤ) = binary32.ce x + 26 := ⟨(binary32.ce x + 26).toNat, by omega⟩
  have := dio_val (s := s + 32) (by omega) (dio32_all s (by omega)) ha0 (le_trans ha.le (by decide +kernel)) n
  rw [show ((s + 32 : ℕ) : ℤ) - 58 = binary32.ce x by omega, ← ea] at this
  refine le_trans (le_of_eq ?_) this
  norm_num

theorem halfpi32_small {x : ℕ} (hx : binary32.Finite x) (hb : 1 / 8 ≤ |binary32.val x|) (hb2 : |binary32.val x| < 2 ^ 18) (n : ℤ) :
    1 / 2 ^ 43 * |binary32.val x| * (Real.pi / 2) ≤ |binary32.val x - n * (Real.pi / 2)| := by
  have c1 : -26 ≤ binary32.ce x := by
    refine binary32.le_ce_of (le_trans (le_of_eq ?_) hb)
    rw [show (-26 : ℤ) + (binary32.F : ℤ) = -3 by decide +kernel]; norm_num
  have c2 : binary32.ce x ≤ -6 := by
    refine binary32.ce_le_of (by decide +kernel) ?_
    rw [show (-6 : ℤ) + (binary32.F : ℤ) + 1 = ((18 : ℕ) : ℤ) by decide +kernel, zpow_natCast]; exact hb2
  obtain ⟨a, ea, ha, -⟩ := binary32.val_ce x
  have ha0 : a ≠ 0 := by
    rintro rfl
    rw [ea] at hb; norm_num at hb
  obtain ⟨s, hs⟩ : ∃ s : ℕ, (s : ℤ) = binary32.ce x + 26 := ⟨(binary32.ce x + 26).toNat, by omega⟩
  have := dio_val (s := s + 32) (by omega) (dio32_small s (by omega)) ha0 (le_trans ha.le (by decide +kernel)) n
  rw [show ((s + 32 : ℕ) : ℤ) - 58 = binary32.ce x by omega, ← ea] at this
  refine le_trans (mul_le_mul_of_nonneg_right ?_ (by positivity)) this
  have h3 := (binary32.abs_val_lt_ce x).le
  have e : binary32.ce x + (binary32.F : ℤ) + 1 = (s : ℤ) - 2 := by
    have : (binary32.F : ℤ) = 23 := rfl
    omega
  rw [e, zpow_sub₀ (by norm_num), zpow_natCast] at h3
  have e2 : (((2 ^ (115 + s) : ℕ) : ℝ)) / 2 ^ 160 = 1 / 2 ^ 43 * ((2 : ℝ) ^ s / 2 ^ (2 : ℤ)) := by
    push_cast; rw [pow_add]; generalize (2 : ℝ) ^ s = w; norm_num; ring
  rw [e2]
  exact mul_le_mul_of_nonneg_left h3 (by norm_num)

end Verif
