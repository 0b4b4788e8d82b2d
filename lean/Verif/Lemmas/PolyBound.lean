import Mathlib.Data.Real.Archimedean
import Mathlib.Tactic.Ring
import Mathlib.Tactic.Linarith
import Mathlib.Algebra.Order.Floor.Ring
import Mathlib.Algebra.Order.Round
import Mathlib.Data.Int.Order.Basic
import Mathlib.Tactic.Positivity

/-!
# Bounds for integer polynomials on an interval, by kernel evaluation

`pev p y` is the polynomial with coefficients `p` (constant term first) at `y`. `pshift m p` are the coefficients of `p(m + t)` in `t`; on `|t| ≤ 1` the sum of their
absolute values bounds the polynomial. Splitting `[0, 2K]` into `K` intervals of half width 1 gives tight bounds after scaling.
-/

namespace Verif

/-- value of a polynomial given by its integer coefficients -/
def pev : List ℤ → ℝ → ℝ
  | [], _ => 0
  | a :: p, y => a + y * pev p y

/-- coefficients of `a + (m + t) q(t)`, with `c` the carry from the previous coefficient -/
def pmul (m : ℤ) : ℤ → List ℤ → List ℤ
  | c, [] => [c]
  | c, a :: q => (c + m * a) :: pmul m a q

theorem pev_pmul (m : ℤ) (t : ℝ) (q : List ℤ) : ∀ c, pev (pmul m c q) t = c + (m + t) * pev q t := by
  induction q with
  | nil => intro c; simp [pmul, pev]
  | cons a q ih =>
    intro c
    simp only [pmul, pev, ih]
    push_cast
    ring

/-- coefficients of `p(m + t)` -/
def pshift (m : ℤ) : List ℤ → List ℤ
  | [] => []
  | a :: p => pmul m a (pshift m p)

theorem pev_pshift (m : ℤ) (t : ℝ) (p : List ℤ) : pev (pshift m p) t = pev p (m + t) := by
  induction p with
  | nil => rfl
  | cons a p ih => simp only [pshift, pev_pmul, pev, ih]

/-- sum of the absolute values of the coefficients -/
def pabs : List ℤ → ℕ
  | [] => 0
  | a :: p => a.natAbs + pabs p

theorem abs_pev_le (p : List ℤ) {t : ℝ} (ht : |t| ≤ 1) : |pev p t| ≤ (pabs p : ℝ) := by
  induction p with
  | nil => simp [pev, pabs]
  | cons a p ih =>
    simp only [pev, pabs]
    have h1 : |(a : ℝ)| = (a.natAbs : ℝ) := by rw [Nat.cast_natAbs, Int.cast_abs]
    have h2 : |t * pev p t| ≤ 1 * (pabs p : ℝ) := by
      rw [abs_mul]; exact mul_le_mul ht ih (abs_nonneg _) (by norm_num)
    calc |(a : ℝ) + t * pev p t| ≤ |(a : ℝ)| + |t * pev p t| := abs_add_le _ _
      _ ≤ (a.natAbs : ℝ) + 1 * (pabs p : ℝ) := by rw [h1]; linarith
      _ = _ := by push_cast; ring

/-- the check: on each of the `K` intervals `[2i, 2i + 2]` the sum of the shifted coefficients is at most `B` -/
def pcheck (p : List ℤ) (B : ℕ) : ℕ → Bool
  | 0 => true
  | K + 1 => pcheck p B K && Nat.ble (pabs (pshift (2 * (K : ℤ) + 1) p)) B

theorem pcheck_get {p : List ℤ} {B : ℕ} : ∀ {K : ℕ}, pcheck p B K = true → ∀ i < K, pabs (pshift (2 * (i : ℤ) + 1) p) ≤ B := by
  intro K
  induction K with
  | zero => intro _ i hi; omega
  | succ K ih =>
    intro h i hi
    simp only [pcheck, Bool.and_eq_true] at h
    rcases Nat.lt_succ_iff_lt_or_eq.1 hi with h1 | h1
    · exact ih h.1 i h1
    · rw [h1]; exact Nat.le_of_ble_eq_true h.2

theorem pcheck_sound {p : List ℤ} {B K : ℕ} (h : pcheck p B K = true) {y : ℝ} (h0 : 0 ≤ y) (h1 : y ≤ 2 * K) (hK : 0 < K) : |pev p y| ≤ B := by
  obtain ⟨i, hi, h2, h3⟩ : ∃ i : ℕ, i < K ∧ (2 * i : ℝ) ≤ y ∧ y ≤ 2 * i + 2 := by
    rcases lt_or_eq_of_le h1 with h1 | h1
    · refine ⟨⌊y / 2⌋₊, ?_, ?_, ?_⟩
      · rw [Nat.floor_lt (by positivity)]; linarith
      · have := Nat.floor_le (show 0 ≤ y / 2 by positivity); linarith
      · have := Nat.lt_floor_add_one (y / 2); linarith
    · refine ⟨K - 1, by omega, ?_, ?_⟩ <;> rw [h1, Nat.cast_sub (by omega)] <;> push_cast <;> linarith
  have h4 := abs_pev_le (pshift (2 * (i : ℤ) + 1) p) (t := y - (2 * i + 1)) (by rw [abs_le]; constructor <;> linarith)
  rw [pev_pshift] at h4
  have e : (((2 * (i : ℤ) + 1 : ℤ) : ℝ) + (y - (2 * i + 1))) = y := by push_cast; ring
  rw [e] at h4
  exact le_trans h4 (by exact_mod_cast pcheck_get h i hi)

end Verif
