import Verif.Fmt
import Mathlib.Data.Nat.Log
import Mathlib.Tactic.FieldSimp
import Mathlib.Tactic.Positivity
import Mathlib.Algebra.Order.Floor.Semiring
import Mathlib.Algebra.Order.Archimedean.Basic
import Mathlib.Order.Monotone.Basic

/-!
# The grid of representable magnitudes

`umag n` is the magnitude with pattern `n` in units of the least subnormal number.  It extends
naturally beyond the pattern of infinity, which is how "round as if the exponent range were
unbounded, then check for overflow" is expressed.
-/

namespace Verif
namespace Fmt
variable (f : Fmt)

/-- exponent part of a magnitude pattern: number of zero bits appended to the significand -/
def gk (n : ℕ) : ℕ := n / 2 ^ f.F - 1
/-- significand (with hidden bit) of a magnitude pattern -/
def gs (n : ℕ) : ℕ := n - f.gk n * 2 ^ f.F
/-- magnitude in units of the least subnormal number -/
def umag (n : ℕ) : ℕ := f.gs n * 2 ^ f.gk n

theorem two_pow_F_pos : 0 < 2 ^ f.F := Nat.pow_pos (by decide)

theorem gk_mul_le (n : ℕ) : f.gk n * 2 ^ f.F ≤ n := by
  unfold gk
  calc (n / 2 ^ f.F - 1) * 2 ^ f.F ≤ (n / 2 ^ f.F) * 2 ^ f.F := Nat.mul_le_mul_right _ (Nat.sub_le _ _)
    _ ≤ n := Nat.div_mul_le_self _ _

theorem gk_gs (n : ℕ) : f.gk n * 2 ^ f.F + f.gs n = n := by
  have := f.gk_mul_le n
  unfold gs; omega

theorem gs_lt (n : ℕ) : f.gs n < 2 ^ (f.F + 1) := by
  have h := Nat.div_add_mod n (2 ^ f.F)
  have h2 := Nat.mod_lt n f.two_pow_F_pos
  have hp : 2 ^ (f.F + 1) = 2 * 2 ^ f.F := by rw [pow_succ]; ring
  unfold gs gk
  rw [hp]
  rcases Nat.eq_zero_or_pos (n / 2 ^ f.F) with h0 | h0
  · rw [h0] at h ⊢; simp only [Nat.zero_sub, Nat.zero_mul]; omega
  · obtain ⟨j, hj⟩ : ∃ j, n / 2 ^ f.F = j + 1 := ⟨n / 2 ^ f.F - 1, by omega⟩
    rw [hj] at h ⊢
    rw [Nat.add_sub_cancel]
    have : 2 ^ f.F * (j + 1) = j * 2 ^ f.F + 2 ^ f.F := by ring
    omega

theorem gs_ge (n : ℕ) (h : f.gk n ≠ 0) : 2 ^ f.F ≤ f.gs n := by
  have h1 := Nat.div_add_mod n (2 ^ f.F)
  unfold gs gk at *
  obtain ⟨j, hj⟩ : ∃ j, n / 2 ^ f.F = j + 1 := ⟨n / 2 ^ f.F - 1, by omega⟩
  rw [hj] at h1 ⊢
  rw [Nat.add_sub_cancel]
  have : 2 ^ f.F * (j + 1) = j * 2 ^ f.F + 2 ^ f.F := by ring
  omega

theorem gk_of {k s : ℕ} (hs : s < 2 ^ (f.F + 1)) (h : k = 0 ∨ 2 ^ f.F ≤ s) :
    f.gk (k * 2 ^ f.F + s) = k := by
  have hp : 2 ^ (f.F + 1) = 2 * 2 ^ f.F := by rw [pow_succ]; ring
  unfold gk
  rw [Nat.add_comm, Nat.add_mul_div_right _ _ f.two_pow_F_pos]
  rcases h with rfl | h
  · have : s / 2 ^ f.F < 2 := Nat.div_lt_of_lt_mul (by omega)
    omega
  · have h1 : s / 2 ^ f.F < 2 := Nat.div_lt_of_lt_mul (by omega)
    have h2 : 1 ≤ s / 2 ^ f.F := (Nat.one_le_div_iff f.two_pow_F_pos).2 h
    omega

theorem gs_of {k s : ℕ} (hs : s < 2 ^ (f.F + 1)) (h : k = 0 ∨ 2 ^ f.F ≤ s) :
    f.gs (k * 2 ^ f.F + s) = s := by
  unfold gs; rw [f.gk_of hs h]; omega

theorem umag_of {k s : ℕ} (hs : s < 2 ^ (f.F + 1)) (h : k = 0 ∨ 2 ^ f.F ≤ s) :
    f.umag (k * 2 ^ f.F + s) = s * 2 ^ k := by
  unfold umag; rw [f.gs_of hs h, f.gk_of hs h]

theorem umag_succ (n : ℕ) : f.umag (n + 1) = f.umag n + 2 ^ f.gk n := by
  have hn := f.gk_gs n
  have hlt := f.gs_lt n
  have hge := f.gs_ge n
  have hp : 2 ^ (f.F + 1) = 2 * 2 ^ f.F := by rw [pow_succ]; ring
  by_cases h : f.gs n + 1 < 2 ^ (f.F + 1)
  · have : n + 1 = f.gk n * 2 ^ f.F + (f.gs n + 1) := by omega
    rw [this, f.umag_of h (by by_cases h0 : f.gk n = 0 <;> [left; right] <;> [exact h0; exact (by have := hge h0; omega)])]
    unfold umag; ring
  · have h1 : f.gs n + 1 = 2 ^ (f.F + 1) := by omega
    have : n + 1 = (f.gk n + 1) * 2 ^ f.F + 2 ^ f.F := by
      have : (f.gk n + 1) * 2 ^ f.F = f.gk n * 2 ^ f.F + 2 ^ f.F := by ring
      omega
    rw [this, f.umag_of (by have := f.two_pow_F_pos; omega) (Or.inr le_rfl)]
    unfold umag
    have h3 : f.gs n = 2 * 2 ^ f.F - 1 := by omega
    have h4 : 2 ^ f.F * 2 ^ (f.gk n + 1) = (f.gs n + 1) * 2 ^ f.gk n := by
      rw [h1, hp, pow_succ]; ring
    rw [h4]; ring

theorem umag_lt_succ (n : ℕ) : f.umag n < f.umag (n + 1) := by
  rw [umag_succ]; have : 0 < 2 ^ f.gk n := Nat.pow_pos (by decide); omega

theorem umag_strictMono : StrictMono f.umag := strictMono_nat_of_lt_succ f.umag_lt_succ

theorem umag_lt_iff {a b : ℕ} : f.umag a < f.umag b ↔ a < b := f.umag_strictMono.lt_iff_lt
theorem umag_le_iff {a b : ℕ} : f.umag a ≤ f.umag b ↔ a ≤ b := f.umag_strictMono.le_iff_le
theorem umag_inj {a b : ℕ} : f.umag a = f.umag b ↔ a = b := f.umag_strictMono.injective.eq_iff

@[simp] theorem umag_zero : f.umag 0 = 0 := by simp [umag, gs, gk]

theorem umag_small {n : ℕ} (h : n < 2 ^ (f.F + 1)) : f.umag n = n := by
  have := f.umag_of (k := 0) h (Or.inl rfl)
  simpa using this

/-- pattern of the largest magnitude not above `q` units -/
def floorIdx (q : ℕ) : ℕ := (q.log2 - f.F) * 2 ^ f.F + q / 2 ^ (q.log2 - f.F)

theorem floorIdx_aux (q : ℕ) : q / 2 ^ (q.log2 - f.F) < 2 ^ (f.F + 1) ∧
    (q.log2 - f.F = 0 ∨ 2 ^ f.F ≤ q / 2 ^ (q.log2 - f.F)) := by
  rcases Nat.eq_zero_or_pos q with rfl | hq
  · simp
  · have h1 : 2 ^ q.log2 ≤ q := Nat.log2_self_le (by omega)
    have h2 : q < 2 ^ (q.log2 + 1) := Nat.lt_log2_self
    constructor
    · apply Nat.div_lt_of_lt_mul
      rw [← pow_add]
      exact lt_of_lt_of_le h2 (Nat.pow_le_pow_right (by decide) (by omega))
    · by_cases h : q.log2 - f.F = 0
      · left; exact h
      · right
        rw [Nat.le_div_iff_mul_le (Nat.pow_pos (by decide)), ← pow_add]
        exact le_trans (Nat.pow_le_pow_right (by decide) (by omega)) h1

theorem umag_floorIdx_eq (q : ℕ) :
    f.umag (f.floorIdx q) = q / 2 ^ (q.log2 - f.F) * 2 ^ (q.log2 - f.F) :=
  f.umag_of (f.floorIdx_aux q).1 (f.floorIdx_aux q).2

theorem gk_floorIdx (q : ℕ) : f.gk (f.floorIdx q) = q.log2 - f.F :=
  f.gk_of (f.floorIdx_aux q).1 (f.floorIdx_aux q).2

theorem umag_floorIdx_le (q : ℕ) : f.umag (f.floorIdx q) ≤ q := by
  rw [umag_floorIdx_eq]; exact Nat.div_mul_le_self _ _

theorem lt_umag_floorIdx_succ (q : ℕ) : q < f.umag (f.floorIdx q + 1) := by
  rw [umag_succ, gk_floorIdx, umag_floorIdx_eq]
  have h := Nat.div_add_mod q (2 ^ (q.log2 - f.F))
  have h2 := Nat.mod_lt q (y := 2 ^ (q.log2 - f.F)) (Nat.pow_pos (by decide))
  rw [Nat.mul_comm] at h
  omega

/-- `n` is the pattern of the largest magnitude not above the real number `t` (in units). -/
def IsFloor (t : ℝ) (n : ℕ) : Prop := (f.umag n : ℝ) ≤ t ∧ t < (f.umag (n + 1) : ℝ)

theorem isFloor_floorIdx {t : ℝ} (ht : 0 ≤ t) : f.IsFloor t (f.floorIdx ⌊t⌋₊) := by
  constructor
  · exact le_trans (by exact_mod_cast f.umag_floorIdx_le _) (Nat.floor_le ht)
  · have h := f.lt_umag_floorIdx_succ ⌊t⌋₊
    calc t < (⌊t⌋₊ : ℝ) + 1 := Nat.lt_floor_add_one t
      _ ≤ _ := by exact_mod_cast h

theorem IsFloor.unique {t : ℝ} {a b : ℕ} (ha : f.IsFloor t a) (hb : f.IsFloor t b) : a = b := by
  have h1 : (f.umag a : ℝ) < f.umag (b + 1) := lt_of_le_of_lt ha.1 hb.2
  have h2 : (f.umag b : ℝ) < f.umag (a + 1) := lt_of_le_of_lt hb.1 ha.2
  have h1' := f.umag_lt_iff.1 (by exact_mod_cast h1)
  have h2' := f.umag_lt_iff.1 (by exact_mod_cast h2)
  omega

/-- Direction of rounding for magnitudes. -/
inductive Kind where
  | nearest | trunc | away
  deriving DecidableEq

/-- kind of magnitude rounding for a mode and a sign -/
def kind (m : Mode) (s : Bool) : Kind :=
  match m, s with
  | .nearest, _ => .nearest
  | .zero, _ => .trunc
  | .down, false => .trunc
  | .down, true => .away
  | .up, false => .away
  | .up, true => .trunc

/-- `n` is the rounding of the magnitude `t` (units) as if the exponent range were unbounded. -/
def RndMag (k : Kind) (t : ℝ) (n : ℕ) : Prop :=
  ∃ n0, f.IsFloor t n0 ∧
    match k with
    | .trunc => n = n0
    | .away => n = if t = f.umag n0 then n0 else n0 + 1
    | .nearest =>
        (2 * t < f.umag n0 + f.umag (n0 + 1) ∧ n = n0) ∨
        (2 * t = f.umag n0 + f.umag (n0 + 1) ∧ n = n0 + n0 % 2) ∨
        ((f.umag n0 : ℝ) + f.umag (n0 + 1) < 2 * t ∧ n = n0 + 1)

/-- overflow handling -/
def cap (k : Kind) (n : ℕ) : ℕ :=
  if n < f.infMag then n else match k with
    | .trunc => f.infMag - 1
    | _ => f.infMag

theorem RndMag.unique {k : Kind} {t : ℝ} {a b : ℕ} (ha : f.RndMag k t a) (hb : f.RndMag k t b) : a = b := by
  obtain ⟨i, hi, ha⟩ := ha
  obtain ⟨j, hj, hb⟩ := hb
  obtain rfl := IsFloor.unique f hi hj
  cases k
  · simp only at ha hb
    rcases ha with ⟨h, rfl⟩ | ⟨h, rfl⟩ | ⟨h, rfl⟩ <;> rcases hb with ⟨h', rfl⟩ | ⟨h', rfl⟩ | ⟨h', rfl⟩ <;>
      first | rfl | (exfalso; linarith)
  · simp only at ha hb; rw [ha, hb]
  · simp only at ha hb; rw [ha, hb]

end Fmt
end Verif
