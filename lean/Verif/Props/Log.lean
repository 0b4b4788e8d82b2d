import Verif.Lemmas.LogH
import Verif.Lemmas.Basic

/-!
# Properties of the logarithms (C72 to C78)

`md` is the rounding mode; the relative error of one rounding is `2^-53` to nearest and `2^-52` in a directed mode (double), `2^-24` and `2^-23` (float).
`0x7FF8000000000000` is the canonical NaN of a double.
-/

namespace Verif
open Fmt Real

theorem logPos64 {impl : ℕ → ℕ} {x : ℕ} (hx : binary64.Finite x) (h : 0 < binary64.val x) (h1 : impl 0x3FF0000000000000 = 0) :
    CC.logTests binary64 impl x = impl x ∧ CC.log2Tests binary64 impl x = impl x := by
  obtain ⟨a, b⟩ := logTests_pos binary64 (impl := impl) hx h (by rw [one64]; exact fval_one64.1) (by rw [one64]; exact fval_one64.2)
  by_cases hv : binary64.val x = 1
  · have : x = 0x3FF0000000000000 := pos_inj64 hx fval_one64.1 (by rw [hv, fval_one64.2]) h
    obtain ⟨c, d⟩ := b hv
    rw [c, d, this, h1]
    exact ⟨rfl, rfl⟩
  · exact a hv

theorem logPos32 {impl : ℕ → ℕ} {x : ℕ} (hx : binary32.Finite x) (h : 0 < binary32.val x) (h1 : impl 0x3F800000 = 0) :
    CC.logTests binary32 impl x = impl x ∧ CC.log2Tests binary32 impl x = impl x := by
  obtain ⟨a, b⟩ := logTests_pos binary32 (impl := impl) hx h (by rw [one32]; exact fval_one32.1) (by rw [one32]; exact fval_one32.2)
  by_cases hv : binary32.val x = 1
  · have : x = 0x3F800000 := pos_inj32 hx fval_one32.1 (by rw [hv, fval_one32.2]) h
    obtain ⟨c, d⟩ := b hv
    rw [c, d, this, h1]
    exact ⟨rfl, rfl⟩
  · exact a hv

theorem logDouble_pos (md : Mode) {x : ℕ} (hx : binary64.Finite x) (h : 0 < binary64.val x) : CC.logDouble md x = CC.logDoubleImpl md x :=
  (logPos64 hx h (by unfold CC.logDoubleImpl; simp)).1
theorem log2Double_pos (md : Mode) {x : ℕ} (hx : binary64.Finite x) (h : 0 < binary64.val x) : CC.log2Double md x = CC.log2DoubleImpl md x :=
  (logPos64 hx h (by unfold CC.log2DoubleImpl; simp)).2
theorem logFloat_pos (md : Mode) {x : ℕ} (hx : binary32.Finite x) (h : 0 < binary32.val x) : CC.logFloat md x = CC.logFloatImpl md x :=
  (logPos32 hx h (by unfold CC.logFloatImpl; simp)).1
theorem log2Float_pos (md : Mode) {x : ℕ} (hx : binary32.Finite x) (h : 0 < binary32.val x) : CC.log2Float md x = CC.log2FloatImpl md x :=
  (logPos32 hx h (by unfold CC.log2FloatImpl; simp)).2

/-- a relative error below 1 keeps the sign -/
theorem sign_of_rel {r l e : ℝ} (he : e < 1) (h : |r - l| ≤ e * |l|) : (0 < r ↔ 0 < l) ∧ (r < 0 ↔ l < 0) := by
  obtain ⟨h1, h2⟩ := abs_le.1 h
  rcases lt_trichotomy l 0 with g | g | g
  · rw [abs_of_neg g] at h1 h2
    have := mul_lt_mul_of_neg_right he g
    have : r < 0 := by linarith
    exact ⟨⟨fun _ => by linarith, fun _ => by linarith⟩, ⟨fun _ => g, fun _ => this⟩⟩
  · rw [g] at h1 h2 ⊢
    simp at h1 h2
    have : r = 0 := le_antisymm h2 h1
    rw [this]; simp
  · rw [abs_of_pos g] at h1 h2
    have := mul_lt_mul_of_pos_right he g
    have : 0 < r := by linarith
    exact ⟨⟨fun _ => g, fun _ => this⟩, ⟨fun _ => by linarith, fun _ => by linarith⟩⟩

theorem ru_eq (md : Mode) : ru md = if md = .nearest then 1 / 2 ^ 53 else 1 / 2 ^ 52 := rfl
theorem ruf_eq (md : Mode) : ruf md = if md = .nearest then 1 / 2 ^ 24 else 1 / 2 ^ 23 := rfl

/-! ### C72: `log` of double -/

/-- **C72**: for every positive finite double (subnormal ones included) and every rounding mode `log` is finite and within 1.25 roundings of the real logarithm. -/
theorem C72_log_accuracy (md : Mode) {x : ℕ} (hx : binary64.Finite x) (h : 0 < binary64.val x) :
    binary64.Finite (CC.logDouble md x) ∧
      |binary64.val (CC.logDouble md x) - Real.log (binary64.val x)| ≤ 1.25 * (if md = .nearest then 1 / 2 ^ 53 else 1 / 2 ^ 52) * |Real.log (binary64.val x)| := by
  rw [logDouble_pos md hx h, ← ru_eq]
  obtain ⟨a, b⟩ := logDoubleImpl_err md hx h
  exact ⟨a, b.trans (le_of_eq (by ring))⟩

-- log 2 and log of the least subnormal number
example : binary64.Finite 0x4000000000000000 ∧ CC.logDouble .nearest 0x4000000000000000 = 0x3FE62E42FEFA39EF := by decide +kernel
example : binary64.Finite 1 ∧ CC.logDouble .nearest 1 = 0xC0874385446D71C3 := by decide +kernel

/-- **C72**: the computed logarithm is positive exactly above 1 and negative exactly below 1. -/
theorem C72_log_sign (md : Mode) {x : ℕ} (hx : binary64.Finite x) (h : 0 < binary64.val x) :
    (0 < binary64.val (CC.logDouble md x) ↔ 1 < binary64.val x) ∧ (binary64.val (CC.logDouble md x) < 0 ↔ binary64.val x < 1) := by
  obtain ⟨-, b⟩ := C72_log_accuracy md hx h
  obtain ⟨c, d⟩ := sign_of_rel (by split_ifs <;> norm_num) b
  exact ⟨c.trans (Real.log_pos_iff h.le), d.trans (Real.log_neg_iff h)⟩

-- the neighbours of 1
example : CC.logDouble .up 0x3FF0000000000001 = 0x3CB0000000000000 ∧ CC.logDouble .down 0x3FEFFFFFFFFFFFFF = 0xBCA0000000000001 := by decide +kernel

/-- **C72**: special values. -/
theorem C72_log_special (md : Mode) :
    CC.logDouble md 0x3FF0000000000000 = 0 ∧ CC.logDouble md 0 = 0xFFF0000000000000 ∧ CC.logDouble md 0x8000000000000000 = 0xFFF0000000000000 ∧
      CC.logDouble md 0x7FF0000000000000 = 0x7FF0000000000000 ∧ binary64.IsNaN (CC.logDouble md 0xFFF0000000000000) ∧
      (∀ x, binary64.Finite x → binary64.val x < 0 → binary64.IsNaN (CC.logDouble md x)) ∧ ∀ x, binary64.IsNaN x → binary64.IsNaN (CC.logDouble md x) := by
  refine ⟨by cases md <;> decide +kernel, by cases md <;> decide +kernel, by cases md <;> decide +kernel, by cases md <;> decide +kernel,
    by cases md <;> decide +kernel, ?_, ?_⟩
  · intro x hx h
    unfold CC.logDouble
    rw [(logTests_neg binary64 hx h (by rw [one64]; exact fval_one64.1) (by rw [one64]; exact fval_one64.2)).1]
    decide +kernel
  · intro x hx
    unfold CC.logDouble
    rw [(logTests_nan binary64 hx).1]
    decide +kernel

example : binary64.Finite 0xBFF0000000000000 ∧ binary64.IsNaN (CC.logDouble .nearest 0xBFF0000000000000) ∧ binary64.IsNaN 0xFFF0000000000001 := by decide +kernel

/-! ### C73: `log2` of double -/

/-- **C73**: for every positive finite double and every rounding mode `log2` is finite and within 1.8 roundings of the real base-2 logarithm. -/
theorem C73_log2_accuracy (md : Mode) {x : ℕ} (hx : binary64.Finite x) (h : 0 < binary64.val x) :
    binary64.Finite (CC.log2Double md x) ∧
      |binary64.val (CC.log2Double md x) - Real.logb 2 (binary64.val x)| ≤ 1.8 * (if md = .nearest then 1 / 2 ^ 53 else 1 / 2 ^ 52) * |Real.logb 2 (binary64.val x)| := by
  rw [log2Double_pos md hx h, ← ru_eq]
  obtain ⟨a, b⟩ := log2DoubleImpl_err md hx h
  exact ⟨a, b.trans (le_of_eq (by ring))⟩

-- log2 10 and log2 of the least subnormal number
example : binary64.Finite 0x4024000000000000 ∧ CC.log2Double .nearest 0x4024000000000000 = 0x400A934F0979A371 := by decide +kernel
example : binary64.Finite 1 ∧ CC.log2Double .nearest 1 = 0xC090C80000000000 := by decide +kernel

/-- **C73**: the computed logarithm is positive exactly above 1 and negative exactly below 1. -/
theorem C73_log2_sign (md : Mode) {x : ℕ} (hx : binary64.Finite x) (h : 0 < binary64.val x) :
    (0 < binary64.val (CC.log2Double md x) ↔ 1 < binary64.val x) ∧ (binary64.val (CC.log2Double md x) < 0 ↔ binary64.val x < 1) := by
  obtain ⟨-, b⟩ := C73_log2_accuracy md hx h
  obtain ⟨c, d⟩ := sign_of_rel (by split_ifs <;> norm_num) b
  exact ⟨c.trans (Real.logb_pos_iff (by norm_num) h), d.trans (Real.logb_neg_iff (by norm_num) h)⟩

/-- **C73**: special values; a NaN argument is returned unchanged. -/
theorem C73_log2_special (md : Mode) :
    CC.log2Double md 0x3FF0000000000000 = 0 ∧ CC.log2Double md 0 = 0xFFF0000000000000 ∧ CC.log2Double md 0x8000000000000000 = 0xFFF0000000000000 ∧
      CC.log2Double md 0x7FF0000000000000 = 0x7FF0000000000000 ∧ binary64.IsNaN (CC.log2Double md 0xFFF0000000000000) ∧
      (∀ x, binary64.Finite x → binary64.val x < 0 → binary64.IsNaN (CC.log2Double md x)) ∧ ∀ x, binary64.IsNaN x → CC.log2Double md x = x := by
  refine ⟨by cases md <;> decide +kernel, by cases md <;> decide +kernel, by cases md <;> decide +kernel, by cases md <;> decide +kernel,
    by cases md <;> decide +kernel, ?_, ?_⟩
  · intro x hx h
    unfold CC.log2Double
    rw [(logTests_neg binary64 hx h (by rw [one64]; exact fval_one64.1) (by rw [one64]; exact fval_one64.2)).2]
    decide +kernel
  · intro x hx
    exact (logTests_nan binary64 hx).2

example : binary64.Finite 0xBFF0000000000000 ∧ binary64.IsNaN (CC.log2Double .nearest 0xBFF0000000000000) ∧ binary64.IsNaN 0xFFF0000000000001 := by decide +kernel

/-! ### C74: `log2` of the powers of two -/

/-- **C74** (partial: the double function only in round-to-nearest): the base-2 logarithm of every power of two, subnormal ones included, is exact. -/
theorem C74_log2_pow2_partial {x : ℕ} {k : ℤ} (hx : binary64.Finite x) (h : binary64.val x = (2 : ℝ) ^ k) :
    binary64.Finite (CC.log2Double .nearest x) ∧ binary64.val (CC.log2Double .nearest x) = k := by
  rw [log2Double_pos _ hx (by rw [h]; positivity)]
  exact log2DoubleImpl_pow2 hx h

-- 8
example : CC.log2Double .nearest 0x4020000000000000 = 0x4008000000000000 := by decide +kernel

/-- **C74**: the float function is exact at every power of two in every rounding mode. -/
theorem C74_log2f_pow2 (md : Mode) {x : ℕ} {k : ℤ} (hx : binary32.Finite x) (h : binary32.val x = (2 : ℝ) ^ k) :
    binary32.Finite (CC.log2Float md x) ∧ binary32.val (CC.log2Float md x) = k := by
  rw [log2Float_pos _ hx (by rw [h]; positivity)]
  exact log2FloatImpl_pow2 md hx h

-- 8 and the least subnormal number
example : CC.log2Float .up 0x41000000 = 0x40400000 ∧ CC.log2Float .down 1 = 0xC3150000 := by decide +kernel

/-- **C74**: in the directed modes the double function is not exact: `log2 8` upwards exceeds 3 and downwards is below 3. -/
theorem C74_log2_pow2_directed_wrong :
    CC.log2Double .up 0x4020000000000000 = 0x4008000000000001 ∧ CC.log2Double .down 0x4020000000000000 = 0x4007FFFFFFFFFFFF := by decide +kernel

/-! ### C75: `log` of float -/

/-- **C75**: for every positive finite float and every rounding mode `log` is finite and within 1.625 roundings of the real logarithm. -/
theorem C75_logf_accuracy (md : Mode) {x : ℕ} (hx : binary32.Finite x) (h : 0 < binary32.val x) :
    binary32.Finite (CC.logFloat md x) ∧
      |binary32.val (CC.logFloat md x) - Real.log (binary32.val x)| ≤ 1.625 * (if md = .nearest then 1 / 2 ^ 24 else 1 / 2 ^ 23) * |Real.log (binary32.val x)| := by
  rw [logFloat_pos md hx h, ← ruf_eq]
  obtain ⟨a, b⟩ := logFloatImpl_err md hx h
  exact ⟨a, b.trans (le_of_eq (by ring))⟩

example : binary32.Finite 0x40000000 ∧ CC.logFloat .nearest 0x40000000 = 0x3F317218 ∧ CC.logFloat .nearest 1 = 0xC2CE8ED0 := by decide +kernel

/-- **C75**: the computed logarithm is positive exactly above 1 and negative exactly below 1. -/
theorem C75_logf_sign (md : Mode) {x : ℕ} (hx : binary32.Finite x) (h : 0 < binary32.val x) :
    (0 < binary32.val (CC.logFloat md x) ↔ 1 < binary32.val x) ∧ (binary32.val (CC.logFloat md x) < 0 ↔ binary32.val x < 1) := by
  obtain ⟨-, b⟩ := C75_logf_accuracy md hx h
  obtain ⟨c, d⟩ := sign_of_rel (by split_ifs <;> norm_num) b
  exact ⟨c.trans (Real.log_pos_iff h.le), d.trans (Real.log_neg_iff h)⟩

/-- **C75**: special values. -/
theorem C75_logf_special (md : Mode) :
    CC.logFloat md 0x3F800000 = 0 ∧ CC.logFloat md 0 = 0xFF800000 ∧ CC.logFloat md 0x80000000 = 0xFF800000 ∧
      CC.logFloat md 0x7F800000 = 0x7F800000 ∧ binary32.IsNaN (CC.logFloat md 0xFF800000) ∧
      (∀ x, binary32.Finite x → binary32.val x < 0 → binary32.IsNaN (CC.logFloat md x)) ∧ ∀ x, binary32.IsNaN x → binary32.IsNaN (CC.logFloat md x) := by
  refine ⟨by cases md <;> decide +kernel, by cases md <;> decide +kernel, by cases md <;> decide +kernel, by cases md <;> decide +kernel,
    by cases md <;> decide +kernel, ?_, ?_⟩
  · intro x hx h
    unfold CC.logFloat
    rw [(logTests_neg binary32 hx h (by rw [one32]; exact fval_one32.1) (by rw [one32]; exact fval_one32.2)).1]
    decide +kernel
  · intro x hx
    unfold CC.logFloat
    rw [(logTests_nan binary32 hx).1]
    decide +kernel

example : binary32.Finite 0xBF800000 ∧ binary32.IsNaN (CC.logFloat .nearest 0xBF800000) ∧ binary32.IsNaN 0xFF800001 := by decide +kernel

/-! ### C76: `log2` of float -/

/-- **C76**: for every positive finite float and every rounding mode `log2` is finite and within 1.625 roundings of the real base-2 logarithm. -/
theorem C76_log2f_accuracy (md : Mode) {x : ℕ} (hx : binary32.Finite x) (h : 0 < binary32.val x) :
    binary32.Finite (CC.log2Float md x) ∧
      |binary32.val (CC.log2Float md x) - Real.logb 2 (binary32.val x)| ≤ 1.625 * (if md = .nearest then 1 / 2 ^ 24 else 1 / 2 ^ 23) * |Real.logb 2 (binary32.val x)| := by
  rw [log2Float_pos md hx h, ← ruf_eq]
  obtain ⟨a, b⟩ := log2FloatImpl_err md hx h
  exact ⟨a, b.trans (le_of_eq (by ring))⟩

example : binary32.Finite 0x41200000 ∧ CC.log2Float .nearest 0x41200000 = 0x40549A78 := by decide +kernel

/-- **C76**: the computed logarithm is positive exactly above 1 and negative exactly below 1. -/
theorem C76_log2f_sign (md : Mode) {x : ℕ} (hx : binary32.Finite x) (h : 0 < binary32.val x) :
    (0 < binary32.val (CC.log2Float md x) ↔ 1 < binary32.val x) ∧ (binary32.val (CC.log2Float md x) < 0 ↔ binary32.val x < 1) := by
  obtain ⟨-, b⟩ := C76_log2f_accuracy md hx h
  obtain ⟨c, d⟩ := sign_of_rel (by split_ifs <;> norm_num) b
  exact ⟨c.trans (Real.logb_pos_iff (by norm_num) h), d.trans (Real.logb_neg_iff (by norm_num) h)⟩

/-- **C76**: special values; a NaN argument is returned unchanged. -/
theorem C76_log2f_special (md : Mode) :
    CC.log2Float md 0x3F800000 = 0 ∧ CC.log2Float md 0 = 0xFF800000 ∧ CC.log2Float md 0x80000000 = 0xFF800000 ∧
      CC.log2Float md 0x7F800000 = 0x7F800000 ∧ binary32.IsNaN (CC.log2Float md 0xFF800000) ∧
      (∀ x, binary32.Finite x → binary32.val x < 0 → binary32.IsNaN (CC.log2Float md x)) ∧ ∀ x, binary32.IsNaN x → CC.log2Float md x = x := by
  refine ⟨by cases md <;> decide +kernel, by cases md <;> decide +kernel, by cases md <;> decide +kernel, by cases md <;> decide +kernel,
    by cases md <;> decide +kernel, ?_, ?_⟩
  · intro x hx h
    unfold CC.log2Float
    rw [(logTests_neg binary32 hx h (by rw [one32]; exact fval_one32.1) (by rw [one32]; exact fval_one32.2)).2]
    decide +kernel
  · intro x hx
    exact (logTests_nan binary32 hx).2

example : binary32.Finite 0xBF800000 ∧ binary32.IsNaN (CC.log2Float .nearest 0xBF800000) ∧ binary32.IsNaN 0xFF800001 := by decide +kernel

/-! ### C77: `log10` -/

/-- **C77**: for every positive finite double and every rounding mode `log10` is finite and within 2.5 roundings of the real base-10 logarithm. -/
theorem C77_log10_accuracy (md : Mode) {x : ℕ} (hx : binary64.Finite x) (h : 0 < binary64.val x) :
    binary64.Finite (CC.log10Double md x) ∧
      |binary64.val (CC.log10Double md x) - Real.logb 10 (binary64.val x)| ≤ 2.5 * (if md = .nearest then 1 / 2 ^ 53 else 1 / 2 ^ 52) * |Real.logb 10 (binary64.val x)| := by
  rw [← ru_eq]
  unfold CC.log10Double
  obtain ⟨a, b⟩ := logTests_pos binary64 (impl := fun x => binary64.hmul md (CC.logDoubleImpl md x) 0x3FDBCB7B1526E50E) hx h (by rw [one64]; exact fval_one64.1) (by rw [one64]; exact fval_one64.2)
  by_cases hv : binary64.val x = 1
  · rw [(b hv).1, hv, (binary64.val_eq_zero_iff 0).2 (by decide +kernel)]
    exact ⟨by decide +kernel, by simp⟩
  · rw [(a hv).1]
    obtain ⟨c, d⟩ := log10Impl_err md hx h hv
    exact ⟨c, d.trans (le_of_eq (by ring))⟩

example : binary64.Finite 0x4000000000000000 ∧ CC.log10Double .nearest 0x4000000000000000 = 0x3FD34413509F79FF := by decide +kernel

/-- **C77**: for every positive finite float and every rounding mode `log10` is finite and within 3.1 roundings of the real base-10 logarithm. -/
theorem C77_log10f_accuracy (md : Mode) {x : ℕ} (hx : binary32.Finite x) (h : 0 < binary32.val x) :
    binary32.Finite (CC.log10Float md x) ∧
      |binary32.val (CC.log10Float md x) - Real.logb 10 (binary32.val x)| ≤ 3.1 * (if md = .nearest then 1 / 2 ^ 24 else 1 / 2 ^ 23) * |Real.logb 10 (binary32.val x)| := by
  rw [← ruf_eq]
  unfold CC.log10Float
  obtain ⟨a, b⟩ := logTests_pos binary32 (impl := fun x => binary32.hmul md (CC.logFloatImpl md x) 0x3EDE5BD9) hx h (by rw [one32]; exact fval_one32.1) (by rw [one32]; exact fval_one32.2)
  by_cases hv : binary32.val x = 1
  · rw [(b hv).1, hv, (binary32.val_eq_zero_iff 0).2 (by decide +kernel)]
    exact ⟨by decide +kernel, by simp⟩
  · rw [(a hv).1]
    obtain ⟨c, d⟩ := log10Implf_err md hx h hv
    exact ⟨c, d.trans (le_of_eq (by ring))⟩

example : binary32.Finite 0x40000000 ∧ CC.log10Float .nearest 0x40000000 = 0x3E9A209B := by decide +kernel

/-- **C77**: the computed logarithms are positive exactly above 1 and negative exactly below 1. -/
theorem C77_log10_sign (md : Mode) {x : ℕ} (hx : binary64.Finite x) (h : 0 < binary64.val x) :
    (0 < binary64.val (CC.log10Double md x) ↔ 1 < binary64.val x) ∧ (binary64.val (CC.log10Double md x) < 0 ↔ binary64.val x < 1) := by
  obtain ⟨-, b⟩ := C77_log10_accuracy md hx h
  obtain ⟨c, d⟩ := sign_of_rel (by split_ifs <;> norm_num) b
  exact ⟨c.trans (Real.logb_pos_iff (by norm_num) h), d.trans (Real.logb_neg_iff (by norm_num) h)⟩
theorem C77_log10f_sign (md : Mode) {x : ℕ} (hx : binary32.Finite x) (h : 0 < binary32.val x) :
    (0 < binary32.val (CC.log10Float md x) ↔ 1 < binary32.val x) ∧ (binary32.val (CC.log10Float md x) < 0 ↔ binary32.val x < 1) := by
  obtain ⟨-, b⟩ := C77_log10f_accuracy md hx h
  obtain ⟨c, d⟩ := sign_of_rel (by split_ifs <;> norm_num) b
  exact ⟨c.trans (Real.logb_pos_iff (by norm_num) h), d.trans (Real.logb_neg_iff (by norm_num) h)⟩

/-- **C77**: special values. -/
theorem C77_log10_special (md : Mode) :
    CC.log10Double md 0x3FF0000000000000 = 0 ∧ CC.log10Double md 0 = 0xFFF0000000000000 ∧ CC.log10Double md 0x8000000000000000 = 0xFFF0000000000000 ∧
      CC.log10Double md 0x7FF0000000000000 = 0x7FF0000000000000 ∧ binary64.IsNaN (CC.log10Double md 0xFFF0000000000000) ∧
      (∀ x, binary64.Finite x → binary64.val x < 0 → binary64.IsNaN (CC.log10Double md x)) ∧ ∀ x, binary64.IsNaN x → binary64.IsNaN (CC.log10Double md x) := by
  refine ⟨by cases md <;> decide +kernel, by cases md <;> decide +kernel, by cases md <;> decide +kernel, by cases md <;> decide +kernel,
    by cases md <;> decide +kernel, ?_, ?_⟩
  · intro x hx h
    unfold CC.log10Double
    rw [(logTests_neg binary64 hx h (by rw [one64]; exact fval_one64.1) (by rw [one64]; exact fval_one64.2)).1]
    decide +kernel
  · intro x hx
    unfold CC.log10Double
    rw [(logTests_nan binary64 hx).1]
    decide +kernel

example : binary64.Finite 0xBFF0000000000000 ∧ binary64.IsNaN (CC.log10Double .nearest 0xBFF0000000000000) ∧ binary64.IsNaN 0xFFF0000000000001 := by decide +kernel

/-! ### C78: `log10` of the powers of ten -/

/-- the powers of ten that are doubles -/
def tens64 : List ℕ := [0x3FF0000000000000, 0x4024000000000000, 0x4059000000000000, 0x408F400000000000, 0x40C3880000000000, 0x40F86A0000000000, 0x412E848000000000,
  0x416312D000000000, 0x4197D78400000000, 0x41CDCD6500000000, 0x4202A05F20000000, 0x42374876E8000000, 0x426D1A94A2000000, 0x42A2309CE5400000, 0x42D6BCC41E900000,
  0x430C6BF526340000, 0x4341C37937E08000, 0x4376345785D8A000, 0x43ABC16D674EC800, 0x43E158E460913D00, 0x4415AF1D78B58C40, 0x444B1AE4D6E2EF50, 0x4480F0CF064DD592]

theorem tens64_ok : ∀ k < 23, intsOk 52 (tens64.getD k 0) = true ∧ ints 52 (tens64.getD k 0) = 10 ^ k * 2 ^ 52 := by decide +kernel
theorem tens64_log : ∀ k < 23, k ≠ 15 → CC.log10Double .nearest (tens64.getD k 0) = binary64.ofInt .nearest k := by decide +kernel

/-- a power of ten with at most `F + 1` significant bits has a small exponent -/
theorem ten_pow_le (f : Fmt) {x k : ℕ} (h : f.val x = (10 : ℝ) ^ k) : 5 ^ k < 2 ^ (f.F + 1) := by
  obtain ⟨a, ha, hb, -⟩ := f.val_ce x
  rw [h] at ha
  have hd : (5 : ℤ) ^ k ∣ a := by
    rcases le_or_gt 0 (f.ce x) with hc | hc
    · obtain ⟨n, hn⟩ := Int.eq_ofNat_of_zero_le hc
      rw [hn, zpow_natCast] at ha
      have e : (10 : ℤ) ^ k = a * 2 ^ n := by exact_mod_cast ha
      have : (5 : ℤ) ^ k ∣ a * 2 ^ n := by rw [← e, show (10 : ℤ) = 5 * 2 by norm_num, mul_pow]; exact Dvd.intro _ rfl
      exact (IsCoprime.pow (show IsCoprime (5 : ℤ) 2 from ⟨1, -2, by norm_num⟩)).dvd_of_dvd_mul_right this
    · obtain ⟨n, hn⟩ := Int.eq_ofNat_of_zero_le (show 0 ≤ -(f.ce x) by omega)
      have hn' : f.ce x = -(n : ℤ) := by omega
      rw [hn', zpow_neg, zpow_natCast, ← div_eq_mul_inv, eq_div_iff (by positivity)] at ha
      have e : (10 : ℤ) ^ k * 2 ^ n = a := by exact_mod_cast ha
      rw [← e, show (10 : ℤ) = 5 * 2 by norm_num, mul_pow, mul_assoc]; exact Dvd.intro _ rfl
  have h0 : a ≠ 0 := by
    rintro rfl
    simp at ha
  have := Int.le_of_dvd (abs_pos.2 h0) ((dvd_abs _ _).2 hd)
  have : (5 : ℤ) ^ k < 2 ^ (f.F + 1) := lt_of_le_of_lt this hb
  exact_mod_cast this

/-- **C78** (partial: round-to-nearest, exponent other than 15): if a double is a power of ten, the exponent is at most 22 and `log10` returns it. -/
theorem C78_log10_pow10_partial {x k : ℕ} (hx : binary64.Finite x) (h : binary64.val x = (10 : ℝ) ^ k) :
    k ≤ 22 ∧ (k ≠ 15 → binary64.val (CC.log10Double .nearest x) = k) := by
  have hk : k ≤ 22 := by
    by_contra hc
    have h1 := ten_pow_le binary64 h
    have h2 : 5 ^ 23 ≤ 5 ^ k := Nat.pow_le_pow_right (by norm_num) (by omega)
    have : (5 : ℕ) ^ 23 < 2 ^ 53 := lt_of_le_of_lt h2 h1
    norm_num at this
  refine ⟨hk, fun h15 => ?_⟩
  obtain ⟨c, d⟩ := tens64_ok k (by omega)
  obtain ⟨e, g⟩ := intsOk_spec c
  rw [d] at g
  have hv : binary64.val (tens64.getD k 0) = (10 : ℝ) ^ k := by
    rw [g]; push_cast; norm_num
  have : x = tens64.getD k 0 := pos_inj64 hx e (by rw [h, hv]) (by rw [h]; positivity)
  rw [this, tens64_log k (by omega) h15]
  have := (ofInt_ex64 .nearest (z := (k : ℤ)) (by rw [Nat.abs_cast]; exact_mod_cast (show k ≤ 2 ^ 53 by omega))).2
  rw [this]; simp

-- 1000
example : binary64.Finite 0x408F400000000000 ∧ CC.log10Double .nearest 0x408F400000000000 = 0x4008000000000000 := by decide +kernel

/-- **C78**: `log10 1e15` is not 15. -/
theorem C78_log10_1e15_wrong : tens64.getD 15 0 = 0x430C6BF526340000 ∧ CC.log10Double .nearest 0x430C6BF526340000 ≠ 0x402E000000000000 := by decide +kernel

/-- **C78**: in the directed modes even `log10 1000` is not 3. -/
theorem C78_log10_directed_wrong :
    CC.log10Double .up 0x408F400000000000 ≠ 0x4008000000000000 ∧ CC.log10Double .down 0x408F400000000000 ≠ 0x4008000000000000 := by decide +kernel

/-- the powers of ten that are floats -/
def tens32 : List ℕ := [0x3F800000, 0x41200000, 0x42C80000, 0x447A0000, 0x461C4000, 0x47C35000, 0x49742400, 0x4B189680, 0x4CBEBC20, 0x4E6E6B28, 0x501502F9]

theorem tens32_ok : ∀ k < 11, binary32.Finite (tens32.getD k 0) ∧ binary64.hcvt binary32 .nearest (tens32.getD k 0) = tens64.getD k 0 := by decide +kernel
theorem tens32_log : ∀ k < 11, k ≠ 9 → CC.log10Float .nearest (tens32.getD k 0) = binary32.ofInt .nearest k := by decide +kernel

/-- **C78** (partial: round-to-nearest, exponent other than 9): if a float is a power of ten, the exponent is at most 10 and `log10` returns it. -/
theorem C78_log10f_pow10_partial {x k : ℕ} (hx : binary32.Finite x) (h : binary32.val x = (10 : ℝ) ^ k) :
    k ≤ 10 ∧ (k ≠ 9 → binary32.val (CC.log10Float .nearest x) = k) := by
  have hk : k ≤ 10 := by
    by_contra hc
    have h1 := ten_pow_le binary32 h
    have h2 : 5 ^ 11 ≤ 5 ^ k := Nat.pow_le_pow_right (by norm_num) (by omega)
    have : (5 : ℕ) ^ 11 < 2 ^ 24 := lt_of_le_of_lt h2 h1
    norm_num at this
  refine ⟨hk, fun h15 => ?_⟩
  obtain ⟨e, c'⟩ := tens32_ok k (by omega)
  obtain ⟨c, d⟩ := tens64_ok k (by omega)
  obtain ⟨-, g⟩ := intsOk_spec c
  rw [d] at g
  have hv : binary32.val (tens32.getD k 0) = (10 : ℝ) ^ k := by
    rw [← (cvt_up .nearest e).2, c', g]; push_cast; norm_num
  have : x = tens32.getD k 0 := pos_inj32 hx e (by rw [h, hv]) (by rw [h]; positivity)
  rw [this, tens32_log k (by omega) h15]
  have := (ofInt_ex32 .nearest (z := (k : ℤ)) (by rw [Nat.abs_cast]; exact_mod_cast (show k ≤ 2 ^ 24 by omega))).2
  rw [this]; simp

-- 1000
example : binary32.Finite 0x447A0000 ∧ CC.log10Float .nearest 0x447A0000 = 0x40400000 := by decide +kernel

/-- **C78**: `log10f 1e9` is not 9. -/
theorem C78_log10f_1e9_wrong : tens32.getD 9 0 = 0x4E6E6B28 ∧ CC.log10Float .nearest 0x4E6E6B28 ≠ 0x41100000 := by decide +kernel

end Verif
