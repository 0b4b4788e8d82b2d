import Verif.Lemmas.Basic
import Mathlib.Tactic.Tauto

/-!
# C01 (classification) and C02 (comparisons)
-/

namespace Verif
open Fmt

/-- The five IEEE classes. -/
inductive FpClass where
  | nan | infinite | zero | subnormal | normal
  deriving DecidableEq, Repr

/-- The class of a datum by its numerical value. -/
def HasClass (f : Fmt) (x : ℕ) : FpClass → Prop
  | .nan => f.IsNaN x
  | .infinite => f.IsInf x
  | .zero => f.Finite x ∧ f.val x = 0
  | .subnormal => f.Finite x ∧ f.val x ≠ 0 ∧ |f.val x| < f.minNormal
  | .normal => f.Finite x ∧ f.minNormal ≤ |f.val x|

/-- The `FP_*` code a compiler's table gives to a class. -/
def CC.Defines.code (d : CC.Defines) : FpClass → ℤ
  | .nan => d.nan
  | .infinite => d.infinite
  | .zero => d.zero
  | .subnormal => d.subnormal
  | .normal => d.normal

section
variable (f : Fmt) {x y : ℕ}

theorem minNormal_le_abs_iff : f.minNormal ≤ |f.val x| ↔ 2 ^ f.F ≤ f.mag x := by
  rw [abs_val, f.minNormal_eq, mul_le_mul_iff_left₀ f.minSub_pos, Nat.cast_le, umag_le_iff]

theorem minNormal_pos : 0 < f.minNormal := zpow_pos (by norm_num) _

theorem hasClass_of_mag (hx : f.Valid x) :
    (f.infMag < f.mag x ∧ HasClass f x .nan) ∨ (f.mag x = f.infMag ∧ HasClass f x .infinite) ∨
    (f.mag x = 0 ∧ HasClass f x .zero) ∨ (0 < f.mag x ∧ f.mag x < 2 ^ f.F ∧ HasClass f x .subnormal) ∨
    (2 ^ f.F ≤ f.mag x ∧ f.mag x < f.infMag ∧ HasClass f x .normal) := by
  have hm := CC.limMin_lt f
  unfold CC.limMin at hm
  simp only [HasClass, isNaN_iff, isInf_iff, finite_iff, hx, true_and, val_eq_zero_iff, minNormal_le_abs_iff,
    ← not_le, ne_eq]
  have := f.two_pow_F_pos
  omega

/-- **C01**: every bit pattern is in exactly one class. -/
theorem C01_class_unique (hx : f.Valid x) : ∃! c, HasClass f x c := by
  have hm := CC.limMin_lt f
  unfold CC.limMin at hm
  have := f.two_pow_F_pos
  have hz := f.val_eq_zero_iff x
  rcases hasClass_of_mag f hx with ⟨h, hc⟩ | ⟨h, hc⟩ | ⟨h, hc⟩ | ⟨h, h', hc⟩ | ⟨h, h', hc⟩ <;>
  · refine ⟨_, hc, ?_⟩
    intro c' hc'
    cases c' <;> simp only [HasClass, isNaN_iff, isInf_iff, finite_iff, val_eq_zero_iff, minNormal_le_abs_iff,
      ← not_le, ne_eq] at hc' ⊢ <;> first | rfl | omega

example : binary64.Valid 1 ∧ binary64.Valid 0x7ff0000000000001 ∧ binary32.Valid 0x80000000 := by decide +kernel

/-- **C01**: `fpclassify` returns the code of the class, for every compiler's table. -/
theorem C01_fpclassify (d : CC.Defines) (hx : f.Valid x) {c : FpClass} (hcl : HasClass f x c) :
    CC.fpclassify f d x = d.code c := by
  have hm := CC.limMin_lt f
  have hm2 : CC.limMin f = 2 ^ f.F := rfl
  have h2 := f.two_pow_F_pos
  have hu := C01_class_unique f hx
  have key : ∀ c', HasClass f x c' → c = c' := fun c' h' => hu.unique hcl h'
  unfold CC.fpclassify
  rw [CC.isnan_eq, CC.isinf_eq, CC.heq_zero, CC.abs_eq f hx]
  rcases hasClass_of_mag f hx with ⟨h, hc⟩ | ⟨h, hc⟩ | ⟨h, hc⟩ | ⟨h, h', hc⟩ | ⟨h, h', hc⟩ <;>
    obtain rfl := key _ hc
  · simp [nanB, h, CC.Defines.code]
  · have : f.nanB x = false := by unfold nanB; simp; omega
    simp [this, infB, h, CC.Defines.code]
  · have : f.nanB x = false := by unfold nanB; simp; omega
    have h3 : f.infB x = false := by unfold infB; simp; omega
    simp [this, h3, zeroB, h, CC.Defines.code]
  · have hn : f.nanB x = false := by unfold nanB; simp; omega
    have h3 : f.infB x = false := by unfold infB; simp; omega
    have h4 : f.zeroB x = false := by unfold zeroB; simp; omega
    have h5 : f.hlt (f.mag x) (CC.limMin f) = true := by
      unfold hlt; rw [CC.nanB_mag, CC.nanB_limMin, hn, CC.key_mag, CC.key_limMin]; simp; omega
    have h6 : f.hgt (f.mag x) (f.zero false) = true := by
      unfold hgt hlt; rw [CC.nanB_mag, CC.nanB_zero, hn, CC.key_mag, CC.key_zero]; simp; omega
    simp [hn, h3, h4, h5, h6, CC.Defines.code]
  · have hn : f.nanB x = false := by unfold nanB; simp; omega
    have h3 : f.infB x = false := by unfold infB; simp; omega
    have h4 : f.zeroB x = false := by unfold zeroB; simp; omega
    have h5 : f.hlt (f.mag x) (CC.limMin f) = false := by
      unfold hlt; rw [CC.nanB_mag, CC.nanB_limMin, hn, CC.key_mag, CC.key_limMin]; simp; omega
    simp [hn, h3, h4, h5, CC.Defines.code]

example : CC.fpclassify binary64 CC.definesGCC 1 = 3 ∧ CC.fpclassify binary32 CC.definesMSVC 0x80000000 = 0 ∧
    CC.fpclassify binary64 CC.definesGCC 0x7ff0000000000001 = 0 := by decide +kernel

/-- **C01**: on MSVC/Intel, Darwin and GCC/Clang the code determines the class. -/
theorem C01_codes_distinct : ∀ d ∈ [CC.definesMSVC, CC.definesDarwin, CC.definesGCC],
    Function.Injective d.code := by
  intro d hd a b h
  simp only [List.mem_cons, List.not_mem_nil, or_false] at hd
  rcases hd with rfl | rfl | rfl <;> revert h <;> cases a <;> cases b <;> decide

/-- On the NVIDIA HPC table zero and subnormal numbers get the same code, so there the code does not determine the class. -/
theorem C01_nvidia_ambiguous : ¬ Function.Injective CC.definesNvidia.code := by
  intro h; exact absurd (@h .zero .subnormal rfl) (by decide)

/-- **C01**: the predicates agree with the class. -/
theorem C01_predicates (hx : f.Valid x) :
    (CC.isnan f x = true ↔ HasClass f x .nan) ∧
    (CC.isinf f x = true ↔ HasClass f x .infinite) ∧
    (CC.isfinite f x = true ↔ HasClass f x .zero ∨ HasClass f x .subnormal ∨ HasClass f x .normal) ∧
    (CC.isnormal f x = true ↔ HasClass f x .normal) := by
  have hm := CC.limMin_lt f
  have hm2 : CC.limMin f = 2 ^ f.F := rfl
  have h2 := f.two_pow_F_pos
  refine ⟨?_, ?_, ?_, ?_⟩
  · rw [CC.isnan_eq]; exact f.nanB_iff hx
  · rw [CC.isinf_eq]; exact f.infB_iff hx
  · unfold CC.isfinite
    rw [FPBits.isFinite_eq]
    simp only [HasClass, finite_iff, hx, true_and, val_eq_zero_iff, minNormal_le_abs_iff, ← not_le, ne_eq, decide_eq_true_iff]
    omega
  · unfold CC.isnormal
    rw [CC.isnan_eq, CC.isinf_eq, CC.heq_zero, CC.abs_eq f hx]
    simp only [HasClass, finite_iff, hx, true_and, minNormal_le_abs_iff]
    cases hn : f.nanB x
    · have hn' : f.mag x ≤ f.infMag := by unfold nanB at hn; simpa using hn
      have : f.hge (f.mag x) (CC.limMin f) = decide (2 ^ f.F ≤ f.mag x) := by
        unfold hge hle; rw [CC.nanB_mag, CC.nanB_limMin, hn, CC.key_mag, CC.key_limMin]
        rw [hm2]; simp only [Bool.not_false, Bool.true_and]; congr 1; rw [eq_iff_iff]
        norm_cast
      simp [this, zeroB, infB]; omega
    · have hn' : f.infMag < f.mag x := by unfold nanB at hn; simpa using hn
      simp; omega

example : CC.isnormal binary64 0x3ff0000000000000 = true ∧ CC.isnormal binary64 1 = false ∧
    CC.isfinite binary32 0x7f800000 = false := by decide +kernel

/-! ## C02 -/

theorem isunordered_eq (hx : f.Valid x) (hy : f.Valid y) :
    CC.isunordered f x y = true ↔ f.IsNaN x ∨ f.IsNaN y := by
  unfold CC.isunordered; rw [CC.isnan_eq, CC.isnan_eq, Bool.or_eq_true, f.nanB_iff hx, f.nanB_iff hy]

/-- **C02**: `isunordered` is true exactly when an argument is NaN. -/
theorem C02_isunordered (hx : f.Valid x) (hy : f.Valid y) :
    CC.isunordered f x y = true ↔ (f.IsNaN x ∨ f.IsNaN y) := isunordered_eq f hx hy

theorem not_unordered (hx : f.Valid x) (hy : f.Valid y) :
    (!CC.isunordered f x y) = true ↔ (¬ f.IsNaN x ∧ ¬ f.IsNaN y) := by
  rw [Bool.not_eq_true', ← Bool.not_eq_true, isunordered_eq f hx hy, not_or]

/-- **C02**: the quiet comparisons are the order of the extended reals, and false for NaN. -/
theorem C02_comparisons (hx : f.Valid x) (hy : f.Valid y) :
    (CC.isless f x y = true ↔ (¬ f.IsNaN x ∧ ¬ f.IsNaN y) ∧ f.xval x < f.xval y) ∧
    (CC.islessequal f x y = true ↔ (¬ f.IsNaN x ∧ ¬ f.IsNaN y) ∧ f.xval x ≤ f.xval y) ∧
    (CC.isgreater f x y = true ↔ (¬ f.IsNaN x ∧ ¬ f.IsNaN y) ∧ f.xval x > f.xval y) ∧
    (CC.isgreaterequal f x y = true ↔ (¬ f.IsNaN x ∧ ¬ f.IsNaN y) ∧ f.xval x ≥ f.xval y) ∧
    (CC.islessgreater f x y = true ↔ (¬ f.IsNaN x ∧ ¬ f.IsNaN y) ∧ f.xval x ≠ f.xval y) := by
  have h := not_unordered f hx hy
  refine ⟨?_, ?_, ?_, ?_, ?_⟩
  · unfold CC.isless; rw [Bool.and_eq_true, h, f.hlt_spec hx hy]; tauto
  · unfold CC.islessequal; rw [Bool.and_eq_true, h, f.hle_spec hx hy]; tauto
  · unfold CC.isgreater hgt; rw [Bool.and_eq_true, h, f.hlt_spec hy hx]; tauto
  · unfold CC.isgreaterequal hge; rw [Bool.and_eq_true, h, f.hle_spec hy hx]; tauto
  · unfold CC.islessgreater hgt
    rw [Bool.and_eq_true, h, Bool.or_eq_true, f.hlt_spec hx hy, f.hlt_spec hy hx, ne_iff_lt_or_gt]; tauto

/-- The extended value means what it should: signed zeros are equal, infinities are the ends of the order. -/
theorem C02_xval_meaning : f.xval (f.zero true) = f.xval (f.zero false) ∧ f.xval (f.zero true) = 0 ∧
    f.xval (f.inf false) = ⊤ ∧ f.xval (f.inf true) = ⊥ ∧ (∀ z, f.Finite z → f.xval z = ((f.val z : ℝ) : EReal)) := by
  refine ⟨?_, ?_, ?_, ?_, fun z => f.xval_of_finite⟩
  · rw [xval_of_finite f (f.finite_zero _), xval_of_finite f (f.finite_zero _), val_zero, val_zero]
  · rw [xval_of_finite f (f.finite_zero _), val_zero]; rfl
  · simp [xval_inf]
  · simp [xval_inf]

example : CC.isless binary64 0xfff0000000000000 0x8000000000000000 = true ∧
    CC.isless binary64 0x8000000000000000 0 = false ∧ CC.islessgreater binary64 0x7ff8000000000000 0 = false ∧
    CC.isgreaterequal binary32 0x80000000 0 = true := by decide +kernel

end
end Verif
