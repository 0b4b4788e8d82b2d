import Verif.Lemmas.Log1pF2
import Verif.Props.Log

/-!
# Properties of log1p (C81 and C82)

`md` is the rounding mode; the relative error of one rounding is `2^-53` to nearest and `2^-52` in a directed mode (double), `2^-24` and `2^-23` (float).
`0x3FDA83A109D0635A` and `0xBFD2BEC2480E8C8B` are the doubles `0.414284` and `-0.292893` between which the code uses its own series.
-/

namespace Verif
open Fmt Real

theorem mone64 : FPBits.one binary64 true = 0xBFF0000000000000 ∧ binary64.Finite 0xBFF0000000000000 ∧ binary64.val 0xBFF0000000000000 = -1 := by
  refine ⟨by decide +kernel, by decide +kernel, ?_⟩
  rw [lit64 true 4503599627370496 52 (by decide +kernel) (by decide +kernel) (by decide +kernel) (by decide +kernel)]
  norm_num [sg]
theorem mone32 : FPBits.one binary32 true = 0xBF800000 ∧ binary32.Finite 0xBF800000 ∧ binary32.val 0xBF800000 = -1 := by
  refine ⟨by decide +kernel, by decide +kernel, ?_⟩
  rw [lit32 true 8388608 23 (by decide +kernel) (by decide +kernel) (by decide +kernel) (by decide +kernel)]
  norm_num [sg]

theorem log1pTests_cases (f : Fmt) {impl : ℕ → ℕ} {x : ℕ} (hx : f.Finite x) (h1 : f.Finite (FPBits.one f true)) (e1 : f.val (FPBits.one f true) = -1) :
    (f.val x = 0 → CC.log1pTests f impl x = x) ∧ (f.val x ≠ 0 → -1 < f.val x → CC.log1pTests f impl x = impl x) ∧
      (f.val x < -1 → CC.log1pTests f impl x = FPBits.quietNaN f true 0) := by
  have f0 : f.Finite 0 := by have := f.finite_zero false; rwa [show f.zero false = 0 from by simp [Fmt.zero]] at this
  have v0 : f.val 0 = 0 := by have := f.val_zero false; rwa [show f.zero false = 0 from by simp [Fmt.zero]] at this
  have hn := (f.finite_B hx).1
  have e2 : f.heq x 0 = true ↔ f.val x = 0 := by rw [CC.heq_finite f hx f0, v0]
  have e3 : f.heq x (FPBits.one f true) = true ↔ f.val x = -1 := by rw [CC.heq_finite f hx h1, e1]
  have e4 : f.hlt x (FPBits.one f true) = true ↔ f.val x < -1 := by rw [CC.hlt_finite f hx h1, e1]
  unfold CC.log1pTests
  rw [heq_inf_gen f hx, CC.isnan_eq, hn]
  refine ⟨fun h => if_pos (e2.2 h), fun h h' => ?_, fun h => ?_⟩
  · rw [if_neg (fun k => h (e2.1 k)), if_neg (by simp), if_neg (by simp), if_neg (fun k => by have := e3.1 k; linarith), if_neg (fun k => by have := e4.1 k; linarith)]
  · rw [if_neg (fun k => by have := e2.1 k; linarith), if_neg (by simp), if_neg (by simp), if_neg (fun k => by have := e3.1 k; linarith), if_pos (e4.2 h)]

/-! ### C81: `log1p` of double -/

/-- **C81** (partial: the full claim is an error of a few roundings, which is false, see `C81_log1p_few_roundings_wrong`): for every finite double above -1 and every
rounding mode, except the greatest double in upward mode, `log1p` is finite and within the relative error `2^-44` of the real `log (1 + x)`. -/
theorem C81_log1p_accuracy_partial (md : Mode) {x : ℕ} (hx : binary64.Finite x) (h : -1 < binary64.val x) (hm : x ≠ 0x7FEFFFFFFFFFFFFF ∨ md ≠ .up) :
    binary64.Finite (CC.log1pDouble md x) ∧
      |binary64.val (CC.log1pDouble md x) - Real.log (1 + binary64.val x)| ≤ 1 / 2 ^ 44 * |Real.log (1 + binary64.val x)| := by
  obtain ⟨c1, c2, -⟩ := log1pTests_cases binary64 (impl := CC.log1pDoubleImpl md) hx (by rw [mone64.1]; exact mone64.2.1) (by rw [mone64.1]; exact mone64.2.2)
  unfold CC.log1pDouble
  by_cases h0 : binary64.val x = 0
  · rw [c1 h0]
    exact ⟨hx, by rw [h0]; simp⟩
  · rw [c2 h0 h]
    obtain ⟨a, -, -, b⟩ := log1pDoubleImpl_err md hx h hm
    exact ⟨a, b⟩

-- log1p 1, log1p (-1/2), log1p (1/4)
example : CC.log1pDouble .nearest 0x3FF0000000000000 = 0x3FE62E42FEFA39EF ∧ CC.log1pDouble .nearest 0xBFE0000000000000 = 0xBFE62E42FEFA39EF ∧
    CC.log1pDouble .nearest 0x3FD0000000000000 = 0x3FCC8FF7C79A9A21 := by decide +kernel

/-- **C81**: above 0.414284 and below -0.292893 (and above -1) the error is at most 4.14 roundings. -/
theorem C81_log1p_accuracy_outer (md : Mode) {x : ℕ} (hx : binary64.Finite x) (h : -1 < binary64.val x) (hm : x ≠ 0x7FEFFFFFFFFFFFFF ∨ md ≠ .up)
    (hc : binary64.val 0x3FDA83A109D0635A < binary64.val x ∨ binary64.val x < binary64.val 0xBFD2BEC2480E8C8B) :
    |binary64.val (CC.log1pDouble md x) - Real.log (1 + binary64.val x)| ≤ 4.14 * (if md = .nearest then 1 / 2 ^ 53 else 1 / 2 ^ 52) * |Real.log (1 + binary64.val x)| := by
  obtain ⟨-, c2, -⟩ := log1pTests_cases binary64 (impl := CC.log1pDoubleImpl md) hx (by rw [mone64.1]; exact mone64.2.1) (by rw [mone64.1]; exact mone64.2.2)
  unfold CC.log1pDouble
  have h0 : binary64.val x ≠ 0 := by
    rw [fval_l1p.1.2, fval_l1p.2.2] at hc
    intro h0
    rw [h0] at hc
    norm_num at hc
  rw [c2 h0 h, ← ru_eq]
  obtain ⟨-, b, -, -⟩ := log1pDoubleImpl_err md hx h hm
  refine (b hc).trans (le_of_eq ?_)
  norm_num

-- 2^60 and the least double above -1
example : CC.log1pDouble .nearest 0x43B0000000000000 = 0x4044CB5ECF0A9650 ∧ CC.log1pDouble .nearest 0xBFEFFFFFFFFFFFFF = 0xC0425E4F7B2737FA ∧
    binary64.Finite 0xBFEFFFFFFFFFFFFF := by decide +kernel

/-- **C81**: from -0.292893 up to 0.414213 the error is at most 2.05 roundings plus the truncation error of the series, `s^16/16` relative with `s = x/(2+x)`;
for arguments of absolute value below 0.19 or so the truncation error is below one rounding. -/
theorem C81_log1p_accuracy_inner (md : Mode) {x : ℕ} (hx : binary64.Finite x) (h1 : binary64.val 0xBFD2BEC2480E8C8B ≤ binary64.val x) (h2 : binary64.val x ≤ 0.414213) :
    |binary64.val (CC.log1pDouble md x) - Real.log (1 + binary64.val x)| ≤
      (2.05 * (if md = .nearest then 1 / 2 ^ 53 else 1 / 2 ^ 52) + |binary64.val x / (2 + binary64.val x)| ^ 16 / 16) * |Real.log (1 + binary64.val x)| := by
  obtain ⟨c1, c2, -⟩ := log1pTests_cases binary64 (impl := CC.log1pDoubleImpl md) hx (by rw [mone64.1]; exact mone64.2.1) (by rw [mone64.1]; exact mone64.2.2)
  unfold CC.log1pDouble
  by_cases h0 : binary64.val x = 0
  · rw [c1 h0, h0]; simp
  · have h : -1 < binary64.val x := by
      rw [fval_l1p.2.2] at h1
      norm_num at h1; linarith
    have hm : x ≠ 0x7FEFFFFFFFFFFFFF := by
      rintro rfl
      have p := pat_le (P := 0x3FF0000000000000) (Q := 0x7FEFFFFFFFFFFFFF) (by norm_num) (by norm_num)
      rw [fval_one64.2] at p
      norm_num at h2; linarith
    rw [c2 h0 h, ← ru_eq]
    obtain ⟨-, -, b, -⟩ := log1pDoubleImpl_err md hx h (Or.inl hm)
    refine (b h1 (h2.trans (by norm_num))).trans (le_of_eq ?_)
    norm_num

-- 0.1 and -0.25
example : CC.log1pDouble .nearest 0x3FB999999999999A = 0x3FB8663F793C46C7 ∧ CC.log1pDouble .nearest 0xBFD0000000000000 = 0xBFD269621134DB89 := by decide +kernel

/-- **C81**: the error is not a few roundings: at 0.41 (round to nearest) it exceeds 200 roundings. -/
theorem C81_log1p_few_roundings_wrong :
    200 * (1 / 2 ^ 53) * |Real.log (1 + binary64.val 0x3FDA3D70A3D70A3D)| <
      |binary64.val (CC.log1pDouble .nearest 0x3FDA3D70A3D70A3D) - Real.log (1 + binary64.val 0x3FDA3D70A3D70A3D)| := by
  have e : CC.log1pDouble .nearest 0x3FDA3D70A3D70A3D = 0x3FD5FD5FABE63FCE := by decide +kernel
  have v1 : binary64.val 0x3FDA3D70A3D70A3D = 7385903388887613 / 2 ^ 54 := by
    rw [lit64 false (2 ^ 52 + 0xA3D70A3D70A3D) 54 (by decide +kernel) (by decide +kernel) (by decide +kernel) (by decide +kernel)]
    norm_num [sg]
  have v2 : binary64.val 0x3FD5FD5FABE63FCE = 6189561858637774 / 2 ^ 54 := by
    rw [lit64 false (2 ^ 52 + 0x5FD5FABE63FCE) 54 (by decide +kernel) (by decide +kernel) (by decide +kernel) (by decide +kernel)]
    norm_num [sg]
  have c := logChk_sound (p := 80) (cn := 25400301898369597) (cd := 2 ^ 54) (tn := 425343452150703984248465633) (td := 2 ^ 90) (by decide +kernel) (by norm_num) (by norm_num) (by norm_num) (by norm_num)
  rw [e, v1, v2, show (1 : ℝ) + 7385903388887613 / 2 ^ 54 = ((25400301898369597 : ℕ) : ℝ) / ((2 ^ 54 : ℕ) : ℝ) by norm_num]
  generalize Real.log _ = l at *
  have c := abs_le.1 c
  norm_num at c
  have p : 0 < l := by linarith [c.1]
  rw [abs_of_pos p, lt_abs]
  right
  norm_num
  linarith [c.1, c.2]

/-- **C81**: in upward mode `log1p` of the greatest double is below 674, while the real value exceeds 709 (the sum `1 + x` overflows to infinity). -/
theorem C81_log1p_max_up_wrong :
    binary64.val (CC.log1pDouble .up 0x7FEFFFFFFFFFFFFF) < 674 ∧ 709 < Real.log (1 + binary64.val 0x7FEFFFFFFFFFFFFF) := by
  constructor
  · rw [show CC.log1pDouble .up 0x7FEFFFFFFFFFFFFF = 0x40850DE9980784FF by decide +kernel,
      lit64 false (2 ^ 52 + 0x50DE9980784FF) 43 (by decide +kernel) (by decide +kernel) (by decide +kernel) (by decide +kernel)]
    norm_num [sg]
  · have p := pat_le (P := 0x7FE0000000000000) (Q := 0x7FEFFFFFFFFFFFFF) (by norm_num) (by norm_num)
    have q := pat64 (P := 0x7FE0000000000000) (by norm_num) (by norm_num)
    rw [q.2, show (((0x7FE0000000000000 / 2 ^ 52 : ℕ) : ℤ) - 1075) = 971 by norm_num, show ((2 ^ 52 + 0x7FE0000000000000 % 2 ^ 52 : ℕ) : ℝ) = (2 : ℝ) ^ (52 : ℤ) by norm_num,
      ← zpow_add₀ (by norm_num)] at p
    have l := log_le_log (zpow_pos (by norm_num) _) p
    rw [log_zpow] at l
    have m := ln2_bounds
    have l2 : Real.log (binary64.val 0x7FEFFFFFFFFFFFFF) ≤ Real.log (1 + binary64.val 0x7FEFFFFFFFFFFFFF) := by
      have : 0 < binary64.val 0x7FEFFFFFFFFFFFFF := lt_of_lt_of_le (zpow_pos (by norm_num) _) p
      exact log_le_log this (by linarith)
    norm_num at m l
    linarith [m.1]

/-- **C81**: the result has the sign of the argument, for every finite argument above -1 and every rounding mode. -/
theorem C81_log1p_sign (md : Mode) {x : ℕ} (hx : binary64.Finite x) (h : -1 < binary64.val x) :
    (0 < binary64.val (CC.log1pDouble md x) ↔ 0 < binary64.val x) ∧ (binary64.val (CC.log1pDouble md x) < 0 ↔ binary64.val x < 0) := by
  by_cases hm : x = 0x7FEFFFFFFFFFFFFF ∧ md = .up
  · obtain ⟨rfl, rfl⟩ := hm
    have p := pat_le (P := 0x3FF0000000000000) (Q := 0x7FEFFFFFFFFFFFFF) (by norm_num) (by norm_num)
    rw [fval_one64.2] at p
    have q : 0 < binary64.val (CC.log1pDouble .up 0x7FEFFFFFFFFFFFFF) := by
      rw [show CC.log1pDouble .up 0x7FEFFFFFFFFFFFFF = 0x40850DE9980784FF by decide +kernel,
        lit64 false (2 ^ 52 + 0x50DE9980784FF) 43 (by decide +kernel) (by decide +kernel) (by decide +kernel) (by decide +kernel)]
      norm_num [sg]
    exact ⟨⟨fun _ => by linarith, fun _ => q⟩, ⟨fun _ => by linarith, fun _ => by linarith⟩⟩
  have hm : x ≠ 0x7FEFFFFFFFFFFFFF ∨ md ≠ .up := not_and_or.1 hm
  obtain ⟨-, b⟩ := C81_log1p_accuracy_partial md hx h hm
  obtain ⟨c, d⟩ := sign_of_rel (by norm_num) b
  have hp : 0 < 1 + binary64.val x := by linarith
  refine ⟨c.trans ((Real.log_pos_iff hp.le).trans ?_), d.trans ((Real.log_neg_iff hp).trans ?_)⟩ <;> constructor <;> intro h <;> linarith

example : CC.log1pDouble .down 0x0000000000000001 = 1 ∧ CC.log1pDouble .up 0x8000000000000001 = 0x8000000000000001 := by decide +kernel

/-- **C81**: special values. Zeros are returned with their sign; -1 gives minus infinity; below -1 (minus infinity included) and at a NaN the result is a NaN. -/
theorem C81_log1p_special (md : Mode) :
    CC.log1pDouble md 0 = 0 ∧ CC.log1pDouble md 0x8000000000000000 = 0x8000000000000000 ∧ CC.log1pDouble md 0xBFF0000000000000 = 0xFFF0000000000000 ∧
      CC.log1pDouble md 0x7FF0000000000000 = 0x7FF0000000000000 ∧ binary64.IsNaN (CC.log1pDouble md 0xFFF0000000000000) ∧
      (∀ x, binary64.Finite x → binary64.val x < -1 → binary64.IsNaN (CC.log1pDouble md x)) ∧ ∀ x, binary64.IsNaN x → binary64.IsNaN (CC.log1pDouble md x) := by
  refine ⟨by cases md <;> decide +kernel, by cases md <;> decide +kernel, by cases md <;> decide +kernel, by cases md <;> decide +kernel,
    by cases md <;> decide +kernel, ?_, ?_⟩
  · intro x hx h
    unfold CC.log1pDouble
    rw [(log1pTests_cases binary64 hx (by rw [mone64.1]; exact mone64.2.1) (by rw [mone64.1]; exact mone64.2.2)).2.2 h]
    decide +kernel
  · intro x hx
    unfold CC.log1pDouble CC.log1pTests
    have hn := (binary64.nanB_iff hx.1).2 hx
    have e : binary64.heq x 0 = false := by unfold heq; rw [hn]; rfl
    rw [e, CC.isnan_eq, hn, if_neg (by simp), if_pos rfl]
    decide +kernel

example : binary64.Finite 0xC000000000000000 ∧ binary64.IsNaN (CC.log1pDouble .nearest 0xC000000000000000) ∧ binary64.IsNaN 0xFFF0000000000001 := by decide +kernel

/-! ### C82: `log1p` of float -/

/-- **C82** (partial: the greatest float in upward mode is excluded, see `C82_log1pf_max_up_wrong`): for every finite float above -1 and every rounding mode, except that one case, `log1p` is finite and within 4.52 roundings of `log (1 + x)`. -/
theorem C82_log1pf_accuracy_partial (md : Mode) {x : ℕ} (hx : binary32.Finite x) (h : -1 < binary32.val x) (hm : x ≠ 0x7F7FFFFF ∨ md ≠ .up) :
    binary32.Finite (CC.log1pFloat md x) ∧
      |binary32.val (CC.log1pFloat md x) - Real.log (1 + binary32.val x)| ≤ 4.52 * (if md = .nearest then 1 / 2 ^ 24 else 1 / 2 ^ 23) * |Real.log (1 + binary32.val x)| := by
  obtain ⟨c1, c2, -⟩ := log1pTests_cases binary32 (impl := CC.log1pFloatImpl md) hx (by rw [mone32.1]; exact mone32.2.1) (by rw [mone32.1]; exact mone32.2.2)
  unfold CC.log1pFloat
  by_cases h0 : binary32.val x = 0
  · rw [c1 h0]
    exact ⟨hx, by rw [h0]; simp⟩
  · rw [c2 h0 h, ← ruf_eq]
    obtain ⟨a, -, b⟩ := log1pFloatImpl_err md hx h hm
    exact ⟨a, b.trans (le_of_eq (by norm_num))⟩

-- log1p 1, log1p (1/4), log1p of the greatest float
example : CC.log1pFloat .nearest 0x3F800000 = 0x3F317218 ∧ CC.log1pFloat .nearest 0x3E800000 = 0x3E647FBE ∧ CC.log1pFloat .nearest 0x7F7FFFFF = 0x42B17218 := by decide +kernel

/-- **C82**: between the floats -0.292893 and 0.414284 the error is at most 1.34 roundings. -/
theorem C82_log1pf_accuracy_inner (md : Mode) {x : ℕ} (hx : binary32.Finite x) (h1 : binary32.val 0xBE95F612 ≤ binary32.val x) (h2 : binary32.val x ≤ binary32.val 0x3ED41D08) :
    |binary32.val (CC.log1pFloat md x) - Real.log (1 + binary32.val x)| ≤ 1.34 * (if md = .nearest then 1 / 2 ^ 24 else 1 / 2 ^ 23) * |Real.log (1 + binary32.val x)| := by
  obtain ⟨c1, c2, -⟩ := log1pTests_cases binary32 (impl := CC.log1pFloatImpl md) hx (by rw [mone32.1]; exact mone32.2.1) (by rw [mone32.1]; exact mone32.2.2)
  unfold CC.log1pFloat
  by_cases h0 : binary32.val x = 0
  · rw [c1 h0, h0]; simp
  · have h : -1 < binary32.val x := by
      rw [fval_l1pf.2.2] at h1
      norm_num at h1; linarith
    have hm : x ≠ 0x7F7FFFFF := by
      rintro rfl
      have p := pat_le32 (P := 0x3F800000) (Q := 0x7F7FFFFF) (by norm_num) (by norm_num)
      rw [fval_one32.2] at p
      rw [fval_l1pf.1.2] at h2
      norm_num at h2; linarith
    rw [c2 h0 h, ← ruf_eq]
    obtain ⟨-, b, -⟩ := log1pFloatImpl_err md hx h (Or.inl hm)
    exact (b h1 h2).trans (le_of_eq (by norm_num))

-- an argument of the reduced branch: 0.41425
example : binary32.val 0xBE95F612 ≤ binary32.val 0x3ED41894 ∧ binary32.val 0x3ED41894 ≤ binary32.val 0x3ED41D08 ∧ CC.log1pFloat .nearest 0x3ED41894 = 0x3EB17579 := by
  refine ⟨?_, ?_, by decide +kernel⟩ <;> rw [binary32.val_le_iff_key] <;> decide

/-- **C82**: the result has the sign of the argument, for every finite argument above -1 and every rounding mode. -/
theorem C82_log1pf_sign (md : Mode) {x : ℕ} (hx : binary32.Finite x) (h : -1 < binary32.val x) :
    (0 < binary32.val (CC.log1pFloat md x) ↔ 0 < binary32.val x) ∧ (binary32.val (CC.log1pFloat md x) < 0 ↔ binary32.val x < 0) := by
  by_cases hm : x = 0x7F7FFFFF ∧ md = .up
  · obtain ⟨rfl, rfl⟩ := hm
    have p := pat_le32 (P := 0x3F800000) (Q := 0x7F7FFFFF) (by norm_num) (by norm_num)
    rw [fval_one32.2] at p
    have q : 0 < binary32.val (CC.log1pFloat .up 0x7F7FFFFF) := by
      rw [show CC.log1pFloat .up 0x7F7FFFFF = 0x42918F98 by decide +kernel,
        lit32 false (2 ^ 23 + 0x118F98) 17 (by decide +kernel) (by decide +kernel) (by decide +kernel) (by decide +kernel)]
      norm_num [sg]
    exact ⟨⟨fun _ => by linarith, fun _ => q⟩, ⟨fun _ => by linarith, fun _ => by linarith⟩⟩
  have hm : x ≠ 0x7F7FFFFF ∨ md ≠ .up := not_and_or.1 hm
  obtain ⟨-, b⟩ := C82_log1pf_accuracy_partial md hx h hm
  obtain ⟨c, d⟩ := sign_of_rel (by split_ifs <;> norm_num) b
  have hp : 0 < 1 + binary32.val x := by linarith
  refine ⟨c.trans ((Real.log_pos_iff hp.le).trans ?_), d.trans ((Real.log_neg_iff hp).trans ?_)⟩ <;> constructor <;> intro h <;> linarith

example : CC.log1pFloat .down 1 = 1 ∧ CC.log1pFloat .up 0x80000001 = 0x80000001 := by decide +kernel

/-- **C82**: in upward mode `log1p` of the greatest float is below 73, while the real value exceeds 88. -/
theorem C82_log1pf_max_up_wrong :
    binary32.val (CC.log1pFloat .up 0x7F7FFFFF) < 73 ∧ 88 < Real.log (1 + binary32.val 0x7F7FFFFF) := by
  constructor
  · rw [show CC.log1pFloat .up 0x7F7FFFFF = 0x42918F98 by decide +kernel,
      lit32 false (2 ^ 23 + 0x118F98) 17 (by decide +kernel) (by decide +kernel) (by decide +kernel) (by decide +kernel)]
    norm_num [sg]
  · have p := pat_le32 (P := 0x7F000000) (Q := 0x7F7FFFFF) (by norm_num) (by norm_num)
    have q := pat32 (P := 0x7F000000) (by norm_num) (by norm_num)
    rw [q.2, show (((0x7F000000 / 2 ^ 23 : ℕ) : ℤ) - 150) = 104 by norm_num, show ((2 ^ 23 + 0x7F000000 % 2 ^ 23 : ℕ) : ℝ) = (2 : ℝ) ^ (23 : ℤ) by norm_num,
      ← zpow_add₀ (by norm_num)] at p
    have l := log_le_log (zpow_pos (by norm_num) _) p
    rw [log_zpow] at l
    have m := ln2_bounds
    have l2 : Real.log (binary32.val 0x7F7FFFFF) ≤ Real.log (1 + binary32.val 0x7F7FFFFF) := by
      have : 0 < binary32.val 0x7F7FFFFF := lt_of_lt_of_le (zpow_pos (by norm_num) _) p
      exact log_le_log this (by linarith)
    norm_num at m l
    linarith [m.1]

/-- **C82**: special values. Zeros are returned with their sign; -1 gives minus infinity; below -1 (minus infinity included) and at a NaN the result is a NaN. -/
theorem C82_log1pf_special (md : Mode) :
    CC.log1pFloat md 0 = 0 ∧ CC.log1pFloat md 0x80000000 = 0x80000000 ∧ CC.log1pFloat md 0xBF800000 = 0xFF800000 ∧
      CC.log1pFloat md 0x7F800000 = 0x7F800000 ∧ binary32.IsNaN (CC.log1pFloat md 0xFF800000) ∧
      (∀ x, binary32.Finite x → binary32.val x < -1 → binary32.IsNaN (CC.log1pFloat md x)) ∧ ∀ x, binary32.IsNaN x → binary32.IsNaN (CC.log1pFloat md x) := by
  refine ⟨by cases md <;> decide +kernel, by cases md <;> decide +kernel, by cases md <;> decide +kernel, by cases md <;> decide +kernel,
    by cases md <;> decide +kernel, ?_, ?_⟩
  · intro x hx h
    unfold CC.log1pFloat
    rw [(log1pTests_cases binary32 hx (by rw [mone32.1]; exact mone32.2.1) (by rw [mone32.1]; exact mone32.2.2)).2.2 h]
    decide +kernel
  · intro x hx
    unfold CC.log1pFloat CC.log1pTests
    have hn := (binary32.nanB_iff hx.1).2 hx
    have e : binary32.heq x 0 = false := by unfold heq; rw [hn]; rfl
    rw [e, CC.isnan_eq, hn, if_neg (by simp), if_pos rfl]
    decide +kernel

example : binary32.Finite 0xC0000000 ∧ binary32.IsNaN (CC.log1pFloat .nearest 0xC0000000) ∧ binary32.IsNaN 0xFF800001 := by decide +kernel

end Verif
