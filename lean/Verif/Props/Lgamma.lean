import Verif.Lemmas.Lgamma
import Verif.Props.Gamma
import Verif.Props.SinCos
import Verif.Lemmas.SinCosF4
import Verif.Lemmas.Ext

/-!
# C83 (`lgamma`: special values, definedness, integers, tiny arguments) and C84 (`lgamma` for large arguments)
-/

namespace Verif
open Fmt Real

/-- the last branches of `lgamma` -/
def lgRest (ce fused : Bool) (md : Mode) (self : ℕ → Option ℕ) (x : ℕ) : Option ℕ :=
  if binary64.hle (CC.abs binary64 x) 0x3CA0000000000000 then some (binary64.hneg (CC.logAbs md x))
  else if binary64.hge x 0x4020000000000000 then some (CC.stirling md x)
  else if binary64.hlt x 0 then do
    let s ← CC.sincosEval true ce fused md (binary64.hmul md 0x400921FB54442D18 x)
    let g ← self (binary64.hneg x)
    some (binary64.hsub md (binary64.hsub md (binary64.hsub md (CC.logDouble md 0x400921FB54442D18) (CC.logAbs md x)) (CC.logAbs md s)) g)
  else CC.logGammaReduce ce fused md x

theorem lg_zero64 : binary64.Finite 0 ∧ binary64.val 0 = 0 := ⟨by decide +kernel, (binary64.val_eq_zero_iff _).2 (by decide +kernel)⟩

theorem lg_eight64 : binary64.Finite 0x4020000000000000 ∧ binary64.val 0x4020000000000000 = 8 := by
  refine ⟨by decide +kernel, ?_⟩
  rw [one64_val.val_of_ival' (a := 8) (by decide +kernel)]; norm_num

theorem lg_abs {x : ℕ} (hx : binary64.Finite x) : binary64.Finite (CC.abs binary64 x) ∧ binary64.val (CC.abs binary64 x) = |binary64.val x| := by
  rw [CC.abs_eq binary64 hx.valid, (binary64.finite_B hx).1]
  simp only [Bool.false_eq_true, if_false]
  refine ⟨?_, CC.val_mag binary64 x⟩
  have h := (binary64.finite_iff x).1 hx
  rw [binary64.finite_iff]
  have e : binary64.mag (binary64.mag x) = binary64.mag x := Nat.mod_eq_of_lt (Nat.mod_lt _ (by positivity))
  rw [e]
  exact ⟨lt_of_le_of_lt (Nat.mod_le _ _) h.1, h.2⟩

theorem lg_tiny_iff {x : ℕ} (hx : binary64.Finite x) : binary64.hle (CC.abs binary64 x) 0x3CA0000000000000 = true ↔ |binary64.val x| ≤ 1 / 2 ^ 53 := by
  rw [CC.hle_finite binary64 (lg_abs hx).1 (by decide +kernel), (lg_abs hx).2, val_pm53.1]

theorem lg_ge_iff {x : ℕ} (hx : binary64.Finite x) : binary64.hge x 0x4020000000000000 = true ↔ 8 ≤ binary64.val x := by
  unfold hge
  rw [CC.hle_finite binary64 lg_eight64.1 hx, lg_eight64.2]

theorem lg_neg_iff {x : ℕ} (hx : binary64.Finite x) : binary64.hlt x 0 = true ↔ binary64.val x < 0 := by
  rw [CC.hlt_finite binary64 hx lg_zero64.1, lg_zero64.2]

/-- not an integer -/
theorem lg_nonint (ce fused : Bool) (md : Mode) (self : ℕ → Option ℕ) {x : ℕ} (hx : binary64.Finite x) (h : ¬ ∃ n : ℤ, binary64.val x = n) :
    CC.lgammaStep ce fused md self x = lgRest ce fused md self x := by
  have h0 : binary64.val x ≠ 0 := fun e => h ⟨0, by rw [e]; simp⟩
  obtain ⟨b1, b2⟩ := binary64.finite_B hx
  have hi : CC.isInteger x = false := by
    rw [← Bool.not_eq_true, C26_is_integer_partial hx h0]; exact h
  unfold CC.lgammaStep
  rw [FPBits.isNan_eq, FPBits.isInf_eq, b1, b2, gm_not_zero h0, hi]
  rfl

/-- an integer other than zero -/
theorem lg_int (ce fused : Bool) (md : Mode) (self : ℕ → Option ℕ) {x : ℕ} (hx : binary64.Finite x) {n : ℤ} (hn : binary64.val x = n) (h0 : n ≠ 0) :
    CC.lgammaStep ce fused md self x =
      if n < 0 then some 0x7FF0000000000000
      else if n ≤ 170 then some (CC.positiveLfactorial md n)
      else if n < 2 ^ 31 then some (CC.stirling md x) else none := by
  have h0' : binary64.val x ≠ 0 := by rw [hn]; exact_mod_cast h0
  obtain ⟨b1, b2⟩ := binary64.finite_B hx
  have hi : CC.isInteger x = true := (C26_is_integer_partial hx h0').2 ⟨n, hn⟩
  obtain ⟨f, v⟩ := gm_floor md hx hn
  have hz : binary64.hle x 0 = true ↔ n < 0 := by
    rw [CC.hle_finite binary64 hx lg_zero64.1, lg_zero64.2, hn]
    constructor
    · intro a
      have : n ≤ 0 := by exact_mod_cast a
      omega
    · intro a; exact_mod_cast a.le
  unfold CC.lgammaStep
  rw [FPBits.isNan_eq, FPBits.isInf_eq, b1, b2, gm_not_zero h0', hi]
  simp only [Bool.false_eq_true, if_false, if_true]
  by_cases c1 : n < 0
  · rw [if_pos (hz.2 c1), if_pos c1]; rfl
  · rw [if_neg (fun a => c1 (hz.1 a)), if_neg c1]
    by_cases c2 : n < 2 ^ 31
    · rw [toInt32_spec f v (by omega) c2]
      dsimp only
      by_cases c3 : n ≤ 170
      · rw [if_pos c3, if_pos c3]
      · rw [if_neg c3, if_neg c3, if_pos c2]
        have h171 : (171 : ℝ) ≤ n := by exact_mod_cast (by omega : 171 ≤ n)
        rw [if_neg, if_pos]
        · rw [lg_ge_iff hx, hn]; linarith
        · rw [lg_tiny_iff hx, hn, abs_of_pos (by linarith)]
          have : (1 : ℝ) / 2 ^ 53 < 1 := by norm_num
          linarith
    · rw [toInt32_none f v (Or.inr (by omega))]
      have c3 : ¬ n ≤ 170 := by omega
      rw [if_neg c3, if_neg c2]

/-- the recursive call plays no role for nonnegative arguments -/
theorem lg_self (ce fused : Bool) (md : Mode) (s s' : ℕ → Option ℕ) {x : ℕ} (hx : binary64.Finite x) (h : 0 < binary64.val x) :
    CC.lgammaStep ce fused md s x = CC.lgammaStep ce fused md s' x := by
  by_cases hi : ∃ n : ℤ, binary64.val x = n
  · obtain ⟨n, hn⟩ := hi
    have h0 : n ≠ 0 := by rintro rfl; rw [hn] at h; simp at h
    rw [lg_int ce fused md s hx hn h0, lg_int ce fused md s' hx hn h0]
  · rw [lg_nonint ce fused md s hx hi, lg_nonint ce fused md s' hx hi]
    unfold lgRest
    have e : binary64.hlt x 0 = false := by rw [← Bool.not_eq_true, lg_neg_iff hx]; linarith
    rw [e]; rfl

/-- **C83, soundness of the model.** `lgammaDouble` satisfies the recursive equation of the code: its body, with the recursive call answered by `lgammaDouble` itself. -/
theorem lgammaDouble_step (ce fused : Bool) (md : Mode) {x : ℕ} (hx : binary64.Valid x) :
    CC.lgammaDouble ce fused md x = CC.lgammaStep ce fused md (CC.lgammaDouble ce fused md) x := by
  by_cases hf : binary64.Finite x
  · by_cases hi : ∃ n : ℤ, binary64.val x = n
    · obtain ⟨n, hn⟩ := hi
      by_cases h0 : n = 0
      · have : FPBits.isZero binary64 x = true := by
          rw [FPBits.isZero_eq, zeroB, decide_eq_true_iff, ← val_eq_zero_iff, hn, h0]; simp
        unfold CC.lgammaDouble CC.lgammaStep
        simp only [this, if_true]
      · unfold CC.lgammaDouble
        rw [lg_int _ _ _ _ hf hn h0, lg_int _ _ _ _ hf hn h0]
    · unfold CC.lgammaDouble
      rw [lg_nonint _ _ _ _ hf hi, lg_nonint _ _ _ _ hf hi]
      unfold lgRest
      by_cases hn : binary64.val x < 0
      · have := lg_self ce fused md (fun _ => none) (CC.lgammaStep ce fused md fun _ => none) (binary64.finite_hneg hf) (by rw [binary64.val_hneg]; linarith)
        rw [this]
      · have e : binary64.hlt x 0 = false := by rw [← Bool.not_eq_true, lg_neg_iff hf]; exact hn
        rw [e]; rfl
  · have : FPBits.isNan binary64 x = true ∨ FPBits.isInf binary64 x = true := by
      rw [FPBits.isNan_eq, FPBits.isInf_eq]
      by_contra c
      push Not at c
      exact hf (binary64.finite_of_B hx (by simpa using c.1) (by simpa using c.2))
    unfold CC.lgammaDouble CC.lgammaStep
    rcases this with h | h
    · simp only [h, if_true]
    · simp only [h, if_true]

example : binary64.Valid 0xC021000000000000 ∧ (CC.lgammaDouble true false .nearest 0xC021000000000000).isSome = true := by decide +kernel

/-- **C83.** Zeros, infinities and every negative integer (however large) give `+∞`; NaN gives NaN. -/
theorem C83_special (ce fused : Bool) (md : Mode) :
    CC.lgammaDouble ce fused md 0 = some 0x7FF0000000000000 ∧ CC.lgammaDouble ce fused md 0x8000000000000000 = some 0x7FF0000000000000 ∧
      CC.lgammaDouble ce fused md 0x7FF0000000000000 = some 0x7FF0000000000000 ∧ CC.lgammaDouble ce fused md 0xFFF0000000000000 = some 0x7FF0000000000000 ∧
      (∀ x, binary64.IsNaN x → ∃ r, CC.lgammaDouble ce fused md x = some r ∧ binary64.IsNaN r) ∧
      ∀ x, binary64.Finite x → ∀ n : ℤ, binary64.val x = n → n < 0 → CC.lgammaDouble ce fused md x = some 0x7FF0000000000000 := by
  refine ⟨rfl, rfl, rfl, rfl, ?_, ?_⟩
  · intro x hx
    have hq : binary64.IsNaN (FPBits.quietNaN binary64 false 0) := by decide +kernel
    have h1 : binary64.nanB x = true := (binary64.nanB_iff hx.1).2 hx
    unfold CC.lgammaDouble CC.lgammaStep
    rw [if_pos (by rw [FPBits.isNan_eq, h1])]
    split_ifs
    · exact ⟨_, rfl, hq⟩
    · exact ⟨_, rfl, hx⟩
  · intro x hx n hn h0
    unfold CC.lgammaDouble
    rw [lg_int _ _ _ _ hx hn (by omega), if_pos h0]

-- -3 and -10^300
example : CC.lgammaDouble true false .up 0xC008000000000000 = some 0x7FF0000000000000 ∧
    CC.lgammaDouble true false .up 0xFE37E43C8800759C = some 0x7FF0000000000000 := by decide +kernel

theorem lg_reduce_some (ce fused : Bool) (md : Mode) (hce : ce = true → md = .nearest) {x : ℕ} (hx : binary64.Finite x) (h0 : 0 < binary64.val x) (h8 : binary64.val x ≤ 8) :
    (CC.logGammaReduce ce fused md x).isSome = true := by
  unfold CC.logGammaReduce CC.gammaReduce
  rw [Option.isSome_map, Option.isSome_map]
  have fb : binary64.Finite CC.gammaBase := by decide +kernel
  have vb : binary64.val CC.gammaBase = 23 / 8 := by
    rw [CC.gammaBase, lit64 false (2 ^ 52 + 0x7000000000000) 51 (by decide +kernel) (by decide +kernel) (by decide +kernel) (by decide +kernel)]; norm_num [sg]
  have R := binary64.hsub_spec md hx fb
  rw [vb] at R
  have hb : |binary64.val x - 23 / 8| ≤ 6 := by rw [abs_le]; constructor <;> linarith
  obtain ⟨fm, em⟩ := err64 R (hb.trans (by norm_num))
  have hm : |binary64.val (binary64.hsub md x CC.gammaBase)| ≤ 7 := by
    refine (abs_near em hb).trans ?_
    have := mul_le_mul (ru_le md) hb (abs_nonneg _) (by norm_num)
    have := eta_le
    norm_num at *; linarith
  obtain ⟨fi, n, hn, hd⟩ := ni64 ce md hce fm (hm.trans (by norm_num))
  generalize binary64.hsub md x CC.gammaBase = m at *
  generalize CC.nearestInteger binary64 ce md m = i at *
  have hn8 : |(n : ℝ)| ≤ 8 := by
    rw [abs_le] at *
    have : (1 : ℝ) / 2 ^ 53 ≤ 1 / 2 := by norm_num
    constructor <;> linarith [hm.1, hm.2, hd.1, hd.2]
  have hn8' : |n| ≤ 8 := by exact_mod_cast hn8
  have := abs_le.1 hn8'
  split_ifs
  · rw [toInt32_spec (n := -n) (binary64.finite_hneg fi) (by rw [binary64.val_hneg, hn]; push_cast; ring) (by omega) (by omega)]; rfl
  · rw [toInt32_spec fi hn (by omega) (by omega)]; rfl

/-- **C83.** `lgamma` is defined except for the integers from `2^31` on, where `floor(x)` is converted to `int32` (so in particular for every finite double from `2^52` on, where
`lgamma` should return a finite number up to about `2.5·10^305`). Constant evaluation assumes round-to-nearest, as the translation does. -/
theorem C83_defined_partial (ce fused : Bool) (md : Mode) (hce : ce = true → md = .nearest) {x : ℕ} (hx : binary64.Valid x) :
    CC.lgammaDouble ce fused md x = none ↔ binary64.Finite x ∧ ∃ n : ℤ, binary64.val x = n ∧ 2 ^ 31 ≤ n := by
  by_cases hf : binary64.Finite x
  · by_cases hi : ∃ n : ℤ, binary64.val x = n
    · obtain ⟨n, hn⟩ := hi
      have hex : (binary64.Finite x ∧ ∃ n : ℤ, binary64.val x = n ∧ 2 ^ 31 ≤ n) ↔ 2 ^ 31 ≤ n := by
        constructor
        · rintro ⟨-, m, hm, h⟩
          have : m = n := by exact_mod_cast hm.symm.trans hn
          omega
        · exact fun h => ⟨hf, n, hn, h⟩
      rw [hex]
      by_cases h0 : n = 0
      · have : FPBits.isZero binary64 x = true := by
          rw [FPBits.isZero_eq, zeroB, decide_eq_true_iff, ← val_eq_zero_iff, hn, h0]; simp
        obtain ⟨b1, b2⟩ := binary64.finite_B hf
        unfold CC.lgammaDouble CC.lgammaStep
        rw [FPBits.isNan_eq, FPBits.isInf_eq, b1, b2, this]
        simp [h0]
      · unfold CC.lgammaDouble
        rw [lg_int _ _ _ _ hf hn h0]
        split_ifs <;> simp <;> omega
    · have hno : ¬ (binary64.Finite x ∧ ∃ n : ℤ, binary64.val x = n ∧ 2 ^ 31 ≤ n) := by
        rintro ⟨-, n, h, -⟩; exact hi ⟨n, h⟩
      refine iff_of_false ?_ hno
      have main : ∀ (s : ℕ → Option ℕ) {y : ℕ}, binary64.Finite y → (¬ ∃ n : ℤ, binary64.val y = n) → 0 < binary64.val y → (CC.lgammaStep ce fused md s y).isSome = true := by
        intro s y fy hy h
        rw [lg_nonint _ _ _ _ fy hy]
        unfold lgRest
        have e : binary64.hlt y 0 = false := by rw [← Bool.not_eq_true, lg_neg_iff fy]; linarith
        rw [e]
        split_ifs with c1 c2
        · rfl
        · rfl
        · contradiction
        · rw [lg_ge_iff fy] at c2
          exact lg_reduce_some ce fused md hce fy h (by linarith)
      rw [← Option.not_isSome_iff_eq_none, not_not]
      have h0 : binary64.val x ≠ 0 := fun e => hi ⟨0, by rw [e]; simp⟩
      rcases lt_or_gt_of_ne h0 with h | h
      · unfold CC.lgammaDouble
        rw [lg_nonint _ _ _ _ hf hi]
        unfold lgRest
        have e : binary64.hlt x 0 = true := (lg_neg_iff hf).2 h
        rw [e]
        split_ifs with c1 c2
        · rfl
        · rfl
        · have hs := C58_defined true ce fused md hce (x := binary64.hmul md 0x400921FB54442D18 x) (valid_hmul binary64 md _ _)
          have hg := main (fun _ => none) (binary64.finite_hneg hf) (by
            rintro ⟨n, hn⟩; rw [binary64.val_hneg] at hn; exact hi ⟨-n, by push_cast; linarith⟩) (by rw [binary64.val_hneg]; linarith)
          obtain ⟨s, hs⟩ := Option.isSome_iff_exists.1 hs
          obtain ⟨g, hg⟩ := Option.isSome_iff_exists.1 hg
          rw [hs, hg]; rfl
        · contradiction
      · exact main _ hf hi h
  · refine iff_of_false ?_ (fun h => hf h.1)
    have : FPBits.isNan binary64 x = true ∨ FPBits.isInf binary64 x = true := by
      rw [FPBits.isNan_eq, FPBits.isInf_eq]
      by_contra c
      push Not at c
      exact hf (binary64.finite_of_B hx (by simpa using c.1) (by simpa using c.2))
    unfold CC.lgammaDouble CC.lgammaStep
    rcases this with h | h
    · simp only [h, if_true]; split_ifs <;> simp
    · simp only [h, if_true]; split_ifs <;> simp

-- 2^31 is undefined, 2^31 - 1/2 is not
example : CC.lgammaDouble true false .nearest 0x41E0000000000000 = none ∧ (CC.lgammaDouble true false .nearest 0x41DFFFFFFFE00000).isSome = true := by decide +kernel

/-- **C83.** At every integer `k` from 1 to 170, `lgamma` is finite and within `1.01 k` roundings of `log ((k - 1)!)`; it is exactly `+0` at 1 and 2. -/
theorem C83_integer (ce fused : Bool) (md : Mode) {x : ℕ} (hx : binary64.Finite x) {k : ℕ} (hk : binary64.val x = k) (h1 : 1 ≤ k) (h2 : k ≤ 170) :
    ∃ r, CC.lgammaDouble ce fused md x = some r ∧ binary64.Finite r ∧
      |binary64.val r - log (Real.Gamma k)| ≤ 1.01 * k * (if md = .nearest then 1 / 2 ^ 53 else 1 / 2 ^ 52) * log (Real.Gamma k) ∧ (k ≤ 2 → r = 0) := by
  have hr : (if md = .nearest then 1 / 2 ^ 53 else 1 / 2 ^ 52) = ru md := rfl
  have hG : Real.Gamma k = ((k - 1).factorial : ℕ) := by
    have := Real.Gamma_nat_eq_factorial (k - 1)
    rw [← this]; congr 1
    rw [Nat.cast_sub h1]; simp
  rw [hr, hG]
  unfold CC.lgammaDouble
  rw [lg_int ce fused md _ hx (n := k) (by exact_mod_cast hk) (by omega), if_neg (by omega), if_pos (by omega)]
  refine ⟨_, rfl, ?_⟩
  have c : (1.01 : ℝ) = 101 / 100 := by norm_num
  unfold CC.positiveLfactorial
  by_cases hk2 : k ≤ 2
  · rw [if_pos (by omega)]
    refine ⟨lg_zero64.1, ?_, fun _ => rfl⟩
    have : (k - 1).factorial = 1 := by
      interval_cases k <;> rfl
    rw [lg_zero64.2, this]; simp
  · rw [if_neg (by omega)]
    have e : ((k : ℤ) - 2).toNat = k - 2 := by omega
    rw [e]
    obtain ⟨a, b⟩ := lfact_err md (k - 2) (by omega)
    have e2 : k - 2 + 1 = k - 1 := by omega
    rw [e2] at b
    refine ⟨a, b.trans ?_, fun h => absurd h hk2⟩
    refine mul_le_mul_of_nonneg_right (mul_le_mul_of_nonneg_right ?_ (ru_pos md).le) (log_natCast_nonneg _)
    rw [Nat.cast_sub (by omega), c]; push_cast; linarith

-- lgamma(4)
example : CC.lgammaDouble true false .nearest 0x4010000000000000 = some 0x3FFCAB0BFA2A2002 := by decide +kernel

/-- **C83.** For every `x` with `0 < |x| ≤ 2^-53`, of either sign and in every rounding mode, `lgamma` is finite and within 1.3 roundings of `log |Γ(x)|`. -/
theorem C83_tiny (ce fused : Bool) (md : Mode) {x : ℕ} (hx : binary64.Finite x) (h0 : binary64.val x ≠ 0) (h1 : |binary64.val x| ≤ 1 / 2 ^ 53) :
    ∃ r, CC.lgammaDouble ce fused md x = some r ∧ binary64.Finite r ∧
      |binary64.val r - log (|Real.Gamma (binary64.val x)|)| ≤ 1.3 * (if md = .nearest then 1 / 2 ^ 53 else 1 / 2 ^ 52) * log (|Real.Gamma (binary64.val x)|) := by
  have hr : (if md = .nearest then 1 / 2 ^ 53 else 1 / 2 ^ 52) = ru md := rfl
  rw [hr]
  have hX := abs_pos.2 h0
  have hi : ¬ ∃ n : ℤ, binary64.val x = n := by
    rintro ⟨n, hn⟩
    rw [hn] at h0 h1
    have : n ≠ 0 := by exact_mod_cast h0
    have h3 : 1 ≤ |n| := Int.one_le_abs this
    have h4 : (1 : ℝ) ≤ |(n : ℝ)| := by exact_mod_cast h3
    norm_num at h1; linarith
  obtain ⟨fa, va⟩ := lg_abs hx
  unfold CC.lgammaDouble
  rw [lg_nonint ce fused md _ hx hi]
  unfold lgRest
  rw [if_pos ((lg_tiny_iff hx).2 h1)]
  obtain ⟨fl, el⟩ := C72_log_accuracy md fa (by rw [va]; exact hX)
  rw [hr, va] at el
  refine ⟨_, rfl, binary64.finite_hneg fl, ?_⟩
  rw [binary64.val_hneg]
  change |-binary64.val (CC.logDouble md (CC.abs binary64 x)) - _| ≤ _
  generalize binary64.val (CC.logDouble md (CC.abs binary64 x)) = L at *
  clear fl fa va
  generalize binary64.val x = X at *
  have hu := ru_pos md
  have hu1 := ru_ge md
  have hG := gamma_near_one (x := X) (h1.trans (by norm_num))
  have eG : Real.Gamma (X + 1) = X * Real.Gamma X := Real.Gamma_add_one h0
  have n := log_near (c := Real.Gamma (X + 1)) (E := 1) (u := 1546 / 1000 * |X|) one_pos (by norm_num at *; linarith) (by positivity)
    (by linarith [(abs_le.1 hG).2]) (by linarith [(abs_le.1 hG).1])
  rw [log_one, sub_zero] at n
  have hG0 : Real.Gamma X ≠ 0 := by
    intro e
    rw [e, mul_zero] at eG
    rw [eG] at hG
    norm_num at *; linarith
  have e1 : log |Real.Gamma X| = log (Real.Gamma (X + 1)) - log |X| := by
    rw [← log_abs (Real.Gamma (X + 1)), eG, abs_mul, log_mul hX.ne' (abs_pos.2 hG0).ne']; ring
  have hl : log |X| ≤ -36 := by
    have := log_le_log hX h1
    rw [log_div one_ne_zero (by norm_num), log_one, log_pow] at this
    have m := ln2_bounds.1
    norm_num at *; linarith
  rw [e1]
  generalize log (Real.Gamma (X + 1)) = D at *
  generalize log |X| = M at *
  have hD : |D| ≤ 16 / 10 * ru md := by
    refine n.trans ?_
    have h2 : (1546 / 1000 * |X|) ^ 2 ≤ 1546 / 1000 * |X| * (1 / 1000) := by
      rw [sq]; exact mul_le_mul_of_nonneg_left (by norm_num at *; linarith) (by positivity)
    norm_num at *; linarith
  rw [abs_of_neg (show M < 0 by linarith)] at el
  have e2 : |-L - (D - M)| ≤ 1.25 * ru md * -M + 16 / 10 * ru md := by
    rw [show -L - (D - M) = -(L - M) + -D by ring]
    exact abs_add_le' (by rw [abs_neg]; exact el) (by rw [abs_neg]; exact hD)
  refine e2.trans ?_
  have h3 : ru md * (-D) ≤ ru md * (1 / 100) := by
    refine mul_le_mul_of_nonneg_left ?_ hu.le
    have := ru_le md
    have := (abs_le.1 hD).1
    norm_num at *; linarith
  have h4 : ru md * 36 ≤ ru md * -M := mul_le_mul_of_nonneg_left (by linarith) hu.le
  norm_num at *; linarith

-- -10^-17
example : binary64.Finite 0xBC670EF54646D497 ∧ CC.lgammaDouble true false .nearest 0xBC670EF54646D497 = some 0x4043926CD770AA67 := by decide +kernel

/-- what `lgamma` does from 8 on -/
theorem lg_large (ce fused : Bool) (md : Mode) {x : ℕ} (hx : binary64.Finite x) (h1 : 8 ≤ binary64.val x) (h2 : ∀ n : ℤ, binary64.val x = n → 171 ≤ n ∧ n < 2 ^ 31) :
    CC.lgammaDouble ce fused md x = some (CC.stirling md x) ∧ binary64.val x ≤ 2 ^ 53 := by
  by_cases hi : ∃ n : ℤ, binary64.val x = n
  · obtain ⟨n, hn⟩ := hi
    obtain ⟨a, b⟩ := h2 n hn
    unfold CC.lgammaDouble
    rw [lg_int _ _ _ _ hx hn (by omega), if_neg (by omega), if_neg (by omega), if_pos b]
    refine ⟨rfl, ?_⟩
    rw [hn]
    have : (n : ℝ) ≤ 2 ^ 31 := by exact_mod_cast b.le
    exact this.trans (by norm_num)
  · unfold CC.lgammaDouble
    rw [lg_nonint _ _ _ _ hx hi]
    unfold lgRest
    refine ⟨?_, ?_⟩
    · rw [if_neg, if_pos ((lg_ge_iff hx).2 h1)]
      rw [lg_tiny_iff hx, abs_of_pos (by linarith)]
      have : (1 : ℝ) / 2 ^ 53 < 1 := by norm_num
      linarith
    · by_contra c
      push Not at c
      refine hi ?_
      have h3 := (le_abs_self _).trans_lt (binary64.abs_val_lt_ce x)
      have hF : (binary64.F : ℤ) = 52 := by decide +kernel
      rw [hF] at h3
      have h4 : (2 : ℝ) ^ (53 : ℤ) < 2 ^ (binary64.ce x + 52 + 1) := lt_trans (by norm_cast at c ⊢) h3
      have h5 := (zpow_lt_zpow_iff_right₀ (by norm_num)).1 h4
      obtain ⟨a, ha⟩ := (binary64.mult_ce x).weaken (show (0 : ℤ) ≤ binary64.ce x by omega)
      exact ⟨a, by rw [ha]; simp⟩

/-- **C84.** From 8 on, for every argument that takes the branch of Stirling's formula (any non-integer, and the integers from 171 to `2^31 - 1`), in every rounding mode, the result
exceeds `log Γ(x)` by an amount between `0.083/x` and `0.1667/x`, up to 7 roundings of `x log x`. What is missing: the accuracy of a few roundings, see `C84_stirling_wrong`. -/
theorem C84_stirling_partial (ce fused : Bool) (md : Mode) {x : ℕ} (hx : binary64.Finite x) {X : ℝ} (hX : binary64.val x = X) (h1 : 8 ≤ X)
    (h2 : ∀ n : ℤ, X = n → 171 ≤ n ∧ n < 2 ^ 31) :
    ∃ r, CC.lgammaDouble ce fused md x = some r ∧ binary64.Finite r ∧
      0.083 / X - 7 * (if md = .nearest then 1 / 2 ^ 53 else 1 / 2 ^ 52) * (X * log X) ≤ binary64.val r - log (Real.Gamma X) ∧
      binary64.val r - log (Real.Gamma X) ≤ 0.1667 / X + 7 * (if md = .nearest then 1 / 2 ^ 53 else 1 / 2 ^ 52) * (X * log X) := by
  have hr : (if md = .nearest then 1 / 2 ^ 53 else 1 / 2 ^ 52) = ru md := rfl
  rw [hr]
  obtain ⟨e, hb⟩ := lg_large ce fused md hx (by rw [hX]; exact h1) (by rw [hX]; exact h2)
  obtain ⟨f, K, k1, k2, er⟩ := stirling_err md hx hX h1 (by rw [← hX]; exact hb)
  refine ⟨_, e, f, ?_⟩
  obtain ⟨s1, s2⟩ := stir_bounds (show 0 < X by linarith)
  unfold stir at s1 s2
  have X0 : 0 < X := by linarith
  have i1 : 1664 / 10000 / X ≤ K / X := div_le_div_of_nonneg_right k1 X0.le
  have i2 : K / X ≤ 1667 / 10000 / X := div_le_div_of_nonneg_right k2 X0.le
  have e3 : 1 / (12 * X) = (1 / 12) / X := by field_simp
  rw [e3] at s2
  have i3 : (0.083 : ℝ) / X ≤ 1664 / 10000 / X - 1 / 12 / X := by
    rw [← sub_div]; exact div_le_div_of_nonneg_right (by norm_num) X0.le
  have i4 : (0.1667 : ℝ) / X = 1667 / 10000 / X := by norm_num
  rw [i4]
  have := abs_le.1 er
  constructor <;> linarith [this.1, this.2]

-- 8.5
example : binary64.Finite 0x4021000000000000 ∧ CC.lgammaDouble true false .nearest 0x4021000000000000 = some 0x40231E3CD1DE393B := by decide +kernel

/-- **C84, violated.** Over the whole interval from 8 to `2^19`, for every argument that takes the branch of Stirling's formula and in every rounding mode, the result is too large by
at least `1/(13 x)`: the first term of the correction is `1/6` where Stirling's series has `1/12`. -/
theorem C84_stirling_wrong (ce fused : Bool) (md : Mode) {x : ℕ} (hx : binary64.Finite x) {X : ℝ} (hX : binary64.val x = X) (h1 : 8 ≤ X) (h1' : X ≤ 2 ^ 19)
    (h2 : ∀ n : ℤ, X = n → 171 ≤ n) :
    ∃ r, CC.lgammaDouble ce fused md x = some r ∧ binary64.Finite r ∧ log (Real.Gamma X) + 1 / (13 * X) ≤ binary64.val r := by
  obtain ⟨r, a, b, c, -⟩ := C84_stirling_partial ce fused md hx hX h1 (fun n hn => ⟨h2 n hn, by
    rw [hn] at h1'
    have h3 : n ≤ 2 ^ 19 := by exact_mod_cast h1'
    omega⟩)
  refine ⟨r, a, b, ?_⟩
  have hr : (if md = .nearest then 1 / 2 ^ 53 else 1 / 2 ^ 52) = ru md := rfl
  rw [hr] at c
  have X0 : 0 < X := by linarith
  have l0 : 0 ≤ log X := log_nonneg (by linarith)
  have l2 : log X ≤ 1318 / 100 := by
    have := log_le_log X0 h1'
    rw [log_pow] at this
    have m := ln2_bounds.2
    norm_num at *; linarith
  have hu := ru_pos md
  have k : 7 * ru md * (X * log X) ≤ (564 / 100000) / X := by
    rw [le_div_iff₀ X0]
    have q1 : X * X ≤ 2 ^ 19 * 2 ^ 19 := mul_le_mul h1' h1' X0.le (by norm_num)
    have q2 : X * X * log X ≤ 2 ^ 19 * 2 ^ 19 * (1318 / 100) := mul_le_mul q1 l2 l0 (by norm_num)
    have q3 : ru md * (X * X * log X) ≤ 1 / 2 ^ 52 * (2 ^ 19 * 2 ^ 19 * (1318 / 100)) := mul_le_mul (ru_le md) q2 (by positivity) (by norm_num)
    rw [show 7 * ru md * (X * log X) * X = 7 * (ru md * (X * X * log X)) by ring]
    norm_num at *; linarith
  have e : 1 / (13 * X) = (1 / 13) / X := by field_simp
  have i3 : (1 / 13 : ℝ) / X ≤ 0.083 / X - 564 / 100000 / X := by
    rw [← sub_div]; exact div_le_div_of_nonneg_right (by norm_num) X0.le
  rw [e]; linarith

-- 8.5, 176
example : binary64.Finite 0x4066000000000000 ∧ CC.lgammaDouble true false .nearest 0x4066000000000000 = some 0x4086E2B7F7063350 := by decide +kernel

/-- **C84.** From `2^26` on (non-integers, or integers below `2^31`) the wrong term no longer matters: the result is within 8 roundings of `log Γ(x)` in every rounding mode. -/
theorem C84_stirling_large (ce fused : Bool) (md : Mode) {x : ℕ} (hx : binary64.Finite x) {X : ℝ} (hX : binary64.val x = X) (h1 : 2 ^ 26 ≤ X)
    (h2 : ∀ n : ℤ, X = n → n < 2 ^ 31) :
    ∃ r, CC.lgammaDouble ce fused md x = some r ∧ binary64.Finite r ∧
      |binary64.val r - log (Real.Gamma X)| ≤ 8 * (if md = .nearest then 1 / 2 ^ 53 else 1 / 2 ^ 52) * log (Real.Gamma X) := by
  obtain ⟨r, a, b, c, d⟩ := C84_stirling_partial ce fused md hx hX (le_trans (by norm_num) h1) (fun n hn => ⟨by
    rw [hn] at h1
    have h3 : 2 ^ 26 ≤ n := by exact_mod_cast h1
    omega, h2 n hn⟩)
  refine ⟨r, a, b, ?_⟩
  have hr : (if md = .nearest then 1 / 2 ^ 53 else 1 / 2 ^ 52) = ru md := rfl
  rw [hr] at c d ⊢
  have X0 : 0 < X := lt_of_lt_of_le (by norm_num) h1
  have l1 : 18 ≤ log X := by
    have := log_le_log (by norm_num) h1
    rw [log_pow] at this
    have m := ln2_bounds.1
    norm_num at *; linarith
  have hu := ru_pos md
  have hu1 := ru_ge md
  obtain ⟨s1, s2⟩ := stir_bounds X0
  unfold stir at s1
  have hc0 : 0 ≤ log (2 * π) := log_nonneg (by linarith [pi_gt_three])
  have hY : 17 / 18 * (X * log X) - 1 / 2 * log X ≤ log (Real.Gamma X) := by
    have : X * 18 ≤ X * log X := mul_le_mul_of_nonneg_left l1 X0.le
    linarith
  have hY2 : 94 / 100 * (X * log X) ≤ log (Real.Gamma X) := by
    have : 2 ^ 26 * log X ≤ X * log X := mul_le_mul_of_nonneg_right h1 (by linarith)
    norm_num at *; linarith
  have k : (0.1667 : ℝ) / X ≤ ru md * (X * log X) * (2 / 100) := by
    rw [div_le_iff₀ X0]
    have q1 : (2 : ℝ) ^ 26 * 2 ^ 26 ≤ X * X := mul_le_mul h1 h1 (by norm_num) X0.le
    have q2 : 2 ^ 26 * 2 ^ 26 * 18 ≤ X * X * log X := mul_le_mul q1 l1 (by norm_num) (by positivity)
    have q3 : 1 / 2 ^ 53 * (2 ^ 26 * 2 ^ 26 * 18) ≤ ru md * (X * X * log X) := mul_le_mul hu1 q2 (by norm_num) hu.le
    rw [show ru md * (X * log X) * (2 / 100) * X = ru md * (X * X * log X) * (2 / 100) by ring]
    norm_num at *; linarith
  have k0 : 0 ≤ (0.083 : ℝ) / X := by positivity
  have q := mul_le_mul_of_nonneg_left hY2 hu.le
  have q0 : 0 ≤ ru md * (X * log X) := by positivity
  rw [abs_le]
  constructor <;> linarith

-- 2^26 + 1/2
example : binary64.Finite 0x4190000002000000 ∧ (CC.lgammaDouble true false .nearest 0x4190000002000000).isSome = true := by decide +kernel

/-- **C83 (float).** The float version: zeros, infinities and negative integers give `+∞`, and the behaviour is undefined exactly for the integers from `2^31` on, that is for every
float from `2^31` on. -/
theorem C83_float_special (ce fused : Bool) (md : Mode) :
    CC.lgammaFloat ce fused md 0 = some 0x7F800000 ∧ CC.lgammaFloat ce fused md 0x80000000 = some 0x7F800000 ∧
      CC.lgammaFloat ce fused md 0x7F800000 = some 0x7F800000 ∧ CC.lgammaFloat ce fused md 0xFF800000 = some 0x7F800000 ∧
      (∀ x, binary32.Finite x → ∀ n : ℤ, binary32.val x = n → n < 0 → CC.lgammaFloat ce fused md x = some 0x7F800000) := by
  obtain ⟨s1, s2, s3, s4, -⟩ := C83_special ce fused md
  have ec : binary32.hcvt binary64 md 0x7FF0000000000000 = 0x7F800000 := by cases md <;> decide +kernel
  have e0 : binary64.hcvt binary32 md 0 = 0 := by cases md <;> decide +kernel
  have e1 : binary64.hcvt binary32 md 0x80000000 = 0x8000000000000000 := by cases md <;> decide +kernel
  have e2 : binary64.hcvt binary32 md 0x7F800000 = 0x7FF0000000000000 := by cases md <;> decide +kernel
  have e3 : binary64.hcvt binary32 md 0xFF800000 = 0xFFF0000000000000 := by cases md <;> decide +kernel
  refine ⟨?_, ?_, ?_, ?_, ?_⟩
  · unfold CC.lgammaFloat; rw [e0, s1, Option.map_some, ec]
  · unfold CC.lgammaFloat; rw [e1, s2, Option.map_some, ec]
  · unfold CC.lgammaFloat; rw [e2, s3, Option.map_some, ec]
  · unfold CC.lgammaFloat; rw [e3, s4, Option.map_some, ec]
  · intro x hx n hn h
    obtain ⟨f, v⟩ := cvt_up md hx
    unfold CC.lgammaFloat
    rw [(C83_special ce fused md).2.2.2.2.2 _ f n (by rw [v, hn]) h, Option.map_some, ec]

example : CC.lgammaFloat true false .up 0xC0400000 = some 0x7F800000 := by decide +kernel

/-- **C83 (float).** See `C83_defined_partial`. -/
theorem C83_float_defined_partial (ce fused : Bool) (md : Mode) (hce : ce = true → md = .nearest) {x : ℕ} (hx : binary32.Finite x) :
    CC.lgammaFloat ce fused md x = none ↔ ∃ n : ℤ, binary32.val x = n ∧ 2 ^ 31 ≤ n := by
  obtain ⟨f, v⟩ := cvt_up md hx
  unfold CC.lgammaFloat
  rw [Option.map_eq_none_iff, C83_defined_partial ce fused md hce f.valid, v]
  exact ⟨fun h => h.2, fun h => ⟨f, h⟩⟩

-- 2^31
example : CC.lgammaFloat true false .nearest 0x4F000000 = none := by decide +kernel

end Verif
