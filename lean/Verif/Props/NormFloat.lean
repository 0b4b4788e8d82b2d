import Verif.Model.NormFloat
import Verif.Lemmas.Ldexp
import Verif.Lemmas.Dyadic
import Verif.Props.Nearest

/-!
# C99: `NormalizedFloat` represents, compares and scales numbers exactly

A record is normalised when its mantissa has exactly `F + 1` bits.  On normalised records `cmp` is the comparison of the values and `mul2` the
multiplication by a power of two, and the conversion back rounds once.  Zero, the infinities and NaN are not represented: they become `±1`, and zero
compares as if it were the number one with an empty mantissa.
-/

namespace Verif
open Fmt CC

/-- the number a record stands for -/
noncomputable def CC.NormalizedFloat.value (f : Fmt) (n : NormalizedFloat) : ℝ := (if n.sign then -1 else 1) * (n.mantissa * 2 ^ (n.exponent - f.F))
/-- the mantissa has exactly `F + 1` bits -/
def CC.NormalizedFloat.Normal (f : Fmt) (n : NormalizedFloat) : Prop := 2 ^ f.F ≤ n.mantissa ∧ n.mantissa < 2 ^ (f.F + 1)

variable (f : Fmt)

theorem nf_value_eq (n : NormalizedFloat) : NormalizedFloat.value f n = sg n.sign * ((n.mantissa : ℝ) * 2 ^ (n.exponent - f.F)) := by
  unfold NormalizedFloat.value sg; rfl

/-- C99: the record made from a finite number other than zero is normalised and has its value; converting it back gives the number again -/
theorem C99_round_trip {x : ℕ} (hx : f.Finite x) (h0 : f.val x ≠ 0) :
    (NormalizedFloat.ofBits f x).Normal f ∧ (NormalizedFloat.ofBits f x).value f = f.val x ∧ (NormalizedFloat.ofBits f x).convert f = x := by
  obtain ⟨h1, h2, h3, h4⟩ := ofBits_spec f hx h0
  refine ⟨⟨h1, h2⟩, ?_, ?_⟩
  · rw [nf_value_eq, h3, ← h4]
  · have R := convert_spec f h1 h2 (s := f.sgn x) (e := (NormalizedFloat.ofBits f x).exponent) (f.sgn x)
    rw [← h4] at R
    have e : (⟨(NormalizedFloat.ofBits f x).exponent, (NormalizedFloat.ofBits f x).mantissa, f.sgn x⟩ : NormalizedFloat) = NormalizedFloat.ofBits f x := by
      rw [← h3]
    rw [e] at R
    exact RoundsTo.unique f R (f.roundsTo_self (m := .nearest) hx)

/-- C99: the constructor from fields normalises every mantissa of at most `F + 1` bits without changing the value -/
theorem C99_of_fields (s : Bool) (e : ℤ) {m : ℕ} (hm : 0 < m) (hm2 : m < 2 ^ (f.F + 1)) (he : -2 ^ 31 + f.F ≤ e) (he2 : e < 2 ^ 31) :
    ∃ n, NormalizedFloat.ofFields f s e m = some n ∧ n.Normal f ∧ n.sign = s ∧ n.value f = (if s then -1 else 1) * ((m : ℝ) * 2 ^ (e - f.F)) := by
  unfold NormalizedFloat.ofFields
  rw [Nat.one_shiftLeft]
  by_cases h : m ≥ 2 ^ f.F
  · rw [if_pos h]
    exact ⟨_, rfl, ⟨h, hm2⟩, rfl, rfl⟩
  · rw [if_neg h]
    obtain ⟨j, h1, h2, h3⟩ := normShift_spec f f.F m 0 hm hm2 (Nat.le_mul_of_pos_left _ hm)
    have hj : j ≤ f.F := by
      by_contra hj
      have h5 : 2 ^ (f.F + 1) ≤ 2 ^ j := Nat.pow_le_pow_right (by norm_num) (by omega)
      have h6 : 2 ^ j ≤ m * 2 ^ j := Nat.le_mul_of_pos_left _ hm
      omega
    rw [zero_add] at h1
    simp only [h1, Nat.shiftLeft_eq]
    unfold NormalizedFloat.int32
    rw [if_pos ⟨by omega, by omega⟩]
    refine ⟨_, rfl, ⟨h2, h3⟩, rfl, ?_⟩
    unfold NormalizedFloat.value
    congr 1
    push_cast
    rw [mul_assoc, ← zpow_natCast, ← zpow_add₀ (by norm_num)]
    congr 2; ring

/-- C99: `cmp` of normalised records is the comparison of their values: the sign of the difference -/
theorem C99_cmp {a b : NormalizedFloat} (ha : a.Normal f) (hb : b.Normal f) :
    (a.cmp b = 1 ↔ b.value f < a.value f) ∧ (a.cmp b = 0 ↔ a.value f = b.value f) ∧ (a.cmp b = -1 ↔ a.value f < b.value f) := by
  obtain ⟨a1, a2⟩ := ha
  obtain ⟨b1, b2⟩ := hb
  have hp := f.two_pow_F_pos
  have pz : ∀ k : ℤ, (0 : ℝ) < 2 ^ k := fun k => zpow_pos (by norm_num) k
  have am : (0 : ℝ) < a.mantissa := by exact_mod_cast (show 0 < a.mantissa by omega)
  have bm : (0 : ℝ) < b.mantissa := by exact_mod_cast (show 0 < b.mantissa by omega)
  have av := mul_pos am (pz (a.exponent - f.F))
  have bv := mul_pos bm (pz (b.exponent - f.F))
  -- the magnitudes compare like (exponent, mantissa)
  have expLt : ∀ c d : NormalizedFloat, 2 ^ f.F ≤ d.mantissa → c.mantissa < 2 ^ (f.F + 1) → c.exponent < d.exponent →
      (c.mantissa : ℝ) * 2 ^ (c.exponent - f.F) < d.mantissa * 2 ^ (d.exponent - f.F) := by
    intro c d hd hc he
    have h1 : (c.mantissa : ℝ) < 2 ^ (f.F + 1) := by exact_mod_cast hc
    have h2 : (2 : ℝ) ^ f.F ≤ d.mantissa := by exact_mod_cast hd
    have h3 : (2 : ℝ) ^ (c.exponent - f.F + 1) ≤ 2 ^ (d.exponent - f.F) := zpow_le_zpow_right₀ (by norm_num) (by omega)
    rw [zpow_add₀ (by norm_num), zpow_one] at h3
    calc (c.mantissa : ℝ) * 2 ^ (c.exponent - f.F) < 2 ^ (f.F + 1) * 2 ^ (c.exponent - f.F) := mul_lt_mul_of_pos_right h1 (pz _)
      _ = 2 ^ f.F * (2 ^ (c.exponent - f.F) * 2) := by rw [pow_succ]; ring
      _ ≤ 2 ^ f.F * 2 ^ (d.exponent - f.F) := mul_le_mul_of_nonneg_left h3 (by positivity)
      _ ≤ d.mantissa * 2 ^ (d.exponent - f.F) := mul_le_mul_of_nonneg_right h2 (pz _).le
  have manLt : ∀ c d : NormalizedFloat, c.exponent = d.exponent → c.mantissa < d.mantissa →
      (c.mantissa : ℝ) * 2 ^ (c.exponent - f.F) < d.mantissa * 2 ^ (d.exponent - f.F) := by
    intro c d he hm
    rw [he]
    exact mul_lt_mul_of_pos_right (by exact_mod_cast hm) (pz _)
  set A := (a.mantissa : ℝ) * 2 ^ (a.exponent - f.F) with hA
  set B := (b.mantissa : ℝ) * 2 ^ (b.exponent - f.F) with hB
  have va : a.value f = (if a.sign then -1 else 1) * A := rfl
  have vb : b.value f = (if b.sign then -1 else 1) * B := rfl
  -- three outcomes for the magnitudes
  have key : (a.exponent > b.exponent ∨ (a.exponent = b.exponent ∧ a.mantissa > b.mantissa)) ∧ B < A ∨
      (a.exponent = b.exponent ∧ a.mantissa = b.mantissa) ∧ A = B ∨
      (a.exponent < b.exponent ∨ (a.exponent = b.exponent ∧ a.mantissa < b.mantissa)) ∧ A < B := by
    rcases lt_trichotomy a.exponent b.exponent with h | h | h
    · exact .inr (.inr ⟨.inl h, expLt a b b1 a2 h⟩)
    · rcases lt_trichotomy a.mantissa b.mantissa with h' | h' | h'
      · exact .inr (.inr ⟨.inr ⟨h, h'⟩, manLt a b h h'⟩)
      · exact .inr (.inl ⟨⟨h, h'⟩, by rw [hA, hB, h, h']⟩)
      · exact .inl ⟨.inr ⟨h, h'⟩, manLt b a h.symm h'⟩
    · exact .inl ⟨.inl h, expLt b a a1 b2 h⟩
  rw [va, vb]
  unfold NormalizedFloat.cmp
  rcases Bool.eq_false_or_eq_true a.sign with sa | sa <;> rcases Bool.eq_false_or_eq_true b.sign with sb | sb <;>
    simp only [sa, sb, ne_eq, not_true_eq_false, not_false_eq_true, if_true, if_false, Bool.false_eq_true, Bool.true_eq_false, reduceCtorEq, one_mul, neg_mul]
  · rcases key with ⟨h, hl⟩ | ⟨⟨h, h'⟩, hl⟩ | ⟨h, hl⟩
    · have e : (if a.exponent > b.exponent then (-1 : ℤ) else if a.exponent = b.exponent then
          if a.mantissa > b.mantissa then -1 else if a.mantissa = b.mantissa then 0 else - -1 else - -1) = -1 := by
        rcases h with h | ⟨h, h'⟩
        · rw [if_pos h]
        · rw [if_neg (by omega), if_pos h, if_pos h']
      rw [e]
      refine ⟨⟨fun h => by omega, fun h => by linarith⟩, ⟨fun h => by omega, fun h => by linarith⟩, ⟨fun _ => by linarith, fun _ => rfl⟩⟩
    · rw [if_neg (by omega), if_pos h, if_neg (by omega), if_pos h']
      refine ⟨⟨fun h => by omega, fun h => by linarith⟩, ⟨fun _ => by linarith, fun _ => rfl⟩, ⟨fun h => by omega, fun h => by linarith⟩⟩
    · have e : (if a.exponent > b.exponent then (-1 : ℤ) else if a.exponent = b.exponent then
          if a.mantissa > b.mantissa then -1 else if a.mantissa = b.mantissa then 0 else - -1 else - -1) = 1 := by
        rcases h with h | ⟨h, h'⟩
        · rw [if_neg (by omega), if_neg (by omega)]; rfl
        · rw [if_neg (by omega), if_pos h, if_neg (by omega), if_neg (by omega)]; rfl
      rw [e]
      refine ⟨⟨fun _ => by linarith, fun _ => rfl⟩, ⟨fun h => by omega, fun h => by linarith⟩, ⟨fun h => by omega, fun h => by linarith⟩⟩
  · refine ⟨?_, ?_, ?_⟩ <;> constructor <;> intro h <;> first | linarith | (exfalso; linarith) | trivial | (norm_num at h) | norm_num
  · refine ⟨?_, ?_, ?_⟩ <;> constructor <;> intro h <;> first | linarith | (exfalso; linarith) | trivial | (norm_num at h) | norm_num
  · rcases key with ⟨h, hl⟩ | ⟨⟨h, h'⟩, hl⟩ | ⟨h, hl⟩
    · have e : (if a.exponent > b.exponent then (1 : ℤ) else if a.exponent = b.exponent then
          if a.mantissa > b.mantissa then 1 else if a.mantissa = b.mantissa then 0 else -1 else -1) = 1 := by
        rcases h with h | ⟨h, h'⟩
        · rw [if_pos h]
        · rw [if_neg (by omega), if_pos h, if_pos h']
      rw [e]
      refine ⟨⟨fun _ => by linarith, fun _ => rfl⟩, ⟨fun h => by omega, fun h => by linarith⟩, ⟨fun h => by omega, fun h => by linarith⟩⟩
    · rw [if_neg (by omega), if_pos h, if_neg (by omega), if_pos h']
      refine ⟨⟨fun h => by omega, fun h => by linarith⟩, ⟨fun _ => by linarith, fun _ => rfl⟩, ⟨fun h => by omega, fun h => by linarith⟩⟩
    · have e : (if a.exponent > b.exponent then (1 : ℤ) else if a.exponent = b.exponent then
          if a.mantissa > b.mantissa then 1 else if a.mantissa = b.mantissa then 0 else -1 else -1) = -1 := by
        rcases h with h | ⟨h, h'⟩
        · rw [if_neg (by omega), if_neg (by omega)]
        · rw [if_neg (by omega), if_pos h, if_neg (by omega), if_neg (by omega)]
      rw [e]
      refine ⟨⟨fun h => by omega, fun h => by linarith⟩, ⟨fun h => by omega, fun h => by linarith⟩, ⟨fun _ => by linarith, fun _ => rfl⟩⟩

/-- C99: `cmp` of two numbers other than zero, subnormal or not, of any signs -/
theorem C99_cmp_numbers {x y : ℕ} (hx : f.Finite x) (hy : f.Finite y) (hx0 : f.val x ≠ 0) (hy0 : f.val y ≠ 0) :
    let c := (NormalizedFloat.ofBits f x).cmp (NormalizedFloat.ofBits f y)
    (c = 1 ↔ f.val y < f.val x) ∧ (c = 0 ↔ x = y) ∧ (c = -1 ↔ f.val x < f.val y) := by
  obtain ⟨x1, x2, x3⟩ := C99_round_trip f hx hx0
  obtain ⟨y1, y2, y3⟩ := C99_round_trip f hy hy0
  obtain ⟨h1, h2, h3⟩ := C99_cmp f x1 y1
  rw [x2, y2] at h1 h2 h3
  refine ⟨h1, h2.trans ⟨fun h => ?_, fun h => by rw [h]⟩, h3⟩
  have hs : f.sgn x = f.sgn y := by
    obtain ⟨_, _, sx, ex⟩ := ofBits_spec f hx hx0
    rcases lt_or_gt_of_ne hx0 with hn | hn
    · rw [sgn_of_neg f hn, sgn_of_neg f (by rw [← h]; exact hn)]
    · rw [sgn_of_pos f hn, sgn_of_pos f (by rw [← h]; exact hn)]
  exact f.eq_of_val_eq hx.valid hy.valid h hs

example : binary32.Finite 1 ∧ binary32.val 1 ≠ 0 ∧ (NormalizedFloat.ofBits binary32 1).cmp (NormalizedFloat.ofBits binary32 0x80000001) = 1 ∧
    (NormalizedFloat.ofBits binary32 0xC0000000).cmp (NormalizedFloat.ofBits binary32 0xBF800000) = -1 := by
  refine ⟨(binary32.finite_iff 1).2 ⟨by decide +kernel, by decide +kernel⟩, fun h => ?_, by decide +kernel, by decide +kernel⟩
  exact absurd ((binary32.val_eq_zero_iff 1).1 h) (by decide +kernel)

/-- C99: `mul2` has no undefined behaviour exactly if the binary exponent of the product fits an `int32_t` -/
theorem C99_mul2_defined {x : ℕ} (hx : f.Finite x) (h0 : f.val x ≠ 0) (e : ℤ) :
    (NormalizedFloat.ofBits f x).mul2 e ≠ none ↔
      ∃ k : ℤ, -2147483648 ≤ k ∧ k ≤ 2147483647 ∧ (2 : ℝ) ^ k ≤ |f.val x * 2 ^ e| ∧ |f.val x * 2 ^ e| < 2 ^ (k + 1) := by
  obtain ⟨h1, h2, -, h4⟩ := ofBits_spec f hx h0
  set M := (NormalizedFloat.ofBits f x).mantissa with hM
  set E := (NormalizedFloat.ofBits f x).exponent with hE
  have ev : |f.val x * 2 ^ e| = (M : ℝ) * 2 ^ (E + e - f.F) := by
    rw [h4, abs_mul, abs_mul, abs_mul, abs_of_pos (zpow_pos (show (0 : ℝ) < 2 by norm_num) _), abs_of_pos (zpow_pos (show (0 : ℝ) < 2 by norm_num) _), abs_sg,
      one_mul, Nat.abs_cast, mul_assoc, ← zpow_add₀ (by norm_num)]
    congr 2; ring
  have hp : (0 : ℝ) < 2 ^ (E + e - f.F) := zpow_pos (by norm_num) _
  have lo : (2 : ℝ) ^ (E + e) ≤ |f.val x * 2 ^ e| := by
    rw [ev, show E + e = f.F + (E + e - f.F) by ring, zpow_add₀ (by norm_num), zpow_natCast, show (f.F : ℤ) + (E + e - f.F) - f.F = E + e - f.F by ring]
    exact mul_le_mul_of_nonneg_right (by exact_mod_cast h1) hp.le
  have hi : |f.val x * 2 ^ e| < (2 : ℝ) ^ (E + e + 1) := by
    rw [ev, show E + e + 1 = ((f.F + 1 : ℕ) : ℤ) + (E + e - f.F) by push_cast; ring, zpow_add₀ (by norm_num), zpow_natCast]
    exact mul_lt_mul_of_pos_right (by exact_mod_cast h2) hp
  unfold NormalizedFloat.mul2 NormalizedFloat.int32
  rw [← hE]
  split_ifs with hc
  · refine ⟨fun _ => ⟨E + e, by omega, by omega, lo, hi⟩, fun _ => by simp⟩
  · refine ⟨fun h => absurd rfl h, fun ⟨k, k1, k2, k3, k4⟩ => ?_⟩
    have a1 := (zpow_lt_zpow_iff_right₀ (show (1 : ℝ) < 2 by norm_num)).1 (lt_of_le_of_lt lo k4)
    have a2 := (zpow_lt_zpow_iff_right₀ (show (1 : ℝ) < 2 by norm_num)).1 (lt_of_le_of_lt k3 hi)
    exact absurd ⟨by omega, by omega⟩ hc

/-- C99: `mul2` multiplies by `2^e`, and the conversion back rounds the product once, to nearest; the exponent must stay in its `int32_t` -/
theorem C99_mul2 {x : ℕ} (hx : f.Finite x) (h0 : f.val x ≠ 0) (e : ℤ) {n : NormalizedFloat} (hn : (NormalizedFloat.ofBits f x).mul2 e = some n) (zs : Bool) :
    n.Normal f ∧ n.value f = f.val x * 2 ^ e ∧ f.RoundsTo .nearest zs (f.val x * 2 ^ e) (n.convert f) := by
  obtain ⟨h1, h2, h3, h4⟩ := ofBits_spec f hx h0
  unfold NormalizedFloat.mul2 NormalizedFloat.int32 at hn
  split at hn
  · simp only [Option.map_some, Option.some.injEq] at hn
    subst hn
    have ev : f.val x * 2 ^ e = sg (f.sgn x) * (((NormalizedFloat.ofBits f x).mantissa : ℝ) * 2 ^ ((NormalizedFloat.ofBits f x).exponent + e - f.F)) := by
      rw [h4, mul_assoc, mul_assoc, ← zpow_add₀ (by norm_num)]
      congr 3; ring
    refine ⟨⟨h1, h2⟩, ?_, ?_⟩
    · rw [nf_value_eq, ev]
      show sg (NormalizedFloat.ofBits f x).sign * _ = _
      rw [h3]
    · rw [ev]
      have := convert_spec f h1 h2 (s := f.sgn x) (e := (NormalizedFloat.ofBits f x).exponent + e) zs
      rwa [← h3] at this ⊢
  · simp at hn

example : ((NormalizedFloat.ofBits binary32 0x3F800001).mul2 (-127)).map (NormalizedFloat.convert binary32) = some 0x00400000 ∧
    ((NormalizedFloat.ofBits binary32 0x3F800001).mul2 128).map (NormalizedFloat.convert binary32) = some 0x7F800000 ∧
    ((NormalizedFloat.ofBits binary32 0x40000000).mul2 (2 ^ 31 - 1)).isNone = true := by decide +kernel

theorem isInfOrNan_not_finite99 {x : ℕ} (hx : f.Valid x) (h : ¬ f.Finite x) : FPBits.isInfOrNan f x = true := by
  unfold FPBits.isInfOrNan
  rw [FPBits.isFinite_eq, f.finite_iff] at *
  simp only [Bool.not_eq_true', decide_eq_false_iff_not]
  exact fun hm => h ⟨hx, hm⟩

/-- C99 (finding): zero, the infinities and NaN come back as `±1` -/
theorem C99_zero_becomes_one {x : ℕ} (h : f.val x = 0 ∨ ¬ f.Finite x) (hx : f.Valid x) : (NormalizedFloat.ofBits f x).convert f = CC.oneLit f (f.sgn x) := by
  have e0 : NormalizedFloat.ofBits f x = ⟨0, 0, f.sgn x⟩ := by
    unfold NormalizedFloat.ofBits
    rw [FPBits.isNeg_eq f hx, if_pos]
    rcases h with h | h
    · rw [FPBits.isZero_eq]; unfold zeroB
      rw [decide_eq_true ((f.val_eq_zero_iff x).1 h), Bool.or_true]
    · rw [isInfOrNan_not_finite99 f hx h, Bool.true_or]
  have e1 : NormalizedFloat.convert f ⟨0, 0, f.sgn x⟩ = NormalizedFloat.convert f ⟨0, 2 ^ f.F, f.sgn x⟩ := by
    have hb := f.bias_pos
    unfold NormalizedFloat.convert
    simp only
    split
    · rfl
    · rw [if_neg (by omega), if_neg (by omega), setMantissa_mod f _ (2 ^ f.F), Nat.mod_self]
  have R := convert_spec f (M := 2 ^ f.F) (e := 0) (s := f.sgn x) (le_refl _) (Nat.pow_lt_pow_right (by norm_num) (by omega)) (f.sgn x)
  rw [← e1, ← e0] at R
  have ev : sg (f.sgn x) * (((2 ^ f.F : ℕ) : ℝ) * 2 ^ ((0 : ℤ) - f.F)) = f.val (CC.oneLit f (f.sgn x)) := by
    rw [CC.val_one]
    push_cast
    rw [zero_sub, zpow_neg, zpow_natCast, mul_inv_cancel₀ (by positivity), mul_one]
  rw [ev] at R
  have S := f.roundsTo_self (m := .nearest) (CC.finite_one f (f.sgn x))
  have hne : f.val (CC.oneLit f (f.sgn x)) ≠ 0 := by
    rw [CC.val_one]; exact sg_ne_zero _
  exact RoundsTo.unique f R (RoundsTo.zs_irrel S hne)

/-- C99 (finding): zero compares greater than one half -/
theorem C99_cmp_zero_wrong : binary64.hlt 0 0x3FE0000000000000 = true ∧
    (NormalizedFloat.ofBits binary64 0).cmp (NormalizedFloat.ofBits binary64 0x3FE0000000000000) = 1 := by decide +kernel

/-- C99 (finding): a mantissa of more than `F + 1` bits is kept as it is, and the conversion drops its top bits: `2·ONE` with exponent 0, the number two, comes out as one -/
theorem C99_wide_mantissa_wrong : (NormalizedFloat.ofFields binary64 false 0 (2 ^ 53)).map (NormalizedFloat.convert binary64) = some 0x3FF0000000000000 := by
  decide +kernel

end Verif
