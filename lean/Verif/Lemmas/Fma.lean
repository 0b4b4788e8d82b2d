import Verif.Lemmas.RoundBits

/-!
# Lemmas for `round_normalized` and `fixed_fma`
-/

namespace Verif
open Fmt

/-- what the exception flags of a correctly rounded operation on finite operands must say (IEEE 754-2019 §7.4-7.6; tininess is
detected before rounding) -/
structure FlagsFor (f : Fmt) (exact : ℝ) (r : ℕ) (fl : Flags) : Prop where
  invalid : fl.invalid = false
  inexact : fl.inexact = true ↔ ¬ (f.Finite r ∧ f.val r = exact)
  overflow : fl.overflow = true ↔ f.IsInf r ∨ (2 : ℝ) ^ ((f.bias : ℤ) + 1) ≤ |exact|
  underflow : fl.underflow = true ↔ (exact ≠ 0 ∧ |exact| < f.minNormal) ∧ ¬ (f.Finite r ∧ f.val r = exact)

namespace CC
variable (f : Fmt)

theorem intGetBit_eq (M n : ℕ) : intGetBit M (n : ℤ) = M.testBit n := by
  unfold intGetBit; rw [if_neg (by omega)]; simp
theorem lowerBitsNonzero_eq {W M : ℕ} (hM : M < 2 ^ W) (n : ℕ) : lowerBitsNonzero W M (n : ℤ) = decide (M % 2 ^ n ≠ 0) := by
  unfold lowerBitsNonzero
  by_cases h0 : n = 0
  · subst h0; simp [Nat.mod_one]
  rw [if_neg (by omega)]
  by_cases h1 : W ≤ n
  · rw [if_pos (by omega), Nat.mod_eq_of_lt (lt_of_lt_of_le hM (Nat.pow_le_pow_right (by decide) h1))]
    by_cases h : M = 0 <;> simp [h]
  · rw [if_neg (by omega)]
    by_cases h : M % 2 ^ n = 0 <;> simp [h]

theorem bitWidth_spec {n : ℕ} (h : 0 < n) : 1 ≤ bitWidth n ∧ 2 ^ (bitWidth n - 1) ≤ n ∧ n < 2 ^ bitWidth n := by
  unfold bitWidth
  rw [if_neg (by omega)]
  refine ⟨by omega, ?_, ?_⟩
  · rw [Nat.add_sub_cancel, Nat.log2_eq_log_two]; exact Nat.pow_log_le_self 2 (by omega)
  · rw [Nat.log2_eq_log_two]; exact Nat.lt_pow_succ_log_self (by decide) _
theorem bitWidth_le {n k : ℕ} : bitWidth n ≤ k ↔ n < 2 ^ k := by
  rcases Nat.eq_zero_or_pos n with h | h
  · subst h; simp [bitWidth]
  · obtain ⟨h1, h2, h3⟩ := bitWidth_spec h
    constructor
    · intro hk; exact lt_of_lt_of_le h3 (Nat.pow_le_pow_right (by decide) hk)
    · intro hk
      have := lt_of_le_of_lt h2 hk
      have := (Nat.pow_lt_pow_iff_right (by decide : 1 < 2)).1 this
      omega

theorem finish_round {m : Mode} {s zs : Bool} {x w : ℝ} {k q : ℕ} {rb st : Bool} (hb : RBits w q rb st)
    (hx : x = w * 2 ^ k * f.minSub) (hpos : 0 < x) (hq : q < 2 ^ (f.F + 1)) (hk : k = 0 ∨ 2 ^ f.F ≤ q)
    (hn : k * 2 ^ f.F + q < f.infMag) :
    let r := f.pack s (k * 2 ^ f.F + q + (if roundIncrement m s rb st (decide (q % 2 = 1)) then 1 else 0))
    f.RoundsTo m zs (sg s * x) r ∧ ((rb || st) = true ↔ ¬ (f.Finite r ∧ f.val r = sg s * x)) ∧ f.Valid r := by
  intro r
  have hms := f.minSub_pos
  have ht : 0 < w * 2 ^ k := by
    rw [hx] at hpos; exact pos_of_mul_pos_left hpos hms.le
  have hR := rndMag_bits f (m := m) (s := s) hb rfl hq hk
  have h1 := f.roundsTo_of_rndMag (zs := zs) ht.le (show sg s * x = _ by rw [hx]) (fun h => absurd h ht.ne') hR
  rw [cap_bits f hn] at h1
  refine ⟨h1, ?_, h1.valid⟩
  have hiff := hb.exact_iff
  have hcast : ((f.umag (k * 2 ^ f.F + q) : ℕ) : ℝ) = q * 2 ^ k := by rw [f.umag_of hq hk]; push_cast; rfl
  have hlt : f.infMag < 2 ^ (f.E + f.F) := f.infMag_lt
  have hP : (0 : ℝ) < 2 ^ k := by positivity
  constructor
  · intro hor ⟨hfin, hval⟩
    have hn' : k * 2 ^ f.F + q + (if roundIncrement m s rb st (decide (q % 2 = 1)) then 1 else 0) < 2 ^ (f.E + f.F) := by
      split <;> omega
    rw [val_pack f s hn', hx] at hval
    have h2 := mul_right_cancel₀ hms.ne' (mul_left_cancel₀ (sg_ne_zero s) hval)
    have hne : w ≠ q := fun h => by rw [hiff.2 h] at hor; simp at hor
    have hlt1 : (q : ℝ) < w := lt_of_le_of_ne hb.lo (Ne.symm hne)
    have e1 : (f.umag (k * 2 ^ f.F + q) : ℝ) < f.umag (k * 2 ^ f.F + q + if roundIncrement m s rb st (decide (q % 2 = 1)) then 1 else 0) := by
      rw [h2, hcast]; exact mul_lt_mul_of_pos_right hlt1 hP
    have e2 : (f.umag (k * 2 ^ f.F + q + if roundIncrement m s rb st (decide (q % 2 = 1)) then 1 else 0) : ℝ) <
        f.umag (k * 2 ^ f.F + q + 1) := by
      have : ((f.umag (k * 2 ^ f.F + q + 1) : ℕ) : ℝ) = (q + 1) * 2 ^ k := by
        rw [f.umag_succ, f.umag_of hq hk, f.gk_of hq hk]; push_cast; ring
      rw [h2, this]; exact mul_lt_mul_of_pos_right hb.hi hP
    have e1' := f.umag_lt_iff.1 (by exact_mod_cast e1)
    have e2' := f.umag_lt_iff.1 (by exact_mod_cast e2)
    omega
  · intro h
    by_contra hc
    have hor : (rb || st) = false := by simpa using hc
    have hw := hiff.1 hor
    apply h
    have hinc : roundIncrement m s rb st (decide (q % 2 = 1)) = false := by
      rw [Bool.or_eq_false_iff] at hor
      rw [hor.1, hor.2]; cases m <;> simp [roundIncrement]
    have hr : r = f.pack s (k * 2 ^ f.F + q) := by simp only [r, hinc]; simp
    rw [hr]
    refine ⟨f.finite_pack s hn, ?_⟩
    rw [val_pack f s (by omega), hcast, hx, hw]

theorem createValue_normal {s : Bool} {k q : ℕ} (hq : q < 2 ^ (f.F + 1)) (hq2 : 2 ^ f.F ≤ q) (hk : k + 1 < 2 ^ f.E) :
    FPBits.createValue f s (k + 1) q = f.pack s (k * 2 ^ f.F + q) := by
  unfold FPBits.createValue
  rw [FPBits.encode_eq, Nat.mod_eq_of_lt hk, Nat.mod_eq_sub_mod hq2, Nat.mod_eq_of_lt (by rw [pow_succ] at hq; omega)]
  congr 1; rw [Nat.succ_mul]; omega

theorem createValue_sub {s : Bool} {q : ℕ} (hq : q < 2 ^ f.F) : FPBits.createValue f s 0 q = f.pack s (0 * 2 ^ f.F + q) := by
  unfold FPBits.createValue
  rw [FPBits.encode_eq, Nat.zero_mod, Nat.mod_eq_of_lt hq]

theorem and_one_bne (q : ℕ) : ((q &&& 1) != 0) = decide (q % 2 = 1) := by
  rw [Nat.and_one_is_mod]
  rcases Nat.mod_two_eq_zero_or_one q with h | h <;> simp [h]

theorem maxNormal_ovf (m : Mode) (s : Bool) : (match m with
      | .nearest => FPBits.inf f s
      | .zero => FPBits.maxNormal f s
      | .down => if !s then FPBits.maxNormal f false else FPBits.inf f true
      | .up => if s then FPBits.maxNormal f true else FPBits.inf f false) = f.ovf m s := by
  unfold ovf
  have h1 : f.cap .trunc f.infMag = f.infMag - 1 := by unfold cap; simp
  have h2 : f.cap .nearest f.infMag = f.infMag := by unfold cap; simp
  have h3 : f.cap .away f.infMag = f.infMag := by unfold cap; simp
  cases m <;> cases s <;> simp [FPBits.inf_eq, FPBits.maxNormal_eq, inf_eq_pack, kind]

theorem roundNormalized_spec {W A M j : ℕ} {base : ℤ} {m : Mode} {s tl : Bool} {v : ℝ} (zs : Bool) (hW : A ≤ W)
    (hM1 : 2 ^ (A - 1) ≤ M) (hM2 : M < 2 ^ A) (hj : j + f.F + 2 ≤ A) (hd : 2 ^ j ∣ M) (h1 : (M : ℝ) ≤ v) (h2 : v < (M : ℝ) + 2 ^ j)
    (ht : tl = true ↔ v ≠ M) :
    let r := roundNormalized f W A m s base M tl
    f.RoundsTo m zs (sg s * (v * 2 ^ base)) r.1 ∧ FlagsFor f (sg s * (v * 2 ^ base)) r.1 r.2 := by
  have hM0 : 0 < M := lt_of_lt_of_le (by positivity) hM1
  have hMW : M < 2 ^ W := lt_of_lt_of_le hM2 (Nat.pow_le_pow_right (by decide) hW)
  have hv0 : 0 < v := lt_of_lt_of_le (by exact_mod_cast hM0) h1
  have hpos : 0 < v * 2 ^ base := mul_pos hv0 (zpow_pos (by norm_num) _)
  have hvlo : (2 : ℝ) ^ ((A : ℤ) - 1) ≤ v := by
    refine le_trans ?_ h1
    have : ((A : ℤ) - 1) = ((A - 1 : ℕ) : ℤ) := by omega
    rw [this, zpow_natCast]; exact_mod_cast hM1
  have hMj : M + 2 ^ j ≤ 2 ^ A := by
    obtain ⟨a, ha⟩ := hd
    obtain ⟨b, hb⟩ := pow_dvd_pow 2 (show j ≤ A by omega)
    rw [ha, hb] at hM2
    have : a < b := lt_of_mul_lt_mul_left hM2 (Nat.zero_le _)
    rw [ha, hb, ← Nat.mul_succ]
    exact Nat.mul_le_mul_left _ this
  have hvhi : v < (2 : ℝ) ^ (A : ℤ) := by
    rw [zpow_natCast]
    refine lt_of_lt_of_le h2 ?_
    exact_mod_cast hMj
  have habs : |sg s * (v * 2 ^ base)| = v * 2 ^ base := by rw [abs_mul, abs_sg, one_mul, abs_of_pos hpos]
  have hne : sg s * (v * 2 ^ base) ≠ 0 := mul_ne_zero (sg_ne_zero _) hpos.ne'
  have hneg : decide (sg s * (v * 2 ^ base) < 0) = s := by
    cases s
    · simp only [sg_false, one_mul, decide_eq_false_iff_not, not_lt]; exact hpos.le
    · simp only [sg_true, neg_mul, one_mul, decide_eq_true_eq]; linarith
  have hlo : (2 : ℝ) ^ (base + (A - 1)) ≤ v * 2 ^ base := by
    rw [zpow_add₀ (by norm_num), mul_comm]; exact mul_le_mul_of_nonneg_right hvlo (zpow_pos (by norm_num) _).le
  have hhi : v * 2 ^ base < (2 : ℝ) ^ (base + A) := by
    rw [zpow_add₀ (by norm_num), mul_comm]; exact mul_lt_mul_of_pos_left hvhi (zpow_pos (by norm_num) _)
  have hbp := f.bias_pos
  have h2b := f.two_bias
  intro r
  have hr : r = roundNormalized f W A m s base M tl := rfl
  clear_value r
  unfold roundNormalized at hr
  simp only [if_neg hM0.ne'] at hr
  by_cases hov : base + (A - 1) > (f.bias : ℤ)
  · replace hr : r = (f.ovf m s, { overflow := true, inexact := true }) := by
      rw [hr, if_pos hov]; exact Prod.ext (maxNormal_ovf f m s) rfl
    rw [hr]
    have hhuge : (2 : ℝ) ^ ((f.bias : ℤ) + 1) ≤ |sg s * (v * 2 ^ base)| := by
      rw [habs]; exact le_trans (zpow_le_zpow_right₀ (by norm_num) (by omega)) hlo
    have := f.roundsTo_huge (m := m) (zs := zs) hhuge
    rw [hneg] at this
    refine ⟨this, ⟨rfl, ?_, ?_, ?_⟩⟩
    · simp only [true_iff]
      rintro ⟨hf, hv⟩
      have := f.abs_val_lt_huge hf
      rw [hv] at this; linarith
    · simp only [true_iff]; right; exact hhuge
    · simp only [Bool.false_eq_true, false_iff]
      rintro ⟨⟨_, h⟩, _⟩
      unfold minNormal at h
      have : (2 : ℝ) ^ (1 - (f.bias : ℤ)) ≤ (2 : ℝ) ^ ((f.bias : ℤ) + 1) := zpow_le_zpow_right₀ (by norm_num) (by omega)
      linarith
  simp only [if_neg hov] at hr
  have hnothuge : ¬ (2 : ℝ) ^ ((f.bias : ℤ) + 1) ≤ |sg s * (v * 2 ^ base)| := by
    rw [habs, not_le]; exact lt_of_lt_of_le hhi (zpow_le_zpow_right₀ (by norm_num) (by omega))
  -- common end
  have common : ∀ (k q : ℕ) (rb st uf : Bool), RBits (v / 2 ^ 0 * 2 ^ base / f.minSub / 2 ^ k) q rb st → q < 2 ^ (f.F + 1) →
      (k = 0 ∨ 2 ^ f.F ≤ q) → k * 2 ^ f.F + q < f.infMag → (uf = true ↔ v * 2 ^ base < f.minNormal) →
      let res := (if roundIncrement m s rb st ((q &&& 1) != 0) then f.pack s (k * 2 ^ f.F + q) + 1 else f.pack s (k * 2 ^ f.F + q))
      let fl : Flags := if rb || st then
        { inexact := true, overflow := FPBits.isInf f res, underflow := !FPBits.isInf f res && uf } else {}
      f.RoundsTo m zs (sg s * (v * 2 ^ base)) res ∧ FlagsFor f (sg s * (v * 2 ^ base)) res fl := by
    intro k q rb st uf hb hq hk hn huf res
    have hxw : v * 2 ^ base = v / 2 ^ 0 * 2 ^ base / f.minSub / 2 ^ k * 2 ^ k * f.minSub := by
      have := f.minSub_pos
      field_simp
    have hres : res = f.pack s (k * 2 ^ f.F + q + (if roundIncrement m s rb st (decide (q % 2 = 1)) then 1 else 0)) := by
      simp only [res, and_one_bne]; rw [pack_succ]
    obtain ⟨a1, a2, a3⟩ := finish_round f (m := m) (s := s) (zs := zs) hb hxw hpos hq hk hn
    rw [← hres] at a1 a2 a3
    refine ⟨a1, ?_⟩
    have hinf : FPBits.isInf f res = true ↔ f.IsInf res := by rw [FPBits.isInf_eq]; exact f.infB_iff a3
    have hninf : f.Finite res → ¬ f.IsInf res := fun h h' => h.2 h'.2.1
    cases hor : (rb || st)
    · have hex : f.Finite res ∧ f.val res = sg s * (v * 2 ^ base) := by
        by_contra h; rw [a2.2 h] at hor; simp at hor
      refine ⟨rfl, ?_, ?_, ?_⟩
      · simp [hex]
      · simp only [Bool.false_eq_true, if_false, false_iff, not_or]; exact ⟨hninf hex.1, hnothuge⟩
      · simp [hex]
    · have hex := a2.1 hor
      refine ⟨rfl, ?_, ?_, ?_⟩
      · simpa using hex
      · simp only [if_true, hinf]; exact ⟨Or.inl, fun h => h.resolve_right hnothuge⟩
      · simp only [if_true, Bool.and_eq_true, Bool.not_eq_true', huf, habs]
        constructor
        · rintro ⟨_, h⟩; exact ⟨⟨hne, h⟩, hex⟩
        · rintro ⟨⟨_, h⟩, _⟩
          refine ⟨?_, h⟩
          rw [← Bool.not_eq_true, hinf]
          intro hi
          -- a value below the least normal does not round to infinity
          have hmn : f.minNormal ≤ f.maxFin := by
            rw [minNormal_eq, maxFin_eq]
            refine mul_le_mul_of_nonneg_right ?_ f.minSub_pos.le
            have : 2 ^ f.F ≤ f.infMag - 1 := by
              have := f.infMag_pos; rw [pow_succ] at this; have := f.two_pow_F_pos; omega
            exact_mod_cast f.umag_le_iff.2 this
          have hfin := RoundsTo.finite_of_le f a1 (by rw [habs]; linarith)
          exact hninf hfin hi
  by_cases hnorm : base + (A - 1) ≥ 1 - (f.bias : ℤ)
  · simp only [if_pos hnorm] at hr
    obtain ⟨k, hk⟩ : ∃ k : ℕ, base + (A - 1) + f.bias = ((k + 1 : ℕ) : ℤ) := ⟨(base + (A - 1) + f.bias - 1).toNat, by omega⟩
    obtain ⟨n, hn⟩ : ∃ n : ℕ, A = n + 1 + (f.F + 1) := ⟨A - f.F - 2, by omega⟩
    have hns : (A : ℤ) - (f.F + 1) = ((n + 1 : ℕ) : ℤ) := by omega
    have hns1 : ((n + 1 : ℕ) : ℤ) - 1 = (n : ℤ) := by omega
    have hq1 : M / 2 ^ (n + 1) < 2 ^ (f.F + 1) := by
      rw [Nat.div_lt_iff_lt_mul (by positivity), ← pow_add]; rw [hn] at hM2; rwa [add_comm (f.F + 1)]
    have hq2 : 2 ^ f.F ≤ M / 2 ^ (n + 1) := by
      rw [Nat.le_div_iff_mul_le (by positivity), ← pow_add]; refine le_trans (le_of_eq ?_) hM1; congr 1; omega
    have hst : (M >>> (n + 1)) % 2 ^ (f.E + f.F + 1) = M / 2 ^ (n + 1) := by
      rw [Nat.shiftRight_eq_div_pow, Nat.mod_eq_of_lt]
      exact lt_of_lt_of_le hq1 (Nat.pow_le_pow_right (by decide) (by omega))
    have hkE : k + 1 < 2 ^ f.E := by omega
    simp only [hk, hns, hns1, Int.toNat_natCast, hst, intGetBit_eq, lowerBitsNonzero_eq hMW, createValue_normal f hq1 hq2 hkE] at hr
    rw [hr]
    refine common k (M / 2 ^ (n + 1)) _ _ false ?_ hq1 (Or.inr hq2) ?_ ?_
    · have := shift_rbits (M := M) (n := n) (j := j) (v := v) (by omega) hd h1 h2 ht
      convert this using 1
      unfold minSub
      rw [pow_zero, div_one, ← zpow_natCast 2 k, ← zpow_natCast 2 (n + 1), mul_div_assoc, mul_div_assoc, ← zpow_sub₀ (by norm_num), ← zpow_sub₀ (by norm_num),
        div_eq_mul_inv, ← zpow_neg]
      congr 2; omega
    · rw [infMag_eq]
      have : k ≤ 2 * f.bias - 1 := by omega
      have h3 := Nat.mul_le_mul_right (2 ^ f.F) this
      have h4 : (2 * f.bias - 1) * 2 ^ f.F + 2 ^ f.F = 2 * f.bias * 2 ^ f.F := by
        rw [← Nat.succ_mul]; congr 1; omega
      rw [pow_succ 2 f.F] at hq1; omega
    · simp only [Bool.false_eq_true, false_iff, not_lt]
      unfold minNormal; exact le_trans (zpow_le_zpow_right₀ (by norm_num) (by omega)) hlo
  · simp only [if_neg hnorm] at hr
    obtain ⟨n, hn⟩ : ∃ n : ℕ, 1 - (f.bias : ℤ) - f.F - base = ((n + 1 : ℕ) : ℤ) := ⟨(1 - (f.bias : ℤ) - f.F - base - 1).toNat, by omega⟩
    have hnA : A ≤ n + 1 + f.F := by omega
    have hq1 : M / 2 ^ (n + 1) < 2 ^ f.F := by
      rw [Nat.div_lt_iff_lt_mul (by positivity), ← pow_add]
      exact lt_of_lt_of_le hM2 (Nat.pow_le_pow_right (by decide) (by omega))
    have hst : (M >>> (n + 1)) % 2 ^ (f.E + f.F + 1) = M / 2 ^ (n + 1) := by
      rw [Nat.shiftRight_eq_div_pow, Nat.mod_eq_of_lt]
      exact lt_of_lt_of_le hq1 (Nat.pow_le_pow_right (by decide) (by omega))
    have hn1 : 1 - (f.bias : ℤ) - f.F - base - 1 = (n : ℤ) := by omega
    have hquad : (if 1 - (f.bias : ℤ) - f.F - base > A then ((0, 0, false, true, true) : ℕ × ℕ × Bool × Bool × Bool)
        else if 1 - (f.bias : ℤ) - f.F - base = A then (0, 0, intGetBit M (A - 1), tl || lowerBitsNonzero W M (A - 1), true)
        else (0, (M >>> (1 - (f.bias : ℤ) - f.F - base).toNat) % 2 ^ (f.E + f.F + 1), intGetBit M (1 - (f.bias : ℤ) - f.F - base - 1),
          tl || lowerBitsNonzero W M (1 - (f.bias : ℤ) - f.F - base - 1), true)) =
        (0, M / 2 ^ (n + 1), M.testBit n, tl || decide (M % 2 ^ n ≠ 0), true) := by
      rw [hn1, hn, Int.toNat_natCast, hst, intGetBit_eq, lowerBitsNonzero_eq hMW]
      by_cases c1 : ((n + 1 : ℕ) : ℤ) > A
      · rw [if_pos c1]
        have hAn : 2 ^ A ≤ 2 ^ n := Nat.pow_le_pow_right (by decide) (by omega)
        rw [Nat.div_eq_of_lt (by rw [pow_succ]; omega), Nat.testBit_lt_two_pow (by omega), Nat.mod_eq_of_lt (by omega)]
        simp [hM0.ne']
      · rw [if_neg c1]
        by_cases c2 : ((n + 1 : ℕ) : ℤ) = A
        · rw [if_pos c2]
          have e1 : (A : ℤ) - 1 = (n : ℤ) := by omega
          have e2 : n + 1 = A := by omega
          rw [e1, intGetBit_eq, lowerBitsNonzero_eq hMW, e2, Nat.div_eq_of_lt hM2]
        · rw [if_neg c2]
    rw [hquad] at hr
    simp only [createValue_sub f hq1] at hr
    rw [hr]
    refine common 0 (M / 2 ^ (n + 1)) _ _ true ?_ (by rw [pow_succ 2 f.F]; omega) (Or.inl rfl) ?_ ?_
    · have := shift_rbits (M := M) (n := n) (j := j) (v := v) (by omega) hd h1 h2 ht
      convert this using 1
      unfold minSub
      rw [pow_zero, div_one, div_one, ← zpow_natCast 2 (n + 1), mul_div_assoc, ← zpow_sub₀ (by norm_num),
        div_eq_mul_inv, ← zpow_neg]
      congr 2; omega
    · have := f.infMag_pos; rw [pow_succ] at this; omega
    · simp only [true_iff]
      unfold minNormal; exact lt_of_lt_of_le hhi (zpow_le_zpow_right₀ (by norm_num) (by omega))

end CC
end Verif

namespace Verif
open Fmt
namespace CC
variable (f : Fmt)

theorem normalise_spec {W A M : ℕ} {base : ℤ} {m : Mode} {s tl : Bool} {v : ℝ} (zs : Bool) (hW : A ≤ W) (hA : f.F + 3 ≤ A)
    (hM1 : 0 < M) (hM2 : M < 2 ^ A) (h1 : (M : ℝ) ≤ v) (h2 : v < (M : ℝ) + 1) (ht : tl = true ↔ v ≠ M)
    (hbig : tl = true → 2 ^ (A - 2) ≤ M) :
    let r := roundNormalized f W A m s (base - (A - bitWidth M : ℕ)) ((M <<< (A - bitWidth M)) % 2 ^ W) tl
    f.RoundsTo m zs (sg s * (v * 2 ^ base)) r.1 ∧ FlagsFor f (sg s * (v * 2 ^ base)) r.1 r.2 := by
  obtain ⟨b1, b2, b3⟩ := bitWidth_spec hM1
  have b4 := bitWidth_le.2 hM2
  set n := A - bitWidth M with hn
  have hlt : M * 2 ^ n < 2 ^ A := by
    calc M * 2 ^ n < 2 ^ bitWidth M * 2 ^ n := Nat.mul_lt_mul_of_pos_right b3 (by positivity)
      _ = 2 ^ A := by rw [← pow_add]; congr 1; omega
  have hge : 2 ^ (A - 1) ≤ M * 2 ^ n := by
    calc 2 ^ (A - 1) = 2 ^ (bitWidth M - 1) * 2 ^ n := by rw [← pow_add]; congr 1; omega
      _ ≤ _ := Nat.mul_le_mul_right _ b2
  have hWlt : M * 2 ^ n < 2 ^ W := lt_of_lt_of_le hlt (Nat.pow_le_pow_right (by decide) hW)
  rw [Nat.shiftLeft_eq, Nat.mod_eq_of_lt hWlt]
  have hN : (0 : ℝ) < 2 ^ n := by positivity
  have hv : v * 2 ^ base = v * 2 ^ n * 2 ^ (base - n) := by
    rw [mul_assoc, ← zpow_natCast, ← zpow_add₀ (by norm_num)]; congr 2; ring
  rw [hv]
  have htl : tl = true ↔ v * 2 ^ n ≠ ((M * 2 ^ n : ℕ) : ℝ) := by
    rw [ht]; push_cast; rw [Ne, Ne, mul_left_inj' hN.ne']
  cases htl' : tl
  · have hvM : v = M := by by_contra h; rw [ht.2 h] at htl'; simp at htl'
    refine roundNormalized_spec f zs hW hge hlt (j := 0) (by omega) (by simp) ?_ ?_ (htl' ▸ htl)
    · push_cast; rw [hvM]
    · push_cast; rw [hvM]; linarith
  · have hn1 : n ≤ 1 := by
      have h3 := lt_of_le_of_lt (hbig htl') b3
      have := (Nat.pow_lt_pow_iff_right (by decide : 1 < 2)).1 h3
      omega
    refine roundNormalized_spec f zs hW hge hlt (j := n) (by omega) (Nat.dvd_mul_left _ _) ?_ ?_ (htl' ▸ htl)
    · push_cast; exact mul_le_mul_of_nonneg_right h1 hN.le
    · push_cast; rw [← add_one_mul]; exact mul_lt_mul_of_pos_right h2 hN

theorem zero_spec (m : Mode) (s : Bool) {X : ℝ} (hX : X = 0) : f.RoundsTo m s X (FPBits.zero f s) ∧ FlagsFor f X (FPBits.zero f s) {} := by
  have h := f.roundsTo_self (m := m) (f.finite_zero s)
  rw [f.sgn_zero, f.val_zero] at h
  rw [FPBits.zero_eq, ← zero_eq_pack, hX]
  refine ⟨h, rfl, ?_, ?_, ?_⟩
  · simp [f.finite_zero, f.val_zero]
  · simp only [Bool.false_eq_true, false_iff, not_or]
    refine ⟨fun h => (f.finite_zero s).2 h.2.1, ?_⟩
    rw [abs_zero, not_le]; exact zpow_pos (by norm_num) _
  · simp

theorem zeroSign_eq (m : Mode) (a b : Bool) : zeroSign m a b = if a = b then a else decide (m = .down) := by
  unfold zeroSign; cases a <;> cases b <;> cases m <;> rfl

/-- the aligned operands: `rp`, `rz` are the exact real magnitudes -/
theorem fmaCombine_spec {W A : ℕ} {m : Mode} {ps zs pst zst : Bool} {p zz : ℕ} {base : ℤ} {rp rz : ℝ} (hW : A + 1 ≤ W) (hA : f.F + 3 ≤ A)
    (hp : p < 2 ^ A) (hz : zz < 2 ^ A) (hp1 : (p : ℝ) ≤ rp) (hp2 : rp < p + 1) (hz1 : (zz : ℝ) ≤ rz) (hz2 : rz < zz + 1)
    (hps : pst = true ↔ rp ≠ p) (hzs : zst = true ↔ rz ≠ zz) (hmax : 2 ^ (A - 1) ≤ p ∨ 2 ^ (A - 1) ≤ zz)
    (hpst : pst = true → 2 ^ (A - 1) ≤ zz ∧ p < 2 ^ (A - 3)) (hzst : zst = true → 2 ^ (A - 1) ≤ p ∧ zz < 2 ^ (A - 3)) :
    ∃ r fl, fmaCombine f W A m ps zs pst p zst zz base = some (r, fl) ∧
      f.RoundsTo m (zeroSign m ps zs) ((sg ps * rp + sg zs * rz) * 2 ^ base) r ∧
      FlagsFor f ((sg ps * rp + sg zs * rz) * 2 ^ base) r fl := by
  have hA3 : 2 ^ (A - 1) = 4 * 2 ^ (A - 3) := by rw [show A - 1 = A - 3 + 2 by omega, pow_add]; ring
  have hA2 : 2 ^ (A - 2) = 2 * 2 ^ (A - 3) := by rw [show A - 2 = A - 3 + 1 by omega, pow_succ]; ring
  have hA0 : 2 ^ A = 8 * 2 ^ (A - 3) := by rw [show A = A - 3 + 3 by omega, Nat.add_sub_cancel, pow_add]; ring
  have hApos : 0 < 2 ^ (A - 3) := by positivity
  have hWA : 2 * 2 ^ A ≤ 2 ^ W := by rw [← pow_succ']; exact Nat.pow_le_pow_right (by decide) hW
  have pfalse : pst = false → rp = p := fun h => by by_contra h'; rw [hps.2 h'] at h; simp at h
  have zfalse : zst = false → rz = zz := fun h => by by_contra h'; rw [hzs.2 h'] at h; simp at h
  have notboth : pst = false ∨ zst = false := by
    cases h1 : pst
    · exact Or.inl rfl
    · cases h2 : zst
      · exact Or.inr rfl
      · have := hpst h1; have := hzst h2; omega
  unfold fmaCombine
  by_cases hs : ps = zs
  · subst hs
    simp only [if_true]
    rw [Nat.mod_eq_of_lt (by omega : p + zz < 2 ^ W)]
    have hX : (sg ps * rp + sg ps * rz) * (2 : ℝ) ^ base = sg ps * ((rp + rz) * 2 ^ base) := by ring
    rw [hX]
    have hsum1 : ((p + zz : ℕ) : ℝ) ≤ rp + rz := by push_cast; linarith
    have hsum2 : rp + rz < ((p + zz : ℕ) : ℝ) + 1 := by
      push_cast
      rcases notboth with h | h
      · rw [pfalse h]; linarith
      · rw [zfalse h]; linarith
    have htl : (pst || zst) = true ↔ rp + rz ≠ ((p + zz : ℕ) : ℝ) := by
      rw [Bool.or_eq_true, hps, hzs]
      push_cast
      constructor
      · rintro (h | h) h'
        · exact h (by linarith)
        · exact h (by linarith)
      · intro h
        by_contra hc
        push Not at hc
        exact h (by rw [hc.1, hc.2])
    by_cases hb : bitWidth (p + zz) > A
    · rw [if_pos hb]
      have hge : 2 ^ A ≤ p + zz := by
        by_contra h; push Not at h; have := bitWidth_le.2 h; omega
      refine ⟨_, _, rfl, ?_⟩
      rw [Nat.shiftRight_eq_div_pow, pow_one]
      have hv : (rp + rz) * (2 : ℝ) ^ base = (rp + rz) / 2 * 2 ^ (base + 1) := by rw [zpow_add_one₀ (by norm_num)]; ring
      rw [hv]
      have hdm := Nat.div_add_mod (p + zz) 2
      have hml := Nat.mod_lt (p + zz) (show 0 < 2 by decide)
      have hdmR : ((p + zz : ℕ) : ℝ) = 2 * ((p + zz) / 2 : ℕ) + ((p + zz) % 2 : ℕ) := by exact_mod_cast hdm.symm
      have hmR : (((p + zz) % 2 : ℕ) : ℝ) ≤ 1 := by exact_mod_cast (by omega : (p + zz) % 2 ≤ 1)
      have hmR0 : (0 : ℝ) ≤ (((p + zz) % 2 : ℕ) : ℝ) := Nat.cast_nonneg _
      refine roundNormalized_spec f _ (by omega) (j := 0) (by omega) (by omega) (by omega) (by simp) ?_ ?_ ?_
      · linarith
      · rw [pow_zero]; linarith
      · have : intGetBit (p + zz) 0 = decide ((p + zz) % 2 = 1) := by
          have := intGetBit_eq (p + zz) 0
          simp only [Nat.cast_zero] at this
          rw [this, Nat.testBit_zero]
        rw [Bool.or_eq_true, htl, this, decide_eq_true_eq]
        constructor
        · rintro (h | h) h'
          · have : rp + rz = 2 * ((p + zz) / 2 : ℕ) := by linarith
            apply h; linarith
          · rw [h] at hdmR; push_cast at hdmR hsum1
            linarith
        · intro h
          by_contra hc
          push Not at hc
          have h0 : (p + zz) % 2 = 0 := by omega
          apply h; rw [hc.1, hdmR, h0]; push_cast; ring
    · rw [if_neg hb]
      have hlt := bitWidth_le.1 (not_lt.1 hb)
      refine ⟨_, _, rfl, ?_⟩
      refine roundNormalized_spec f _ (by omega) (j := 0) (by omega) hlt (by omega) (by simp) hsum1 ?_ htl
      rw [pow_zero]; exact hsum2
  · simp only [if_neg hs]
    have hzs' : sg zs = - sg ps := by cases ps <;> cases zs <;> simp_all [sg]
    have hXp : (sg ps * rp + sg zs * rz) * (2 : ℝ) ^ base = sg ps * ((rp - rz) * 2 ^ base) := by rw [hzs']; ring
    have hXz : (sg ps * rp + sg zs * rz) * (2 : ℝ) ^ base = sg zs * ((rz - rp) * 2 ^ base) := by
      rw [hzs']; ring
    rw [zeroSign_eq, if_neg hs]
    rcases lt_trichotomy p zz with h | h | h
    · simp only [if_neg (show ¬ p > zz by omega), if_pos h]
      rw [if_neg (by decide)]
      simp only [show ¬ ((-1 : ℤ) > 0) by decide, if_false]
      have hz0 : zst = false := by
        by_contra hc; have := hzst (by simpa using hc); omega
      rw [hXz]
      have hrz := zfalse hz0
      cases hc : pst
      · simp only [Bool.false_eq_true, if_false]
        have e : (zz + 2 ^ W - p) % 2 ^ W = zz - p := by
          rw [show zz + 2 ^ W - p = (zz - p) + 2 ^ W by omega, Nat.add_mod_right, Nat.mod_eq_of_lt (by omega)]
        rw [e, if_neg (by omega)]
        refine ⟨_, _, rfl, ?_⟩
        have hd : rz - rp = ((zz - p : ℕ) : ℝ) := by rw [hrz, pfalse hc, Nat.cast_sub h.le]
        refine normalise_spec f _ (by omega) hA (by omega) (by omega) ?_ ?_ ?_ ?_
        · rw [hd]
        · rw [hd]; linarith
        · rw [hz0, hd]; simp
        · rw [hz0]; simp
      · simp only [if_true]
        have hb := hpst hc
        have e : (zz + 2 ^ W - p + 2 ^ W - 1) % 2 ^ W = zz - p - 1 := by
          rw [show zz + 2 ^ W - p + 2 ^ W - 1 = (zz - p - 1) + 2 ^ W + 2 ^ W by omega, Nat.add_mod_right, Nat.add_mod_right,
            Nat.mod_eq_of_lt (by omega)]
        rw [e, if_neg (by omega)]
        refine ⟨_, _, rfl, ?_⟩
        have hd : ((zz - p - 1 : ℕ) : ℝ) = zz - p - 1 := by rw [Nat.cast_sub (by omega), Nat.cast_sub h.le]; simp
        have hne := lt_of_le_of_ne hp1 (Ne.symm (hps.1 hc))
        refine normalise_spec f _ (by omega) hA (by omega) (by omega) ?_ ?_ ?_ ?_
        · rw [hd, hrz]; linarith
        · rw [hd, hrz]; linarith
        · simp only [true_iff]; rw [hd, hrz]; intro hh; linarith
        · intro _; omega
    · subst h
      have hp0 : pst = false := by
        by_contra hc; have := hpst (by simpa using hc); omega
      have hz0 : zst = false := by
        by_contra hc; have := hzst (by simpa using hc); omega
      simp only [lt_irrefl, if_false, hp0, hz0, bne_self_eq_false, Bool.false_eq_true, if_true]
      refine ⟨_, _, rfl, ?_⟩
      exact zero_spec f m _ (by rw [hXp, pfalse hp0, zfalse hz0]; simp)
    · simp only [gt_iff_lt, if_pos h]
      rw [if_neg (by decide)]
      simp only [show ((0 : ℤ) < 1) by decide, if_true]
      have hp0 : pst = false := by
        by_contra hc; have := hpst (by simpa using hc); omega
      rw [hXp]
      have hrp := pfalse hp0
      cases hc : zst
      · simp only [Bool.false_eq_true, if_false]
        have e : (p + 2 ^ W - zz) % 2 ^ W = p - zz := by
          rw [show p + 2 ^ W - zz = (p - zz) + 2 ^ W by omega, Nat.add_mod_right, Nat.mod_eq_of_lt (by omega)]
        rw [e, if_neg (by omega)]
        refine ⟨_, _, rfl, ?_⟩
        have hd : rp - rz = ((p - zz : ℕ) : ℝ) := by rw [hrp, zfalse hc, Nat.cast_sub h.le]
        refine normalise_spec f _ (by omega) hA (by omega) (by omega) ?_ ?_ ?_ ?_
        · rw [hd]
        · rw [hd]; linarith
        · rw [hp0, hd]; simp
        · rw [hp0]; simp
      · simp only [if_true]
        have hb := hzst hc
        have e : (p + 2 ^ W - zz + 2 ^ W - 1) % 2 ^ W = p - zz - 1 := by
          rw [show p + 2 ^ W - zz + 2 ^ W - 1 = (p - zz - 1) + 2 ^ W + 2 ^ W by omega, Nat.add_mod_right, Nat.add_mod_right,
            Nat.mod_eq_of_lt (by omega)]
        rw [e, if_neg (by omega)]
        refine ⟨_, _, rfl, ?_⟩
        have hd : ((p - zz - 1 : ℕ) : ℝ) = p - zz - 1 := by rw [Nat.cast_sub (by omega), Nat.cast_sub h.le]; simp
        have hne := lt_of_le_of_ne hz1 (Ne.symm (hzs.1 hc))
        refine normalise_spec f _ (by omega) hA (by omega) (by omega) ?_ ?_ ?_ ?_
        · rw [hd, hrp]; linarith
        · rw [hd, hrp]; linarith
        · simp only [true_iff]; rw [hd, hrp]; intro hh; linarith
        · intro _; omega

theorem shiftRightSticky_eq {W v : ℕ} (hv : v < 2 ^ W) (hv0 : 0 < v) (d : ℕ) :
    shiftRightSticky W (d : ℤ) v = (decide (v % 2 ^ d ≠ 0), v / 2 ^ d) := by
  unfold shiftRightSticky
  rcases Nat.eq_zero_or_pos d with h | h
  · subst h; simp [Nat.mod_one]
  · rw [if_neg (by omega)]
    by_cases h2 : W ≤ d
    · rw [if_pos (by omega)]
      have hlt := lt_of_lt_of_le hv (Nat.pow_le_pow_right (by decide : 0 < 2) h2)
      rw [Nat.mod_eq_of_lt hlt, Nat.div_eq_of_lt hlt]; simp [hv0.ne']
    · rw [if_neg (by omega), lowerBitsNonzero_eq hv, Int.toNat_natCast, Nat.shiftRight_eq_div_pow]

theorem explicitExponent_eq {x : ℕ} (h0 : f.val x ≠ 0) :
    FPBits.explicitExponent f x = (if f.bexp x = 0 then 1 else (f.bexp x : ℤ)) - f.bias := by
  have hz : FPBits.isZero f x = false := by
    rw [FPBits.isZero_eq]; unfold zeroB; simpa using fun h => h0 ((f.val_eq_zero_iff x).2 h)
  unfold FPBits.explicitExponent
  simp only [hz, FPBits.biasedExp_eq, Bool.false_eq_true, if_false]
  by_cases h : f.bexp x = 0
  · rw [h]; simp
  · rw [if_neg (by omega), if_neg h]

theorem explicitMantissa_eq (x : ℕ) : FPBits.explicitMantissa f x = (if f.bexp x = 0 then 0 else 2 ^ f.F) + f.frac x := by
  unfold FPBits.explicitMantissa
  rw [FPBits.isSubnormal_eq, FPBits.sigBits_eq, Nat.one_shiftLeft, two_pow_or_eq_add (f.frac_lt x)]
  by_cases h : f.bexp x = 0 <;> simp [h]

theorem explicit_val {x : ℕ} (h0 : f.val x ≠ 0) :
    f.val x = sg (f.sgn x) * ((FPBits.explicitMantissa f x : ℝ) * 2 ^ (FPBits.explicitExponent f x - f.F)) := by
  rw [explicitExponent_eq f h0, explicitMantissa_eq]
  unfold val sg
  have hp : (2 : ℝ) ^ f.F ≠ 0 := by positivity
  by_cases h : f.bexp x = 0
  · simp only [h, if_true, zero_add]
    rw [zpow_sub₀ (by norm_num) _ (f.F : ℤ), zpow_natCast]
    field_simp
  · simp only [h, if_false]
    rw [zpow_sub₀ (by norm_num) _ (f.F : ℤ), zpow_natCast]
    push_cast
    field_simp

theorem decode_spec {x : ℕ} (hx : f.Finite x) (h0 : f.val x ≠ 0) :
    let d := decode f x
    d.sign = f.sgn x ∧ 0 < d.mantissa ∧ d.mantissa < 2 ^ (f.F + 1) ∧ d.width = bitWidth d.mantissa ∧ d.top = d.lsb + d.width - 1 ∧
      f.val x = sg (f.sgn x) * ((d.mantissa : ℝ) * 2 ^ d.lsb) := by
  have hv := explicit_val f h0
  refine ⟨FPBits.isNeg_eq f hx.valid, ?_, ?_, rfl, rfl, hv⟩
  · rcases Nat.eq_zero_or_pos (FPBits.explicitMantissa f x) with h | h
    · rw [h] at hv; simp at hv; exact absurd hv h0
    · exact h
  · simp only [decode]
    rw [explicitMantissa_eq]
    have := f.frac_lt x
    rw [pow_succ]; split <;> omega

/-- a mantissa of `w ≤ k` bits moved to the top of an `A`-bit accumulator -/
theorem acc_spec {W A M k : ℕ} (hW : A ≤ W) (hk : k ≤ A) (hM : 0 < M) (hlt : M < 2 ^ k) :
    let acc := (M <<< (A - bitWidth M)) % 2 ^ W
    acc = M * 2 ^ (A - bitWidth M) ∧ 2 ^ (A - 1) ≤ acc ∧ acc < 2 ^ A ∧ 2 ^ (A - k) ∣ acc ∧ bitWidth M ≤ k := by
  obtain ⟨b1, b2, b3⟩ := bitWidth_spec hM
  have b4 := bitWidth_le.2 hlt
  have hlt' : M * 2 ^ (A - bitWidth M) < 2 ^ A := by
    calc M * 2 ^ (A - bitWidth M) < 2 ^ bitWidth M * 2 ^ (A - bitWidth M) := Nat.mul_lt_mul_of_pos_right b3 (by positivity)
      _ = 2 ^ A := by rw [← pow_add]; congr 1; omega
  have hge : 2 ^ (A - 1) ≤ M * 2 ^ (A - bitWidth M) := by
    calc 2 ^ (A - 1) = 2 ^ (bitWidth M - 1) * 2 ^ (A - bitWidth M) := by rw [← pow_add]; congr 1; omega
      _ ≤ _ := Nat.mul_le_mul_right _ b2
  have e : (M <<< (A - bitWidth M)) % 2 ^ W = M * 2 ^ (A - bitWidth M) := by
    rw [Nat.shiftLeft_eq, Nat.mod_eq_of_lt (lt_of_lt_of_le hlt' (Nat.pow_le_pow_right (by decide) hW))]
  rw [e]
  exact ⟨rfl, hge, hlt', dvd_mul_of_dvd_right (pow_dvd_pow 2 (by omega)) _, b4⟩

/-- the smaller operand after the alignment shift -/
theorem align_spec {W A k d acc : ℕ} (hW : A ≤ W) (hk : k + 3 ≤ A) (h2 : 2 ^ (A - 1) ≤ acc) (h3 : acc < 2 ^ A) (h4 : 2 ^ (A - k) ∣ acc) :
    shiftRightSticky W (d : ℤ) acc = (decide (acc % 2 ^ d ≠ 0), acc / 2 ^ d) ∧ acc / 2 ^ d < 2 ^ A ∧
      ((acc / 2 ^ d : ℕ) : ℝ) ≤ (acc : ℝ) / 2 ^ d ∧ (acc : ℝ) / 2 ^ d < ((acc / 2 ^ d : ℕ) : ℝ) + 1 ∧
      (decide (acc % 2 ^ d ≠ 0) = true ↔ (acc : ℝ) / 2 ^ d ≠ ((acc / 2 ^ d : ℕ) : ℝ)) ∧
      (decide (acc % 2 ^ d ≠ 0) = true → acc / 2 ^ d < 2 ^ (A - 3)) := by
  have h0 : 0 < acc := lt_of_lt_of_le (by positivity) h2
  have hdm := Nat.div_add_mod acc (2 ^ d)
  have hml : acc % 2 ^ d < 2 ^ d := Nat.mod_lt _ (by positivity)
  have hR : (acc : ℝ) = 2 ^ d * (acc / 2 ^ d : ℕ) + (acc % 2 ^ d : ℕ) := by exact_mod_cast hdm.symm
  have hP : (0 : ℝ) < 2 ^ d := by positivity
  have hq : (acc : ℝ) / 2 ^ d = (acc / 2 ^ d : ℕ) + ((acc % 2 ^ d : ℕ) : ℝ) / 2 ^ d := by
    rw [hR]
    generalize acc / 2 ^ d = a
    generalize acc % 2 ^ d = b
    field_simp
  have hr0 : (0 : ℝ) ≤ ((acc % 2 ^ d : ℕ) : ℝ) / 2 ^ d := by positivity
  have hr1 : ((acc % 2 ^ d : ℕ) : ℝ) / 2 ^ d < 1 := by rw [div_lt_one hP]; exact_mod_cast hml
  refine ⟨shiftRightSticky_eq (lt_of_lt_of_le h3 (Nat.pow_le_pow_right (by decide) hW)) h0 d, lt_of_le_of_lt (Nat.div_le_self _ _) h3,
    by rw [hq]; linarith, by rw [hq]; linarith, ?_, ?_⟩
  · rw [decide_eq_true_eq, hq]
    constructor
    · intro h h'
      have : ((acc % 2 ^ d : ℕ) : ℝ) / 2 ^ d = 0 := by linarith
      rw [div_eq_zero_iff] at this
      rcases this with h1 | h1
      · exact h (by exact_mod_cast h1)
      · exact hP.ne' h1
    · intro h h'; apply h; rw [h']; simp
  · rw [decide_eq_true_eq]
    intro h
    have hd : A - k < d := by
      by_contra hc; push Not at hc
      exact h (Nat.mod_eq_zero_of_dvd (dvd_trans (pow_dvd_pow 2 hc) h4))
    rw [Nat.div_lt_iff_lt_mul (by positivity), ← pow_add]
    refine lt_of_lt_of_le h3 (Nat.pow_le_pow_right (by decide) ?_)
    omega

/-- **kernel theorem**: on finite non-zero `x`, `y` and finite `z` the kernel returns the fused result rounded once -/
theorem fixedFma_finite {Wp W A : ℕ} (hWp : 2 * (f.F + 1) ≤ Wp) (hW : A + 1 ≤ W) (hA : 2 * (f.F + 1) + 3 ≤ A) (m : Mode) {x y z : ℕ}
    (hx : f.Finite x) (hy : f.Finite y) (hz : f.Finite z) (hx0 : f.val x ≠ 0) (hy0 : f.val y ≠ 0) :
    ∃ r fl, fixedFma f Wp W A m x y z = some (r, fl) ∧
      f.RoundsTo m (zeroSign m (xor (f.sgn x) (f.sgn y)) (f.sgn z)) (f.val x * f.val y + f.val z) r ∧
      FlagsFor f (f.val x * f.val y + f.val z) r fl := by
  have zb : ∀ {w}, f.val w ≠ 0 → f.zeroB w = false := fun {w} h => by
    unfold zeroB; simpa using fun h' => h ((f.val_eq_zero_iff w).2 h')
  have hsp : specialCaseFma f m x y z = none := by
    unfold specialCaseFma
    simp [FPBits.isNan_eq, FPBits.isInf_eq, FPBits.isZero_eq, (f.finite_B hx).1, (f.finite_B hx).2, (f.finite_B hy).1, (f.finite_B hy).2,
      (f.finite_B hz).1, (f.finite_B hz).2, zb hx0, zb hy0]
  unfold fixedFma
  rw [hsp]
  simp only
  obtain ⟨x1, x2, x3, x4, x5, x6⟩ := decode_spec f hx hx0
  obtain ⟨y1, y2, y3, y4, y5, y6⟩ := decode_spec f hy hy0
  have hpm0 : 0 < (decode f x).mantissa * (decode f y).mantissa := Nat.mul_pos x2 y2
  have hpm : (decode f x).mantissa * (decode f y).mantissa < 2 ^ (2 * (f.F + 1)) := by
    rw [two_mul, pow_add]; exact Nat.mul_lt_mul'' x3 y3
  have hmod : ((decode f x).mantissa * (decode f y).mantissa) % 2 ^ Wp = (decode f x).mantissa * (decode f y).mantissa :=
    Nat.mod_eq_of_lt (lt_of_lt_of_le hpm (Nat.pow_le_pow_right (by decide) hWp))
  rw [hmod, x1, y1]
  have hpv : f.val x * f.val y = sg (xor (f.sgn x) (f.sgn y)) * ((((decode f x).mantissa * (decode f y).mantissa : ℕ) : ℝ) *
      2 ^ ((decode f x).lsb + (decode f y).lsb)) := by
    rw [x6, y6, sg_xor, zpow_add₀ (by norm_num)]; push_cast; ring
  have hxor : (f.sgn x != f.sgn y) = xor (f.sgn x) (f.sgn y) := by cases f.sgn x <;> cases f.sgn y <;> rfl
  rw [hpv, hxor]
  generalize (decode f x).mantissa * (decode f y).mantissa = P at *
  generalize (decode f x).lsb + (decode f y).lsb = pl at *
  generalize xor (f.sgn x) (f.sgn y) = ps at *
  obtain ⟨pa0, pa1, pa2, pa3, pw⟩ := acc_spec (W := W) (A := A) (by omega) (by omega) hpm0 hpm
  obtain ⟨pb1, pb2, pb3⟩ := bitWidth_spec hpm0
  generalize hpacc : (P <<< (A - bitWidth P)) % 2 ^ W = pacc at *
  have hpacR : (P : ℝ) * 2 ^ pl = (pacc : ℝ) * 2 ^ (pl + bitWidth P - 1 - (A - 1) : ℤ) := by
    rw [pa0]; push_cast
    rw [mul_assoc, ← zpow_natCast, ← zpow_add₀ (by norm_num)]
    congr 2; omega
  rw [hpacR]
  by_cases hz0 : f.val z = 0
  · have : f.zeroB z = true := by simpa [zeroB] using (f.val_eq_zero_iff z).1 hz0
    rw [FPBits.isZero_eq, this, if_pos rfl, hz0, add_zero]
    refine ⟨_, _, rfl, ?_⟩
    exact roundNormalized_spec f _ (by omega) pa1 pa2 (j := 0) (by omega) (by simp) le_rfl (by linarith [show (0 : ℝ) < 2 ^ 0 by norm_num]) (by simp)
  · rw [FPBits.isZero_eq, zb hz0]
    simp only [Bool.false_eq_true, if_false]
    obtain ⟨z1, z2, z3, z4, z5, z6⟩ := decode_spec f hz hz0
    rw [z1, z5, z4, z6]
    generalize (decode f z).mantissa = Z at *
    generalize (decode f z).lsb = zl at *
    generalize f.sgn z = zs at *
    obtain ⟨za0, za1, za2, za3, zw⟩ := acc_spec (W := W) (A := A) (by omega) (by omega) z2 z3
    obtain ⟨zb1, zb2, zb3⟩ := bitWidth_spec z2
    generalize hzacc : (Z <<< (A - bitWidth Z)) % 2 ^ W = zacc at *
    have hzacR : (Z : ℝ) * 2 ^ zl = (zacc : ℝ) * 2 ^ (zl + bitWidth Z - 1 - (A - 1) : ℤ) := by
      rw [za0]; push_cast
      rw [mul_assoc, ← zpow_natCast, ← zpow_add₀ (by norm_num)]
      congr 2; omega
    rw [hzacR]
    generalize hpt : pl + (bitWidth P : ℤ) - 1 = pt at *
    generalize hzt : zl + (bitWidth Z : ℤ) - 1 = zt at *
    have shiftR : ∀ (a : ℕ) (t u : ℤ) (d : ℕ), u - t = d → (a : ℝ) * 2 ^ (t - (A - 1)) = (a : ℝ) / 2 ^ d * 2 ^ (u - (A - 1)) := by
      intro a t u d h
      rw [div_mul_eq_mul_div, ← zpow_natCast, mul_div_assoc, ← zpow_sub₀ (by norm_num)]
      congr 2; omega
    by_cases c1 : pt > zt
    · simp only [if_pos c1]
      obtain ⟨d, hd⟩ : ∃ d : ℕ, pt - zt = d := ⟨(pt - zt).toNat, by omega⟩
      obtain ⟨a1, a2, a3, a4, a5, a6⟩ := align_spec (d := d) (W := W) (by omega) (by omega) za1 za2 za3
      rw [hd, a1]
      simp only
      have e : sg ps * ((pacc : ℝ) * 2 ^ (pt - (A - 1))) + sg zs * ((zacc : ℝ) * 2 ^ (zt - (A - 1))) =
          (sg ps * pacc + sg zs * ((zacc : ℝ) / 2 ^ d)) * 2 ^ (pt - (A - 1)) := by
        rw [shiftR zacc zt pt d hd]; ring
      rw [e]
      exact fmaCombine_spec f hW (by omega) pa2 a2 le_rfl (by linarith) a3 a4 (by simp) a5 (Or.inl pa1) (by simp)
        (fun h => ⟨pa1, a6 h⟩)
    · by_cases c2 : zt > pt
      · simp only [if_neg c1, if_pos c2]
        obtain ⟨d, hd⟩ : ∃ d : ℕ, zt - pt = d := ⟨(zt - pt).toNat, by omega⟩
        obtain ⟨a1, a2, a3, a4, a5, a6⟩ := align_spec (d := d) (W := W) (by omega) (by omega) pa1 pa2 pa3
        rw [hd, a1]
        simp only
        have e : sg ps * ((pacc : ℝ) * 2 ^ (pt - (A - 1))) + sg zs * ((zacc : ℝ) * 2 ^ (zt - (A - 1))) =
            (sg ps * ((pacc : ℝ) / 2 ^ d) + sg zs * zacc) * 2 ^ (zt - (A - 1)) := by
          rw [shiftR pacc pt zt d hd]; ring
        rw [e]
        exact fmaCombine_spec f hW (by omega) a2 za2 a3 a4 le_rfl (by linarith) a5 (by simp) (Or.inr za1) (fun h => ⟨za1, a6 h⟩) (by simp)
      · simp only [if_neg c1, if_neg c2]
        have hpz : zt = pt := by omega
        have e : sg ps * ((pacc : ℝ) * 2 ^ (pt - (A - 1))) + sg zs * ((zacc : ℝ) * 2 ^ (zt - (A - 1))) =
            (sg ps * pacc + sg zs * zacc) * 2 ^ (pt - (A - 1)) := by rw [hpz]; ring
        rw [e]
        exact fmaCombine_spec f hW (by omega) pa2 za2 le_rfl (by linarith) le_rfl (by linarith) (by simp) (by simp) (Or.inl pa1) (by simp) (by simp)

end CC
end Verif
