import Verif.Model.Log
import Verif.Lemmas.Exp1
import Verif.Lemmas.IntUtil

/-!
# Argument reduction of the float logarithms: `x = z 2^k` with `z` in `[0.699, 1.398)`
-/

namespace Verif
open Fmt Real

theorem pack_false32 (n : ℕ) : binary32.pack false n = n := by simp [pack]

/-- the pattern of a positive normal float -/
theorem bits32 {e m : ℕ} (h1 : 2 ^ 23 ≤ m) (h2 : m < 2 ^ 24) (h3 : e ≤ 253) :
    binary32.Finite (e * 2 ^ 23 + m) ∧ binary32.val (e * 2 ^ 23 + m) = m * (2 : ℝ) ^ ((e : ℤ) - 149) := by
  have hinf : binary32.infMag = 255 * 2 ^ 23 := by decide +kernel
  have hlt : e * 2 ^ 23 + m < binary32.infMag := by
    rw [hinf]
    have : e * 2 ^ 23 ≤ 253 * 2 ^ 23 := Nat.mul_le_mul_right _ h3
    omega
  have hw := lt_trans hlt binary32.infMag_lt
  have hf := binary32.finite_pack false hlt
  have hv := binary32.val_pack false hw
  rw [pack_false32] at hf hv
  refine ⟨hf, ?_⟩
  have hu : binary32.umag (e * 2 ^ 23 + m) = m * 2 ^ e := binary32.umag_of (k := e) (s := m) h2 (Or.inr h1)
  rw [hv, hu, binary32.minSub_eq_zpow]
  have : binary32.emin = -149 := by decide +kernel
  rw [this, zpow_sub₀ (by norm_num), zpow_natCast]
  push_cast
  rw [zpow_neg]; simp only [sg]; simp only [Bool.false_eq_true, if_false, one_mul]
  ring

theorem pos_inj32 {a b : ℕ} (ha : binary32.Finite a) (hb : binary32.Finite b) (h : binary32.val a = binary32.val b) (hp : 0 < binary32.val a) : a = b := by
  have key : ∀ x, 0 < binary32.val x → binary32.sgn x = false := by
    intro x hx
    cases hs : binary32.sgn x
    · rfl
    · exfalso
      rw [binary32.val_eq, hs] at hx
      have : (0 : ℝ) ≤ (binary32.umag (binary32.mag x) : ℝ) * binary32.minSub := mul_nonneg (Nat.cast_nonneg _) binary32.minSub_pos.le
      simp only [sg, if_true] at hx
      linarith
  have sa := key a hp
  have sb := key b (h ▸ hp)
  rw [binary32.val_eq, binary32.val_eq b, sa, sb] at h
  have h2 := mul_left_cancel₀ (sg_ne_zero false) h
  have h3 := mul_right_cancel₀ binary32.minSub_pos.ne' h2
  have h4 : binary32.mag a = binary32.mag b := binary32.umag_inj.1 (by exact_mod_cast h3)
  rw [← binary32.pack_sgn_mag ((binary32.finite_iff a).1 ha).1, ← binary32.pack_sgn_mag ((binary32.finite_iff b).1 hb).1, sa, sb, h4]

theorem mask_hi32 {t : ℕ} (h : t < 2 ^ 32) : t &&& 0xff800000 = t / 2 ^ 23 * 2 ^ 23 := by
  have e : (0xff800000 : ℕ) = 2 ^ 23 * (2 ^ 9 - 1) + 0 := by decide
  have e2 : t = 2 ^ 23 * (t / 2 ^ 23) + t % 2 ^ 23 := (Nat.div_add_mod t (2 ^ 23)).symm
  conv_lhs => rw [e, e2]
  rw [CC.and_split 23 _ _ _ _ (Nat.mod_lt _ (by norm_num)) (by norm_num), Nat.and_zero, Nat.and_two_pow_sub_one_eq_mod, Nat.mod_eq_of_lt (by omega)]
  omega

/-- the reduction as integer arithmetic: `N` is the extended bit pattern -/
theorem red_int32 {ix : ℕ} {N : ℤ} (h : (ix : ℤ) = N % 2 ^ 32) (h1 : -2 ^ 30 ≤ N) (h2 : N < 2 ^ 31) :
    let tmp := (ix + 2 ^ 32 - 0x3f330000) % 2 ^ 32
    let D := N - 0x3f330000
    (tmp >>> 19) % 16 = ((D % 2 ^ 23) / 2 ^ 19).toNat ∧ CC.sar23 tmp = D / 2 ^ 23 ∧
      (ix + 2 ^ 32 - (tmp &&& 0xff800000)) % 2 ^ 32 = (0x3f330000 + D % 2 ^ 23).toNat := by
  intro tmp D
  have ht : (tmp : ℤ) = D % 2 ^ 32 := by simp only [tmp, D]; omega
  have hlt : tmp < 2 ^ 32 := Nat.mod_lt _ (by norm_num)
  have hD1 : -2 ^ 31 ≤ D := by simp only [D]; omega
  have hD2 : D < 2 ^ 31 := by simp only [D]; omega
  rw [mask_hi32 hlt]
  unfold CC.sar23
  rw [Nat.shiftRight_eq_div_pow, Nat.shiftRight_eq_div_pow]
  have hN : N = D + 0x3f330000 := by simp only [D]; ring
  clear_value tmp D
  refine ⟨by omega, ?_, ?_⟩
  · split_ifs <;> omega
  · omega

theorem pat32 {P : ℕ} (h1 : 2 ^ 23 ≤ P) (h2 : P < 255 * 2 ^ 23) :
    binary32.Finite P ∧ binary32.val P = ((2 ^ 23 + P % 2 ^ 23 : ℕ) : ℝ) * (2 : ℝ) ^ (((P / 2 ^ 23 : ℕ) : ℤ) - 150) := by
  have h := bits32 (e := P / 2 ^ 23 - 1) (m := 2 ^ 23 + P % 2 ^ 23) (by omega) (by omega) (by omega)
  have e : (P / 2 ^ 23 - 1) * 2 ^ 23 + (2 ^ 23 + P % 2 ^ 23) = P := by omega
  rw [e] at h
  refine ⟨h.1, h.2.trans ?_⟩
  congr 2
  omega

/-- bit pattern of a positive finite float -/
theorem pos_pat32 {x : ℕ} (hx : binary32.Finite x) (h : 0 < binary32.val x) : 0 < x ∧ x < 255 * 2 ^ 23 := by
  have hs := (binary32.finite_iff x).1 hx
  have hsg : binary32.sgn x = false := by
    cases e : binary32.sgn x with
    | false => rfl
    | true => have := CC.val_eq_sg_abs binary32 x; rw [e] at this; simp [sg] at this; have := abs_nonneg (binary32.val x); linarith
  have hm : binary32.mag x = x % 2 ^ 31 := rfl
  have hsgn : x < 2 ^ 31 := by
    have e : binary32.sgn x = decide (2 ^ 31 ≤ x) := rfl
    rw [e] at hsg
    simpa using hsg
  have hi : binary32.infMag = 255 * 2 ^ 23 := by decide
  rw [hi, hm] at hs
  have h0 : binary32.mag x ≠ 0 := by
    intro h0; rw [(binary32.val_eq_zero_iff x).2 h0] at h; exact lt_irrefl _ h
  rw [hm] at h0
  omega

/-- the extended pattern of a positive finite float -/
theorem norm32 (md : Mode) {x : ℕ} (hx : binary32.Finite x) (h : 0 < binary32.val x) :
    ∃ N : ℤ, ((CC.logNormf md x : ℕ) : ℤ) = N % 2 ^ 32 ∧ -23 * 2 ^ 23 ≤ N ∧ N < 255 * 2 ^ 23 ∧ (2 ^ 23 ≤ x → N = x) ∧ (x < 2 ^ 23 → N < 2 ^ 23) ∧
      binary32.val x = (2 ^ 23 + (N % 2 ^ 23 : ℤ) : ℝ) * (2 : ℝ) ^ (N / 2 ^ 23 - 150) := by
  obtain ⟨h0, h1⟩ := pos_pat32 hx h
  unfold CC.logNormf
  by_cases hn : 2 ^ 23 ≤ x
  · rw [if_neg (by omega)]
    refine ⟨x, by omega, by omega, by omega, fun _ => rfl, fun h => absurd h (by omega), ?_⟩
    rw [(pat32 hn h1).2]
    have e1 : ((x : ℤ) % 2 ^ 23 : ℤ) = ((x % 2 ^ 23 : ℕ) : ℤ) := by omega
    have e2 : ((x : ℤ) / 2 ^ 23 : ℤ) = ((x / 2 ^ 23 : ℕ) : ℤ) := by omega
    rw [e1, e2, Int.cast_natCast, Nat.cast_add, Nat.cast_pow, Nat.cast_ofNat]
  · rw [if_pos (by omega)]
    have f23 : binary32.Finite 0x4B000000 := by decide +kernel
    have v23 : binary32.val 0x4B000000 = 2 ^ 23 := by
      have := (pat32 (P := 0x4B000000) (by norm_num) (by norm_num)).2
      rw [this]; norm_num
    have R := hmul_spec binary32 md hx f23
    rw [v23] at R
    have hm : binary32.mag x = x := by
      have : binary32.mag x = x % 2 ^ 31 := rfl
      omega
    have hu : binary32.umag x = x := by
      have := binary32.umag_of (k := 0) (s := x) (by have : binary32.F = 23 := rfl; rw [this]; omega) (Or.inl rfl)
      simpa using this
    have vx : binary32.val x = x * (2 : ℝ) ^ (-149 : ℤ) := by
      have hw : x < 2 ^ (binary32.E + binary32.F) := by have : 2 ^ (binary32.E + binary32.F) = 2 ^ 31 := rfl; omega
      have := binary32.val_pack false hw
      rw [pack_false32, hu, binary32.minSub_eq_zpow] at this
      have e : binary32.emin = -149 := by decide +kernel
      rw [e] at this
      simpa [sg] using this
    obtain ⟨B, hB1, hB2, hB3⟩ : ∃ B, 2 ^ 23 ≤ B ∧ B < 24 * 2 ^ 23 ∧ binary32.val B = x * (2 : ℝ) ^ (-126 : ℤ) ∧ binary32.Finite B := by
      have hl := Nat.log_eq_iff (b := 2) (m := Nat.log 2 x) (n := x) (Or.inr ⟨by norm_num, by omega⟩) |>.1 rfl
      set l := Nat.log 2 x
      have hl23 : l < 23 := by
        by_contra hc
        have := Nat.pow_le_pow_right (show 0 < 2 by norm_num) (show 23 ≤ l by omega)
        omega
      refine ⟨l * 2 ^ 23 + x * 2 ^ (23 - l), ?_, ?_, ?_⟩
      · have := Nat.mul_le_mul_right (2 ^ (23 - l)) hl.1
        rw [← pow_add, show l + (23 - l) = 23 by omega] at this
        omega
      · have := Nat.mul_lt_mul_of_pos_right hl.2 (show 0 < 2 ^ (23 - l) by positivity)
        rw [← pow_add, show l + 1 + (23 - l) = 24 by omega] at this
        have h3 : l * 2 ^ 23 ≤ 22 * 2 ^ 23 := Nat.mul_le_mul_right _ (by omega)
        omega
      · have g1 : 2 ^ 23 ≤ x * 2 ^ (23 - l) := by
          have := Nat.mul_le_mul_right (2 ^ (23 - l)) hl.1
          rwa [← pow_add, show l + (23 - l) = 23 by omega] at this
        have g2 : x * 2 ^ (23 - l) < 2 ^ 24 := by
          have := Nat.mul_lt_mul_of_pos_right hl.2 (show 0 < 2 ^ (23 - l) by positivity)
          rwa [← pow_add, show l + 1 + (23 - l) = 24 by omega] at this
        have := bits32 (e := l) g1 g2 (by omega)
        refine ⟨this.2.trans ?_, this.1⟩
        push_cast
        rw [mul_assoc]
        congr 1
        rw [← zpow_natCast, ← zpow_add₀ (by norm_num)]
        congr 1
        omega
    have hp := RoundsTo.exact binary32 hB3.2 (by rw [hB3.1, vx, mul_assoc, show (2 : ℝ) ^ (23 : ℕ) = 2 ^ (23 : ℤ) by norm_num, ← zpow_add₀ (by norm_num)]; norm_num) R
    have hpos : 0 < binary32.val (binary32.hmul md x 0x4B000000) := by rw [hp.2]; positivity
    have hb : binary32.hmul md x 0x4B000000 = B := by
      refine pos_inj32 hp.1 hB3.2 ?_ hpos
      rw [hp.2, hB3.1, vx, mul_assoc, show (2 : ℝ) ^ (23 : ℕ) = 2 ^ (23 : ℤ) by norm_num, ← zpow_add₀ (by norm_num)]; norm_num
    rw [hb]
    refine ⟨(B : ℤ) - 23 * 2 ^ 23, by omega, by omega, by omega, fun h => absurd h hn, fun _ => by omega, ?_⟩
    have := (pat32 hB1 (by omega)).2
    rw [hB3.1] at this
    rw [vx]
    have e1 : ((B : ℤ) - 23 * 2 ^ 23) % 2 ^ 23 = ((B % 2 ^ 23 : ℕ) : ℤ) := by omega
    have e2 : ((B : ℤ) - 23 * 2 ^ 23) / 2 ^ 23 = ((B / 2 ^ 23 : ℕ) : ℤ) - 23 := by omega
    rw [e1, e2]
    have e3 : (x : ℝ) * (2 : ℝ) ^ (-149 : ℤ) = x * 2 ^ (-126 : ℤ) * 2 ^ (-23 : ℤ) := by
      rw [mul_assoc, ← zpow_add₀ (by norm_num)]; norm_num
    rw [e3, this, mul_assoc, ← zpow_add₀ (by norm_num), Int.cast_natCast, Nat.cast_add, Nat.cast_pow, Nat.cast_ofNat]
    congr 2
    ring

/-- The reduction: with `z` the reduced pattern, `x = z 2^k`, `z` between `0x3f330000` and one binade above, and the table index tells its subinterval. -/
theorem red32 (md : Mode) {x : ℕ} (hx : binary32.Finite x) (h : 0 < binary32.val x) :
    ∃ (k : ℤ) (d : ℕ), d < 2 ^ 23 ∧ -160 ≤ k ∧ k ≤ 140 ∧
      (let ix := CC.logNormf md x
       let tmp := (ix + 2 ^ 32 - 0x3f330000) % 2 ^ 32
       (tmp >>> 19) % 16 = d / 2 ^ 19 ∧ CC.sar23 tmp = k ∧ (ix + 2 ^ 32 - (tmp &&& 0xff800000)) % 2 ^ 32 = 0x3f330000 + d) ∧
      binary32.Finite (0x3f330000 + d) ∧ binary32.val x = binary32.val (0x3f330000 + d) * (2 : ℝ) ^ k ∧
      (k = 0 → x = 0x3f330000 + d) := by
  obtain ⟨N, h1, h2, h3, h4, h5, h6⟩ := norm32 md hx h
  have hr := red_int32 h1 (by omega) (by omega)
  have hd : 0 ≤ (N - 0x3f330000) % 2 ^ 23 ∧ (N - 0x3f330000) % 2 ^ 23 < 2 ^ 23 := by omega
  obtain ⟨d, hd'⟩ : ∃ d : ℕ, (N - 0x3f330000) % 2 ^ 23 = d := ⟨_, (Int.toNat_of_nonneg hd.1).symm⟩
  refine ⟨(N - 0x3f330000) / 2 ^ 23, d, by omega, by omega, by omega, ?_, ?_⟩
  · obtain ⟨r1, r3, r4⟩ := hr
    refine ⟨r1.trans ?_, r3, r4.trans ?_⟩ <;> rw [hd'] <;> omega
  · have p := pat32 (P := 0x3f330000 + d) (by omega) (by omega)
    refine ⟨p.1, ?_, ?_⟩
    · rw [h6, p.2, mul_assoc, ← zpow_add₀ (by norm_num)]
      have e1 : (N % 2 ^ 23 : ℤ) = (((0x3f330000 + d) % 2 ^ 23 : ℕ) : ℤ) := by omega
      have e2 : N / 2 ^ 23 - 150 = (((0x3f330000 + d) / 2 ^ 23 : ℕ) : ℤ) - 150 + (N - 0x3f330000) / 2 ^ 23 := by omega
      rw [e1, e2, Int.cast_natCast, Nat.cast_add, Nat.cast_pow, Nat.cast_ofNat]
    · intro hk
      have hN : N = 0x3f330000 + d := by omega
      have : 2 ^ 23 ≤ x := by
        by_contra hc
        have := h5 (by omega)
        omega
      have := h4 this
      omega

end Verif
