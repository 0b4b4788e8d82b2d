import Verif.Lemmas.Dyadic3

/-!
# Lemmas on dyadic floats: quick addition
-/

namespace Verif
open Fmt

namespace CC

/-- l.600-618, equal signs after alignment -/
def addTail (B : ℕ) (s : Bool) (e : ℤ) (x y : ℕ) : Dy :=
  if x + y ≥ 2 ^ B then ⟨(dyShr B ⟨s, e, (x + y) % 2 ^ B⟩ 1).s, (dyShr B ⟨s, e, (x + y) % 2 ^ B⟩ 1).e, (dyShr B ⟨s, e, (x + y) % 2 ^ B⟩ 1).m ||| 2 ^ (B - 1)⟩
  else ⟨s, e, (x + y) % 2 ^ B⟩

theorem addTail_spec {B : ℕ} (hB : 2 ≤ B) (s : Bool) (e : ℤ) {x y : ℕ} (hx : x < 2 ^ B) (hy : y < 2 ^ B) (hn : 2 ^ (B - 1) ≤ x + y) :
    (addTail B s e x y).Normal B ∧ (addTail B s e x y).s = s ∧ (addTail B s e x y).m ≠ 0 ∧
      ((addTail B s e x y).m : ℝ) * 2 ^ (addTail B s e x y).e ≤ ((x + y : ℕ) : ℝ) * 2 ^ e ∧
      (((x + y : ℕ) : ℝ) + 1) * 2 ^ e ≤ ((addTail B s e x y).m + 1) * 2 ^ (addTail B s e x y).e ∧ e ≤ (addTail B s e x y).e ∧ (addTail B s e x y).e ≤ e + 1 := by
  have eB : 2 ^ B = 2 * 2 ^ (B - 1) := by rw [← pow_succ']; congr 1; omega
  have hp : 0 < 2 ^ (B - 1) := by positivity
  have he : (0 : ℝ) < 2 ^ e := two_zpow_pos _
  unfold addTail
  generalize hz : x + y = z at *
  by_cases h : z ≥ 2 ^ B
  · rw [if_pos h]
    unfold dyShr
    rw [if_pos (by omega)]
    have e1 : z % 2 ^ B = z - 2 ^ B := by
      rw [Nat.mod_eq_sub_mod h, Nat.mod_eq_of_lt (by omega)]
    have e2 : (z % 2 ^ B) >>> 1 ||| 2 ^ (B - 1) = z / 2 := by
      rw [Nat.shiftRight_eq_div_pow, e1, Nat.or_comm]
      have hlt : (z - 2 ^ B) / 2 ^ 1 < 2 ^ (B - 1) := by omega
      have := Nat.two_pow_add_eq_or_of_lt hlt 1
      rw [mul_one] at this
      rw [← this]; omega
    simp only [e2]
    have ez : (2 : ℝ) ^ (e + ((1 : ℕ) : ℤ)) = 2 * 2 ^ e := by rw [zpow_add₀ (by norm_num)]; simp; ring
    refine ⟨⟨by simp only; omega, Or.inr (by simp only; omega)⟩, trivial, by omega, ?_, ?_, by push_cast; omega, by push_cast; omega⟩
    · rw [ez]
      have : ((z / 2 : ℕ) : ℝ) * 2 ≤ z := by exact_mod_cast Nat.div_mul_le_self z 2
      nlinarith
    · rw [ez]
      have : (z : ℝ) + 1 ≤ ((z / 2 : ℕ) : ℝ) * 2 + 2 := by
        have : z + 1 ≤ z / 2 * 2 + 2 := by omega
        exact_mod_cast this
      nlinarith
  · rw [if_neg h]
    push Not at h
    rw [Nat.mod_eq_of_lt h]
    exact ⟨⟨h, Or.inr hn⟩, rfl, by simp only; omega, le_rfl, le_rfl, le_rfl, by simp only; omega⟩

theorem dyShr_lt {B n : ℕ} (h : n < B) (d : Dy) : dyShr B d n = ⟨d.s, d.e + n, d.m / 2 ^ n⟩ := by
  unfold dyShr; rw [if_pos h, Nat.shiftRight_eq_div_pow]

theorem dyShr_ge {B n : ℕ} (h : B ≤ n) (d : Dy) : dyShr B d n = ⟨d.s, 0, 0⟩ := by
  unfold dyShr; rw [if_neg (by omega)]

/-- value of an aligned mantissa -/
theorem align_bounds (m t : ℕ) (e E : ℤ) (h : e + t = E) :
    ((m / 2 ^ t : ℕ) : ℝ) * 2 ^ E ≤ (m : ℝ) * 2 ^ e ∧ (m : ℝ) * 2 ^ e < (((m / 2 ^ t : ℕ) : ℝ) + 1) * 2 ^ E := by
  have hE : (2 : ℝ) ^ E = 2 ^ t * 2 ^ e := by rw [← h, zpow_add₀ (by norm_num), zpow_natCast]; ring
  have he : (0 : ℝ) < 2 ^ e := two_zpow_pos _
  have h1 : ((m / 2 ^ t : ℕ) : ℝ) * 2 ^ t ≤ m := by exact_mod_cast Nat.div_mul_le_self m (2 ^ t)
  have h2 : (m : ℝ) < (((m / 2 ^ t : ℕ) : ℝ) + 1) * 2 ^ t := by
    have : m < (m / 2 ^ t + 1) * 2 ^ t := by
      have := Nat.lt_div_mul_add (a := m) (Nat.two_pow_pos t)
      rw [Nat.add_mul, one_mul]; exact this
    exact_mod_cast this
  rw [hE]
  constructor
  · rw [← mul_assoc]; exact mul_le_mul_of_nonneg_right h1 he.le
  · rw [← mul_assoc]; exact mul_lt_mul_of_pos_right h2 he

/-- equal signs: the sum truncated -/
theorem quickAdd_same {B : ℕ} (hB : 2 ≤ B) {a b : Dy} (ha : a.Normal B) (hb : b.Normal B) (ha0 : a.m ≠ 0) (hb0 : b.m ≠ 0) (hs : a.s = b.s)
    (he : b.e < a.e + B) :
    (quickAdd B a b).Normal B ∧ (quickAdd B a b).s = a.s ∧ (quickAdd B a b).m ≠ 0 ∧
      ((quickAdd B a b).m : ℝ) * 2 ^ (quickAdd B a b).e ≤ |a.val| + |b.val| ∧
      |a.val| + |b.val| < ((quickAdd B a b).m + 1) * 2 ^ (quickAdd B a b).e ∧
      max a.e b.e ≤ (quickAdd B a b).e ∧ (quickAdd B a b).e ≤ max a.e b.e + 1 := by
  obtain ⟨a1, a2⟩ := ha
  obtain ⟨b1, b2⟩ := hb
  have a2 : 2 ^ (B - 1) ≤ a.m := by tauto
  have b2 : 2 ^ (B - 1) ≤ b.m := by tauto
  rw [a.abs_val, b.abs_val]
  unfold quickAdd
  rw [if_neg ha0, if_neg hb0]
  simp only
  by_cases h1 : a.e > b.e
  · simp only [if_pos h1]
    rw [max_eq_left h1.le]
    obtain ⟨t, ht⟩ : ∃ t : ℕ, b.e + t = a.e := ⟨(a.e - b.e).toNat, by omega⟩
    rw [show (a.e - b.e).toNat = t by omega]
    by_cases htB : t < B
    · rw [dyShr_lt htB, if_pos hs]
      simp only
      have hy : b.m / 2 ^ t < 2 ^ B := lt_of_le_of_lt (Nat.div_le_self _ _) b1
      obtain ⟨g1, g2, g3, g4, g5, g6, g7⟩ := addTail_spec hB a.s a.e a1 hy (le_trans a2 (Nat.le_add_right _ _))
      obtain ⟨p1, p2⟩ := align_bounds b.m t b.e a.e ht
      refine ⟨g1, g2, g3, le_trans g4 ?_, lt_of_lt_of_le ?_ g5, g6, g7⟩
      · push_cast; rw [add_mul]; linarith
      · push_cast at *; rw [add_mul] at *; linarith
    · rw [dyShr_ge (by omega), if_pos hs]
      simp only
      obtain ⟨g1, g2, g3, g4, g5, g6, g7⟩ := addTail_spec hB a.s a.e a1 (show 0 < 2 ^ B by positivity) (by omega)
      have hlt : (b.m : ℝ) * 2 ^ b.e < 1 * 2 ^ a.e := by
        have : (2 : ℝ) ^ a.e = 2 ^ t * 2 ^ b.e := by rw [← ht, zpow_add₀ (by norm_num), zpow_natCast]; ring
        rw [one_mul, this]
        have h3 : (b.m : ℝ) < 2 ^ t := by exact_mod_cast lt_of_lt_of_le b1 (Nat.pow_le_pow_right (by norm_num) (by omega))
        exact mul_lt_mul_of_pos_right h3 (two_zpow_pos _)
      have h0 : (0 : ℝ) ≤ (b.m : ℝ) * 2 ^ b.e := by have := two_zpow_pos b.e; positivity
      refine ⟨g1, g2, g3, le_trans g4 ?_, lt_of_lt_of_le ?_ g5, g6, g7⟩
      · push_cast; rw [add_zero]; linarith
      · push_cast at *; rw [add_zero, add_mul] at *; linarith
  · simp only [if_neg h1]
    by_cases h2 : b.e > a.e
    · simp only [if_pos h2]
      rw [max_eq_right h2.le]
      obtain ⟨t, ht⟩ : ∃ t : ℕ, a.e + t = b.e := ⟨(b.e - a.e).toNat, by omega⟩
      rw [show (b.e - a.e).toNat = t by omega, dyShr_lt (by omega), if_pos hs]
      simp only
      rw [ht]
      have hy : a.m / 2 ^ t < 2 ^ B := lt_of_le_of_lt (Nat.div_le_self _ _) a1
      obtain ⟨g1, g2, g3, g4, g5, g6, g7⟩ := addTail_spec hB a.s b.e hy b1 (le_trans b2 (Nat.le_add_left _ _))
      obtain ⟨p1, p2⟩ := align_bounds a.m t a.e b.e ht
      refine ⟨g1, g2, g3, le_trans g4 ?_, lt_of_lt_of_le ?_ g5, g6, g7⟩
      · push_cast; rw [add_mul]; linarith
      · push_cast at *; rw [add_mul] at *; linarith
    · simp only [if_neg h2]
      have hee : b.e = a.e := by omega
      rw [hee, max_self, if_pos hs]
      obtain ⟨g1, g2, g3, g4, g5, g6, g7⟩ := addTail_spec hB a.s a.e a1 b1 (by omega)
      refine ⟨g1, g2, g3, le_trans g4 ?_, lt_of_lt_of_le ?_ g5, g6, g7⟩
      · push_cast; rw [add_mul]
      · push_cast; rw [← add_mul]; exact mul_lt_mul_of_pos_right (by linarith) (two_zpow_pos _)

/-- opposite signs after alignment to a common exponent: the difference is exact -/
theorem subTail_spec {B : ℕ} {s t : Bool} (hst : s ≠ t) (e e' : ℤ) {x y : ℕ} (hx : x < 2 ^ B) (hy : y < 2 ^ B) (h1 : y ≠ 0 → e' = e) :
    (if x ≥ y then dyNormalize B ⟨s, e, x - y⟩ else dyNormalize B ⟨t, e', y - x⟩).Normal B ∧
    (if x ≥ y then dyNormalize B ⟨s, e, x - y⟩ else dyNormalize B ⟨t, e', y - x⟩).val = (sg s * x + sg t * y) * 2 ^ e := by
  have ht : sg t = - sg s := by cases s <;> cases t <;> simp_all [sg]
  by_cases h : x ≥ y
  · rw [if_pos h]
    obtain ⟨k1, k2, -⟩ := dyNormalize_spec (B := B) (d := ⟨s, e, x - y⟩) (by simp only; omega)
    refine ⟨k1, ?_⟩
    rw [k2, Dy.val_sg, ht]
    simp only
    rw [Nat.cast_sub h]; ring
  · rw [if_neg h]
    obtain ⟨k1, k2, -⟩ := dyNormalize_spec (B := B) (d := ⟨t, e', y - x⟩) (by simp only; omega)
    refine ⟨k1, ?_⟩
    rw [k2, Dy.val_sg, ht, h1 (by omega)]
    simp only
    rw [Nat.cast_sub (by omega)]; ring

/-- opposite signs: error below one unit of the larger exponent, and no error for equal exponents -/
theorem quickAdd_opp {B : ℕ} {a b : Dy} (ha : a.Normal B) (hb : b.Normal B) (ha0 : a.m ≠ 0) (hb0 : b.m ≠ 0) (hs : a.s ≠ b.s) :
    (quickAdd B a b).Normal B ∧ |(quickAdd B a b).val - (a.val + b.val)| < 2 ^ (max a.e b.e) ∧ (a.e = b.e → (quickAdd B a b).val = a.val + b.val) := by
  obtain ⟨a1, -⟩ := ha
  obtain ⟨b1, -⟩ := hb
  have fin : ∀ (d : Dy) (y : ℕ) (E : ℤ), (y : ℝ) * 2 ^ E ≤ (d.m : ℝ) * 2 ^ d.e → (d.m : ℝ) * 2 ^ d.e < ((y : ℝ) + 1) * 2 ^ E →
      |sg d.s * y * 2 ^ E - d.val| < 2 ^ E := by
    intro d y E h1 h2
    rw [d.val_sg, mul_assoc, ← mul_sub, abs_mul, abs_sg, one_mul, abs_sub_comm, abs_of_nonneg (by linarith)]
    rw [add_mul] at h2; linarith
  unfold quickAdd
  rw [if_neg ha0, if_neg hb0]
  simp only
  by_cases h1 : a.e > b.e
  · simp only [if_pos h1]
    rw [max_eq_left h1.le]
    obtain ⟨t, ht⟩ : ∃ t : ℕ, b.e + t = a.e := ⟨(a.e - b.e).toNat, by omega⟩
    rw [show (a.e - b.e).toNat = t by omega]
    by_cases htB : t < B
    · rw [dyShr_lt htB, if_neg hs]
      simp only
      have hy : b.m / 2 ^ t < 2 ^ B := lt_of_le_of_lt (Nat.div_le_self _ _) b1
      obtain ⟨k1, k2⟩ := subTail_spec hs a.e (b.e + t) a1 hy (fun _ => ht)
      refine ⟨k1, ?_, fun h => absurd h (by omega)⟩
      rw [k2]
      obtain ⟨p1, p2⟩ := align_bounds b.m t b.e a.e ht
      have := fin b _ a.e p1 p2
      convert this using 2
      rw [a.val_sg]; ring
    · rw [dyShr_ge (by omega), if_neg hs]
      simp only
      obtain ⟨k1, k2⟩ := subTail_spec hs a.e 0 a1 (show 0 < 2 ^ B by positivity) (fun h => absurd rfl h)
      refine ⟨k1, ?_, fun h => absurd h (by omega)⟩
      rw [k2]
      have h0 : b.m / 2 ^ t = 0 := Nat.div_eq_of_lt (lt_of_lt_of_le b1 (Nat.pow_le_pow_right (by norm_num) (by omega)))
      obtain ⟨p1, p2⟩ := align_bounds b.m t b.e a.e ht
      have := fin b _ a.e p1 p2
      rw [h0] at this
      convert this using 2
      rw [a.val_sg]; ring
  · simp only [if_neg h1]
    by_cases h2 : b.e > a.e
    · simp only [if_pos h2]
      rw [max_eq_right h2.le]
      obtain ⟨t, ht⟩ : ∃ t : ℕ, a.e + t = b.e := ⟨(b.e - a.e).toNat, by omega⟩
      rw [show (b.e - a.e).toNat = t by omega]
      by_cases htB : t < B
      · rw [dyShr_lt htB]
        simp only
        rw [if_neg hs, ht]
        have hy : a.m / 2 ^ t < 2 ^ B := lt_of_le_of_lt (Nat.div_le_self _ _) a1
        obtain ⟨k1, k2⟩ := subTail_spec hs b.e b.e hy b1 (fun _ => rfl)
        refine ⟨k1, ?_, fun h => absurd h (by omega)⟩
        rw [k2]
        obtain ⟨p1, p2⟩ := align_bounds a.m t a.e b.e ht
        have := fin a _ b.e p1 p2
        convert this using 2
        rw [b.val_sg]; ring
      · rw [dyShr_ge (by omega)]
        simp only
        rw [if_neg hs, if_neg (by omega)]
        have h0 : a.m / 2 ^ t = 0 := Nat.div_eq_of_lt (lt_of_lt_of_le a1 (Nat.pow_le_pow_right (by norm_num) (by omega)))
        obtain ⟨k1, k2, -⟩ := dyNormalize_spec (B := B) (d := ⟨b.s, b.e, b.m - 0⟩) (by simpa using b1)
        refine ⟨k1, ?_, fun h => absurd h (by omega)⟩
        rw [k2]
        obtain ⟨p1, p2⟩ := align_bounds a.m t a.e b.e ht
        have := fin a _ b.e p1 p2
        rw [h0] at this
        convert this using 2
        rw [b.val_sg, Dy.val_sg]; simp only [Nat.sub_zero]; push_cast; ring
    · simp only [if_neg h2]
      have hee : b.e = a.e := by omega
      rw [if_neg hs, hee, max_self]
      obtain ⟨k1, k2⟩ := subTail_spec hs a.e a.e a1 b1 (fun _ => rfl)
      have : (sg a.s * a.m + sg b.s * b.m) * 2 ^ a.e = a.val + b.val := by
        rw [a.val_sg, b.val_sg, hee]; ring
      rw [this] at k2
      refine ⟨k1, ?_, fun _ => k2⟩
      rw [k2, sub_self, abs_zero]; exact two_zpow_pos _

end CC
end Verif
