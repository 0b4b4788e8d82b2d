import Verif.Model.BigIntBits
import Verif.Lemmas.BigInt5

/-!
# C102: the bit searches of wide integers

`first_leading_zero` and the like count from one, from the top or from the bottom; 0 means that there is no such bit.  Correct for unsigned types
(except `first_trailing_one`, C30), wrong for signed types.
-/

namespace Verif
open BI

theorem all_ones_iff {w : ℕ} {a : List ℕ} (ha : Words w a) : eqB a (List.replicate a.length (2 ^ w - 1)) = true ↔ nat w a = 2 ^ (w * a.length) - 1 := by
  have h := nat_replicate_ones w a.length
  have hp := Nat.two_pow_pos w
  rw [eqB_iff (by simp)]
  constructor
  · intro e
    have : nat w a + 1 = 2 ^ (w * a.length) := by
      conv_lhs => rw [e]
      exact h
    omega
  · intro e
    exact nat_inj ha (words_replicate (by omega)) (by simp) (by omega)

/-- the complement inverts every bit -/
theorem testBit_bnot {w : ℕ} {a : List ℕ} (ha : Words w a) {i : ℕ} (hi : i < w * a.length) : (nat w (bnot w a)).testBit i = !(nat w a).testBit i := by
  have h := (bnot_spec ha).2.2
  have e : nat w (bnot w a) = 2 ^ (w * a.length) - (nat w a + 1) := by omega
  rw [e, Nat.testBit_two_pow_sub_succ (nat_lt ha), decide_eq_true hi, Bool.true_and]

/-- **C102** `first_trailing_zero`: 0 for all ones, otherwise one more than the index of the lowest zero bit -/
theorem C102_first_trailing_zero (k : ℕ) {a : List ℕ} (ha : Words (2 ^ k) a) :
    (nat (2 ^ k) a = 2 ^ (2 ^ k * a.length) - 1 → firstTrailingZero (2 ^ k) a = 0) ∧
    (nat (2 ^ k) a ≠ 2 ^ (2 ^ k * a.length) - 1 → ∃ i < 2 ^ k * a.length, firstTrailingZero (2 ^ k) a = i + 1 ∧
      (nat (2 ^ k) a).testBit i = false ∧ ∀ j < i, (nat (2 ^ k) a).testBit j = true) := by
  unfold firstTrailingZero
  refine ⟨fun h => if_pos ((all_ones_iff ha).2 h), fun h => ?_⟩
  rw [if_neg (fun e => h ((all_ones_iff ha).1 e))]
  obtain ⟨b1, b2, b3⟩ := bnot_spec ha
  obtain ⟨c1, c2, c3⟩ := ctz_spec b1
  rw [b2] at c1 c3
  have hlt : ctz (2 ^ k) (bnot (2 ^ k) a) < 2 ^ k * a.length := by
    rcases c1.lt_or_eq with h' | h'
    · exact h'
    · exfalso; apply h
      have : nat (2 ^ k) (bnot (2 ^ k) a) = 0 := by
        apply Nat.eq_of_testBit_eq
        intro i
        rw [Nat.zero_testBit]
        by_cases hi : i < 2 ^ k * a.length
        · exact c2 i (by omega)
        · exact testBit_eq_false_of_word (nat_lt b1) (by rw [b2]; omega)
      omega
  refine ⟨_, hlt, rfl, ?_, fun j hj => ?_⟩
  · have := c3 hlt
    rw [testBit_bnot ha hlt] at this
    simpa using this
  · have := c2 j hj
    rw [testBit_bnot ha (by omega)] at this
    simpa using this

/-- **C102** `first_leading_zero`: 0 for all ones, otherwise the position, counted from one from the top, of the highest zero bit -/
theorem C102_first_leading_zero (k : ℕ) {a : List ℕ} (ha : Words (2 ^ k) a) :
    (nat (2 ^ k) a = 2 ^ (2 ^ k * a.length) - 1 → firstLeadingZero (2 ^ k) a = 0) ∧
    (nat (2 ^ k) a ≠ 2 ^ (2 ^ k * a.length) - 1 → ∃ i < 2 ^ k * a.length, firstLeadingZero (2 ^ k) a = 2 ^ k * a.length - i ∧
      (nat (2 ^ k) a).testBit i = false ∧ ∀ j, i < j → j < 2 ^ k * a.length → (nat (2 ^ k) a).testBit j = true) := by
  unfold firstLeadingZero
  refine ⟨fun h => if_pos ((all_ones_iff ha).2 h), fun h => ?_⟩
  rw [if_neg (fun e => h ((all_ones_iff ha).1 e))]
  obtain ⟨c1, c2, c3⟩ := clo_spec ha
  have hlt : clo (2 ^ k) a < 2 ^ k * a.length := by
    rcases c1.lt_or_eq with h' | h'
    · exact h'
    · exfalso; apply h
      apply Nat.eq_of_testBit_eq
      intro i
      rw [Nat.testBit_two_pow_sub_one]
      by_cases hi : i < 2 ^ k * a.length
      · rw [c2 i (by omega) hi, decide_eq_true hi]
      · rw [testBit_eq_false_of_word (nat_lt ha) (by omega), decide_eq_false hi]
  exact ⟨2 ^ k * a.length - clo (2 ^ k) a - 1, by omega, by omega, c3 hlt, fun j h1 h2 => c2 j (by omega) h2⟩

/-- **C102** `first_leading_one`: 0 for zero, otherwise the position, counted from one from the top, of the highest one bit -/
theorem C102_first_leading_one (k : ℕ) {a : List ℕ} (ha : Words (2 ^ k) a) :
    (nat (2 ^ k) a = 0 → firstLeadingOne (2 ^ k) a = 0) ∧
    (nat (2 ^ k) a ≠ 0 → ∃ i < 2 ^ k * a.length, firstLeadingOne (2 ^ k) a = 2 ^ k * a.length - i ∧
      (nat (2 ^ k) a).testBit i = true ∧ ∀ j, i < j → (nat (2 ^ k) a).testBit j = false) := by
  unfold firstLeadingOne
  obtain ⟨b1, b2, b3⟩ := bnot_spec ha
  obtain ⟨d1, d2⟩ := C102_first_leading_zero k b1
  rw [b2] at d1 d2
  refine ⟨fun h => d1 (by omega), fun h => ?_⟩
  obtain ⟨i, hi, e, t1, t2⟩ := d2 (by omega)
  refine ⟨i, hi, e, ?_, fun j hj => ?_⟩
  · rw [testBit_bnot ha hi] at t1
    simpa using t1
  · by_cases hj' : j < 2 ^ k * a.length
    · have := t2 j hj hj'
      rw [testBit_bnot ha hj'] at this
      simpa using this
    · exact testBit_eq_false_of_word (nat_lt ha) (by omega)

example : firstTrailingZero 8 [0xFF, 0x07, 0] = 12 ∧ firstLeadingZero 8 [0, 0xF0, 0xFF] = 13 ∧ firstLeadingOne 8 [0xFF, 0x01, 0] = 16 ∧
    firstLeadingOne 8 [0, 0] = 0 ∧ firstLeadingZero 8 [0xFF, 0xFF] = 0 := by decide +kernel

/-- C102, finding: `max()` of a signed type is not the all-ones value; for 16 bits `first_leading_zero(-1)` is one more than the width instead of 0, and
`first_leading_zero(max())` is 0 although the top bit is zero; `first_trailing_zero(max())` is 0 as well; `first_leading_one(0)` is the width plus one -/
theorem C102_signed_wrong : sfirstLeadingZero 8 [0xFF, 0xFF] = 17 ∧ sfirstLeadingZero 8 [0xFF, 0x7F] = 0 ∧ sfirstTrailingZero 8 [0xFF, 0x7F] = 0 ∧
    sfirstLeadingOne 8 [0, 0] = 17 := by decide +kernel

end Verif
