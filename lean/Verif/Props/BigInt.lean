import Verif.Lemmas.BigInt5

/-!
# C27 – C30: wide integers

`nat w a` is the number written by the `w`-bit words `a` (least significant first, `Nat.ofDigits (2^w)`); `sval w a` its two's complement reading
(`Int.bmod` modulo `2^(w N)`); `Words w a` says that every word is below `2^w`.  The number of words is not bounded, except that the carry word of
the product columns must be able to hold the number of words (`a.length < 2^w`).
-/

namespace Verif
open BI

/-! ## C27 addition and subtraction -/

/-- C27: addition gives the sum modulo `2^(w N)` and the carry out is exact -/
theorem C27_add {w : ℕ} (hw : 1 ≤ w) {a b : List ℕ} (ha : Words w a) (hb : Words w b) (hl : b.length ≤ a.length) :
    Words w (addC w a b).1 ∧ (addC w a b).1.length = a.length ∧ (addC w a b).2 ≤ 1 ∧
      nat w (addC w a b).1 + 2 ^ (w * a.length) * (addC w a b).2 = nat w a + nat w b := addC_spec hw ha hb hl

/-- C27: subtraction gives the difference modulo `2^(w N)` and the borrow out is exact -/
theorem C27_sub {w : ℕ} (hw : 1 ≤ w) {a b : List ℕ} (ha : Words w a) (hb : Words w b) (hl : b.length ≤ a.length) :
    Words w (subB w a b).1 ∧ (subB w a b).1.length = a.length ∧ (subB w a b).2 ≤ 1 ∧
      (nat w (subB w a b).1 : ℤ) = nat w a - nat w b + 2 ^ (w * a.length) * (subB w a b).2 := by
  obtain ⟨h1, h2, h3, h4⟩ := subB_spec hw ha hb hl
  refine ⟨h1, h2, h3, ?_⟩
  have : (nat w (subB w a b).1 : ℤ) + nat w b = nat w a + 2 ^ (w * a.length) * (subB w a b).2 := by exact_mod_cast h4
  linarith

/-- C27: the carry is set exactly when the sum does not fit, the borrow exactly when the difference is negative -/
theorem C27_carry {w : ℕ} (hw : 1 ≤ w) {a b : List ℕ} (ha : Words w a) (hb : Words w b) (hl : b.length ≤ a.length) :
    ((addC w a b).2 = 1 ↔ 2 ^ (w * a.length) ≤ nat w a + nat w b) ∧ ((subB w a b).2 = 1 ↔ nat w a < nat w b) := by
  obtain ⟨h1, h2, h3, h4⟩ := addC_spec hw ha hb hl
  obtain ⟨g1, g2, g3, g4⟩ := subB_spec hw ha hb hl
  have l1 := nat_lt h1
  have l2 := nat_lt g1
  have l3 := nat_lt ha
  rw [h2] at l1
  rw [g2] at l2
  generalize 2 ^ (w * a.length) = B at *
  constructor
  · rcases (show (addC w a b).2 = 0 ∨ (addC w a b).2 = 1 by omega) with h | h
    · rw [h, mul_zero, add_zero] at h4; rw [h]; constructor
      · intro h; omega
      · intro h; omega
    · rw [h, mul_one] at h4; rw [h]; constructor
      · intro _; omega
      · intro _; rfl
  · rcases (show (subB w a b).2 = 0 ∨ (subB w a b).2 = 1 by omega) with h | h
    · rw [h, mul_zero, add_zero] at g4; rw [h]; constructor
      · intro h; omega
      · intro h; omega
    · rw [h, mul_one] at g4; rw [h]; constructor
      · intro _; omega
      · intro _; rfl

example : addC 8 [0xFF, 0xFF, 0xFF] [1] = ([0, 0, 0], 1) ∧ subB 8 [0, 0, 1] [1] = ([0xFF, 0xFF, 0], 0) := by decide +kernel
example : Words 8 [0xFF, 0xFF, 0xFF] := by unfold Words; decide

/-- two's complement: a list congruent to an integer represents its balanced residue -/
theorem sval_of_nat_emod {w : ℕ} {a : List ℕ} {n : ℕ} {v : ℤ} (hl : a.length = n) (h : (nat w a : ℤ) = v % 2 ^ (w * n)) : sval w a = Int.bmod v (2 ^ (w * n)) := by
  rw [sval, hl, h]; exact bmod_congr (emod_dvd_sub _ _)

theorem sval_congr {w : ℕ} (a : List ℕ) : (2 : ℤ) ^ (w * a.length) ∣ (nat w a : ℤ) - sval w a := by
  have := bmod_dvd (n := w * a.length) (nat w a : ℤ)
  rw [← dvd_neg, neg_sub] at this; exact this

/-- C27: the operators `+`, `-`, unary `-`, `++`, `--`, for the unsigned and for the signed reading of the same words -/
theorem C27_operators {w : ℕ} (hw : 1 ≤ w) {a b : List ℕ} (ha : Words w a) (hb : Words w b) (hl : a.length = b.length) (hN : 1 ≤ a.length) :
    ((nat w (add w a b) : ℤ) = ((nat w a : ℤ) + nat w b) % 2 ^ (w * a.length) ∧ sval w (add w a b) = Int.bmod (sval w a + sval w b) (2 ^ (w * a.length))) ∧
    ((nat w (sub w a b) : ℤ) = ((nat w a : ℤ) - nat w b) % 2 ^ (w * a.length) ∧ sval w (sub w a b) = Int.bmod (sval w a - sval w b) (2 ^ (w * a.length))) ∧
    ((nat w (negate w a) : ℤ) = (-(nat w a : ℤ)) % 2 ^ (w * a.length) ∧ sval w (negate w a) = Int.bmod (-sval w a) (2 ^ (w * a.length))) ∧
    ((nat w (increment w a) : ℤ) = ((nat w a : ℤ) + 1) % 2 ^ (w * a.length) ∧ sval w (increment w a) = Int.bmod (sval w a + 1) (2 ^ (w * a.length))) ∧
    ((nat w (decrement w a) : ℤ) = ((nat w a : ℤ) - 1) % 2 ^ (w * a.length) ∧ sval w (decrement w a) = Int.bmod (sval w a - 1) (2 ^ (w * a.length))) := by
  have ca := sval_congr (w := w) a
  have cb := sval_congr (w := w) b
  rw [← hl] at cb
  have h1 : nat w [1] = 1 := by rw [nat_cons, nat_nil, mul_zero, add_zero]
  have e1 : (nat w [1] : ℤ) = 1 := by rw [h1]; rfl
  have fin : ∀ (c : List ℕ) (v v' : ℤ), c.length = a.length → (nat w c : ℤ) = v % 2 ^ (w * a.length) → (2 : ℤ) ^ (w * a.length) ∣ v - v' →
      (nat w c : ℤ) = v % 2 ^ (w * a.length) ∧ sval w c = Int.bmod v' (2 ^ (w * a.length)) := by
    intro c v v' hc h hv
    exact ⟨h, (sval_of_nat_emod hc h).trans (bmod_congr hv)⟩
  have fadd : ∀ b : List ℕ, Words w b → b.length ≤ a.length → (add w a b).length = a.length ∧ (nat w (add w a b) : ℤ) = ((nat w a : ℤ) + nat w b) % 2 ^ (w * a.length) := by
    intro b hb hl
    obtain ⟨_, h2, h3⟩ := add_nat hw ha hb hl
    refine ⟨h2, ?_⟩
    rw [h3, Int.natCast_mod, Nat.cast_pow, Nat.cast_add, Nat.cast_two]
  refine ⟨?_, ?_, ?_, ?_, ?_⟩
  · obtain ⟨h2, h3⟩ := fadd b hb hl.ge
    exact fin _ _ _ h2 h3 (by rw [add_sub_add_comm]; exact dvd_add ca cb)
  · obtain ⟨_, h2, h3⟩ := sub_nat' hw ha hb hl.ge
    exact fin _ _ _ h2 h3 (by rw [sub_sub_sub_comm]; exact dvd_sub ca cb)
  · obtain ⟨_, h2, h3⟩ := negate_nat hw ha hN
    exact fin _ _ _ h2 h3 (by rw [neg_sub_neg, ← dvd_neg, neg_sub]; exact ca)
  · obtain ⟨h2, h3⟩ := fadd [1] (words_one hw) hN
    rw [e1] at h3
    exact fin _ _ _ h2 h3 (by rw [add_sub_add_right_eq_sub]; exact ca)
  · obtain ⟨_, h2, h3⟩ := sub_nat' hw ha (words_one hw) hN
    rw [e1] at h3
    exact fin _ _ _ h2 h3 (by rw [sub_sub_sub_cancel_right]; exact ca)

example : sval 8 [0xFE, 0xFF] = -2 ∧ negate 8 [0xFE, 0xFF] = [2, 0] ∧ sval 8 (add 8 [0xFF, 0x7F] [1, 0]) = -32768 := by decide +kernel

/-- C27: conversion from a built-in integer of `tbits` bits (signed or unsigned) is the value modulo `2^(w N)` -/
theorem C27_of_int (w tbits N : ℕ) (v : ℤ) (ht : 1 ≤ tbits) (h1 : -2 ^ (tbits - 1) ≤ v) (h2 : v < 2 ^ tbits) :
    Words w (ofInt w tbits N v) ∧ (ofInt w tbits N v).length = N ∧ (nat w (ofInt w tbits N v) : ℤ) = v % 2 ^ (w * N) := ofInt_spec N v ht h1 h2

example : ofInt 32 64 4 (-2) = [0xFFFFFFFE, 0xFFFFFFFF, 0xFFFFFFFF, 0xFFFFFFFF] ∧ ofInt 64 32 2 (-2) = [0xFFFFFFFFFFFFFFFE, 0xFFFFFFFFFFFFFFFF] := by
  decide +kernel

/-- C27: conversion to `M` words of the same size: narrowing reduces modulo `2^(w M)`; widening keeps the value of an unsigned source, and keeps
the value of a signed source when the target is signed or the value is not negative -/
theorem C27_resize_partial (signed otherSigned : Bool) {w : ℕ} (hw : 1 ≤ w) (M : ℕ) {a : List ℕ} (ha : Words w a) (hN : 1 ≤ a.length) :
    (resize signed otherSigned w M a).length = M ∧ Words w (resize signed otherSigned w M a) ∧
    (M ≤ a.length → nat w (resize signed otherSigned w M a) = nat w a % 2 ^ (w * M)) ∧
    (a.length < M → otherSigned = false → nat w (resize signed otherSigned w M a) = nat w a) ∧
    (a.length < M → otherSigned = true → signed = true ∨ 0 ≤ sval w a →
      (2 : ℤ) ^ (w * M) ∣ (nat w (resize signed otherSigned w M a) : ℤ) - sval w a) := by
  unfold resize
  by_cases h : M ≤ a.length
  · rw [if_pos h]
    obtain ⟨t1, t2, t3⟩ := nat_take ha M h
    exact ⟨t2, t1, fun _ => t3, fun h' => absurd h' (by omega), fun h' => absurd h' (by omega)⟩
  · rw [if_neg h]
    have hfl : (if (signed && isNeg otherSigned w a) = true then 2 ^ w - 1 else 0) < 2 ^ w := by
      have := Nat.two_pow_pos w
      split_ifs <;> omega
    refine ⟨by simp; omega, words_append ha (words_replicate hfl), fun h' => absurd h' h, ?_, ?_⟩
    · intro _ ho
      subst ho
      simp [isNeg]
    · intro _ ho hs
      subst ho
      have key := nat_sign_ext hw ha hN (M - a.length)
      rw [Nat.add_sub_of_le (by omega)] at key
      have hn := sval_neg_iff hw ha hN
      have e : (signed && isNeg true w a) = msb w a := by
        unfold isNeg
        rw [Bool.true_and]
        rcases hs with hs | hs
        · rw [hs, Bool.true_and]
        · have : msb w a = false := by
            cases hm : msb w a
            · rfl
            · exact absurd (hn.1 hm) (by omega)
          rw [this, Bool.and_false]
      rw [e]; exact key

/-- C27 fails for widening a negative signed number to an unsigned one: `BigInt<16,signed>(-1)` becomes 65535 in a 24-bit unsigned number, where
built-in conversions give `2^24 - 1` -/
theorem C27_resize_negative_to_unsigned :
    sval 8 [0xFF, 0xFF] = -1 ∧ nat 8 (resize false true 8 3 [0xFF, 0xFF]) = 65535 ∧ (-1 : ℤ) % 2 ^ 24 = 2 ^ 24 - 1 := by decide +kernel

example : resize true true 8 4 [0, 0x80] = [0, 0x80, 0xFF, 0xFF] := by decide +kernel

/-! ## C28 multiplication -/

/-- C28: the word product primitive is exact, with a double-width type (`wide`) or with the portable half-word algorithm -/
theorem C28_mul2 (wide : Bool) {w a b : ℕ} (hw : 1 ≤ w) (he : wide = false → w % 2 = 0) (ha : a < 2 ^ w) (hb : b < 2 ^ w) :
    (mul2 wide w a b).1 + 2 ^ w * (mul2 wide w a b).2 = a * b ∧ (mul2 wide w a b).1 < 2 ^ w ∧ (mul2 wide w a b).2 < 2 ^ w :=
  mul2_spec wide hw he ha hb

example : mul2 false 64 0xFFFFFFFFFFFFFFFF 0xFFFFFFFFFFFFFFFF = (1, 0xFFFFFFFFFFFFFFFE) := by decide +kernel

/-- C28: the full product of an `m`-word and an `n`-word number is exact in `m + n` words -/
theorem C28_full_product (wide : Bool) {w : ℕ} (hw : 1 ≤ w) (he : wide = false → w % 2 = 0) {a b : List ℕ} (ha : Words w a) (hb : Words w b)
    (ha1 : 1 ≤ a.length) (hM : a.length < 2 ^ w) :
    Words w (fulMul wide w a b) ∧ (fulMul wide w a b).length = a.length + b.length ∧ nat w (fulMul wide w a b) = nat w a * nat w b :=
  fulMul_spec wide hw he ha hb ha1 hM

example : fulMul false 8 [0xFF, 0xFF, 0xFF] [0xFF, 0xFF] = [1, 0, 0xFF, 0xFE, 0xFF] ∧ 0xFFFFFF * 0xFFFF = 0xFFFEFF0001 := by decide +kernel

/-- C28: `operator*` is the product modulo `2^(w N)`, for the unsigned and the signed reading -/
theorem C28_mul (wide signed : Bool) {w : ℕ} (hw : 1 ≤ w) (he : wide = false → w % 2 = 0) {a b : List ℕ} (ha : Words w a) (hb : Words w b)
    (hl : a.length = b.length) (ha1 : 1 ≤ a.length) (hM : a.length < 2 ^ w) :
    (mul wide signed w a b).length = a.length ∧ Words w (mul wide signed w a b) ∧
      nat w (mul wide signed w a b) = nat w a * nat w b % 2 ^ (w * a.length) ∧
      sval w (mul wide signed w a b) = Int.bmod (sval w a * sval w b) (2 ^ (w * a.length)) := by
  obtain ⟨h1, h2, h3⟩ := mul_nat wide signed hw he ha hb ha1 hM
  refine ⟨h2, h1, h3, ?_⟩
  have e : (nat w (mul wide signed w a b) : ℤ) = ((nat w a : ℤ) * nat w b) % 2 ^ (w * a.length) := by
    rw [h3, Int.natCast_mod, Nat.cast_pow, Nat.cast_mul, Nat.cast_two]
  rw [sval_of_nat_emod h2 e]
  apply bmod_congr
  have ca := sval_congr (w := w) a
  have cb := sval_congr (w := w) b
  rw [← hl] at cb
  have : (nat w a : ℤ) * nat w b - sval w a * sval w b = ((nat w a : ℤ) - sval w a) * nat w b + sval w a * ((nat w b : ℤ) - sval w b) := by ring
  rw [this]
  exact dvd_add (dvd_mul_of_dvd_left ca _) (dvd_mul_of_dvd_right cb _)

example : sval 8 (mul false true 8 [0xFE, 0xFF] [3, 0]) = -6 := by decide +kernel

/-- C28: the quick high product never exceeds the high half of the product and is short of it by less than the number of words -/
theorem C28_quick_mul_hi (wide : Bool) {w : ℕ} (hw : 1 ≤ w) (he : wide = false → w % 2 = 0) {a b : List ℕ} (ha : Words w a) (hb : Words w b)
    (hl : a.length = b.length) (hN : 1 ≤ a.length) (hM : a.length < 2 ^ w) :
    Words w (quickMulHi wide w a b) ∧ (quickMulHi wide w a b).length = a.length ∧
      nat w (quickMulHi wide w a b) ≤ nat w a * nat w b / 2 ^ (w * a.length) ∧
      nat w a * nat w b / 2 ^ (w * a.length) < nat w (quickMulHi wide w a b) + a.length := quickMulHi_spec wide hw he ha hb hl hN hM

/-- the bound of `C28_quick_mul_hi` is attained: one short with two words -/
example : quickMulHi true 8 [0xFF, 0xFF] [3, 0xFF] = [1, 0xFF] ∧ 0xFFFF * 0xFF03 / 0x10000 = 0xFF02 := by decide +kernel

/-- C28: multiplication by one word is the product modulo `2^(w N)` -/
theorem C28_scalar_mul_partial (wide : Bool) {w x : ℕ} (hw : 1 ≤ w) (he : wide = false → w % 2 = 0) (hx : x < 2 ^ w) {a : List ℕ} (ha : Words w a) :
    Words w (scalarMul wide w a x).1 ∧ (scalarMul wide w a x).1.length = a.length ∧
      nat w (scalarMul wide w a x).1 = nat w a * x % 2 ^ (w * a.length) := by
  obtain ⟨h1, h2, _, h, _, h4⟩ := scalarMulAux_spec wide hw he hx a (0, 0) ha (Nat.two_pow_pos w) rfl
  refine ⟨h1, h2, ?_⟩
  simp only [zero_add] at h4
  rw [← h4, Nat.add_mul_mod_self_left, Nat.mod_eq_of_lt]; rfl
  have := nat_lt h1; rwa [h2] at this

/-- C28 fails for the carry returned by `BigInt::mul(word)`: it is 0 for all inputs, so the high word of the product is lost -/
theorem C28_scalar_mul_carry_lost (wide : Bool) {w x : ℕ} (hw : 1 ≤ w) (he : wide = false → w % 2 = 0) (hx : x < 2 ^ w) {a : List ℕ} (ha : Words w a) :
    (scalarMul wide w a x).2 = 0 := (scalarMulAux_spec wide hw he hx a (0, 0) ha (Nat.two_pow_pos w) rfl).2.2.1

example : scalarMul true 8 [0xFF, 0xFF] 0xFF = ([1, 0xFF], 0) ∧ 0xFFFF * 0xFF = 0xFEFF01 := by decide +kernel

/-- C28: `pow_n` is the power modulo `2^(w N)` -/
theorem C28_pow (wide : Bool) {w : ℕ} (hw : 1 ≤ w) (he : wide = false → w % 2 = 0) {a : List ℕ} (ha : Words w a) (ha1 : 1 ≤ a.length)
    (hM : a.length < 2 ^ w) (e : ℕ) (hexp : e < 2 ^ 64) :
    Words w (powN wide w a e) ∧ (powN wide w a e).length = a.length ∧ nat w (powN wide w a e) = nat w a ^ e % 2 ^ (w * a.length) := by
  obtain ⟨o1, o2, o3⟩ := one_spec hw ha1
  have := powLoop_spec wide hw he ha1 hM 64 (ofInt w 32 a.length 1) a e o1 ha o2 rfl hexp
  rw [o3, one_mul] at this
  exact this

example : powN true 8 [3, 0] 10 = [59049 % 256, 59049 / 256 % 256] := by decide +kernel

/-! ## C29 division -/

/-- C29: division by zero is reported -/
theorem C29_div_zero (signed : Bool) {w : ℕ} {a d : List ℕ} : div signed w a d = none ↔ nat w d = 0 := by
  unfold div
  rw [← isZero_iff]
  cases isZero d <;> simp
  split_ifs <;> simp

/-- C29: unsigned division: quotient and remainder are exact, `a = q d + r`, `r < d` -/
theorem C29_div_unsigned (k : ℕ) {a d : List ℕ} (ha : Words (2 ^ k) a) (hd : Words (2 ^ k) d) (hl : a.length = d.length) (hN : 1 ≤ a.length)
    (hd0 : nat (2 ^ k) d ≠ 0) :
    ∃ q r, div false (2 ^ k) a d = some (q, r) ∧ Words (2 ^ k) q ∧ Words (2 ^ k) r ∧ q.length = a.length ∧ r.length = a.length ∧
      nat (2 ^ k) a = nat (2 ^ k) q * nat (2 ^ k) d + nat (2 ^ k) r ∧ nat (2 ^ k) r < nat (2 ^ k) d := by
  have hz : isZero d = false := by
    cases h : isZero d
    · rfl
    · exact absurd (isZero_iff.1 h) hd0
  obtain ⟨o1, o2, o3⟩ := one_spec (Nat.two_pow_pos k) hN
  unfold div
  rw [hz]
  simp only [Bool.false_eq_true, if_false]
  by_cases h1 : eqB d (ofInt (2 ^ k) 32 a.length 1) = true
  · rw [if_pos h1]
    have : nat (2 ^ k) d = 1 := by rw [(eqB_iff (hl.symm.trans o2.symm)).1 h1, o3]
    exact ⟨_, _, rfl, ha, words_replicate (Nat.two_pow_pos _), rfl, by simp, by rw [this, nat_replicate_zero, mul_one, add_zero], by rw [this, nat_replicate_zero]; norm_num⟩
  · rw [if_neg h1]
    obtain ⟨u1, u2, u3, u4, u5, u6⟩ := divideUnsigned_spec ha hd hl hd0
    refine ⟨(divideUnsigned (2 ^ k) a d).1, (divideUnsigned (2 ^ k) a d).2, rfl, u1, u2, u3, u4, ?_, ?_⟩
    · rw [u5, u6, mul_comm]; exact (Nat.div_add_mod _ _).symm
    · rw [u6]; exact Nat.mod_lt _ (by omega)

example : div false 8 [0x39, 0x30, 0x01] [0x64, 0, 0] = some ([0x0A, 0x03, 0], [0x51, 0, 0]) ∧ 0x013039 = 0x030A * 0x64 + 0x51 := by decide +kernel

/-- C29: signed division truncates toward zero (the quotient wraps only for `min / -1`), the remainder is exact and has the sign of the dividend -/
theorem C29_div_signed (k : ℕ) {a d : List ℕ} (ha : Words (2 ^ k) a) (hd : Words (2 ^ k) d) (hl : a.length = d.length) (hN : 1 ≤ a.length)
    (hbits : 2 ≤ 2 ^ k * a.length) (hd0 : nat (2 ^ k) d ≠ 0) :
    ∃ q r, div true (2 ^ k) a d = some (q, r) ∧ Words (2 ^ k) q ∧ Words (2 ^ k) r ∧ q.length = a.length ∧ r.length = a.length ∧
      sval (2 ^ k) q = Int.bmod ((sval (2 ^ k) a).tdiv (sval (2 ^ k) d)) (2 ^ (2 ^ k * a.length)) ∧
      sval (2 ^ k) r = (sval (2 ^ k) a).tmod (sval (2 ^ k) d) := by
  have hz : isZero d = false := by
    cases h : isZero d
    · rfl
    · exact absurd (isZero_iff.1 h) hd0
  obtain ⟨o1, o2, o3⟩ := one_spec (Nat.two_pow_pos k) hN
  unfold div
  rw [hz]
  simp only [Bool.false_eq_true, if_false, if_true]
  by_cases h1 : eqB d (ofInt (2 ^ k) 32 a.length 1) = true
  · rw [if_pos h1]
    have h1' : nat (2 ^ k) d = 1 := by rw [(eqB_iff (hl.symm.trans o2.symm)).1 h1, o3]
    have hs : sval (2 ^ k) d = 1 := by
      rw [sval, h1', ← hl]
      have : (2 : ℤ) ^ 1 ≤ 2 ^ (2 ^ k * a.length - 1) := pow_le_pow_right₀ (by norm_num) (by omega)
      exact bmod_eq (by omega) (by simp) (by linarith) (by linarith)
    refine ⟨_, _, rfl, ha, words_replicate (Nat.two_pow_pos _), rfl, by simp, ?_, ?_⟩
    · rw [hs, Int.tdiv_one]
      exact (bmod_congr (sval_congr a))
    · rw [hs, Int.tmod_one, sval, nat_replicate_zero, Nat.cast_zero, Int.zero_bmod]
  · rw [if_neg h1]
    obtain ⟨u1, u2, u3, u4, u5, u6⟩ := divideSigned_spec ha hd hl hN hbits hd0
    exact ⟨_, _, rfl, u1, u2, u3, u4, u5, u6⟩

/-- C29: except for `min / -1` the signed quotient is the truncated quotient itself -/
theorem C29_div_signed_exact (k : ℕ) {a d : List ℕ} (ha : Words (2 ^ k) a) (hd : Words (2 ^ k) d) (hl : a.length = d.length) (hN : 1 ≤ a.length)
    (hbits : 2 ≤ 2 ^ k * a.length) (hd0 : nat (2 ^ k) d ≠ 0)
    (hmin : ¬ (sval (2 ^ k) a = -2 ^ (2 ^ k * a.length - 1) ∧ sval (2 ^ k) d = -1)) :
    ∃ q r, div true (2 ^ k) a d = some (q, r) ∧ sval (2 ^ k) q = (sval (2 ^ k) a).tdiv (sval (2 ^ k) d) ∧
      sval (2 ^ k) a = sval (2 ^ k) q * sval (2 ^ k) d + sval (2 ^ k) r ∧ |sval (2 ^ k) r| < |sval (2 ^ k) d| := by
  obtain ⟨q, r, h1, _, _, _, _, h2, h3⟩ := C29_div_signed k ha hd hl hN hbits hd0
  have hw := Nat.two_pow_pos k
  have hsa := bmod_range (pos_bits hw hN) (nat (2 ^ k) a)
  have hsd0 : sval (2 ^ k) d ≠ 0 := by
    rw [sval_eq hw hd (by omega)]
    have hlt : (nat (2 ^ k) d : ℤ) < 2 ^ (2 ^ k * d.length) := by exact_mod_cast nat_lt hd
    split_ifs <;> omega
  change -2 ^ (2 ^ k * a.length - 1) ≤ sval (2 ^ k) a ∧ sval (2 ^ k) a < 2 ^ (2 ^ k * a.length - 1) at hsa
  have hq : sval (2 ^ k) q = (sval (2 ^ k) a).tdiv (sval (2 ^ k) d) := by
    rw [h2]
    generalize hHe : (2 : ℤ) ^ (2 ^ k * a.length - 1) = H at *
    generalize sval (2 ^ k) a = x at *
    generalize sval (2 ^ k) d = y at *
    have hb : ∀ x y : ℤ, |x.tdiv y| ≤ |x| := by
      intro x y
      rw [tdiv_eq_sign]
      have h0 : 0 ≤ |x| / |y| := Int.ediv_nonneg (abs_nonneg _) (abs_nonneg _)
      have h1 : |x| / |y| ≤ |x| := Int.ediv_le_self _ (abs_nonneg _)
      split_ifs
      · rw [abs_neg, abs_of_nonneg h0]; exact h1
      · rw [abs_of_nonneg h0]; exact h1
    apply bmod_eq (pos_bits hw hN) (by simp)
    all_goals rw [hHe]
    · have := (abs_le.1 (le_trans (hb x y) (abs_le.2 ⟨hsa.1, hsa.2.le⟩))).1
      exact this
    · rcases (show y = 1 ∨ y = -1 ∨ 2 ≤ |y| by rcases abs_cases y with h | h <;> omega) with h | h | h
      · rw [h, Int.tdiv_one]; exact hsa.2
      · have : x ≠ -H := fun e => hmin ⟨e, h⟩
        rw [h, Int.tdiv_neg, Int.tdiv_one]; omega
      · have hx : |x| ≤ H := abs_le.2 ⟨hsa.1, hsa.2.le⟩
        have h0 : 0 ≤ |x| / |y| := Int.ediv_nonneg (abs_nonneg _) (abs_nonneg _)
        have h1 : |x| / |y| ≤ |x| / 2 := by
          have q1 := Int.ediv_mul_le (|x|) (show |y| ≠ 0 by omega)
          have q2 := mul_le_mul_of_nonneg_left h h0
          exact Int.le_ediv_of_mul_le (by norm_num) (by omega)
        have hH : 0 < H := by omega
        rw [tdiv_eq_sign]
        split_ifs <;> omega
  have hdm := Int.mul_tdiv_add_tmod (sval (2 ^ k) a) (sval (2 ^ k) d)
  refine ⟨q, r, h1, hq, ?_, ?_⟩
  · rw [hq, h3, mul_comm]; exact hdm.symm
  · rw [h3, tmod_eq_sign]
    have h0 := Int.emod_nonneg (|sval (2 ^ k) a|) (abs_pos.2 hsd0).ne'
    have h1 := Int.emod_lt_of_pos (|sval (2 ^ k) a|) (abs_pos.2 hsd0)
    split_ifs
    · rw [abs_neg, abs_of_nonneg h0]; exact h1
    · rw [abs_of_nonneg h0]; exact h1

example : div true 8 [0xF9, 0xFF] [2, 0] = some ([0xFD, 0xFF], [0xFF, 0xFF]) ∧ sval 8 [0xF9, 0xFF] = -7 ∧ sval 8 [0xFD, 0xFF] = -3 := by decide +kernel
/-- the excluded case wraps -/
example : div true 8 [0, 0x80] [0xFF, 0xFF] = some ([0, 0x80], [0, 0]) := by decide +kernel

/-! ## C30 shifts, bitwise operations, comparisons, counts -/

/-- C30: left shift by any amount -/
theorem C30_shl {w : ℕ} (hw : 1 ≤ w) {a : List ℕ} (ha : Words w a) (s : ℕ) :
    Words w (shl w a s) ∧ (shl w a s).length = a.length ∧ nat w (shl w a s) = nat w a * 2 ^ s % 2 ^ (w * a.length) := shl_spec hw ha s

/-- C30: logical right shift by any amount -/
theorem C30_shr {w : ℕ} (hw : 1 ≤ w) {a : List ℕ} (ha : Words w a) (s : ℕ) :
    Words w (shr false w a s) ∧ (shr false w a s).length = a.length ∧ nat w (shr false w a s) = nat w a / 2 ^ s := shr_unsigned hw ha s

/-- C30: arithmetic right shift is the floor of the signed value divided by `2^s` -/
theorem C30_sar {w : ℕ} (hw : 1 ≤ w) {a : List ℕ} (ha : Words w a) (hN : 1 ≤ a.length) (s : ℕ) :
    Words w (shr true w a s) ∧ (shr true w a s).length = a.length ∧ sval w (shr true w a s) = sval w a / 2 ^ s := shr_signed hw ha hN s

example : shl 8 [0x81, 0x03, 0] 9 = [0, 0x02, 0x07] ∧ shr false 8 [0, 0x02, 0x07] 9 = [0x81, 0x03, 0] ∧
    shr true 8 [0xFF, 0, 0x80] 12 = [0x00, 0xF8, 0xFF] := by decide +kernel

/-- C30: bitwise operations agree with those on the numbers -/
theorem C30_bitwise {w : ℕ} {a b : List ℕ} (ha : Words w a) (hb : Words w b) (hl : a.length = b.length) :
    nat w (band a b) = nat w a &&& nat w b ∧ nat w (bor a b) = nat w a ||| nat w b ∧ nat w (bxor a b) = nat w a ^^^ nat w b ∧
      nat w (bnot w a) = 2 ^ (w * a.length) - 1 - nat w a := by
  refine ⟨(band_spec ha hb hl).2.2, (bor_spec ha hb hl).2.2, (bxor_spec ha hb hl).2.2, ?_⟩
  have := (bnot_spec ha).2.2
  omega

example : bxor [0xF0, 0x0F] [0xFF, 0xFF] = [0x0F, 0xF0] ∧ bnot 8 [0xF0, 0x0F] = [0x0F, 0xF0] := by decide +kernel

/-- C30: comparisons agree with the order of the represented numbers, unsigned and signed; equality is equality of the numbers -/
theorem C30_cmp {w : ℕ} (hw : 1 ≤ w) {a b : List ℕ} (ha : Words w a) (hb : Words w b) (hl : a.length = b.length) (hN : 1 ≤ a.length) :
    (cmp false w a b < 0 ↔ nat w a < nat w b) ∧ (cmp false w a b = 0 ↔ nat w a = nat w b) ∧ (cmp false w a b > 0 ↔ nat w a > nat w b) ∧
    (cmp true w a b < 0 ↔ sval w a < sval w b) ∧ (cmp true w a b = 0 ↔ sval w a = sval w b) ∧ (cmp true w a b > 0 ↔ sval w a > sval w b) ∧
    (eqB a b = true ↔ nat w a = nat w b) := by
  rw [cmp_unsigned ha hb hl, cmp_signed hw ha hb hl hN, eqB_iff hl]
  refine ⟨?_, ?_, ?_, ?_, ?_, ?_, ?_⟩
  iterate 6 (split_ifs <;> simp <;> omega)
  exact ⟨fun h => by rw [h], fun h => nat_inj ha hb hl h⟩

example : cmp true 8 [0, 0x80] [0xFF, 0x7F] = -1 ∧ cmp false 8 [0, 0x80] [0xFF, 0x7F] = 1 := by decide +kernel

/-- C30: leading zeros -/
theorem C30_countl_zero (k : ℕ) {a : List ℕ} (ha : Words (2 ^ k) a) :
    clz (2 ^ k) a ≤ 2 ^ k * a.length ∧ nat (2 ^ k) a < 2 ^ (2 ^ k * a.length - clz (2 ^ k) a) ∧
      (clz (2 ^ k) a < 2 ^ k * a.length → (nat (2 ^ k) a).testBit (2 ^ k * a.length - clz (2 ^ k) a - 1) = true) := clz_spec ha
/-- C30: leading ones -/
theorem C30_countl_one (k : ℕ) {a : List ℕ} (ha : Words (2 ^ k) a) :
    clo (2 ^ k) a ≤ 2 ^ k * a.length ∧ (∀ i, 2 ^ k * a.length - clo (2 ^ k) a ≤ i → i < 2 ^ k * a.length → (nat (2 ^ k) a).testBit i = true) ∧
      (clo (2 ^ k) a < 2 ^ k * a.length → (nat (2 ^ k) a).testBit (2 ^ k * a.length - clo (2 ^ k) a - 1) = false) := clo_spec ha
/-- C30: trailing zeros -/
theorem C30_countr_zero (k : ℕ) {a : List ℕ} (ha : Words (2 ^ k) a) :
    ctz (2 ^ k) a ≤ 2 ^ k * a.length ∧ (∀ i < ctz (2 ^ k) a, (nat (2 ^ k) a).testBit i = false) ∧
      (ctz (2 ^ k) a < 2 ^ k * a.length → (nat (2 ^ k) a).testBit (ctz (2 ^ k) a) = true) := ctz_spec ha
/-- C30: trailing ones -/
theorem C30_countr_one (k : ℕ) {a : List ℕ} (ha : Words (2 ^ k) a) :
    cto (2 ^ k) a ≤ 2 ^ k * a.length ∧ (∀ i < cto (2 ^ k) a, (nat (2 ^ k) a).testBit i = true) ∧
      (cto (2 ^ k) a < 2 ^ k * a.length → (nat (2 ^ k) a).testBit (cto (2 ^ k) a) = false) := cto_spec ha
/-- C30: number of one bits -/
theorem C30_popcount {w : ℕ} {a : List ℕ} (ha : Words w a) :
    popcountB w a = ((Finset.range (w * a.length)).filter (fun i => (nat w a).testBit i)).card := by
  unfold popcountB; rw [popcountB_aux w ha 0, zero_add]
/-- C30: `bit_width` is the least number of bits that holds the number -/
theorem C30_bit_width (k : ℕ) {a : List ℕ} (ha : Words (2 ^ k) a) (n : ℕ) : nat (2 ^ k) a < 2 ^ n ↔ bitWidth (2 ^ k) a ≤ n := by
  obtain ⟨h1, h2, h3⟩ := clz_spec ha
  unfold bitWidth
  constructor
  · intro h
    by_contra hn
    have := Nat.ge_two_pow_of_testBit (h3 (by omega))
    have := Nat.pow_le_pow_right (n := 2) (by norm_num) (show n ≤ 2 ^ k * a.length - clz (2 ^ k) a - 1 by omega)
    omega
  · intro h
    exact lt_of_lt_of_le h2 (Nat.pow_le_pow_right (by norm_num) h)

example : clz 8 [0xFF, 0x01, 0] = 15 ∧ ctz 8 [0, 0x10, 0] = 12 ∧ clo 8 [0, 0xF0, 0xFF] = 12 ∧ cto 8 [0xFF, 0x07] = 11 ∧
    bitWidth 8 [0xFF, 0x01, 0] = 9 ∧ popcountB 8 [0xFF, 0x01, 0] = 9 := by decide +kernel

/-- C30: `get_bit` and `set_bit` -/
theorem C30_bits {w : ℕ} (hw : 1 ≤ w) {a : List ℕ} (ha : Words w a) (i : ℕ) :
    getBit w a i = (nat w a).testBit i ∧ (i < w * a.length → nat w (setBit w a i) = nat w a ||| 2 ^ i) :=
  ⟨getBit_spec hw ha i, fun h => (setBit_spec hw ha h).2.2⟩

/-- rotation of a number by `r` places, on bits -/
theorem rot_or {T v r : ℕ} (hv : v < 2 ^ T) (hr0 : 0 < r) (hr : r < T) (i : ℕ) (hi : i < T) :
    (v * 2 ^ r % 2 ^ T ||| v / 2 ^ (T - r)).testBit i = v.testBit ((i + (T - r)) % T) := by
  rw [Nat.testBit_or, Nat.testBit_mod_two_pow, Nat.testBit_mul_two_pow, ← Nat.shiftRight_eq_div_pow, Nat.testBit_shiftRight]
  by_cases h : r ≤ i
  · have e : (i + (T - r)) % T = i - r := by
      rw [show i + (T - r) = i - r + T by omega, Nat.add_mod_right, Nat.mod_eq_of_lt (by omega)]
    have z : v.testBit (T - r + i) = false := testBit_eq_false_of_word hv (by omega)
    rw [e, z]; simp [hi, h]
  · rw [Nat.mod_eq_of_lt (by omega), add_comm i]
    simp [h]

/-- C30: rotations (unsigned types): `rotl` moves bit `i` to bit `i + cnt` modulo the width, for any count, if the count is not negative or the width
divides `2^32` (true for all widths that are powers of two) -/
theorem C30_rotl_partial {w : ℕ} (hw : 1 ≤ w) {a : List ℕ} (ha : Words w a) (hN : 1 ≤ a.length) (cnt : ℤ) (h31 : cnt < 2 ^ 31)
    (hc : 0 ≤ cnt ∨ w * a.length ∣ 2 ^ 32) :
    Words w (rotl w a cnt) ∧ (rotl w a cnt).length = a.length ∧
      ∀ i : ℕ, i < w * a.length → (nat w (rotl w a cnt)).testBit i = (nat w a).testBit (((i : ℤ) - cnt) % (w * a.length : ℕ)).toNat := by
  have hT := pos_bits hw hN
  unfold rotl
  simp only
  generalize hTe : w * a.length = T at *
  have hmod : (((cnt % 2 ^ 32).toNat % T : ℕ) : ℤ) = cnt % T := by
    rw [Int.natCast_mod, Int.toNat_of_nonneg (Int.emod_nonneg _ (by norm_num))]
    rcases hc with hc | hc
    · rw [Int.emod_eq_of_lt hc (by linarith)]
    · exact Int.emod_emod_of_dvd _ (by exact_mod_cast hc)
  generalize (cnt % 2 ^ 32).toNat % T = r at *
  have hr : r < T := by
    have := Int.emod_lt_of_pos cnt (show (0 : ℤ) < T by omega)
    omega
  have hidx : ∀ i : ℕ, i < T → (((i : ℤ) - cnt) % (T : ℕ)).toNat = (i + (T - r)) % T := by
    intro i _
    have : ((i : ℤ) - cnt) % (T : ℕ) = (((i + (T - r)) % T : ℕ) : ℤ) := by
      rw [Int.natCast_mod, Nat.cast_add, Nat.cast_sub hr.le, hmod]
      rw [Int.emod_eq_emod_iff_emod_sub_eq_zero]
      apply Int.emod_eq_zero_of_dvd
      have e := Int.emod_add_mul_ediv cnt T
      refine ⟨-(cnt / T) - 1, ?_⟩
      linarith
    rw [this, Int.toNat_natCast]
  by_cases h0 : r = 0
  · rw [if_pos h0]
    refine ⟨ha, rfl, fun i hi => ?_⟩
    rw [hidx i hi, h0, Nat.sub_zero, Nat.add_mod_right, Nat.mod_eq_of_lt hi]
  · rw [if_neg h0]
    obtain ⟨s1, s2, s3⟩ := shl_spec hw ha r
    obtain ⟨t1, t2, t3⟩ := shr_unsigned hw ha (T - r)
    obtain ⟨b1, b2, b3⟩ := bor_spec s1 t1 (s2.trans t2.symm)
    refine ⟨b1, b2.trans s2, fun i hi => ?_⟩
    have hv := nat_lt ha
    rw [hTe] at hv s3
    rw [hidx i hi, b3, s3, t3, rot_or hv (by omega) hr i hi]

/-- C30: `rotr` moves bit `i` to bit `i - cnt` modulo the width -/
theorem C30_rotr_partial {w : ℕ} (hw : 1 ≤ w) {a : List ℕ} (ha : Words w a) (hN : 1 ≤ a.length) (cnt : ℤ) (h31 : cnt < 2 ^ 31)
    (hc : 0 ≤ cnt ∨ w * a.length ∣ 2 ^ 32) :
    Words w (rotr w a cnt) ∧ (rotr w a cnt).length = a.length ∧
      ∀ i : ℕ, i < w * a.length → (nat w (rotr w a cnt)).testBit i = (nat w a).testBit (((i : ℤ) + cnt) % (w * a.length : ℕ)).toNat := by
  have hT := pos_bits hw hN
  unfold rotr
  simp only
  generalize hTe : w * a.length = T at *
  have hmod : (((cnt % 2 ^ 32).toNat % T : ℕ) : ℤ) = cnt % T := by
    rw [Int.natCast_mod, Int.toNat_of_nonneg (Int.emod_nonneg _ (by norm_num))]
    rcases hc with hc | hc
    · rw [Int.emod_eq_of_lt hc (by linarith)]
    · exact Int.emod_emod_of_dvd _ (by exact_mod_cast hc)
  generalize (cnt % 2 ^ 32).toNat % T = r at *
  have hr : r < T := by
    have := Int.emod_lt_of_pos cnt (show (0 : ℤ) < T by omega)
    omega
  have hidx : ∀ i : ℕ, i < T → (((i : ℤ) + cnt) % (T : ℕ)).toNat = (i + r) % T := by
    intro i _
    have : ((i : ℤ) + cnt) % (T : ℕ) = (((i + r) % T : ℕ) : ℤ) := by
      rw [Int.natCast_mod, Nat.cast_add, hmod]
      rw [Int.emod_eq_emod_iff_emod_sub_eq_zero]
      apply Int.emod_eq_zero_of_dvd
      have e := Int.emod_add_mul_ediv cnt T
      refine ⟨(cnt / T), ?_⟩
      linarith
    rw [this, Int.toNat_natCast]
  by_cases h0 : r = 0
  · rw [if_pos h0]
    refine ⟨ha, rfl, fun i hi => ?_⟩
    rw [hidx i hi, h0, Nat.add_zero, Nat.mod_eq_of_lt hi]
  · rw [if_neg h0]
    obtain ⟨s1, s2, s3⟩ := shl_spec hw ha (T - r)
    obtain ⟨t1, t2, t3⟩ := shr_unsigned hw ha r
    obtain ⟨b1, b2, b3⟩ := bor_spec t1 s1 (t2.trans s2.symm)
    refine ⟨b1, b2.trans t2, fun i hi => ?_⟩
    have hv := nat_lt ha
    rw [hTe] at hv s3
    have := rot_or hv (r := T - r) (by omega) (by omega) i hi
    rw [Nat.sub_sub_self hr.le] at this
    rw [hidx i hi, b3, s3, t3, Nat.or_comm, this]

/-- C30 fails for negative counts when the width does not divide `2^32`: 24 bits rotated left by `-1` should move bit 1 to bit 0 -/
theorem C30_rotl_negative_wrong : rotl 8 [2, 0, 0] (-1) ≠ [1, 0, 0] ∧ rotl 8 [2, 0, 0] (-1) = [0, 0, 1] := by decide +kernel

example : rotl 8 [0x81, 0, 0] 4 = [0x10, 0x08, 0] ∧ rotr 8 [0x81, 0, 0] 4 = [0x08, 0, 0x10] ∧ rotl 8 [2, 0] (-1) = [1, 0] := by decide +kernel

/-- C30 fails for `first_trailing_one`: it compares with `max()`, so the all-ones value gives 0 (bit 1 is set) and zero gives width + 1 -/
theorem C30_first_trailing_one_wrong : firstTrailingOne 8 [0xFF, 0xFF] = 0 ∧ firstTrailingOne 8 [0, 0] = 17 := by decide +kernel

/-- C30: `first_trailing_one` is one more than the index of the lowest one bit, except for zero and all ones -/
theorem C30_first_trailing_one_partial (k : ℕ) {a : List ℕ} (ha : Words (2 ^ k) a) (h0 : nat (2 ^ k) a ≠ 0)
    (h1 : nat (2 ^ k) a ≠ 2 ^ (2 ^ k * a.length) - 1) :
    ∃ i, firstTrailingOne (2 ^ k) a = i + 1 ∧ (nat (2 ^ k) a).testBit i = true ∧ ∀ j < i, (nat (2 ^ k) a).testBit j = false := by
  obtain ⟨c1, c2, c3⟩ := ctz_spec ha
  refine ⟨ctz (2 ^ k) a, ?_, ?_, c2⟩
  · unfold firstTrailingOne
    rw [if_neg]
    rw [eqB_iff (by simp)]
    intro h
    apply h1
    have := nat_replicate_ones (2 ^ k) a.length
    rw [← h] at this; omega
  · apply c3
    rcases c1.lt_or_eq with h | h
    · exact h
    · exfalso; apply h0
      apply Nat.eq_of_testBit_eq
      intro i
      rw [Nat.zero_testBit]
      by_cases hi : i < 2 ^ k * a.length
      · exact c2 i (by omega)
      · exact testBit_eq_false_of_word (nat_lt ha) (by omega)

end Verif
