import Verif.Lemmas.BigMask
import Verif.Props.BigInt

/-!
# C92-C95: integer literals, conversions between wide integers, division by `x * 2^e`, masks, conversion to built-in integers

`nat w a` is the number whose base-`2^w` digits are the words `a`, `sval w a` its two's complement value (`Verif/Lemmas/BigInt.lean`).
`Writes base s ds` says that the characters `s`, digit separators aside, are the digits `ds`, letters in either case.
-/

namespace Verif
open BI

/-- the string spells the digits, most significant first; the separator `'` may stand anywhere -/
def Writes (base : ℕ) (s : List Char) (ds : List ℕ) : Prop :=
  List.Forall₂ (fun c d => d < base ∧ (c = Nat.digitChar d ∨ c = (Nat.digitChar d).toUpper)) (s.filter (· ≠ '\'')) ds

/-- the longest digit string the parser takes for `bits` bits: one, three and four bits per binary, decimal and hexadecimal digit -/
def maxDigits (base bits : ℕ) : ℕ := if base = 2 then bits else if base = 10 then bits / 3 else bits / 4

theorem writes_lt {base : ℕ} {s : List Char} {ds : List ℕ} (h : Writes base s ds) : ∀ d ∈ ds, d < base := by
  unfold Writes at h
  generalize s.filter (· ≠ '\'') = t at h
  intro d hd
  induction h with
  | nil => simp at hd
  | cons h1 _ ih => rcases List.mem_cons.1 hd with rfl | h'
                    · exact h1.1
                    · exact ih h'

theorem writes_buffer {base bits : ℕ} (hb : base = 2 ∨ base = 10 ∨ base = 16) {s : List Char} {ds : List ℕ} (h : Writes base s ds)
    (hl : ds.length ≤ maxDigits base bits) : digitBuffer base bits s = some ds := by
  refine digitBuffer_spec base bits s ds ?_ (fun d hd => ?_) ?_
  · rcases hb with rfl | rfl | rfl <;> simpa [maxDigits, bitsPerDigit] using hl
  · have := writes_lt h d hd; omega
  · unfold Writes at h
    generalize s.filter (· ≠ '\'') = t at h
    clear hl
    induction h with
    | nil => rfl
    | cons h1 _ ih =>
      rw [List.map_cons, ih]
      congr 1
      rcases h1.2 with h2 | h2
      · rw [h2]; exact digitValue_digitChar hb h1.1
      · rw [h2]; exact digitValue_upper hb h1.1

/-- the printed digits of a number are a spelling of it -/
theorem writes_toDigits {b : ℕ} (hb : 1 < b) (hb' : b ≤ 16) (n : ℕ) :
    ∃ ds : List ℕ, Writes b (Nat.toDigits b n) ds ∧ ds.length = (Nat.toDigits b n).length ∧ Nat.ofDigits b ds.reverse = n := by
  obtain ⟨ds, h1, h2, h3⟩ := toDigits_spec hb n
  refine ⟨ds, ?_, by rw [h1, List.length_map], h3⟩
  unfold Writes
  have e : (Nat.toDigits b n).filter (· ≠ '\'') = ds.map Nat.digitChar := by
    rw [h1, List.filter_eq_self]
    intro c hc
    obtain ⟨d, hd, rfl⟩ := List.mem_map.1 hc
    simpa using digitChar_ne_quote hb' (h2 d hd)
  rw [e]
  clear e h1 h3
  induction ds with
  | nil => exact List.Forall₂.nil
  | cons d ds ih => exact List.Forall₂.cons ⟨h2 d List.mem_cons_self, Or.inl rfl⟩ (ih fun x hx => h2 x (List.mem_cons_of_mem _ hx))

/-- C92: for a built-in type of any width, a string of binary, decimal or hexadecimal digits parses to the number it writes, modulo `2^bits`;
`Nat.ofDigits` takes the least significant digit first -/
theorem C92_native (base bits : ℕ) (hb : base = 2 ∨ base = 10 ∨ base = 16) {s : List Char} {ds : List ℕ} (h : Writes base s ds)
    (hl : ds.length ≤ maxDigits base bits) : parseNative base bits s = some (Nat.ofDigits base ds.reverse % 2 ^ bits) := by
  rw [parseNative, writes_buffer hb h hl, Option.map_some, accumulate_eq, horner_eq]

/-- C92: the same for a wide integer of `N` words of `w` bits, with the chunked path for binary and hexadecimal digits and the arithmetic path for
decimal digits; both multiplication back ends (`wide`) -/
theorem C92_wide (wide : Bool) (base w N : ℕ) (hb : base = 2 ∨ base = 10 ∨ base = 16) (hw : 4 ≤ w) (h4 : 4 ∣ w) (hN : 1 ≤ N) (hM : N < 2 ^ w)
    {s : List Char} {ds : List ℕ} (h : Writes base s ds) (hl : ds.length ≤ maxDigits base (w * N)) :
    ∃ a, parseBig wide w N base s = some a ∧ Words w a ∧ a.length = N ∧ nat w a = Nat.ofDigits base ds.reverse % 2 ^ (w * N) := by
  have hd := writes_lt h
  rw [parseBig, writes_buffer hb h hl, Option.map_some, ← horner_eq]
  refine ⟨_, rfl, ?_⟩
  rcases hb with rfl | rfl | rfl
  · exact chunkWords_spec (by omega) (by decide) (by decide) (by simp [bitsPerDigit]) N ds hd
  · rw [if_pos rfl]
    exact accumulateBig_spec wide (by omega) (fun _ => by omega) hN hM (by norm_num) ds fun d h' => by have := hd d h'; omega
  · exact chunkWords_spec (by omega) (by decide) (by decide) (by simpa [bitsPerDigit] using h4) N ds hd

example : Writes 16 "Ff'0a".toList [15, 15, 0, 10] ∧ Nat.ofDigits 16 [15, 15, 0, 10].reverse = 0xFF0A := by
  refine ⟨?_, by decide +kernel⟩
  unfold Writes
  rw [show "Ff'0a".toList.filter (· ≠ '\'') = ['F', 'f', '0', 'a'] by decide +kernel]
  refine .cons ⟨by norm_num, Or.inr (by decide +kernel)⟩ (.cons ⟨by norm_num, Or.inl (by decide +kernel)⟩
    (.cons ⟨by norm_num, Or.inl (by decide +kernel)⟩ (.cons ⟨by norm_num, Or.inl (by decide +kernel)⟩ .nil)))

example : parseNative 16 128 "Ff'0a".toList = some 0xFF0A ∧ parseBig true 32 3 16 "1'0000'0000'0000'00FF".toList = some [0xFF, 0, 1] ∧
    parseBig false 64 4 10 "18446744073709551617".toList = some [1, 1, 0, 0] := by decide +kernel

/-- C92: every number that fits is read back from its hexadecimal digits, by `_u128` (`w * N = 128`), `_u96` and `_u256` -/
theorem C92_hex_round_trip (wide : Bool) (w N n : ℕ) (hw : 4 ≤ w) (h4 : 4 ∣ w) (hN : 1 ≤ N) (hM : N < 2 ^ w) (hn : n < 2 ^ (w * N)) :
    parsePrefixNative (w * N) ('0' :: 'x' :: Nat.toDigits 16 n) = some n ∧
    ∃ a, parsePrefixBig wide w N ('0' :: 'x' :: Nat.toDigits 16 n) = some a ∧ Words w a ∧ a.length = N ∧ nat w a = n := by
  obtain ⟨ds, h1, h2, h3⟩ := writes_toDigits (b := 16) (by norm_num) (by norm_num) n
  have hl : ds.length ≤ maxDigits 16 (w * N) := by
    have hk : 0 < w * N / 4 := Nat.div_pos (by nlinarith) (by norm_num)
    rw [h2]
    refine (Nat.length_toDigits_le_iff (by norm_num) hk).2 ?_
    rw [show (16 : ℕ) = 2 ^ 4 by norm_num, ← pow_mul, Nat.mul_div_cancel' (Dvd.dvd.mul_right h4 N)]; exact hn
  have a1 := C92_native 16 (w * N) (by simp) h1 hl
  have a2 := C92_wide wide 16 w N (by simp) hw h4 hN hM h1 hl
  rw [h3, Nat.mod_eq_of_lt hn] at a1 a2
  exact ⟨a1, a2⟩

/-- C92: the same for binary digits -/
theorem C92_binary_round_trip (wide : Bool) (w N n : ℕ) (hw : 4 ≤ w) (h4 : 4 ∣ w) (hN : 1 ≤ N) (hM : N < 2 ^ w) (hn : n < 2 ^ (w * N)) :
    parsePrefixNative (w * N) ('0' :: 'b' :: Nat.toDigits 2 n) = some n ∧
    ∃ a, parsePrefixBig wide w N ('0' :: 'b' :: Nat.toDigits 2 n) = some a ∧ Words w a ∧ a.length = N ∧ nat w a = n := by
  obtain ⟨ds, h1, h2, h3⟩ := writes_toDigits (b := 2) (by norm_num) (by norm_num) n
  have hl : ds.length ≤ maxDigits 2 (w * N) := by
    rw [h2]
    exact (Nat.length_toDigits_le_iff (by norm_num) (show 0 < w * N by nlinarith)).2 hn
  have a1 := C92_native 2 (w * N) (by simp) h1 hl
  have a2 := C92_wide wide 2 w N (by simp) hw h4 hN hM h1 hl
  rw [h3, Nat.mod_eq_of_lt hn] at a1 a2
  exact ⟨a1, a2⟩

theorem splitPrefix_decimal (n : ℕ) : splitPrefix (Nat.toDigits 10 n) = (10, Nat.toDigits 10 n) := by
  have hd : ∀ c ∈ Nat.toDigits 10 n, c.isDigit = true := fun c hc => Nat.isDigit_of_mem_toDigits (by norm_num) le_rfl hc
  unfold splitPrefix
  split
  · next h => have := hd 'b' (by rw [h]; simp); simp [Char.isDigit] at this
  · next h => have := hd 'x' (by rw [h]; simp); simp [Char.isDigit] at this
  · rfl

/-- C92: the same for decimal digits without a prefix; the buffer has room for them from 21 bits on -/
theorem C92_decimal_round_trip (wide : Bool) (w N n : ℕ) (hw : 4 ≤ w) (h4 : 4 ∣ w) (hN : 1 ≤ N) (hM : N < 2 ^ w) (h21 : 21 ≤ w * N) (hn : n < 2 ^ (w * N)) :
    parsePrefixNative (w * N) (Nat.toDigits 10 n) = some n ∧
    ∃ a, parsePrefixBig wide w N (Nat.toDigits 10 n) = some a ∧ Words w a ∧ a.length = N ∧ nat w a = n := by
  obtain ⟨ds, h1, h2, h3⟩ := writes_toDigits (b := 10) (by norm_num) (by norm_num) n
  have hl : ds.length ≤ maxDigits 10 (w * N) := by
    rw [h2]
    exact (Nat.length_toDigits_le_iff (by norm_num) (show 0 < w * N / 3 by omega)).2 (lt_of_lt_of_le hn (two_pow_le_ten_pow h21))
  have a1 := C92_native 10 (w * N) (by simp) h1 hl
  have a2 := C92_wide wide 10 w N (by simp) hw h4 hN hM h1 hl
  rw [h3, Nat.mod_eq_of_lt hn] at a1 a2
  unfold parsePrefixNative parsePrefixBig
  rw [splitPrefix_decimal]
  exact ⟨a1, a2⟩

example : Nat.toDigits 16 0xDEADBEEF = "deadbeef".toList ∧ parsePrefixNative 128 "0xdeadbeef".toList = some 0xDEADBEEF ∧
    parsePrefixBig true 64 4 "340282366920938463463374607431768211456".toList = some [0, 0, 1, 0] := by decide +kernel

/-- C92: a character that is not a digit of the base (nor a separator) is never accepted: decimal strings take the ten digits only.  Whatever the
parser returns for a decimal string, every character of it was a digit or a separator. -/
theorem C92_decimal_rejects (bits : ℕ) (s : List Char) (v : ℕ) (h : parseNative 10 bits s = some v) : ∀ c ∈ s, c = '\'' ∨ c.isDigit = true := by
  unfold parseNative at h
  obtain ⟨ds, hds, _⟩ := Option.map_eq_some_iff.1 h
  unfold digitBuffer at hds
  clear h
  generalize [] = acc at hds
  induction s generalizing acc with
  | nil => simp
  | cons c s ih =>
    rw [List.foldlM_cons] at hds
    obtain ⟨b, hb, hr⟩ := Option.bind_eq_some_iff.1 hds
    intro x hx
    rcases List.mem_cons.1 hx with rfl | hx
    · unfold pushDigit at hb
      by_cases hq : x = '\''
      · exact Or.inl hq
      · right
        rw [if_neg hq] at hb
        by_contra hnd
        rw [if_pos (Or.inl ?_)] at hb
        · simp at hb
        · unfold digitValue
          rw [if_neg, if_neg (by norm_num)]
          intro hc
          apply hnd
          simp only [Char.isDigit, Bool.and_eq_true, decide_eq_true_eq]
          exact hc
    · exact ih _ hr x hx

example : parseNative 10 128 "12a".toList = none ∧ parseNative 10 128 "1'2".toList = some 12 := by decide +kernel

/-- C92 fails for octal literals: `0777_u128` is 777, where the literal `0777` of C++ is 511 -/
theorem C92_octal_wrong : parsePrefixNative 128 "0777".toList = some 777 ∧ parsePrefixBig true 32 3 "0777".toList = some [777, 0, 0] ∧
    Nat.ofDigits 8 [7, 7, 7, 0] = 511 := by decide +kernel

/-- C92 fails for the upper-case prefixes of C++: `0XFF_u128` and `0B1_u128` are not accepted -/
theorem C92_upper_prefix_rejected : parsePrefixNative 128 "0XFF".toList = none ∧ parsePrefixNative 128 "0B1".toList = none ∧
    parsePrefixNative 128 "0xFF".toList = some 255 ∧ parsePrefixNative 128 "0b1".toList = some 1 := by decide +kernel

/-- C92: characters that are no digits of the base are accepted: `g` to `z` in base 16 with the values 16 to 35, and `2` to `9` in base 2.  The
two parsers then disagree: the built-in type keeps the excess of a digit, the chunked path loses it at the word boundary. -/
theorem C92_invalid_digits_accepted : parsePrefixNative 128 "0xz".toList = some 35 ∧ parsePrefixNative 128 "0b9".toList = some 9 ∧
    parsePrefixNative 128 "0xg0000000".toList = some (2 ^ 32) ∧ parsePrefixBig true 32 3 "0xg0000000".toList = some [0, 0, 0] := by decide +kernel

/-- C92: a decimal literal that is too large wraps without a diagnostic: `2^128 + 1` is 1 as `_u128` -/
theorem C92_decimal_wraps : parsePrefixNative 128 "340282366920938463463374607431768211457".toList = some 1 := by decide +kernel

/-- C92: leading zeros count: 33 hexadecimal digits are rejected for 128 bits even if the first is zero; and an 8-bit number cannot be written with
three decimal digits -/
theorem C92_too_many_digits : parsePrefixNative 128 ('0' :: 'x' :: List.replicate 33 '0') = none ∧ parseNative 10 8 "255".toList = none := by
  decide +kernel

/-! ## C93 conversions between word sizes -/

/-- C93: conversion from smaller to larger words: `N'` words of `ow` bits to `N` words of `ow * r` bits.  Narrowing (or equal size) reduces modulo
`2^(w N)`. -/
theorem C93_up_narrowing (signed otherSigned : Bool) {ow r : ℕ} (how : 1 ≤ ow) (N : ℕ) {a : List ℕ} (ha : Words ow a)
    (h : ow * r * N ≤ ow * a.length) :
    Words (ow * r) (convUp signed otherSigned (ow * r) N ow a) ∧ (convUp signed otherSigned (ow * r) N ow a).length = N ∧
      nat (ow * r) (convUp signed otherSigned (ow * r) N ow a) = nat ow a % 2 ^ (ow * r * N) := by
  have hN : N * r ≤ a.length := by
    rw [mul_assoc] at h
    have := Nat.le_of_mul_le_mul_left h (by omega)
    rwa [mul_comm]
  unfold convUp
  simp only
  rw [if_pos h, Nat.mul_div_cancel_left _ (by omega)]
  obtain ⟨h1, h2⟩ := packMap_spec (w := ow * r) rfl ha N hN
  refine ⟨h1, by simp, ?_⟩
  rw [h2, (nat_take ha _ hN).2.2]
  congr 2; ring

example : convUp false false 64 1 32 [0xDEADBEEF, 0x12345678, 0xFFFFFFFF] = [0x12345678DEADBEEF] := by decide +kernel

/-- C93: widening from smaller to larger words keeps every value that is not negative or comes from an unsigned number or goes to one (as bits), and
keeps negative values when the words of the source do not fill whole words of the target.  The full statement would be `sval` equality for every
signed source and target; it fails for the remaining sources, `C93_up_sign_extension_lost`. -/
theorem C93_up_widening_partial (signed otherSigned : Bool) {ow r : ℕ} (how : 1 ≤ ow) (hr : 1 ≤ r) (N : ℕ) {a : List ℕ} (ha : Words ow a) (hne : 1 ≤ a.length)
    (h : ow * a.length < ow * r * N) :
    Words (ow * r) (convUp signed otherSigned (ow * r) N ow a) ∧ (convUp signed otherSigned (ow * r) N ow a).length = N ∧
    (signed = false ∨ otherSigned = false ∨ 0 ≤ sval ow a → nat (ow * r) (convUp signed otherSigned (ow * r) N ow a) = nat ow a) ∧
    (signed = true → otherSigned = true → a.length % r ≠ 0 → sval (ow * r) (convUp signed otherSigned (ow * r) N ow a) = sval ow a) := by
  obtain ⟨h1, h2, h3⟩ := convUp_ext_spec signed otherSigned how hr N ha h
  have hbits : 1 ≤ ow * a.length := Nat.mul_pos how hne
  refine ⟨h1, h2, ?_, ?_⟩
  · intro hc
    have hneg : (signed && isNeg otherSigned ow a) = false := by
      rcases hc with rfl | rfl | hc
      · simp
      · simp [isNeg]
      · simp [isNeg, (sval_nonneg_nat how ha hne hc).1]
    rw [hneg] at h3
    simp only [Bool.false_eq_true, if_false, add_zero] at h3
    exact_mod_cast h3
  · intro hs ho hm
    refine sval_transfer hbits (by rw [h2]; omega) ?_
    rw [h2, h3]
    subst hs ho
    by_cases hn : sval ow a < 0
    · obtain ⟨n1, n2⟩ := sval_neg_nat how ha hne hn
      simp only [isNeg, n1, Bool.and_self, if_true, if_neg hm, n2]
      exact ⟨1, by ring⟩
    · obtain ⟨n1, n2⟩ := sval_nonneg_nat how ha hne (by omega)
      simp [isNeg, n1, n2]

example : convUp true true 64 3 32 [0xFFFFFFFE, 0xFFFFFFFF, 0xFFFFFFFF] = [0xFFFFFFFFFFFFFFFE, 0xFFFFFFFFFFFFFFFF, 0xFFFFFFFFFFFFFFFF] := by decide +kernel

/-- C93 fails: whenever a negative number fills whole words of a wider signed target with larger words, the word after it is filled with zeros
(l.650) and the value changes, for all sizes -/
theorem C93_up_sign_extension_lost {ow r : ℕ} (how : 1 ≤ ow) (hr : 1 ≤ r) (N : ℕ) {a : List ℕ} (ha : Words ow a) (hne : 1 ≤ a.length)
    (h : ow * a.length < ow * r * N) (hm : a.length % r = 0) (hn : sval ow a < 0) :
    sval (ow * r) (convUp true true (ow * r) N ow a) ≠ sval ow a := by
  obtain ⟨h1, h2, h3⟩ := convUp_ext_spec true true how hr N ha h
  obtain ⟨n1, n2⟩ := sval_neg_nat how ha hne hn
  simp only [isNeg, n1, Bool.and_self, if_true, if_pos hm] at h3
  intro hc
  have hd := bmod_dvd (n := ow * r * N) (nat (ow * r) (convUp true true (ow * r) N ow a) : ℤ)
  have hs : sval (ow * r) (convUp true true (ow * r) N ow a) = Int.bmod (nat (ow * r) (convUp true true (ow * r) N ow a)) (2 ^ (ow * r * N)) := by
    unfold sval; rw [h2]
  rw [← hs, hc, n2, h3] at hd
  have hw1 : 1 ≤ ow * r := Nat.mul_pos how hr
  obtain ⟨k, hk⟩ : ∃ k, ow * r * N = ow * a.length + (k + 1) := ⟨ow * r * N - ow * a.length - 1, by omega⟩
  obtain ⟨j, hj⟩ : ∃ j, ow * r = j + 1 := ⟨ow * r - 1, by omega⟩
  obtain ⟨c, hc'⟩ := hd
  have e : (2 : ℤ) ^ (ow * a.length) * (2 * (2 ^ j - 2 ^ k) - 1) = 2 ^ (ow * a.length) * (2 ^ (k + 1) * c) := by
    rw [hk, hj] at hc'
    have : (2 : ℤ) ^ (ow * a.length + (j + 1)) = 2 ^ (ow * a.length) * (2 * 2 ^ j) := by rw [pow_add, pow_succ]; ring
    rw [this, pow_add] at hc'
    rw [pow_succ] at hc' ⊢
    linear_combination hc'
  have e' := mul_left_cancel₀ (pow_ne_zero _ (by norm_num)) e
  rw [pow_succ] at e'
  have : (2 : ℤ) * ((2 ^ j - 2 ^ k) - 2 ^ k * c) = 1 := by linear_combination e'
  omega

example : convUp true true 64 2 32 [0xFFFFFFFF, 0xFFFFFFFF] = [0xFFFFFFFFFFFFFFFF, 0] ∧ sval 32 [0xFFFFFFFF, 0xFFFFFFFF] = -1 ∧
    sval 64 [0xFFFFFFFFFFFFFFFF, 0] = 2 ^ 64 - 1 := by decide +kernel

/-- C93: conversion from larger to smaller words is right in every case but negative to unsigned: narrowing reduces modulo `2^(w N)`, widening keeps
the value -/
theorem C93_down (signed otherSigned : Bool) {w r : ℕ} (hw : 1 ≤ w) (hr : 1 ≤ r) (N : ℕ) {a : List ℕ} (ha : Words (w * r) a) (hne : 1 ≤ a.length) :
    Words w (convDown signed otherSigned w N (w * r) a) ∧ (convDown signed otherSigned w N (w * r) a).length = N ∧
    (w * N ≤ w * r * a.length → nat w (convDown signed otherSigned w N (w * r) a) = nat (w * r) a % 2 ^ (w * N)) ∧
    (w * r * a.length < w * N → signed = false ∨ otherSigned = false ∨ 0 ≤ sval (w * r) a →
      nat w (convDown signed otherSigned w N (w * r) a) = nat (w * r) a) ∧
    (w * r * a.length < w * N → signed = true → otherSigned = true → sval w (convDown signed otherSigned w N (w * r) a) = sval (w * r) a) := by
  have hwr : 1 ≤ w * r := Nat.mul_pos hw hr
  unfold convDown
  simp only
  rw [Nat.mul_div_cancel_left _ (by omega)]
  by_cases h : w * N ≤ w * r * a.length
  · rw [if_pos h]
    obtain ⟨h1, h2⟩ := splitTrunc_spec hw hr rfl ha N
    exact ⟨h1, by simp, fun _ => h2, fun h' => absurd h' (by omega), fun h' => absurd h' (by omega)⟩
  · rw [if_neg h]
    obtain ⟨f1, f2, f3⟩ := splitFlat_spec rfl ha
    have hle : a.length * r ≤ N := by
      have : w * (r * a.length) < w * N := by rw [← mul_assoc]; omega
      have := Nat.lt_of_mul_lt_mul_left this
      rw [mul_comm]; omega
    obtain ⟨e1, e2, e3⟩ := extendTo_spec (N := N) (signed && isNeg otherSigned (w * r) a) f1 (by rw [f2]; exact hle)
    rw [f2, f3, show w * (a.length * r) = w * r * a.length by ring] at e3
    refine ⟨e1, e2, fun h' => absurd h' h, ?_, ?_⟩
    · intro _ hc
      have hneg : (signed && isNeg otherSigned (w * r) a) = false := by
        rcases hc with rfl | rfl | hc
        · simp
        · simp [isNeg]
        · simp [isNeg, (sval_nonneg_nat hwr ha hne hc).1]
      rw [hneg] at e3 ⊢
      simp only [Bool.false_eq_true, if_false, add_zero] at e3
      exact_mod_cast e3
    · intro h' hs ho
      refine sval_transfer (Nat.mul_pos hwr hne) (by rw [e2]; omega) ?_
      rw [e2, e3]
      subst hs ho
      by_cases hn : sval (w * r) a < 0
      · obtain ⟨n1, n2⟩ := sval_neg_nat hwr ha hne hn
        simp only [isNeg, n1, Bool.and_self, if_true, n2]
        exact ⟨1, by ring⟩
      · obtain ⟨n1, n2⟩ := sval_nonneg_nat hwr ha hne (by omega)
        simp [isNeg, n1, n2]

example : convDown true true 32 5 64 [0xFFFFFFFFFFFFFFFE, 0x8000000000000000] = [0xFFFFFFFE, 0xFFFFFFFF, 0, 0x80000000, 0xFFFFFFFF] ∧
    convDown false false 32 3 64 [0x1122334455667788, 0x99AABBCCDDEEFF00] = [0x55667788, 0x11223344, 0xDDEEFF00] := by decide +kernel

/-! ## C94 division by `x * 2^e` -/

/-- C94: for a number of any length with words of `2^k` bits, any non-zero half word `x` and any `e`, `div_uint_half_times_pow_2` replaces the number by
the quotient by `x * 2^e` and returns the remainder -/
theorem C94_div_half_pow2 {k : ℕ} (hk : 1 ≤ k) {a : List ℕ} (ha : Words (2 ^ k) a) (x e : ℕ) (hx0 : 1 ≤ x) (hx : x < 2 ^ (2 ^ k / 2)) :
    ∃ q r, divHalfPow2 (2 ^ k) a x e = some (q, r) ∧ Words (2 ^ k) q ∧ Words (2 ^ k) r ∧ q.length = a.length ∧ r.length = a.length ∧
      nat (2 ^ k) q = nat (2 ^ k) a / (x * 2 ^ e) ∧ nat (2 ^ k) r = nat (2 ^ k) a % (x * 2 ^ e) := by
  obtain ⟨q, r, h1, h2, h3, h4, h5, h6, h7⟩ := divHalfPow2_spec hk ha x e hx0 hx
  refine ⟨q, r, h1, h2, h3, h4, h5, ?_, ?_⟩
  · rw [h6, Nat.mul_add_div (by omega), Nat.div_eq_of_lt h7, add_zero]
  · rw [h6, Nat.mul_add_mod, Nat.mod_eq_of_lt h7]

/-- C94: a zero divisor is reported, whatever the dividend and the exponent -/
theorem C94_div_half_zero (w : ℕ) (a : List ℕ) (e : ℕ) : divHalfPow2 w a 0 e = none := by
  unfold divHalfPow2; simp

example : divHalfPow2 (2 ^ 6) [0xFFFFFFFFFFFFFFFF, 0x123456789ABCDEF] 1000000007 37 =
    some ([(2 ^ 64 * 0x123456789ABCDEF + 0xFFFFFFFFFFFFFFFF) / (1000000007 * 2 ^ 37), 0],
      [(2 ^ 64 * 0x123456789ABCDEF + 0xFFFFFFFFFFFFFFFF) % (1000000007 * 2 ^ 37) % 2 ^ 64,
       (2 ^ 64 * 0x123456789ABCDEF + 0xFFFFFFFFFFFFFFFF) % (1000000007 * 2 ^ 37) / 2 ^ 64]) := by decide +kernel

/-- C94 does not extend to negative numbers of the signed type, which the function also takes: it divides the words as an unsigned number, so -4 / 2
becomes `2^15 - 2` in 16 bits, where the other division gives -2 -/
theorem C94_signed_wrong : sval 8 [0xFC, 0xFF] = -4 ∧ divHalfPow2 (2 ^ 3) [0xFC, 0xFF] 1 1 = some ([0xFE, 0x7F], [0, 0]) ∧
    sval 8 [0xFE, 0x7F] = 2 ^ 15 - 2 ∧ div true 8 [0xFC, 0xFF] [2, 0] = some ([0xFE, 0xFF], [0, 0]) ∧ sval 8 [0xFE, 0xFF] = -2 := by decide +kernel

/-! ## C95 masks and conversions to built-in integers -/

/-- C95: `mask_trailing_ones` of a wide unsigned integer is `2^count - 1` for every `count` up to its width -/
theorem C95_mask_trailing_ones {w : ℕ} (hw : 1 ≤ w) (N count : ℕ) (hc : count ≤ w * N) :
    Words w (maskTrailingOnes w N count) ∧ (maskTrailingOnes w N count).length = N ∧ nat w (maskTrailingOnes w N count) = 2 ^ count - 1 :=
  maskTrailingOnes_spec hw N count hc

/-- C95: `mask_leading_ones` has exactly the `count` top bits -/
theorem C95_mask_leading_ones {w : ℕ} (hw : 1 ≤ w) (N count : ℕ) (hc : count ≤ w * N) :
    Words w (maskLeadingOnes w N count) ∧ (maskLeadingOnes w N count).length = N ∧ nat w (maskLeadingOnes w N count) = 2 ^ (w * N) - 2 ^ (w * N - count) :=
  maskLeadingOnes_spec hw N count hc

/-- C95: the masks of built-in words, of which the wide ones are made -/
theorem C95_mask_word {w count : ℕ} (hc : count ≤ w) :
    maskTrailingOnesW w count = 2 ^ count - 1 ∧ maskLeadingOnesW w count = 2 ^ w - 2 ^ (w - count) := by
  refine ⟨maskTrailingOnesW_eq hc, ?_⟩
  unfold maskLeadingOnesW
  rw [maskTrailingOnesW_eq (by omega)]
  have := Nat.two_pow_pos (w - count)
  omega

example : maskTrailingOnes 8 3 12 = [0xFF, 0x0F, 0] ∧ maskLeadingOnes 8 3 12 = [0, 0xF0, 0xFF] ∧ maskLeadingOnes 8 3 8 = [0, 0, 0xFF] := by decide +kernel

/-- C95: conversion to a built-in integer of `tbits` bits (a multiple of the word size, or less than a word) gives the value modulo `2^tbits`, for the
signed and the unsigned type, narrowing and widening -/
theorem C95_to_builtin (signed : Bool) {w tbits : ℕ} (hw : 1 ≤ w) {a : List ℕ} (ha : Words w a) (hne : 1 ≤ a.length) (hd : tbits ≤ w ∨ w ∣ tbits) :
    (toT signed w tbits a : ℤ) = (if signed then sval w a else (nat w a : ℤ)) % 2 ^ tbits := toT_spec signed hw ha hne hd

example : toT true 16 64 [0xFFFE, 0xFFFF] = 2 ^ 64 - 2 ∧ toT false 16 64 [0xFFFE, 0xFFFF] = 0xFFFFFFFE ∧ toT false 64 128 [1, 2, 3] = 2 * 2 ^ 64 + 1 ∧
    toT true 64 32 [0x1122334455667788, 5] = 0x55667788 := by decide +kernel

end Verif
