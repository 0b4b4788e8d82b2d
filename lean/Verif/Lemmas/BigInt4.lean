import Mathlib.Data.Nat.ModEq
import Verif.Lemmas.BigInt3

namespace Verif
namespace BI
open CC

/-! ### addition, subtraction, negation modulo `2^(w N)` -/

theorem addC_spec {w : ℕ} (hw : 1 ≤ w) {a b : List ℕ} (ha : Words w a) (hb : Words w b) (hl : b.length ≤ a.length) :
    Words w (addC w a b).1 ∧ (addC w a b).1.length = a.length ∧ (addC w a b).2 ≤ 1 ∧
      nat w (addC w a b).1 + 2 ^ (w * a.length) * (addC w a b).2 = nat w a + nat w b := by
  simpa [addC] using binop_add hw a b 0 ha hb hl (by omega)

theorem subB_spec {w : ℕ} (hw : 1 ≤ w) {a b : List ℕ} (ha : Words w a) (hb : Words w b) (hl : b.length ≤ a.length) :
    Words w (subB w a b).1 ∧ (subB w a b).1.length = a.length ∧ (subB w a b).2 ≤ 1 ∧
      nat w (subB w a b).1 + nat w b = nat w a + 2 ^ (w * a.length) * (subB w a b).2 := by
  simpa [subB] using binop_sub hw a b 0 ha hb hl (by omega)

theorem add_nat {w : ℕ} (hw : 1 ≤ w) {a b : List ℕ} (ha : Words w a) (hb : Words w b) (hl : b.length ≤ a.length) :
    Words w (add w a b) ∧ (add w a b).length = a.length ∧ nat w (add w a b) = (nat w a + nat w b) % 2 ^ (w * a.length) := by
  obtain ⟨h1, h2, _, h4⟩ := addC_spec hw ha hb hl
  refine ⟨h1, h2, ?_⟩
  rw [← h4, Nat.add_mul_mod_self_left, Nat.mod_eq_of_lt]; rfl
  have := nat_lt h1; rwa [h2] at this

theorem sub_nat' {w : ℕ} (hw : 1 ≤ w) {a b : List ℕ} (ha : Words w a) (hb : Words w b) (hl : b.length ≤ a.length) :
    Words w (sub w a b) ∧ (sub w a b).length = a.length ∧ (nat w (sub w a b) : ℤ) = ((nat w a : ℤ) - nat w b) % 2 ^ (w * a.length) := by
  obtain ⟨h1, h2, _, h4⟩ := subB_spec hw ha hb hl
  refine ⟨h1, h2, ?_⟩
  have hlt := nat_lt h1
  rw [h2] at hlt
  have e : ((nat w a : ℤ) - nat w b) = nat w (sub w a b) + 2 ^ (w * a.length) * (-((subB w a b).2 : ℤ)) := by
    have : (nat w (sub w a b) : ℤ) + nat w b = nat w a + 2 ^ (w * a.length) * ((subB w a b).2 : ℤ) := by exact_mod_cast h4
    linarith
  rw [e, Int.add_mul_emod_self_left, Int.emod_eq_of_lt (by positivity)]
  exact_mod_cast hlt

theorem words_one {w : ℕ} (hw : 1 ≤ w) : Words w [1] := words_cons (Nat.one_lt_two_pow (by omega)) (words_nil w)

theorem negate_nat {w : ℕ} (hw : 1 ≤ w) {a : List ℕ} (ha : Words w a) (hne : 1 ≤ a.length) :
    Words w (negate w a) ∧ (negate w a).length = a.length ∧ (nat w (negate w a) : ℤ) = (-(nat w a : ℤ)) % 2 ^ (w * a.length) := by
  obtain ⟨h1, h2, h3⟩ := bnot_spec ha
  obtain ⟨g1, g2, g3⟩ := add_nat hw h1 (words_one hw) (by simpa [h2] using hne)
  refine ⟨g1, g2.trans h2, ?_⟩
  have e : nat w (negate w a) = (nat w (bnot w a) + 1) % 2 ^ (w * a.length) := by
    have : nat w [1] = 1 := by rw [nat_cons, nat_nil, mul_zero, add_zero]
    rw [this, h2] at g3; exact g3
  rw [e]
  have h3' : (nat w (bnot w a) : ℤ) + 1 = 2 ^ (w * a.length) - nat w a := by
    have : (nat w (bnot w a) : ℤ) + nat w a + 1 = 2 ^ (w * a.length) := by exact_mod_cast h3
    linarith
  rw [Int.natCast_mod, Nat.cast_add, Nat.cast_one, h3', Nat.cast_pow, Nat.cast_two]
  rw [show (2 : ℤ) ^ (w * a.length) - nat w a = -(nat w a : ℤ) + 2 ^ (w * a.length) * 1 by ring, Int.add_mul_emod_self_left]

/-! ### conversion from a built-in integer -/

theorem ofIntAux_spec {w tbits : ℕ} (neg : Bool) : ∀ (n : ℕ) (v : ℤ), (neg = true → v < 0) → (neg = false → 0 ≤ v) →
    (tbits ≤ w → -2 ^ w ≤ v ∧ v < 2 ^ w) →
    Words w (ofIntAux w tbits neg n v) ∧ (ofIntAux w tbits neg n v).length = n ∧ (2 : ℤ) ^ (w * n) ∣ (nat w (ofIntAux w tbits neg n v) : ℤ) - v := by
  intro n
  induction n with
  | zero => intro v _ _ _; exact ⟨words_nil w, rfl, by simp⟩
  | succ n ih =>
    intro v hn hp ht
    have p : (0 : ℤ) < 2 ^ w := by positivity
    have hm1 := Int.emod_nonneg v p.ne'
    have hm2 := Int.emod_lt_of_pos v p
    have hd := Int.emod_add_mul_ediv v (2 ^ w)
    have hword : (v % 2 ^ w).toNat < 2 ^ w := by zify; rw [Int.toNat_of_nonneg hm1]; exact hm2
    rw [ofIntAux]
    by_cases h0 : v = 0
    · have hne : neg = false := by
        cases neg
        · rfl
        · have := hn rfl; omega
      rw [if_pos h0, hne]
      simp only [Bool.false_eq_true, if_false]
      refine ⟨words_replicate (Nat.two_pow_pos w), by simp, ?_⟩
      rw [nat_replicate_zero, h0]; simp
    · rw [if_neg h0]
      by_cases hb : tbits > w
      · rw [if_pos hb]
        obtain ⟨i1, i2, i3⟩ := ih (v / 2 ^ w) (fun h => Int.ediv_neg_of_neg_of_pos (hn h) p) (fun h => Int.ediv_nonneg (hp h) p.le) (fun h => absurd h (by omega))
        refine ⟨words_cons hword i1, by simp [i2], ?_⟩
        obtain ⟨c, hc⟩ := i3
        rw [nat_cons, Nat.cast_add, Int.toNat_of_nonneg hm1, Nat.cast_mul, Nat.cast_pow, Nat.cast_two, eq_add_of_sub_eq' hc]
        refine ⟨c, ?_⟩
        rw [Nat.mul_succ, pow_add]
        linarith
      · rw [if_neg hb]
        obtain ⟨t1, t2⟩ := ht (by omega)
        cases n with
        | zero =>
          refine ⟨words_cons hword (words_nil w), rfl, ?_⟩
          change (2 : ℤ) ^ (w * (0 + 1)) ∣ (nat w [(v % 2 ^ w).toNat] : ℤ) - v
          rw [nat_cons, nat_nil, mul_zero, add_zero, Int.toNat_of_nonneg hm1, zero_add, mul_one]
          exact ⟨-(v / 2 ^ w), by linarith⟩
        | succ n =>
          rw [ofIntAux, if_pos rfl]
          have hq : v / 2 ^ w = if neg then -1 else 0 := by
            cases hneg : neg
            · simp only [Bool.false_eq_true, if_false]
              exact Int.ediv_eq_zero_of_lt (hp hneg) t2
            · simp only [if_true]
              have := hn hneg
              have h1 : v / 2 ^ w < 0 := Int.ediv_neg_of_neg_of_pos this p
              have h2 : -1 ≤ v / 2 ^ w := by rw [Int.le_ediv_iff_mul_le p]; linarith
              omega
          refine ⟨words_cons hword (words_replicate ?_), by simp, ?_⟩
          · have := Nat.two_pow_pos w
            split_ifs <;> omega
          · rw [nat_cons, Nat.cast_add, Int.toNat_of_nonneg hm1, Nat.cast_mul, Nat.cast_pow, Nat.cast_two]
            cases hneg : neg
            · simp only [hneg, Bool.false_eq_true, if_false] at hq ⊢
              rw [nat_replicate_zero]
              rw [hq] at hd
              have : v % 2 ^ w = v := by linarith
              rw [this]; simp
            · simp only [hneg, if_true] at hq ⊢
              rw [hq] at hd
              have e : (nat w (List.replicate (n + 1) (2 ^ w - 1)) : ℤ) = 2 ^ (w * (n + 1)) - 1 := by
                have : (nat w (List.replicate (n + 1) (2 ^ w - 1)) : ℤ) + 1 = 2 ^ (w * (n + 1)) := by exact_mod_cast nat_replicate_ones w (n + 1)
                linarith
              rw [e]
              refine ⟨1, ?_⟩
              rw [Nat.mul_succ w (n + 1), pow_add]; linarith

theorem ofInt_spec {w tbits : ℕ} (N : ℕ) (v : ℤ) (ht : 1 ≤ tbits) (h1 : -2 ^ (tbits - 1) ≤ v) (h2 : v < 2 ^ tbits) :
    Words w (ofInt w tbits N v) ∧ (ofInt w tbits N v).length = N ∧ (nat w (ofInt w tbits N v) : ℤ) = v % 2 ^ (w * N) := by
  obtain ⟨i1, i2, i3⟩ := ofIntAux_spec (w := w) (tbits := tbits) (decide (v < 0)) N v (by simp) (by simp) (by
    intro hle
    have e1 : (2 : ℤ) ^ (tbits - 1) ≤ 2 ^ w := by exact_mod_cast Nat.pow_le_pow_right (by norm_num) (show tbits - 1 ≤ w by omega)
    have e2 : (2 : ℤ) ^ tbits ≤ 2 ^ w := by exact_mod_cast Nat.pow_le_pow_right (by norm_num) hle
    constructor <;> linarith)
  refine ⟨i1, i2, ?_⟩
  have hlt := nat_lt i1
  rw [i2] at hlt
  have e : (nat w (ofInt w tbits N v) : ℤ) % 2 ^ (w * N) = v % 2 ^ (w * N) := Int.emod_eq_emod_iff_emod_sub_eq_zero.2 (Int.emod_eq_zero_of_dvd i3)
  rw [← e, Int.emod_eq_of_lt (by positivity)]
  exact_mod_cast hlt

theorem one_spec {w N : ℕ} (hw : 1 ≤ w) (hN : 1 ≤ N) : Words w (ofInt w 32 N 1) ∧ (ofInt w 32 N 1).length = N ∧ nat w (ofInt w 32 N 1) = 1 := by
  obtain ⟨h1, h2, h3⟩ := ofInt_spec (w := w) (tbits := 32) N 1 (by norm_num) (by norm_num) (by norm_num)
  refine ⟨h1, h2, ?_⟩
  have : (1 : ℤ) < 2 ^ (w * N) := by exact_mod_cast Nat.one_lt_two_pow (by have := pos_bits hw hN; omega)
  rw [Int.emod_eq_of_lt (by norm_num) this] at h3
  exact_mod_cast h3

theorem zero_spec (w N : ℕ) : Words w (ofInt w 32 N 0) ∧ (ofInt w 32 N 0).length = N ∧ nat w (ofInt w 32 N 0) = 0 := by
  obtain ⟨h1, h2, h3⟩ := ofInt_spec (w := w) (tbits := 32) N 0 (by norm_num) (by norm_num) (by norm_num)
  refine ⟨h1, h2, ?_⟩
  rw [Int.zero_emod] at h3
  exact_mod_cast h3

/-! ### multiplication -/

theorem fulMul_spec (wide : Bool) {w : ℕ} (hw : 1 ≤ w) (he : wide = false → w % 2 = 0) {a b : List ℕ} (ha : Words w a) (hb : Words w b)
    (ha1 : 1 ≤ a.length) (hM : a.length < 2 ^ w) :
    Words w (fulMul wide w a b) ∧ (fulMul wide w a b).length = a.length + b.length ∧ nat w (fulMul wide w a b) = nat w a * nat w b := by
  obtain ⟨h1, h2, _, h4⟩ := mulWithCarry_spec wide hw he ha hb ha1 hM (le_refl (a.length + b.length))
  exact ⟨h1, h2, h4⟩

theorem mul_nat (wide signed : Bool) {w : ℕ} (hw : 1 ≤ w) (he : wide = false → w % 2 = 0) {a b : List ℕ} (ha : Words w a) (hb : Words w b)
    (ha1 : 1 ≤ a.length) (hM : a.length < 2 ^ w) :
    Words w (mul wide signed w a b) ∧ (mul wide signed w a b).length = a.length ∧ nat w (mul wide signed w a b) = nat w a * nat w b % 2 ^ (w * a.length) := by
  obtain ⟨h1, h2, h3⟩ := fulMul_spec wide hw he ha hb ha1 hM
  unfold mul resize
  rw [if_pos (by omega), ← h3]
  exact nat_take h1 _ (by omega)

theorem powLoop_spec (wide : Bool) {w : ℕ} (hw : 1 ≤ w) (he : wide = false → w % 2 = 0) {N : ℕ} (hN : 1 ≤ N) (hM : N < 2 ^ w) :
    ∀ (n : ℕ) (r c : List ℕ) (e : ℕ), Words w r → Words w c → r.length = N → c.length = N → e < 2 ^ n →
      Words w (powLoop wide w n r c e) ∧ (powLoop wide w n r c e).length = N ∧
        nat w (powLoop wide w n r c e) = nat w r * nat w c ^ e % 2 ^ (w * N) := by
  intro n
  induction n with
  | zero =>
    intro r c e hr hc lr lc h
    obtain rfl : e = 0 := by simpa using h
    refine ⟨hr, lr, ?_⟩
    have := nat_lt hr
    rw [lr] at this
    rw [pow_zero, mul_one, Nat.mod_eq_of_lt this]; rfl
  | succ n ih =>
    intro r c e hr hc lr lc h
    rw [powLoop]
    by_cases h0 : e > 0
    · rw [if_pos h0]
      obtain ⟨m1, m2, m3⟩ := mul_nat wide false hw he hc hc (by omega) (by omega)
      obtain ⟨p1, p2, p3⟩ := mul_nat wide false hw he hr hc (by omega) (by omega)
      rw [lc] at m2 m3
      rw [lr] at p2 p3
      have hr' : Words w (if e % 2 > 0 then mul wide false w r c else r) := by split_ifs <;> assumption
      have lr' : (if e % 2 > 0 then mul wide false w r c else r).length = N := by split_ifs <;> assumption
      have h2 : e >>> 1 = e / 2 := by rw [Nat.shiftRight_eq_div_pow, pow_one]
      obtain ⟨i1, i2, i3⟩ := ih (if e % 2 > 0 then mul wide false w r c else r) (mul wide false w c c) (e >>> 1) hr' m1 lr' m2 (by rw [h2]; omega)
      refine ⟨i1, i2, ?_⟩
      rw [i3, m3, h2]
      have key : (nat w c * nat w c % 2 ^ (w * N)) ^ (e / 2) ≡ nat w c ^ (2 * (e / 2)) [MOD 2 ^ (w * N)] := by
        rw [pow_mul (nat w c), pow_two]; exact (Nat.mod_modEq _ _).pow _
      by_cases hodd : e % 2 > 0
      · rw [if_pos hodd, p3]
        have e' : e = 2 * (e / 2) + 1 := by omega
        have := (Nat.mod_modEq (nat w r * nat w c) (2 ^ (w * N))).mul key
        rw [show nat w r * nat w c * nat w c ^ (2 * (e / 2)) = nat w r * nat w c ^ (2 * (e / 2) + 1) by rw [pow_succ]; ring, ← e'] at this
        exact this
      · rw [if_neg hodd]
        have e' : e = 2 * (e / 2) := by omega
        have := (Nat.ModEq.refl (n := 2 ^ (w * N)) (nat w r)).mul key
        rw [← e'] at this
        exact this
    · rw [if_neg h0]
      obtain rfl : e = 0 := by omega
      refine ⟨hr, lr, ?_⟩
      have := nat_lt hr
      rw [lr] at this
      rw [pow_zero, mul_one, Nat.mod_eq_of_lt this]

/-! ### counts -/

theorem countR_spec {w : ℕ} (bit : Bool) (f : ℕ → ℕ) (hf : ∀ v < 2 ^ w, f v ≤ w ∧ (∀ i < f v, v.testBit i = bit) ∧ (f v < w → v.testBit (f v) = !bit))
    {a : List ℕ} (ha : Words w a) :
    countBits f w a ≤ w * a.length ∧ (∀ i < countBits f w a, (nat w a).testBit i = bit) ∧ (countBits f w a < w * a.length → (nat w a).testBit (countBits f w a) = !bit) := by
  induction a with
  | nil => simp [countBits]
  | cons d a ih =>
    obtain ⟨f1, f2, f3⟩ := hf d ha.head
    obtain ⟨i1, i2, i3⟩ := ih ha.tail
    rw [countBits, nat_cons, List.length_cons, Nat.mul_succ, add_comm d]
    simp only [Nat.testBit_two_pow_mul_add _ ha.head]
    by_cases h : f d = w
    · rw [if_neg (not_not.2 h), h]
      refine ⟨by omega, ?_, ?_⟩
      · intro i hi
        split_ifs with hiw
        · exact f2 i (by omega)
        · exact i2 _ (by omega)
      · intro hi
        rw [if_neg (by omega), Nat.add_sub_cancel_left]
        exact i3 (by omega)
    · rw [if_pos h]
      have : f d < w := by omega
      refine ⟨by omega, ?_, ?_⟩
      · intro i hi
        rw [if_pos (by omega)]; exact f2 i hi
      · intro _
        rw [if_pos this]; exact f3 this

theorem countL_spec {w : ℕ} (bit : Bool) (f : ℕ → ℕ)
    (hf : ∀ v < 2 ^ w, f v ≤ w ∧ (∀ i, w - f v ≤ i → i < w → v.testBit i = bit) ∧ (f v < w → v.testBit (w - f v - 1) = !bit))
    {l : List ℕ} (hl : Words w l) :
    countBits f w l ≤ w * l.length ∧ (∀ i, w * l.length - countBits f w l ≤ i → i < w * l.length → (nat w l.reverse).testBit i = bit) ∧
      (countBits f w l < w * l.length → (nat w l.reverse).testBit (w * l.length - countBits f w l - 1) = !bit) := by
  induction l with
  | nil => simp [countBits]
  | cons d l ih =>
    obtain ⟨f1, f2, f3⟩ := hf d hl.head
    obtain ⟨i1, i2, i3⟩ := ih hl.tail
    have hlt : nat w l.reverse < 2 ^ (w * l.length) := by
      have := nat_lt (words_reverse hl.tail)
      rwa [List.length_reverse] at this
    rw [countBits, List.reverse_cons, nat_snoc, List.length_reverse, List.length_cons, Nat.mul_succ, add_comm (nat w l.reverse)]
    simp only [Nat.testBit_two_pow_mul_add _ hlt]
    by_cases h : f d = w
    · rw [if_neg (not_not.2 h), h]
      refine ⟨by omega, ?_, ?_⟩
      · intro i hi hi'
        split_ifs with hiw
        · exact i2 i (by omega) hiw
        · exact f2 _ (by omega) (by omega)
      · intro hi
        rw [if_pos (by omega), show w * l.length + w - (w + countBits f w l) - 1 = w * l.length - countBits f w l - 1 by omega]
        exact i3 (by omega)
    · rw [if_pos h]
      have : f d < w := by omega
      refine ⟨by omega, ?_, ?_⟩
      · intro i hi hi'
        rw [if_neg (by omega)]
        exact f2 _ (by omega) (by omega)
      · intro _
        rw [if_neg (by omega), show w * l.length + w - f d - 1 - w * l.length = w - f d - 1 by omega]
        exact f3 this

/-- from a statement on bits to a bound -/
theorem lt_of_top_bits {n r v : ℕ} (hv : v < 2 ^ n) (h : ∀ i, n - r ≤ i → i < n → v.testBit i = false) : v < 2 ^ (n - r) := by
  apply Nat.lt_pow_two_of_testBit
  intro i hi
  by_cases hn : i < n
  · exact h i hi hn
  · exact testBit_eq_false_of_word hv (by omega)

theorem top_bits_of_lt {n r v : ℕ} (h : v < 2 ^ (n - r)) (i : ℕ) (hi : n - r ≤ i) : v.testBit i = false := testBit_eq_false_of_word h hi

theorem clz_spec {k : ℕ} {a : List ℕ} (ha : Words (2 ^ k) a) :
    clz (2 ^ k) a ≤ 2 ^ k * a.length ∧ nat (2 ^ k) a < 2 ^ (2 ^ k * a.length - clz (2 ^ k) a) ∧
      (clz (2 ^ k) a < 2 ^ k * a.length → (nat (2 ^ k) a).testBit (2 ^ k * a.length - clz (2 ^ k) a - 1) = true) := by
  obtain ⟨h1, h2, h3⟩ := countL_spec false (countlZero (2 ^ k)) (by
    intro v hv
    obtain ⟨c1, c2, c3⟩ := C34_countl_zero k v hv
    exact ⟨c1, fun i hi _ => top_bits_of_lt c2 i hi, c3⟩) (words_reverse ha)
  rw [List.length_reverse] at h1 h2 h3
  rw [List.reverse_reverse] at h2 h3
  exact ⟨h1, lt_of_top_bits (nat_lt ha) h2, h3⟩

theorem clo_spec {k : ℕ} {a : List ℕ} (ha : Words (2 ^ k) a) :
    clo (2 ^ k) a ≤ 2 ^ k * a.length ∧ (∀ i, 2 ^ k * a.length - clo (2 ^ k) a ≤ i → i < 2 ^ k * a.length → (nat (2 ^ k) a).testBit i = true) ∧
      (clo (2 ^ k) a < 2 ^ k * a.length → (nat (2 ^ k) a).testBit (2 ^ k * a.length - clo (2 ^ k) a - 1) = false) := by
  obtain ⟨h1, h2, h3⟩ := countL_spec true (countlOne (2 ^ k)) (by
    intro v hv
    exact C34_countl_one k v hv) (words_reverse ha)
  rw [List.length_reverse] at h1 h2 h3
  rw [List.reverse_reverse] at h2 h3
  exact ⟨h1, h2, h3⟩

theorem ctz_spec {k : ℕ} {a : List ℕ} (ha : Words (2 ^ k) a) :
    ctz (2 ^ k) a ≤ 2 ^ k * a.length ∧ (∀ i < ctz (2 ^ k) a, (nat (2 ^ k) a).testBit i = false) ∧
      (ctz (2 ^ k) a < 2 ^ k * a.length → (nat (2 ^ k) a).testBit (ctz (2 ^ k) a) = true) :=
  countR_spec false (countrZero (2 ^ k)) (fun v hv => C34_countr_zero k v hv) ha

theorem cto_spec {k : ℕ} {a : List ℕ} (ha : Words (2 ^ k) a) :
    cto (2 ^ k) a ≤ 2 ^ k * a.length ∧ (∀ i < cto (2 ^ k) a, (nat (2 ^ k) a).testBit i = true) ∧
      (cto (2 ^ k) a < 2 ^ k * a.length → (nat (2 ^ k) a).testBit (cto (2 ^ k) a) = false) :=
  countR_spec true (countrOne (2 ^ k)) (fun v hv => C34_countr_one k v hv) ha

theorem popcountB_aux (w : ℕ) {a : List ℕ} (ha : Words w a) (n : ℕ) :
    a.foldl (fun n d => if d ≠ 0 then n + popcount w d else n) n = n + ((Finset.range (w * a.length)).filter (fun i => (nat w a).testBit i)).card := by
  induction a generalizing n with
  | nil => simp
  | cons d a ih =>
    rw [List.foldl_cons, ih ha.tail]
    have e : (if d ≠ 0 then n + popcount w d else n) = n + ((Finset.range w).filter (fun i => d.testBit i)).card := by
      split_ifs with h
      · rw [C34_popcount]
      · rw [not_not.1 h]; simp
    rw [e, add_assoc, List.length_cons, Nat.mul_succ, add_comm (w * a.length) w, nat_cons, add_comm d]
    congr 1
    rw [Finset.card_filter, Finset.card_filter, Finset.card_filter, Finset.sum_range_add]
    congr 1
    · apply Finset.sum_congr rfl
      intro i hi
      have t : (2 ^ w * nat w a + d).testBit i = d.testBit i := by rw [Nat.testBit_two_pow_mul_add _ ha.head, if_pos (Finset.mem_range.1 hi)]
      rw [t]
    · apply Finset.sum_congr rfl
      intro i _
      have t : (2 ^ w * nat w a + d).testBit (w + i) = (nat w a).testBit i := by rw [Nat.testBit_two_pow_mul_add _ ha.head, if_neg (by omega), Nat.add_sub_cancel_left]
      rw [t]

/-! ### bits of a number -/

theorem getBit_spec {w : ℕ} (hw : 1 ≤ w) {a : List ℕ} (ha : Words w a) (i : ℕ) : getBit w a i = (nat w a).testBit i := by
  rw [testBit_nat hw ha]
  unfold getBit Nat.testBit
  rw [Bool.eq_iff_iff, decide_eq_true_eq, bne_iff_ne]

theorem setBit_spec {w : ℕ} (hw : 1 ≤ w) {a : List ℕ} (ha : Words w a) {i : ℕ} (hi : i < w * a.length) :
    Words w (setBit w a i) ∧ (setBit w a i).length = a.length ∧ nat w (setBit w a i) = nat w a ||| 2 ^ i := by
  have hk : i / w < a.length := Nat.div_lt_of_lt_mul hi
  have hm : i % w < w := Nat.mod_lt _ (by omega)
  have hx : a.getD (i / w) 0 ||| (1 <<< (i % w)) % 2 ^ w < 2 ^ w := Nat.or_lt_two_pow (getD_lt ha _) (Nat.mod_lt _ (Nat.two_pow_pos w))
  have hW : Words w (setBit w a i) := by
    intro x hx'
    rcases List.mem_or_eq_of_mem_set hx' with h | h
    · exact ha x h
    · rw [h]; exact hx
  have hl : (setBit w a i).length = a.length := by simp [setBit]
  refine ⟨hW, hl, ?_⟩
  apply Nat.eq_of_testBit_eq
  intro j
  rw [testBit_nat hw hW, Nat.testBit_or, testBit_nat hw ha, Nat.testBit_two_pow]
  have hg : (setBit w a i).getD (j / w) 0 = if i / w = j / w then a.getD (i / w) 0 ||| (1 <<< (i % w)) % 2 ^ w else a.getD (j / w) 0 := by
    unfold setBit
    rw [List.getD_eq_getElem?_getD, List.getElem?_set]
    split_ifs with h1
    · rfl
    · rw [List.getD_eq_getElem?_getD]
  rw [hg]
  have hmj : j % w < w := Nat.mod_lt _ (by omega)
  have dm1 := Nat.div_add_mod i w
  have dm2 := Nat.div_add_mod j w
  by_cases h : i / w = j / w
  · rw [if_pos h, Nat.testBit_or, Nat.testBit_mod_two_pow, Nat.one_shiftLeft, Nat.testBit_two_pow, h]
    congr 1
    rw [h] at dm1
    have : i % w = j % w ↔ i = j := ⟨fun e => by omega, fun e => by rw [e]⟩
    simp [hmj, this]
  · rw [if_neg h]
    have : i ≠ j := fun e => h (by rw [e])
    simp [this]

end BI
end Verif
