import Verif.Lemmas.BigInt2

namespace Verif
namespace BI
open CC

/-- the two's complement value of a list of words -/
abbrev sval (w : ℕ) (a : List ℕ) : ℤ := Int.bmod (nat w a) (2 ^ (w * a.length))

theorem nat_take {w : ℕ} {a : List ℕ} (ha : Words w a) (M : ℕ) (hM : M ≤ a.length) : Words w (a.take M) ∧ (a.take M).length = M ∧ nat w (a.take M) = nat w a % 2 ^ (w * M) := by
  have hl : (a.take M).length = M := by simp [hM]
  have hW : Words w (a.take M) := fun x hx => ha x (List.mem_of_mem_take hx)
  refine ⟨hW, hl, ?_⟩
  conv_rhs => rw [← List.take_append_drop M a]
  rw [nat_append, hl, Nat.add_mul_mod_self_left, Nat.mod_eq_of_lt]
  have := nat_lt hW
  rwa [hl] at this

theorem msb_iff {w : ℕ} (hw : 1 ≤ w) {a : List ℕ} (ha : Words w a) (hne : 1 ≤ a.length) : msb w a = true ↔ 2 ^ (w * a.length - 1) ≤ nat w a := by
  obtain ⟨l, d, rfl⟩ : ∃ l d, a = l ++ [d] := by
    rcases List.eq_nil_or_concat a with h | ⟨l, d, h⟩
    · subst h; simp at hne
    · exact ⟨l, d, by rw [h, List.concat_eq_append]⟩
  unfold msb
  have hd : d < 2 ^ w := ha d (by simp)
  have hl : nat w l < 2 ^ (w * l.length) := nat_lt (fun x hx => ha x (by simp [hx]))
  rw [nat_append, nat_cons, nat_nil, mul_zero, add_zero, List.length_append, List.length_singleton]
  have e : w * (l.length + 1) - 1 = w * l.length + (w - 1) := by rw [Nat.mul_succ]; omega
  rw [e, pow_add]
  simp only [List.getLastD_concat, decide_eq_true_eq, Nat.shiftRight_eq_div_pow]
  have hp := Nat.two_pow_pos (w - 1)
  rw [Ne, Nat.div_eq_zero_iff]
  constructor
  · intro h
    have h' : 2 ^ (w - 1) ≤ d := by omega
    have := Nat.mul_le_mul_left (2 ^ (w * l.length)) h'
    omega
  · intro h h'
    have h'' : d + 1 ≤ 2 ^ (w - 1) := by omega
    have := Nat.mul_le_mul_left (2 ^ (w * l.length)) h''
    rw [mul_add, mul_one] at this
    omega

theorem bmod_two_pow {n : ℕ} (hn : 1 ≤ n) (x : ℤ) : Int.bmod x (2 ^ n) = if x % 2 ^ n < 2 ^ (n - 1) then x % 2 ^ n else x % 2 ^ n - 2 ^ n := by
  obtain ⟨m, rfl⟩ : ∃ m, n = m + 1 := ⟨n - 1, by omega⟩
  unfold Int.bmod
  have e : ((2 : ℤ) ^ (m + 1) + 1) / 2 = 2 ^ m := by rw [pow_succ]; omega
  push_cast
  rw [e]

/-- characterisation of the balanced residue -/
theorem bmod_eq {n : ℕ} (hn : 1 ≤ n) {x v : ℤ} (hc : (2 : ℤ) ^ n ∣ x - v) (h1 : -2 ^ (n - 1) ≤ v) (h2 : v < 2 ^ (n - 1)) : Int.bmod x (2 ^ n) = v := by
  rw [bmod_two_pow hn]
  have e2 : (2 : ℤ) ^ n = 2 * 2 ^ (n - 1) := by rw [← pow_succ']; congr 1; omega
  have hx : x % 2 ^ n = v % 2 ^ n := Int.emod_eq_emod_iff_emod_sub_eq_zero.2 (Int.emod_eq_zero_of_dvd hc)
  rw [hx]
  by_cases hv : 0 ≤ v
  · rw [Int.emod_eq_of_lt hv (by omega), if_pos h2]
  · have : v % 2 ^ n = v + 2 ^ n := by
      rw [← Int.add_emod_right, Int.emod_eq_of_lt (by omega) (by omega)]
    rw [this, if_neg (by omega)]; omega

theorem bmod_dvd {n : ℕ} (x : ℤ) : (2 : ℤ) ^ n ∣ Int.bmod x (2 ^ n) - x := by
  have h : (Int.bmod x (2 ^ n)) % ((2 ^ n : ℕ) : ℤ) = x % ((2 ^ n : ℕ) : ℤ) := Int.bmod_emod
  have := Int.dvd_of_emod_eq_zero (Int.emod_eq_emod_iff_emod_sub_eq_zero.1 h)
  push_cast at this; exact this

theorem bmod_range {n : ℕ} (hn : 1 ≤ n) (x : ℤ) : -2 ^ (n - 1) ≤ Int.bmod x (2 ^ n) ∧ Int.bmod x (2 ^ n) < 2 ^ (n - 1) := by
  rw [bmod_two_pow hn]
  have e2 : (2 : ℤ) ^ n = 2 * 2 ^ (n - 1) := by rw [← pow_succ']; congr 1; omega
  have p : (0 : ℤ) < 2 ^ n := by positivity
  have := Int.emod_nonneg x p.ne'
  have := Int.emod_lt_of_pos x p
  split_ifs <;> constructor <;> omega

theorem bmod_congr {n : ℕ} {x y : ℤ} (hc : (2 : ℤ) ^ n ∣ x - y) : Int.bmod x (2 ^ n) = Int.bmod y (2 ^ n) := by
  unfold Int.bmod
  have : x % ((2 ^ n : ℕ) : ℤ) = y % ((2 ^ n : ℕ) : ℤ) := by
    push_cast
    exact Int.emod_eq_emod_iff_emod_sub_eq_zero.2 (Int.emod_eq_zero_of_dvd hc)
  rw [this]

theorem pos_bits {w n : ℕ} (hw : 1 ≤ w) (hn : 1 ≤ n) : 1 ≤ w * n := Nat.mul_pos hw hn

theorem sval_eq {w : ℕ} (hw : 1 ≤ w) {a : List ℕ} (ha : Words w a) (hne : 1 ≤ a.length) : sval w a = if msb w a then (nat w a : ℤ) - 2 ^ (w * a.length) else nat w a := by
  have hl := nat_lt ha
  have hb := pos_bits hw hne
  unfold sval
  rw [bmod_two_pow hb]
  have hl' : (nat w a : ℤ) < 2 ^ (w * a.length) := by exact_mod_cast hl
  rw [Int.emod_eq_of_lt (by positivity) hl']
  by_cases hm : msb w a = true
  · have := (msb_iff hw ha hne).1 hm
    have : (2 : ℤ) ^ (w * a.length - 1) ≤ nat w a := by exact_mod_cast this
    rw [if_neg (by omega), if_pos hm]
  · have := (msb_iff hw ha hne).not.1 hm
    have : (nat w a : ℤ) < 2 ^ (w * a.length - 1) := by exact_mod_cast not_le.1 this
    rw [if_pos this, if_neg hm]

theorem sval_neg_iff {w : ℕ} (hw : 1 ≤ w) {a : List ℕ} (ha : Words w a) (hne : 1 ≤ a.length) : msb w a = true ↔ sval w a < 0 := by
  rw [sval_eq hw ha hne]
  have hl' : (nat w a : ℤ) < 2 ^ (w * a.length) := by exact_mod_cast nat_lt ha
  split_ifs with h
  · simp only [h, true_iff]; omega
  · simp only [h]; simp

/-! ### arithmetic right shift -/

theorem nat_replicate_ones (w n : ℕ) : nat w (List.replicate n (2 ^ w - 1)) + 1 = 2 ^ (w * n) := by
  induction n with
  | zero => simp
  | succ n ih =>
    rw [List.replicate_succ, nat_cons, Nat.mul_succ, pow_add, ← ih]
    have := Nat.two_pow_pos w
    obtain ⟨z, hz⟩ : ∃ z, 2 ^ w = z + 1 := ⟨2 ^ w - 1, by omega⟩
    rw [show 2 ^ w - 1 = z by omega, hz]; ring

theorem nat_sign_ext {w : ℕ} (hw : 1 ≤ w) {a : List ℕ} (ha : Words w a) (hne : 1 ≤ a.length) (M : ℕ) :
    (2 : ℤ) ^ (w * (a.length + M)) ∣ (nat w (a ++ List.replicate M (if msb w a then 2 ^ w - 1 else 0)) : ℤ) - sval w a := by
  rw [nat_append, sval_eq hw ha hne]
  split_ifs with h
  · have := nat_replicate_ones w M
    have e : (nat w (List.replicate M (2 ^ w - 1)) : ℤ) = 2 ^ (w * M) - 1 := by
      have : (nat w (List.replicate M (2 ^ w - 1)) : ℤ) + 1 = 2 ^ (w * M) := by exact_mod_cast this
      linarith
    rw [Nat.cast_add, Nat.cast_mul, e, Nat.cast_pow, Nat.cast_two]
    refine ⟨1, ?_⟩
    rw [mul_add w, pow_add]; ring
  · rw [nat_replicate_zero]; simp

theorem shr_signed {w : ℕ} (hw : 1 ≤ w) {a : List ℕ} (ha : Words w a) (hne : 1 ≤ a.length) (s : ℕ) :
    Words w (shr true w a s) ∧ (shr true w a s).length = a.length ∧ sval w (shr true w a s) = sval w a / 2 ^ s := by
  obtain ⟨h1, h2, h3⟩ := shr_spec hw ha true s (s / w + 2) le_rfl
  refine ⟨h1, h2, ?_⟩
  simp only [Bool.true_and] at h3
  obtain ⟨c, hc⟩ := nat_sign_ext hw ha hne (s / w + 2)
  generalize hX : nat w (a ++ List.replicate (s / w + 2) (if msb w a then 2 ^ w - 1 else 0)) = X at *
  have hb := pos_bits hw hne
  rw [sval, h2]
  obtain ⟨r1, r2⟩ := bmod_range hb (nat w a)
  have p : (0 : ℤ) < 2 ^ s := by positivity
  apply bmod_eq hb
  · rw [h3]
    push_cast
    have hs : s + w * a.length ≤ w * (a.length + (s / w + 2)) := by
      rw [mul_add, mul_add]
      have h1 := Nat.div_add_mod s w
      have h2 := Nat.mod_lt s (show 0 < w by omega)
      omega
    have e : (X : ℤ) = sval w a + 2 ^ s * (2 ^ (w * a.length) * (2 ^ (w * (a.length + (s / w + 2)) - (s + w * a.length)) * c)) := by
      rw [eq_add_of_sub_eq' hc]
      congr 1
      rw [← mul_assoc, ← mul_assoc, ← pow_add, ← pow_add]
      congr 2; omega
    rw [e, Int.add_mul_ediv_left _ _ p.ne']
    have hd := Int.emod_add_mul_ediv (sval w a / 2 ^ s + 2 ^ (w * a.length) * (2 ^ (w * (a.length + (s / w + 2)) - (s + w * a.length)) * c)) (2 ^ (w * a.length))
    rw [Int.dvd_iff_emod_eq_zero]
    apply Int.emod_eq_zero_of_dvd
    rw [show ∀ A B q : ℤ, A % q - B = (A - B) - q * (A / q) from fun A B q => by have := Int.emod_add_mul_ediv A q; linarith]
    refine dvd_sub ?_ (dvd_mul_right _ _)
    rw [add_sub_cancel_left]
    exact dvd_mul_right _ _
  · rw [Int.le_ediv_iff_mul_le p]
    have : (1 : ℤ) ≤ 2 ^ s := by exact_mod_cast Nat.two_pow_pos s
    have q : (0 : ℤ) < 2 ^ (w * a.length - 1) := by positivity
    nlinarith
  · rw [Int.ediv_lt_iff_lt_mul p]
    have : (1 : ℤ) ≤ 2 ^ s := by exact_mod_cast Nat.two_pow_pos s
    have q : (0 : ℤ) < 2 ^ (w * a.length - 1) := by positivity
    nlinarith

/-! ### bitwise operations -/

theorem zipWith_spec {w : ℕ} (op : ℕ → ℕ → ℕ) (bop : Bool → Bool → Bool) (hop : ∀ x y i, (op x y).testBit i = bop (x.testBit i) (y.testBit i))
    (h00 : bop false false = false) (hlt : ∀ x y, x < 2 ^ w → y < 2 ^ w → op x y < 2 ^ w)
    {a b : List ℕ} (ha : Words w a) (hb : Words w b) (hl : a.length = b.length) :
    Words w (List.zipWith op a b) ∧ (List.zipWith op a b).length = a.length ∧ nat w (List.zipWith op a b) = op (nat w a) (nat w b) := by
  induction a generalizing b with
  | nil =>
    obtain rfl : b = [] := List.length_eq_zero_iff.1 hl.symm
    refine ⟨words_nil w, rfl, ?_⟩
    apply Nat.eq_of_testBit_eq; intro i
    rw [hop]; simp [h00]
  | cons d a ih =>
    cases b with
    | nil => simp at hl
    | cons e b =>
      obtain ⟨i1, i2, i3⟩ := ih ha.tail hb.tail (by simpa using hl)
      have hd := hlt d e ha.head hb.head
      refine ⟨words_cons hd i1, by simp [i2], ?_⟩
      rw [List.zipWith_cons_cons, nat_cons, i3, nat_cons, nat_cons]
      apply Nat.eq_of_testBit_eq; intro i
      rw [hop, add_comm, Nat.testBit_two_pow_mul_add _ hd, add_comm d, Nat.testBit_two_pow_mul_add _ ha.head, add_comm e, Nat.testBit_two_pow_mul_add _ hb.head]
      split_ifs
      · exact hop _ _ _
      · exact hop _ _ _

theorem band_spec {w : ℕ} {a b : List ℕ} (ha : Words w a) (hb : Words w b) (hl : a.length = b.length) :
    Words w (band a b) ∧ (band a b).length = a.length ∧ nat w (band a b) = nat w a &&& nat w b :=
  zipWith_spec _ (· && ·) (fun x y i => Nat.testBit_and x y i) rfl (fun _ _ _ hy => Nat.and_lt_two_pow _ hy) ha hb hl
theorem bor_spec {w : ℕ} {a b : List ℕ} (ha : Words w a) (hb : Words w b) (hl : a.length = b.length) :
    Words w (bor a b) ∧ (bor a b).length = a.length ∧ nat w (bor a b) = nat w a ||| nat w b :=
  zipWith_spec _ (· || ·) (fun x y i => Nat.testBit_or x y i) rfl (fun _ _ hx hy => Nat.or_lt_two_pow hx hy) ha hb hl
theorem bxor_spec {w : ℕ} {a b : List ℕ} (ha : Words w a) (hb : Words w b) (hl : a.length = b.length) :
    Words w (bxor a b) ∧ (bxor a b).length = a.length ∧ nat w (bxor a b) = nat w a ^^^ nat w b :=
  zipWith_spec _ (fun p q => Bool.xor p q) (fun x y i => Nat.testBit_xor x y i) rfl (fun _ _ hx hy => Nat.xor_lt_two_pow hx hy) ha hb hl

theorem bnot_spec {w : ℕ} {a : List ℕ} (ha : Words w a) :
    Words w (bnot w a) ∧ (bnot w a).length = a.length ∧ nat w (bnot w a) + nat w a + 1 = 2 ^ (w * a.length) := by
  induction a with
  | nil => simp [bnot, words_nil]
  | cons d a ih =>
    obtain ⟨i1, i2, i3⟩ := ih ha.tail
    have hd := ha.head
    have hd' : 2 ^ w - 1 - d < 2 ^ w := by omega
    refine ⟨words_cons hd' i1, by simp [bnot], ?_⟩
    change nat w ((2 ^ w - 1 - d) :: bnot w a) + _ + 1 = _
    rw [nat_cons, nat_cons, List.length_cons, Nat.mul_succ, pow_add, ← i3]
    have e : 2 ^ w - 1 - d + d + 1 = 2 ^ w := by omega
    calc _ = (2 ^ w - 1 - d + d + 1) + 2 ^ w * (nat w (bnot w a) + nat w a) := by ring
      _ = _ := by rw [e]; ring

theorem eqB_iff {a b : List ℕ} (hl : a.length = b.length) : eqB a b = true ↔ a = b := by
  induction a generalizing b with
  | nil => cases b <;> simp_all [eqB]
  | cons d a ih =>
    cases b with
    | nil => simp at hl
    | cons e b =>
      rw [eqB]
      have := ih (b := b) (by simpa using hl)
      by_cases h : d = e <;> simp [h, this]

theorem isZero_iff {w : ℕ} {a : List ℕ} : isZero a = true ↔ nat w a = 0 := by
  induction a with
  | nil => simp [isZero]
  | cons d a ih =>
    rw [isZero, nat_cons]
    have := Nat.two_pow_pos w
    by_cases h : d = 0
    · simp [h, ih]
    · simp [h]

theorem nat_snoc (w : ℕ) (l : List ℕ) (d : ℕ) : nat w (l ++ [d]) = nat w l + 2 ^ (w * l.length) * d := by
  rw [nat_append, nat_cons, nat_nil, mul_zero, add_zero]

theorem cmpAux_spec {w : ℕ} {l m : List ℕ} (hl : Words w l) (hm : Words w m) (h : l.length = m.length) :
    cmpAux l m = if nat w l.reverse < nat w m.reverse then -1 else if nat w l.reverse = nat w m.reverse then 0 else 1 := by
  induction l generalizing m with
  | nil =>
    obtain rfl : m = [] := List.length_eq_zero_iff.1 h.symm
    simp [cmpAux]
  | cons d l ih =>
    cases m with
    | nil => simp at h
    | cons e m =>
      have h' : l.length = m.length := by simpa using h
      rw [cmpAux, List.reverse_cons, List.reverse_cons, nat_snoc, nat_snoc, ih hl.tail hm.tail h']
      have b1 : nat w l.reverse < 2 ^ (w * m.length) := by
        have := nat_lt (w := w) (a := l.reverse) (fun x hx => hl.tail x (List.mem_reverse.1 hx))
        rw [List.length_reverse, h'] at this; exact this
      have b2 : nat w m.reverse < 2 ^ (w * m.length) := by
        have := nat_lt (w := w) (a := m.reverse) (fun x hx => hm.tail x (List.mem_reverse.1 hx))
        rw [List.length_reverse] at this; exact this
      simp only [List.length_reverse, h']
      generalize 2 ^ (w * m.length) = B at *
      rcases lt_trichotomy d e with hde | hde | hde
      · have := Nat.mul_le_mul_left B (show d + 1 ≤ e from hde)
        rw [mul_add, mul_one] at this
        rw [if_neg (by omega), if_neg (by omega), if_pos (by omega)]
      · subst hde
        rw [if_neg (lt_irrefl _), if_pos rfl]
        simp only [add_lt_add_iff_right, add_left_inj]
      · have := Nat.mul_le_mul_left B (show e + 1 ≤ d from hde)
        rw [mul_add, mul_one] at this
        rw [if_pos hde, if_neg (by omega), if_neg (by omega)]

theorem words_reverse {w : ℕ} {a : List ℕ} (ha : Words w a) : Words w a.reverse := fun x hx => ha x (List.mem_reverse.1 hx)

theorem cmp_unsigned {w : ℕ} {a b : List ℕ} (ha : Words w a) (hb : Words w b) (h : a.length = b.length) :
    cmp false w a b = if nat w a < nat w b then -1 else if nat w a = nat w b then 0 else 1 := by
  unfold cmp
  simp only [Bool.false_and, Bool.false_eq_true, if_false]
  rw [cmpAux_spec (words_reverse ha) (words_reverse hb) (by simpa using h), List.reverse_reverse, List.reverse_reverse]

theorem cmp_signed {w : ℕ} (hw : 1 ≤ w) {a b : List ℕ} (ha : Words w a) (hb : Words w b) (h : a.length = b.length) (hne : 1 ≤ a.length) :
    cmp true w a b = if sval w a < sval w b then -1 else if sval w a = sval w b then 0 else 1 := by
  have ea := sval_eq hw ha hne
  have eb := sval_eq hw hb (by omega)
  have la : (nat w a : ℤ) < 2 ^ (w * a.length) := by exact_mod_cast nat_lt ha
  have lb : (nat w b : ℤ) < 2 ^ (w * a.length) := by rw [h]; exact_mod_cast nat_lt hb
  rw [← h] at eb
  have hc : cmpAux a.reverse b.reverse = if nat w a < nat w b then -1 else if nat w a = nat w b then 0 else 1 := by
    rw [cmpAux_spec (words_reverse ha) (words_reverse hb) (by simpa using h), List.reverse_reverse, List.reverse_reverse]
  unfold cmp isNeg
  simp only [Bool.true_and]
  rw [hc]
  generalize (2 : ℤ) ^ (w * a.length) = B at *
  generalize sval w a = x at *
  generalize sval w b = y at *
  generalize nat w a = m at *
  generalize nat w b = n at *
  cases hma : msb w a <;> cases hmb : msb w b <;>
    simp only [hma, hmb, bne_self_eq_false, Bool.false_eq_true, if_false, if_true, Bool.bne_true, Bool.not_false, Bool.bne_false] at ea eb ⊢ <;>
    split_ifs <;> omega

end BI
end Verif
