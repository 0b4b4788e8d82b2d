import Verif.Model.IntLiterals
import Verif.Lemmas.BigInt5
import Mathlib.Data.Nat.Digits.Defs
import Mathlib.Data.Nat.Digits.Lemmas

/-! Lemmas for `Verif/Props/IntLiterals.lean` -/

namespace Verif
namespace BI

/-! ### digits -/

/-- the number written by the digits `ds`, most significant first -/
def horner (base : ℕ) (ds : List ℕ) : ℕ := ds.foldl (fun v d => v * base + d) 0

theorem horner_eq (base : ℕ) (ds : List ℕ) : horner base ds = Nat.ofDigits base ds.reverse := by
  unfold horner
  induction ds using List.reverseRecOn with
  | nil => simp
  | append_singleton l d ih => rw [List.foldl_append, ih]; simp [Nat.ofDigits_cons]; ring

theorem horner_append (base : ℕ) (a b : List ℕ) : horner base (a ++ b) = horner base a * base ^ b.length + horner base b := by
  rw [horner_eq, horner_eq, horner_eq, List.reverse_append, Nat.ofDigits_append]; simp; ring

theorem accumulate_eq (bits base : ℕ) (ds : List ℕ) : accumulate bits base ds = horner base ds % 2 ^ bits := by
  unfold accumulate horner
  induction ds using List.reverseRecOn with
  | nil => simp
  | append_singleton l d ih =>
    rw [List.foldl_append, List.foldl_append, ih]
    simp only [List.foldl_cons, List.foldl_nil]
    rw [← Nat.mul_mod, Nat.mod_add_mod]

theorem accumulateBig_spec (wide : Bool) {w N base : ℕ} (hw : 1 ≤ w) (he : wide = false → w % 2 = 0) (hN : 1 ≤ N) (hM : N < 2 ^ w) (hb : base < 2 ^ 31)
    (ds : List ℕ) (hd : ∀ d ∈ ds, d < 256) :
    Words w (accumulateBig wide w N base ds) ∧ (accumulateBig wide w N base ds).length = N ∧
      nat w (accumulateBig wide w N base ds) = horner base ds % 2 ^ (w * N) := by
  unfold accumulateBig horner
  induction ds using List.reverseRecOn with
  | nil => exact ⟨words_replicate (Nat.two_pow_pos w), by simp, by simp [nat_replicate_zero]⟩
  | append_singleton l d ih =>
    obtain ⟨i1, i2, i3⟩ := ih fun x hx => hd x (by simp [hx])
    have hd' : d < 256 := hd d (by simp)
    rw [List.foldl_append, List.foldl_append]
    simp only [List.foldl_cons, List.foldl_nil]
    generalize hv : List.foldl (fun v (d : ℕ) => add w (mul wide false w v (ofInt w 32 N base)) (ofInt w 8 N d)) (List.replicate N 0) l = v at i1 i2 i3 ⊢
    obtain ⟨b1, b2, b3⟩ := ofInt_spec (w := w) (tbits := 32) N (base : ℤ) (by norm_num) (by omega) (by norm_num; omega)
    obtain ⟨d1, d2, d3⟩ := ofInt_spec (w := w) (tbits := 8) N (d : ℤ) (by norm_num) (by omega) (by norm_num; omega)
    obtain ⟨m1, m2, m3⟩ := mul_nat wide false hw he i1 b1 (by omega) (by omega)
    rw [i2] at m2 m3
    obtain ⟨a1, a2, a3⟩ := add_nat hw m1 d1 (by omega)
    rw [m2] at a2 a3
    refine ⟨a1, a2, ?_⟩
    have b4 : nat w (ofInt w 32 N base) = base % 2 ^ (w * N) := by exact_mod_cast b3
    have d4 : nat w (ofInt w 8 N d) = d % 2 ^ (w * N) := by exact_mod_cast d3
    rw [a3, m3, b4, d4, i3, ← Nat.mul_mod, ← Nat.add_mod]

theorem chunkWords_spec {w base : ℕ} (hw : 1 ≤ w) (hbd : 1 ≤ bitsPerDigit base) (hb : base = 2 ^ bitsPerDigit base) (hdiv : bitsPerDigit base ∣ w) :
    ∀ (N : ℕ) (ds : List ℕ), (∀ d ∈ ds, d < base) →
    Words w (chunkWords w base N ds) ∧ (chunkWords w base N ds).length = N ∧ nat w (chunkWords w base N ds) = horner base ds % 2 ^ (w * N)
  | 0, ds, _ => ⟨words_nil w, rfl, by simp [chunkWords, Nat.mod_one]⟩
  | N + 1, ds, hd => by
    have hk : 1 ≤ w / bitsPerDigit base := Nat.div_pos (Nat.le_of_dvd (by omega) hdiv) hbd
    have hpow : base ^ (w / bitsPerDigit base) = 2 ^ w := by
      have e : base ^ (w / bitsPerDigit base) = (2 ^ bitsPerDigit base) ^ (w / bitsPerDigit base) := by rw [← hb]
      rw [e, ← pow_mul, Nat.mul_div_cancel' hdiv]
    have key : ∀ l : List ℕ, (∀ d ∈ l, d < base) → horner base l < base ^ l.length := by
      intro l hl
      rw [horner_eq]
      have := Nat.ofDigits_lt_base_pow_length' (b := base - 2) (l := l.reverse) (by
        intro x hx
        have h2 : 2 ≤ base := by rw [hb]; calc 2 = 2 ^ 1 := rfl
                                   _ ≤ _ := Nat.pow_le_pow_right (by norm_num) hbd
        have := hl x (List.mem_reverse.1 hx); omega)
      have h2 : 2 ≤ base := by rw [hb]; calc 2 = 2 ^ 1 := rfl
                                 _ ≤ _ := Nat.pow_le_pow_right (by norm_num) hbd
      rw [show base - 2 + 2 = base by omega] at this
      simpa using this
    rw [chunkWords]
    by_cases hl : ds.length > w / bitsPerDigit base
    · rw [if_pos hl]
      obtain ⟨i1, i2, i3⟩ := chunkWords_spec hw hbd hb hdiv N (ds.take (ds.length - w / bitsPerDigit base)) fun d h => hd d (List.mem_of_mem_take h)
      have hlen : (ds.drop (ds.length - w / bitsPerDigit base)).length = w / bitsPerDigit base := by rw [List.length_drop]; omega
      have hlo : horner base (ds.drop (ds.length - w / bitsPerDigit base)) < 2 ^ w := by
        have := key (ds.drop (ds.length - w / bitsPerDigit base)) fun d h => hd d (List.mem_of_mem_drop h)
        rwa [hlen, hpow] at this
      have hsplit := horner_append base (ds.take (ds.length - w / bitsPerDigit base)) (ds.drop (ds.length - w / bitsPerDigit base))
      rw [List.take_append_drop, hlen, hpow] at hsplit
      refine ⟨words_cons ?_ i1, by rw [List.length_cons, i2], ?_⟩
      · rw [accumulate_eq]; exact Nat.mod_lt _ (Nat.two_pow_pos w)
      · rw [nat_cons, i3, accumulate_eq, Nat.mod_eq_of_lt hlo, hsplit, Nat.mul_succ, add_comm (w * N) w, pow_add, Nat.mod_mul, add_comm (_ * 2 ^ w) (horner _ _)]
        rw [Nat.add_mul_mod_self_right, Nat.mod_eq_of_lt hlo, Nat.add_mul_div_right _ _ (Nat.two_pow_pos w), Nat.div_eq_of_lt hlo, zero_add]
    · rw [if_neg hl, Nat.sub_self]
      obtain ⟨i1, i2, i3⟩ := chunkWords_spec hw hbd hb hdiv N [] (by simp)
      have hlo : horner base ds < 2 ^ w := by
        refine lt_of_lt_of_le (key ds hd) ?_
        rw [← hpow]
        exact Nat.pow_le_pow_right (by rw [hb]; exact Nat.two_pow_pos _) (by omega)
      simp only [List.take_zero, List.drop_zero]
      refine ⟨words_cons ?_ i1, by rw [List.length_cons, i2], ?_⟩
      · rw [accumulate_eq]; exact Nat.mod_lt _ (Nat.two_pow_pos w)
      · rw [nat_cons, i3, accumulate_eq, Nat.mod_eq_of_lt hlo]
        have : horner base ds < 2 ^ (w * (N + 1)) := lt_of_lt_of_le hlo (Nat.pow_le_pow_right (by norm_num) (by nlinarith))
        rw [Nat.mod_eq_of_lt this]; simp [horner]

/-! ### characters -/

/-- the digits of the characters -/
theorem digitBuffer_spec (base bits : ℕ) (str : List Char) (ds : List ℕ) (hlen : ds.length ≤ bits / bitsPerDigit base) (hd : ∀ d ∈ ds, d ≠ 255)
    (h : (str.filter (· ≠ '\'')).map (digitValue base) = ds) : digitBuffer base bits str = some ds := by
  unfold digitBuffer
  suffices H : ∀ (s : List Char) (acc : List ℕ), (acc ++ (s.filter (· ≠ '\'')).map (digitValue base)).length ≤ bits / bitsPerDigit base →
      (∀ d ∈ (s.filter (· ≠ '\'')).map (digitValue base), d ≠ 255) →
      s.foldlM (pushDigit base (bits / bitsPerDigit base)) acc = some (acc ++ (s.filter (· ≠ '\'')).map (digitValue base)) by
    have := H str [] (by rw [List.nil_append, h]; exact hlen) (by rw [h]; exact hd)
    rwa [List.nil_append, h] at this
  intro s
  induction s with
  | nil => intro acc _ _; simp
  | cons c s ih =>
    intro acc hl hd
    rw [List.foldlM_cons]
    by_cases hc : c = '\''
    · subst hc
      have e : List.filter (fun x => decide (x ≠ '\'')) ('\'' :: s) = List.filter (fun x => decide (x ≠ '\'')) s := by simp
      rw [e] at hl hd ⊢
      rw [pushDigit, if_pos rfl]
      exact ih acc hl hd
    · have e : List.filter (fun x => decide (x ≠ '\'')) (c :: s) = c :: List.filter (fun x => decide (x ≠ '\'')) s := by simp [hc]
      rw [e, List.map_cons] at hl hd ⊢
      have hv : digitValue base c ≠ 255 := hd _ List.mem_cons_self
      rw [pushDigit, if_neg hc, if_neg (by
        rw [not_or]; refine ⟨hv, ?_⟩
        simp only [List.length_append, List.length_cons] at hl; omega)]
      have := ih (acc ++ [digitValue base c]) (by simpa using hl) (fun d h => hd d (List.mem_cons_of_mem _ h))
      simpa using this

theorem digitValue_digitChar {base d : ℕ} (hb : base = 2 ∨ base = 10 ∨ base = 16) (hd : d < base) : digitValue base (Nat.digitChar d) = d := by
  rcases hb with rfl | rfl | rfl
  · revert d; decide +kernel
  · revert d; decide +kernel
  · revert d; decide +kernel

theorem digitValue_upper {base d : ℕ} (hb : base = 2 ∨ base = 10 ∨ base = 16) (hd : d < base) : digitValue base (Nat.digitChar d).toUpper = d := by
  rcases hb with rfl | rfl | rfl
  · revert d; decide +kernel
  · revert d; decide +kernel
  · revert d; decide +kernel

/-- the printed digits of a number -/
theorem toDigits_spec {b : ℕ} (hb : 1 < b) (n : ℕ) :
    ∃ ds : List ℕ, Nat.toDigits b n = ds.map Nat.digitChar ∧ (∀ d ∈ ds, d < b) ∧ Nat.ofDigits b ds.reverse = n := by
  induction n using Nat.strong_induction_on with
  | _ n ih =>
    by_cases h : n < b
    · exact ⟨[n], by rw [Nat.toDigits_of_lt_base h]; rfl, by simpa using h, by simp⟩
    · obtain ⟨ds, h1, h2, h3⟩ := ih (n / b) (Nat.div_lt_self (by omega) hb)
      refine ⟨ds ++ [n % b], by rw [Nat.toDigits_of_base_le hb (by omega), h1]; simp, ?_, ?_⟩
      · intro d hd
        rcases List.mem_append.1 hd with h' | h'
        · exact h2 d h'
        · rw [List.mem_singleton.1 h']; exact Nat.mod_lt _ (by omega)
      · rw [List.reverse_append, List.reverse_singleton, List.singleton_append, Nat.ofDigits_cons, h3]
        exact Nat.mod_add_div n b

theorem digitChar_ne_quote {b d : ℕ} (hb : b ≤ 16) (hd : d < b) : Nat.digitChar d ≠ '\'' := by
  have : d < 16 := by omega
  clear hd
  revert d; decide +kernel

theorem two_pow_le_ten_pow {bits : ℕ} (h : 21 ≤ bits) : 2 ^ bits ≤ 10 ^ (bits / 3) := by
  obtain ⟨q, hq⟩ : ∃ q, bits / 3 = q + 7 := ⟨bits / 3 - 7, by omega⟩
  rw [hq]
  have hb : bits ≤ 3 * (q + 7) + 2 := by omega
  calc 2 ^ bits ≤ 2 ^ (3 * (q + 7) + 2) := Nat.pow_le_pow_right (by norm_num) hb
    _ = 8 ^ q * (8 ^ 7 * 4) := by rw [show 3 * (q + 7) + 2 = 3 * q + 23 by ring, pow_add, pow_mul]; norm_num
    _ ≤ 10 ^ q * 10 ^ 7 := Nat.mul_le_mul (Nat.pow_le_pow_left (by norm_num) q) (by norm_num)
    _ = 10 ^ (q + 7) := (pow_add _ _ _).symm

/-! ### conversions -/

theorem or_shift {cur d k m w : ℕ} (hc : cur < 2 ^ k) (hd : d < 2 ^ m) (h : k + m ≤ w) :
    cur ||| (d <<< k) % 2 ^ w = cur + 2 ^ k * d ∧ cur + 2 ^ k * d < 2 ^ (k + m) := by
  have h1 : cur + 2 ^ k * d < 2 ^ (k + m) := by
    have : 2 ^ k * (d + 1) ≤ 2 ^ k * 2 ^ m := Nat.mul_le_mul_left _ hd
    rw [pow_add]; nlinarith
  refine ⟨?_, h1⟩
  rw [Nat.shiftLeft_eq, mul_comm d, Nat.mod_eq_of_lt, Nat.or_comm, ← Nat.two_pow_add_eq_or_of_lt hc, add_comm]
  exact lt_of_le_of_lt (Nat.le_add_left _ _) (lt_of_lt_of_le h1 (Nat.pow_le_pow_right (by norm_num) h))

theorem nat_take_succ {w : ℕ} (a : List ℕ) (i : ℕ) (hi : i < a.length) : nat w (a.take (i + 1)) = nat w (a.take i) + 2 ^ (w * i) * a.getD i 0 := by
  rw [List.take_succ_eq_append_getElem hi, nat_snoc, List.length_take, min_eq_left hi.le, List.getD_eq_getElem?_getD, List.getElem?_eq_getElem hi]; rfl

theorem packStep_spec {w ow r : ℕ} (hr : 1 ≤ r) (hwr : w = ow * r) {a : List ℕ} (ha : Words ow a) (n : ℕ) (hn : n ≤ a.length) :
    let p := (List.range n).foldl (packStep w ow r a) ([], 0)
    p.1.length = n / r ∧ Words w p.1 ∧ p.2 < 2 ^ (ow * (n % r)) ∧ nat w p.1 + 2 ^ (w * (n / r)) * p.2 = nat ow (a.take n) := by
  refine foldl_range_inv (packStep w ow r a)
    (fun n p => p.1.length = n / r ∧ Words w p.1 ∧ p.2 < 2 ^ (ow * (n % r)) ∧ nat w p.1 + 2 ^ (w * (n / r)) * p.2 = nat ow (a.take n))
    ([], 0) ⟨by simp, words_nil w, by simp, by simp⟩ n ?_
  rintro i hi ⟨l, cur⟩ ⟨h1, h2, h3, h4⟩
  simp only at h1 h2 h3 h4 ⊢
  have hmod : i % r < r := Nat.mod_lt _ (by omega)
  have hle : ow * (i % r) + ow ≤ w := by
    rw [hwr]
    calc ow * (i % r) + ow = ow * (i % r + 1) := by ring
      _ ≤ ow * r := Nat.mul_le_mul_left _ hmod
  obtain ⟨e1, e2⟩ := or_shift h3 (getD_lt ha i) hle
  have hdm : r * (i / r) + i % r = i := Nat.div_add_mod i r
  have hval : nat w l + 2 ^ (w * (i / r)) * (cur + 2 ^ (ow * (i % r)) * a.getD i 0) = nat ow (a.take (i + 1)) := by
    rw [nat_take_succ a i (by omega), ← h4, mul_add, ← mul_assoc, ← pow_add, hwr, mul_assoc ow r, ← mul_add, hdm, add_assoc]
  unfold packStep
  simp only [e1]
  split_ifs with h
  · have hs : i + 1 = r * (i / r + 1) := by rw [mul_add]; omega
    have hdiv : (i + 1) / r = i / r + 1 := by rw [hs, Nat.mul_div_cancel_left _ (by omega)]
    have hmd : (i + 1) % r = 0 := by rw [hs, Nat.mul_mod_right]
    have hlt : cur + 2 ^ (ow * (i % r)) * a.getD i 0 < 2 ^ w := lt_of_lt_of_le e2 (Nat.pow_le_pow_right (by norm_num) hle)
    refine ⟨by simp [h1, hdiv], words_append h2 (words_cons hlt (words_nil w)), by simp, ?_⟩
    simp only
    rw [nat_snoc, h1, mul_zero, add_zero, hval]
  · have hdiv : (i + 1) / r = i / r := by
      rw [Nat.div_eq_of_lt_le]
      · nlinarith [mul_comm r (i / r), Nat.zero_le (i % r)]
      · have : i % r + 1 < r := by omega
        nlinarith [mul_comm r (i / r)]
    have hmd : (i + 1) % r = i % r + 1 := by
      have := Nat.div_add_mod (i + 1) r
      rw [hdiv] at this; omega
    refine ⟨by rw [h1, hdiv], h2, ?_, ?_⟩
    · rw [hmd, Nat.mul_succ]; exact e2
    · rw [hdiv]; exact hval

theorem packWord_spec {w ow r : ℕ} (hwr : w = ow * r) {a : List ℕ} (ha : Words ow a) (i : ℕ) (h : (i + 1) * r ≤ a.length) :
    packWord w ow r a i < 2 ^ w ∧ nat ow (a.take (i * r)) + 2 ^ (w * i) * packWord w ow r a i = nat ow (a.take ((i + 1) * r)) := by
  unfold packWord
  have := foldl_range_inv (fun cur j => cur ||| (a.getD (i * r + j) 0 <<< (ow * j)) % 2 ^ w)
    (fun j cur => j ≤ r → cur < 2 ^ (ow * j) ∧ nat ow (a.take (i * r)) + 2 ^ (w * i) * cur = nat ow (a.take (i * r + j))) 0 (by simp) r (by
      intro j hj cur hP hj'
      obtain ⟨p1, p2⟩ := hP hj.le
      have hle : ow * j + ow ≤ w := by rw [hwr, ← Nat.mul_succ]; exact Nat.mul_le_mul_left _ hj
      obtain ⟨e1, e2⟩ := or_shift p1 (getD_lt ha (i * r + j)) hle
      refine ⟨by rw [e1, Nat.mul_succ]; exact e2, ?_⟩
      rw [e1, ← add_assoc, nat_take_succ a _ (by rw [Nat.succ_mul] at h; omega), ← p2, hwr, show ow * (i * r + j) = ow * r * i + ow * j by ring, pow_add]
      ring) le_rfl
  rw [← hwr] at this
  refine ⟨this.1, ?_⟩
  rw [this.2]; congr 2; ring

theorem packMap_spec {w ow r : ℕ} (hwr : w = ow * r) {a : List ℕ} (ha : Words ow a) (N : ℕ) (h : N * r ≤ a.length) :
    Words w ((List.range N).map (packWord w ow r a)) ∧ nat w ((List.range N).map (packWord w ow r a)) = nat ow (a.take (N * r)) := by
  induction N with
  | zero => exact ⟨words_nil w, by simp⟩
  | succ N ih =>
    obtain ⟨i1, i2⟩ := ih (le_trans (Nat.mul_le_mul_right _ (by omega)) h)
    obtain ⟨p1, p2⟩ := packWord_spec hwr ha N h
    rw [List.range_succ, List.map_append, List.map_cons, List.map_nil]
    refine ⟨words_append i1 (words_cons p1 (words_nil w)), ?_⟩
    rw [nat_snoc, i2, List.length_map, List.length_range, p2]

theorem splitWord_nat {w : ℕ} (d r : ℕ) : nat w ((List.range r).map fun j => (d >>> (j * w)) % 2 ^ w) = d % 2 ^ (w * r) := by
  induction r with
  | zero => simp [Nat.mod_one]
  | succ r ih =>
    rw [List.range_succ, List.map_append, List.map_cons, List.map_nil, nat_snoc, ih, List.length_map, List.length_range, Nat.shiftRight_eq_div_pow,
      Nat.mul_succ, pow_add, Nat.mod_mul, mul_comm r w]

theorem splitWord_words {w : ℕ} (d r : ℕ) : Words w ((List.range r).map fun j => (d >>> (j * w)) % 2 ^ w) := by
  intro x hx
  obtain ⟨j, _, rfl⟩ := List.mem_map.1 hx
  exact Nat.mod_lt _ (Nat.two_pow_pos w)

theorem splitFlat_spec {w ow r : ℕ} (hwr : ow = w * r) {a : List ℕ} (ha : Words ow a) :
    Words w (a.flatMap fun d => (List.range r).map fun j => (d >>> (j * w)) % 2 ^ w) ∧
    (a.flatMap fun d => (List.range r).map fun j => (d >>> (j * w)) % 2 ^ w).length = a.length * r ∧
    nat w (a.flatMap fun d => (List.range r).map fun j => (d >>> (j * w)) % 2 ^ w) = nat ow a := by
  induction a with
  | nil => exact ⟨words_nil w, by simp, rfl⟩
  | cons d a ih =>
    obtain ⟨i1, i2, i3⟩ := ih ha.tail
    rw [List.flatMap_cons]
    refine ⟨words_append (splitWord_words d r) i1, ?_, ?_⟩
    · rw [List.length_append, i2, List.length_map, List.length_range, List.length_cons]; ring
    · rw [nat_append, i3, splitWord_nat, List.length_map, List.length_range, ← hwr, Nat.mod_eq_of_lt ha.head, nat_cons]

theorem splitTrunc_spec {w ow r : ℕ} (hw : 1 ≤ w) (hr : 1 ≤ r) (hwr : ow = w * r) {a : List ℕ} (ha : Words ow a) (N : ℕ) :
    Words w ((List.range N).map fun i => (a.getD (i / r) 0 >>> (i % r * w)) % 2 ^ w) ∧
    nat w ((List.range N).map fun i => (a.getD (i / r) 0 >>> (i % r * w)) % 2 ^ w) = nat ow a % 2 ^ (w * N) := by
  have hW : Words w ((List.range N).map fun i => (a.getD (i / r) 0 >>> (i % r * w)) % 2 ^ w) := by
    intro x hx
    obtain ⟨j, _, rfl⟩ := List.mem_map.1 hx
    exact Nat.mod_lt _ (Nat.two_pow_pos w)
  refine ⟨hW, ?_⟩
  have := nat_of_bits hw hW (nat ow a) (by
    intro k hk j hj
    rw [List.length_map, List.length_range] at hk
    rw [getD_map_range _ _ _ hk, Nat.testBit_mod_two_pow, Nat.testBit_shiftRight, testBit_nat (by rw [hwr]; exact Nat.mul_pos hw hr) ha]
    have hm : k % r < r := Nat.mod_lt _ (by omega)
    have hlt : k % r * w + j < ow := by
      rw [hwr]
      have : (k % r + 1) * w ≤ r * w := Nat.mul_le_mul_right _ hm
      nlinarith
    have e : w * k + j = ow * (k / r) + (k % r * w + j) := by
      conv_lhs => rw [← Nat.div_add_mod k r]
      rw [hwr]; ring
    rw [e, (mul_add_divmod hlt).1, (mul_add_divmod hlt).2]
    simp [hj])
  rwa [List.length_map, List.length_range] at this

theorem extendTo_spec {w N : ℕ} (neg : Bool) {a : List ℕ} (ha : Words w a) (h : a.length ≤ N) :
    Words w (extendTo w N neg a) ∧ (extendTo w N neg a).length = N ∧
      (nat w (extendTo w N neg a) : ℤ) = nat w a + (if neg then 2 ^ (w * N) - 2 ^ (w * a.length) else 0) := by
  have hfl : (if neg = true then 2 ^ w - 1 else 0) < 2 ^ w := by
    have := Nat.two_pow_pos w
    split_ifs <;> omega
  refine ⟨words_append ha (words_replicate hfl), by simp [extendTo]; omega, ?_⟩
  unfold extendTo
  rw [nat_append]
  cases neg
  · simp [nat_replicate_zero]
  · have h1 := nat_replicate_ones w (N - a.length)
    have e : (nat w (List.replicate (N - a.length) (2 ^ w - 1)) : ℤ) = 2 ^ (w * (N - a.length)) - 1 := by
      have : (nat w (List.replicate (N - a.length) (2 ^ w - 1)) : ℤ) + 1 = 2 ^ (w * (N - a.length)) := by exact_mod_cast h1
      linarith
    simp only [if_true]
    rw [Nat.cast_add, Nat.cast_mul, e, Nat.cast_pow, Nat.cast_two, mul_sub, ← pow_add, ← mul_add, Nat.add_sub_cancel' h, mul_one]

/-- the sign extension mask of a partial word -/
theorem or_mask {cur k w : ℕ} (hc : cur < 2 ^ k) (hk : k ≤ w) : cur ||| ((2 ^ w - 1) <<< k) % 2 ^ w = cur + (2 ^ w - 2 ^ k) ∧ cur + (2 ^ w - 2 ^ k) < 2 ^ w := by
  have h1 : 2 ^ w = 2 ^ k * 2 ^ (w - k) := by rw [← pow_add]; congr 1; omega
  have h2 : 1 ≤ 2 ^ (w - k) := Nat.two_pow_pos _
  have e : ((2 ^ w - 1) <<< k) % 2 ^ w = 2 ^ k * (2 ^ (w - k) - 1) := by
    have h4 : 2 ^ k ≤ 2 ^ w := Nat.pow_le_pow_right (by norm_num) hk
    have h5 : 1 ≤ 2 ^ k := Nat.two_pow_pos _
    have h3 : (2 ^ w - 1) * 2 ^ k = 2 ^ k * (2 ^ (w - k) - 1) + 2 ^ w * (2 ^ k - 1) := by
      zify [h2, h5, h4.trans' h5]
      have : (2 : ℤ) ^ w = 2 ^ k * 2 ^ (w - k) := by exact_mod_cast h1
      linear_combination 1 * this
    rw [Nat.shiftLeft_eq, h3, Nat.add_mul_mod_self_left, Nat.mod_eq_of_lt]
    rw [h1]; exact Nat.mul_lt_mul_of_pos_left (by omega) h5
  have e' : 2 ^ w - 2 ^ k = 2 ^ k * (2 ^ (w - k) - 1) := by rw [h1, Nat.mul_sub, mul_one]
  have h6 : 2 ^ k ≤ 2 ^ w := Nat.pow_le_pow_right (by norm_num) hk
  refine ⟨?_, by omega⟩
  rw [e, e', Nat.or_comm, ← Nat.two_pow_add_eq_or_of_lt hc, add_comm]

theorem sval_nonneg_nat {w : ℕ} (hw : 1 ≤ w) {a : List ℕ} (ha : Words w a) (hne : 1 ≤ a.length) (h : 0 ≤ sval w a) : msb w a = false ∧ sval w a = nat w a := by
  have h1 := sval_neg_iff hw ha hne
  have h2 := sval_eq hw ha hne
  cases hm : msb w a
  · rw [hm] at h2; exact ⟨rfl, by simpa using h2⟩
  · have := h1.1 hm; omega

theorem sval_neg_nat {w : ℕ} (hw : 1 ≤ w) {a : List ℕ} (ha : Words w a) (hne : 1 ≤ a.length) (h : sval w a < 0) :
    msb w a = true ∧ sval w a = nat w a - 2 ^ (w * a.length) := by
  have h2 := sval_eq hw ha hne
  have hm := (sval_neg_iff hw ha hne).2 h
  rw [hm] at h2
  exact ⟨hm, by simpa using h2⟩

/-- a value of a short number is a value of a longer one -/
theorem sval_transfer {w ow : ℕ} {a b : List ℕ} (h1 : 1 ≤ ow * a.length) (hlt : ow * a.length ≤ w * b.length)
    (h : (2 : ℤ) ^ (w * b.length) ∣ (nat w b : ℤ) - sval ow a) : sval w b = sval ow a := by
  obtain ⟨r1, r2⟩ := bmod_range h1 (nat ow a : ℤ)
  have hp : (2 : ℤ) ^ (ow * a.length - 1) ≤ 2 ^ (w * b.length - 1) := pow_le_pow_right₀ (by norm_num) (by omega)
  exact bmod_eq (by omega) h (by unfold sval; linarith) (by unfold sval; linarith)

/-- l.633-651, all cases -/
theorem convUp_ext_spec (signed otherSigned : Bool) {ow r : ℕ} (how : 1 ≤ ow) (hr : 1 ≤ r) (N : ℕ) {a : List ℕ} (ha : Words ow a) (h : ow * a.length < ow * r * N) :
    let res := convUp signed otherSigned (ow * r) N ow a
    let neg := signed && isNeg otherSigned ow a
    Words (ow * r) res ∧ res.length = N ∧
      (nat (ow * r) res : ℤ) = nat ow a + (if neg then 2 ^ (ow * r * N) - (if a.length % r = 0 then 2 ^ (ow * a.length + ow * r) else 2 ^ (ow * a.length)) else 0) := by
  intro res neg
  obtain ⟨p1, p2, p3, p4⟩ := packStep_spec (w := ow * r) hr rfl ha a.length le_rfl
  rw [List.take_length] at p4
  have hres : res = convUp signed otherSigned (ow * r) N ow a := rfl
  clear_value res
  unfold convUp at hres
  simp only at hres
  rw [if_neg (by omega), Nat.mul_div_cancel_left _ (show 0 < ow by omega)] at hres
  generalize (List.range a.length).foldl (packStep (ow * r) ow r a) ([], 0) = p at hres p1 p2 p3 p4
  have hmod : a.length % r < r := Nat.mod_lt _ (by omega)
  have hk : ow * (a.length % r) + ow ≤ ow * r := by rw [← Nat.mul_succ]; exact Nat.mul_le_mul_left _ hmod
  have hdm : r * (a.length / r) + a.length % r = a.length := Nat.div_add_mod _ _
  have hq : a.length / r < N := by
    rw [mul_assoc] at h
    exact Nat.div_lt_of_lt_mul (Nat.lt_of_mul_lt_mul_left h)
  have hp2 : p.2 < 2 ^ (ow * r) := lt_of_lt_of_le p3 (Nat.pow_le_pow_right (by norm_num) (by omega))
  have hexp : ow * r * (a.length / r) + ow * (a.length % r) = ow * a.length := by rw [mul_assoc, ← mul_add, hdm]
  have key : ∀ cur : ℕ, cur < 2 ^ (ow * r) → Words (ow * r) (p.1 ++ [cur]) ∧ (p.1 ++ [cur]).length = a.length / r + 1 ∧
      (nat (ow * r) (p.1 ++ [cur]) : ℤ) = nat ow a + 2 ^ (ow * r * (a.length / r)) * ((cur : ℤ) - p.2) := by
    intro cur hc
    refine ⟨words_append p2 (words_cons hc (words_nil _)), by simp [p1], ?_⟩
    rw [nat_snoc, p1, ← p4]; push_cast; ring
  have hneg : neg = (signed && isNeg otherSigned ow a) := rfl
  rw [← hneg] at hres
  clear_value neg
  rw [hres]
  cases neg
  · have hcur : (if a.length % r ≠ 0 then p.2 ||| ((if false = true then 2 ^ (ow * r) - 1 else 0) <<< (ow * (a.length % r))) % 2 ^ (ow * r) else p.2) = p.2 := by simp
    rw [hcur]
    obtain ⟨k1, k2, k3⟩ := key p.2 hp2
    obtain ⟨e1, e2, e3⟩ := extendTo_spec (N := N) false k1 (by omega)
    refine ⟨e1, e2, ?_⟩
    rw [e3, k3]; simp
  · simp only [if_true]
    by_cases hm : a.length % r = 0
    · rw [if_neg (by simpa using hm), if_pos hm]
      obtain ⟨k1, k2, k3⟩ := key p.2 hp2
      obtain ⟨e1, e2, e3⟩ := extendTo_spec (N := N) true k1 (by omega)
      refine ⟨e1, e2, ?_⟩
      rw [e3, k3, k2]
      simp only [if_true, sub_self, mul_zero, add_zero]
      rw [hm, mul_zero, add_zero] at hexp
      rw [mul_add, hexp, mul_one]
    · rw [if_pos hm, if_neg hm]
      obtain ⟨m1, m2⟩ := or_mask (cur := p.2) (k := ow * (a.length % r)) (w := ow * r) p3 (by omega)
      rw [m1]
      obtain ⟨k1, k2, k3⟩ := key _ m2
      obtain ⟨e1, e2, e3⟩ := extendTo_spec (N := N) true k1 (by omega)
      refine ⟨e1, e2, ?_⟩
      rw [e3, k3, k2]
      simp only [if_true]
      have h6 : 2 ^ (ow * (a.length % r)) ≤ 2 ^ (ow * r) := Nat.pow_le_pow_right (by norm_num) (by omega)
      push_cast [h6]
      rw [← hexp, mul_add (ow * r), mul_one, pow_add, pow_add]
      ring

end BI
end Verif
