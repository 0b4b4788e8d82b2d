import Verif.Lemmas.Dyadic2

/-!
# Lemmas on dyadic floats: rounding to `Bits` bits, addition
-/

namespace Verif
open Fmt

/-- `k` is the real number `x` rounded to an integer in mode `md` -/
def IntRound (md : Mode) (x : ℝ) (k : ℤ) : Prop :=
  match md with
  | .nearest => |x - k| ≤ 1 / 2 ∧ (|x - k| = 1 / 2 → k % 2 = 0)
  | .zero => k = if 0 ≤ x then ⌊x⌋ else ⌈x⌉
  | .down => k = ⌊x⌋
  | .up => k = ⌈x⌉

namespace CC

/-- integer with sign -/
def sgi (s : Bool) (n : ℕ) : ℤ := if s then -(n : ℤ) else n

theorem sgi_cast (s : Bool) (n : ℕ) : ((sgi s n : ℤ) : ℝ) = sg s * n := by cases s <;> simp [sgi, sg]

theorem intRound_bits {md : Mode} {s : Bool} {w : ℝ} {q : ℕ} {rb st : Bool} (h : RBits w q rb st) (hw : 0 < w) :
    IntRound md (sg s * w) (sgi s (q + if roundIncrement md s rb st (decide (q % 2 = 1)) then 1 else 0)) := by
  have hlo := h.lo
  have hhi := h.hi
  have hex := h.exact_iff
  have hfl : ⌊w⌋ = (q : ℤ) := by rw [Int.floor_eq_iff]; exact ⟨by exact_mod_cast hlo, by exact_mod_cast hhi⟩
  have hce : ⌈w⌉ = (q : ℤ) + (if (rb || st) then 1 else 0) := by
    by_cases hx : (rb || st) = false
    · rw [hx, hex.1 hx]; simp
    · have hx1 : (rb || st) = true := Bool.eq_true_of_not_eq_false hx
      rw [hx1, Int.ceil_eq_iff]
      have : w ≠ q := fun hc => hx (hex.2 hc)
      have : (q : ℝ) < w := lt_of_le_of_ne hlo (Ne.symm this)
      simp only [if_true]; constructor <;> push_cast <;> linarith
  cases md
  · -- nearest
    unfold IntRound roundIncrement
    have key : |w - ((q + if (rb && (decide (q % 2 = 1) || st)) then 1 else 0 : ℕ) : ℝ)| ≤ 1 / 2 ∧
        (|w - ((q + if (rb && (decide (q % 2 = 1) || st)) then 1 else 0 : ℕ) : ℝ)| = 1 / 2 → (q + if (rb && (decide (q % 2 = 1) || st)) then 1 else 0) % 2 = 0) := by
      cases hrb : rb
      · have h2 : ¬ ((q : ℝ) + 1 / 2 ≤ w) := fun hc => by have := h.half.2 hc; rw [hrb] at this; simp at this
        have hb : |w - q| < 1 / 2 := by rw [abs_of_nonneg (by linarith)]; linarith
        simp only [Bool.false_and, Bool.false_eq_true, if_false, Nat.add_zero]
        exact ⟨hb.le, fun hc => absurd hc hb.ne⟩
      · have h2 := h.half.1 hrb
        cases hst : st
        · have h3 := (h.exact1 hrb).1 hst
          by_cases hq : q % 2 = 1
          · simp only [hq, decide_true, Bool.true_or, Bool.true_and, if_true]
            push_cast
            rw [h3]
            constructor
            · rw [show (q : ℝ) + 1 / 2 - (q + 1) = -(1 / 2) by ring, abs_neg]; norm_num
            · intro _; omega
          · simp only [hq, decide_false, Bool.false_or, Bool.true_and, Bool.false_eq_true, if_false, Nat.add_zero]
            rw [h3]
            constructor
            · rw [show (q : ℝ) + 1 / 2 - q = 1 / 2 by ring]; norm_num
            · intro _; omega
        · have h3 : w ≠ q + 1 / 2 := fun hc => by have := (h.exact1 hrb).2 hc; rw [hst] at this; simp at this
          have h4 : (q : ℝ) + 1 / 2 < w := lt_of_le_of_ne h2 (Ne.symm h3)
          simp only [Bool.or_true, Bool.true_and, if_true]
          push_cast
          have hb : |w - (q + 1)| < 1 / 2 := by rw [abs_of_neg (by linarith)]; linarith
          exact ⟨hb.le, fun hc => absurd hc hb.ne⟩
    generalize (q + if (rb && (decide (q % 2 = 1) || st)) then 1 else 0) = k at *
    rw [sgi_cast, ← mul_sub, abs_mul, abs_sg, one_mul]
    refine ⟨key.1, fun hc => ?_⟩
    have := key.2 hc
    cases s <;> simp [sgi] <;> omega
  · unfold IntRound roundIncrement
    simp only [Bool.false_eq_true, if_false, Nat.add_zero]
    cases s
    · rw [if_pos (by simp [sg, hw.le])]; simp [sg, sgi, hfl]
    · rw [if_neg (by simp [sg, hw])]; simp [sg, sgi, hfl, Int.ceil_neg]
  · unfold IntRound roundIncrement
    cases s
    · simp [sg, sgi, hfl]
    · simp only [sg, sgi, Bool.true_and, if_true, neg_mul, one_mul, Int.floor_neg, hce]
      split <;> push_cast <;> ring
  · unfold IntRound roundIncrement
    cases s
    · simp only [sg, sgi, Bool.not_false, Bool.true_and, Bool.false_eq_true, if_false, one_mul, hce]
      split <;> push_cast <;> ring
    · simp [sg, sgi, hfl, Int.ceil_neg]

theorem shl_mod {v n I : ℕ} (hn : n ≤ I) : (v <<< (I - n)) % 2 ^ I = (v % 2 ^ n) * 2 ^ (I - n) := by
  rw [Nat.shiftLeft_eq]
  conv_lhs => rw [show 2 ^ I = 2 ^ n * 2 ^ (I - n) by rw [← pow_add]; congr 1; omega]
  rw [Nat.mul_mod_mul_right]

/-- l.54-73 for a shift below the width of the value: the direction is up exactly when the increment of the rounding mode is taken -/
theorem roundingDirection_spec (md : Mode) {I v n : ℕ} (hn : n + 1 < I) (s : Bool) :
    (roundingDirection md I v (n + 1) s > 0) ↔ roundIncrement md s (v.testBit n) (decide (v % 2 ^ n ≠ 0)) (decide (v / 2 ^ (n + 1) % 2 = 1)) = true := by
  have hsp : v % 2 ^ (n + 1) = v % 2 ^ n + 2 ^ n * (v / 2 ^ n % 2) := by rw [pow_succ, Nat.mod_mul]
  have htb : v.testBit n = decide (v / 2 ^ n % 2 = 1) := Nat.testBit_eq_decide_div_mod_eq
  have htb1 : v.testBit (n + 1) = decide (v / 2 ^ (n + 1) % 2 = 1) := Nat.testBit_eq_decide_div_mod_eq
  have hz : v % 2 ^ (n + 1) = 0 ↔ v.testBit n = false ∧ v % 2 ^ n = 0 := by
    have hp : 0 < 2 ^ n := by positivity
    rw [htb, decide_eq_false_iff_not]
    rcases Nat.mod_two_eq_zero_or_one (v / 2 ^ n) with h | h <;> rw [h] at hsp ⊢ <;> simp <;> omega
  have e1 : (v <<< (I - (n + 1))) % 2 ^ I = 0 ↔ v % 2 ^ (n + 1) = 0 := by
    rw [shl_mod (by omega)]
    constructor
    · intro h; rcases Nat.mul_eq_zero.1 h with h | h
      · exact h
      · exact absurd h (by positivity)
    · intro h; rw [h]; simp
  have e2 : (v <<< (I - (n + 1) + 1)) % 2 ^ I = 0 ↔ v % 2 ^ n = 0 := by
    rw [show I - (n + 1) + 1 = I - n by omega, shl_mod (by omega)]
    constructor
    · intro h; rcases Nat.mul_eq_zero.1 h with h | h
      · exact h
      · exact absurd h (by positivity)
    · intro h; rw [h]; simp
  have e2' : ((v <<< (I - (n + 1) + 1)) % 2 ^ I != 0) = decide (v % 2 ^ n ≠ 0) := by
    by_cases h : v % 2 ^ n = 0
    · rw [e2.2 h]; simp [h]
    · have := mt e2.1 h
      simp [h, this]
  unfold roundingDirection
  by_cases h0 : v % 2 ^ (n + 1) = 0
  · rw [if_pos (Or.inr (Or.inl ⟨hn, e1.2 h0⟩))]
    obtain ⟨h1, h2⟩ := hz.1 h0
    rw [h1, h2]
    cases md <;> simp [roundIncrement]
  · have hne : ¬ ((v <<< (I - (n + 1))) % 2 ^ I = 0) := mt e1.1 h0
    rw [if_neg (by push Not; exact ⟨by omega, fun _ => hne, fun h => absurd h (by omega)⟩)]
    have hor : (v.testBit n || decide (v % 2 ^ n ≠ 0)) = true := by
      by_contra hc
      rw [Bool.not_eq_true, Bool.or_eq_false_iff] at hc
      exact h0 (hz.2 ⟨hc.1, by simpa using hc.2⟩)
    cases md
    · simp only [Nat.add_sub_cancel, e2', if_pos hn, htb1, roundIncrement]
      by_cases hb : v.testBit n = true
      · rw [if_pos ⟨by omega, by omega, hb⟩, hb]
        by_cases hc : (decide (v / 2 ^ (n + 1) % 2 = 1) || decide (v % 2 ^ n ≠ 0)) = true
        · rw [if_pos hc, hc]; simp
        · rw [if_neg hc]; simp only [Bool.not_eq_true] at hc; rw [hc]; simp
      · rw [if_neg (by tauto)]; simp only [Bool.not_eq_true] at hb; rw [hb]; simp
    · simp [roundIncrement]
    · simp only [roundIncrement, hor, Bool.and_true]
      cases s
      · simp
      · rw [if_pos ⟨rfl, hn, hne⟩]; simp
    · simp only [roundIncrement, hor, Bool.and_true]
      cases s
      · rw [if_pos ⟨by simp, hn, hne⟩]; simp
      · simp

theorem dyRound_spec {md : Mode} {B I inp n : ℕ} {s : Bool} (e : ℤ) (hB : 1 ≤ B) (h1 : 2 ^ (n + 1 + B - 1) ≤ inp) (h2 : inp < 2 ^ (n + 1 + B)) (hI : n + 1 < I) :
    (dyRound md B I s e inp (n + 1)).Normal B ∧ (dyRound md B I s e inp (n + 1)).m ≠ 0 ∧ (dyRound md B I s e inp (n + 1)).s = s ∧
    (dyRound md B I s e inp (n + 1)).val = sg s * ((inp / 2 ^ (n + 1) +
      (if roundIncrement md s (inp.testBit n) (decide (inp % 2 ^ n ≠ 0)) (decide (inp / 2 ^ (n + 1) % 2 = 1)) then 1 else 0) : ℕ) : ℝ) * 2 ^ e := by
  have q1 : 2 ^ (B - 1) ≤ inp / 2 ^ (n + 1) := by
    rw [Nat.le_div_iff_mul_le (by positivity), ← pow_add]; refine le_trans (le_of_eq ?_) h1; congr 1; omega
  have q2 : inp / 2 ^ (n + 1) < 2 ^ B := by
    rw [Nat.div_lt_iff_lt_mul (by positivity), ← pow_add]; refine lt_of_lt_of_le h2 (le_of_eq ?_); congr 1; omega
  have hpB : 0 < 2 ^ (B - 1) := by positivity
  have eB : 2 ^ B = 2 * 2 ^ (B - 1) := by rw [← pow_succ']; congr 1; omega
  unfold dyRound
  simp only [roundingDirection_spec md hI s]
  rw [Nat.shiftRight_eq_div_pow, Nat.mod_eq_of_lt q2]
  generalize roundIncrement md s (inp.testBit n) (decide (inp % 2 ^ n ≠ 0)) (decide (inp / 2 ^ (n + 1) % 2 = 1)) = c
  generalize inp / 2 ^ (n + 1) = q at *
  have mk : ∀ (e' : ℤ) (r : ℕ), r < 2 ^ B → r ≠ 0 → (dyMk B s e' r).Normal B ∧ (dyMk B s e' r).m ≠ 0 ∧ (dyMk B s e' r).s = s ∧
      (dyMk B s e' r).val = sg s * (r : ℝ) * 2 ^ e' := by
    intro e' r hr hr0
    obtain ⟨k1, k2, k3, -⟩ := dyNormalize_spec (B := B) (d := ⟨s, e', r⟩) hr
    refine ⟨k1, ?_, k3, ?_⟩
    · intro hc
      have := (Dy.val_eq_zero _).2 hc
      rw [show dyMk B s e' r = dyNormalize B ⟨s, e', r⟩ from rfl, k2, Dy.val_eq_zero] at this
      exact hr0 this
    · rw [show dyMk B s e' r = dyNormalize B ⟨s, e', r⟩ from rfl, k2, Dy.val_sg]; ring
  cases c
  · simp only [Bool.false_eq_true, if_false, Nat.add_zero]
    exact mk e q q2 (by omega)
  · simp only [if_true]
    by_cases hq : q + 1 = 2 ^ B
    · have : (q + 1) % 2 ^ B = 0 := by rw [hq, Nat.mod_self]
      rw [this, if_pos rfl]
      obtain ⟨k1, k2, k3, k4⟩ := mk (e + 1) (2 ^ (B - 1)) (by omega) (by omega)
      refine ⟨k1, k2, k3, ?_⟩
      rw [k4, hq, eB, zpow_add₀ (by norm_num)]; push_cast; ring
    · rw [Nat.mod_eq_of_lt (by omega), if_neg (by omega)]
      exact mk e (q + 1) (by omega) (by omega)

end CC

/-- `r` is the non-zero real number `v` correctly rounded to `B` significant bits in mode `md` -/
def RoundsDy (B : ℕ) (md : Mode) (v : ℝ) (r : Dy) : Prop :=
  r.Normal B ∧ r.m ≠ 0 ∧ r.s = decide (v < 0) ∧
    ∃ E k : ℤ, 2 ^ (B - 1) ≤ |v| / 2 ^ E ∧ |v| / 2 ^ E < 2 ^ B ∧ IntRound md (v / 2 ^ E) k ∧ r.val = k * 2 ^ E

namespace CC

theorem dyRound_rounds {md : Mode} {B I inp n : ℕ} {s : Bool} {e : ℤ} {v w : ℝ} (hB : 1 ≤ B) (h1 : 2 ^ (n + 1 + B - 1) ≤ inp) (h2 : inp < 2 ^ (n + 1 + B))
    (hI : n + 1 < I) (hR : RBits w (inp / 2 ^ (n + 1)) (inp.testBit n) (decide (inp % 2 ^ n ≠ 0))) (hv : v = sg s * (w * 2 ^ e)) :
    RoundsDy B md v (dyRound md B I s e inp (n + 1)) := by
  obtain ⟨k1, k2, k3, k4⟩ := dyRound_spec (md := md) (s := s) e hB h1 h2 hI
  have q1 : 2 ^ (B - 1) ≤ inp / 2 ^ (n + 1) := by
    rw [Nat.le_div_iff_mul_le (by positivity), ← pow_add]; refine le_trans (le_of_eq ?_) h1; congr 1; omega
  have q2 : inp / 2 ^ (n + 1) < 2 ^ B := by
    rw [Nat.div_lt_iff_lt_mul (by positivity), ← pow_add]; refine lt_of_lt_of_le h2 (le_of_eq ?_); congr 1; omega
  have hw1 : (2 : ℝ) ^ (B - 1) ≤ w := le_trans (by exact_mod_cast q1) hR.lo
  have hw2 : w < (2 : ℝ) ^ B := lt_of_lt_of_le hR.hi (by exact_mod_cast q2)
  have hw0 : 0 < w := lt_of_lt_of_le (by positivity) hw1
  have hE : (0 : ℝ) < 2 ^ e := two_zpow_pos _
  have hav : |v| / 2 ^ e = w := by
    rw [hv, abs_mul, abs_sg, one_mul, abs_of_pos (by positivity)]; field_simp
  refine ⟨k1, k2, ?_, e, sgi s (inp / 2 ^ (n + 1) + (if roundIncrement md s (inp.testBit n) (decide (inp % 2 ^ n ≠ 0)) (decide (inp / 2 ^ (n + 1) % 2 = 1)) then 1 else 0)), by rwa [hav], by rwa [hav], ?_, ?_⟩
  · rw [k3, hv]
    have : 0 < w * 2 ^ e := by positivity
    cases s <;> simp [sg, this, this.le]
  · have : v / 2 ^ e = sg s * w := by rw [hv]; field_simp
    rw [this]
    exact intRound_bits hR hw0
  · rw [k4, sgi_cast]

theorem roundedMul_spec (md : Mode) {B : ℕ} (hB : 1 ≤ B) {a b : Dy} (ha : a.Normal B) (hb : b.Normal B) (ha0 : a.m ≠ 0) (hb0 : b.m ≠ 0) :
    RoundsDy B md (a.val * b.val) (roundedMul md B a b) := by
  obtain ⟨a1, a2⟩ := ha
  obtain ⟨b1, b2⟩ := hb
  have a2 : 2 ^ (B - 1) ≤ a.m := by tauto
  have b2 : 2 ^ (B - 1) ≤ b.m := by tauto
  have hlt : a.m * b.m < 2 ^ (2 * B) := by
    have := Nat.mul_lt_mul'' a1 b1
    rwa [← pow_add, ← two_mul] at this
  have hge : 2 ^ (2 * B - 2) ≤ a.m * b.m := by
    have := Nat.mul_le_mul a2 b2
    rw [← pow_add] at this
    refine le_trans (le_of_eq ?_) this; congr 1; omega
  have hv : a.val * b.val = sg (a.s != b.s) * (((a.m * b.m : ℕ) : ℝ) * 2 ^ (a.e + b.e)) := by
    rw [a.val_sg, b.val_sg, zpow_add₀ (by norm_num)]
    have : sg (a.s != b.s) = sg a.s * sg b.s := by cases a.s <;> cases b.s <;> simp [sg]
    rw [this]; push_cast; ring
  unfold roundedMul
  simp only [Nat.mod_eq_of_lt hlt]
  obtain ⟨n, rfl⟩ : ∃ n, B = n + 1 := ⟨B - 1, by omega⟩
  generalize a.m * b.m = P at *
  have htb : P.testBit (2 * (n + 1) - 1) = true ↔ 2 ^ (2 * (n + 1) - 1) ≤ P := by
    constructor
    · intro h; exact Nat.ge_two_pow_of_testBit h
    · intro h
      rw [Nat.testBit_eq_decide_div_mod_eq]
      have : P / 2 ^ (2 * (n + 1) - 1) = 1 := by
        rw [Nat.div_eq_iff (by positivity)]
        have e : 2 ^ (2 * (n + 1)) = 2 * 2 ^ (2 * (n + 1) - 1) := by rw [← pow_succ']; congr 1
        omega
      simp [this]
  have e : 2 ^ (2 * (n + 1)) = 2 * 2 ^ (2 * (n + 1) - 1) := by rw [← pow_succ']; congr 1
  have e' : 2 ^ (2 * (n + 1) - 1) = 2 * 2 ^ (2 * (n + 1) - 2) := by rw [← pow_succ']; congr 1
  have ee : n + 1 + (n + 1) = 2 * (n + 1) := by ring
  cases hT : P.testBit (2 * (n + 1) - 1)
  · have hP : P < 2 ^ (2 * (n + 1) - 1) := by
      by_contra hc
      rw [htb.2 (by omega)] at hT; simp at hT
    simp only [Bool.not_false, if_true]
    rw [Nat.shiftLeft_eq, pow_one, Nat.mod_eq_of_lt (by omega)]
    refine dyRound_rounds (by omega) (by rw [ee]; omega) (by rw [ee]; omega) (by omega) (rbits_shift (P * 2) n) ?_
    rw [hv]
    congr 1
    push_cast
    rw [show a.e + b.e + ((n : ℤ) + 1) - 1 = a.e + b.e + n by ring, zpow_add₀ (by norm_num) _ (n : ℤ), zpow_natCast, pow_succ]
    field_simp
  · have hP := htb.1 hT
    simp only [Bool.not_true, Bool.false_eq_true, if_false]
    refine dyRound_rounds (by omega) (by rw [ee]; omega) (by rw [ee]; omega) (by omega) (rbits_shift P n) ?_
    rw [hv]
    congr 1
    rw [zpow_add₀ (by norm_num) _ ((n + 1 : ℕ) : ℤ), zpow_natCast]
    field_simp

theorem or_one_bits (Q n : ℕ) : (Q ||| 1) / 2 ^ (n + 2) = Q / 2 ^ (n + 2) ∧ (Q ||| 1).testBit (n + 1) = Q.testBit (n + 1) ∧ (Q ||| 1) % 2 ^ (n + 1) ≠ 0 := by
  have h1 : ∀ i, (Q ||| 1).testBit (i + 1) = Q.testBit (i + 1) := by
    intro i
    rw [Nat.testBit_or]
    have : (1 : ℕ).testBit (i + 1) = false := by
      rw [Nat.testBit_lt_two_pow]; exact Nat.one_lt_two_pow (by omega)
    rw [this]; simp
  refine ⟨?_, h1 n, ?_⟩
  · apply Nat.eq_of_testBit_eq
    intro i
    rw [Nat.testBit_div_two_pow, Nat.testBit_div_two_pow, show i + (n + 2) = (i + n + 1) + 1 by ring, h1]
  · intro hc
    have h2 := Nat.testBit_mod_two_pow (Q ||| 1) (n + 1) 0
    rw [hc] at h2
    simp at h2

theorem jam_rounds {md : Mode} {B I num d n : ℕ} {s : Bool} {e : ℤ} {v : ℝ} (hB : 1 ≤ B) (hd : 0 < d) (r1 : 2 ^ (n + 2 + B - 1) * d ≤ num)
    (r2 : num < 2 ^ (n + 2 + B) * d) (hI : n + 2 < I) (hv : v = sg s * ((num : ℝ) / d / 2 ^ (n + 2) * 2 ^ e)) :
    RoundsDy B md v (dyRound md B I s e (if num % d ≠ 0 then num / d ||| 1 else num / d) (n + 2)) := by
  have hbr : (0 : ℝ) < d := by exact_mod_cast hd
  have hQ1 := (Nat.le_div_iff_mul_le hd).2 r1
  have hQ2 := (Nat.div_lt_iff_lt_mul hd).2 r2
  have hdm := Nat.div_add_mod num d
  have hml := Nat.mod_lt num hd
  have hsh := shift_rbits (M := num / d) (n := n + 1) (j := 0) (v := (num : ℝ) / d) (tl := decide (num % d ≠ 0)) (by omega) (by simp)
    (by rw [le_div_iff₀ hbr]; exact_mod_cast Nat.div_mul_le_self num d)
    (by
      rw [pow_zero, div_lt_iff₀ hbr]
      have h1 : (num / d + 1) * d = d * (num / d) + d := by ring
      have h2 : num < (num / d + 1) * d := by omega
      exact_mod_cast h2)
    (by
      rw [decide_eq_true_iff]
      apply not_congr
      rw [div_eq_iff hbr.ne']
      constructor
      · intro h; rw [h, add_zero] at hdm
        rw [mul_comm] at hdm; exact_mod_cast hdm.symm
      · intro h
        have : num = num / d * d := by exact_mod_cast h
        rw [mul_comm] at this; omega)
  generalize hQ : num / d = Q at *
  by_cases hr : num % d = 0
  · simp only [hr, ne_eq, not_true_eq_false, if_false, decide_false, Bool.false_or] at hsh ⊢
    exact dyRound_rounds (n := n + 1) hB hQ1 hQ2 hI hsh hv
  · rw [if_pos hr]
    obtain ⟨o1, o2, o3⟩ := or_one_bits Q n
    have hor1 : Q ≤ Q ||| 1 := Nat.left_le_or
    have hor2 : Q ||| 1 < 2 ^ (n + 2 + B) := Nat.or_lt_two_pow hQ2 (Nat.one_lt_two_pow (by omega))
    refine dyRound_rounds (n := n + 1) hB (le_trans hQ1 hor1) hor2 hI ?_ hv
    have e3 : decide ((Q ||| 1) % 2 ^ (n + 1) ≠ 0) = true := by simpa using o3
    rw [e3, show n + 1 + 1 = n + 2 from rfl, o1, o2]
    have e4 : (decide (num % d ≠ 0) || decide (Q % 2 ^ (n + 1) ≠ 0)) = true := by simp [hr]
    rwa [e4] at hsh

theorem roundedDiv_spec (md : Mode) {B : ℕ} (hB : 1 ≤ B) {a b : Dy} (ha : a.Normal B) (hb : b.Normal B) (ha0 : a.m ≠ 0) (hb0 : b.m ≠ 0) :
    ∃ r, roundedDiv md B a b = some r ∧ RoundsDy B md (a.val / b.val) r := by
  obtain ⟨a1, a2⟩ := ha
  obtain ⟨b1, b2⟩ := hb
  have a2 : 2 ^ (B - 1) ≤ a.m := by tauto
  have b2 : 2 ^ (B - 1) ≤ b.m := by tauto
  have eB : 2 ^ B = 2 * 2 ^ (B - 1) := by rw [← pow_succ']; congr 1; omega
  have hbpos : 0 < b.m := Nat.pos_of_ne_zero hb0
  have hbr : (0 : ℝ) < b.m := by exact_mod_cast hbpos
  unfold roundedDiv
  simp only
  rw [if_neg ha0]
  refine ⟨_, if_neg hb0, ?_⟩
  have key : ∀ δ : ℕ, (δ = 0 ∧ a.m < b.m ∨ δ = 1 ∧ b.m ≤ a.m) → ∀ n : ℕ,
      RoundsDy B md (a.val / b.val) (dyRound md B (B * 2 + (n + 2)) (a.s != b.s) (a.e - b.e - B + δ)
        (if (a.m <<< (B - δ + (n + 2)) % 2 ^ (B * 2 + (n + 2))) % b.m ≠ 0 then (a.m <<< (B - δ + (n + 2)) % 2 ^ (B * 2 + (n + 2))) / b.m ||| 1
          else (a.m <<< (B - δ + (n + 2)) % 2 ^ (B * 2 + (n + 2))) / b.m) (n + 2)) := by
    intro δ hδ n
    have hnum : a.m <<< (B - δ + (n + 2)) % 2 ^ (B * 2 + (n + 2)) = a.m * 2 ^ (B - δ + (n + 2)) := by
      rw [Nat.shiftLeft_eq, Nat.mod_eq_of_lt]
      calc a.m * 2 ^ (B - δ + (n + 2)) < 2 ^ B * 2 ^ (B - δ + (n + 2)) := Nat.mul_lt_mul_of_pos_right a1 (by positivity)
        _ ≤ _ := by rw [← pow_add]; exact Nat.pow_le_pow_right (by norm_num) (by omega)
    rw [hnum]
    refine jam_rounds hB hbpos ?_ ?_ (by omega) ?_
    · rcases hδ with ⟨h0, h⟩ | ⟨h1, h⟩
      · rw [h0, show B - 0 + (n + 2) = (n + 2 + B - 1) + 1 by omega, pow_succ 2 (n + 2 + B - 1), mul_comm (2 ^ (n + 2 + B - 1)) b.m, mul_comm (2 ^ (n + 2 + B - 1)) 2, ← mul_assoc]
        exact Nat.mul_le_mul_right _ (by omega)
      · rw [h1, show B - 1 + (n + 2) = n + 2 + B - 1 by omega, mul_comm]
        exact Nat.mul_le_mul_right _ h
    · rcases hδ with ⟨h0, h⟩ | ⟨h1, h⟩
      · rw [h0, show B - 0 + (n + 2) = n + 2 + B by omega, mul_comm]
        exact Nat.mul_lt_mul_of_pos_left h (by positivity)
      · rw [h1, show B - 1 + (n + 2) = n + 2 + B - 1 by omega, show 2 ^ (n + 2 + B) = 2 ^ (n + 2 + B - 1) * 2 by rw [← pow_succ]; congr 1; omega,
          mul_comm a.m, mul_assoc]
        exact Nat.mul_lt_mul_of_pos_left (by omega) (by positivity)
    · have : sg (a.s != b.s) = sg a.s / sg b.s := by cases a.s <;> cases b.s <;> simp [sg]
      rw [a.val_sg, b.val_sg, this]
      push_cast
      have e1 : (2 : ℝ) ^ (B - δ + (n + 2)) = 2 ^ (n + 2) * 2 ^ ((B : ℤ) - δ) := by
        rw [show (B : ℤ) - δ = ((B - δ : ℕ) : ℤ) by omega, zpow_natCast, ← pow_add]; congr 1; omega
      have e2 : (2 : ℝ) ^ (a.e - b.e - B + δ) = 2 ^ a.e / 2 ^ b.e / 2 ^ ((B : ℤ) - δ) := by
        rw [← zpow_sub₀ (by norm_num), ← zpow_sub₀ (by norm_num)]; congr 1; ring
      have h1 := two_zpow_pos ((B : ℤ) - δ)
      have h2 := two_zpow_pos b.e
      have h3 := sg_ne_zero b.s
      rw [e1, e2]
      field_simp
  by_cases h : a.m < b.m
  · simp only [decide_eq_true h, if_true]
    exact key 0 (Or.inl ⟨rfl, h⟩) 62
  · simp only [decide_eq_false h, Bool.false_eq_true, if_false]
    exact key 1 (Or.inr ⟨rfl, by omega⟩) 62

end CC
end Verif
