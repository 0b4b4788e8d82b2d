import Verif.Lemmas.BigInt4

namespace Verif
namespace BI
open CC

theorem or_eq_add {q b : ℕ} (h : 2 ^ (b + 1) ∣ q) : q ||| 2 ^ b = q + 2 ^ b := by
  obtain ⟨c, rfl⟩ := h
  rw [← Nat.two_pow_add_eq_or_of_lt (Nat.pow_lt_pow_right (by norm_num) (by omega)) c]

/-- the schoolbook loop: with `b` quotient bits to go, `n = q d + r` and `r < d 2^b` -/
theorem divLoop_spec {w N d n : ℕ} (hw : 1 ≤ w) (hd : 1 ≤ d) (hn : n < 2 ^ (w * N)) : ∀ (fuel b : ℕ) (q r s : List ℕ) (bit : ℤ),
    b ≤ fuel → bit = (b : ℤ) - 1 → Words w q → Words w r → Words w s → q.length = N → r.length = N → s.length = N →
    (1 ≤ b → nat w s = d * 2 ^ (b - 1)) → nat w r < d * 2 ^ b → 2 ^ b ∣ nat w q → n = nat w q * d + nat w r →
      Words w (divLoop w fuel q r s bit).1 ∧ Words w (divLoop w fuel q r s bit).2 ∧ (divLoop w fuel q r s bit).1.length = N ∧
        (divLoop w fuel q r s bit).2.length = N ∧ nat w (divLoop w fuel q r s bit).1 = n / d ∧ nat w (divLoop w fuel q r s bit).2 = n % d := by
  have fin : ∀ q r : List ℕ, Words w q → Words w r → q.length = N → r.length = N → nat w r < d → n = nat w q * d + nat w r →
      Words w q ∧ Words w r ∧ q.length = N ∧ r.length = N ∧ nat w q = n / d ∧ nat w r = n % d := by
    intro q r h1 h2 h3 h4 h5 h6
    refine ⟨h1, h2, h3, h4, ?_, ?_⟩
    · rw [h6, mul_comm, Nat.mul_add_div (by omega), Nat.div_eq_of_lt h5, add_zero]
    · rw [h6, mul_comm, Nat.mul_add_mod, Nat.mod_eq_of_lt h5]
  intro fuel
  induction fuel with
  | zero =>
    intro b q r s bit hb hbit hq hr hs lq lr ls hsv hrd hqd hinv
    obtain rfl : b = 0 := by omega
    rw [divLoop]
    exact fin q r hq hr lq lr (by simpa using hrd) hinv
  | succ fuel ih =>
    intro b q r s bit hb hbit hq hr hs lq lr ls hsv hrd hqd hinv
    rw [divLoop]
    obtain ⟨z1, z2, z3⟩ := zero_spec w r.length
    have hz := cmp_unsigned hr z1 z2.symm
    rw [z3] at hz
    by_cases hcond : bit ≥ 0 ∧ cmp false w r (ofInt w 32 r.length 0) > 0
    · rw [if_pos hcond]
      simp only
      have hb1 : 1 ≤ b := by have := hcond.1; omega
      have hs1 := hsv hb1
      have hcs := cmp_unsigned hr hs (lr.trans ls.symm)
      have hge : (cmp false w r s ≥ 0) ↔ nat w s ≤ nat w r := by
        rw [hcs]; split_ifs <;> simp <;> omega
      obtain ⟨s1, s2, s3⟩ := shr_unsigned hw hs 1
      have hp : 2 ^ b = 2 * 2 ^ (b - 1) := by rw [← pow_succ']; congr 1; omega
      have hsv' : 1 ≤ b - 1 → nat w (shr false w s 1) = d * 2 ^ (b - 1 - 1) := by
        intro h
        rw [s3, hs1, pow_one]
        have : 2 ^ (b - 1) = 2 ^ (b - 1 - 1) * 2 := by rw [← pow_succ]; congr 1; omega
        rw [this, ← mul_assoc, Nat.mul_div_cancel _ (by norm_num)]
      by_cases h : cmp false w r s ≥ 0
      · rw [if_pos h, if_pos h]
        have hsr := hge.1 h
        obtain ⟨u1, u2, u3⟩ := sub_nat' hw hr hs (by omega)
        have u3' : nat w (sub w r s) = nat w r - nat w s := by
          have hlt : (nat w r : ℤ) < 2 ^ (w * r.length) := by exact_mod_cast nat_lt hr
          rw [Int.emod_eq_of_lt (by omega) (by omega)] at u3
          omega
        have hbt : bit.toNat = b - 1 := by omega
        have hqn : nat w q * d ≤ n := by omega
        have hbN : b - 1 < w * q.length := by
          rw [lq]
          have h1 : d * 2 ^ (b - 1) ≤ n := by
            have := Nat.zero_le (nat w q * d); omega
          have h2 : 2 ^ (b - 1) ≤ d * 2 ^ (b - 1) := Nat.le_mul_of_pos_left _ hd
          exact (Nat.pow_lt_pow_iff_right (by norm_num)).1 (lt_of_le_of_lt (le_trans h2 h1) hn)
        obtain ⟨q1, q2, q3⟩ := setBit_spec hw hq hbN
        have hqd' : 2 ^ (b - 1 + 1) ∣ nat w q := by rw [Nat.sub_add_cancel hb1]; exact hqd
        rw [or_eq_add hqd'] at q3
        rw [hbt]
        apply ih (b - 1) _ _ _ _ (by omega) (by omega) q1 u1 s1 (q2.trans lq) (u2.trans lr) (s2.trans ls) hsv'
        · rw [u3', hs1]; rw [hp] at hrd
          have : d * (2 * 2 ^ (b - 1)) = d * 2 ^ (b - 1) + d * 2 ^ (b - 1) := by ring
          omega
        · rw [q3]
          exact dvd_add (dvd_trans (pow_dvd_pow 2 (by omega)) hqd) (dvd_refl _)
        · rw [q3, u3', hinv, hs1]
          rw [hs1] at hsr
          rw [add_mul, mul_comm (2 ^ (b - 1)) d]
          omega
      · rw [if_neg h, if_neg h]
        have hsr := hge.not.1 h
        apply ih (b - 1) _ _ _ _ (by omega) (by omega) hq hr s1 lq lr (s2.trans ls) hsv' _ _ hinv
        · rw [← hs1]; omega
        · exact dvd_trans (pow_dvd_pow 2 (by omega)) hqd
    · rw [if_neg hcond]
      apply fin q r hq hr lq lr _ hinv
      by_cases hbit0 : bit ≥ 0
      · have : ¬ cmp false w r (ofInt w 32 r.length 0) > 0 := fun h => hcond ⟨hbit0, h⟩
        rw [hz] at this
        have hr0 : nat w r = 0 := by
          by_contra hne
          rw [if_neg (by omega), if_neg hne] at this
          exact this (by norm_num)
        omega
      · obtain rfl : b = 0 := by omega
        simpa using hrd

theorem divideUnsigned_spec {k : ℕ} {a d : List ℕ} (ha : Words (2 ^ k) a) (hd : Words (2 ^ k) d) (hl : a.length = d.length)
    (hd0 : nat (2 ^ k) d ≠ 0) :
    Words (2 ^ k) (divideUnsigned (2 ^ k) a d).1 ∧ Words (2 ^ k) (divideUnsigned (2 ^ k) a d).2 ∧ (divideUnsigned (2 ^ k) a d).1.length = a.length ∧
      (divideUnsigned (2 ^ k) a d).2.length = a.length ∧
      nat (2 ^ k) (divideUnsigned (2 ^ k) a d).1 = nat (2 ^ k) a / nat (2 ^ k) d ∧
      nat (2 ^ k) (divideUnsigned (2 ^ k) a d).2 = nat (2 ^ k) a % nat (2 ^ k) d := by
  have hw : 1 ≤ 2 ^ k := Nat.two_pow_pos k
  have hc := cmp_unsigned ha hd hl
  have hcge : cmp false (2 ^ k) a d ≥ 0 ↔ nat (2 ^ k) d ≤ nat (2 ^ k) a := by
    rw [hc]; split_ifs <;> simp <;> omega
  unfold divideUnsigned
  simp only
  have zW : Words (2 ^ k) (List.replicate a.length 0) := words_replicate (Nat.two_pow_pos _)
  by_cases h : cmp false (2 ^ k) a d ≥ 0
  · rw [if_pos h]
    have hda := hcge.1 h
    obtain ⟨ca1, ca2, ca3⟩ := clz_spec ha
    obtain ⟨cd1, cd2, cd3⟩ := clz_spec hd
    rw [← hl] at cd1 cd2 cd3
    have hal := nat_lt ha
    generalize hT : 2 ^ k * a.length = T at *
    have hdT : clz (2 ^ k) d < T := by
      rcases cd1.lt_or_eq with h' | h'
      · exact h'
      · rw [h', Nat.sub_self, pow_zero] at cd2; omega
    have hdlow : 2 ^ (T - clz (2 ^ k) d - 1) ≤ nat (2 ^ k) d := Nat.ge_two_pow_of_testBit (cd3 hdT)
    have hle : clz (2 ^ k) a ≤ clz (2 ^ k) d := by
      by_contra hlt
      have : T - clz (2 ^ k) a ≤ T - clz (2 ^ k) d - 1 := by omega
      have := Nat.pow_le_pow_right (n := 2) (by norm_num) this
      omega
    obtain ⟨B, hB⟩ : ∃ B, clz (2 ^ k) d = clz (2 ^ k) a + B := ⟨_, (Nat.add_sub_of_le hle).symm⟩
    have hbit : ((clz (2 ^ k) d : ℤ) - clz (2 ^ k) a) = ((B + 1 : ℕ) : ℤ) - 1 := by rw [hB]; push_cast; ring
    have hbitN : ((clz (2 ^ k) d : ℤ) - clz (2 ^ k) a).toNat = B := by rw [hB]; omega
    rw [hbitN]
    obtain ⟨s1, s2, s3⟩ := shl_spec hw hd B
    rw [← hl, hT] at s3
    have hs3 : nat (2 ^ k) (shl (2 ^ k) d B) = nat (2 ^ k) d * 2 ^ B := by
      rw [s3, Nat.mod_eq_of_lt]
      calc nat (2 ^ k) d * 2 ^ B < 2 ^ (T - clz (2 ^ k) d) * 2 ^ B := Nat.mul_lt_mul_of_pos_right cd2 (Nat.two_pow_pos B)
        _ = 2 ^ (T - clz (2 ^ k) d + B) := by rw [pow_add]
        _ ≤ 2 ^ T := Nat.pow_le_pow_right (by norm_num) (by omega)
    have hBT : B + 1 ≤ T + 1 := by omega
    apply divLoop_spec hw (d := nat (2 ^ k) d) (n := nat (2 ^ k) a) (by omega) (by rw [hT]; exact hal) (T + 1) (B + 1) _ _ _ _ hBT hbit zW ha s1
      (by simp) rfl (s2.trans hl.symm)
    · intro _; rw [hs3, Nat.add_sub_cancel]
    · calc nat (2 ^ k) a < 2 ^ (T - clz (2 ^ k) a) := ca2
        _ = 2 ^ (T - clz (2 ^ k) d - 1) * 2 ^ (B + 1) := by rw [← pow_add]; congr 1; omega
        _ ≤ _ := Nat.mul_le_mul_right _ hdlow
    · rw [nat_replicate_zero]; exact dvd_zero _
    · rw [nat_replicate_zero, zero_mul, zero_add]
  · rw [if_neg h]
    have hlt : nat (2 ^ k) a < nat (2 ^ k) d := not_le.1 (hcge.not.1 h)
    refine ⟨zW, ha, by simp, rfl, ?_, ?_⟩
    · rw [nat_replicate_zero, Nat.div_eq_of_lt hlt]
    · rw [Nat.mod_eq_of_lt hlt]

/-! ### signed division -/

/-- `negate` of a negative object is its absolute value read as unsigned -/
theorem nat_abs {w : ℕ} (hw : 1 ≤ w) {a : List ℕ} (ha : Words w a) (hne : 1 ≤ a.length) :
    Words w (if isNeg true w a then negate w a else a) ∧ (if isNeg true w a then negate w a else a).length = a.length ∧
      (nat w (if isNeg true w a then negate w a else a) : ℤ) = |sval w a| := by
  unfold isNeg
  simp only [Bool.true_and]
  have hs := sval_eq hw ha hne
  have hlt : (nat w a : ℤ) < 2 ^ (w * a.length) := by exact_mod_cast nat_lt ha
  split_ifs with h
  · obtain ⟨n1, n2, n3⟩ := negate_nat hw ha hne
    refine ⟨n1, n2, ?_⟩
    rw [if_pos h] at hs
    have hpos : (0 : ℤ) < nat w a := by
      have := (msb_iff hw ha hne).1 h
      have := Nat.two_pow_pos (w * a.length - 1)
      omega
    rw [n3, hs, abs_of_neg (by omega), ← Int.add_emod_right, Int.emod_eq_of_lt (by omega) (by omega)]
    ring
  · refine ⟨ha, rfl, ?_⟩
    rw [if_neg h] at hs
    rw [hs, abs_of_nonneg (by positivity)]

theorem sval_of_int {w : ℕ} {a : List ℕ} {v : ℤ} (h : (2 : ℤ) ^ (w * a.length) ∣ (nat w a : ℤ) - v) : sval w a = Int.bmod v (2 ^ (w * a.length)) := bmod_congr h

theorem emod_dvd_sub (v m : ℤ) : m ∣ v % m - v := ⟨-(v / m), by have := Int.emod_add_mul_ediv v m; linarith⟩

theorem minVal_spec {w N : ℕ} (hw : 1 ≤ w) (hN : 1 ≤ N) : Words w (minVal true w N) ∧ (minVal true w N).length = N ∧ nat w (minVal true w N) = 2 ^ (w * N - 1) := by
  unfold minVal
  simp only [if_true]
  refine ⟨words_append (words_replicate (Nat.two_pow_pos w)) (words_cons (Nat.pow_lt_pow_right (by norm_num) (by omega)) (words_nil w)), by simp; omega, ?_⟩
  rw [nat_snoc, nat_replicate_zero, zero_add, List.length_replicate, ← pow_add]
  congr 1
  have : w * N = w * (N - 1) + w := by rw [← Nat.mul_succ]; congr 1; omega
  omega

theorem tdiv_eq_sign (x y : ℤ) : x.tdiv y = if decide (x < 0) != decide (y < 0) then -(|x| / |y|) else |x| / |y| := by
  rcases lt_or_ge x 0 with hx | hx <;> rcases lt_or_ge y 0 with hy | hy
  · simp only [hx, hy, decide_true, bne_self_eq_false, Bool.false_eq_true, if_false]
    rw [abs_of_neg hx, abs_of_neg hy, ← Int.tdiv_eq_ediv_of_nonneg (by omega), Int.neg_tdiv_neg]
  · have h2 : decide (y < 0) = false := decide_eq_false (by omega)
    simp only [hx, h2, decide_true, Bool.bne_false, if_true]
    rw [abs_of_neg hx, abs_of_nonneg hy, ← Int.tdiv_eq_ediv_of_nonneg (by omega), Int.neg_tdiv, neg_neg]
  · have h2 : decide (x < 0) = false := decide_eq_false (by omega)
    simp only [hy, h2, decide_true, Bool.bne_true, Bool.not_false, if_true]
    rw [abs_of_neg hy, abs_of_nonneg hx, ← Int.tdiv_eq_ediv_of_nonneg (by omega), Int.tdiv_neg, neg_neg]
  · have h2 : decide (x < 0) = false := decide_eq_false (by omega)
    have h3 : decide (y < 0) = false := decide_eq_false (by omega)
    simp only [h2, h3, bne_self_eq_false, Bool.false_eq_true, if_false]
    rw [abs_of_nonneg hx, abs_of_nonneg hy, ← Int.tdiv_eq_ediv_of_nonneg hx]

theorem tmod_eq_sign (x y : ℤ) : x.tmod y = if x < 0 then -(|x| % |y|) else |x| % |y| := by
  split_ifs with hx
  · rw [abs_of_neg hx, Int.emod_abs, ← Int.tmod_eq_emod_of_nonneg (by omega), Int.neg_tmod, neg_neg]
  · rw [abs_of_nonneg (by omega), Int.emod_abs, ← Int.tmod_eq_emod_of_nonneg (by omega)]

theorem divideSigned_spec {k : ℕ} {a d : List ℕ} (ha : Words (2 ^ k) a) (hd : Words (2 ^ k) d) (hl : a.length = d.length) (hN : 1 ≤ a.length)
    (hbits : 2 ≤ 2 ^ k * a.length) (hd0 : nat (2 ^ k) d ≠ 0) :
    Words (2 ^ k) (divideSigned (2 ^ k) a d).1 ∧ Words (2 ^ k) (divideSigned (2 ^ k) a d).2 ∧ (divideSigned (2 ^ k) a d).1.length = a.length ∧
      (divideSigned (2 ^ k) a d).2.length = a.length ∧
      sval (2 ^ k) (divideSigned (2 ^ k) a d).1 = Int.bmod ((sval (2 ^ k) a).tdiv (sval (2 ^ k) d)) (2 ^ (2 ^ k * a.length)) ∧
      sval (2 ^ k) (divideSigned (2 ^ k) a d).2 = (sval (2 ^ k) a).tmod (sval (2 ^ k) d) := by
  have hw : 1 ≤ 2 ^ k := Nat.two_pow_pos k
  generalize hwe : 2 ^ k = w at *
  have hdl : 1 ≤ d.length := by omega
  obtain ⟨m1, m2, m3⟩ := minVal_spec hw hN
  have hsa := bmod_range (pos_bits hw hN) (nat w a)
  have hsd : -2 ^ (w * a.length - 1) ≤ sval w d ∧ sval w d < 2 ^ (w * a.length - 1) := by
    have := bmod_range (pos_bits hw hdl) (nat w d)
    rw [← hl] at this; rw [sval, ← hl]; exact this
  have hsd0 : sval w d ≠ 0 := by
    rw [sval_eq hw hd hdl]
    have hlt : (nat w d : ℤ) < 2 ^ (w * d.length) := by exact_mod_cast nat_lt hd
    split_ifs <;> omega
  unfold divideSigned
  simp only
  by_cases hmm : (eqB a (minVal true w a.length) && eqB d (minVal true w a.length)) = true
  · rw [if_pos hmm]
    rw [Bool.and_eq_true, eqB_iff m2.symm, eqB_iff (hl.symm.trans m2.symm)] at hmm
    have had : sval w a = sval w d := by rw [hmm.1, hmm.2, hmm.1.symm]
    obtain ⟨o1, o2, o3⟩ := one_spec hw hN
    refine ⟨o1, words_replicate (Nat.two_pow_pos w), o2, by simp, ?_, ?_⟩
    · rw [had, Int.tdiv_self hsd0, sval, o2, o3]; rfl
    · rw [had, Int.tmod_self, sval, nat_replicate_zero, Nat.cast_zero, Int.zero_bmod]
  rw [if_neg hmm]
  obtain ⟨a1, a2, a3⟩ := nat_abs hw ha hN
  obtain ⟨d1, d2, d3⟩ := nat_abs hw hd hdl
  generalize (if isNeg true w a then negate w a else a) = ua at *
  generalize (if isNeg true w d then negate w d else d) = ud at *
  have ud0 : nat w ud ≠ 0 := by
    intro h
    rw [h] at d3
    exact hsd0 (abs_eq_zero.1 d3.symm)
  subst hwe
  obtain ⟨u1, u2, u3, u4, u5, u6⟩ := divideUnsigned_spec a1 d1 (a2.trans (hl.trans d2.symm)) ud0
  generalize hw2 : 2 ^ k = w at *
  generalize hr : divideUnsigned w ua ud = r at *
  have hna : isNeg true w a = decide (sval w a < 0) := by
    unfold isNeg; rw [Bool.true_and, Bool.eq_iff_iff, decide_eq_true_eq]; exact sval_neg_iff hw ha hN
  have hnd : isNeg true w d = decide (sval w d < 0) := by
    unfold isNeg; rw [Bool.true_and, Bool.eq_iff_iff, decide_eq_true_eq]; exact sval_neg_iff hw hd hdl
  have q5 : (nat w r.1 : ℤ) = |sval w a| / |sval w d| := by rw [u5, Int.natCast_ediv, a3, d3]
  have q6 : (nat w r.2 : ℤ) = |sval w a| % |sval w d| := by rw [u6, Int.natCast_mod, a3, d3]
  have l1 : r.1.length = a.length := u3.trans a2
  have l2 : r.2.length = a.length := u4.trans a2
  obtain ⟨g1, g2, g3⟩ := negate_nat hw u1 (by omega)
  obtain ⟨f1, f2, f3⟩ := negate_nat hw u2 (by omega)
  rw [l1] at g2 g3
  rw [l2] at f2 f3
  have hrem : ((sval w a).tmod (sval w d)) = Int.bmod ((sval w a).tmod (sval w d)) (2 ^ (w * a.length)) := by
    symm
    have h1 : |(sval w a).tmod (sval w d)| ≤ |sval w d| - 1 := by
      have := Int.emod_lt_of_pos (|sval w a|) (abs_pos.2 hsd0)
      have h0 := Int.emod_nonneg (|sval w a|) (abs_pos.2 hsd0).ne'
      rw [tmod_eq_sign]
      split_ifs
      · rw [abs_neg, abs_of_nonneg h0]; omega
      · rw [abs_of_nonneg h0]; omega
    have h2 : |sval w d| ≤ 2 ^ (w * a.length - 1) := abs_le.2 ⟨hsd.1, hsd.2.le⟩
    have h3 := abs_le.1 (le_trans h1 (Int.sub_le_sub_right h2 1))
    exact bmod_eq (by omega) (by simp) (by linarith [h3.1]) (by linarith [h3.2])
  rw [hna, hnd]
  dsimp only
  refine ⟨?_, ?_, ?_, ?_, ?_, ?_⟩
  · split_ifs <;> assumption
  · split_ifs <;> assumption
  · split_ifs <;> assumption
  · split_ifs <;> assumption
  · rw [tdiv_eq_sign]
    split_ifs
    · rw [sval, g2, g3, q5]
      exact bmod_congr (emod_dvd_sub _ _)
    · rw [sval, l1, q5]
  · rw [hrem, tmod_eq_sign]
    simp only [decide_eq_true_eq]
    split_ifs
    · rw [sval, f2, f3, q6]
      exact bmod_congr (emod_dvd_sub _ _)
    · rw [sval, l2, q6]

end BI
end Verif
