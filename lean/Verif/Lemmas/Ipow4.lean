import Verif.Lemmas.Ipow3

/-!
# pow: powers that are exact
-/

namespace Verif
open Fmt Real

/-- a scaled pair that is exactly `V` with no low part -/
def EX (s : CC.ScaledPow) (V : ℝ) : Prop :=
  binary64.Finite s.mantissa.hi ∧ binary64.Finite s.mantissa.lo ∧ binary64.val s.mantissa.lo = 0 ∧ 1 ≤ binary64.val s.mantissa.hi ∧ binary64.val s.mantissa.hi < 2 ∧
    binary64.val s.mantissa.hi * 2 ^ s.exp2 = V

theorem EX.load (m : Mode) {x : ℕ} (hx : binary64.Finite x) (x0 : 0 < binary64.val x) (hb : binary64.bexp x ≠ 0) :
    EX (CC.loadScaled m { hi := x, lo := 0 }) (binary64.val x) := by
  have z : binary64.Finite 0 ∧ binary64.val 0 = 0 := ⟨by rw [finite_iff]; decide +kernel, (binary64.val_eq_zero_iff 0).2 (by decide)⟩
  obtain ⟨e, he, g1, g2, g3, g4, g5, g6, g7⟩ := scale_pair m (p := { hi := x, lo := 0 }) hx z.1 x0 hb (by
    show |binary64.val 0| ≤ _
    rw [z.2, abs_zero]; exact mul_nonneg (by norm_num) x0.le)
  have hl : CC.ldexp binary64 m 0 (-e) = 0 := C13_ldexp_exact binary64 m z.1 z.1 _ (by rw [z.2, zero_mul]) rfl
  have c1 : (2 : ℝ) ^ (-e) * 2 ^ e = 1 := by rw [← zpow_add₀ (by norm_num)]; simp
  have hd : CC.loadScaled m { hi := x, lo := 0 } = { mantissa := { hi := CC.ldexp binary64 m x (-e), lo := CC.ldexp binary64 m 0 (-e) }, exp2 := e } := by
    unfold CC.loadScaled
    simp only [he]
  rw [hd]
  dsimp only at *
  exact ⟨g1, g2, by dsimp only; rw [hl]; exact z.2, g4, g5, by dsimp only; rw [g3, mul_assoc, c1, mul_one]⟩

theorem EX.one : EX { mantissa := { hi := CC.one64, lo := 0 }, exp2 := 0 } 1 := by
  have z : binary64.Finite 0 ∧ binary64.val 0 = 0 := ⟨by rw [finite_iff]; decide +kernel, (binary64.val_eq_zero_iff 0).2 (by decide)⟩
  have o := one64_val
  refine ⟨o.1, z.1, z.2, ?_, ?_, ?_⟩ <;> norm_num [o.2]

theorem EX.mul (m : Mode) {s t : CC.ScaledPow} {V W : ℝ} (hs : EX s V) (ht : EX t W)
    (hr : ∃ c, binary64.Finite c ∧ binary64.val c = binary64.val s.mantissa.hi * binary64.val t.mantissa.hi) :
    ∃ p, CC.ddMul m s.mantissa t.mantissa = some p ∧ EX (CC.scaledPowRenormalize m { mantissa := p, exp2 := s.exp2 + t.exp2 }) (V * W) := by
  obtain ⟨s1, s2, s3, s4, s5, s6⟩ := hs
  obtain ⟨t1, t2, t3, t4, t5, t6⟩ := ht
  have pr1 : 1 ≤ binary64.val s.mantissa.hi * binary64.val t.mantissa.hi := by nlinarith
  have pr2 : binary64.val s.mantissa.hi * binary64.val t.mantissa.hi ≤ 4 := by nlinarith
  have pra : |binary64.val s.mantissa.hi * binary64.val t.mantissa.hi| ≤ 4 := by rw [abs_of_nonneg (by linarith)]; exact pr2
  have big : (4 : ℝ) ≤ 2 ^ (1023 : ℤ) := by
    have : (2 : ℝ) ^ (2 : ℤ) ≤ 2 ^ (1023 : ℤ) := two_zpow_le (by norm_num)
    exact le_trans (by norm_num) this
  have small : (2 : ℝ) ^ (-969 : ℤ) ≤ 1 := zpow_le_one_of_nonpos₀ (by norm_num) (by norm_num)
  obtain ⟨p, hp, ⟨zs, Rp⟩, fh, fl, ep⟩ := C33_two_prod m s1 t1 (pra.trans (big.trans maxFin64)) (Or.inr (small.trans (pr1.trans (le_abs_self _))))
  obtain ⟨-, vh⟩ := RoundsTo.exact_of Rp hr
  have l0 : binary64.val p.lo = 0 := by linarith
  obtain ⟨q1, z1, h1, R1⟩ := exactFma_spec m s1 t2 fl
  rw [t3, mul_zero, zero_add] at R1
  obtain ⟨f1, v1⟩ := RoundsTo.exact binary64 fl rfl R1
  obtain ⟨q2, z2, h2, R2⟩ := exactFma_spec m s2 t1 f1
  rw [s3, zero_mul, zero_add] at R2
  obtain ⟨f2, v2⟩ := RoundsTo.exact binary64 f1 rfl R2
  obtain ⟨g1, g2, g3, g4⟩ := exactAdd_zero m fh f2 (by rw [v2, v1, l0])
  refine ⟨CC.exactAdd binary64 m p.hi q2, by simp only [CC.ddMul, hp, Option.bind_eq_bind, Option.bind_some, h1, h2]; rfl, ?_⟩
  generalize CC.exactAdd binary64 m p.hi q2 = r at *
  rw [vh] at g3
  have p0 : 0 < binary64.val r.hi := by linarith
  have hb : binary64.bexp r.hi ≠ 0 := by
    intro hb
    have := abs_val_subnormal hb
    rw [abs_of_pos p0] at this
    have h2 : (2 : ℝ) ^ (-1022 : ℤ) ≤ 1 := zpow_le_one_of_nonpos₀ (by norm_num) (by norm_num)
    have h4 := this.trans_le h2
    linarith
  obtain ⟨e, he, k1, k2, k3, k4, k5, -, -⟩ := scale_pair m (p := r) g1 g2 p0 hb (by rw [g4, abs_zero]; exact mul_nonneg (by norm_num) p0.le)
  have hl : CC.ldexp binary64 m r.lo (-e) = r.lo := C13_ldexp_exact binary64 m g2 g2 _ (by rw [g4, zero_mul]) rfl
  have c1 : (2 : ℝ) ^ (-e) * 2 ^ e = 1 := by rw [← zpow_add₀ (by norm_num)]; simp
  by_cases e0 : e = 0
  · have hw : CC.scaledPowRenormalize m { mantissa := r, exp2 := s.exp2 + t.exp2 } = { mantissa := r, exp2 := s.exp2 + t.exp2 } := by
      unfold CC.scaledPowRenormalize
      simp only [he, e0, ne_eq, not_true_eq_false, if_false]
    rw [hw]
    rw [k3, e0, neg_zero, zpow_zero, mul_one] at k4 k5
    refine ⟨g1, g2, g4, k4, k5, ?_⟩
    dsimp only
    rw [g3, ← s6, ← t6, zpow_add₀ (by norm_num)]; ring
  · have hw : CC.scaledPowRenormalize m { mantissa := r, exp2 := s.exp2 + t.exp2 } =
        { mantissa := { hi := CC.ldexp binary64 m r.hi (-e), lo := CC.ldexp binary64 m r.lo (-e) }, exp2 := s.exp2 + t.exp2 + e } := by
      unfold CC.scaledPowRenormalize
      simp only [he, e0, ne_eq, not_false_eq_true, if_true]
    rw [hw, hl]
    refine ⟨k1, g2, g4, k4, k5, ?_⟩
    dsimp only
    rw [k3, g3, ← s6, ← t6, zpow_add₀ (by norm_num), zpow_add₀ (by norm_num)]
    linear_combination (binary64.val s.mantissa.hi * binary64.val t.mantissa.hi * 2 ^ s.exp2 * 2 ^ t.exp2) * c1

/-- a product of powers of a small odd part is representable -/
theorem ex_rep {o k N : ℕ} {a : ℤ} {v : ℝ} (h : v = (o : ℝ) ^ k * 2 ^ a) (hN : o ^ N ≤ 2 ^ 53) (hk : k ≤ N) (ho : 1 ≤ o) (h1 : (2 : ℝ) ^ (-1021 : ℤ) ≤ |v|)
    (h2 : |v| < 2 ^ (1024 : ℤ)) : ∃ c, binary64.Finite c ∧ binary64.val c = v := by
  have hF : (binary64.F : ℤ) = 52 := by decide
  have hbb : (binary64.bias : ℤ) + 1 = 1024 := by decide
  have ok : (o : ℝ) ^ k ≤ 2 ^ (53 : ℤ) := by
    have : o ^ k ≤ 2 ^ 53 := (Nat.pow_le_pow_right ho hk).trans hN
    exact_mod_cast this
  have pa := two_zpow_pos a
  have hv : |v| ≤ 2 ^ (a + 53) := by
    rw [h, abs_of_nonneg (by positivity), zpow_add₀ (by norm_num), mul_comm]
    exact mul_le_mul_of_nonneg_left ok pa.le
  have ha : -1074 ≤ a := by
    by_contra hc
    have h3 : (2 : ℝ) ^ (a + 53) < 2 ^ (-1021 : ℤ) := two_zpow_lt (by omega)
    exact absurd (h1.trans hv) (not_le.2 h3)
  refine binary64.rep (g := a) (v := v) ⟨(o : ℤ) ^ k, by rw [h]; push_cast; rfl⟩ (by rw [emin64]; exact ha) ?_ (by rw [hbb]; exact h2)
  rw [hF, show a + 52 + 1 = a + 53 by ring]; exact hv

/-- exact and a power of the odd part -/
def EXo (o : ℕ) (s : CC.ScaledPow) (V : ℝ) (i : ℕ) : Prop := EX s V ∧ ∃ a : ℤ, V = (o : ℝ) ^ i * 2 ^ a

theorem EXo.mul (m : Mode) {o N i j : ℕ} {s t : CC.ScaledPow} {V W : ℝ} (hs : EXo o s V i) (ht : EXo o t W j) (hN : o ^ N ≤ 2 ^ 53) (ho : 1 ≤ o) (hij : i + j ≤ N) :
    ∃ p, CC.ddMul m s.mantissa t.mantissa = some p ∧ EXo o (CC.scaledPowRenormalize m { mantissa := p, exp2 := s.exp2 + t.exp2 }) (V * W) (i + j) := by
  obtain ⟨hs1, a, ha⟩ := hs
  obtain ⟨ht1, b, hb⟩ := ht
  obtain ⟨p, hp, hp2⟩ := EX.mul m hs1 ht1 (by
    obtain ⟨-, -, -, s4, s5, s6⟩ := hs1
    obtain ⟨-, -, -, t4, t5, t6⟩ := ht1
    refine ex_rep (a := a + b - s.exp2 - t.exp2) (k := i + j) ?_ hN hij ho ?_ ?_
    · rw [ha] at s6; rw [hb] at t6
      have e1 : binary64.val s.mantissa.hi = (o : ℝ) ^ i * 2 ^ a * 2 ^ (-s.exp2) := by
        rw [← s6, mul_assoc, ← zpow_add₀ (by norm_num)]; simp
      have e2 : binary64.val t.mantissa.hi = (o : ℝ) ^ j * 2 ^ b * 2 ^ (-t.exp2) := by
        rw [← t6, mul_assoc, ← zpow_add₀ (by norm_num)]; simp
      rw [e1, e2, show a + b - s.exp2 - t.exp2 = a + b + -s.exp2 + -t.exp2 by ring, zpow_add₀ (by norm_num), zpow_add₀ (by norm_num), zpow_add₀ (by norm_num), pow_add]
      ring
    · have : (2 : ℝ) ^ (-1021 : ℤ) ≤ 1 := zpow_le_one_of_nonpos₀ (by norm_num) (by norm_num)
      refine this.trans (le_trans ?_ (le_abs_self _))
      nlinarith
    · have : (2 : ℝ) ^ (3 : ℤ) ≤ 2 ^ (1024 : ℤ) := two_zpow_le (by norm_num)
      refine lt_of_lt_of_le ?_ this
      rw [abs_of_nonneg (by nlinarith)]
      norm_num
      nlinarith)
  refine ⟨p, hp, hp2, a + b, ?_⟩
  rw [ha, hb, pow_add, zpow_add₀ (by norm_num)]; ring

theorem EXo.loop (m : Mode) {o N : ℕ} (hN : o ^ N ≤ 2 ^ 53) (ho : 1 ≤ o) : ∀ (n : ℕ) {r s : CC.ScaledPow} {V W : ℝ} {i j e : ℕ}, EXo o r V i → EXo o s W j →
    i + e * j ≤ N → e < 2 ^ n → ∃ out, CC.ipowScaledLoop m n r s e = some out ∧ EX out (V * W ^ e) := by
  intro n
  induction n with
  | zero =>
    intro r s V W i j e hr _ _ he
    have : e = 0 := by simpa using he
    subst this
    exact ⟨r, rfl, by simpa using hr.1⟩
  | succ n ih =>
    intro r s V W i j e hr hs hij he
    unfold CC.ipowScaledLoop
    by_cases e0 : e > 0
    swap
    · have : e = 0 := by omega
      subst this
      exact ⟨r, by simp, by simpa using hr.1⟩
    have hand : e &&& 1 = e % 2 := Nat.and_one_is_mod e
    have hsh : e >>> 1 = e / 2 := Nat.shiftRight_one e
    have hlt : e / 2 < 2 ^ n := by rw [pow_succ] at he; omega
    rw [if_pos e0, hand, hsh]
    rcases Nat.mod_two_eq_zero_or_one e with h2 | h2
    · have hd : e = 2 * (e / 2) := by omega
      have e1 : e / 2 > 0 := by omega
      have hj : j + j + 0 ≤ N := by nlinarith
      obtain ⟨q, hq, hq2⟩ := EXo.mul m hs hs hN ho hj
      simp only [h2, ne_eq, not_true_eq_false, if_false, if_pos e1, hq, Option.pure_def, Option.bind_eq_bind, Option.bind_some]
      obtain ⟨out, ho, hsp⟩ := ih hr hq2 (by
        have : e / 2 * (j + j) = 2 * (e / 2) * j := by ring
        rw [this, ← hd]; exact hij) hlt
      refine ⟨out, ho, ?_⟩
      rw [show V * W ^ e = V * (W * W) ^ (e / 2) by rw [← pow_two, ← pow_mul, ← hd]]
      exact hsp
    · have hd : e = 2 * (e / 2) + 1 := by omega
      have hie : i + j + e / 2 * (j + j) = i + e * j := by
        conv_rhs => rw [hd]
        ring
      obtain ⟨p, hp, hp2⟩ := EXo.mul m hr hs hN ho (by omega)
      by_cases e1 : e / 2 > 0
      · have hj : j + j ≤ N := by nlinarith
        obtain ⟨q, hq, hq2⟩ := EXo.mul m hs hs hN ho hj
        simp only [h2, ne_eq, one_ne_zero, not_false_eq_true, if_true, if_pos e1, hp, hq, Option.pure_def, Option.bind_eq_bind, Option.bind_some]
        obtain ⟨out, ho, hsp⟩ := ih hp2 hq2 (by omega) hlt
        refine ⟨out, ho, ?_⟩
        rw [show V * W ^ e = V * W * (W * W) ^ (e / 2) by rw [← pow_two, ← pow_mul, mul_assoc, ← pow_succ', ← hd]]
        exact hsp
      · have e2 : e / 2 = 0 := by omega
        simp only [h2, ne_eq, one_ne_zero, not_false_eq_true, if_true, if_neg e1, hp, Option.pure_def, Option.bind_eq_bind, Option.bind_some]
        obtain ⟨out, ho, hsp⟩ := ih hp2 hs (by rw [e2] at hie ⊢; omega) hlt
        refine ⟨out, ho, ?_⟩
        have e3 : e = 1 := by omega
        rw [e2, pow_zero, mul_one] at hsp
        rw [e3, pow_one]
        exact hsp

theorem ipow_exact (m : Mode) {x o n : ℕ} {g : ℤ} (hx : binary64.Finite x) (x0 : 0 < binary64.val x) (hb : binary64.bexp x ≠ 0) (ho : binary64.val x = (o : ℝ) * 2 ^ g)
    (hn : n < 2 ^ 64) (hon : o ^ n ≤ 2 ^ 53) : ∃ out, CC.ipowScaled m (CC.loadScaled m { hi := x, lo := 0 }) n = some out ∧ EX out (binary64.val x ^ n) := by
  have o1 : 1 ≤ o := by
    rcases Nat.eq_zero_or_pos o with h | h
    · rw [h] at ho; simp at ho; rw [ho] at x0; exact absurd x0 (lt_irrefl _)
    · exact h
  obtain ⟨out, h1, h2⟩ := EXo.loop m hon o1 64 (i := 0) (j := 1) (e := n) ⟨EX.one, 0, by simp⟩ ⟨EX.load m hx x0 hb, g, by rw [ho]; simp⟩ (by omega) hn
  exact ⟨out, h1, by simpa using h2⟩

end Verif
