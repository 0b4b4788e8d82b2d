import Verif.Lemmas.Ipow4

/-!
# pow: the square
-/

namespace Verif
open Fmt Real

theorem exactAdd_same (m : Mode) {a b : ℕ} {zs : Bool} (ha : binary64.Finite a) (hb : binary64.Finite b) (h0 : binary64.val a + binary64.val b ≠ 0)
    (R : binary64.RoundsTo m zs (binary64.val a + binary64.val b) a) :
    let q := CC.exactAdd binary64 m a b
    binary64.Finite q.hi ∧ binary64.Finite q.lo ∧ q.hi = a ∧ binary64.val q.lo = binary64.val b := by
  intro q
  have R1 := binary64.hadd_spec m ha hb
  have e1 : binary64.hadd m a b = a := RoundsTo.unique binary64 R1 (roundsTo_zs binary64 h0 R _)
  have R2 := binary64.hsub_spec m ha ha
  rw [sub_self] at R2
  obtain ⟨f2, v2⟩ := RoundsTo.exact binary64 (binary64.finite_zero false) (val_zero binary64 false) R2
  have R3 := binary64.hsub_spec m hb f2
  rw [v2, sub_zero] at R3
  obtain ⟨f3, v3⟩ := RoundsTo.exact binary64 hb rfl R3
  have hq : q = { hi := a, lo := binary64.hsub m b (binary64.hsub m a a) } := by
    change CC.exactAdd binary64 m a b = _
    unfold CC.exactAdd
    simp only [e1]
  rw [hq]
  exact ⟨ha, f3, rfl, v3⟩

/-- a scaled pair that is exactly `V`, its high part being the rounded sum -/
def DX (m : Mode) (s : CC.ScaledPow) (V : ℝ) : Prop :=
  binary64.Finite s.mantissa.hi ∧ binary64.Finite s.mantissa.lo ∧ 1 ≤ binary64.val s.mantissa.hi ∧ binary64.val s.mantissa.hi < 2 ∧
    |binary64.val s.mantissa.lo| ≤ 3 / 2 ^ 52 ∧ (binary64.val s.mantissa.hi + binary64.val s.mantissa.lo) * 2 ^ s.exp2 = V ∧
    ∃ zs, binary64.RoundsTo m zs (binary64.val s.mantissa.hi + binary64.val s.mantissa.lo) s.mantissa.hi

theorem sq_exact (m : Mode) {s : CC.ScaledPow} {V : ℝ} (hs : EX s V) :
    ∃ p, CC.ddMul m s.mantissa s.mantissa = some p ∧ DX m (CC.scaledPowRenormalize m { mantissa := p, exp2 := s.exp2 + s.exp2 }) (V * V) := by
  obtain ⟨s1, s2, s3, s4, s5, s6⟩ := hs
  have pr1 : 1 ≤ binary64.val s.mantissa.hi * binary64.val s.mantissa.hi := by nlinarith
  have pr2 : binary64.val s.mantissa.hi * binary64.val s.mantissa.hi ≤ 4 := by nlinarith
  have pra : |binary64.val s.mantissa.hi * binary64.val s.mantissa.hi| ≤ 4 := by rw [abs_of_nonneg (by linarith)]; exact pr2
  have big : (4 : ℝ) ≤ 2 ^ (1023 : ℤ) := by
    have : (2 : ℝ) ^ (2 : ℤ) ≤ 2 ^ (1023 : ℤ) := two_zpow_le (by norm_num)
    exact le_trans (by norm_num) this
  have small : (2 : ℝ) ^ (-969 : ℤ) ≤ 1 := zpow_le_one_of_nonpos₀ (by norm_num) (by norm_num)
  obtain ⟨p, hp, ⟨zs, Rp⟩, fh, fl, ep⟩ := C33_two_prod m s1 s1 (pra.trans (big.trans maxFin64)) (Or.inr (small.trans (pr1.trans (le_abs_self _))))
  obtain ⟨-, eh⟩ := err64 Rp (pra.trans (by norm_num))
  have hml : binary64.val p.lo = 0 ∨ (2 : ℝ) ^ (-178 : ℤ) ≤ |binary64.val p.lo| := by
    have hc := binary64.mult_ce s.mantissa.hi
    have hce : -52 ≤ binary64.ce s.mantissa.hi := by
      by_contra hcon
      have h1 := binary64.abs_val_lt_ce s.mantissa.hi
      have h2 : (binary64.F : ℤ) = 52 := by decide
      have h3 : (2 : ℝ) ^ (binary64.ce s.mantissa.hi + binary64.F + 1) ≤ 1 := zpow_le_one_of_nonpos₀ (by norm_num) (by omega)
      have h4 := le_abs_self (binary64.val s.mantissa.hi)
      linarith
    have hc2 := hc.weaken hce
    obtain ⟨p', hp', -, -, -, -, ml, -, -⟩ := twoProd_terms m (g := -104) s1 s1 (pra.trans (by norm_num)) (by norm_num) (by simpa using hc2.mul hc2)
    rw [hp] at hp'
    obtain rfl := Option.some.inj hp'
    exact ml.small (by norm_num)
  obtain ⟨q1, z1, h1, R1⟩ := exactFma_spec m s1 s2 fl
  rw [s3, mul_zero, zero_add] at R1
  obtain ⟨f1, v1⟩ := RoundsTo.exact binary64 fl rfl R1
  obtain ⟨q2, z2, h2, R2⟩ := exactFma_spec m s2 s1 f1
  rw [s3, zero_mul, zero_add] at R2
  obtain ⟨f2, v2⟩ := RoundsTo.exact binary64 f1 rfl R2
  rw [v1] at v2
  obtain ⟨g1, g2, hhi, g4⟩ := exactAdd_same m (zs := zs) fh f2 (by rw [v2, ep]; linarith) (by rw [v2, ep]; exact Rp)
  refine ⟨CC.exactAdd binary64 m p.hi q2, by simp only [CC.ddMul, hp, Option.bind_eq_bind, Option.bind_some, h1, h2]; rfl, ?_⟩
  generalize CC.exactAdd binary64 m p.hi q2 = r at *
  rw [v2] at g4
  rw [← hhi] at Rp
  rw [← hhi, ← g4] at ep
  rw [← hhi] at eh
  rw [← g4] at hml
  rw [abs_of_pos (show 0 < binary64.val s.mantissa.hi * binary64.val s.mantissa.hi by linarith)] at eh
  have hu := ru_le m
  have hu1 : ru m * (binary64.val s.mantissa.hi * binary64.val s.mantissa.hi) ≤ 1 / 2 ^ 52 * (binary64.val s.mantissa.hi * binary64.val s.mantissa.hi) :=
    mul_le_mul_of_nonneg_right hu (by linarith)
  have e200 := eta_le
  have p0 : 99 / 100 ≤ binary64.val r.hi := by
    have := (abs_le.1 eh).1
    norm_num at this hu1 e200 ⊢; linarith
  have hlo : |binary64.val r.lo| ≤ 11 / 10 / 2 ^ 52 * binary64.val r.hi := by
    rw [show binary64.val r.lo = -(binary64.val r.hi - binary64.val s.mantissa.hi * binary64.val s.mantissa.hi) by linarith, abs_neg]
    have := (abs_le.1 eh).1
    refine eh.trans ?_
    norm_num at this hu1 e200 ⊢; linarith
  have hb : binary64.bexp r.hi ≠ 0 := by
    intro hb
    have := abs_val_subnormal hb
    rw [abs_of_pos (by linarith)] at this
    have h2 : (2 : ℝ) ^ (-1022 : ℤ) ≤ 2 ^ (-1 : ℤ) := two_zpow_le (by norm_num)
    have h4 := this.trans_le (h2.trans (show (2 : ℝ) ^ (-1 : ℤ) ≤ 1 / 2 by norm_num))
    linarith
  obtain ⟨e, he, k1, k2, k3, k4, k5, k6, k7⟩ := scale_pair m (p := r) g1 g2 (by linarith) hb hlo
  have c1 : (2 : ℝ) ^ (-e) * 2 ^ e = 1 := by rw [← zpow_add₀ (by norm_num)]; simp
  have hl : binary64.val (CC.ldexp binary64 m r.lo (-e)) = binary64.val r.lo * 2 ^ (-e) := by
    have lb := hlo
    refine (ldexp_unit m g2 ?_ ?_).2.1
    · rcases hml with h | h
      · exact Or.inl h
      · right
        rw [abs_mul, abs_of_pos (two_zpow_pos (-e))]
        have h5 : (1 : ℝ) / 8 ≤ 2 ^ (-e) := by
          rw [k3] at k4
          have := (abs_le.1 eh).2
          have h6 : binary64.val r.hi ≤ 8 := by norm_num at this hu1 e200 ⊢; linarith
          have h7 := mul_le_mul_of_nonneg_right h6 (two_zpow_pos (-e)).le
          linarith
        have h8 := mul_le_mul h h5 (by norm_num) (abs_nonneg _)
        refine le_trans ?_ h8
        have h9 : (2 : ℝ) ^ (-1000 : ℤ) ≤ 2 ^ (-178 : ℤ) * 2 ^ (-3 : ℤ) := by
          rw [← zpow_add₀ (by norm_num)]; exact two_zpow_le (by norm_num)
        exact h9.trans (mul_le_mul_of_nonneg_left (by norm_num) (two_zpow_pos _).le)
    · rw [abs_mul, abs_of_pos (two_zpow_pos (-e))]
      have h5 := mul_le_mul_of_nonneg_right hlo (two_zpow_pos (-e)).le
      rw [mul_assoc, ← k3] at h5
      have h6 : (11 : ℝ) / 10 / 2 ^ 52 * binary64.val (CC.ldexp binary64 m r.hi (-e)) ≤ 1 := by
        have := mul_le_mul_of_nonneg_left k5.le (show (0 : ℝ) ≤ 11 / 10 / 2 ^ 52 by norm_num)
        refine this.trans (by norm_num)
      exact h5.trans (h6.trans (one_le_zpow₀ (by norm_num) (by norm_num)))
  by_cases e0 : e = 0
  · have hw : CC.scaledPowRenormalize m { mantissa := r, exp2 := s.exp2 + s.exp2 } = { mantissa := r, exp2 := s.exp2 + s.exp2 } := by
      unfold CC.scaledPowRenormalize
      simp only [he, e0, ne_eq, not_true_eq_false, if_false]
    rw [hw]
    rw [k3, e0, neg_zero, zpow_zero, mul_one] at k4 k5
    rw [hl, e0, neg_zero, zpow_zero, mul_one] at k7
    refine ⟨g1, g2, k4, k5, k7, ?_, zs, ?_⟩
    · dsimp only
      rw [ep, ← s6, zpow_add₀ (by norm_num)]; ring
    · dsimp only
      rw [ep]; exact Rp
  · have hw : CC.scaledPowRenormalize m { mantissa := r, exp2 := s.exp2 + s.exp2 } =
        { mantissa := { hi := CC.ldexp binary64 m r.hi (-e), lo := CC.ldexp binary64 m r.lo (-e) }, exp2 := s.exp2 + s.exp2 + e } := by
      unfold CC.scaledPowRenormalize
      simp only [he, e0, ne_eq, not_false_eq_true, if_true]
    rw [hw]
    refine ⟨k1, k2, k4, k5, k7, ?_, zs, ?_⟩
    · dsimp only
      rw [k3, hl, ← add_mul, ep, ← s6, zpow_add₀ (by norm_num), zpow_add₀ (by norm_num)]
      linear_combination (binary64.val s.mantissa.hi * binary64.val s.mantissa.hi * 2 ^ s.exp2 * 2 ^ s.exp2) * c1
    · dsimp only
      have hmn : binary64.minNormal ≤ 1 / 2 := by
        have h1 : (1 : ℤ) - binary64.bias = -1022 := by decide
        unfold Fmt.minNormal; rw [h1]
        have h2 : (2 : ℝ) ^ (-1022 : ℤ) ≤ 2 ^ (-1 : ℤ) := two_zpow_le (by norm_num)
        exact h2.trans (by norm_num)
      have hbb : (binary64.bias : ℤ) + 1 = 1024 := by decide
      have hsm : 1 / 2 ≤ |binary64.val s.mantissa.hi * binary64.val s.mantissa.hi * 2 ^ (-e)| := by
        rw [← ep, add_mul, ← k3, ← hl]
        have := (abs_le.1 k7).1
        refine le_trans ?_ (le_abs_self _)
        norm_num at this ⊢; linarith
      rw [k3, hl, ← add_mul, ep]
      refine RoundsTo.scale binary64 (by decide) Rp (-e) ?_ ?_ (hmn.trans hsm) g1 k1 k3 ?_
      · refine hmn.trans (le_trans ?_ (le_abs_self _)); linarith
      · rw [hbb]
        have : (2 : ℝ) ^ (3 : ℤ) ≤ 2 ^ (1024 : ℤ) := two_zpow_le (by norm_num)
        exact lt_of_lt_of_le (lt_of_le_of_lt pra (by norm_num)) this
      · rw [sgn_of_pos binary64 (by linarith), sgn_of_pos binary64 (by linarith)]


theorem one_mul_exact (m : Mode) {s : CC.ScaledPow} {V : ℝ} (hs : DX m s V) :
    ∃ p, CC.ddMul m { hi := CC.one64, lo := 0 } s.mantissa = some p ∧
      let t := CC.scaledPowRenormalize m { mantissa := p, exp2 := 0 + s.exp2 }
      (binary64.val t.mantissa.hi + binary64.val t.mantissa.lo) * 2 ^ t.exp2 = V := by
  obtain ⟨s1, s2, s4, s5, s3, s6, zs, Rs⟩ := hs
  have z : binary64.Finite 0 ∧ binary64.val 0 = 0 := ⟨by rw [finite_iff]; decide +kernel, (binary64.val_eq_zero_iff 0).2 (by decide)⟩
  have o := one64_val
  have ov : binary64.val CC.one64 * binary64.val s.mantissa.hi = binary64.val s.mantissa.hi := by rw [o.2, one_mul]
  have pra : |binary64.val CC.one64 * binary64.val s.mantissa.hi| ≤ 4 := by rw [ov, abs_of_nonneg (by linarith)]; linarith
  have big : (4 : ℝ) ≤ 2 ^ (1023 : ℤ) := by
    have : (2 : ℝ) ^ (2 : ℤ) ≤ 2 ^ (1023 : ℤ) := two_zpow_le (by norm_num)
    exact le_trans (by norm_num) this
  have small : (2 : ℝ) ^ (-969 : ℤ) ≤ 1 := zpow_le_one_of_nonpos₀ (by norm_num) (by norm_num)
  obtain ⟨p, hp, ⟨zs', Rp⟩, fh, fl, ep⟩ := C33_two_prod m o.1 s1 (pra.trans (big.trans maxFin64)) (Or.inr (small.trans (by
    rw [ov]; exact s4.trans (le_abs_self _))))
  clear big small
  rw [ov] at Rp ep
  have hph : p.hi = s.mantissa.hi := by
    obtain ⟨f, v⟩ := RoundsTo.exact binary64 s1 rfl Rp
    exact binary64.eq_of_val_eq f.1 s1.1 v (by rw [sgn_of_pos binary64 (by rw [v]; linarith), sgn_of_pos binary64 (by linarith)])
  have l0 : binary64.val p.lo = 0 := by rw [hph] at ep; linarith
  obtain ⟨q1, z1, h1, R1⟩ := exactFma_spec m o.1 s2 fl
  rw [o.2, one_mul, l0, add_zero] at R1
  obtain ⟨f1, v1⟩ := RoundsTo.exact binary64 s2 rfl R1
  obtain ⟨q2, z2, h2, R2⟩ := exactFma_spec m z.1 s1 f1
  rw [z.2, zero_mul, zero_add] at R2
  obtain ⟨f2, v2⟩ := RoundsTo.exact binary64 f1 rfl R2
  rw [v1] at v2
  have s3' := (abs_le.1 s3).1
  obtain ⟨g1, g2, g3, g4⟩ := exactAdd_same m (zs := zs) fh f2 (by rw [v2, hph]; norm_num at s3' ⊢; intro h; linarith) (by rw [v2, hph]; exact Rs)
  refine ⟨CC.exactAdd binary64 m p.hi q2, by simp only [CC.ddMul, hp, Option.bind_eq_bind, Option.bind_some, h1, h2]; rfl, ?_⟩
  generalize CC.exactAdd binary64 m p.hi q2 = r at *
  rw [hph] at g3
  have hb : binary64.bexp r.hi = 1023 := by
    rw [g3]
    have := bexp_of_window (x := s.mantissa.hi) (k := 0) (by rw [abs_of_nonneg (by linarith)]; simpa using s4) (by rw [abs_of_nonneg (by linarith)]; simpa using s5) (by norm_num)
    omega
  have hw : CC.scaledPowRenormalize m { mantissa := r, exp2 := 0 + s.exp2 } = { mantissa := r, exp2 := s.exp2 } := by
    unfold CC.scaledPowRenormalize
    have : (FPBits.biasedExp binary64 r.hi : ℤ) - binary64.bias = 0 := by
      rw [FPBits.biasedExp_eq, hb]; decide
    simp only [this, ne_eq, not_true_eq_false, if_false, zero_add]
  dsimp only
  rw [hw]
  dsimp only
  rw [g3, g4, v2]; exact s6

/-- the square is formed exactly -/
theorem ipow_sq (m : Mode) {x : ℕ} (hx : binary64.Finite x) (x0 : 0 < binary64.val x) (hb : binary64.bexp x ≠ 0) :
    ∃ out, CC.ipowScaled m (CC.loadScaled m { hi := x, lo := 0 }) 2 = some out ∧
      (binary64.val out.mantissa.hi + binary64.val out.mantissa.lo) * 2 ^ out.exp2 = binary64.val x ^ 2 := by
  have hl := EX.load m hx x0 hb
  generalize CC.loadScaled m { hi := x, lo := 0 } = s at *
  obtain ⟨p, hp, hd⟩ := sq_exact m hl
  obtain ⟨q, hq, he⟩ := one_mul_exact m hd
  rw [← pow_two] at he
  refine ⟨_, ?_, he⟩
  unfold CC.ipowScaled CC.ipowScaledLoop
  have a1 : (2 : ℕ) &&& 1 = 0 := by decide
  have a2 : (2 : ℕ) >>> 1 = 1 := by decide
  have a3 : (1 : ℕ) &&& 1 = 1 := by decide
  have a4 : (1 : ℕ) >>> 1 = 0 := by decide
  simp only [a1, a2, hp, ne_eq, not_true_eq_false, if_false, gt_iff_lt, Nat.ofNat_pos, if_true, zero_lt_one, Option.pure_def, Option.bind_eq_bind, Option.bind_some]
  unfold CC.ipowScaledLoop
  simp only [a3, a4, hq, ne_eq, one_ne_zero, not_false_eq_true, gt_iff_lt, lt_irrefl, if_false, if_true, zero_lt_one, Option.pure_def, Option.bind_eq_bind, Option.bind_some]
  unfold CC.ipowScaledLoop
  simp

end Verif
