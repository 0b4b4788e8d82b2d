import Verif.Lemmas.Ipow3
import Verif.Lemmas.Exp6

/-!
# The double-double square root of `pow`
-/

namespace Verif
open Fmt Real

/-- one rounding, relative to a bound of the value -/
theorem rnd_rel {m : Mode} {zs : Bool} {v : ℝ} {b : ℕ} {C : ℝ} (R : binary64.RoundsTo m zs v b) (hv : |v| ≤ C) (hC1 : (2 : ℝ) ^ (-800 : ℤ) ≤ C) (hC2 : C ≤ 2 ^ (1000 : ℤ)) :
    binary64.Finite b ∧ |binary64.val b - v| ≤ (1 / 2 ^ 52 + 1 / 2 ^ 200) * C := by
  obtain ⟨f, e⟩ := err64b R (hv.trans hC2)
  refine ⟨f, e.trans ?_⟩
  have h1 := mul_le_mul (ru_le m) hv (abs_nonneg _) (by norm_num)
  have h2 : eta ≤ 1 / 2 ^ 200 * C := by
    rw [eta_eq]
    refine le_trans ?_ (mul_le_mul_of_nonneg_left hC1 (by norm_num))
    rw [show (1 : ℝ) / 2 ^ 200 = 2 ^ (-200 : ℤ) by rw [zpow_neg, one_div]; norm_cast, ← zpow_add₀ (by norm_num)]
    exact two_zpow_le (by norm_num)
  rw [add_mul]; exact add_le_add h1 h2

/-- `dd_sqrt` for arguments far from the ends of the range -/
theorem ddSqrt_err (m : Mode) {x : ℕ} (hx : binary64.Finite x) (h1 : (2 : ℝ) ^ (-690 : ℤ) ≤ binary64.val x) (h2 : binary64.val x ≤ 2 ^ (690 : ℤ)) :
    ∃ p, CC.ddSqrt m x = some p ∧ binary64.Finite p.hi ∧ binary64.Finite p.lo ∧
      |binary64.val p.hi + binary64.val p.lo - √(binary64.val x)| ≤ 14 / 2 ^ 104 * √(binary64.val x) ∧
      |binary64.val p.lo| ≤ 103 / 100 / 2 ^ 52 * √(binary64.val x) ∧ |binary64.val p.hi - √(binary64.val x)| ≤ 103 / 100 / 2 ^ 52 * √(binary64.val x) := by
  have x0 : 0 < binary64.val x := lt_of_lt_of_le (two_zpow_pos _) h1
  set S := √(binary64.val x) with hS
  have S0 : 0 < S := Real.sqrt_pos.2 x0
  have SS : S ^ 2 = binary64.val x := Real.sq_sqrt x0.le
  have S1 : (2 : ℝ) ^ (-345 : ℤ) ≤ S := by
    rw [hS]; refine Real.le_sqrt_of_sq_le ?_
    rw [← zpow_natCast, ← zpow_mul]; exact h1
  have S2 : S ≤ 2 ^ (345 : ℤ) := by
    rw [hS, Real.sqrt_le_left (two_zpow_pos _).le, ← zpow_natCast, ← zpow_mul]; exact h2
  set u : ℝ := 1 / 2 ^ 52 + 1 / 2 ^ 200 with hu
  have u0 : 0 < u := by rw [hu]; norm_num
  have u1 : u ≤ 1 / 2 ^ 51 := by rw [hu]; norm_num
  -- bounds usable in `rnd_rel`
  have lo1 : ∀ {k : ℝ}, 1 / 2 ^ 100 ≤ k → (2 : ℝ) ^ (-800 : ℤ) ≤ k * S := fun {k} hk => by
    refine le_trans ?_ (mul_le_mul hk S1 (two_zpow_pos _).le (le_trans (by norm_num) hk))
    rw [show (1 : ℝ) / 2 ^ 100 = 2 ^ (-100 : ℤ) by rw [zpow_neg, one_div]; norm_cast, ← zpow_add₀ (by norm_num)]
    exact two_zpow_le (by norm_num)
  have lo2 : ∀ {k : ℝ}, 1 / 2 ^ 100 ≤ k → (2 : ℝ) ^ (-800 : ℤ) ≤ k * S ^ 2 := fun {k} hk => by
    rw [SS]
    refine le_trans ?_ (mul_le_mul hk h1 (two_zpow_pos _).le (le_trans (by norm_num) hk))
    rw [show (1 : ℝ) / 2 ^ 100 = 2 ^ (-100 : ℤ) by rw [zpow_neg, one_div]; norm_cast, ← zpow_add₀ (by norm_num)]
    exact two_zpow_le (by norm_num)
  have hi1 : ∀ {k : ℝ}, k ≤ 2 ^ 10 → k * S ≤ 2 ^ (1000 : ℤ) := fun {k} hk => by
    refine le_trans (mul_le_mul hk S2 S0.le (by norm_num)) ?_
    rw [show (2 : ℝ) ^ 10 = 2 ^ (10 : ℤ) by norm_cast, ← zpow_add₀ (by norm_num)]
    exact two_zpow_le (by norm_num)
  have hi2 : ∀ {k : ℝ}, k ≤ 2 ^ 10 → k * S ^ 2 ≤ 2 ^ (1000 : ℤ) := fun {k} hk => by
    rw [SS]
    refine le_trans (mul_le_mul hk h2 x0.le (by norm_num)) ?_
    rw [show (2 : ℝ) ^ 10 = 2 ^ (10 : ℤ) by norm_cast, ← zpow_add₀ (by norm_num)]
    exact two_zpow_le (by norm_num)
  have ku : (1 : ℝ) / 2 ^ 100 ≤ 2 * u ∧ (1 : ℝ) / 2 ^ 100 ≤ 3 * u ∧ (1 : ℝ) / 2 ^ 100 ≤ 4 * u ∧ 2 * u ≤ 2 ^ 10 ∧ 3 * u ≤ 2 ^ 10 ∧ 4 * u ≤ 2 ^ 10 := by
    rw [hu]; norm_num
  clear_value u
  -- the program
  have nt : binary64.hlt x 0x0170000000000000 = false := by
    have fc : binary64.Finite 0x0170000000000000 := by rw [finite_iff]; decide +kernel
    have vc : binary64.val 0x0170000000000000 ≤ (2 : ℝ) ^ (-690 : ℤ) := by
      rw [val_eq_ival, show binary64.ival 0x0170000000000000 = 2 ^ 74 by decide +kernel, minSub_eq_zpow, emin64]
      rw [show (((2 ^ 74 : ℤ)) : ℝ) = 2 ^ (74 : ℤ) by norm_cast, ← zpow_add₀ (by norm_num)]
      exact two_zpow_le (by norm_num)
    rw [← Bool.not_eq_true, CC.hlt_finite binary64 hx fc, not_lt]
    exact vc.trans h1
  have g969 : (2 : ℝ) ^ (-969 : ℤ) ≤ 99 / 100 * S ^ 2 := by
    refine le_trans (two_zpow_le (by norm_num)) (lo2 (by norm_num))
  have gmax : 101 / 100 * S ^ 2 ≤ binary64.maxFin := (hi2 (by norm_num)).trans big_le
  have Rs := C19_sqrt binary64 (by decide) (by decide) m hx x0.le
  rw [← hS] at Rs
  clear_value S
  clear h1 h2 S1 S2 hS
  have F1 := rnd_rel Rs (C := 1 * S) (by rw [abs_of_pos S0, one_mul]) (lo1 (by norm_num)) (hi1 (by norm_num))
  rw [one_mul, ← hu] at F1
  unfold CC.ddSqrt
  simp only [nt, Bool.false_eq_true, if_false]
  obtain ⟨fa, F1⟩ := F1
  clear Rs
  generalize CC.sqrt binary64 m x = s0 at *
  have uu : u * u ≤ 1 / 2 ^ 51 * u := mul_le_mul_of_nonneg_right u1 u0.le
  have S2 : 0 < S ^ 2 := by positivity
  have uS : u * S ≤ 1 / 2 ^ 51 * S := mul_le_mul_of_nonneg_right u1 S0.le
  have uuS : u * u * S ≤ 1 / 2 ^ 51 * (u * S) := by
    have := mul_le_mul_of_nonneg_right uu S0.le; linarith
  have uuS2 : u * u * S ^ 2 ≤ 1 / 2 ^ 51 * (u * S ^ 2) := by
    have := mul_le_mul_of_nonneg_right uu S2.le; linarith
  have pus : 0 < u * S := mul_pos u0 S0
  have pus2 : 0 < u * S ^ 2 := mul_pos u0 S2
  have A := abs_le.1 F1
  have a1 : 999 / 1000 * S ≤ binary64.val s0 := by norm_num at uS; linarith
  have a2 : binary64.val s0 ≤ 1001 / 1000 * S := by norm_num at uS; linarith
  have aa1 : 99 / 100 * S ^ 2 ≤ binary64.val s0 * binary64.val s0 := by
    have := mul_le_mul a1 a1 (by positivity) (by linarith)
    nlinarith
  have aa2 : binary64.val s0 * binary64.val s0 ≤ 101 / 100 * S ^ 2 := by
    have := mul_le_mul a2 a2 (by linarith) (by positivity)
    nlinarith
  have aan : |binary64.val s0 * binary64.val s0| = binary64.val s0 * binary64.val s0 := abs_of_nonneg (mul_self_nonneg _)
  obtain ⟨sq, hsq, ⟨zs, Rh⟩, fh, fl, hl⟩ := C33_two_prod m fa fa (by rw [aan]; exact aa2.trans gmax) (Or.inr (by rw [aan]; exact g969.trans aa1))
  clear g969 gmax
  simp only [hsq, Option.bind_eq_bind, Option.bind_some, Option.pure_def]
  have F2 := (rnd_rel Rh (C := 101 / 100 * S ^ 2) (by rw [aan]; exact aa2) (lo2 (by norm_num)) (hi2 (by norm_num))).2
  rw [← hu] at F2
  have R3 := binary64.hsub_spec m hx fh
  have R4 := fun f => binary64.hsub_spec m (x := binary64.hsub m x sq.hi) f fl
  have o := one64_val
  have two := two64_val
  have R5 := binary64.hmul_spec m two.1 fa
  have m1 := binary64.hmul_spec m fa o.1
  rw [o.2, mul_one] at m1
  obtain ⟨fm1, vm1⟩ := RoundsTo.exact binary64 fa rfl m1
  rw [two.2] at R5
  rw [← SS] at R3
  generalize binary64.hsub m x sq.hi = d1b at *
  generalize sq.hi = hb at *
  generalize sq.lo = lb at *
  have b2 : |2 * binary64.val s0| < 2 ^ ((binary64.bias : ℤ) + 1) := by
    have h9 : |2 * binary64.val s0| ≤ 3 * S := by rw [abs_of_nonneg (by linarith)]; linarith
    refine lt_of_le_of_lt (h9.trans (hi1 (by norm_num))) ?_
    exact zpow_lt_zpow_right₀ (by norm_num) (by decide)
  obtain ⟨c2, fc2, vc2, -⟩ := binary64.scale_exact (x := s0) (k := 1) (Or.inl (by norm_num)) (by rw [zpow_one, mul_comm]; exact b2)
  rw [zpow_one, mul_comm] at vc2
  obtain ⟨f2a, v2a⟩ := RoundsTo.exact binary64 fc2 vc2 R5
  have R6 := fun e f => binary64.hdiv_spec m (x := e) f f2a (by rw [v2a]; linarith)
  simp only [v2a] at R6
  generalize binary64.hmul m CC.two64 s0 = tb at *
  have q : |S ^ 2 - binary64.val s0 * binary64.val s0| ≤ 201 / 100 * (u * S ^ 2) := by
    rw [show S ^ 2 - binary64.val s0 * binary64.val s0 = -(binary64.val s0 - S) * (S + binary64.val s0) by ring, abs_mul, abs_neg]
    refine (mul_le_mul F1 (show |S + binary64.val s0| ≤ 201 / 100 * S by rw [abs_of_pos (by linarith)]; linarith) (abs_nonneg _) pus.le).trans (le_of_eq (by ring))
  have h3 : |S ^ 2 - binary64.val hb| ≤ 4 * u * S ^ 2 := by
    rw [show S ^ 2 - binary64.val hb = (S ^ 2 - binary64.val s0 * binary64.val s0) + -(binary64.val hb - binary64.val s0 * binary64.val s0) by ring]
    refine (abs_add_le' q ((abs_neg _).trans_le F2)).trans ?_
    linarith
  obtain ⟨fd1, F3⟩ := rnd_rel R3 h3 (lo2 ku.2.2.1) (hi2 ku.2.2.2.2.2)
  rw [← hu] at F3
  have R4 := R4 fd1
  have q4 : |binary64.val d1b - binary64.val lb - (S ^ 2 - binary64.val s0 * binary64.val s0)| ≤ u * (4 * u * S ^ 2) := by
    rw [show binary64.val d1b - binary64.val lb - (S ^ 2 - binary64.val s0 * binary64.val s0) = binary64.val d1b - (S ^ 2 - binary64.val hb) by rw [← hl]; ring]; exact F3
  have n4 : |binary64.val d1b - binary64.val lb| ≤ 3 * u * S ^ 2 := by
    rw [show binary64.val d1b - binary64.val lb = (binary64.val d1b - binary64.val lb - (S ^ 2 - binary64.val s0 * binary64.val s0)) + (S ^ 2 - binary64.val s0 * binary64.val s0) by ring]
    refine (abs_add_le' q4 q).trans ?_
    norm_num at uuS2; linarith
  obtain ⟨fe, F4⟩ := rnd_rel R4 n4 (lo2 ku.2.1) (hi2 ku.2.2.2.2.1)
  rw [← hu] at F4
  have R6 := R6 _ fe
  generalize binary64.hsub m d1b lb = eb at *
  generalize hE : binary64.val eb = e at *
  have q5 : |e - (S ^ 2 - binary64.val s0 * binary64.val s0)| ≤ 7 * (u * u * S ^ 2) := by
    rw [show e - (S ^ 2 - binary64.val s0 * binary64.val s0) = (e - (binary64.val d1b - binary64.val lb)) + (binary64.val d1b - binary64.val lb - (S ^ 2 - binary64.val s0 * binary64.val s0)) by ring]
    refine (abs_add_le' F4 q4).trans (le_of_eq (by ring))
  have q6 : |e| ≤ 21 / 10 * (u * S ^ 2) := by
    rw [show e = (e - (S ^ 2 - binary64.val s0 * binary64.val s0)) + (S ^ 2 - binary64.val s0 * binary64.val s0) by ring]
    refine (abs_add_le' q5 q).trans ?_
    norm_num at uuS2; linarith
  have p2a : 0 < 2 * binary64.val s0 := by linarith
  have n6 : |e / (2 * binary64.val s0)| ≤ 2 * u * S := by
    rw [abs_div, abs_of_pos p2a, div_le_iff₀ p2a]
    have := mul_le_mul_of_nonneg_left a1 (show 0 ≤ 2 * u * S * 2 by positivity)
    have e1 : 2 * u * S * 2 * (999 / 1000 * S) = 3996 / 1000 * (u * S ^ 2) := by ring
    rw [e1] at this
    linarith
  obtain ⟨fc, F6⟩ := rnd_rel R6 n6 (lo1 ku.1) (hi1 ku.2.2.2.1)
  rw [← hu] at F6
  have m2 := binary64.hmul_spec m fc o.1
  rw [o.2, mul_one] at m2
  obtain ⟨fm2, vm2⟩ := RoundsTo.exact binary64 fc rfl m2
  clear m1 m2 R3 R4 R5 R6 Rh
  generalize binary64.hdiv m eb tb = cb at *
  generalize binary64.hmul m s0 CC.one64 = ab at *
  generalize binary64.hmul m cb CC.one64 = cb' at *
  have q7 : |e / (2 * binary64.val s0) - (S - binary64.val s0)| ≤ 5 * (u * u * S) := by
    have e1 : e / (2 * binary64.val s0) - (S - binary64.val s0) = ((e - (S ^ 2 - binary64.val s0 * binary64.val s0)) + (S - binary64.val s0) ^ 2) / (2 * binary64.val s0) := by
      rw [eq_div_iff p2a.ne', sub_mul, div_mul_cancel₀ _ p2a.ne']; ring
    rw [e1, abs_div, abs_of_pos p2a, div_le_iff₀ p2a]
    have e2 : |(S - binary64.val s0) ^ 2| ≤ u * u * S ^ 2 := by
      rw [abs_pow, abs_sub_comm]
      have := pow_le_pow_left₀ (abs_nonneg _) F1 2
      linarith [show (u * S) ^ 2 = u * u * S ^ 2 by ring]
    refine (abs_add_le' q5 e2).trans ?_
    have := mul_le_mul_of_nonneg_left a1 (show 0 ≤ 5 * (u * u * S) * 2 by positivity)
    have e3 : 5 * (u * u * S) * 2 * (999 / 1000 * S) = 999 / 100 * (u * u * S ^ 2) := by ring
    rw [e3] at this
    have : 0 ≤ u * u * S ^ 2 := by positivity
    linarith
  have q8 : |binary64.val cb - (S - binary64.val s0)| ≤ 7 * (u * u * S) := by
    rw [show binary64.val cb - (S - binary64.val s0) = (binary64.val cb - e / (2 * binary64.val s0)) + (e / (2 * binary64.val s0) - (S - binary64.val s0)) by ring]
    refine (abs_add_le' F6 q7).trans (le_of_eq (by ring))
  have q9 : |binary64.val cb| ≤ 101 / 100 * (u * S) := by
    rw [show binary64.val cb = (binary64.val cb - (S - binary64.val s0)) + -(binary64.val s0 - S) by ring]
    refine (abs_add_le' q8 ((abs_neg _).trans_le F1)).trans ?_
    norm_num at uuS; linarith
  have Q8 := abs_le.1 q8
  rw [← vm1] at q8 Q8
  rw [← vm2] at q8 q9 Q8
  clear vm1 vm2 q7 q6 q5 q4 n4 n6 F6 F4 F3 F2 h3 q aa1 aa2 aan hl a1 a2 A F1
  generalize hab : binary64.val ab = a at *
  generalize hcb : binary64.val cb' = c at *
  have n7 : |a + c| ≤ 101 / 100 * S := by
    rw [abs_le]; constructor <;> norm_num at uuS uS <;> linarith
  have R7 := binary64.hadd_spec m fm1 fm2
  rw [hab, hcb] at R7
  obtain ⟨fH, F7⟩ := rnd_rel R7 n7 (lo1 (by norm_num)) (hi1 (by norm_num))
  rw [← hu] at F7
  unfold CC.exactAdd
  dsimp only
  have R8 := binary64.hsub_spec m fH fm1
  rw [hab] at R8
  clear R7
  generalize binary64.hadd m ab cb' = Hb at *
  have n8 : |binary64.val Hb - a| ≤ 4 * u * S := by
    rw [show binary64.val Hb - a = (binary64.val Hb - (a + c)) + c by ring]
    refine (abs_add_le' F7 q9).trans ?_
    linarith
  obtain ⟨ft, F8⟩ := rnd_rel R8 n8 (lo1 ku.2.2.1) (hi1 ku.2.2.2.2.2)
  rw [← hu] at F8
  have R9 := binary64.hsub_spec m fm2 ft
  rw [hcb] at R9
  clear R8
  generalize binary64.hsub m Hb ab = tt at *
  generalize binary64.val tt = t at *
  have q10 : |c - t| ≤ 1015 / 1000 * (u * S) := by
    rw [show c - t = -(binary64.val Hb - (a + c)) + -(t - (binary64.val Hb - a)) by ring]
    refine (abs_add_le' ((abs_neg _).trans_le F7) ((abs_neg _).trans_le F8)).trans ?_
    norm_num at uuS; linarith
  obtain ⟨fL, F9⟩ := rnd_rel R9 (show |c - t| ≤ 2 * u * S by linarith) (lo1 ku.1) (hi1 ku.2.2.2.1)
  rw [← hu] at F9
  refine ⟨_, rfl, fH, fL, ?_, ?_, ?_⟩ <;> dsimp only
  · rw [show binary64.val Hb + binary64.val (binary64.hsub m cb' tt) - S = (binary64.val (binary64.hsub m cb' tt) - (c - t)) + -(t - (binary64.val Hb - a)) + (c - (S - a)) by ring]
    refine (abs_add_le' (abs_add_le' F9 ((abs_neg _).trans_le F8)) q8).trans ?_
    have : u * (2 * u * S) + u * (4 * u * S) + 7 * (u * u * S) = 13 * u ^ 2 * S := by ring
    rw [this]
    exact mul_le_mul_of_nonneg_right (by rw [hu]; norm_num) S0.le
  · rw [show binary64.val (binary64.hsub m cb' tt) = (binary64.val (binary64.hsub m cb' tt) - (c - t)) + (c - t) by ring]
    refine (abs_add_le' F9 q10).trans ?_
    have : 102 / 100 * u * S ≤ 103 / 100 / 2 ^ 52 * S := mul_le_mul_of_nonneg_right (by rw [hu]; norm_num) S0.le
    refine le_trans ?_ this
    norm_num at uuS; linarith
  · rw [show binary64.val Hb - S = (binary64.val Hb - (a + c)) + (c - (S - a)) by ring]
    refine (abs_add_le' F7 q8).trans ?_
    have : 102 / 100 * u * S ≤ 103 / 100 / 2 ^ 52 * S := mul_le_mul_of_nonneg_right (by rw [hu]; norm_num) S0.le
    refine le_trans ?_ this
    norm_num at uuS; linarith

/-- loading the double-double square root -/
theorem SPow.loadSqrt (m : Mode) {x : ℕ} (hx : binary64.Finite x) (h1 : (2 : ℝ) ^ (-690 : ℤ) ≤ binary64.val x) (h2 : binary64.val x ≤ 2 ^ (690 : ℤ)) :
    ∃ p, CC.ddSqrt m x = some p ∧ SPow (CC.loadScaled m p) (√(binary64.val x)) 1 := by
  obtain ⟨p, hp, f1, f2, e1, e2, e3⟩ := ddSqrt_err m hx h1 h2
  refine ⟨p, hp, ?_⟩
  have x0 : 0 < binary64.val x := lt_of_lt_of_le (two_zpow_pos _) h1
  have S0 : 0 < √(binary64.val x) := Real.sqrt_pos.2 x0
  have S1 : (2 : ℝ) ^ (-345 : ℤ) ≤ √(binary64.val x) := by
    refine Real.le_sqrt_of_sq_le ?_
    rw [← zpow_natCast, ← zpow_mul]; exact h1
  have hb0 : (2 : ℝ) ^ (-1022 : ℤ) ≤ √(binary64.val x) * (999 / 1000) := by
    have h3 : (2 : ℝ) ^ (-345 : ℤ) * (999 / 1000) ≤ √(binary64.val x) * (999 / 1000) := mul_le_mul_of_nonneg_right S1 (by norm_num)
    refine le_trans ?_ h3
    have h4 : (2 : ℝ) ^ (-1022 : ℤ) ≤ 2 ^ (-346 : ℤ) := two_zpow_le (by norm_num)
    refine h4.trans ?_
    rw [show (-345 : ℤ) = -346 + 1 by norm_num, zpow_add_one₀ (by norm_num)]
    have := two_zpow_pos (-346)
    generalize (2 : ℝ) ^ (-346 : ℤ) = z at *
    linarith
  clear h1 h2 S1
  generalize √(binary64.val x) = S at *
  have E3 := abs_le.1 e3
  have hi1 : S * (999 / 1000) ≤ binary64.val p.hi := by norm_num at E3; linarith
  have hi0 : 0 < binary64.val p.hi := by linarith
  have hb : binary64.bexp p.hi ≠ 0 := fun hb => absurd (abs_val_subnormal hb) (not_lt.2 (by rw [abs_of_pos hi0]; exact hb0.trans hi1))
  obtain ⟨e, he, g1, g2, g3, g4, g5, g6, g7⟩ := scale_pair m f1 f2 hi0 hb (by
    refine e2.trans ?_
    have := mul_le_mul_of_nonneg_left hi1 (show (0 : ℝ) ≤ 11 / 10 / 2 ^ 52 by norm_num)
    refine le_trans ?_ this
    rw [mul_left_comm, mul_comm _ S]
    exact mul_le_mul_of_nonneg_left (by norm_num) S0.le)
  have hd : CC.loadScaled m p = { mantissa := { hi := CC.ldexp binary64 m p.hi (-e), lo := CC.ldexp binary64 m p.lo (-e) }, exp2 := e } := by
    unfold CC.loadScaled
    simp only [he]
  rw [hd]
  refine ⟨g1, g2, g4, g5, g7, ?_⟩
  dsimp only
  have pe := two_zpow_pos e
  have c1 : (2 : ℝ) ^ (-e) * 2 ^ e = 1 := by rw [← zpow_add₀ (by norm_num)]; simp
  have hE : (2 : ℝ) ^ e ≤ S * (1002 / 1000) := by
    have := mul_le_mul_of_nonneg_right g4 pe.le
    rw [g3, one_mul, mul_assoc, c1, mul_one] at this
    refine this.trans ?_
    norm_num at E3; linarith
  have key : |(binary64.val (CC.ldexp binary64 m p.hi (-e)) + binary64.val (CC.ldexp binary64 m p.lo (-e))) * 2 ^ e - S| ≤ S * (1 / 2 ^ 96) := by
    have : (binary64.val (CC.ldexp binary64 m p.hi (-e)) + binary64.val (CC.ldexp binary64 m p.lo (-e))) * 2 ^ e - S =
        (binary64.val (CC.ldexp binary64 m p.lo (-e)) - binary64.val p.lo * 2 ^ (-e)) * 2 ^ e + (binary64.val p.hi + binary64.val p.lo - S) := by
      rw [g3]
      linear_combination (binary64.val p.hi + binary64.val p.lo) * c1
    rw [this]
    refine (abs_add_le' (abs_mul_le g6 (le_of_eq (abs_of_pos pe))) e1).trans ?_
    have := mul_le_mul_of_nonneg_left hE (show (0 : ℝ) ≤ 23 / 10 / 2 ^ 104 by norm_num)
    refine (add_le_add_left this _).trans ?_
    have h5 : 23 / 10 / 2 ^ 104 * (S * (1002 / 1000)) + 14 / 2 ^ 104 * S = S * (23 / 10 / 2 ^ 104 * (1002 / 1000) + 14 / 2 ^ 104) := by ring
    rw [h5]
    exact mul_le_mul_of_nonneg_left (by norm_num) S0.le
  obtain ⟨k1, k2⟩ := abs_le.1 key
  rw [pow_one, pow_one]
  constructor <;> linarith

end Verif
