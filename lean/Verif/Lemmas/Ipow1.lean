import Verif.Lemmas.Rsqrt2
import Verif.Lemmas.FErr
import Verif.Props.Manip

/-!
# pow: double-double products and powers by squaring
-/

namespace Verif
open Fmt Real

theorem rnd_le {m : Mode} {zs : Bool} {v : ℝ} {b : ℕ} {C : ℝ} (R : binary64.RoundsTo m zs v b) (hv : |v| ≤ C) (hC : C ≤ 2 ^ 200) :
    binary64.Finite b ∧ |binary64.val b - v| ≤ C / 2 ^ 52 + 1 / 2 ^ 200 := by
  obtain ⟨f, e⟩ := err64 R (hv.trans hC)
  refine ⟨f, e.trans (add_le_add ?_ eta_le)⟩
  have := mul_le_mul (ru_le m) hv (abs_nonneg _) (by norm_num)
  rwa [one_div_mul_eq_div] at this

theorem exactFma_spec (m : Mode) {a b c : ℕ} (ha : binary64.Finite a) (hb : binary64.Finite b) (hc : binary64.Finite c) :
    ∃ r zs, CC.exactFma m a b c = some r ∧ binary64.RoundsTo m zs (binary64.val a * binary64.val b + binary64.val c) r := by
  obtain ⟨r, fl, h1, h2, -⟩ := C17_fma m ha hb hc
  exact ⟨r, _, by unfold CC.exactFma; rw [h1]; rfl, h2⟩

/-- the reals of `exact_add` -/
theorem exactAdd_err (m : Mode) {a b : ℕ} (ha : binary64.Finite a) (hb : binary64.Finite b) (h1 : |binary64.val a| ≤ 9 / 2) (h2 : |binary64.val b| ≤ 20 / 2 ^ 52) :
    let q := CC.exactAdd binary64 m a b
    (∃ zs, binary64.RoundsTo m zs (binary64.val a + binary64.val b) q.hi) ∧ binary64.Finite q.hi ∧ binary64.Finite q.lo ∧
      |binary64.val q.hi + binary64.val q.lo - (binary64.val a + binary64.val b)| ≤ 31 / 2 ^ 104 ∧
      |binary64.val q.hi - (binary64.val a + binary64.val b)| ≤ ru m * |binary64.val a + binary64.val b| + 1 / 2 ^ 200 ∧
      |binary64.val q.lo| ≤ ru m * |binary64.val a + binary64.val b| + 32 / 2 ^ 104 := by
  intro q
  have R := binary64.hadd_spec m ha hb
  have hs : |binary64.val a + binary64.val b| ≤ 5 := (abs_add_le' h1 h2).trans (by norm_num)
  obtain ⟨f, e⟩ := err64 R (hs.trans (by norm_num))
  have e0 := eta_le
  have u5 : ru m * |binary64.val a + binary64.val b| ≤ 5 / 2 ^ 52 := by
    have := mul_le_mul (ru_le m) hs (abs_nonneg _) (by norm_num)
    rwa [one_div_mul_eq_div] at this
  refine ⟨⟨_, R⟩, f, ?_⟩
  change binary64.Finite (binary64.hsub m b (binary64.hsub m (binary64.hadd m a b) a)) ∧
    |binary64.val (binary64.hadd m a b) + binary64.val (binary64.hsub m b (binary64.hsub m (binary64.hadd m a b) a)) - _| ≤ _ ∧
    |binary64.val (binary64.hadd m a b) - _| ≤ _ ∧ |binary64.val (binary64.hsub m b (binary64.hsub m (binary64.hadd m a b) a))| ≤ _
  generalize binary64.hadd m a b = h at *
  have R2 := binary64.hsub_spec m f ha
  have e' : |binary64.val h - (binary64.val a + binary64.val b)| ≤ ru m * |binary64.val a + binary64.val b| + 1 / 2 ^ 200 := by linarith
  have t0 : |binary64.val h - binary64.val a| ≤ 25 / 2 ^ 52 + 1 / 2 ^ 200 := by
    rw [show binary64.val h - binary64.val a = (binary64.val h - (binary64.val a + binary64.val b)) + binary64.val b by ring]
    refine (abs_add_le' e' h2).trans ?_
    norm_num at *; linarith
  obtain ⟨f2, e2⟩ := rnd_le R2 t0 (by norm_num)
  generalize binary64.hsub m h a = t at *
  have R3 := binary64.hsub_spec m hb f2
  have d : |binary64.val b - binary64.val t| ≤ ru m * |binary64.val a + binary64.val b| + 26 / 2 ^ 104 := by
    rw [show binary64.val b - binary64.val t = -(binary64.val h - (binary64.val a + binary64.val b)) + -(binary64.val t - (binary64.val h - binary64.val a)) by ring]
    refine (abs_add_le' ((abs_neg _).trans_le e') ((abs_neg _).trans_le e2)).trans ?_
    norm_num at *; linarith
  obtain ⟨f3, e3⟩ := rnd_le R3 (d.trans (add_le_add_left u5 _)) (by norm_num)
  generalize binary64.hsub m b t = l at *
  refine ⟨f3, ?_, e', ?_⟩
  · rw [show binary64.val h + binary64.val l - (binary64.val a + binary64.val b) =
      (binary64.val l - (binary64.val b - binary64.val t)) + -(binary64.val t - (binary64.val h - binary64.val a)) by ring]
    refine (abs_add_le' e3 ((abs_neg _).trans_le e2)).trans ?_
    norm_num
  · refine (abs_near e3 d).trans ?_
    norm_num; linarith

/-- adding a zero -/
theorem exactAdd_zero (m : Mode) {a b : ℕ} (ha : binary64.Finite a) (hb : binary64.Finite b) (h : binary64.val b = 0) :
    let q := CC.exactAdd binary64 m a b
    binary64.Finite q.hi ∧ binary64.Finite q.lo ∧ binary64.val q.hi = binary64.val a ∧ binary64.val q.lo = 0 := by
  intro q
  have R1 := binary64.hadd_spec m ha hb
  rw [h, add_zero] at R1
  obtain ⟨f1, v1⟩ := RoundsTo.exact binary64 ha rfl R1
  have R2 := binary64.hsub_spec m f1 ha
  rw [v1, sub_self] at R2
  obtain ⟨f2, v2⟩ := RoundsTo.exact binary64 hb h R2
  have R3 := binary64.hsub_spec m hb f2
  rw [h, v2, sub_zero] at R3
  obtain ⟨f3, v3⟩ := RoundsTo.exact binary64 hb h R3
  exact ⟨f1, f3, v1, v3⟩

/-- the product of two pairs -/
theorem ddMul_err (m : Mode) {a b : CC.Pair} (ha : binary64.Finite a.hi) (ha' : binary64.Finite a.lo) (hb : binary64.Finite b.hi) (hb' : binary64.Finite b.lo)
    (a1 : 1 ≤ binary64.val a.hi) (a2 : binary64.val a.hi ≤ 2) (a3 : |binary64.val a.lo| ≤ 3 / 2 ^ 52)
    (b1 : 1 ≤ binary64.val b.hi) (b2 : binary64.val b.hi ≤ 2) (b3 : |binary64.val b.lo| ≤ 3 / 2 ^ 52) :
    ∃ p, CC.ddMul m a b = some p ∧ binary64.Finite p.hi ∧ binary64.Finite p.lo ∧
      |binary64.val p.hi + binary64.val p.lo - (binary64.val a.hi + binary64.val a.lo) * (binary64.val b.hi + binary64.val b.lo)| ≤ 1 / 2 ^ 97 ∧
      99 / 100 ≤ binary64.val p.hi ∧ binary64.val p.hi ≤ 41 / 10 ∧ |binary64.val p.lo| ≤ 11 / 10 / 2 ^ 52 * binary64.val p.hi := by
  have pr1 : 1 ≤ binary64.val a.hi * binary64.val b.hi := by nlinarith
  have pr2 : binary64.val a.hi * binary64.val b.hi ≤ 4 := by nlinarith
  have pra : |binary64.val a.hi * binary64.val b.hi| ≤ 4 := by rw [abs_of_nonneg (by linarith)]; exact pr2
  have big : (4 : ℝ) ≤ 2 ^ (1023 : ℤ) := by
    have : (2 : ℝ) ^ (2 : ℤ) ≤ 2 ^ (1023 : ℤ) := two_zpow_le (by norm_num)
    exact le_trans (by norm_num) this
  have small : (2 : ℝ) ^ (-969 : ℤ) ≤ 1 := zpow_le_one_of_nonpos₀ (by norm_num) (by norm_num)
  obtain ⟨p, hp, ⟨zs, Rp⟩, fh, fl, ep⟩ := C33_two_prod m ha hb (pra.trans (big.trans maxFin64)) (Or.inr (small.trans (pr1.trans (le_abs_self _))))
  obtain ⟨-, eh⟩ := rnd_le Rp pra (by norm_num)
  have hlo : |binary64.val p.lo| ≤ 4 / 2 ^ 52 + 1 / 2 ^ 200 := by
    rw [show binary64.val p.lo = -(binary64.val p.hi - binary64.val a.hi * binary64.val b.hi) by linarith, abs_neg]; exact eh
  obtain ⟨t1, z1, h1, R1⟩ := exactFma_spec m ha hb' fl
  have q1 : |binary64.val a.hi * binary64.val b.lo + binary64.val p.lo| ≤ 10 / 2 ^ 52 + 1 / 2 ^ 200 := by
    refine (abs_add_le' (abs_mul_le (A := 2) (B := 3 / 2 ^ 52) (by rw [abs_of_pos (by linarith)]; exact a2) b3) hlo).trans ?_
    norm_num
  obtain ⟨f1, e1⟩ := rnd_le R1 q1 (by norm_num)
  have b1' := abs_near e1 q1
  obtain ⟨t2, z2, h2, R2⟩ := exactFma_spec m ha' hb f1
  have q2 : |binary64.val a.lo * binary64.val b.hi + binary64.val t1| ≤ 16 / 2 ^ 52 + 11 / 2 ^ 104 := by
    refine (abs_add_le' (abs_mul_le (A := 3 / 2 ^ 52) (B := 2) a3 (by rw [abs_of_pos (by linarith)]; exact b2)) b1').trans ?_
    norm_num
  obtain ⟨f2, e2⟩ := rnd_le R2 q2 (by norm_num)
  have b2' := abs_near e2 q2
  have hph := abs_near eh pra
  obtain ⟨-, g1, g2, g3, g4, g5⟩ := exactAdd_err m fh f2 (hph.trans (by norm_num)) (b2'.trans (by norm_num))
  have hl2 : |binary64.val a.lo * binary64.val b.lo| ≤ 9 / 2 ^ 104 := (abs_mul_le a3 b3).trans (by norm_num)
  have hsum : |binary64.val p.hi + binary64.val t2| ≤ 405 / 100 := (abs_add_le' hph b2').trans (by norm_num)
  have u42 : ru m * |binary64.val p.hi + binary64.val t2| ≤ 405 / 100 / 2 ^ 52 := by
    have := mul_le_mul (ru_le m) hsum (abs_nonneg _) (by norm_num)
    rwa [one_div_mul_eq_div] at this
  have hph1 := (abs_le.1 eh).1
  have ht2 := (abs_le.1 b2').1
  have hsum2 := (abs_le.1 hsum).2
  have hs0 : 995 / 1000 ≤ binary64.val p.hi + binary64.val t2 := by norm_num at *; linarith
  rw [abs_of_pos (show 0 < binary64.val p.hi + binary64.val t2 by linarith)] at g4 g5 u42
  have hqh1 := (abs_le.1 g4).1
  have hqh2 := (abs_le.1 g4).2
  refine ⟨CC.exactAdd binary64 m p.hi t2, by simp only [CC.ddMul, hp, Option.bind_eq_bind, Option.bind_some, h1, h2]; rfl, g1, g2, ?_, ?_, ?_, ?_⟩
  · generalize CC.exactAdd binary64 m p.hi t2 = q at *
    rw [show binary64.val q.hi + binary64.val q.lo - (binary64.val a.hi + binary64.val a.lo) * (binary64.val b.hi + binary64.val b.lo) =
      (binary64.val q.hi + binary64.val q.lo - (binary64.val p.hi + binary64.val t2)) + ((binary64.val t2 - (binary64.val a.lo * binary64.val b.hi + binary64.val t1)) +
        ((binary64.val t1 - (binary64.val a.hi * binary64.val b.lo + binary64.val p.lo)) + -(binary64.val a.lo * binary64.val b.lo))) by linear_combination ep]
    refine (abs_add_le' g3 (abs_add_le' e2 (abs_add_le' e1 ((abs_neg _).trans_le hl2)))).trans ?_
    norm_num
  · norm_num at *; linarith
  · norm_num at *; linarith
  · refine g5.trans ?_
    generalize CC.exactAdd binary64 m p.hi t2 = q at *
    have h3 : binary64.val p.hi + binary64.val t2 ≤ binary64.val q.hi * (101 / 100) := by norm_num at *; linarith
    have h4 := mul_le_mul (ru_le m) h3 (by linarith) (by norm_num)
    norm_num at *; linarith

/-- a scaled pair near `V`, up to `K` relative errors of `2^-96` -/
def SPow (s : CC.ScaledPow) (V : ℝ) (K : ℕ) : Prop :=
  binary64.Finite s.mantissa.hi ∧ binary64.Finite s.mantissa.lo ∧ 1 ≤ binary64.val s.mantissa.hi ∧ binary64.val s.mantissa.hi < 2 ∧
    |binary64.val s.mantissa.lo| ≤ 3 / 2 ^ 52 ∧ V * (1 - 1 / 2 ^ 96) ^ K ≤ (binary64.val s.mantissa.hi + binary64.val s.mantissa.lo) * 2 ^ s.exp2 ∧
    (binary64.val s.mantissa.hi + binary64.val s.mantissa.lo) * 2 ^ s.exp2 ≤ V * (1 + 1 / 2 ^ 96) ^ K

/-- scaling a pair by a power of two so that the high part falls in `[1, 2)` -/
theorem scale_pair (m : Mode) {p : CC.Pair} (fh : binary64.Finite p.hi) (fl : binary64.Finite p.lo) (p0 : 0 < binary64.val p.hi) (hb : binary64.bexp p.hi ≠ 0)
    (h1 : |binary64.val p.lo| ≤ 11 / 10 / 2 ^ 52 * binary64.val p.hi) :
    ∃ e : ℤ, (FPBits.biasedExp binary64 p.hi : ℤ) - binary64.bias = e ∧
      binary64.Finite (CC.ldexp binary64 m p.hi (-e)) ∧ binary64.Finite (CC.ldexp binary64 m p.lo (-e)) ∧
      binary64.val (CC.ldexp binary64 m p.hi (-e)) = binary64.val p.hi * 2 ^ (-e) ∧
      1 ≤ binary64.val (CC.ldexp binary64 m p.hi (-e)) ∧ binary64.val (CC.ldexp binary64 m p.hi (-e)) < 2 ∧
      |binary64.val (CC.ldexp binary64 m p.lo (-e)) - binary64.val p.lo * 2 ^ (-e)| ≤ 23 / 10 / 2 ^ 104 ∧
      |binary64.val (CC.ldexp binary64 m p.lo (-e))| ≤ 3 / 2 ^ 52 := by
  obtain ⟨w1, w2⟩ := normal_window hb
  rw [abs_of_pos p0] at w1 w2
  have hbias : (binary64.bias : ℤ) = 1023 := by decide
  refine ⟨(binary64.bexp p.hi : ℤ) - 1023, by rw [FPBits.biasedExp_eq, hbias], ?_⟩
  rw [show (binary64.bexp p.hi : ℤ) - 1022 = (binary64.bexp p.hi : ℤ) - 1023 + 1 by ring, zpow_add_one₀ (by norm_num)] at w2
  have hbx : (binary64.bexp p.hi : ℤ) ≤ 2047 := by
    have : binary64.bexp p.hi < 2 ^ 11 := binary64.bexp_lt _
    omega
  have he : ((binary64.bexp p.hi : ℤ) - 1023).natAbs ≤ 1100 := by omega
  generalize (binary64.bexp p.hi : ℤ) - 1023 = e at *
  have pe := two_zpow_pos e
  have sc : ∀ v : ℝ, v * 2 ^ (-e) = v / 2 ^ e := fun v => by rw [zpow_neg]; rfl
  have c1 : 1 ≤ binary64.val p.hi * 2 ^ (-e) := by rw [sc, le_div_iff₀ pe]; linarith
  have c2 : binary64.val p.hi * 2 ^ (-e) < 2 := by rw [sc, div_lt_iff₀ pe]; linarith
  have one_le : (2 : ℝ) ≤ 2 ^ (1000 : ℤ) := by
    have : (2 : ℝ) ^ (1 : ℤ) ≤ 2 ^ (1000 : ℤ) := two_zpow_le (by norm_num)
    simpa using this
  have le_one : (2 : ℝ) ^ (-1000 : ℤ) ≤ 1 := zpow_le_one_of_nonpos₀ (by norm_num) (by norm_num)
  obtain ⟨f1, v1, -⟩ := ldexp_unit m (k := -e) fh (Or.inr (by rw [abs_of_nonneg (by linarith)]; exact le_trans le_one c1)) (by
    rw [abs_of_nonneg (by linarith)]; exact le_trans c2.le one_le)
  have R := (C13_ldexp_directed binary64 m fl (-e)).2 (by
    rw [Int.natAbs_neg]
    have : 2 ^ binary64.E + binary64.F = 2100 := by decide
    omega)
  have lb : |binary64.val p.lo * 2 ^ (-e)| ≤ 22 / 10 / 2 ^ 52 := by
    rw [abs_mul, abs_of_pos (two_zpow_pos (-e))]
    have := mul_le_mul_of_nonneg_right h1 (two_zpow_pos (-e)).le
    refine this.trans ?_
    rw [mul_assoc]
    have := mul_le_mul_of_nonneg_left c2.le (show (0 : ℝ) ≤ 11 / 10 / 2 ^ 52 by norm_num)
    refine this.trans (by norm_num)
  obtain ⟨f2, e2⟩ := rnd_le R lb (by norm_num)
  refine ⟨f1, f2, v1, by rw [v1]; exact c1, by rw [v1]; exact c2, e2.trans (by norm_num), (abs_near e2 lb).trans (by norm_num)⟩


/-- renormalising keeps the value up to `2.3·2^-104` of the leading power of two -/
theorem renorm_err (m : Mode) {v : CC.ScaledPow} (fh : binary64.Finite v.mantissa.hi) (fl : binary64.Finite v.mantissa.lo) (h0 : 99 / 100 ≤ binary64.val v.mantissa.hi)
    (h1 : |binary64.val v.mantissa.lo| ≤ 11 / 10 / 2 ^ 52 * binary64.val v.mantissa.hi) :
    let w := CC.scaledPowRenormalize m v
    ∃ e : ℤ, w.exp2 = v.exp2 + e ∧ binary64.Finite w.mantissa.hi ∧ binary64.Finite w.mantissa.lo ∧ binary64.val w.mantissa.hi * 2 ^ e = binary64.val v.mantissa.hi ∧
      1 ≤ binary64.val w.mantissa.hi ∧ binary64.val w.mantissa.hi < 2 ∧ |binary64.val w.mantissa.lo * 2 ^ e - binary64.val v.mantissa.lo| ≤ 23 / 10 / 2 ^ 104 * binary64.val v.mantissa.hi ∧
      |binary64.val w.mantissa.lo| ≤ 3 / 2 ^ 52 := by
  intro w
  have p0 : 0 < binary64.val v.mantissa.hi := by linarith
  have hb : binary64.bexp v.mantissa.hi ≠ 0 := by
    intro hb
    have := abs_val_subnormal hb
    rw [abs_of_pos p0] at this
    have h2 : (2 : ℝ) ^ (-1022 : ℤ) ≤ 2 ^ (-1 : ℤ) := two_zpow_le (by norm_num)
    have h3 : (2 : ℝ) ^ (-1 : ℤ) = 1 / 2 := by norm_num
    have h4 := this.trans_le (h2.trans h3.le)
    clear h2 this
    linarith
  obtain ⟨e, he, g1, g2, g3, g4, g5, g6, g7⟩ := scale_pair m fh fl p0 hb h1
  have pe := two_zpow_pos e
  have c1 : (2 : ℝ) ^ (-e) * 2 ^ e = 1 := by rw [← zpow_add₀ (by norm_num)]; simp
  by_cases e0 : e = 0
  · have hw : w = v := by
      change CC.scaledPowRenormalize m v = v
      unfold CC.scaledPowRenormalize
      simp only [he, e0, ne_eq, not_true_eq_false, if_false]
    rw [hw]
    rw [g3, e0, neg_zero, zpow_zero, mul_one] at g4 g5
    refine ⟨0, by simp, fh, fl, by simp, g4, g5, by simp; linarith, h1.trans ?_⟩
    have := mul_le_mul_of_nonneg_left g5.le (show (0 : ℝ) ≤ 11 / 10 / 2 ^ 52 by norm_num)
    refine this.trans (by norm_num)
  · have hw : w = { mantissa := { hi := CC.ldexp binary64 m v.mantissa.hi (-e), lo := CC.ldexp binary64 m v.mantissa.lo (-e) }, exp2 := v.exp2 + e } := by
      change CC.scaledPowRenormalize m v = _
      unfold CC.scaledPowRenormalize
      simp only [he, e0, ne_eq, not_false_eq_true, if_true]
    rw [hw]
    refine ⟨e, rfl, g1, g2, by rw [g3, mul_assoc, c1, mul_one], g4, g5, ?_, g7⟩
    have hhi : (2 : ℝ) ^ e ≤ binary64.val v.mantissa.hi := by
      rw [g3] at g4
      have := mul_le_mul_of_nonneg_right g4 pe.le
      rwa [one_mul, mul_assoc, c1, mul_one] at this
    have h3 := mul_le_mul_of_nonneg_right g6 pe.le
    rw [← abs_of_pos pe, ← abs_mul, sub_mul, mul_assoc, abs_of_pos pe, c1, mul_one] at h3
    refine h3.trans (mul_le_mul_of_nonneg_left hhi (by norm_num))

/-- the product of two scaled pairs -/
theorem SPow.mul (m : Mode) {s t : CC.ScaledPow} {V W : ℝ} {K L : ℕ} (hs : SPow s V K) (ht : SPow t W L) (hV : 0 < V) (hW : 0 < W) :
    ∃ p, CC.ddMul m s.mantissa t.mantissa = some p ∧ SPow (CC.scaledPowRenormalize m { mantissa := p, exp2 := s.exp2 + t.exp2 }) (V * W) (K + L + 1) := by
  obtain ⟨s1, s2, s3, s4, s5, s6, s7⟩ := hs
  obtain ⟨t1, t2, t3, t4, t5, t6, t7⟩ := ht
  obtain ⟨p, hp, p1, p2, p3, p4, p5, p6⟩ := ddMul_err m s1 s2 t1 t2 s3 s4.le s5 t3 t4.le t5
  refine ⟨p, hp, ?_⟩
  obtain ⟨e, w1, w2, w3, w4, w5, w6, w7, w8⟩ := renorm_err m (v := { mantissa := p, exp2 := s.exp2 + t.exp2 }) p1 p2 p4 p6
  generalize CC.scaledPowRenormalize m { mantissa := p, exp2 := s.exp2 + t.exp2 } = w at *
  refine ⟨w2, w3, w5, w6, w8, ?_⟩
  have hw1 : w.exp2 = e + (s.exp2 + t.exp2) := by rw [w1]; ring
  rw [hw1, zpow_add₀ (by norm_num), zpow_add₀ (by norm_num), ← mul_assoc, ← mul_assoc]
  have ps := two_zpow_pos s.exp2
  have pt := two_zpow_pos t.exp2
  have s5' := abs_le.1 s5
  have t5' := abs_le.1 t5
  set P := binary64.val s.mantissa.hi + binary64.val s.mantissa.lo with hP
  set Q := binary64.val t.mantissa.hi + binary64.val t.mantissa.lo with hQ
  have P1 : 999 / 1000 ≤ P := by rw [hP]; norm_num at s5' ⊢; linarith
  have Q1 : 999 / 1000 ≤ Q := by rw [hQ]; norm_num at t5' ⊢; linarith
  have PQ : 998 / 1000 ≤ P * Q := by nlinarith
  have key : |(binary64.val w.mantissa.hi + binary64.val w.mantissa.lo) * 2 ^ e - P * Q| ≤ 1 / 2 ^ 96 * (P * Q) := by
    rw [show (binary64.val w.mantissa.hi + binary64.val w.mantissa.lo) * 2 ^ e - P * Q = (binary64.val w.mantissa.lo * 2 ^ e - binary64.val p.lo) +
      (binary64.val p.hi + binary64.val p.lo - P * Q) by rw [add_mul, w4]; ring]
    refine (abs_add_le' w7 p3).trans ?_
    change 23 / 10 / 2 ^ 104 * binary64.val p.hi + _ ≤ _
    have : (1 : ℝ) / 2 ^ 96 * (998 / 1000) ≤ 1 / 2 ^ 96 * (P * Q) := mul_le_mul_of_nonneg_left PQ (by norm_num)
    refine le_trans ?_ this
    have : (23 : ℝ) / 10 / 2 ^ 104 * binary64.val p.hi ≤ 23 / 10 / 2 ^ 104 * (41 / 10) := mul_le_mul_of_nonneg_left p5 (by norm_num)
    norm_num at this ⊢
    linarith
  obtain ⟨k1, k2⟩ := abs_le.1 key
  generalize (binary64.val w.mantissa.hi + binary64.val w.mantissa.lo) * 2 ^ e = z at *
  have hst : 0 < (2 : ℝ) ^ s.exp2 * 2 ^ t.exp2 := mul_pos ps pt
  have pl : (0 : ℝ) < (1 - 1 / 2 ^ 96) := by norm_num
  have pu : (0 : ℝ) < (1 + 1 / 2 ^ 96) := by norm_num
  rw [mul_assoc z]
  constructor
  · have h1 := mul_le_mul s6 t6 (by positivity) (by positivity)
    have h2 := mul_le_mul_of_nonneg_right h1 pl.le
    have h3 := mul_le_mul_of_nonneg_right (show P * Q * (1 - 1 / 2 ^ 96) ≤ z by linarith) hst.le
    refine le_trans (le_of_eq ?_) (h2.trans (le_trans (le_of_eq ?_) h3)) <;> ring
  · have h1 := mul_le_mul s7 t7 (by positivity) (by positivity)
    have h2 := mul_le_mul_of_nonneg_right h1 pu.le
    have h3 := mul_le_mul_of_nonneg_right (show z ≤ P * Q * (1 + 1 / 2 ^ 96) by linarith) hst.le
    refine h3.trans (le_trans (le_of_eq ?_) (h2.trans (le_of_eq ?_))) <;> ring

theorem SPow.loop (m : Mode) : ∀ (n : ℕ) {r s : CC.ScaledPow} {V W : ℝ} {K L e : ℕ}, SPow r V K → SPow s W L → 0 < V → 0 < W → e < 2 ^ n →
    ∃ out, CC.ipowScaledLoop m n r s e = some out ∧ SPow out (V * W ^ e) (K + e * (L + 1)) := by
  intro n
  induction n with
  | zero =>
    intro r s V W K L e hr _ _ _ he
    have : e = 0 := by simpa using he
    subst this
    exact ⟨r, rfl, by simpa using hr⟩
  | succ n ih =>
    intro r s V W K L e hr hs hV hW he
    unfold CC.ipowScaledLoop
    by_cases e0 : e > 0
    swap
    · have : e = 0 := by omega
      subst this
      exact ⟨r, by simp, by simpa using hr⟩
    have hand : e &&& 1 = e % 2 := Nat.and_one_is_mod e
    have hsh : e >>> 1 = e / 2 := Nat.shiftRight_one e
    have hlt : e / 2 < 2 ^ n := by rw [pow_succ] at he; omega
    rw [if_pos e0, hand, hsh]
    obtain ⟨p, hp, hp2⟩ := SPow.mul m hr hs hV hW
    obtain ⟨q, hq, hq2⟩ := SPow.mul m hs hs hW hW
    rcases Nat.mod_two_eq_zero_or_one e with h2 | h2
    · have hd : e = 2 * (e / 2) := by omega
      have e1 : e / 2 > 0 := by omega
      simp only [h2, ne_eq, not_true_eq_false, if_false, if_pos e1, hq, Option.pure_def, Option.bind_eq_bind, Option.bind_some]
      obtain ⟨out, ho, hsp⟩ := ih hr hq2 hV (mul_pos hW hW) hlt
      refine ⟨out, ho, ?_⟩
      rw [show V * W ^ e = V * (W * W) ^ (e / 2) by rw [← pow_two, ← pow_mul, ← hd],
        show K + e * (L + 1) = K + e / 2 * (L + L + 1 + 1) by conv_lhs => rw [hd]
                                                              ring]
      exact hsp
    · have hd : e = 2 * (e / 2) + 1 := by omega
      by_cases e1 : e / 2 > 0
      · simp only [h2, ne_eq, one_ne_zero, not_false_eq_true, if_true, if_pos e1, hp, hq, Option.pure_def, Option.bind_eq_bind, Option.bind_some]
        obtain ⟨out, ho, hsp⟩ := ih hp2 hq2 (mul_pos hV hW) (mul_pos hW hW) hlt
        refine ⟨out, ho, ?_⟩
        rw [show V * W ^ e = V * W * (W * W) ^ (e / 2) by rw [← pow_two, ← pow_mul, mul_assoc, ← pow_succ', ← hd],
          show K + e * (L + 1) = K + L + 1 + e / 2 * (L + L + 1 + 1) by conv_lhs => rw [hd]
                                                                        ring]
        exact hsp
      · have e2 : e / 2 = 0 := by omega
        simp only [h2, ne_eq, one_ne_zero, not_false_eq_true, if_true, if_neg e1, hp, Option.pure_def, Option.bind_eq_bind, Option.bind_some]
        obtain ⟨out, ho, hsp⟩ := ih hp2 hs (mul_pos hV hW) hW hlt
        refine ⟨out, ho, ?_⟩
        have e3 : e = 1 := by omega
        rw [e2, pow_zero, mul_one, zero_mul, add_zero] at hsp
        rw [e3, pow_one, one_mul]
        exact hsp

end Verif
