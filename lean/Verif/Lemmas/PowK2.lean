import Verif.Lemmas.PowK1

/-!
# Double-double operations in every rounding mode
-/

namespace Verif
open Fmt

/-- the difference between a faithfully rounded sum and its larger operand is a format value -/
theorem sum_sub_any' {m : Mode} {zs : Bool} {a b s : ℕ} (ha : binary64.Finite a) (hb : binary64.Finite b) (hab : binary64.ce b ≤ binary64.ce a)
    (b1 : |binary64.val a| ≤ 2 ^ (900 : ℤ)) (b2 : |binary64.val b| ≤ 2 ^ (900 : ℤ)) (H : binary64.RoundsTo m zs (binary64.val a + binary64.val b) s) :
    binary64.Finite s ∧ ∃ c, binary64.Finite c ∧ binary64.val c = binary64.val s - binary64.val a := by
  have hF : (binary64.F : ℤ) = 52 := by decide +kernel
  have hbias : (binary64.bias : ℤ) = 1023 := by decide +kernel
  have Z : (2 : ℝ) ^ (901 : ℤ) = 2 ^ (900 : ℤ) + 2 ^ (900 : ℤ) := by rw [show (901 : ℤ) = 900 + 1 by norm_num, zpow_add₀ (by norm_num)]; ring
  have Z2 : (2 : ℝ) ^ (903 : ℤ) = 8 * 2 ^ (900 : ℤ) := by rw [show (903 : ℤ) = 900 + 3 by norm_num, zpow_add₀ (by norm_num)]; ring
  have Z3 : (2 : ℝ) ^ (848 : ℤ) ≤ 2 ^ (900 : ℤ) := two_zpow_le (by norm_num)
  have hab9 : |binary64.val a + binary64.val b| ≤ 2 ^ (901 : ℤ) := by rw [Z]; exact abs_add_le' b1 b2
  obtain ⟨fs, es⟩ := rnd_zpow H hab9 (by norm_num) (by norm_num)
  have hmx : |binary64.val a + binary64.val b| ≤ binary64.maxFin := (hab9.trans (two_zpow_le (by norm_num))).trans big_le
  refine ⟨fs, ?_⟩
  have hu := (RoundsTo.ulp H hmx).2
  have sz : |binary64.val s - binary64.val a| < 2 ^ ((binary64.bias : ℤ) + 1) := by
    have h1 : |binary64.val s - binary64.val a| ≤ 2 ^ (903 : ℤ) := by
      rw [show binary64.val s - binary64.val a = (binary64.val s - (binary64.val a + binary64.val b)) + binary64.val b by ring, Z2]
      refine (abs_add_le' (es.le.trans (two_zpow_le (by norm_num : (901 : ℤ) - 53 ≤ 900))) b2).trans ?_
      have w := two_zpow_pos 900
      generalize (2 : ℝ) ^ (900 : ℤ) = w at *
      linarith only [w]
    exact lt_of_le_of_lt h1 (two_zpow_lt (by rw [hbias]; norm_num))
  have lb := binary64.abs_val_le_ce b
  have la := binary64.abs_val_le_ce a
  have ma := binary64.mult_ce a
  have mb := binary64.mult_ce b
  have ms := binary64.mult_ce s
  have ea := binary64.ce_ge a
  have eb := binary64.ce_ge b
  have ees := binary64.ce_ge s
  have cs := fun g => binary64.ce_le_of (x := s) (g := g)
  rw [hF] at la lb
  rw [hF] at cs
  have tri : |binary64.val s - binary64.val a| ≤ |binary64.val b| + |binary64.val s - (binary64.val a + binary64.val b)| := by
    rw [show binary64.val s - binary64.val a = binary64.val b + (binary64.val s - (binary64.val a + binary64.val b)) by ring]
    exact abs_add_le _ _
  have ulpg := fun g => RoundsTo.ulp_of (g := g) H hmx
  rw [hF] at ulpg
  have rep := fun g (h : Mult g (binary64.val s - binary64.val a)) (h2 : binary64.emin ≤ g) h3 => binary64.rep h h2 h3 sz
  rw [hF] at rep
  generalize binary64.ce a = ca at *
  generalize binary64.ce b = cb at *
  generalize binary64.ce s = c at *
  rw [emin64'] at *
  have pc := two_zpow_pos c
  have P : ∀ (e : ℤ) (k : ℕ), (2 : ℝ) ^ (e + k) = 2 ^ k * 2 ^ e := fun e k => by rw [zpow_add₀ (by norm_num), zpow_natCast, mul_comm]
  rcases le_or_gt c cb with h | h
  · have : binary64.val s = binary64.val a + binary64.val b := ms.eq_of_close ((ma.weaken (by omega)).add (mb.weaken h)) hu
    exact ⟨b, hb, by rw [this]; ring⟩
  rcases le_or_gt c ca with h' | h'
  · refine rep c (ms.sub (ma.weaken h')) (by omega) ?_
    have h1 : (2 : ℝ) ^ (cb + 52 + 1) ≤ 2 ^ (c + 52) := two_zpow_le (by omega)
    have p1 := P c 52; have p2 := P c 53
    norm_num at p1 p2
    rw [show c + 52 + 1 = c + 53 by ring, p2]
    rw [p1] at h1
    have := two_zpow_pos cb
    linarith
  have pa := two_zpow_pos ca
  have pb := two_zpow_pos cb
  have p1 := P ca 1; have p52 := P ca 52; have p53 := P ca 53; have p54 := P ca 54
  norm_num at p1 p52 p53 p54
  have hba : (2 : ℝ) ^ (cb + 52 + 1) ≤ 2 ^ (ca + 53) := two_zpow_le (by omega)
  have ab1 : |binary64.val a + binary64.val b| ≤ 2 ^ (ca + 54) - 2 ^ ca := by
    refine (abs_add_le _ _).trans ?_
    rw [show ca + 52 + 1 = ca + 53 by ring] at la
    rw [p54]; rw [p53] at la hba
    linarith
  have u1 := ulpg (ca + 1) (by omega) (by rw [show ca + 1 + 52 + 1 = ca + 54 by ring]; linarith)
  have ab1' : |binary64.val a + binary64.val b| ≤ 2 ^ (ca + 54) - 2 ^ (ca + 1) ∨ cb < ca := by
    rcases lt_or_ge cb ca with h3 | h3
    · right; exact h3
    left
    have : cb = ca := by omega
    subst this
    refine (abs_add_le _ _).trans ?_
    rw [show cb + 52 + 1 = cb + 53 by ring] at la lb
    rw [p54, p1]; rw [p53] at la lb
    linarith
  have msa : Mult ca (binary64.val s - binary64.val a) := (ms.weaken h'.le).sub ma
  refine rep ca msa ea ?_
  rw [show ca + 52 + 1 = ca + 53 by ring, p53]
  rcases lt_or_ge cb ca with h3 | h3
  · have h4 : (2 : ℝ) ^ (cb + 52 + 1) ≤ 2 ^ (ca + 52) := two_zpow_le (by omega)
    rw [p52] at h4
    rw [p1] at u1
    linarith
  · have h5 : cb = ca := by omega
    subst h5
    have md : Mult cb (binary64.val s - (binary64.val a + binary64.val b)) := (ms.weaken h'.le).sub (ma.add mb)
    have mdl : |binary64.val s - (binary64.val a + binary64.val b)| ≤ 2 ^ cb := by
      have m1 : Mult cb (|binary64.val s - (binary64.val a + binary64.val b)|) := by
        rcases abs_choice (binary64.val s - (binary64.val a + binary64.val b)) with h6 | h6 <;> rw [h6]
        · exact md
        · exact md.neg
      have := m1.lt_imp ((Mult.two_zpow (cb + 1)).weaken (by omega)) u1
      rw [p1] at this
      linarith
    rw [show cb + 52 + 1 = cb + 53 by ring, p53] at lb
    linarith

theorem sum_sub_any {m : Mode} {zs : Bool} {a b s : ℕ} (ha : binary64.Finite a) (hb : binary64.Finite b) (hab : binary64.ce b ≤ binary64.ce a ∨ binary64.val a = 0)
    (b1 : |binary64.val a| ≤ 2 ^ (900 : ℤ)) (b2 : |binary64.val b| ≤ 2 ^ (900 : ℤ)) (H : binary64.RoundsTo m zs (binary64.val a + binary64.val b) s) :
    binary64.Finite s ∧ ∃ c, binary64.Finite c ∧ binary64.val c = binary64.val s - binary64.val a := by
  rcases hab with h | h
  · exact sum_sub_any' ha hb h b1 b2 H
  · rw [h, zero_add] at H
    obtain ⟨f, v⟩ := RoundsTo.exact binary64 hb rfl H
    exact ⟨f, s, f, by rw [h, sub_zero]⟩

/-- a rounding, relative to a bound of its argument -/
theorem rnd_u {m : Mode} {zs : Bool} {v C : ℝ} {b : ℕ} (R : binary64.RoundsTo m zs v b) (hv : |v| ≤ C) (hC1 : (2 : ℝ) ^ (-800 : ℤ) ≤ C) (hC2 : C ≤ 2 ^ 250) :
    binary64.Finite b ∧ |binary64.val b - v| ≤ 1001 / 1000 / 2 ^ 52 * C := by
  obtain ⟨f, e⟩ := rnd_rel R hv hC1 (hC2.trans (by rw [← zpow_natCast]; exact two_zpow_le (by norm_num)))
  refine ⟨f, e.trans (mul_le_mul_of_nonneg_right (by norm_num) ((two_zpow_pos _).le.trans hC1))⟩

theorem le_900 {a : ℝ} (h : a ≤ 2 ^ 250) : a ≤ (2 : ℝ) ^ (900 : ℤ) := h.trans (by rw [← zpow_natCast]; exact two_zpow_le (by norm_num))

/-- `exact_add` with the operands in order -/
theorem exactAdd_ord (m : Mode) {a b : ℕ} (ha : binary64.Finite a) (hb : binary64.Finite b) (hab : binary64.ce b ≤ binary64.ce a ∨ binary64.val a = 0) {S : ℝ}
    (b1 : |binary64.val a| ≤ 2 ^ 240) (b2 : |binary64.val b| ≤ 2 ^ 240)
    (hS : |binary64.val a + binary64.val b| ≤ S) (hS1 : (2 : ℝ) ^ (-740 : ℤ) ≤ S) (hS2 : S ≤ 2 ^ 250) :
    binary64.Finite (CC.exactAdd binary64 m a b).hi ∧ binary64.Finite (CC.exactAdd binary64 m a b).lo ∧
      |binary64.val (CC.exactAdd binary64 m a b).hi + binary64.val (CC.exactAdd binary64 m a b).lo - (binary64.val a + binary64.val b)| ≤ 1 / 2 ^ 103 * S ∧
      |binary64.val (CC.exactAdd binary64 m a b).hi - (binary64.val a + binary64.val b)| ≤ 1001 / 1000 / 2 ^ 52 * S ∧
      |binary64.val (CC.exactAdd binary64 m a b).lo| ≤ 1002 / 1000 / 2 ^ 52 * S := by
  have H := binary64.hadd_spec m ha hb
  have S0 : 0 < S := lt_of_lt_of_le (two_zpow_pos _) hS1
  obtain ⟨fs, c, fc, vc⟩ := sum_sub_any ha hb hab (le_900 (b1.trans (by norm_num))) (le_900 (b2.trans (by norm_num))) H
  obtain ⟨-, es⟩ := rnd_u H hS ((two_zpow_le (by norm_num)).trans hS1) hS2
  obtain ⟨ft, vt⟩ := RoundsTo.exact binary64 fc vc (binary64.hsub_spec m fs ha)
  have L := binary64.hsub_spec m hb ft
  rw [vt] at L
  have eL : |binary64.val b - (binary64.val (binary64.hadd m a b) - binary64.val a)| ≤ 1001 / 1000 / 2 ^ 52 * S := by
    rw [show binary64.val b - (binary64.val (binary64.hadd m a b) - binary64.val a) = -(binary64.val (binary64.hadd m a b) - (binary64.val a + binary64.val b)) by ring, abs_neg]
    exact es
  obtain ⟨fl, el⟩ := rnd_u L eL (by
    have : (2 : ℝ) ^ (-800 : ℤ) = 1 / 2 ^ 60 * 2 ^ (-740 : ℤ) := by rw [show (-800 : ℤ) = -60 + -740 by norm_num, zpow_add₀ (by norm_num), show (2 : ℝ) ^ (-60 : ℤ) = 1 / 2 ^ 60 by norm_num]
    rw [this]
    have := two_zpow_pos (-740)
    nlinarith) (by nlinarith)
  refine ⟨fs, fl, ?_, es, ?_⟩
  · change |binary64.val (binary64.hadd m a b) + binary64.val (binary64.hsub m b (binary64.hsub m (binary64.hadd m a b) a)) - _| ≤ _
    rw [show binary64.val (binary64.hadd m a b) + binary64.val (binary64.hsub m b (binary64.hsub m (binary64.hadd m a b) a)) - (binary64.val a + binary64.val b) =
      binary64.val (binary64.hsub m b (binary64.hsub m (binary64.hadd m a b) a)) - (binary64.val b - (binary64.val (binary64.hadd m a b) - binary64.val a)) by ring]
    refine el.trans ?_
    rw [← mul_assoc]
    exact mul_le_mul_of_nonneg_right (by norm_num) S0.le
  · change |binary64.val (binary64.hsub m b (binary64.hsub m (binary64.hadd m a b) a))| ≤ _
    have h := abs_near el eL
    refine h.trans ?_
    have : (1001 : ℝ) / 1000 / 2 ^ 52 + 1001 / 1000 / 2 ^ 52 * (1001 / 1000 / 2 ^ 52) ≤ 1002 / 1000 / 2 ^ 52 := by norm_num
    nlinarith

/-- `exact_add` without any order -/
theorem exactAdd_crude (m : Mode) {a b : ℕ} (ha : binary64.Finite a) (hb : binary64.Finite b) {S B : ℝ} (hB : |binary64.val b| ≤ B)
    (hS : |binary64.val a + binary64.val b| ≤ S) (hS1 : (2 : ℝ) ^ (-740 : ℤ) ≤ S) (hS2 : S ≤ 2 ^ 240) (hB2 : B ≤ 2 ^ 240) :
    binary64.Finite (CC.exactAdd binary64 m a b).hi ∧ binary64.Finite (CC.exactAdd binary64 m a b).lo ∧
      |binary64.val (CC.exactAdd binary64 m a b).hi + binary64.val (CC.exactAdd binary64 m a b).lo - (binary64.val a + binary64.val b)| ≤ 1 / 2 ^ 51 * B + 1 / 2 ^ 102 * S ∧
      |binary64.val (CC.exactAdd binary64 m a b).hi - (binary64.val a + binary64.val b)| ≤ 1001 / 1000 / 2 ^ 52 * S ∧
      |binary64.val (CC.exactAdd binary64 m a b).lo| ≤ 1002 / 1000 / 2 ^ 52 * S + 1 / 2 ^ 51 * B := by
  have H := binary64.hadd_spec m ha hb
  have S0 : 0 < S := lt_of_lt_of_le (two_zpow_pos _) hS1
  have B0 : 0 ≤ B := (abs_nonneg _).trans hB
  obtain ⟨fs, es⟩ := rnd_u H hS ((two_zpow_le (by norm_num)).trans hS1) (hS2.trans (by norm_num))
  have R2 := binary64.hsub_spec m fs ha
  set s := binary64.hadd m a b with hs
  have Z : (2 : ℝ) ^ (-800 : ℤ) = 1 / 2 ^ 60 * 2 ^ (-740 : ℤ) := by rw [show (-800 : ℤ) = -60 + -740 by norm_num, zpow_add₀ (by norm_num), show (2 : ℝ) ^ (-60 : ℤ) = 1 / 2 ^ 60 by norm_num]
  have pz := two_zpow_pos (-740)
  have c2 : |binary64.val s - binary64.val a| ≤ B + 1001 / 1000 / 2 ^ 52 * S := by
    rw [show binary64.val s - binary64.val a = binary64.val b + (binary64.val s - (binary64.val a + binary64.val b)) by ring]
    exact abs_add_le' hB es
  obtain ⟨ft, et⟩ := rnd_u R2 c2 (by rw [Z]; nlinarith) (by nlinarith)
  set t := binary64.hsub m s a with ht
  have R3 := binary64.hsub_spec m hb ft
  have c3 : |binary64.val b - binary64.val t| ≤ 1001 / 1000 / 2 ^ 52 * S + 1001 / 1000 / 2 ^ 52 * (B + 1001 / 1000 / 2 ^ 52 * S) := by
    rw [show binary64.val b - binary64.val t = -(binary64.val s - (binary64.val a + binary64.val b)) + -(binary64.val t - (binary64.val s - binary64.val a)) by ring]
    exact abs_add_le' ((abs_neg _).trans_le es) ((abs_neg _).trans_le et)
  obtain ⟨fl, el⟩ := rnd_u R3 c3 (by rw [Z]; nlinarith) (by nlinarith)
  set l := binary64.hsub m b t with hl
  have key : CC.exactAdd binary64 m a b = { hi := s, lo := l } := rfl
  rw [key]
  dsimp only
  refine ⟨fs, fl, ?_, es, ?_⟩
  · rw [show binary64.val s + binary64.val l - (binary64.val a + binary64.val b) = (binary64.val l - (binary64.val b - binary64.val t)) + -(binary64.val t - (binary64.val s - binary64.val a)) by ring]
    refine (abs_add_le' el ((abs_neg _).trans_le et)).trans ?_
    norm_num; linarith
  · refine (abs_near el c3).trans ?_
    norm_num; linarith

/-- `add` of double-doubles with the operands in order -/
theorem ddAdd_any (m : Mode) {a b : CC.Pair} (fa : binary64.Finite a.hi) (fa' : binary64.Finite a.lo) (fb : binary64.Finite b.hi) (fb' : binary64.Finite b.lo)
    (hab : binary64.ce b.hi ≤ binary64.ce a.hi ∨ binary64.val a.hi = 0) {M : ℝ} (M1 : (2 : ℝ) ^ (-690 : ℤ) ≤ M) (M2 : M ≤ 2 ^ 200)
    (h1 : |binary64.val a.hi| ≤ M) (h2 : |binary64.val b.hi| ≤ M) (h3 : |binary64.val a.lo| ≤ 1 / 2 ^ 44 * M) (h4 : |binary64.val b.lo| ≤ 1 / 2 ^ 44 * M) :
    binary64.Finite (CC.ddAdd binary64 m a b).hi ∧ binary64.Finite (CC.ddAdd binary64 m a b).lo ∧
      |binary64.val (CC.ddAdd binary64 m a b).hi + binary64.val (CC.ddAdd binary64 m a b).lo - ((binary64.val a.hi + binary64.val a.lo) + (binary64.val b.hi + binary64.val b.lo))| ≤ 1 / 2 ^ 92 * M ∧
      |binary64.val (CC.ddAdd binary64 m a b).lo| ≤ 1 / 2 ^ 51 * |(binary64.val a.hi + binary64.val a.lo) + (binary64.val b.hi + binary64.val b.lo)| + 1 / 2 ^ 91 * M := by
  have M0 : 0 < M := lt_of_lt_of_le (two_zpow_pos _) M1
  have Z : (2 : ℝ) ^ (-740 : ℤ) = 1 / 2 ^ 50 * 2 ^ (-690 : ℤ) := by rw [show (-740 : ℤ) = -50 + -690 by norm_num, zpow_add₀ (by norm_num), show (2 : ℝ) ^ (-50 : ℤ) = 1 / 2 ^ 50 by norm_num]
  have Z8 : (2 : ℝ) ^ (-800 : ℤ) = 1 / 2 ^ 110 * 2 ^ (-690 : ℤ) := by rw [show (-800 : ℤ) = -110 + -690 by norm_num, zpow_add₀ (by norm_num), show (2 : ℝ) ^ (-110 : ℤ) = 1 / 2 ^ 110 by norm_num]
  have pz := two_zpow_pos (-690)
  obtain ⟨f1, f2, e1, e1', e1''⟩ := exactAdd_ord m fa fb hab (h1.trans (M2.trans (by norm_num))) (h2.trans (M2.trans (by norm_num))) (S := 2 * M) ((abs_add_le' h1 h2).trans (by linarith)) (by rw [Z]; linarith) (by linarith)
  have R2 := binary64.hadd_spec m fa' fb'
  obtain ⟨f3, e3⟩ := rnd_u (C := 2 / 2 ^ 44 * M) R2 ((abs_add_le' h3 h4).trans (by linarith)) (by rw [Z8]; linarith) (by linarith)
  have key : CC.ddAdd binary64 m a b = CC.exactAdd binary64 m (CC.exactAdd binary64 m a.hi b.hi).hi (binary64.hadd m (CC.exactAdd binary64 m a.hi b.hi).lo (binary64.hadd m a.lo b.lo)) := rfl
  rw [key]
  generalize (CC.exactAdd binary64 m a.hi b.hi) = r at *
  generalize binary64.hadd m a.lo b.lo = l at *
  have R4 := binary64.hadd_spec m f2 f3
  have bl := abs_near e3 (abs_add_le' h3 h4)
  have c4 := abs_add_le' e1'' bl
  obtain ⟨f5, e5⟩ := rnd_u (C := 21 / 10 / 2 ^ 44 * M) R4 (c4.trans (by norm_num; linarith)) (by rw [Z8]; linarith) (by linarith)
  generalize binary64.hadd m r.lo l = s at *
  have bs : |binary64.val s| ≤ 1 / 2 ^ 42 * M := by
    refine (abs_near e5 c4).trans ?_
    norm_num; linarith
  have tri : |binary64.val r.hi + binary64.val s - ((binary64.val a.hi + binary64.val a.lo) + (binary64.val b.hi + binary64.val b.lo))| ≤ 1 / 2 ^ 103 * (2 * M) + 1001 / 1000 / 2 ^ 52 * (2 / 2 ^ 44 * M) + 1001 / 1000 / 2 ^ 52 * (21 / 10 / 2 ^ 44 * M) := by
    rw [show binary64.val r.hi + binary64.val s - ((binary64.val a.hi + binary64.val a.lo) + (binary64.val b.hi + binary64.val b.lo)) =
      (binary64.val r.hi + binary64.val r.lo - (binary64.val a.hi + binary64.val b.hi)) + (binary64.val l - (binary64.val a.lo + binary64.val b.lo)) + (binary64.val s - (binary64.val r.lo + binary64.val l)) by ring]
    exact abs_add_le' (abs_add_le' e1 e3) e5
  set V := (binary64.val a.hi + binary64.val a.lo) + (binary64.val b.hi + binary64.val b.lo) with hV
  have bV : |V| ≤ 21 / 10 * M := by
    rw [hV]
    refine (abs_add_le' (abs_add_le' h1 h3) (abs_add_le' h2 h4)).trans ?_
    norm_num; linarith
  have aV := abs_nonneg V
  have sV : |binary64.val r.hi + binary64.val s| ≤ |V| + 1 / 2 ^ 45 * M := by
    refine (abs_near tri le_rfl).trans ?_
    norm_num; linarith
  obtain ⟨g1, g2, g3, g4, g5⟩ := exactAdd_crude m f1 f5 bs sV (by rw [Z]; linarith) (by linarith) (by linarith)
  refine ⟨g1, g2, ?_, ?_⟩
  · refine (abs_tri g3 tri).trans ?_
    norm_num at bV ⊢; linarith
  · refine g5.trans ?_
    norm_num; linarith

/-- a rounding at most triples -/
theorem rnd_tri {m : Mode} {zs : Bool} {v C : ℝ} {b : ℕ} (R : binary64.RoundsTo m zs v b) (hv : |v| ≤ C) (hC1 : eta ≤ C) (hC2 : C ≤ 2 ^ 200) :
    binary64.Finite b ∧ |binary64.val b| ≤ 3 * C := by
  obtain ⟨f, e⟩ := err64 R (hv.trans hC2)
  refine ⟨f, (abs_near e hv).trans ?_⟩
  have h1 := mul_le_mul (ru_le m) hv (abs_nonneg _) (by norm_num)
  have : 0 ≤ C := (abs_nonneg _).trans hv
  norm_num at h1; linarith

theorem split_crude (m : Mode) {x : ℕ} (hx : binary64.Finite x) {C : ℝ} (hb : |binary64.val x| ≤ C) (hC1 : eta ≤ C) (hC2 : C ≤ 2 ^ 120) :
    binary64.Finite (CC.split m x).hi ∧ binary64.Finite (CC.split m x).lo ∧ |binary64.val (CC.split m x).hi| ≤ 2 ^ 35 * C ∧ |binary64.val (CC.split m x).lo| ≤ 2 ^ 37 * C := by
  obtain ⟨fC, vC⟩ := splitConst_val
  have C0 : 0 ≤ C := (abs_nonneg _).trans hb
  have G := binary64.hmul_spec m fC hx
  rw [vC] at G
  obtain ⟨f1, e1⟩ := rnd_tri (C := 2 ^ 28 * C) G (by rw [abs_mul, abs_of_pos (by norm_num)]; nlinarith [abs_nonneg (binary64.val x)]) (by linarith) (by linarith)
  have D := binary64.hsub_spec m hx f1
  obtain ⟨f2, e2⟩ := rnd_tri (C := 2 ^ 30 * C) D ((abs_sub _ _).trans (by linarith)) (by linarith) (by linarith)
  have K := binary64.hadd_spec m f1 f2
  obtain ⟨f3, e3⟩ := rnd_tri (C := 2 ^ 33 * C) K ((abs_add_le' e1 e2).trans (by linarith)) (by linarith) (by linarith)
  have L := binary64.hsub_spec m hx f3
  obtain ⟨f4, e4⟩ := rnd_tri (C := 2 ^ 35 * C) L ((abs_sub _ _).trans (by linarith)) (by linarith) (by linarith)
  exact ⟨f3, f4, e3.trans (by linarith), e4.trans (by linarith)⟩

/-- Dekker's product with an absolute error term, in every mode -/
theorem exactMult_abs (m : Mode) {a b : ℕ} (ha : binary64.Finite a) (hb : binary64.Finite b)
    (ba : |binary64.val a| ≤ 2 ^ 110) (bb : |binary64.val b| ≤ 2 ^ 110) :
    binary64.Finite (CC.exactMult m a b).hi ∧ binary64.Finite (CC.exactMult m a b).lo ∧
      |binary64.val (CC.exactMult m a b).hi + binary64.val (CC.exactMult m a b).lo - binary64.val a * binary64.val b| ≤ 1 / 2 ^ 72 * |binary64.val a * binary64.val b| + 2 ^ (-700 : ℤ) ∧
      |binary64.val (CC.exactMult m a b).hi - binary64.val a * binary64.val b| ≤ 1 / 2 ^ 52 * |binary64.val a * binary64.val b| + 2 ^ (-700 : ℤ) := by
  have H := binary64.hmul_spec m ha hb
  have ab0 := abs_nonneg (binary64.val a * binary64.val b)
  have pab : |binary64.val a * binary64.val b| ≤ (2 : ℝ) ^ (220 : ℤ) := (abs_mul_le ba bb).trans (by norm_num)
  obtain ⟨fh, eh⟩ := err64b H (pab.trans (two_zpow_le (by norm_num)))
  have ehh : |binary64.val (binary64.hmul m a b) - binary64.val a * binary64.val b| ≤ 1 / 2 ^ 52 * |binary64.val a * binary64.val b| + 2 ^ (-700 : ℤ) := by
    refine eh.trans (add_le_add (mul_le_mul_of_nonneg_right (ru_le m) ab0) ?_)
    rw [eta_eq]; exact two_zpow_le (by norm_num)
  rcases le_or_gt ((2 : ℝ) ^ (-900 : ℤ)) |binary64.val a * binary64.val b| with h | h
  · have nrm : ∀ u v : ℝ, |v| ≤ 2 ^ 110 → (2 : ℝ) ^ (-900 : ℤ) ≤ |u * v| → (2 : ℝ) ^ (-1022 : ℤ) ≤ |u| := by
      intro u v hv huv
      by_contra hc
      push Not at hc
      have h1 : |u * v| < (2 : ℝ) ^ (-1022 : ℤ) * 2 ^ 110 := by
        rw [abs_mul]
        have hv0 := abs_nonneg v
        calc |u| * |v| ≤ |u| * 2 ^ 110 := mul_le_mul_of_nonneg_left hv (abs_nonneg _)
          _ < _ := mul_lt_mul_of_pos_right hc (by norm_num)
      have h2 : (2 : ℝ) ^ (-1022 : ℤ) * 2 ^ 110 ≤ 2 ^ (-900 : ℤ) := by
        rw [← zpow_natCast (2 : ℝ) 110, ← zpow_add₀ (by norm_num)]; exact two_zpow_le (by norm_num)
      linarith
    have big : ∀ u : ℝ, |u| ≤ 2 ^ 110 → |u| ≤ (2 : ℝ) ^ (900 : ℤ) := fun u hu => le_900 (hu.trans (by norm_num))
    obtain ⟨-, g1, g2, g3⟩ := exactMult_any m ha hb (nrm _ _ bb h) (big _ ba) (nrm _ _ ba (by rw [mul_comm]; exact h)) (big _ bb) h (pab.trans (two_zpow_le (by norm_num)))
    exact ⟨g1, g2, g3.trans (by linarith [two_zpow_pos (-700)]), ehh⟩
  · have e0 := eta_pos
    obtain ⟨fah, fal, bah, bal⟩ := split_crude m ha (C := |binary64.val a| + eta) (by linarith) (by linarith [abs_nonneg (binary64.val a)]) (by have := eta_le; norm_num at *; linarith)
    obtain ⟨fbh, fbl, bbh, bbl⟩ := split_crude m hb (C := |binary64.val b| + eta) (by linarith) (by linarith [abs_nonneg (binary64.val b)]) (by have := eta_le; norm_num at *; linarith)
    have key : CC.exactMult m a b =
      { lo := binary64.hadd m (binary64.hmul m (CC.split m a).lo (CC.split m b).lo) (binary64.hadd m (binary64.hmul m (CC.split m a).lo (CC.split m b).hi)
          (binary64.hadd m (binary64.hmul m (CC.split m a).hi (CC.split m b).lo) (binary64.hsub m (binary64.hmul m (CC.split m a).hi (CC.split m b).hi) (binary64.hmul m a b)))),
        hi := binary64.hmul m a b } := rfl
    rw [key]
    dsimp only
    generalize (CC.split m a).hi = ah at *
    generalize (CC.split m a).lo = al at *
    generalize (CC.split m b).hi = bh at *
    generalize (CC.split m b).lo = bl at *
    have a0 := abs_nonneg (binary64.val a)
    have b0 := abs_nonneg (binary64.val b)
    have T : (|binary64.val a| + eta) * (|binary64.val b| + eta) ≤ 2 ^ (-890 : ℤ) := by
      have h1 : |binary64.val a| * |binary64.val b| ≤ 2 ^ (-900 : ℤ) := by rw [← abs_mul]; exact h.le
      have h2 : eta ≤ (1 / 2 ^ 170 : ℝ) * 2 ^ (-900 : ℤ) := by
        rw [eta_eq, show (1 / 2 ^ 170 : ℝ) = 2 ^ (-170 : ℤ) by norm_num, ← zpow_add₀ (by norm_num)]; exact two_zpow_le (by norm_num)
      have h3 : (2 : ℝ) ^ (-890 : ℤ) = 1024 * 2 ^ (-900 : ℤ) := by rw [show (-890 : ℤ) = 10 + -900 by norm_num, zpow_add₀ (by norm_num), show (2 : ℝ) ^ (10 : ℤ) = 1024 by norm_num]
      have h4 := two_zpow_pos (-900)
      have h5 := eta_le
      rw [h3]
      have k1 : |binary64.val a| * eta ≤ 2 ^ 110 * eta := mul_le_mul_of_nonneg_right ba e0.le
      have k2 : |binary64.val b| * eta ≤ 2 ^ 110 * eta := mul_le_mul_of_nonneg_right bb e0.le
      have k3 : eta * eta ≤ 1 / 2 ^ 200 * eta := mul_le_mul_of_nonneg_right h5 e0.le
      norm_num at *
      nlinarith
    set Q : ℝ := 2 ^ 74 * 2 ^ (-890 : ℤ) with hQ
    have hQ0 : 0 < Q := by rw [hQ]; have := two_zpow_pos (-890); positivity
    have hQe : eta ≤ Q := by rw [eta_eq, hQ, ← zpow_natCast (2 : ℝ) 74, ← zpow_add₀ (by norm_num)]; exact two_zpow_le (by norm_num)
    have hQ1 : 1024 * Q ≤ 2 ^ (-700 : ℤ) := by
      rw [hQ, show (1024 : ℝ) = 2 ^ (10 : ℤ) by norm_num, ← zpow_natCast (2 : ℝ) 74, ← zpow_add₀ (by norm_num), ← zpow_add₀ (by norm_num)]; exact two_zpow_le (by norm_num)
    have hQ2 : 1024 * Q ≤ 2 ^ 200 := hQ1.trans (by rw [← zpow_natCast]; exact two_zpow_le (by norm_num))
    have pr : ∀ {u v : ℝ}, |u| ≤ 2 ^ 37 * (|binary64.val a| + eta) → |v| ≤ 2 ^ 37 * (|binary64.val b| + eta) → |u * v| ≤ Q := by
      intro u v hu hv
      refine (abs_mul_le hu hv).trans ?_
      rw [hQ]
      calc (2 : ℝ) ^ 37 * (|binary64.val a| + eta) * (2 ^ 37 * (|binary64.val b| + eta)) = 2 ^ 74 * ((|binary64.val a| + eta) * (|binary64.val b| + eta)) := by ring
        _ ≤ _ := mul_le_mul_of_nonneg_left T (by norm_num)
    have bah' : |binary64.val ah| ≤ 2 ^ 37 * (|binary64.val a| + eta) := bah.trans (by norm_num; linarith)
    have bbh' : |binary64.val bh| ≤ 2 ^ 37 * (|binary64.val b| + eta) := bbh.trans (by norm_num; linarith)
    have hab : |binary64.val a * binary64.val b| ≤ Q := pr (by linarith) (by linarith)
    obtain ⟨g0, g0'⟩ := rnd_tri H hab hQe (by linarith)
    obtain ⟨g1, g1'⟩ := rnd_tri (binary64.hmul_spec m fah fbh) (pr bah' bbh') hQe (by linarith)
    obtain ⟨g2, g2'⟩ := rnd_tri (binary64.hmul_spec m fah fbl) (pr bah' bbl) hQe (by linarith)
    obtain ⟨g3, g3'⟩ := rnd_tri (binary64.hmul_spec m fal fbh) (pr bal bbh') hQe (by linarith)
    obtain ⟨g4, g4'⟩ := rnd_tri (binary64.hmul_spec m fal fbl) (pr bal bbl) hQe (by linarith)
    obtain ⟨g5, g5'⟩ := rnd_tri (C := 6 * Q) (binary64.hsub_spec m g1 g0) ((abs_sub _ _).trans (by linarith)) (by linarith) (by linarith)
    obtain ⟨g6, g6'⟩ := rnd_tri (C := 21 * Q) (binary64.hadd_spec m g2 g5) ((abs_add_le' g2' g5').trans (by linarith)) (by linarith) (by linarith)
    obtain ⟨g7, g7'⟩ := rnd_tri (C := 66 * Q) (binary64.hadd_spec m g3 g6) ((abs_add_le' g3' g6').trans (by linarith)) (by linarith) (by linarith)
    obtain ⟨g8, g8'⟩ := rnd_tri (C := 201 * Q) (binary64.hadd_spec m g4 g7) ((abs_add_le' g4' g7').trans (by linarith)) (by linarith) (by linarith)
    refine ⟨g0, g8, ?_, ehh⟩
    refine ((abs_sub _ _).trans (add_le_add (abs_add_le' g0' g8') hab)).trans ?_
    norm_num at *; linarith

/-- `quick_mult` of double-doubles, from the error of the product of the leading parts -/
theorem quickMult_core (m : Mode) {a b : CC.Pair} (fa : binary64.Finite a.hi) (fa' : binary64.Finite a.lo) (fb : binary64.Finite b.hi) (fb' : binary64.Finite b.lo)
    {X Y ε : ℝ} (h1 : |binary64.val a.hi| ≤ X) (h2 : |binary64.val b.hi| ≤ Y) (h3 : |binary64.val a.lo| ≤ 1 / 2 ^ 48 * X) (h4 : |binary64.val b.lo| ≤ 1 / 2 ^ 48 * Y)
    (p1 : (2 : ℝ) ^ (-740 : ℤ) ≤ X * Y) (p2 : X * Y ≤ 2 ^ (900 : ℤ))
    (fr : binary64.Finite (CC.exactMult m a.hi b.hi).hi) (fr' : binary64.Finite (CC.exactMult m a.hi b.hi).lo)
    (er : |binary64.val (CC.exactMult m a.hi b.hi).hi + binary64.val (CC.exactMult m a.hi b.hi).lo - binary64.val a.hi * binary64.val b.hi| ≤ ε)
    (bl : |binary64.val (CC.exactMult m a.hi b.hi).lo| ≤ 1 / 2 ^ 50 * (X * Y)) :
    ∃ q, CC.quickMult m a b = some q ∧ q.hi = (CC.exactMult m a.hi b.hi).hi ∧ binary64.Finite q.hi ∧ binary64.Finite q.lo ∧
      |binary64.val q.hi + binary64.val q.lo - (binary64.val a.hi + binary64.val a.lo) * (binary64.val b.hi + binary64.val b.lo)| ≤ ε + 1 / 2 ^ 94 * (X * Y) ∧
      |binary64.val q.lo| ≤ 1 / 2 ^ 46 * (X * Y) := by
  obtain ⟨t1, z1, k1, R1⟩ := exactFma_spec m fa fb' fr'
  have X0 : 0 ≤ X := (abs_nonneg _).trans h1
  have Y0 : 0 ≤ Y := (abs_nonneg _).trans h2
  set P := X * Y with hP
  have P0 : 0 < P := lt_of_lt_of_le (two_zpow_pos _) p1
  have Z8 : (2 : ℝ) ^ (-800 : ℤ) = 1 / 2 ^ 60 * 2 ^ (-740 : ℤ) := by rw [show (-800 : ℤ) = -60 + -740 by norm_num, zpow_add₀ (by norm_num), show (2 : ℝ) ^ (-60 : ℤ) = 1 / 2 ^ 60 by norm_num]
  have Z9 : (2 : ℝ) ^ (900 : ℤ) ≤ 2 ^ (1000 : ℤ) := two_zpow_le (by norm_num)
  have pz := two_zpow_pos (-740)
  have c1 : |binary64.val a.hi * binary64.val b.lo| ≤ 1 / 2 ^ 48 * P := (abs_mul_le h1 h4).trans (by rw [hP]; linarith)
  have c2 : |binary64.val a.lo * binary64.val b.hi| ≤ 1 / 2 ^ 48 * P := (abs_mul_le h3 h2).trans (by rw [hP]; linarith)
  have c3 : |binary64.val a.lo * binary64.val b.lo| ≤ 1 / 2 ^ 96 * P := (abs_mul_le h3 h4).trans (by rw [hP]; norm_num; linarith)
  have d1 := abs_add_le' c1 bl
  obtain ⟨ft1, et1⟩ := rnd_rel R1 (C := 5 / 4 / 2 ^ 48 * P) (d1.trans (by norm_num; linarith)) (by rw [Z8]; linarith) (le_trans (b := P) (by linarith) (p2.trans Z9))
  obtain ⟨t2, z2, k2, R2⟩ := exactFma_spec m fa' fb ft1
  have bt1 := abs_near et1 d1
  have d2 := abs_add_le' c2 bt1
  obtain ⟨ft2, et2⟩ := rnd_rel R2 (C := 3 / 2 ^ 48 * P) (d2.trans (by norm_num; linarith)) (by rw [Z8]; linarith) (le_trans (b := P) (by linarith) (p2.trans Z9))
  refine ⟨{ lo := t2, hi := (CC.exactMult m a.hi b.hi).hi }, ?_, rfl, fr, ft2, ?_, ?_⟩
  · unfold CC.quickMult
    simp only [k1, k2, Option.bind_eq_bind, Option.bind_some, pure]
  · dsimp only
    generalize CC.exactMult m a.hi b.hi = r at *
    rw [show binary64.val r.hi + binary64.val t2 - (binary64.val a.hi + binary64.val a.lo) * (binary64.val b.hi + binary64.val b.lo) =
      (binary64.val r.hi + binary64.val r.lo - binary64.val a.hi * binary64.val b.hi) + (binary64.val t2 - (binary64.val a.lo * binary64.val b.hi + binary64.val t1)) +
      (binary64.val t1 - (binary64.val a.hi * binary64.val b.lo + binary64.val r.lo)) + -(binary64.val a.lo * binary64.val b.lo) by ring]
    refine (abs_add_le' (abs_add_le' (abs_add_le' er et2) et1) ((abs_neg _).trans_le c3)).trans ?_
    norm_num; linarith
  · dsimp only
    refine (abs_near et2 d2).trans ?_
    norm_num; linarith

theorem quickMult_abs (m : Mode) {a b : CC.Pair} (fa : binary64.Finite a.hi) (fa' : binary64.Finite a.lo) (fb : binary64.Finite b.hi) (fb' : binary64.Finite b.lo)
    {X Y : ℝ} (h1 : |binary64.val a.hi| ≤ X) (h2 : |binary64.val b.hi| ≤ Y) (h3 : |binary64.val a.lo| ≤ 1 / 2 ^ 48 * X) (h4 : |binary64.val b.lo| ≤ 1 / 2 ^ 48 * Y)
    (p1 : (2 : ℝ) ^ (-600 : ℤ) ≤ X * Y) (pX : X ≤ 2 ^ 110) (pY : Y ≤ 2 ^ 110) :
    ∃ q, CC.quickMult m a b = some q ∧ binary64.Finite q.hi ∧ binary64.Finite q.lo ∧
      |binary64.val q.hi + binary64.val q.lo - (binary64.val a.hi + binary64.val a.lo) * (binary64.val b.hi + binary64.val b.lo)| ≤ (1 / 2 ^ 72 + 1 / 2 ^ 93) * (X * Y) ∧
      |binary64.val q.lo| ≤ 1 / 2 ^ 46 * (X * Y) ∧ |binary64.val q.hi| ≤ (1 + 1 / 2 ^ 51) * (X * Y) := by
  obtain ⟨fr, fr', er, er'⟩ := exactMult_abs m fa fb (h1.trans pX) (h2.trans pY)
  have X0 : 0 ≤ X := (abs_nonneg _).trans h1
  have Y0 : 0 ≤ Y := (abs_nonneg _).trans h2
  have hp : |binary64.val a.hi * binary64.val b.hi| ≤ X * Y := abs_mul_le h1 h2
  have hPhi : X * Y ≤ 2 ^ 220 := (mul_le_mul pX pY Y0 (by norm_num)).trans (by norm_num)
  set P := X * Y with hP
  have k : (2 : ℝ) ^ (-700 : ℤ) ≤ 1 / 2 ^ 100 * P := by
    have : (2 : ℝ) ^ (-700 : ℤ) = 1 / 2 ^ 100 * 2 ^ (-600 : ℤ) := by rw [show (-700 : ℤ) = -100 + -600 by norm_num, zpow_add₀ (by norm_num), show (2 : ℝ) ^ (-100 : ℤ) = 1 / 2 ^ 100 by norm_num]
    rw [this]; exact mul_le_mul_of_nonneg_left p1 (by norm_num)
  have P0 : 0 < P := lt_of_lt_of_le (two_zpow_pos _) p1
  have bl : |binary64.val (CC.exactMult m a.hi b.hi).lo| ≤ 1 / 2 ^ 50 * P := by
    rw [show binary64.val (CC.exactMult m a.hi b.hi).lo = (binary64.val (CC.exactMult m a.hi b.hi).hi + binary64.val (CC.exactMult m a.hi b.hi).lo - binary64.val a.hi * binary64.val b.hi) + -(binary64.val (CC.exactMult m a.hi b.hi).hi - binary64.val a.hi * binary64.val b.hi) by ring]
    refine (abs_add_le' er ((abs_neg _).trans_le er')).trans ?_
    norm_num [-abs_mul] at *; linarith
  obtain ⟨q, k1, k2, k3, k4, k5, k6⟩ := quickMult_core m fa fa' fb fb' h1 h2 h3 h4 ((two_zpow_le (by norm_num)).trans p1) (le_900 (hPhi.trans (by norm_num))) fr fr' er bl
  refine ⟨q, k1, k3, k4, k5.trans ?_, k6, ?_⟩
  · rw [← hP]; norm_num [-abs_mul] at *; linarith
  · rw [k2]
    refine (abs_near er' hp).trans ?_
    norm_num [-abs_mul] at *; linarith

/-- `quick_mult` of a double and a double-double -/
theorem quickMultD_abs (m : Mode) {a : ℕ} {b : CC.Pair} (fa : binary64.Finite a) (fb : binary64.Finite b.hi) (fb' : binary64.Finite b.lo)
    {X Y : ℝ} (h1 : |binary64.val a| ≤ X) (h2 : |binary64.val b.hi| ≤ Y) (h4 : |binary64.val b.lo| ≤ 1 / 2 ^ 48 * Y)
    (p1 : (2 : ℝ) ^ (-600 : ℤ) ≤ X * Y) (pX : X ≤ 2 ^ 110) (pY : Y ≤ 2 ^ 110) :
    ∃ q, CC.quickMultD m a b = some q ∧ binary64.Finite q.hi ∧ binary64.Finite q.lo ∧
      |binary64.val q.hi + binary64.val q.lo - binary64.val a * (binary64.val b.hi + binary64.val b.lo)| ≤ (1 / 2 ^ 72 + 1 / 2 ^ 93) * (X * Y) ∧
      |binary64.val q.lo| ≤ 1 / 2 ^ 46 * (X * Y) ∧ |binary64.val q.hi| ≤ (1 + 1 / 2 ^ 51) * (X * Y) := by
  obtain ⟨fr, fr', er, er'⟩ := exactMult_abs m fa fb (h1.trans pX) (h2.trans pY)
  have X0 : 0 ≤ X := (abs_nonneg _).trans h1
  have Y0 : 0 ≤ Y := (abs_nonneg _).trans h2
  have hp : |binary64.val a * binary64.val b.hi| ≤ X * Y := abs_mul_le h1 h2
  have hPhi : X * Y ≤ 2 ^ 220 := (mul_le_mul pX pY Y0 (by norm_num)).trans (by norm_num)
  have c1 : |binary64.val a * binary64.val b.lo| ≤ 1 / 2 ^ 48 * (X * Y) := (abs_mul_le h1 h4).trans (by linarith)
  set P := X * Y with hP
  have k : (2 : ℝ) ^ (-700 : ℤ) ≤ 1 / 2 ^ 100 * P := by
    have : (2 : ℝ) ^ (-700 : ℤ) = 1 / 2 ^ 100 * 2 ^ (-600 : ℤ) := by rw [show (-700 : ℤ) = -100 + -600 by norm_num, zpow_add₀ (by norm_num), show (2 : ℝ) ^ (-100 : ℤ) = 1 / 2 ^ 100 by norm_num]
    rw [this]; exact mul_le_mul_of_nonneg_left p1 (by norm_num)
  have P0 : 0 < P := lt_of_lt_of_le (two_zpow_pos _) p1
  have bl : |binary64.val (CC.exactMult m a b.hi).lo| ≤ 1 / 2 ^ 50 * P := by
    rw [show binary64.val (CC.exactMult m a b.hi).lo = (binary64.val (CC.exactMult m a b.hi).hi + binary64.val (CC.exactMult m a b.hi).lo - binary64.val a * binary64.val b.hi) + -(binary64.val (CC.exactMult m a b.hi).hi - binary64.val a * binary64.val b.hi) by ring]
    refine (abs_add_le' er ((abs_neg _).trans_le er')).trans ?_
    norm_num [-abs_mul] at *; linarith
  obtain ⟨t1, z1, k1, R1⟩ := exactFma_spec m fa fb' fr'
  have d1 := abs_add_le' c1 bl
  have Z8 : (2 : ℝ) ^ (-800 : ℤ) = 1 / 2 ^ 200 * 2 ^ (-600 : ℤ) := by rw [show (-800 : ℤ) = -200 + -600 by norm_num, zpow_add₀ (by norm_num), show (2 : ℝ) ^ (-200 : ℤ) = 1 / 2 ^ 200 by norm_num]
  have pz := two_zpow_pos (-600)
  obtain ⟨ft1, et1⟩ := rnd_rel R1 (C := 5 / 4 / 2 ^ 48 * P) (d1.trans (by norm_num; linarith)) (by rw [Z8]; linarith) (by
    refine le_trans ?_ (two_zpow_le (by norm_num : (220 : ℤ) ≤ 1000)); norm_num at hPhi ⊢; linarith)
  refine ⟨{ lo := t1, hi := (CC.exactMult m a b.hi).hi }, ?_, fr, ft1, ?_, ?_, ?_⟩
  · unfold CC.quickMultD
    simp only [k1, Option.bind_eq_bind, Option.bind_some, pure]
  · dsimp only
    generalize CC.exactMult m a b.hi = r at *
    rw [show binary64.val r.hi + binary64.val t1 - binary64.val a * (binary64.val b.hi + binary64.val b.lo) =
      (binary64.val r.hi + binary64.val r.lo - binary64.val a * binary64.val b.hi) + (binary64.val t1 - (binary64.val a * binary64.val b.lo + binary64.val r.lo)) by ring]
    refine (abs_add_le' er et1).trans ?_
    norm_num [-abs_mul] at *; linarith
  · dsimp only
    refine (abs_near et1 d1).trans ?_
    norm_num; linarith
  · dsimp only
    refine (abs_near er' hp).trans ?_
    norm_num [-abs_mul] at *; linarith

/-- one step of the double-double Horner scheme -/
theorem ddHorner (m : Mode) {x a r : CC.Pair} (fx : binary64.Finite x.hi) (fx' : binary64.Finite x.lo) (fa : binary64.Finite a.hi) (fa' : binary64.Finite a.lo)
    (fr : binary64.Finite r.hi) (fr' : binary64.Finite r.lo) {X Y M ξ P ε : ℝ} (X1 : |binary64.val x.hi| ≤ X) (X2 : |binary64.val x.lo| ≤ 1 / 2 ^ 48 * X)
    (ex : binary64.val x.hi + binary64.val x.lo = ξ) (Y1 : |binary64.val r.hi| ≤ Y) (Y2 : |binary64.val r.lo| ≤ 1 / 2 ^ 48 * Y)
    (er : |binary64.val r.hi + binary64.val r.lo - P| ≤ ε) (a1 : |binary64.val a.hi| ≤ M) (a2 : |binary64.val a.lo| ≤ 1 / 2 ^ 44 * M)
    (hord : 2 * (X * Y) ≤ |binary64.val a.hi|) (p1 : (2 : ℝ) ^ (-600 : ℤ) ≤ X * Y) (pX : X ≤ 2 ^ 110) (pY : Y ≤ 2 ^ 110) (pM : M ≤ 2 ^ 110) :
    ∃ q, CC.quickMult m x r = some q ∧ binary64.Finite (CC.ddAdd binary64 m a q).hi ∧ binary64.Finite (CC.ddAdd binary64 m a q).lo ∧
      |binary64.val (CC.ddAdd binary64 m a q).hi + binary64.val (CC.ddAdd binary64 m a q).lo - ((binary64.val a.hi + binary64.val a.lo) + ξ * P)| ≤
        |ξ| * ε + (1 / 2 ^ 72 + 1 / 2 ^ 93) * (X * Y) + 1 / 2 ^ 92 * M ∧
      |binary64.val (CC.ddAdd binary64 m a q).hi| ≤ 8 / 5 * M ∧ |binary64.val (CC.ddAdd binary64 m a q).lo| ≤ 1 / 2 ^ 48 * (8 / 5 * M) := by
  obtain ⟨q, k1, k2, k3, k4, k5, k6⟩ := quickMult_abs m fx fx' fr fr' X1 Y1 X2 Y2 p1 pX pY
  refine ⟨q, k1, ?_⟩
  have P0 : 0 < X * Y := lt_of_lt_of_le (two_zpow_pos _) p1
  have hq : |binary64.val q.hi| ≤ |binary64.val a.hi| := k6.trans (by norm_num at *; linarith)
  have hXY : X * Y ≤ M / 2 := by linarith
  obtain ⟨g1, g2, g3, g4⟩ := ddAdd_any m fa fa' k2 k3 (Or.inl (ce_le_of_abs_le hq)) (M := M) ((two_zpow_le (by norm_num)).trans (p1.trans (by linarith))) (pM.trans (by norm_num))
    a1 (hq.trans a1) a2 (k5.trans (by norm_num; linarith))
  have M0 : 0 < M := by linarith
  have bV : |(binary64.val a.hi + binary64.val a.lo) + (binary64.val q.hi + binary64.val q.lo)| ≤ 31 / 20 * M := by
    refine (abs_add_le' (abs_add_le' a1 a2) (abs_add_le' k6 k5)).trans ?_
    norm_num; linarith
  refine ⟨g1, g2, ?_, ?_, ?_⟩
  · generalize CC.ddAdd binary64 m a q = s at *
    rw [show binary64.val s.hi + binary64.val s.lo - ((binary64.val a.hi + binary64.val a.lo) + ξ * P) =
      ξ * (binary64.val r.hi + binary64.val r.lo - P) + (binary64.val q.hi + binary64.val q.lo - (binary64.val x.hi + binary64.val x.lo) * (binary64.val r.hi + binary64.val r.lo)) +
      (binary64.val s.hi + binary64.val s.lo - ((binary64.val a.hi + binary64.val a.lo) + (binary64.val q.hi + binary64.val q.lo))) by rw [ex]; ring]
    exact abs_add_le' (abs_add_le' (by rw [abs_mul]; exact mul_le_mul_of_nonneg_left er (abs_nonneg _)) k4) g3
  · generalize CC.ddAdd binary64 m a q = s at *
    rw [show binary64.val s.hi = ((binary64.val s.hi + binary64.val s.lo - ((binary64.val a.hi + binary64.val a.lo) + (binary64.val q.hi + binary64.val q.lo)))) + ((binary64.val a.hi + binary64.val a.lo) + (binary64.val q.hi + binary64.val q.lo)) + -binary64.val s.lo by ring]
    refine (abs_add_le' (abs_add_le' g3 bV) ((abs_neg _).trans_le g4)).trans ?_
    norm_num at *; linarith
  · refine g4.trans ?_
    norm_num at *; linarith

end Verif
