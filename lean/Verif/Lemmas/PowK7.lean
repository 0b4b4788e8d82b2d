import Verif.Lemmas.PowK6

/-!
# The double-double logarithm of the pow kernel
-/

namespace Verif
open Fmt Real

theorem ce_of_bexp {a b : ℕ} (h : FPBits.biasedExp binary64 b ≤ FPBits.biasedExp binary64 a) : binary64.ce b ≤ binary64.ce a := by
  rw [FPBits.biasedExp_eq, FPBits.biasedExp_eq] at h
  unfold bexp at h
  unfold ce gk
  have : binary64.mag b / 2 ^ binary64.F - 1 ≤ binary64.mag a / 2 ^ binary64.F - 1 := Nat.sub_le_sub_right h 1
  omega

/-- adding two pairs, the one of larger exponent first -/
def ddSel (m : Mode) (a b : CC.Pair) : CC.Pair := if CC.largerExponent a.hi b.hi then CC.ddAdd binary64 m a b else CC.ddAdd binary64 m b a

theorem ddSel_any (m : Mode) {a b : CC.Pair} (fa : binary64.Finite a.hi) (fa' : binary64.Finite a.lo) (fb : binary64.Finite b.hi) (fb' : binary64.Finite b.lo)
    {M : ℝ} (M1 : (2 : ℝ) ^ (-690 : ℤ) ≤ M) (M2 : M ≤ 2 ^ 200)
    (h1 : |binary64.val a.hi| ≤ M) (h2 : |binary64.val b.hi| ≤ M) (h3 : |binary64.val a.lo| ≤ 1 / 2 ^ 44 * M) (h4 : |binary64.val b.lo| ≤ 1 / 2 ^ 44 * M) :
    binary64.Finite (ddSel m a b).hi ∧ binary64.Finite (ddSel m a b).lo ∧ |pairV (ddSel m a b) - (pairV a + pairV b)| ≤ 1 / 2 ^ 92 * M ∧
      |binary64.val (ddSel m a b).lo| ≤ 1 / 2 ^ 51 * |pairV a + pairV b| + 1 / 2 ^ 91 * M := by
  unfold ddSel CC.largerExponent
  by_cases h : FPBits.biasedExp binary64 a.hi ≥ FPBits.biasedExp binary64 b.hi
  · simp only [h, decide_true, if_true]
    exact ddAdd_any m fa fa' fb fb' (Or.inl (ce_of_bexp h)) M1 M2 h1 h2 h3 h4
  · simp only [h, decide_false, Bool.false_eq_true, if_false]
    rw [add_comm (pairV a)]
    exact ddAdd_any m fb fb' fa fa' (Or.inl (ce_of_bexp (by omega))) M1 M2 h2 h1 h4 h3

/-- the last additions of the logarithm -/
theorem log2_combine (m : Mode) {q mid hi : CC.Pair} {ℓ D A ε1 ε2 Q S M : ℝ} (f1 : binary64.Finite q.hi) (f2 : binary64.Finite q.lo) (f3 : binary64.Finite mid.hi) (f4 : binary64.Finite mid.lo)
    (f5 : binary64.Finite hi.hi) (f6 : binary64.Finite hi.lo) (e1 : |pairV q - ℓ| ≤ ε1) (e2 : |pairV mid - D| ≤ ε2) (vA : binary64.val hi.hi = A) (vA' : binary64.val hi.lo = 0)
    (q1 : |binary64.val q.hi| ≤ Q) (q2 : |binary64.val q.lo| ≤ 1 / 2 ^ 44 * Q) (q3 : |binary64.val mid.hi| ≤ Q) (q4 : |binary64.val mid.lo| ≤ 1 / 2 ^ 44 * Q)
    (hS : |D + ℓ| ≤ S) (hε : ε1 + ε2 ≤ 1 / 2 ^ 60 * S) (hQ : Q ≤ 2 ^ 30 * S) (Q1 : (2 : ℝ) ^ (-690 : ℤ) ≤ Q) (Q2 : Q ≤ 1) (M2 : M ≤ 2 ^ 20) (hSM : 2 * S ≤ M) (hA : |A| ≤ M)
    (hM1 : (2 : ℝ) ^ (-690 : ℤ) ≤ M) :
    let r := ddSel m hi (ddSel m mid q)
    binary64.Finite r.hi ∧ binary64.Finite r.lo ∧ |pairV r - (A + (D + ℓ))| ≤ ε1 + ε2 + 1 / 2 ^ 92 * Q + 1 / 2 ^ 92 * M ∧
      |binary64.val r.lo| ≤ 1 / 2 ^ 51 * (|A + (D + ℓ)| + (ε1 + ε2 + 1 / 2 ^ 92 * Q)) + 1 / 2 ^ 91 * M := by
  intro r
  have Q0 : 0 < Q := lt_of_lt_of_le (two_zpow_pos _) Q1
  have S0 : 0 < S := by nlinarith
  obtain ⟨g1, g2, g3, g4⟩ := ddSel_any m f3 f4 f1 f2 Q1 (Q2.trans (by norm_num)) q3 q1 q4 q2
  set low := ddSel m mid q
  have e3 : |pairV mid + pairV q - (D + ℓ)| ≤ ε1 + ε2 := by
    rw [show pairV mid + pairV q - (D + ℓ) = (pairV q - ℓ) + (pairV mid - D) by ring]; exact abs_add_le' e1 e2
  have e4 : |pairV low - (D + ℓ)| ≤ ε1 + ε2 + 1 / 2 ^ 92 * Q := by
    rw [show pairV low - (D + ℓ) = (pairV mid + pairV q - (D + ℓ)) + (pairV low - (pairV mid + pairV q)) by ring]; exact abs_add_le' e3 g3
  have b1 : |pairV mid + pairV q| ≤ (1 + 1 / 2 ^ 60) * S := by
    refine (abs_near e3 hS).trans ?_
    linarith
  have b2 : |binary64.val low.lo| ≤ 1 / 2 ^ 50 * S := by
    refine g4.trans ?_
    have := mul_le_mul_of_nonneg_left b1 (show (0 : ℝ) ≤ 1 / 2 ^ 51 by norm_num)
    norm_num [-abs_mul] at *; linarith
  have b3 : |binary64.val low.hi| ≤ M := by
    have h1 : |pairV low| ≤ (1 + 1 / 2 ^ 40) * S := by
      refine (abs_near e4 hS).trans ?_
      norm_num at *; linarith
    rw [show binary64.val low.hi = pairV low + -binary64.val low.lo by unfold pairV; ring]
    refine (abs_add_le' h1 ((abs_neg _).trans_le b2)).trans ?_
    norm_num at *; linarith
  obtain ⟨k1, k2, k3, k4⟩ := ddSel_any m f5 f6 g1 g2 hM1 (M2.trans (by norm_num)) (by rw [vA]; exact hA) b3 (by rw [vA', abs_zero]; linarith) (b2.trans (by norm_num at *; linarith))
  have vh : pairV hi = A := by unfold pairV; rw [vA, vA', add_zero]
  rw [vh] at k3 k4
  refine ⟨k1, k2, ?_, k4.trans ?_⟩
  · rw [show pairV r - (A + (D + ℓ)) = (pairV low - (D + ℓ)) + (pairV r - (A + pairV low)) by ring]
    exact abs_add_le' e4 k3
  · have : |A + pairV low| ≤ |A + (D + ℓ)| + (ε1 + ε2 + 1 / 2 ^ 92 * Q) := by
      rw [show A + pairV low = (A + (D + ℓ)) + (pairV low - (D + ℓ)) by ring]
      exact abs_add_le' le_rfl e4
    have := mul_le_mul_of_nonneg_left this (show (0 : ℝ) ≤ 1 / 2 ^ 51 by norm_num)
    linarith

theorem log2_tab : ∀ n < 193, n = 64 ∨ 2 ^ 220 ≤ (ints 240 (CC.powLog2Big.getD n 0)).natAbs := by decide +kernel
theorem log2_tab' : ∀ n < 193, intsOk 240 (CC.powLog2Big.getD n 0) = true := by decide +kernel

theorem log2_tab64 : CC.powR2.getD 64 0 = CC.one64 ∧ CC.powLog2Big.getD 64 0 = 0 ∧ CC.powLog2Small.getD 64 0 = 0 := by decide +kernel
theorem log_tab0 : CC.powRD.getD 0 0 = CC.one64 ∧ CC.powLogHi.getD 0 0 = 0 ∧ CC.powLogMid.getD 0 0 = 0 ∧ CC.powLogLo.getD 0 0 = 0 := by decide +kernel
theorem log_tab127 : CC.powRD.getD 127 0 = CC.half64 ∧ CC.powLogHi.getD 127 0 = CC.one64 ∧ CC.powLogMid.getD 127 0 = 0 ∧ CC.powLogLo.getD 127 0 = 0 := by decide +kernel

theorem val64_zero : binary64.val 0 = 0 := (binary64.val_eq_zero_iff 0).2 (by decide +kernel)

theorem log_lower {d : ℝ} (h : |d| ≤ 1 / 2 ^ 7) : 143 / 100 * |d| ≤ |log (1 + d) / log 2| := by
  have hl := log2_lo
  have hb := abs_le.1 h
  rw [abs_div, abs_of_pos (by linarith : 0 < log 2), le_div_iff₀ (by linarith)]
  have h1 : 992 / 1000 * |d| ≤ |log (1 + d)| := by
    rcases le_total 0 d with h0 | h0
    · rw [abs_of_nonneg h0] at *
      have := one_sub_inv_le_log_of_pos (show 0 < 1 + d by linarith)
      refine le_trans ?_ (le_abs_self _)
      refine le_trans ?_ this
      rw [show 1 - (1 + d)⁻¹ = d / (1 + d) by field_simp; ring, le_div_iff₀ (by linarith)]
      nlinarith
    · rw [abs_of_nonpos h0] at *
      have := log_le_sub_one_of_pos (show 0 < 1 + d by norm_num at *; linarith)
      refine le_trans ?_ (neg_le_abs _)
      linarith
  have h2 := mul_le_mul_of_nonneg_left hl.2 (mul_nonneg (show (0 : ℝ) ≤ 143 / 100 by norm_num) (abs_nonneg d))
  have := abs_nonneg d
  linarith

theorem log_upper {d : ℝ} (h : |d| ≤ 1 / 2 ^ 7) : |log (1 + d) / log 2| ≤ 3 / 2 * |d| := by
  have hl := log2_lo
  have hb := abs_le.1 h
  rw [abs_div, abs_of_pos (by linarith : 0 < log 2), div_le_iff₀ (by linarith)]
  have h1 : |log (1 + d)| ≤ 1008 / 1000 * |d| := by
    have p : 0 < 1 + d := by norm_num at *; linarith
    have a1 := log_le_sub_one_of_pos p
    have a2 := one_sub_inv_le_log_of_pos p
    rw [show 1 - (1 + d)⁻¹ = d / (1 + d) by field_simp; ring] at a2
    rw [abs_le]
    rcases le_total 0 d with h0 | h0
    · rw [abs_of_nonneg h0] at *
      have : 0 ≤ d / (1 + d) := by positivity
      constructor <;> linarith
    · rw [abs_of_nonpos h0] at *
      have : -(1008 / 1000 * -d) ≤ d / (1 + d) := by rw [le_div_iff₀ p]; norm_num at *; nlinarith
      constructor <;> linarith
  have h2 := mul_le_mul_of_nonneg_left hl.1 (mul_nonneg (show (0 : ℝ) ≤ 3 / 2 by norm_num) (abs_nonneg d))
  have := abs_nonneg d
  linarith

theorem powRow_get {i : ℕ} (hi : i < 128) : CC.powLogHi[i]? = some (CC.powLogHi.getD i 0) ∧ CC.powLogMid[i]? = some (CC.powLogMid.getD i 0) ∧ CC.powLogLo[i]? = some (CC.powLogLo.getD i 0) ∧
    CC.powRD[i]? = some (CC.powRD.getD i 0) ∧ CC.powCD[i]? = some (CC.powCD.getD i 0) := by
  have g : ∀ (l : List ℕ), i < l.length → l[i]? = some (l.getD i 0) := fun l h => by rw [List.getD_eq_getElem _ _ h, List.getElem?_eq_getElem h]
  refine ⟨g _ (lt_of_lt_of_le hi (by decide +kernel)), g _ (lt_of_lt_of_le hi (by decide +kernel)), g _ (lt_of_lt_of_le hi (by decide +kernel)), g _ (lt_of_lt_of_le hi (by decide +kernel)), g _ (lt_of_lt_of_le hi (by decide +kernel))⟩

theorem powRow2_get {i : ℕ} (hi : i < 193) : CC.powLog2Big[i]? = some (CC.powLog2Big.getD i 0) ∧ CC.powLog2Small[i]? = some (CC.powLog2Small.getD i 0) := by
  have g : ∀ (l : List ℕ), i < l.length → l[i]? = some (l.getD i 0) := fun l h => by rw [List.getD_eq_getElem _ _ h, List.getElem?_eq_getElem h]
  refine ⟨g _ (lt_of_lt_of_le hi (by decide +kernel)), g _ (lt_of_lt_of_le hi (by decide +kernel))⟩

/-- the integer part of the logarithm: exact -/
theorem powHi_exact (m : Mode) {ex h : ℕ} {E : ℤ} (fe : binary64.Finite ex) (ve : binary64.val ex = E) (hE : |E| ≤ 1100) (fh : binary64.Finite h) (mh : Mult (-20) (binary64.val h))
    (h0 : 0 ≤ binary64.val h) (h1 : binary64.val h ≤ 1) :
    binary64.Finite (CC.exactAdd binary64 m ex h).hi ∧ binary64.Finite (CC.exactAdd binary64 m ex h).lo ∧ binary64.val (CC.exactAdd binary64 m ex h).hi = E + binary64.val h ∧
      binary64.val (CC.exactAdd binary64 m ex h).lo = 0 := by
  have mE : Mult (-20) (E : ℝ) := Mult.weaken (g := 0) ⟨E, by simp⟩ (by norm_num)
  have hE' : |(E : ℝ)| ≤ 1100 := by exact_mod_cast hE
  have H := binary64.hadd_spec m fe fh
  rw [ve] at H
  obtain ⟨f1, v1⟩ := rep_exact (g := -20) (k := 11) H (mE.add mh) (by norm_num) ((abs_add_le' hE' (le_of_eq (abs_of_nonneg h0))).trans (by norm_num; linarith)) (by norm_num) (by norm_num)
  have T := binary64.hsub_spec m f1 fe
  rw [v1, ve, add_sub_cancel_left] at T
  obtain ⟨f2, v2⟩ := RoundsTo.exact binary64 fh rfl T
  have L := binary64.hsub_spec m fh f2
  rw [v2, sub_self] at L
  obtain ⟨f3, v3⟩ := rep_exact (g := 0) (k := 0) L ⟨0, by simp⟩ (by norm_num) (by simp) (by norm_num) (by norm_num)
  exact ⟨f1, f3, v1, v3⟩

theorem powLog1p (m : Mode) {x2 : CC.Pair} (fx : binary64.Finite x2.hi) (fx' : binary64.Finite x2.lo) (bx : |pairV x2| ≤ 1 / 21500) (bx' : |binary64.val x2.lo| ≤ 1 / 2 ^ 51 * |pairV x2|) :
    ∃ p q, CC.ddPoly m x2 CC.powDDLogC = some p ∧ CC.quickMult m x2 p = some q ∧ binary64.Finite q.hi ∧ binary64.Finite q.lo ∧
      |pairV q - log (1 + pairV x2) / log 2| ≤ 5 / 8 / 2 ^ 70 * |pairV x2| + 1 / 2 ^ 190 ∧ |binary64.val q.lo| ≤ 1 / 2 ^ 44 * (|pairV x2| + 1 / 2 ^ 110) ∧ |binary64.val q.hi| ≤ 5 / 2 * |pairV x2| + 1 / 2 ^ 110 := by
  have hl := log2_lo
  have l0 : (0 : ℝ) < log 2 := by linarith
  set δ := pairV x2 with hδ
  have δ0 := abs_nonneg δ
  have xh : |binary64.val x2.hi| ≤ 101 / 100 * |δ| := by
    rw [show binary64.val x2.hi = δ + -binary64.val x2.lo by rw [hδ]; unfold pairV; ring]
    refine (abs_add_le' le_rfl ((abs_neg _).trans_le bx')).trans ?_
    linarith
  obtain ⟨p, hp, fp, fp', p1, p2, ep⟩ := powLogPoly_err m fx fx' (xh.trans (by linarith)) (bx'.trans (by linarith)) (bx.trans (by norm_num))
  have hT : (1 : ℝ) / 2 ^ 120 = 2 ^ (-120 : ℤ) := by norm_num
  obtain ⟨q, hq, fq, fq', eq, q1, q2⟩ := quickMult_abs m fx fx' fp fp' (X := 101 / 100 * |δ| + 1 / 2 ^ 120) (Y := 12 / 5) (xh.trans (by linarith)) p1 (bx'.trans (by linarith)) p2
    (by
      have h6 : (2 : ℝ) ^ (-600 : ℤ) ≤ 2 ^ (-120 : ℤ) := two_zpow_le (by norm_num)
      rw [← hT] at h6
      generalize (2 : ℝ) ^ (-600 : ℤ) = w at *
      linarith) (by linarith) (by norm_num)
  have epoly := lcPoly_near bx
  have e0 : |δ * lcPoly δ - log (1 + δ) / log 2| ≤ 3 / 2 / 2 ^ 85 * |δ| := by
    rw [show δ * lcPoly δ - log (1 + δ) / log 2 = (δ * lcPoly δ * log 2 - log (1 + δ)) / log 2 by field_simp, abs_div, abs_of_pos l0, div_le_iff₀ l0]
    refine epoly.trans ?_
    have := mul_le_mul_of_nonneg_left hl.1 (show (0 : ℝ) ≤ 3 / 2 / 2 ^ 85 * |δ| by positivity)
    linarith
  refine ⟨p, q, hp, hq, fq, fq', ?_, q1.trans (by linarith), q2.trans (by linarith)⟩
  have hpp : |pairV p - lcPoly δ| ≤ 1 / 2 ^ 85 := ep
  have eq' : |pairV q - δ * pairV p| ≤ _ := eq
  rw [show pairV q - log (1 + δ) / log 2 = (pairV q - δ * pairV p) + δ * (pairV p - lcPoly δ) + (δ * lcPoly δ - log (1 + δ) / log 2) by ring]
  refine (abs_add_le' (abs_add_le' eq' (abs_mul_le le_rfl hpp)) e0).trans ?_
  linarith

set_option maxHeartbeats 1000000 in
theorem powLog2_spec {ce fused : Bool} {m : Mode} (hc : ce = false ∨ m = .nearest) {idx dx ex : ℕ} {E : ℤ} {L : ℝ} (hi : idx < 128) (fd : binary64.Finite dx)
    (md : Mult (-60) (binary64.val dx)) (d1 : -(1 / 2 ^ 8) ≤ binary64.val dx) (d2 : binary64.val dx ≤ 1 / 2 ^ 7) (fe : binary64.Finite ex) (ve : binary64.val ex = E) (hE : |E| ≤ 1100)
    (hL : L = E + (log (1 + binary64.val dx) - log (binary64.val (CC.powRD.getD idx 0))) / log 2) (hne : L ≠ 0)
    (hcase : (E = 0 ∧ idx = 0) ∨ (E = -1 ∧ idx = 127) ∨ 1 / 2 ^ 8 ≤ |L|) :
    ∃ r, CC.powLog2 ce fused m idx dx ex = some r ∧ binary64.Finite r.hi ∧ binary64.Finite r.lo ∧ |pairV r - L| ≤ 1 / 2 ^ 70 * |L| ∧ |binary64.val r.lo| ≤ 1 / 2 ^ 50 * |L| := by
  obtain ⟨n, x2, hn, hred, hnear, fx, fx', vx, bx, bx', mx⟩ := powReduce2_spec (fused := fused) hc fd md d1 d2
  obtain ⟨fRD, -, fH, fM, fL, -, RD1, RD2, -, -, -, mH, H0, H1, bM, bL, eR⟩ := powRow_spec hi
  obtain ⟨fR, fB, fS, -, R1, R2', nR, bB, bS, eR2, -⟩ := powRow2_spec hn
  obtain ⟨t1, t2, t3, -, -⟩ := powRow_get hi
  obtain ⟨t4, t5⟩ := powRow2_get hn
  have hl := log2_lo
  have l0 : (0 : ℝ) < log 2 := by linarith
  obtain ⟨p, q, hp, hq, fq, fq', e1, q1, q2⟩ := powLog1p m fx fx' bx bx'
  set δ := pairV x2 with hδ
  have δ0 := abs_nonneg δ
  set ℓ := log (1 + δ) / log 2 with hℓ
  -- the integer part
  obtain ⟨h1, h2, h3, h4⟩ := powHi_exact m fe ve hE fH mH H0 H1
  set hip := CC.exactAdd binary64 m ex (CC.powLogHi.getD idx 0) with hhip
  -- the middle
  have hord : binary64.ce (CC.powLogMid.getD idx 0) ≤ binary64.ce (CC.powLog2Big.getD n 0) ∨ binary64.val (CC.powLog2Big.getD n 0) = 0 := by
    rcases log2_tab n hn with h | h
    · right; rw [h, log2_tab64.2.1]; exact val64_zero
    · left
      refine ce_le_of_abs_le (bM.trans ?_)
      rw [(intsOk_spec (log2_tab' n hn)).2, abs_div, abs_of_pos (show (0 : ℝ) < 2 ^ 240 by positivity), le_div_iff₀ (by positivity)]
      have h' : ((2 ^ 220 : ℕ) : ℝ) ≤ ((ints 240 (CC.powLog2Big.getD n 0)).natAbs : ℕ) := Nat.cast_le.2 h
      rw [Nat.cast_natAbs, Int.cast_abs] at h'
      refine le_trans ?_ h'
      norm_num
  set midp := CC.ddAdd binary64 m { hi := CC.powLog2Big.getD n 0, lo := CC.powLog2Small.getD n 0 } { hi := CC.powLogMid.getD idx 0, lo := CC.powLogLo.getD idx 0 } with hmid
  have hres : CC.powLog2 ce fused m idx dx ex = some (ddSel m hip (ddSel m midp q)) := by
    unfold CC.powLog2 ddSel
    simp only [hred, Option.bind_eq_bind, Option.bind_some, hp, hq, t1, t2, t3, t4, t5]
    rfl
  set D := (binary64.val (CC.powLog2Big.getD n 0) + binary64.val (CC.powLog2Small.getD n 0)) + (binary64.val (CC.powLogMid.getD idx 0) + binary64.val (CC.powLogLo.getD idx 0)) with hD
  set A := (E : ℝ) + binary64.val (CC.powLogHi.getD idx 0) with hA
  have x1p : 0 < 1 + binary64.val dx := by linarith
  have hlogδ : log (1 + δ) = log (binary64.val (CC.powR2.getD n 0)) + log (1 + binary64.val dx) := by
    rw [vx, add_sub_cancel, log_mul (by linarith) x1p.ne']
  -- the logarithm
  have eL : |A + (D + ℓ) - L| ≤ 1 / 2 ^ 100 := by
    have : A + (D + ℓ) - L = (((binary64.val (CC.powLogHi.getD idx 0) + binary64.val (CC.powLogMid.getD idx 0) + binary64.val (CC.powLogLo.getD idx 0)) * log 2 + log (binary64.val (CC.powRD.getD idx 0))) +
        ((binary64.val (CC.powLog2Big.getD n 0) + binary64.val (CC.powLog2Small.getD n 0)) * log 2 + log (binary64.val (CC.powR2.getD n 0)))) / log 2 := by
      rw [hL, hA, hD, hℓ, hlogδ]; field_simp; ring
    rw [this, abs_div, abs_of_pos l0, div_le_iff₀ l0]
    refine (abs_add_le' eR eR2).trans ?_
    have := mul_le_mul_of_nonneg_left hl.1 (show (0 : ℝ) ≤ 1 / 2 ^ 100 by norm_num)
    linarith
  have Lpos : 0 < |L| := abs_pos.2 hne
  have Lle : |L| ≤ 1200 := by
    have hE' : |(E : ℝ)| ≤ 1100 := by exact_mod_cast hE
    have dxa : |binary64.val dx| ≤ 1 / 2 ^ 7 := by rw [abs_le]; constructor <;> linarith
    have k1 := log_upper dxa
    have k2 : |log (binary64.val (CC.powRD.getD idx 0)) / log 2| ≤ 1 := by
      rw [abs_div, abs_of_pos l0, div_le_one l0, abs_of_nonpos (log_nonpos (by linarith) RD2)]
      have := log_le_log (by norm_num) RD1
      rw [one_div, log_inv] at this; linarith
    rw [hL, sub_div, show (E : ℝ) + (log (1 + binary64.val dx) / log 2 - log (binary64.val (CC.powRD.getD idx 0)) / log 2) = E + log (1 + binary64.val dx) / log 2 + -(log (binary64.val (CC.powRD.getD idx 0)) / log 2) by ring]
    refine (abs_add_le' (abs_add_le' hE' k1) ((abs_neg _).trans_le k2)).trans ?_
    linarith
  have δℓ : |ℓ| ≤ 3 / 2 * |δ| := log_upper (bx.trans (by norm_num))
  have δℓ' : 143 / 100 * |δ| ≤ |ℓ| := log_lower (bx.trans (by norm_num))
  -- conclusion from the combination
  have fin : ∀ (Q S ε2 : ℝ), binary64.Finite midp.hi → binary64.Finite midp.lo → |pairV midp - D| ≤ ε2 → |binary64.val q.hi| ≤ Q → |binary64.val q.lo| ≤ 1 / 2 ^ 44 * Q → |binary64.val midp.hi| ≤ Q →
      |binary64.val midp.lo| ≤ 1 / 2 ^ 44 * Q → |D + ℓ| ≤ S → (5 / 8 / 2 ^ 70 * |δ| + 1 / 2 ^ 190) + ε2 ≤ 1 / 2 ^ 60 * S → Q ≤ 2 ^ 30 * S → 1 / 2 ^ 250 ≤ Q → Q ≤ 1 → 2 * S ≤ 16 * |L| → |A| ≤ 16 * |L| →
      |A + (D + ℓ) - L| + (5 / 8 / 2 ^ 70 * |δ| + 1 / 2 ^ 190) + ε2 + 1 / 2 ^ 92 * Q ≤ 15 / 16 / 2 ^ 70 * |L| →
      ∃ r, CC.powLog2 ce fused m idx dx ex = some r ∧ binary64.Finite r.hi ∧ binary64.Finite r.lo ∧ |pairV r - L| ≤ 1 / 2 ^ 70 * |L| ∧ |binary64.val r.lo| ≤ 1 / 2 ^ 50 * |L| := by
    intro Q S ε2 k1 k2 k3 k4 k5 k6 k7 k8 k9 k10 k11 k12 k13 k14 k15
    have hz' : (2 : ℝ) ^ (-690 : ℤ) ≤ 1 / 2 ^ 250 * (1 / 2 ^ 100) := by
      rw [show (1 : ℝ) / 2 ^ 250 = 2 ^ (-250 : ℤ) by rw [one_div, ← zpow_natCast, ← zpow_neg]; norm_num, show (1 : ℝ) / 2 ^ 100 = 2 ^ (-100 : ℤ) by rw [one_div, ← zpow_natCast, ← zpow_neg]; norm_num,
        ← zpow_add₀ (by norm_num)]
      exact two_zpow_le (by norm_num)
    have hz : (2 : ℝ) ^ (-690 : ℤ) ≤ 1 / 2 ^ 250 := hz'.trans (by norm_num)
    have hS0 : 1 / 2 ^ 30 * Q ≤ S := by linarith
    obtain ⟨g1, g2, g3, g4⟩ := log2_combine m fq fq' k1 k2 h1 h2 e1 k3 h3 h4 k4 k5 k6 k7 k8 k9 k10 (hz.trans k11) k12 (M := 16 * |L|) (by linarith) k13 k14 (by
      generalize (2 : ℝ) ^ (-690 : ℤ) = w at *
      linarith only [hz', k10, k11, k13])
    refine ⟨_, hres, g1, g2, ?_, ?_⟩
    · rw [show pairV (ddSel m hip (ddSel m midp q)) - L = (pairV (ddSel m hip (ddSel m midp q)) - (A + (D + ℓ))) + (A + (D + ℓ) - L) by ring]
      refine (abs_add_le' g3 le_rfl).trans ?_
      linarith
    · refine g4.trans ?_
      have : |A + (D + ℓ)| ≤ |L| + |A + (D + ℓ) - L| := by
        have := abs_add_le L (A + (D + ℓ) - L)
        rwa [add_sub_cancel] at this
      have hh := abs_nonneg (A + (D + ℓ) - L)
      linarith
  -- the middle, generic bounds
  have zM : (2 : ℝ) ^ (-690 : ℤ) ≤ 1 / 2 ^ 5 := by rw [show (1 : ℝ) / 2 ^ 5 = 2 ^ (-5 : ℤ) by norm_num]; exact two_zpow_le (by norm_num)
  obtain ⟨m1, m2, m3, m4⟩ := ddAdd_any m (a := { hi := CC.powLog2Big.getD n 0, lo := CC.powLog2Small.getD n 0 }) (b := { hi := CC.powLogMid.getD idx 0, lo := CC.powLogLo.getD idx 0 }) fB fS fM fL hord
    (M := 1 / 2 ^ 5) zM (by norm_num) (bB.trans (by norm_num)) (bM.trans (by norm_num)) (bS.trans (by norm_num)) (bL.trans (by norm_num))
  change |pairV midp - D| ≤ _ at m3
  change |binary64.val midp.lo| ≤ 1 / 2 ^ 51 * |D| + _ at m4
  have bD : |D| ≤ 1 / 2 ^ 6 + 1 / 2 ^ 20 := (abs_add_le' (abs_add_le' bB bS) (abs_add_le' bM bL)).trans (by norm_num)
  have bml : |binary64.val midp.lo| ≤ 1 / 2 ^ 56 := m4.trans (by linarith)
  have bmh : |binary64.val midp.hi| ≤ 1 / 2 ^ 5 := by
    rw [show binary64.val midp.hi = pairV midp + -binary64.val midp.lo by unfold pairV; ring]
    refine (abs_add_le' (abs_near m3 bD) ((abs_neg _).trans_le bml)).trans (by norm_num)
  have bqh : |binary64.val q.hi| ≤ 1 / 2 ^ 4 := q2.trans (by linarith)
  have bql : |binary64.val q.lo| ≤ 1 / 2 ^ 44 * (1 / 2 ^ 4) := q1.trans (by linarith)
  have bDl : |D + ℓ| ≤ 1 / 2 ^ 5 := (abs_add_le' bD δℓ).trans (by linarith)
  -- the case without an integer part
  have zero : A = 0 → binary64.val (CC.powLogMid.getD idx 0) = 0 → binary64.val (CC.powLogLo.getD idx 0) = 0 → L = log (1 + binary64.val dx) / log 2 →
      ∃ r, CC.powLog2 ce fused m idx dx ex = some r ∧ binary64.Finite r.hi ∧ binary64.Finite r.lo ∧ |pairV r - L| ≤ 1 / 2 ^ 70 * |L| ∧ |binary64.val r.lo| ≤ 1 / 2 ^ 50 * |L| := by
    intro a0 z1 z2 hL'
    have dxa : |binary64.val dx| ≤ 1 / 2 ^ 7 := by rw [abs_le]; constructor <;> linarith
    have llo := log_lower dxa
    rw [← hL'] at llo
    by_cases hn64 : n = 64
    · obtain ⟨y1, y2, y3⟩ := log2_tab64
      have w1 : binary64.val (CC.powR2.getD n 0) = 1 := by rw [hn64, y1]; exact one64_val.2
      have w2 : binary64.val (CC.powLog2Big.getD n 0) = 0 := by rw [hn64, y2]; exact val64_zero
      have w3 : binary64.val (CC.powLog2Small.getD n 0) = 0 := by rw [hn64, y3]; exact val64_zero
      have hD0 : D = 0 := by rw [hD, w2, w3, z1, z2]; norm_num
      have δdx : δ = binary64.val dx := by rw [vx, w1]; ring
      have ℓL : ℓ = L := by rw [hℓ, hL', δdx]
      rw [ℓL] at δℓ δℓ'
      have δne : δ ≠ 0 := fun h => by rw [h, abs_zero, mul_zero] at δℓ; linarith
      have δge : 1 / 2 ^ 76 ≤ |δ| := by have := mx.ge δne; norm_num at this ⊢; exact this
      have zM2 : (2 : ℝ) ^ (-690 : ℤ) ≤ 1 / 2 ^ 200 := by rw [show (1 : ℝ) / 2 ^ 200 = 2 ^ (-200 : ℤ) by norm_num]; exact two_zpow_le (by norm_num)
      obtain ⟨-, -, n3, n4⟩ := ddAdd_any m (a := { hi := CC.powLog2Big.getD n 0, lo := CC.powLog2Small.getD n 0 }) (b := { hi := CC.powLogMid.getD idx 0, lo := CC.powLogLo.getD idx 0 }) fB fS fM fL hord
        (M := 1 / 2 ^ 200) zM2 (by norm_num) (by rw [w2]; norm_num) (by rw [z1]; norm_num) (by rw [w3]; norm_num) (by rw [z2]; norm_num)
      change |pairV midp - D| ≤ _ at n3
      change |binary64.val midp.lo| ≤ 1 / 2 ^ 51 * |D| + _ at n4
      rw [hD0, abs_zero, mul_zero, zero_add] at n4
      have n5 : |binary64.val midp.hi| ≤ 1 / 2 ^ 250 := by
        rw [show binary64.val midp.hi = (pairV midp - D) + -binary64.val midp.lo by rw [hD0]; unfold pairV; ring]
        refine (abs_add_le' n3 ((abs_neg _).trans_le n4)).trans ?_
        norm_num
      refine fin (3 * |δ|) (2 * |L|) _ m1 m2 n3 (q2.trans (by linarith)) (q1.trans (by linarith)) (n5.trans (by linarith)) (n4.trans (by linarith)) ?_ ?_ ?_ ?_ ?_ ?_ ?_ ?_
      · rw [hD0, ℓL, zero_add]; linarith
      · linarith
      · linarith
      · linarith
      · linarith
      · linarith
      · rw [a0, abs_zero]; linarith
      · rw [a0, hD0, ℓL, zero_add, zero_add, sub_self, abs_zero]
        linarith
    · have big : 1 / 2 ^ 15 * (1 - 1 / 2 ^ 38) ≤ |binary64.val dx| := by
        have h1 : (1 : ℝ) ≤ |(n : ℝ) - 64| := by
          have : (1 : ℤ) ≤ |(n : ℤ) - 64| := Int.one_le_abs (by omega)
          exact_mod_cast this
        have h2 : |(n : ℝ) - 64| ≤ |binary64.val dx * 2 ^ 14| + |binary64.val dx * 2 ^ 14 + 64 - n| := by
          rw [show (n : ℝ) - 64 = binary64.val dx * 2 ^ 14 + -(binary64.val dx * 2 ^ 14 + 64 - n) by ring]
          exact (abs_add_le _ _).trans (by rw [abs_neg])
        rw [abs_mul, abs_of_pos (show (0 : ℝ) < 2 ^ 14 by norm_num)] at h2
        have h3 := (h1.trans h2).trans (add_le_add_right hnear _)
        generalize |binary64.val dx| = v at h3 ⊢
        norm_num at h3 ⊢
        linarith only [h3]
      have eDl : |D + ℓ - L| ≤ 1 / 2 ^ 100 := by have := eL; rwa [a0, zero_add] at this
      have bDl2 : |D + ℓ| ≤ 2 * |L| := (abs_near eDl le_rfl).trans (by linarith)
      refine fin (1 / 2 ^ 4) (2 * |L|) _ m1 m2 m3 bqh bql (bmh.trans (by norm_num)) (bml.trans (by norm_num)) bDl2 ?_ ?_ ?_ (by norm_num) ?_ ?_ ?_
      · linarith
      · linarith
      · norm_num
      · linarith
      · rw [a0, abs_zero]; linarith
      · linarith
  rcases hcase with ⟨rfl, rfl⟩ | ⟨rfl, rfl⟩ | hbig
  · obtain ⟨y1, y2, y3, y4⟩ := log_tab0
    refine zero ?_ ?_ ?_ ?_
    · rw [hA, y2, val64_zero]; norm_num
    · rw [y3, val64_zero]
    · rw [y4, val64_zero]
    · rw [hL, y1, one64_val.2, log_one]; norm_num
  · obtain ⟨y1, y2, y3, y4⟩ := log_tab127
    refine zero ?_ ?_ ?_ ?_
    · rw [hA, y2, one64_val.2]; norm_num
    · rw [y3, val64_zero]
    · rw [y4, val64_zero]
    · rw [hL, y1, half64_val.2, log_inv]; field_simp; push_cast; ring
  · have hA16 : |A| ≤ 16 * |L| := by
      rw [show A = L + (A + (D + ℓ) - L) + -(D + ℓ) by ring]
      exact (abs_add_le' (abs_add_le' le_rfl eL) ((abs_neg _).trans_le bDl)).trans (by linarith)
    refine fin (1 / 2 ^ 4) (1 / 2 ^ 5) _ m1 m2 m3 bqh bql (bmh.trans (by norm_num)) (bml.trans (by norm_num)) bDl ?_ (by norm_num) ?_ (by norm_num) ?_ hA16 ?_
    · linarith
    · norm_num
    · linarith
    · linarith

end Verif
