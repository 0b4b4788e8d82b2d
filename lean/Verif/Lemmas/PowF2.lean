import Verif.Lemmas.PowF1

/-!
# The float pow kernel: reduction of the base and the double-double path
-/

namespace Verif
open Fmt Real

theorem one_bits32 {w : ℕ} (hw : w < 2 ^ 23) : binary32.Finite (127 * 2 ^ 23 + w) ∧ binary32.val (127 * 2 ^ 23 + w) = 1 + (w : ℝ) / 2 ^ 23 := by
  obtain ⟨f, v⟩ := bits32 (e := 126) (m := 2 ^ 23 + w) (by omega) (by omega) (by norm_num)
  have e : 126 * 2 ^ 23 + (2 ^ 23 + w) = 127 * 2 ^ 23 + w := by omega
  rw [e] at f v
  refine ⟨f, v.trans ?_⟩
  push_cast
  norm_num
  ring

theorem or_one32 {w : ℕ} (hw : w < 2 ^ 23) : w ||| CC.one32 = 127 * 2 ^ 23 + w := by
  rw [show CC.one32 = 127 * 2 ^ 23 by decide +kernel, Nat.or_comm, Nat.mul_comm, ← Nat.two_pow_add_eq_or_of_lt hw]

theorem one32_val : binary32.Finite CC.one32 ∧ binary32.val CC.one32 = 1 := by
  have := one_bits32 (w := 0) (by norm_num)
  simpa [CC.one32] using this

/-- a multiply-add without rounding -/
theorem ma_exact (fused : Bool) (m : Mode) {x y z : ℕ} (hx : binary64.Finite x) (hy : binary64.Finite y) (hz : binary64.Finite z) {g k k' : ℤ} (hg : -1074 ≤ g)
    (m1 : Mult g (binary64.val x * binary64.val y)) (b1 : |binary64.val x * binary64.val y| ≤ 2 ^ k) (m2 : Mult g (binary64.val z)) (b2 : |binary64.val x * binary64.val y + binary64.val z| ≤ 2 ^ k')
    (hk : k ≤ g + 53) (hk' : k' ≤ g + 53) (h3 : k ≤ 1023) (h3' : k' ≤ 1023) :
    binary64.Finite (CC.multiplyAdd binary64 fused m x y z) ∧ binary64.val (CC.multiplyAdd binary64 fused m x y z) = binary64.val x * binary64.val y + binary64.val z := by
  unfold CC.multiplyAdd
  cases fused
  · simp only [Bool.false_eq_true, if_false]
    obtain ⟨fp, vp⟩ := rep_exact (hmul_spec binary64 m hx hy) m1 hg b1 hk h3
    have Ra := hadd_spec binary64 m fp hz
    rw [vp] at Ra
    exact rep_exact Ra (m1.add m2) hg b2 hk' h3'
  · simp only [if_true]
    exact rep_exact (hfma_spec binary64 m) (m1.add m2) hg b2 hk' h3'

/-- the reduced argument, exact -/
theorem powfDx_spec (fused : Bool) (m : Mode) {w : ℕ} (hw : w < 2 ^ 23) :
    w >>> 16 < 128 ∧ ∃ dx, CC.powfDx fused m (w >>> 16) (w ||| CC.one32) = some dx ∧ binary64.Finite dx ∧
      binary64.val dx = binary64.val (CC.powRD.getD (w >>> 16) 0) * (1 + (w : ℝ) / 2 ^ 23) - 1 ∧ Mult (-31) (binary64.val dx) ∧
      -(1 / 2 ^ 8) ≤ binary64.val dx ∧ binary64.val dx ≤ 1 / 2 ^ 7 := by
  rw [or_one32 hw]
  have hi : w >>> 16 < 128 := by rw [Nat.shiftRight_eq_div_pow]; omega
  refine ⟨hi, ?_⟩
  obtain ⟨i, r, hr, hwi, hii⟩ : ∃ i r : ℕ, r < 2 ^ 16 ∧ w = i * 2 ^ 16 + r ∧ w >>> 16 = i := ⟨w / 2 ^ 16, w % 2 ^ 16, by omega, by omega, Nat.shiftRight_eq_div_pow _ _⟩
  rw [hii] at hi ⊢
  obtain ⟨fR, -, -, -, -, mR, R1, R2, -, lo, hi', -⟩ := powRow_spec hi
  obtain ⟨fR', vR', -, -, t6, -⟩ := powfRow_spec hi
  obtain ⟨-, -, -, t4, -⟩ := powRow_get hi
  obtain ⟨fx, vx⟩ := one_bits32 hw
  obtain ⟨f1, v1⟩ := one32_val
  set RD := binary64.val (CC.powRD.getD i 0)
  have hwr : (w : ℝ) = i * 2 ^ 16 + r := by rw [hwi]; push_cast; ring
  have hr0 : (0 : ℝ) ≤ r := Nat.cast_nonneg _
  have hr1 : (r : ℝ) ≤ 2 ^ 16 := by exact_mod_cast hr.le
  have hwd : 1 + (w : ℝ) / 2 ^ 23 = (1 + (i : ℝ) / 128) + (r : ℝ) / 2 ^ 23 := by rw [hwr]; field_simp; ring
  have mw : Mult (-23) (1 + (w : ℝ) / 2 ^ 23) := ⟨2 ^ 23 + w, by push_cast; rw [show (2 : ℝ) ^ (-23 : ℤ) = 1 / 2 ^ 23 by norm_num]; field_simp; norm_num⟩
  have mp : Mult (-31) ((1 + (w : ℝ) / 2 ^ 23) * RD) := by have := mR.mul mw; rw [mul_comm]; exact this
  have m1 : Mult (-31) (-1 : ℝ) := ⟨-2 ^ 31, by norm_num⟩
  have mv := mp.add m1
  have lo2 : -(1 / 2 ^ 8) ≤ (1 + (w : ℝ) / 2 ^ 23) * RD + -1 := by
    have : RD * (1 + (i : ℝ) / 128) ≤ RD * (1 + (w : ℝ) / 2 ^ 23) := by
      refine mul_le_mul_of_nonneg_left ?_ (by linarith)
      rw [hwd]; have : 0 ≤ (r : ℝ) / 2 ^ 23 := by positivity
      linarith
    linarith
  have hi2 : (1 + (w : ℝ) / 2 ^ 23) * RD + -1 ≤ 1 / 2 ^ 7 := by
    have : RD * (1 + (w : ℝ) / 2 ^ 23) ≤ RD * (1 + ((i : ℝ) + 1) / 128) := by
      refine mul_le_mul_of_nonneg_left ?_ (by linarith)
      rw [hwd]
      have : (r : ℝ) / 2 ^ 23 ≤ 1 / 128 := by rw [div_le_iff₀ (by norm_num)]; norm_num at hr1 ⊢; linarith
      linarith
    linarith
  have av : |(1 + (w : ℝ) / 2 ^ 23) * RD + -1| ≤ 2 ^ (-7 : ℤ) := by rw [abs_le, show (2 : ℝ) ^ (-7 : ℤ) = 1 / 2 ^ 7 by norm_num]; constructor <;> linarith
  have fin : ∀ dx, binary64.Finite dx → binary64.val dx = (1 + (w : ℝ) / 2 ^ 23) * RD + -1 → binary64.Finite dx ∧ binary64.val dx = RD * (1 + (w : ℝ) / 2 ^ 23) - 1 ∧ Mult (-31) (binary64.val dx) ∧
      -(1 / 2 ^ 8) ≤ binary64.val dx ∧ binary64.val dx ≤ 1 / 2 ^ 7 := by
    intro dx f v
    exact ⟨f, by rw [v]; ring, by rw [v]; exact mv, by rw [v]; exact lo2, by rw [v]; exact hi2⟩
  unfold CC.powfDx
  cases fused
  · simp only [Bool.false_eq_true, if_false, t4, Option.bind_eq_bind, Option.bind_some]
    refine ⟨_, rfl, ?_⟩
    obtain ⟨fc, vc⟩ := cvt_up m fx
    rw [vx] at vc
    have hap : |(1 + (w : ℝ) / 2 ^ 23) * RD| ≤ 2 ^ (1 : ℤ) := by
      rw [abs_le] at av ⊢
      rw [show (2 : ℝ) ^ (-7 : ℤ) = 1 / 2 ^ 7 by norm_num] at av
      norm_num at av ⊢
      constructor <;> linarith
    obtain ⟨f, v⟩ := ma_exact false m fc fR (binary64.finite_hneg one64_val.1) (g := -31) (k := 1) (k' := -7) (by norm_num) (by rw [vc]; exact mp) (by rw [vc]; exact hap)
      (by rw [binary64.val_hneg, one64_val.2]; exact m1) (by rw [vc, binary64.val_hneg, one64_val.2]; exact av) (by norm_num) (by norm_num) (by norm_num) (by norm_num)
    exact fin _ f (by rw [v, vc, binary64.val_hneg, one64_val.2])
  · simp only [if_true, t6, Option.bind_eq_bind, Option.bind_some]
    refine ⟨_, rfl, ?_⟩
    have Rf := hfma_spec binary32 m (x := 127 * 2 ^ 23 + w) (y := CC.powfR.getD i 0) (z := binary32.hneg CC.one32)
    rw [vx, vR', binary32.val_hneg, v1] at Rf
    obtain ⟨f, v⟩ := ex32 (-31) Rf mv (by norm_num) (av.trans (two_zpow_le (by norm_num))) (av.trans (by norm_num))
    unfold CC.multiplyAdd
    simp only [if_true]
    obtain ⟨fc, vc⟩ := cvt_up m f
    exact fin _ fc (by rw [vc, v])

/-- the second reduced argument, exact -/
theorem powfDx2 {ce fused : Bool} {m : Mode} (hc : ce = false ∨ m = .nearest) {dx : ℕ} (fd : binary64.Finite dx) (md : Mult (-31) (binary64.val dx))
    (d1 : -(1 / 2 ^ 8) ≤ binary64.val dx) (d2 : binary64.val dx ≤ 1 / 2 ^ 7) :
    ∃ n : ℕ, n < 193 ∧ CC.castInt32 (CC.nearestInteger binary64 ce m (CC.multiplyAdd binary64 fused m dx 0x40D0000000000000 0x4050000000000000)) = some (n : ℤ) ∧
      CC.powR2[n]? = some (CC.powR2.getD n 0) ∧
      let x2 := CC.multiplyAdd binary64 fused m (binary64.hadd m CC.one64 dx) (CC.powR2.getD n 0) (binary64.hneg CC.one64)
      binary64.Finite x2 ∧ binary64.val x2 = binary64.val (CC.powR2.getD n 0) * (1 + binary64.val dx) - 1 ∧ |binary64.val x2| ≤ 1 / 21500 := by
  obtain ⟨n, hn, hcast, -⟩ := powIdx2 (fused := fused) hc fd d1 d2
  have hget : CC.powR2[n]? = some (CC.powR2.getD n 0) := by
    have : n < CC.powR2.length := lt_of_lt_of_le hn (by decide +kernel)
    rw [List.getD_eq_getElem _ _ this, List.getElem?_eq_getElem this]
  obtain ⟨n', q, hn', hred, -, -, -, vq, bq, -, -⟩ := powReduce2_spec (fused := fused) hc fd (md.weaken (by norm_num)) d1 d2
  have hnn : n' = n := by
    unfold CC.powReduce2 at hred
    simp only [hcast, Option.bind_eq_bind, Option.bind_some, Int.toNat_natCast, hget, pure] at hred
    have : ¬ ((n : ℤ) < 0) := by omega
    rw [if_neg this] at hred
    obtain ⟨_, _, hred⟩ := Option.bind_eq_some_iff.1 hred
    exact (congrArg Prod.fst (Option.some.inj hred)).symm
  subst hnn
  obtain ⟨fR, -, -, mR, R1, R2, -⟩ := powRow2_spec hn
  rw [vq] at bq
  refine ⟨n', hn, hcast, hget, ?_⟩
  intro x2
  have m1 : Mult (-31) (1 : ℝ) := ⟨2 ^ 31, by norm_num⟩
  have H := binary64.hadd_spec m one64_val.1 fd
  rw [one64_val.2] at H
  obtain ⟨fh, vh⟩ := rep_exact H (m1.add md) (by norm_num) (k := 1) (by rw [abs_le]; constructor <;> norm_num at * <;> linarith) (by norm_num) (by norm_num)
  have mp : Mult (-47) ((1 + binary64.val dx) * binary64.val (CC.powR2.getD n' 0)) := (m1.add md).mul mR
  have b := abs_le.1 bq
  obtain ⟨f, v⟩ := ma_exact fused m fh fR (binary64.finite_hneg one64_val.1) (g := -47) (k := 1) (k' := 0) (by norm_num) (by rw [vh]; exact mp)
    (by rw [vh, abs_le]; norm_num at b ⊢; constructor <;> linarith) (by rw [binary64.val_hneg, one64_val.2]; exact ⟨-2 ^ 47, by norm_num⟩)
    (by rw [vh, binary64.val_hneg, one64_val.2, abs_le]; norm_num at b ⊢; constructor <;> linarith) (by norm_num) (by norm_num) (by norm_num) (by norm_num)
  have v' : binary64.val x2 = binary64.val (CC.powR2.getD n' 0) * (1 + binary64.val dx) - 1 := by
    change binary64.val (CC.multiplyAdd _ _ _ _ _ _) = _
    rw [v, vh, binary64.val_hneg, one64_val.2]; ring
  exact ⟨f, v', by rw [v']; exact bq⟩

theorem powfLog1p (m : Mode) {x2 : ℕ} (fx : binary64.Finite x2) (bx : |binary64.val x2| ≤ 1 / 21500) :
    ∃ p q, CC.ddPoly m { hi := x2, lo := 0 } CC.powDDLogC = some p ∧ CC.quickMultD m x2 p = some q ∧ binary64.Finite q.hi ∧ binary64.Finite q.lo ∧
      |pairV q - log (1 + binary64.val x2) / log 2| ≤ 1 / 2 ^ 85 ∧ |binary64.val q.lo| ≤ 1 / 2 ^ 56 ∧ |binary64.val q.hi| ≤ 1 / 2 ^ 12 := by
  have hl := log2_lo
  have l0 : (0 : ℝ) < log 2 := by linarith
  have fx' : binary64.Finite 0 := by decide +kernel
  have hp0 : pairV { hi := x2, lo := 0 } = binary64.val x2 := pairV_zero x2
  obtain ⟨p, hp, fp, fp', p1, p2, ep⟩ := powLogPoly_err m (x := { hi := x2, lo := 0 }) fx fx' (bx.trans (by norm_num)) (by simp only [val64_zero, abs_zero]; norm_num) (by rw [hp0]; exact bx.trans (by norm_num))
  rw [hp0] at ep
  set δ := binary64.val x2 with hδ
  have hT : (1 : ℝ) / 2 ^ 120 = 2 ^ (-120 : ℤ) := by norm_num
  obtain ⟨q, hq, fq, fq', eq, q1, q2⟩ := quickMultD_abs m fx fp fp' (X := 1 / 21500) (Y := 12 / 5) bx p1 p2
    (by
      have h6 : (2 : ℝ) ^ (-600 : ℤ) ≤ 2 ^ (-120 : ℤ) := two_zpow_le (by norm_num)
      rw [← hT] at h6
      generalize (2 : ℝ) ^ (-600 : ℤ) = w at *
      refine h6.trans (by norm_num)) (by norm_num) (by norm_num)
  have epoly := lcPoly_near bx
  have e0 : |δ * lcPoly δ - log (1 + δ) / log 2| ≤ 3 / 2 / 2 ^ 85 * |δ| := by
    rw [show δ * lcPoly δ - log (1 + δ) / log 2 = (δ * lcPoly δ * log 2 - log (1 + δ)) / log 2 by field_simp, abs_div, abs_of_pos l0, div_le_iff₀ l0]
    refine epoly.trans ?_
    have := mul_le_mul_of_nonneg_left hl.1 (show (0 : ℝ) ≤ 3 / 2 / 2 ^ 85 * |δ| by positivity)
    have := abs_nonneg δ
    linarith
  refine ⟨p, q, hp, hq, fq, fq', ?_, q1.trans (by norm_num), q2.trans (by norm_num)⟩
  have hpp : |pairV p - lcPoly δ| ≤ 1 / 2 ^ 85 := ep
  have eq' : |pairV q - δ * pairV p| ≤ _ := eq
  rw [show pairV q - log (1 + δ) / log 2 = (pairV q - δ * pairV p) + δ * (pairV p - lcPoly δ) + (δ * lcPoly δ - log (1 + δ) / log 2) by ring]
  refine (abs_add_le' (abs_add_le' eq' (abs_mul_le bx hpp)) (e0.trans (mul_le_mul_of_nonneg_left bx (by norm_num)))).trans ?_
  norm_num

/-- `log2(1 + dx)` plus the low parts of the table as a pair -/
theorem powfLogDD_spec {ce fused : Bool} {m : Mode} (hc : ce = false ∨ m = .nearest) {idx dx : ℕ} (hi : idx < 128) (fd : binary64.Finite dx) (md : Mult (-31) (binary64.val dx))
    (d1 : -(1 / 2 ^ 8) ≤ binary64.val dx) (d2 : binary64.val dx ≤ 1 / 2 ^ 7) {S : ℝ}
    (hS : S = binary64.val (CC.powLogMid.getD idx 0) + binary64.val (CC.powLogLo.getD idx 0) + log (1 + binary64.val dx) / log 2) :
    ∃ r, CC.powfLogDD ce fused m idx dx = some r ∧ binary64.Finite r.hi ∧ binary64.Finite r.lo ∧ |pairV r - S| ≤ 1 / 2 ^ 84 ∧ |binary64.val r.lo| ≤ 1 / 2 ^ 51 * |S| + 1 / 2 ^ 93 := by
  obtain ⟨n, hn, hcast, hget, fx, vx, bx⟩ := powfDx2 (fused := fused) hc fd md d1 d2
  obtain ⟨fRD, -, fH, fM, fL, -, RD1, RD2, -, -, -, mH, H0, H1, bM, bL, eR⟩ := powRow_spec hi
  obtain ⟨fR, fB, fS, -, R1, R2', nR, bB, bS, eR2, -⟩ := powRow2_spec hn
  obtain ⟨t1, t2, t3, -, -⟩ := powRow_get hi
  obtain ⟨t4, t5⟩ := powRow2_get hn
  have hl := log2_lo
  have l0 : (0 : ℝ) < log 2 := by linarith
  obtain ⟨p, q, hp, hq, fq, fq', e1, q1, q2⟩ := powfLog1p m fx bx
  set x2 := CC.multiplyAdd binary64 fused m (binary64.hadd m CC.one64 dx) (CC.powR2.getD n 0) (binary64.hneg CC.one64) with hx2
  have hord : binary64.ce (CC.powLogMid.getD idx 0) ≤ binary64.ce (CC.powLog2Big.getD n 0) ∨ binary64.val (CC.powLog2Big.getD n 0) = 0 := by
    rcases log2_tab n hn with h | h
    · right; rw [h, log2_tab64.2.1]; exact val64_zero
    · left
      refine ce_le_of_abs_le (bM.trans ?_)
      rw [(intsOk_spec (log2_tab' n hn)).2, abs_div, abs_of_pos (show (0 : ℝ) < 2 ^ 240 by positivity), le_div_iff₀ (by positivity)]
      have h' : ((2 ^ 220 : ℕ) : ℝ) ≤ ((ints 240 (CC.powLog2Big.getD n 0)).natAbs : ℕ) := Nat.cast_le.2 h
      rw [Nat.cast_natAbs, Int.cast_abs] at h'
      refine le_trans ?_ h'
      norm_num
  set midp := CC.ddAdd binary64 m { hi := CC.powLog2Big.getD n 0, lo := CC.powLog2Small.getD n 0 } { hi := CC.powLogMid.getD idx 0, lo := CC.powLogLo.getD idx 0 } with hmid
  have hres : CC.powfLogDD ce fused m idx dx = some (ddSel m midp q) := by
    have : ¬ ((n : ℤ) < 0) := by omega
    unfold CC.powfLogDD ddSel
    simp only [hcast, hget, this, if_false, Int.toNat_natCast, Option.bind_eq_bind, Option.bind_some, ← hx2, hp, hq, t2, t3, t4, t5]
    rfl
  set D := (binary64.val (CC.powLog2Big.getD n 0) + binary64.val (CC.powLog2Small.getD n 0)) + (binary64.val (CC.powLogMid.getD idx 0) + binary64.val (CC.powLogLo.getD idx 0)) with hD
  set ℓ := log (1 + binary64.val x2) / log 2 with hℓ
  have x1p : 0 < 1 + binary64.val dx := by linarith
  have hlogδ : log (1 + binary64.val x2) = log (binary64.val (CC.powR2.getD n 0)) + log (1 + binary64.val dx) := by
    rw [vx, add_sub_cancel, log_mul (by linarith) x1p.ne']
  have eL : |D + ℓ - S| ≤ 1 / 2 ^ 100 := by
    have : D + ℓ - S = ((binary64.val (CC.powLog2Big.getD n 0) + binary64.val (CC.powLog2Small.getD n 0)) * log 2 + log (binary64.val (CC.powR2.getD n 0))) / log 2 := by
      rw [hS, hD, hℓ, hlogδ]; field_simp; ring
    rw [this, abs_div, abs_of_pos l0, div_le_iff₀ l0]
    refine eR2.trans ?_
    have := mul_le_mul_of_nonneg_left hl.1 (show (0 : ℝ) ≤ 1 / 2 ^ 100 by norm_num)
    linarith
  have zM : (2 : ℝ) ^ (-690 : ℤ) ≤ 1 / 2 ^ 5 := by rw [show (1 : ℝ) / 2 ^ 5 = 2 ^ (-5 : ℤ) by norm_num]; exact two_zpow_le (by norm_num)
  obtain ⟨m1, m2, m3, m4⟩ := ddAdd_any m (a := { hi := CC.powLog2Big.getD n 0, lo := CC.powLog2Small.getD n 0 }) (b := { hi := CC.powLogMid.getD idx 0, lo := CC.powLogLo.getD idx 0 }) fB fS fM fL hord
    (M := 1 / 2 ^ 5) zM (by norm_num) (bB.trans (by norm_num)) (bM.trans (by norm_num)) (bS.trans (by norm_num)) (bL.trans (by norm_num))
  change |pairV midp - D| ≤ _ at m3
  change |binary64.val midp.lo| ≤ 1 / 2 ^ 51 * |D| + _ at m4
  have bD : |D| ≤ 1 / 2 ^ 6 + 1 / 2 ^ 20 := (abs_add_le' (abs_add_le' bB bS) (abs_add_le' bM bL)).trans (by norm_num)
  have bml : |binary64.val midp.lo| ≤ 1 / 2 ^ 56 := m4.trans (by linarith)
  have bmh : |binary64.val midp.hi| ≤ 1 / 2 ^ 5 := by
    rw [show binary64.val midp.hi = pairV midp + -binary64.val midp.lo by unfold pairV; ring]
    refine (abs_add_le' (abs_near m3 bD) ((abs_neg _).trans_le bml)).trans (by norm_num)
  obtain ⟨k1, k2, k3, k4⟩ := ddSel_any m (a := midp) (b := q) m1 m2 fq fq' (M := 1 / 2 ^ 5) zM (by norm_num) bmh (q2.trans (by norm_num)) (bml.trans (by norm_num)) (q1.trans (by norm_num))
  have e5 : |pairV midp + pairV q - S| ≤ 9 / 16 / 2 ^ 84 := by
    rw [show pairV midp + pairV q - S = (pairV midp - D) + (pairV q - ℓ) + (D + ℓ - S) by ring]
    exact (abs_add_le' (abs_add_le' m3 e1) eL).trans (by norm_num)
  refine ⟨_, hres, k1, k2, (abs_tri k3 e5).trans (by norm_num), k4.trans ?_⟩
  have := abs_near e5 (le_refl |S|)
  linarith

end Verif
