import Verif.Lemmas.PowK5
import Verif.Props.FpSupport

/-!
# The two range reductions of the pow kernel are exact
-/

namespace Verif
open Fmt Real

theorem nearInt64 {ce : Bool} {m : Mode} (hc : ce = false ∨ m = .nearest) {x : ℕ} (hx : binary64.Finite x) (h : |binary64.val x| ≤ 2 ^ 51) :
    binary64.Finite (CC.nearestInteger binary64 ce m x) ∧ ∃ n : ℤ, binary64.val (CC.nearestInteger binary64 ce m x) = n ∧ |binary64.val x - n| ≤ 1 / 2 + 1 / 2 ^ 53 := by
  have hF : (binary64.F : ℤ) = 52 := by decide +kernel
  have hb : (binary64.F : ℤ) + 2 ≤ binary64.bias := by decide +kernel
  rcases hc with rfl | rfl
  · obtain ⟨f, n, h1, h2⟩ := C44_directed_partial binary64 binary64_wide hb m hx
    refine ⟨f, n, h1, h2.trans (le_of_eq ?_)⟩
    rw [hF]; norm_num
  · obtain ⟨f, n, h1, h2, -⟩ := C44_nearest_even binary64 binary64_wide hb ce hx (by
      rw [hF, show ((52 : ℤ)) = ((52 : ℕ) : ℤ) by norm_num, zpow_natCast]; exact lt_of_le_of_lt h (by norm_num))
    exact ⟨f, n, h1, h2.trans (by norm_num)⟩

/-- a value of size at least `2^k` lies on the grid `2^(k-52)` -/
theorem mult_of_ge {x : ℕ} {k : ℤ} (h : (2 : ℝ) ^ k ≤ |binary64.val x|) : Mult (k - 52) (binary64.val x) := by
  have hF : (binary64.F : ℤ) = 52 := by decide +kernel
  exact (binary64.mult_ce x).weaken (binary64.le_ce_of (by rw [hF, sub_add_cancel]; exact h))

/-- `hi` of a rounding of a value on the grid `2^g`: on the grid too -/
theorem mult_rnd {m : Mode} {zs : Bool} {v : ℝ} {b : ℕ} {g : ℤ} (R : binary64.RoundsTo m zs v b) (hm : Mult g v) (hg : -1074 ≤ g) (hg2 : g ≤ 900) (hv : |v| ≤ 2 ^ (900 : ℤ)) :
    Mult g (binary64.val b) := by
  rcases le_or_gt |v| ((2 : ℝ) ^ (g + 53)) with h | h
  · rw [(rep_exact R hm hg h le_rfl (by omega)).2]; exact hm
  · have fb := (rnd_zpow R hv (by norm_num) (by norm_num)).1
    have h2 : (2 : ℝ) ^ (g + 53) ≤ |binary64.val b| := by
      obtain ⟨c, hc, vc⟩ := binary64.rep (v := (2 : ℝ) ^ (g + 53)) (g := g) ⟨2 ^ 53, by rw [zpow_add₀ (by norm_num), mul_comm]; norm_num⟩ (by rw [emin64']; exact hg)
        (by rw [abs_of_pos (two_zpow_pos _), show (binary64.F : ℤ) = 52 by decide +kernel]; exact two_zpow_le (by omega))
        (by rw [abs_of_pos (two_zpow_pos _), show (binary64.bias : ℤ) = 1023 by decide +kernel]; exact two_zpow_lt (by omega))
      rcases le_total 0 v with h0 | h0
      · rw [abs_of_nonneg h0] at h
        have := RoundsTo.ge_of R hc (by rw [vc]; exact h.le)
        rw [binary64.xval_of_finite hc, binary64.xval_of_finite fb, EReal.coe_le_coe_iff, vc] at this
        exact this.trans (le_abs_self _)
      · rw [abs_of_nonpos h0] at h
        have := RoundsTo.le_of R (binary64.finite_hneg hc) (by rw [val_hneg, vc]; linarith)
        rw [binary64.xval_of_finite (binary64.finite_hneg hc), binary64.xval_of_finite fb, EReal.coe_le_coe_iff, val_hneg, vc] at this
        refine le_trans ?_ (neg_le_abs _); linarith
    exact (mult_of_ge h2).weaken (by omega)

theorem one_le_900 : (1 : ℝ) ≤ 2 ^ (900 : ℤ) := one_le_zpow₀ (by norm_num) (by norm_num)

theorem powIdx2 {ce fused : Bool} {m : Mode} (hc : ce = false ∨ m = .nearest) {dx : ℕ} (fd : binary64.Finite dx) (d1 : -(1 / 2 ^ 8) ≤ binary64.val dx) (d2 : binary64.val dx ≤ 1 / 2 ^ 7) :
    ∃ n : ℕ, n < 193 ∧ CC.castInt32 (CC.nearestInteger binary64 ce m (CC.multiplyAdd binary64 fused m dx 0x40D0000000000000 0x4050000000000000)) = some (n : ℤ) ∧
      |binary64.val dx * 2 ^ 14 + 64 - n| ≤ 1 / 2 + 1 / 2 ^ 40 := by
  have fA : binary64.Finite 0x40D0000000000000 := by decide +kernel
  have fB : binary64.Finite 0x4050000000000000 := by decide +kernel
  have vA : binary64.val 0x40D0000000000000 = 2 ^ 14 := by
    have := val_of_ival binary64 (x := 0x40D0000000000000) (a := 16384) (by decide +kernel)
    rw [this]; norm_num
  have vB : binary64.val 0x4050000000000000 = 64 := by
    have := val_of_ival binary64 (x := 0x4050000000000000) (a := 64) (by decide +kernel)
    rw [this]; norm_num
  have b1 : |binary64.val dx * 2 ^ 14| ≤ 128 := by rw [abs_le]; constructor <;> norm_num at * <;> linarith
  obtain ⟨fv, ev⟩ := ma64_err fused m fd fA fB (by rw [vA]; exact b1.trans (by norm_num)) (by rw [vB]; norm_num)
  rw [vA, vB] at ev
  set t := CC.multiplyAdd binary64 fused m dx 0x40D0000000000000 0x4050000000000000
  have ev' : |binary64.val t - (binary64.val dx * 2 ^ 14 + 64)| ≤ 1 / 2 ^ 42 := by
    refine ev.trans ?_
    have b2 : |binary64.val dx * 2 ^ 14 + 64| ≤ 192 := (abs_add_le' b1 (le_of_eq (abs_of_pos (by norm_num : (0:ℝ) < 64)))).trans (by norm_num)
    have r1 := mul_le_mul (ru_le m) b2 (abs_nonneg _) (by norm_num)
    have r2 := mul_le_mul (ru_le m) b1 (abs_nonneg _) (by norm_num)
    have he := eta_le
    norm_num [-abs_mul] at r1 r2 he ⊢
    linarith
  generalize hX : binary64.val dx = X at *
  have hb := abs_le.1 ev'
  have ht : |binary64.val t| ≤ 2 ^ 51 := by rw [abs_le]; constructor <;> norm_num at * <;> linarith
  obtain ⟨fn, n, vn, en⟩ := nearInt64 hc fv ht
  have hb2 := abs_le.1 en
  have n0 : -1 < n := by
    have : (-1 : ℝ) < n := by norm_num at *; linarith
    exact_mod_cast this
  have n1 : n < 193 := by
    have : (n : ℝ) < 193 := by norm_num at *; linarith
    exact_mod_cast this
  obtain ⟨k, rfl⟩ : ∃ k : ℕ, n = k := ⟨n.toNat, by omega⟩
  refine ⟨k, by omega, ?_, ?_⟩
  · have ht : CC.truncInt (CC.nearestInteger binary64 ce m t) = k := truncInt_int (by rw [vn])
    unfold CC.castInt32
    rw [ht, if_pos ⟨((binary64.finite_iff _).1 fn).2, by omega, by omega⟩]
  · rw [Int.cast_natCast] at hb2
    rw [abs_le]
    constructor <;> norm_num at * <;> linarith

theorem small_prod {m : Mode} {a b : ℕ} (ha : binary64.Finite a) (hb : binary64.Finite b) (h0 : binary64.val a * binary64.val b = 0) :
    binary64.Finite (binary64.hmul m a b) ∧ binary64.val (binary64.hmul m a b) = 0 := by
  have R := binary64.hmul_spec m ha hb
  rw [h0] at R
  exact rep_exact (g := 0) (k := 0) R ⟨0, by simp⟩ (by norm_num) (by simp) (by norm_num) (by norm_num)

/-- Dekker's product by a factor with 17 bits is exact -/
theorem exactMult_r2 (m : Mode) {r h : ℕ} (fr : binary64.Finite r) (mr : Mult (-16) (binary64.val r)) (r2 : |binary64.val r| ≤ 2)
    (s1 : (CC.split m r).hi = r) (s2 : binary64.Finite (CC.split m r).lo) (s3 : binary64.val (CC.split m r).lo = 0)
    (fh : binary64.Finite h) (h1 : 1 / 2 ≤ binary64.val h) (h2 : binary64.val h ≤ 2) (hp : |binary64.val r * binary64.val h - 1| ≤ 1 / 4) :
    binary64.Finite (CC.exactMult m r h).hi ∧ binary64.Finite (CC.exactMult m r h).lo ∧
      binary64.val (CC.exactMult m r h).hi + binary64.val (CC.exactMult m r h).lo = binary64.val r * binary64.val h ∧
      Mult (-53) (binary64.val (CC.exactMult m r h).hi) ∧ Mult (-69) (binary64.val (CC.exactMult m r h).lo) ∧ |binary64.val (CC.exactMult m r h).lo| ≤ 1 / 2 ^ 52 := by
  have ha : (2 : ℝ) ^ (-1 : ℤ) ≤ |binary64.val h| := by rw [abs_of_pos (by linarith)]; norm_num; linarith
  have mh : Mult (-53) (binary64.val h) := mult_of_ge ha
  obtain ⟨b1, b2, b3, b4, b5⟩ := split_any m fh (le_trans (two_zpow_le (by norm_num)) ha) (by
    rw [abs_of_pos (by linarith)]; exact h2.trans (by have := two_zpow_le (show (1 : ℤ) ≤ 900 by norm_num); norm_num at this ⊢; exact this))
  have ch : binary64.ce h ≤ -51 := binary64.ce_le_of (by rw [emin64']; norm_num) (by
    rw [show (binary64.F : ℤ) = 52 by decide +kernel, abs_of_pos (by linarith)]; norm_num; linarith)
  have ch' : -53 ≤ binary64.ce h := binary64.le_ce_of (by rw [show (binary64.F : ℤ) = 52 by decide +kernel]; norm_num at ha ⊢; exact ha)
  have b5' : |binary64.val (CC.split m h).lo| ≤ 1 / 2 ^ 22 := b5.trans (by
    have := two_zpow_le ch
    norm_num at this ⊢; linarith)
  have mbh : Mult (-26) (binary64.val (CC.split m h).hi) := b4.weaken (by omega)
  have mbl : Mult (-53) (binary64.val (CC.split m h).lo) := by
    rw [show binary64.val (CC.split m h).lo = binary64.val h - binary64.val (CC.split m h).hi by linarith]
    exact mh.sub (mbh.weaken (by norm_num))
  have H := binary64.hmul_spec m fr fh
  have hp' := abs_le.1 hp
  have vv : |binary64.val r * binary64.val h| ≤ 2 ^ (1 : ℤ) := by rw [abs_le]; constructor <;> norm_num at * <;> linarith
  obtain ⟨fH, eH⟩ := rnd_zpow H vv (by norm_num) (by norm_num)
  have eH' : |binary64.val (binary64.hmul m r h) - binary64.val r * binary64.val h| ≤ 1 / 2 ^ 52 := by norm_num at eH ⊢; exact eH.le
  have eHb := abs_le.1 eH'
  have gH : (2 : ℝ) ^ (-1 : ℤ) ≤ |binary64.val (binary64.hmul m r h)| := by
    refine le_trans ?_ (le_abs_self _)
    have h1 := eHb.1
    have h2 := hp'.1
    norm_num at h1 h2 ⊢; linarith
  have mH : Mult (-53) (binary64.val (binary64.hmul m r h)) := mult_of_ge gH
  -- the product of the high parts
  have rb := abs_le.1 r2
  have bhi : |binary64.val (CC.split m h).hi| ≤ 3 := by
    rw [show binary64.val (CC.split m h).hi = binary64.val h + -binary64.val (CC.split m h).lo by linarith]
    refine (abs_add_le' (le_of_eq (abs_of_pos (by linarith))) ((abs_neg _).trans_le b5')).trans ?_
    norm_num at *; linarith
  have M1 := binary64.hmul_spec m fr b1
  obtain ⟨f1, v1⟩ := rep_exact (g := -42) (k := 3) M1 ((mr.mul mbh).weaken (by norm_num)) (by norm_num) ((abs_mul_le r2 bhi).trans (by norm_num)) (by norm_num) (by norm_num)
  have D1 := binary64.hsub_spec m f1 fH
  rw [v1] at D1
  have rl : |binary64.val r * binary64.val (CC.split m h).lo| ≤ 1 / 2 ^ 21 := (abs_mul_le r2 b5').trans (by norm_num)
  have e1 : binary64.val r * binary64.val (CC.split m h).hi - binary64.val (binary64.hmul m r h) =
      -(binary64.val (binary64.hmul m r h) - binary64.val r * binary64.val h) + -(binary64.val r * binary64.val (CC.split m h).lo) := by rw [← b3]; ring
  obtain ⟨f2, v2⟩ := rep_exact (g := -53) (k := -20) D1 (((mr.mul mbh).weaken (by norm_num)).sub mH) (by norm_num)
    (by rw [e1]; exact (abs_add_le' ((abs_neg _).trans_le eH') ((abs_neg _).trans_le rl)).trans (by norm_num)) (by norm_num) (by norm_num)
  have M2 := binary64.hmul_spec m fr b2
  obtain ⟨f3, v3⟩ := rep_exact (g := -69) (k := -21) M2 ((mr.mul mbl).weaken (by norm_num)) (by norm_num) (rl.trans (by norm_num)) (by norm_num) (by norm_num)
  have D2 := binary64.hadd_spec m f3 f2
  rw [v2, v3] at D2
  have e2 : binary64.val r * binary64.val (CC.split m h).lo + (binary64.val r * binary64.val (CC.split m h).hi - binary64.val (binary64.hmul m r h)) =
      binary64.val r * binary64.val h - binary64.val (binary64.hmul m r h) := by rw [← b3]; ring
  rw [e2] at D2
  have mlo : Mult (-69) (binary64.val r * binary64.val h - binary64.val (binary64.hmul m r h)) := ((mr.mul mh).weaken (by norm_num)).sub (mH.weaken (by norm_num))
  have slo : |binary64.val r * binary64.val h - binary64.val (binary64.hmul m r h)| ≤ 1 / 2 ^ 52 := by rw [abs_sub_comm]; exact eH'
  obtain ⟨f4, v4⟩ := rep_exact (g := -69) (k := -52) D2 mlo (by norm_num) (slo.trans (by norm_num)) (by norm_num) (by norm_num)
  obtain ⟨f5, v5⟩ := small_prod (m := m) s2 b1 (by rw [s3, zero_mul])
  have D3 := binary64.hadd_spec m f5 f4
  rw [v5, v4, zero_add] at D3
  obtain ⟨f6, v6⟩ := rep_exact (g := -69) (k := -52) D3 mlo (by norm_num) (slo.trans (by norm_num)) (by norm_num) (by norm_num)
  obtain ⟨f7, v7⟩ := small_prod (m := m) s2 b2 (by rw [s3, zero_mul])
  have D4 := binary64.hadd_spec m f7 f6
  rw [v7, v6, zero_add] at D4
  obtain ⟨f8, v8⟩ := rep_exact (g := -69) (k := -52) D4 mlo (by norm_num) (slo.trans (by norm_num)) (by norm_num) (by norm_num)
  have hlo : (CC.exactMult m r h).lo = binary64.hadd m (binary64.hmul m (CC.split m r).lo (CC.split m h).lo)
      (binary64.hadd m (binary64.hmul m (CC.split m r).lo (CC.split m h).hi)
        (binary64.hadd m (binary64.hmul m r (CC.split m h).lo) (binary64.hsub m (binary64.hmul m r (CC.split m h).hi) (binary64.hmul m r h)))) := by
    have s1' : (CC.splitC binary64 CC.splitConst m r).hi = r := s1
    unfold CC.exactMult CC.exactMultC
    dsimp only
    rw [s1']
    rfl
  have hhi : (CC.exactMult m r h).hi = binary64.hmul m r h := rfl
  rw [hlo, hhi]
  refine ⟨fH, f8, by rw [v8]; ring, mH, by rw [v8]; exact mlo, by rw [v8]; exact slo⟩

/-- the second range reduction: exact -/
theorem powReduce2_spec {ce fused : Bool} {m : Mode} (hc : ce = false ∨ m = .nearest) {dx : ℕ} (fd : binary64.Finite dx) (md : Mult (-60) (binary64.val dx))
    (d1 : -(1 / 2 ^ 8) ≤ binary64.val dx) (d2 : binary64.val dx ≤ 1 / 2 ^ 7) :
    ∃ (n : ℕ) (q : CC.Pair), n < 193 ∧ CC.powReduce2 ce fused m dx = some (n, q) ∧ |binary64.val dx * 2 ^ 14 + 64 - n| ≤ 1 / 2 + 1 / 2 ^ 40 ∧
      binary64.Finite q.hi ∧ binary64.Finite q.lo ∧ pairV q = binary64.val (CC.powR2.getD n 0) * (1 + binary64.val dx) - 1 ∧ |pairV q| ≤ 1 / 21500 ∧
      |binary64.val q.lo| ≤ 1 / 2 ^ 51 * |pairV q| ∧ Mult (-76) (pairV q) := by
  obtain ⟨n, hn, hcast, hnear⟩ := powIdx2 (fused := fused) hc fd d1 d2
  obtain ⟨fR, -, -, mR, R1, R2, nR, -, -, -, sp⟩ := powRow2_spec hn
  obtain ⟨s1, s2, s3⟩ := sp m
  have hget : CC.powR2[n]? = some (CC.powR2.getD n 0) := by
    have : n < CC.powR2.length := lt_of_lt_of_le hn (by decide +kernel)
    rw [List.getD_eq_getElem _ _ this, List.getElem?_eq_getElem this]
  set r := CC.powR2.getD n 0 with hr
  -- 1 + dx
  have fO := one64_val.1
  have vO := one64_val.2
  have H := binary64.hadd_spec m fO fd
  rw [vO] at H
  have dd : |binary64.val dx| ≤ 1 / 2 ^ 7 := by rw [abs_le]; constructor <;> norm_num at * <;> linarith
  obtain ⟨fh, c, fc, vc⟩ := sum_sub_any (m := m) fO fd (Or.inl (ce_le_of_abs_le (by rw [vO, abs_one]; exact dd.trans (by norm_num)))) (by
    rw [vO, abs_one]; exact one_le_zpow₀ (by norm_num) (by norm_num)) ((dd.trans (by norm_num)).trans one_le_900) (by rw [vO]; exact H)
  rw [vO] at vc
  obtain ⟨-, eh⟩ := rnd_zpow (k := 1) H (by rw [abs_le]; constructor <;> norm_num at * <;> linarith) (by norm_num) (by norm_num)
  have eh' : |binary64.val (binary64.hadd m CC.one64 dx) - (1 + binary64.val dx)| ≤ 1 / 2 ^ 52 := by norm_num at eh ⊢; exact eh.le
  set h := binary64.hadd m CC.one64 dx with hh
  have T := binary64.hsub_spec m fh fO
  obtain ⟨ft, vt⟩ := RoundsTo.exact binary64 fc (by rw [vc, vO]) T
  have L := binary64.hsub_spec m fd ft
  rw [vt, vO] at L
  have mone : Mult (-60) (1 : ℝ) := ⟨2 ^ 60, by norm_num⟩
  have ehb := abs_le.1 eh'
  have gh : 1 / 2 ≤ binary64.val h := by have := ehb.1; norm_num at *; linarith
  have gh2 : binary64.val h ≤ 2 := by have := ehb.2; norm_num at *; linarith
  have gha : (2 : ℝ) ^ (-1 : ℤ) ≤ |binary64.val h| := by
    have : 0 < binary64.val h := by linarith only [gh]
    rw [abs_of_pos this]; norm_num; linarith only [gh]
  have mh : Mult (-53) (binary64.val h) := mult_of_ge gha
  have ml : Mult (-60) (binary64.val dx - (binary64.val h - 1)) := md.sub ((mh.weaken (by norm_num)).sub mone)
  have sl : |binary64.val dx - (binary64.val h - 1)| ≤ 1 / 2 ^ 52 := by
    rw [show binary64.val dx - (binary64.val h - 1) = -(binary64.val h - (1 + binary64.val dx)) by ring, abs_neg]; exact eh'
  obtain ⟨fl, vl⟩ := rep_exact (g := -60) (k := -52) L ml (by norm_num) (sl.trans (by norm_num)) (by norm_num) (by norm_num)
  set lo := binary64.hsub m dx (binary64.hsub m h CC.one64) with hlo
  -- size of R2
  have hi2 : |((n : ℝ) - 64) / 16384 - binary64.val dx| ≤ (1 / 2 + 1 / 2 ^ 40) / 16384 := by
    rw [show ((n : ℝ) - 64) / 16384 - binary64.val dx = -(binary64.val dx * 2 ^ 14 + 64 - n) / 16384 by ring, abs_div, abs_neg, abs_of_pos (show (0 : ℝ) < 16384 by norm_num)]
    exact div_le_div_of_nonneg_right hnear (by norm_num)
  have hi2b := abs_le.1 hi2
  have R3 : binary64.val r ≤ 1005 / 1000 := by
    have k := (abs_le.1 nR).2
    have h1 : -(1 / 250) ≤ ((n : ℝ) - 64) / 16384 := by have := hi2b.1; norm_num at *; linarith
    generalize ((n : ℝ) - 64) / 16384 = w at *
    nlinarith
  have Ra : |binary64.val r| ≤ 1005 / 1000 := by rw [abs_of_pos (by linarith)]; exact R3
  have δb : |binary64.val r * (1 + binary64.val dx) - 1| ≤ 1 / 21500 := by
    rw [show binary64.val r * (1 + binary64.val dx) - 1 = (binary64.val r * (1 + ((n : ℝ) - 64) / 16384) - 1) + -(binary64.val r * (((n : ℝ) - 64) / 16384 - binary64.val dx)) by ring]
    exact (abs_add_le' nR ((abs_neg _).trans_le (abs_mul_le Ra hi2))).trans (by norm_num)
  have hp : |binary64.val r * binary64.val h - 1| ≤ 1 / 4 := by
    rw [show binary64.val r * binary64.val h - 1 = (binary64.val r * (1 + binary64.val dx) - 1) + binary64.val r * (binary64.val h - (1 + binary64.val dx)) by ring]
    exact (abs_add_le' δb (abs_mul_le Ra eh')).trans (by norm_num)
  obtain ⟨g1, g2, g3, g4, g5, g6⟩ := exactMult_r2 m fR mR (Ra.trans (by norm_num)) s1 s2 s3 fh gh gh2 hp
  obtain ⟨p, zs, hpq, RP⟩ := exactFma_spec m fR fl g2
  set P := CC.exactMult m r h with hP
  rw [vl] at RP
  have e3 : binary64.val r * (binary64.val dx - (binary64.val h - 1)) + binary64.val P.lo = binary64.val r * (1 + binary64.val dx) - binary64.val P.hi := by
    rw [show binary64.val P.lo = binary64.val r * binary64.val h - binary64.val P.hi by linarith]; ring
  have sp : |binary64.val r * (binary64.val dx - (binary64.val h - 1)) + binary64.val P.lo| ≤ 1 / 2 ^ 50 := (abs_add_le' (abs_mul_le Ra sl) g6).trans (by norm_num)
  rw [e3] at RP sp
  have m76 : Mult (-76) (binary64.val r * (1 + binary64.val dx)) := ((mR.mul (mone.add md)).weaken (by norm_num))
  have mp : Mult (-76) (binary64.val r * (1 + binary64.val dx) - binary64.val P.hi) := m76.sub (g4.weaken (by norm_num))
  obtain ⟨fp, vp⟩ := rep_exact (g := -76) (k := -50) RP mp (by norm_num) (sp.trans (by norm_num)) (by norm_num) (by norm_num)
  -- hi - 1
  have Hi := binary64.hsub_spec m g1 fO
  rw [vO] at Hi
  have e4 : binary64.val P.hi - 1 = (binary64.val r * (1 + binary64.val dx) - 1) + -(binary64.val r * (1 + binary64.val dx) - binary64.val P.hi) := by ring
  have hib : |binary64.val P.hi - 1| ≤ 1 / 2 ^ 14 := by rw [e4]; exact (abs_add_le' δb ((abs_neg _).trans_le sp)).trans (by norm_num)
  have mone2 : Mult (-53) (1 : ℝ) := ⟨2 ^ 53, by norm_num⟩
  obtain ⟨fa, va⟩ := rep_exact (g := -53) (k := -14) Hi (g4.sub mone2) (by norm_num) (hib.trans (by norm_num)) (by norm_num) (by norm_num)
  set a := binary64.hsub m P.hi CC.one64 with ha
  have A := binary64.hadd_spec m fa fp
  have e5 : binary64.val a + binary64.val p = binary64.val r * (1 + binary64.val dx) - 1 := by rw [va, vp]; ring
  rw [e5] at A
  set δ := binary64.val r * (1 + binary64.val dx) - 1 with hδ
  have mone3 : Mult (-76) (1 : ℝ) := ⟨2 ^ 76, by norm_num⟩
  have mδ : Mult (-76) δ := m76.sub mone3
  obtain ⟨fs, es⟩ := rnd_zpow (k := -14) A (δb.trans (by norm_num)) (by norm_num) (by norm_num)
  have es' : |binary64.val (binary64.hadd m a p) - δ| ≤ 1 / 2 ^ 67 := by norm_num at es ⊢; exact es.le
  have ms : Mult (-76) (binary64.val (binary64.hadd m a p)) := mult_rnd A mδ (by norm_num) (by norm_num) ((δb.trans (by norm_num)).trans one_le_900)
  have erel : |binary64.val (binary64.hadd m a p) - δ| ≤ 1 / 2 ^ 51 * |δ| := by
    rcases eq_or_ne δ 0 with h0 | h0
    · rw [h0] at A ⊢
      have := rep_exact (g := 0) (k := 0) A ⟨0, by simp⟩ (by norm_num) (by simp) (by norm_num) (by norm_num)
      rw [this.2]; simp
    · have hge : (2 : ℝ) ^ (-76 : ℤ) ≤ |δ| := mδ.ge h0
      exact (rnd_u A le_rfl ((two_zpow_le (by norm_num)).trans hge) (δb.trans (by norm_num))).2.trans (mul_le_mul_of_nonneg_right (by norm_num) (abs_nonneg _))
  set s := binary64.hadd m a p with hs
  have T2 := binary64.hsub_spec m fs fa
  have va' : Mult (-76) (binary64.val a) := by rw [va]; exact (g4.sub mone2).weaken (by norm_num)
  have e6 : binary64.val s - binary64.val a = (binary64.val s - δ) + binary64.val p := by rw [← e5]; ring
  have sp' : |binary64.val p| ≤ 1 / 2 ^ 50 := by rw [vp]; exact sp
  obtain ⟨ft2, vt2⟩ := rep_exact (g := -76) (k := -49) T2 (ms.sub va') (by norm_num) (by rw [e6]; exact (abs_add_le' es' sp').trans (by norm_num)) (by norm_num) (by norm_num)
  have L2 := binary64.hsub_spec m fp ft2
  have e7 : binary64.val p - binary64.val (binary64.hsub m s a) = -(binary64.val s - δ) := by rw [vt2, ← e5]; ring
  rw [e7] at L2
  obtain ⟨fl2, vl2⟩ := rep_exact (g := -76) (k := -67) L2 ((ms.sub mδ).neg) (by norm_num) (by rw [abs_neg]; exact es'.trans (by norm_num)) (by norm_num) (by norm_num)
  have V : pairV (CC.exactAdd binary64 m a p) = δ := by
    unfold pairV CC.exactAdd
    dsimp only
    rw [vl2]; ring
  have hq : CC.quickMultD m r (CC.exactAdd binary64 m CC.one64 dx) = some { lo := p, hi := P.hi } := by
    have hpq' : CC.exactFma m r (CC.exactAdd binary64 m CC.one64 dx).lo (CC.exactMult m r (CC.exactAdd binary64 m CC.one64 dx).hi).lo = some p := hpq
    unfold CC.quickMultD
    simp only [hpq', Option.bind_eq_bind, Option.bind_some]
    rfl
  refine ⟨n, CC.exactAdd binary64 m a p, hn, ?_, hnear, fs, fl2, V, by rw [V]; exact δb, ?_, by rw [V]; exact mδ⟩
  · unfold CC.powReduce2
    rw [hcast]
    simp only [Option.bind_eq_bind, Option.bind_some, Int.toNat_natCast, hget]
    rw [if_neg (by omega)]
    simp only [hq, Option.bind_some]
    rfl
  · rw [V]
    unfold CC.exactAdd
    dsimp only
    rw [vl2, abs_neg]; exact erel

end Verif
