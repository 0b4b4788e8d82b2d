import Verif.Model.PowKernel
import Verif.Lemmas.Ipow6

/-!
# Dekker's product in every rounding mode
-/

namespace Verif
open Fmt

theorem emin64' : binary64.emin = -1074 := by decide +kernel

/-- an exactly representable rounding -/
theorem rep_exact {m : Mode} {zs : Bool} {v : ℝ} {b : ℕ} {g k : ℤ} (R : binary64.RoundsTo m zs v b) (hm : Mult g v) (hg : -1074 ≤ g)
    (h1 : |v| ≤ 2 ^ k) (h2 : k ≤ g + 53) (h3 : k ≤ 1023) : binary64.Finite b ∧ binary64.val b = v := by
  have hbias : (binary64.bias : ℤ) = 1023 := by decide +kernel
  have hF : (binary64.F : ℤ) = 52 := by decide +kernel
  refine RoundsTo.exact_of R (binary64.rep hm (by rw [emin64']; exact hg) (h1.trans (two_zpow_le (by rw [hF]; omega))) (lt_of_le_of_lt h1 (two_zpow_lt (by rw [hbias]; omega))))

/-- a rounding of a value below `2^k`: error below `2^(k-53)` -/
theorem rnd_zpow {m : Mode} {zs : Bool} {v : ℝ} {b : ℕ} {k : ℤ} (R : binary64.RoundsTo m zs v b) (h1 : |v| ≤ 2 ^ k) (h2 : -1021 ≤ k) (h3 : k ≤ 1023) :
    binary64.Finite b ∧ |binary64.val b - v| < 2 ^ (k - 53) := by
  have hbias : (binary64.bias : ℤ) = 1023 := by decide +kernel
  have hF : (binary64.F : ℤ) = 52 := by decide +kernel
  have hmx : |v| ≤ binary64.maxFin := by
    have h4 := binary64.maxFin_add
    rw [hbias, hF] at h4
    have h5 : (2 : ℝ) ^ (1023 - 52 : ℤ) ≤ 2 ^ (1023 : ℤ) := two_zpow_le (by norm_num)
    have h6 : (2 : ℝ) ^ (1023 + 1 : ℤ) = 2 ^ (1023 : ℤ) + 2 ^ (1023 : ℤ) := by rw [zpow_add₀ (by norm_num)]; ring
    have h7 : |v| ≤ (2 : ℝ) ^ (1023 : ℤ) := h1.trans (two_zpow_le h3)
    linarith
  exact ⟨RoundsTo.finite_of_le binary64 R hmx, RoundsTo.ulp_of R hmx (by rw [emin64']; omega) (by rw [hF, show k - 53 + 52 + 1 = k by ring]; exact h1)⟩

/-- Veltkamp's splitting in every mode -/
theorem split_any (m : Mode) {x : ℕ} (hx : binary64.Finite x) (hn : (2 : ℝ) ^ (-1022 : ℤ) ≤ |binary64.val x|) (hb : |binary64.val x| ≤ 2 ^ (900 : ℤ)) :
    binary64.Finite (CC.split m x).hi ∧ binary64.Finite (CC.split m x).lo ∧
      binary64.val (CC.split m x).hi + binary64.val (CC.split m x).lo = binary64.val x ∧
      Mult (binary64.ce x + 27) (binary64.val (CC.split m x).hi) ∧ |binary64.val (CC.split m x).lo| ≤ 2 ^ 29 * (2 : ℝ) ^ (binary64.ce x) := by
  have hF : (binary64.F : ℤ) = 52 := by decide +kernel
  have hbias : (binary64.bias : ℤ) = 1023 := by decide +kernel
  have nmin : binary64.minNormal = (2 : ℝ) ^ (-1022 : ℤ) := by unfold minNormal; rw [hbias, show (1 : ℤ) - 1023 = -1022 by norm_num]
  have hn' := normal_ce binary64 (x := x) (by rw [nmin]; exact hn)
  have hxu := binary64.abs_val_le_ce x
  have hemin := binary64.ce_ge x
  have mx := binary64.mult_ce x
  rw [emin64'] at hemin
  rw [hF] at hn' hxu
  generalize he : binary64.ce x = e at *
  have he2 : e ≤ 848 := by
    have := (zpow_le_zpow_iff_right₀ (by norm_num : (1 : ℝ) < 2)).1 (hn'.trans hb)
    omega
  set X := binary64.val x with hX
  set W : ℝ := (2 : ℝ) ^ e with hW
  have hp : 0 < W := two_zpow_pos e
  have P : ∀ k : ℕ, (2 : ℝ) ^ (e + k) = 2 ^ k * W := fun k => by rw [zpow_add₀ (by norm_num), zpow_natCast, mul_comm]
  have P52 := P 52; have P53 := P 53; have P27 := P 27; have P28 := P 28; have P79 := P 79; have P81 := P 81; have P80 := P 80; have P54 := P 54
  norm_num at P52 P53 P27 P28 P79 P81 P80 P54
  rw [show e + 52 + 1 = e + 53 by ring, P53] at hxu
  rw [P52] at hn'
  obtain ⟨fC, vC⟩ := splitConst_val
  have ax := abs_nonneg X
  -- first product
  have G := binary64.hmul_spec m fC hx
  rw [vC] at G
  have G1 : |(2 ^ 27 + 1) * X| = (2 ^ 27 + 1) * |X| := by rw [abs_mul, abs_of_pos (by norm_num)]
  obtain ⟨fγ, eγ⟩ := rnd_zpow (k := e + 81) G (by rw [G1, P81]; norm_num at *; linarith) (by omega) (by omega)
  rw [show e + 81 - 53 = e + 28 by ring, P28] at eγ
  set γ := binary64.hmul m CC.splitConst x with hγ
  have gγ : 2 ^ 79 * W ≤ |binary64.val γ| := by
    have : |(2 ^ 27 + 1) * X| ≤ |binary64.val γ| + |binary64.val γ - (2 ^ 27 + 1) * X| := by
      have := abs_sub_abs_le_abs_sub ((2 ^ 27 + 1) * X) (binary64.val γ); rw [abs_sub_comm] at this; linarith
    rw [G1] at this; norm_num at *; linarith
  have mγ : Mult (e + 27) (binary64.val γ) := (binary64.mult_ce γ).weaken (binary64.le_ce_of (by rw [hF, show e + 27 + 52 = e + 79 by ring, P79]; norm_num at gγ ⊢; exact gγ))
  -- second
  have D := binary64.hsub_spec m hx fγ
  rw [← hX] at D
  have v2l : 2 ^ 79 * W ≤ |X - binary64.val γ| := by
    have t1 : |binary64.val γ - X| ≥ |2 ^ 27 * X| - |binary64.val γ - (2 ^ 27 + 1) * X| := by
      have := abs_sub_abs_le_abs_sub (2 ^ 27 * X) (2 ^ 27 * X - (binary64.val γ - X))
      have e2 : 2 ^ 27 * X - (2 ^ 27 * X - (binary64.val γ - X)) = binary64.val γ - X := by ring
      have e3 : (2 : ℝ) ^ 27 * X - (binary64.val γ - X) = -(binary64.val γ - (2 ^ 27 + 1) * X) := by ring
      rw [e2, e3, abs_neg] at this
      linarith
    rw [abs_sub_comm]
    have e4 : |2 ^ 27 * X| = 2 ^ 27 * |X| := by rw [abs_mul, abs_of_pos (by norm_num : (0 : ℝ) < 2 ^ 27)]
    rw [e4] at t1
    have m52 : Mult e (2 ^ 52 * W) := by have := (Mult.two_zpow (e + 52)).weaken (show e ≤ e + 52 by omega); rw [P52] at this; norm_num at this ⊢; exact this
    have mabs : Mult e |X| := by rcases abs_choice X with h | h <;> rw [h]; exacts [mx, mx.neg]
    rcases lt_or_ge ((2 ^ 52 + 2) * W) |X| with hbig | hsm
    · norm_num at *; linarith
    · rcases eq_or_lt_of_le (show 2 ^ 52 * W ≤ |X| by norm_num at hn' ⊢; exact hn') with heq | hlt
      · -- the power of two: the product is exact
        have mG : Mult (e + 52) ((2 ^ 27 + 1) * X) := by
          have h1 : Mult (e + 52) X := by
            have h2 : Mult (e + 52) (2 ^ 52 * W) := by have := Mult.two_zpow (e + 52); rw [P52] at this; norm_num at this ⊢; exact this
            rw [heq] at h2
            rcases abs_choice X with h | h
            · rwa [h] at h2
            · rw [h] at h2; simpa using h2.neg
          have := h1.int_mul (2 ^ 27 + 1)
          norm_num at this ⊢; exact this
        obtain ⟨-, k2⟩ := rep_exact (k := e + 81) G mG (by omega) (by rw [G1, P81]; norm_num at *; linarith) (by omega) (by omega)
        rw [k2] at t1 ⊢
        rw [sub_self, abs_zero] at t1
        norm_num at *; linarith
      · have hge := m52.lt_imp mabs hlt
        rw [← hW] at hge
        obtain ⟨-, eγ2⟩ := rnd_zpow (k := e + 80) G (by rw [G1, P80]; norm_num at *; linarith) (by omega) (by omega)
        rw [show e + 80 - 53 = e + 27 by ring, P27] at eγ2
        norm_num at *; linarith
  have v2u : |X - binary64.val γ| ≤ 2 ^ 81 * W := by
    have : |X - binary64.val γ| ≤ |binary64.val γ - (2 ^ 27 + 1) * X| + |2 ^ 27 * X| := by
      have e5 : X - binary64.val γ = -(binary64.val γ - (2 ^ 27 + 1) * X) + -(2 ^ 27 * X) := by ring
      rw [e5]; refine (abs_add_le _ _).trans (le_of_eq ?_); rw [abs_neg, abs_neg]
    rw [abs_mul, abs_of_pos (by norm_num : (0 : ℝ) < 2 ^ 27)] at this
    norm_num at *; linarith
  obtain ⟨fδ, eδ⟩ := rnd_zpow (k := e + 81) D (by rw [P81]; norm_num at v2u ⊢; exact v2u) (by omega) (by omega)
  rw [show e + 81 - 53 = e + 28 by ring, P28] at eδ
  set δ := binary64.hsub m x γ with hδ
  have mδ : Mult (e + 27) (binary64.val δ) := by
    obtain ⟨q, fq, vq⟩ := binary64.rep (Mult.two_zpow (e + 79)) (by rw [emin64']; omega) (by rw [abs_of_pos (two_zpow_pos _)]; exact two_zpow_le (by rw [hF]; omega))
      (by rw [abs_of_pos (two_zpow_pos _)]; exact two_zpow_lt (by rw [hbias]; omega))
    have gδ : 2 ^ 79 * W ≤ |binary64.val δ| := by
      rw [P79] at vq
      have fnq := binary64.finite_hneg fq
      have vnq : binary64.val (binary64.hneg q) = -(2 ^ 79 * W) := by rw [val_hneg, vq]; norm_num
      rcases le_abs.1 v2l with h | h
      · have := (RoundsTo.ge_of D fq (by rw [vq]; norm_num at h ⊢; exact h))
        refine le_trans ?_ (le_abs_self _)
        rw [binary64.xval_of_finite fq, binary64.xval_of_finite fδ, EReal.coe_le_coe_iff] at this
        rw [vq] at this; norm_num at this ⊢; exact this
      · have := (RoundsTo.le_of D fnq (by rw [vnq]; linarith))
        refine le_trans ?_ (neg_le_abs _)
        rw [binary64.xval_of_finite fnq, binary64.xval_of_finite fδ, EReal.coe_le_coe_iff] at this
        rw [vnq] at this; linarith
    exact (binary64.mult_ce δ).weaken (binary64.le_ce_of (by rw [hF, show e + 27 + 52 = e + 79 by ring, P79]; norm_num at gδ ⊢; exact gδ))
  -- high part
  have H := binary64.hadd_spec m fγ fδ
  have hsum : |binary64.val γ + binary64.val δ - X| ≤ 2 ^ 29 * W := by
    have e6 : binary64.val γ + binary64.val δ - X = binary64.val δ - (X - binary64.val γ) := by ring
    rw [e6]; norm_num at eδ ⊢; linarith
  obtain ⟨fh, vh⟩ := rep_exact (k := e + 54) H (mγ.add mδ) (by omega) (by
    have : |binary64.val γ + binary64.val δ| ≤ |X| + 2 ^ 29 * W := by
      have := abs_add_le (binary64.val γ + binary64.val δ - X) X; rw [sub_add_cancel] at this; linarith
    rw [P54]; norm_num at *; linarith) (by omega) (by omega)
  set hi := binary64.hadd m γ δ with hhi
  have L := binary64.hsub_spec m hx fh
  rw [← hX, vh] at L
  have P29 := P 29
  norm_num at P29
  have lsz : |X - (binary64.val γ + binary64.val δ)| ≤ 2 ^ 29 * W := by rw [abs_sub_comm]; exact hsum
  obtain ⟨fl, vl⟩ := rep_exact (k := e + 29) L (mx.sub ((mγ.add mδ).weaken (by omega))) (by omega) (by rw [P29]; norm_num at lsz ⊢; exact lsz) (by omega) (by omega)
  refine ⟨fh, fl, ?_, ?_, ?_⟩
  · change binary64.val hi + binary64.val (binary64.hsub m x hi) = X
    rw [vl, vh]; ring
  · change Mult (e + 27) (binary64.val hi)
    rw [vh]; exact mγ.add mδ
  · change |binary64.val (binary64.hsub m x hi)| ≤ _
    rw [vl]; exact lsz

/-- Dekker's product in every mode: relative error `2^-72` -/
theorem exactMult_any (m : Mode) {a b : ℕ} (ha : binary64.Finite a) (hb : binary64.Finite b)
    (na : (2 : ℝ) ^ (-1022 : ℤ) ≤ |binary64.val a|) (ba : |binary64.val a| ≤ 2 ^ (900 : ℤ))
    (nb : (2 : ℝ) ^ (-1022 : ℤ) ≤ |binary64.val b|) (bb : |binary64.val b| ≤ 2 ^ (900 : ℤ))
    (hlo : (2 : ℝ) ^ (-900 : ℤ) ≤ |binary64.val a * binary64.val b|) (hhi : |binary64.val a * binary64.val b| ≤ 2 ^ (900 : ℤ)) :
    (∃ zs, binary64.RoundsTo m zs (binary64.val a * binary64.val b) (CC.exactMult m a b).hi) ∧
      binary64.Finite (CC.exactMult m a b).hi ∧ binary64.Finite (CC.exactMult m a b).lo ∧
      |binary64.val (CC.exactMult m a b).hi + binary64.val (CC.exactMult m a b).lo - binary64.val a * binary64.val b| ≤ 1 / 2 ^ 72 * |binary64.val a * binary64.val b| := by
  have hF : (binary64.F : ℤ) = 52 := by decide +kernel
  have hbias : (binary64.bias : ℤ) = 1023 := by decide +kernel
  have nmin : binary64.minNormal = (2 : ℝ) ^ (-1022 : ℤ) := by unfold minNormal; rw [hbias, show (1 : ℤ) - 1023 = -1022 by norm_num]
  have ea1 := normal_ce binary64 (x := a) (by rw [nmin]; exact na)
  have eb1 := normal_ce binary64 (x := b) (by rw [nmin]; exact nb)
  have ea2 := binary64.abs_val_lt_ce a
  have eb2 := binary64.abs_val_lt_ce b
  rw [hF] at ea1 eb1 ea2 eb2
  obtain ⟨fah, fal, sa, mah, bal⟩ := split_any m ha na ba
  obtain ⟨fbh, fbl, sb, mbh, bbl⟩ := split_any m hb nb bb
  have H := binary64.hmul_spec m ha hb
  refine ⟨⟨_, H⟩, ?_⟩
  change binary64.Finite (binary64.hmul m a b) ∧ _
  have key : CC.exactMult m a b =
    { lo := binary64.hadd m (binary64.hmul m (CC.split m a).lo (CC.split m b).lo) (binary64.hadd m (binary64.hmul m (CC.split m a).lo (CC.split m b).hi)
        (binary64.hadd m (binary64.hmul m (CC.split m a).hi (CC.split m b).lo) (binary64.hsub m (binary64.hmul m (CC.split m a).hi (CC.split m b).hi) (binary64.hmul m a b)))),
      hi := binary64.hmul m a b } := rfl
  rw [key]
  dsimp only
  generalize (CC.split m a).hi = ah at *
  generalize (CC.split m a).lo = al at *
  generalize (CC.split m b).hi = bh at *
  generalize (CC.split m b).lo = bl at *
  set h := binary64.hmul m a b with hh
  generalize binary64.ce a = e at *
  generalize binary64.ce b = e' at *
  clear key
  have W1 := two_zpow_pos e
  have W2 := two_zpow_pos e'
  obtain ⟨E, hE⟩ : ∃ E, E = e + e' := ⟨_, rfl⟩
  set W : ℝ := (2 : ℝ) ^ E with hW
  have WW : (2 : ℝ) ^ e * 2 ^ e' = W := by rw [hW, hE, zpow_add₀ (by norm_num)]
  have hp : 0 < W := two_zpow_pos E
  have P : ∀ k : ℕ, (2 : ℝ) ^ (E + k) = 2 ^ k * W := fun k => by rw [zpow_add₀ (by norm_num), zpow_natCast, mul_comm]
  have Q : ∀ (x : ℤ) (k : ℕ), (2 : ℝ) ^ (x + k) = 2 ^ k * 2 ^ x := fun x k => by rw [zpow_add₀ (by norm_num), zpow_natCast, mul_comm]
  have q1 := Q e 52; have q2 := Q e' 52; have q3 := Q e 53; have q4 := Q e' 53
  norm_num [-abs_mul] at q1 q2 q3 q4
  rw [q1] at ea1
  rw [q2] at eb1
  rw [show e + 52 + 1 = e + 53 by ring, q3] at ea2
  rw [show e' + 52 + 1 = e' + 53 by ring, q4] at eb2
  have A0 := abs_nonneg (binary64.val a)
  have B0 := abs_nonneg (binary64.val b)
  set A := binary64.val a with hA
  set B := binary64.val b with hB
  generalize hAH : binary64.val ah = AH at *
  generalize hAL : binary64.val al = AL at *
  generalize hBH : binary64.val bh = BH at *
  generalize hBL : binary64.val bl = BL at *
  have prod : ∀ {u v : ℝ} (i j : ℝ), 0 ≤ i → |u| ≤ i * 2 ^ e → |v| ≤ j * 2 ^ e' → |u * v| ≤ i * j * W := by
    intro u v i j hi hu hv
    rw [abs_mul, ← WW]
    calc |u| * |v| ≤ (i * 2 ^ e) * (j * 2 ^ e') := mul_le_mul hu hv (abs_nonneg _) (mul_nonneg hi W1.le)
      _ = i * j * (2 ^ e * 2 ^ e') := by ring
  have bA : |A| ≤ 2 ^ 53 * 2 ^ e := by norm_num; exact ea2.le
  have bB : |B| ≤ 2 ^ 53 * 2 ^ e' := by norm_num; exact eb2.le
  have bAH : |AH| ≤ (2 ^ 53 + 2 ^ 29) * 2 ^ e := by
    have : |AH| ≤ |A| + |AL| := by rw [← sa]; have := abs_sub (AH + AL) AL; rw [add_sub_cancel_right] at this; exact this
    linarith
  have bBH : |BH| ≤ (2 ^ 53 + 2 ^ 29) * 2 ^ e' := by
    have : |BH| ≤ |B| + |BL| := by rw [← sb]; have := abs_sub (BH + BL) BL; rw [add_sub_cancel_right] at this; exact this
    linarith
  have ab1 : 2 ^ 104 * W ≤ |A * B| := by
    rw [abs_mul, ← WW]
    calc (2 : ℝ) ^ 104 * (2 ^ e * 2 ^ e') = (4503599627370496 * 2 ^ e) * (4503599627370496 * 2 ^ e') := by norm_num; ring
      _ ≤ |A| * |B| := mul_le_mul ea1 eb1 (by positivity) A0
  have ab2 : |A * B| ≤ 2 ^ 106 * W := by have := prod _ _ (by norm_num) bA bB; norm_num [-abs_mul] at this ⊢; exact this
  -- range of the exponent
  have E1 : -1006 ≤ E := by
    have h1 : (2 : ℝ) ^ (-900 : ℤ) ≤ 2 ^ (E + 106) := by have := P 106; norm_num [-abs_mul] at this; rw [this]; refine hlo.trans ?_; norm_num [-abs_mul] at ab2; exact ab2
    have := (zpow_le_zpow_iff_right₀ (by norm_num : (1 : ℝ) < 2)).1 h1
    omega
  have E2 : E ≤ 796 := by
    have h1 : (2 : ℝ) ^ (E + 104) ≤ 2 ^ (900 : ℤ) := by have := P 104; norm_num [-abs_mul] at this; rw [this]; refine le_trans ?_ hhi; norm_num [-abs_mul] at ab1; exact ab1
    have := (zpow_le_zpow_iff_right₀ (by norm_num : (1 : ℝ) < 2)).1 h1
    omega
  have P5 := P 5; have P6 := P 6; have P1 := P 1; have P30 := P 30; have P53 := P 53; have P54 := P 54; have P58 := P 58; have P59 := P 59; have P83 := P 83; have P84 := P 84
  have P103 := P 103; have P106 := P 106; have P107 := P 107
  norm_num [-abs_mul] at P5 P6 P1 P30 P53 P54 P58 P59 P83 P84 P103 P106 P107
  -- the rounded product
  obtain ⟨fh, eh⟩ := rnd_zpow (k := E + 106) H (by rw [P106]; norm_num [-abs_mul] at ab2; exact ab2) (by omega) (by omega)
  rw [show E + 106 - 53 = E + 53 by ring, P53] at eh
  have hh1 : 2 ^ 103 * W ≤ |binary64.val h| := by
    have : |A * B| ≤ |binary64.val h| + |binary64.val h - A * B| := by
      have := abs_sub_abs_le_abs_sub (A * B) (binary64.val h); rw [abs_sub_comm] at this; linarith
    norm_num [-abs_mul] at *; linarith
  have mh : Mult (E + 51) (binary64.val h) := (binary64.mult_ce h).weaken (binary64.le_ce_of (by rw [hF, show E + 51 + 52 = E + 103 by ring, P103]; norm_num [-abs_mul] at hh1 ⊢; exact hh1))
  refine ⟨fh, ?_⟩
  -- high product
  have R1 := binary64.hmul_spec m fah fbh
  rw [hAH, hBH] at R1
  have c1 := prod _ _ (by norm_num) bAH bBH
  obtain ⟨f1, v1⟩ := rep_exact (g := E + 54) (k := E + 107) R1 (by have := mah.mul mbh; rw [show e + 27 + (e' + 27) = E + 54 by omega] at this; exact this)
    (by omega) (by rw [P107]; norm_num [-abs_mul] at c1 ⊢; linarith) (by omega) (by omega)
  have R2 := binary64.hsub_spec m f1 fh
  rw [v1] at R2
  have c2 := prod _ _ (by norm_num) bAH bbl
  have c3 := prod _ _ (by norm_num) bal bBH
  have c4 := prod _ _ (by norm_num) bal bbl
  have id1 : AH * BH - binary64.val h = -(binary64.val h - A * B) + -(AH * BL) + -(AL * BH) + -(AL * BL) := by rw [← sa, ← sb]; ring
  have c5 : |AH * BH - binary64.val h| ≤ 2 ^ 84 * W := by
    rw [id1]
    refine (abs_add_le' (abs_add_le' (abs_add_le' ((abs_neg _).trans_le eh.le) ((abs_neg _).trans_le c2)) ((abs_neg _).trans_le c3)) ((abs_neg _).trans_le c4)).trans ?_
    norm_num; linarith
  obtain ⟨f2, v2⟩ := rep_exact (g := E + 51) (k := E + 84) R2
    ((((mah.mul mbh).weaken (by omega)).sub mh)) (by omega) (by rw [P84]; norm_num [-abs_mul] at c5 ⊢; linarith) (by omega) (by omega)
  generalize binary64.hsub m (binary64.hmul m ah bh) h = t1 at *
  have R3 := binary64.hmul_spec m fah fbl
  rw [hAH, hBL] at R3
  obtain ⟨f3, e3⟩ := rnd_zpow (k := E + 83) R3 (by rw [P83]; norm_num [-abs_mul] at c2 ⊢; linarith) (by omega) (by omega)
  rw [show E + 83 - 53 = E + 30 by ring, P30] at e3
  generalize binary64.hmul m ah bl = p2 at *
  have R4 := binary64.hadd_spec m f3 f2
  rw [v2] at R4
  have c6 : |binary64.val p2 + (AH * BH - binary64.val h)| ≤ 2 ^ 83 * W := by
    rw [show binary64.val p2 + (AH * BH - binary64.val h) = (binary64.val p2 - AH * BL) + -(binary64.val h - A * B) + -(AL * BH) + -(AL * BL) by rw [id1]; ring]
    refine (abs_add_le' (abs_add_le' (abs_add_le' e3.le ((abs_neg _).trans_le eh.le)) ((abs_neg _).trans_le c3)) ((abs_neg _).trans_le c4)).trans ?_
    norm_num; linarith
  obtain ⟨f4, e4⟩ := rnd_zpow (k := E + 83) R4 (by rw [P83]; norm_num [-abs_mul] at c6 ⊢; linarith) (by omega) (by omega)
  rw [show E + 83 - 53 = E + 30 by ring, P30] at e4
  generalize binary64.hadd m p2 t1 = t2 at *
  have R5 := binary64.hmul_spec m fal fbh
  rw [hAL, hBH] at R5
  obtain ⟨f5, e5⟩ := rnd_zpow (k := E + 83) R5 (by rw [P83]; norm_num [-abs_mul] at c3 ⊢; linarith) (by omega) (by omega)
  rw [show E + 83 - 53 = E + 30 by ring, P30] at e5
  generalize binary64.hmul m al bh = p3 at *
  have R6 := binary64.hadd_spec m f5 f4
  have c7 : |binary64.val p3 + binary64.val t2| ≤ 2 ^ 59 * W := by
    rw [show binary64.val p3 + binary64.val t2 = (binary64.val p3 - AL * BH) + (binary64.val t2 - (binary64.val p2 + (AH * BH - binary64.val h))) + (binary64.val p2 - AH * BL) + -(binary64.val h - A * B) + -(AL * BL) by rw [id1]; ring]
    refine (abs_add_le' (abs_add_le' (abs_add_le' (abs_add_le' e5.le e4.le) e3.le) ((abs_neg _).trans_le eh.le)) ((abs_neg _).trans_le c4)).trans ?_
    norm_num; linarith
  obtain ⟨f6, e6⟩ := rnd_zpow (k := E + 59) R6 (by rw [P59]; norm_num [-abs_mul] at c7 ⊢; linarith) (by omega) (by omega)
  rw [show E + 59 - 53 = E + 6 by ring, P6] at e6
  generalize binary64.hadd m p3 t2 = t3 at *
  have R7 := binary64.hmul_spec m fal fbl
  rw [hAL, hBL] at R7
  obtain ⟨f7, e7⟩ := rnd_zpow (k := E + 58) R7 (by rw [P58]; norm_num [-abs_mul] at c4 ⊢; linarith) (by omega) (by omega)
  rw [show E + 58 - 53 = E + 5 by ring, P5] at e7
  generalize binary64.hmul m al bl = p4 at *
  have R8 := binary64.hadd_spec m f7 f6
  have c8 : |binary64.val p4 + binary64.val t3| ≤ 2 ^ 54 * W := by
    rw [show binary64.val p4 + binary64.val t3 = (binary64.val p4 - AL * BL) + (binary64.val t3 - (binary64.val p3 + binary64.val t2)) + (binary64.val p3 - AL * BH) + (binary64.val t2 - (binary64.val p2 + (AH * BH - binary64.val h))) + (binary64.val p2 - AH * BL) + -(binary64.val h - A * B) by rw [id1]; ring]
    refine (abs_add_le' (abs_add_le' (abs_add_le' (abs_add_le' (abs_add_le' e7.le e6.le) e5.le) e4.le) e3.le) ((abs_neg _).trans_le eh.le)).trans ?_
    norm_num; linarith
  obtain ⟨f8, e8⟩ := rnd_zpow (k := E + 54) R8 (by rw [P54]; norm_num [-abs_mul] at c8 ⊢; linarith) (by omega) (by omega)
  rw [show E + 54 - 53 = E + 1 by ring, P1] at e8
  refine ⟨f8, ?_⟩
  generalize binary64.hadd m p4 t3 = l at *
  rw [show binary64.val h + binary64.val l - A * B = (binary64.val l - (binary64.val p4 + binary64.val t3)) + (binary64.val p4 - AL * BL) + (binary64.val t3 - (binary64.val p3 + binary64.val t2)) + (binary64.val p3 - AL * BH) + (binary64.val t2 - (binary64.val p2 + (AH * BH - binary64.val h))) + (binary64.val p2 - AH * BL) by rw [id1]; ring]
  refine (abs_add_le' (abs_add_le' (abs_add_le' (abs_add_le' (abs_add_le' e8.le e7.le) e6.le) e5.le) e4.le) e3.le).trans ?_
  norm_num [-abs_mul] at ab1 ⊢; linarith

end Verif
