import Verif.Lemmas.Log1pF1
import Verif.Lemmas.Log1p5

/-!
# log1p of float against the logarithm
-/

namespace Verif
open Fmt Real

theorem ruf_bounds (md : Mode) : 1 / 2 ^ 24 ≤ ruf md ∧ ruf md ≤ 1 / 2 ^ 23 ∧ 0 < ruf md := by
  unfold ruf; split_ifs <;> norm_num

/-- the last conversion to float -/
theorem l1pf_cvt (md : Mode) {r : ℕ} {L δ : ℝ} (hr : binary64.Finite r) (hL : 1 / 2 ^ 30 ≤ |L|) (hL2 : |L| ≤ 100) (hδ : δ ≤ 1 / 2 ^ 24) (h : |binary64.val r - L| ≤ δ * |L|) :
    binary32.Finite (binary32.hcvt binary64 md r) ∧ |binary32.val (binary32.hcvt binary64 md r) - L| ≤ (ruf md * (1 + 1 / 2 ^ 20) + δ) * |L| := by
  obtain ⟨u1, u2, u0⟩ := ruf_bounds md
  have R := CC.hcvt_spec binary32 binary64 md hr
  generalize binary64.val r = v at *
  have hδ' := mul_le_mul_of_nonneg_right hδ (abs_nonneg L)
  have b1 := abs_near h (le_refl |L|)
  have b2 : |L| - δ * |L| ≤ |v| := by
    have := abs_sub_abs_le_abs_sub L v
    rw [abs_sub_comm] at this
    linarith
  obtain ⟨a, b⟩ := rel_err R (by
    have e : binary32.minNormal = (2 : ℝ) ^ (-126 : ℤ) := rfl
    have e2 : (2 : ℝ) ^ (-126 : ℤ) ≤ 1 / 2 ^ 31 := by norm_num
    rw [e]
    refine e2.trans (le_trans ?_ b2)
    norm_num at *; linarith) (by
    refine le_trans ?_ bigf_le
    have e2 : (2 : ℝ) ^ (7 : ℤ) ≤ (2 : ℝ) ^ (110 : ℤ) := zpow_le_zpow_right₀ (by norm_num) (by norm_num)
    refine le_trans ?_ e2
    norm_num at *; linarith)
  refine ⟨a, (abs_tri b h).trans ?_⟩
  rw [fu32]
  have b3 : |v| ≤ (1 + 1 / 2 ^ 20) * |L| := by norm_num at *; linarith
  have := mul_le_mul_of_nonneg_left b3 u0.le
  linarith

theorem zero_mulf (md : Mode) : binary64.hadd md (binary64.hmul md (binary64.ofInt md 0) CC.l1pFlo) 0 = 0 ∧ binary64.hmul md (binary64.ofInt md 0) CC.l1pFhi = 0 := by
  cases md <;> decide +kernel

/-- the float kernel without reduction -/
theorem l1pf_inner (md : Mode) {x : ℕ} (hx : binary32.Finite x) {X : ℝ} (hX : binary32.val x = X) (h0 : 1 / 2 ^ 25 ≤ |X|) (h1 : -(29290 / 100000) ≤ X) (h2 : X ≤ 41429 / 100000) :
    let r := CC.log1pKernelf md 0 (binary64.hcvt binary32 md x) 0
    binary32.Finite r ∧ |binary32.val r - log (1 + X)| ≤ 115 / 100 * ruf md * |log (1 + X)| := by
  obtain ⟨u1, u2, u0⟩ := ruf_bounds md
  obtain ⟨ff, vf⟩ := cvt_up md hx
  rw [hX] at vf
  have h0' : (1 : ℝ) / 2 ^ 60 ≤ |X| := le_trans (by norm_num) h0
  have f0 : binary64.Finite 0 := by decide +kernel
  have v0 : binary64.val 0 = 0 := (binary64.val_eq_zero_iff _).2 (by decide +kernel)
  have hz := zero_mulf md
  obtain ⟨a, b⟩ := l1pf_kernel md (c := 0) (k := 0) (D := 0) (K := 0) ff vf rfl h0' h1 h2
    (by rw [hz.1]; exact (Ap.ofVal f0 v0 (BX := |X| / 100) (by rw [abs_zero]; positivity)).mono le_rfl (by positivity))
    (by rw [hz.2]; exact Ap.ofVal f0 v0 (by rw [abs_zero]; positivity))
  obtain ⟨-, hs⟩ := l1p_s md ff vf rfl h0' h1 h2
  have g1 := log1p_ge rfl (show -1 < X by linarith) (hs.trans (by norm_num))
  have g2 := l1pQ_log rfl (show -1 < X by linarith) hs
  have ga : |X| ≤ 241429 / 100000 * |X / (2 + X)| := by
    rw [abs_div, abs_of_pos (show 0 < 2 + X by linarith), mul_div_assoc', le_div_iff₀ (by linarith), mul_comm]
    exact mul_le_mul_of_nonneg_right (by linarith) (abs_nonneg _)
  have gu : |log (1 + X)| ≤ 100 := by
    have l1 := log_le_sub_one_of_pos (show 0 < 1 + X by linarith)
    have l2 := one_sub_inv_le_log_of_pos (show 0 < 1 + X by linarith)
    have l3 : (1 + X)⁻¹ ≤ (7 / 10 : ℝ)⁻¹ := inv_anti₀ (by norm_num) (by linarith)
    norm_num at l3
    rw [abs_le]; constructor <;> linarith
  dsimp only
  rw [log1pKernelf_eq]
  generalize log1pKerfD md 0 (binary64.hcvt binary32 md x) 0 = r at *
  generalize X - X * X / 2 + X / (2 + X) * (X * X / 2 + l1pQ (X / (2 + X) * (X / (2 + X)))) = V at *
  generalize log (1 + X) = L at *
  generalize X / (2 + X) = S at *
  rw [add_zero, add_zero] at b
  have hS0 := abs_nonneg S
  obtain ⟨c, d⟩ := l1pf_cvt md (L := L) (δ := 14 / 100 * (1 / 2 ^ 24)) a (by norm_num at *; linarith) gu (by norm_num)
    ((abs_tri b g2).trans (by norm_num at *; linarith))
  refine ⟨c, d.trans (mul_le_mul_of_nonneg_right ?_ (abs_nonneg _))⟩
  norm_num at *; linarith

/-- tiny arguments -/
theorem l1p_tiny' {X t : ℝ} (ht : t ≤ 1 / 2 ^ 24) (h : |X| ≤ t) : |X - log (1 + X)| ≤ 11 / 10 * t * |log (1 + X)| := by
  have hx := abs_le.1 (h.trans ht)
  norm_num at hx
  have l1 := log_le_sub_one_of_pos (show 0 < 1 + X by linarith)
  have l2 := one_sub_inv_le_log_of_pos (show 0 < 1 + X by linarith)
  have e : 1 - (1 + X)⁻¹ = X / (1 + X) := by
    have : 1 + X ≠ 0 := by linarith
    field_simp; ring
  rw [e] at l2
  set L := log (1 + X)
  rw [abs_of_nonneg (by linarith)]
  have hd : X - X / (1 + X) = X * X / (1 + X) := by
    have : 1 + X ≠ 0 := by linarith
    field_simp; ring
  have k1 : X - L ≤ X * X * (1 + 1 / 2 ^ 20) := by
    have : X * X / (1 + X) ≤ X * X * (1 + 1 / 2 ^ 20) := by
      rw [div_le_iff₀ (by linarith)]
      have : 1 ≤ (1 + 1 / 2 ^ 20) * (1 + X) := by norm_num; linarith
      have := mul_le_mul_of_nonneg_left this (mul_self_nonneg X)
      linarith
    linarith
  have k2 : |X| * (1 - 1 / 2 ^ 20) ≤ |L| := by
    have := abs_sub_abs_le_abs_sub X L
    rw [abs_of_nonneg (show 0 ≤ X - L by linarith)] at this
    have k3 : X * X * (1 + 1 / 2 ^ 20) ≤ |X| * (1 / 2 ^ 20) := by
      rw [← abs_mul_abs_self, mul_assoc]
      refine mul_le_mul_of_nonneg_left ?_ (abs_nonneg _)
      norm_num at h ht ⊢; linarith
    linarith
  have t0 : 0 ≤ t := le_trans (abs_nonneg _) h
  have k4 : X * X ≤ t * |X| := by
    rw [← abs_mul_abs_self]; exact mul_le_mul_of_nonneg_right h (abs_nonneg _)
  have k5 := mul_le_mul_of_nonneg_left k2 t0
  have k6 := mul_nonneg t0 (abs_nonneg X)
  norm_num at *
  linarith

theorem pat_le_of32 {x y : ℕ} (hx : x < 2 ^ 31) (hy : y < 2 ^ 31) (h : binary32.val x ≤ binary32.val y) : x ≤ y := by
  rw [binary32.val_le_iff_key] at h
  have key : ∀ P < 2 ^ 31, binary32.key P = P := by
    intro P hP
    have e : binary32.key P = if decide (2 ^ 31 ≤ P) then -((P % 2 ^ 31 : ℕ) : ℤ) else ((P % 2 ^ 31 : ℕ) : ℤ) := rfl
    rw [e, if_neg (by simpa using hP), show P % 2 ^ 31 = P by omega]
  rw [key _ hx, key _ hy] at h
  exact_mod_cast h

theorem pat_half32 {U : ℕ} (h1 : 2 ^ 24 ≤ U) (h2 : U < 255 * 2 ^ 23) : binary32.Finite (U - 2 ^ 23) ∧ binary32.val (U - 2 ^ 23) = binary32.val U / 2 := by
  have p := pat32 (P := U) (by omega) h2
  have q := pat32 (P := U - 2 ^ 23) (by omega) (by omega)
  refine ⟨q.1, ?_⟩
  rw [p.2, q.2, show (U - 2 ^ 23) % 2 ^ 23 = U % 2 ^ 23 by omega, show (((U - 2 ^ 23) / 2 ^ 23 : ℕ) : ℤ) - 150 = (((U / 2 ^ 23 : ℕ) : ℤ) - 150) - 1 by omega,
    zpow_sub_one₀ (by norm_num)]
  ring

theorem l1pf_hu {U : ℕ} (h1 : 0x3fb504f3 ≤ U) (h2 : U ≤ 0x3fb50780) :
    let iu := (U + (0x3f800000 - 0x3f3504f3)) % 2 ^ 32
    ((iu >>> 23 : ℕ) : ℤ) - 0x7f = 1 ∧ ((iu &&& 0x7fffff) + 0x3f3504f3) % 2 ^ 32 = U - 2 ^ 23 := by
  dsimp only
  rw [show (0x7fffff : ℕ) = 2 ^ 23 - 1 by norm_num, Nat.and_two_pow_sub_one_eq_mod, Nat.shiftRight_eq_div_pow]
  constructor <;> omega

theorem l1pf_red (md : Mode) {x : ℕ} (h1 : 0x3ed413d0 ≤ x) (h2 : x ≤ 0x3ED41D08) :
    ∃ (f c : ℕ) (F D : ℝ), CC.log1pRedf md x = (1, f, c) ∧ binary64.Finite f ∧ binary64.val f = F ∧ -(29290 / 100000) ≤ F ∧ F ≤ -(2928 / 10000) ∧
      Ap md c D (1 / 2 ^ 22) (1 / 2 ^ 21) ∧ 1 + binary32.val x = 2 * (1 + F) * (1 + D) := by
  obtain ⟨u1, u2, u0⟩ := ruf_bounds md
  have hu := ru_pos md
  have hu1 := ru_ge md
  have he := eta_le
  have px := pat32 (P := x) (by omega) (by omega)
  obtain ⟨f1, v1⟩ := fval_one32
  have mx : Mult (-25) (binary32.val x) := by
    rw [px.2, show x / 2 ^ 23 = 125 by omega]
    exact ⟨((2 ^ 23 + x % 2 ^ 23 : ℕ) : ℤ), by rw [Int.cast_natCast]; norm_num⟩
  have lo : (41421365 / 10 ^ 8 : ℝ) ≤ binary32.val x := by
    have := pat_le32 h1 (by omega)
    have q := pat32 (P := 0x3ed413d0) (by norm_num) (by norm_num)
    rw [q.2] at this
    norm_num at this ⊢; linarith
  have lo' : (13898704 : ℝ) / 2 ^ 25 ≤ binary32.val x := by
    have := pat_le32 h1 (by omega)
    have q := pat32 (P := 0x3ed413d0) (by norm_num) (by norm_num)
    rw [q.2] at this
    norm_num at this ⊢; linarith
  have hi : binary32.val x ≤ 4142842 / 10 ^ 7 := by
    have := pat_le32 h2 (by norm_num)
    have q := pat32 (P := 0x3ED41D08) (by norm_num) (by norm_num)
    rw [q.2] at this
    norm_num at this ⊢; linarith
  unfold CC.log1pRedf
  generalize hX : binary32.val x = X at *
  have fx := px.1
  clear px
  have Ru := binary32.hadd_spec md f1 fx
  rw [v1, hX] at Ru
  obtain ⟨fu, eu⟩ := err32 Ru (by rw [abs_of_pos (by linarith)]; norm_num at *; linarith)
  have lowU : (14142136 / 10 ^ 7 : ℝ) ≤ binary32.val (binary32.hadd md 0x3F800000 x) := by
    have q := pat32 (P := 0x3fb504f4) (by norm_num) (by norm_num)
    have k := Ru.ge_of q.1 (by rw [q.2]; norm_num at lo' ⊢; linarith)
    rw [binary32.xval_of_finite q.1, binary32.xval_of_finite fu, q.2] at k
    have k := EReal.coe_le_coe_iff.1 k
    norm_num at k ⊢; linarith
  generalize binary32.hadd md 0x3F800000 x = u at *
  generalize hU : binary32.val u = U at *
  rw [abs_of_pos (show 0 < 1 + X by linarith)] at eu
  have eu2 : |U - (1 + X)| ≤ 1 / 2 ^ 22 := by
    refine eu.trans ?_
    have k := mul_le_mul_of_nonneg_left (show 1 + X ≤ 14143 / 10000 by norm_num at *; linarith) u0.le
    have := etaf_le
    norm_num at *; linarith
  have eu3 := abs_le.1 eu2
  have hUi : U ≤ 4142845 / 10 ^ 7 + 1 := by norm_num at *; linarith
  obtain ⟨pu0, pu1⟩ := pos_pat32 fu (by rw [hU]; linarith)
  have pl : 0x3fb504f3 ≤ u := by
    refine pat_le_of32 (by norm_num) (by omega) ?_
    have q := pat32 (P := 0x3fb504f3) (by norm_num) (by norm_num)
    rw [q.2, hU]
    norm_num at *; linarith
  have pr : u ≤ 0x3fb50780 := by
    refine pat_le_of32 (by omega) (by norm_num) ?_
    have q := pat32 (P := 0x3fb50780) (by norm_num) (by norm_num)
    rw [q.2, hU]
    norm_num at *; linarith
  have mu : Mult (-23) U := by
    rw [← hU, (pat32 (P := u) (by omega) (by omega)).2, show u / 2 ^ 23 = 127 by omega]
    exact ⟨((2 ^ 23 + u % 2 ^ 23 : ℕ) : ℤ), by rw [Int.cast_natCast]; norm_num⟩
  obtain ⟨e1, e2⟩ := l1pf_hu pl pr
  obtain ⟨fh, vh⟩ := pat_half32 (U := u) (by omega) pu1
  dsimp only at e1 e2 ⊢
  rw [e1, e2, if_pos (by norm_num), if_neg (by norm_num)]
  clear e1 e2 pu0 pu1 pl pr h1 h2
  generalize hh : u - 2 ^ 23 = h at fh vh ⊢
  clear hh
  rw [hU] at vh
  -- f
  have Rf := binary32.hsub_spec md fh f1
  rw [vh, v1] at Rf
  obtain ⟨ff, vf⟩ := ex32 (-24) Rf (by
    obtain ⟨m, hm⟩ := mu
    refine ⟨m - 2 ^ 24, ?_⟩
    rw [hm]; push_cast; norm_num; ring) (by norm_num) (by rw [abs_le]; constructor <;> norm_num at * <;> linarith) (by rw [abs_le]; constructor <;> norm_num at * <;> linarith)
  -- c
  have R1 := binary32.hsub_spec md fu f1
  rw [hU, v1] at R1
  obtain ⟨g1, w1⟩ := ex32 (-23) R1 (mu.sub ⟨2 ^ 23, by norm_num⟩) (by norm_num) (by rw [abs_le]; constructor <;> norm_num at * <;> linarith) (by rw [abs_le]; constructor <;> norm_num at * <;> linarith)
  have R2 := binary32.hsub_spec md fx g1
  rw [hX, w1] at R2
  have eX : X - (U - 1) = -(U - (1 + X)) := by ring
  obtain ⟨g2, w2⟩ := ex32 (-25) R2 (mx.sub ((mu.sub ⟨2 ^ 23, by norm_num⟩).weaken (by norm_num))) (by norm_num) (by rw [eX, abs_neg]; refine eu2.trans ?_; norm_num)
    (by rw [eX, abs_neg]; refine eu2.trans ?_; norm_num)
  obtain ⟨ff', vf'⟩ := cvt_up md ff
  obtain ⟨g2', w2'⟩ := cvt_up md g2
  obtain ⟨fu', vu'⟩ := cvt_up md fu
  rw [vf] at vf'
  rw [w2] at w2'
  rw [hU] at vu'
  have R3 := binary64.hdiv_spec md g2' fu' (by rw [vu']; linarith)
  rw [w2', vu'] at R3
  have bD : |(X - (U - 1)) / U| ≤ 1 / 2 ^ 22 := by
    rw [abs_div, abs_of_pos (show 0 < U by linarith), div_le_iff₀ (by linarith), eX, abs_neg]
    refine eu2.trans ?_
    norm_num at *; linarith
  obtain ⟨g3, e3⟩ := err64 R3 (bD.trans (by norm_num))
  refine ⟨_, _, U / 2 - 1, (X - (U - 1)) / U, rfl, ff', vf', by norm_num at *; linarith, by norm_num at *; linarith, ⟨g3, ?_, bD⟩, ?_⟩
  · refine e3.trans ?_
    have k := mul_le_mul_of_nonneg_left bD hu.le
    norm_num at *; linarith
  · have : U ≠ 0 := by linarith
    field_simp
    ring

theorem one_mulf (md : Mode) : binary64.ofInt md 1 = 0x3FF0000000000000 ∧ binary64.hmul md 0x3FF0000000000000 CC.l1pFlo = CC.l1pFlo ∧
    binary64.hmul md 0x3FF0000000000000 CC.l1pFhi = CC.l1pFhi := by
  cases md <;> decide +kernel

/-- the arguments in `[0.414213, 0.414284]` -/
theorem l1pf_reduced (md : Mode) {x : ℕ} (h1 : 0x3ed413d0 ≤ x) (h2 : x ≤ 0x3ED41D08) :
    let r := CC.log1pKernelf md (CC.log1pRedf md x).1 (CC.log1pRedf md x).2.1 (CC.log1pRedf md x).2.2
    binary32.Finite r ∧ |binary32.val r - log (1 + binary32.val x)| ≤ 134 / 100 * ruf md * |log (1 + binary32.val x)| := by
  obtain ⟨u1, u2, u0⟩ := ruf_bounds md
  have hu2 := ru_le md
  obtain ⟨f, c, F, D, e, hf, hF, l1, l2, Ac, hx⟩ := l1pf_red md h1 h2
  dsimp only
  rw [e]
  dsimp only
  clear e
  have ha : |F| = -F := abs_of_neg (by linarith)
  have ha0 : (1 : ℝ) / 2 ^ 60 ≤ -F := by norm_num; linarith
  obtain ⟨z1, z2, z3⟩ := one_mulf md
  obtain ⟨flo, vlo⟩ := val_l1pFlo
  obtain ⟨fhi, vhi⟩ := val_l1pFhi
  have Alo : Ap md CC.l1pFlo _ (1 / 2 ^ 28) 0 := Ap.ofVal flo vlo (by rw [abs_le]; constructor <;> norm_num)
  have Al := Alo.add Ac (S := 1 / 2 ^ 21) (B := -F / 100) (e := -F / 100) ((abs_add_le' Alo.bd Ac.bd).trans (by norm_num)) (by norm_num <;> linarith) (by norm_num <;> linarith) (by norm_num <;> linarith)
  obtain ⟨a, b⟩ := l1pf_kernel md (c := c) (k := 1) hf hF ha ha0 l1 (by linarith)
    (by rw [z1, z2]; exact Al)
    (by rw [z1, z3]; exact Ap.ofVal fhi vhi (by rw [abs_le]; constructor <;> norm_num <;> linarith))
  obtain ⟨-, hs⟩ := l1p_s md hf hF ha ha0 l1 (by linarith)
  have g2 := l1pQ_log rfl (show -1 < F by linarith) hs
  rw [log1pKernelf_eq]
  generalize log1pKerfD md 1 f c = r at *
  clear z1 z2 z3 Al Alo vlo vhi
  have g3 : |F - F * F / 2 + F / (2 + F) * (F * F / 2 + l1pQ (F / (2 + F) * (F / (2 + F)))) - log (1 + F)| ≤ 172 / 1000 * (1651 / 10 ^ 11) :=
    g2.trans (mul_le_mul_of_nonneg_right hs (by norm_num))
  generalize F - F * F / 2 + F / (2 + F) * (F * F / 2 + l1pQ (F / (2 + F) * (F / (2 + F)))) = V at *
  have bD := abs_le.1 Ac.bd
  norm_num at bD
  have hL : log (1 + binary32.val x) = log 2 + log (1 + F) + log (1 + D) := by
    rw [hx, log_mul (by nlinarith) (by linarith), log_mul (by norm_num) (by linarith)]
  have d1 := log_le_sub_one_of_pos (show 0 < 1 + D by linarith)
  have d2 := one_sub_inv_le_log_of_pos (show 0 < 1 + D by linarith)
  have d3 : D - 1 / 2 ^ 43 ≤ 1 - (1 + D)⁻¹ := by
    have : 1 - (1 + D)⁻¹ = D - D * D / (1 + D) := by
      have : 1 + D ≠ 0 := by linarith
      field_simp; ring
    rw [this]
    have : D * D / (1 + D) ≤ 1 / 2 ^ 43 := by
      rw [div_le_iff₀ (by linarith)]
      have : D * D ≤ 1 / 2 ^ 22 * (1 / 2 ^ 22) := by
        rw [← abs_mul_abs_self]; exact mul_le_mul Ac.bd Ac.bd (abs_nonneg _) (by norm_num)
      norm_num at this ⊢; linarith
    linarith
  have m := ln2_bounds
  have m2 : -(347 / 1000) ≤ log (1 + F) := by
    have e1 : 2 * log (1 + F) = log ((1 + F) ^ 2) := by rw [log_pow]; norm_num
    have e2 : log (1 / 2 * (9999 / 10000)) ≤ log ((1 + F) ^ 2) := log_le_log (by norm_num) (by nlinarith)
    rw [log_mul (by norm_num) (by norm_num), one_div, log_inv] at e2
    have e3 := one_sub_inv_le_log_of_pos (show (0 : ℝ) < 9999 / 10000 by norm_num)
    norm_num at e3 m
    linarith
  have m3 : log (1 + F) ≤ -(2928 / 10000) := by
    have := log_le_sub_one_of_pos (show 0 < 1 + F by linarith)
    linarith
  rw [hL]
  have hLp : 0 < log 2 + log (1 + F) + log (1 + D) := by norm_num at *; linarith
  have key : |binary64.val r - (log 2 + log (1 + F) + log (1 + D))| ≤ 33 / 100 * (1 / 2 ^ 24) * |log 2 + log (1 + F) + log (1 + D)| := by
    rw [abs_of_pos hLp]
    rw [abs_le] at *
    generalize log (1 + D) = LD at *
    generalize log (1 + F) = LF at *
    norm_num at *
    constructor <;> linarith [b.1, b.2, g3.1, g3.2]
  obtain ⟨p, q⟩ := l1pf_cvt md a (by rw [abs_of_pos hLp]; norm_num at *; linarith) (by rw [abs_of_pos hLp]; norm_num at *; linarith) (by norm_num) key
  refine ⟨p, q.trans (mul_le_mul_of_nonneg_right ?_ (abs_nonneg _))⟩
  norm_num at *; linarith

theorem key32 {x : ℕ} (hx : binary32.Finite x) : (x < 2 ^ 31 ∧ binary32.key x = x) ∨ (2 ^ 31 ≤ x ∧ x < 2 ^ 32 ∧ binary32.key x = -((x - 2 ^ 31 : ℕ) : ℤ)) := by
  have hv : x < 2 ^ 32 := hx.1
  have e : binary32.key x = if decide (2 ^ 31 ≤ x) then -((x % 2 ^ 31 : ℕ) : ℤ) else ((x % 2 ^ 31 : ℕ) : ℤ) := rfl
  by_cases h : 2 ^ 31 ≤ x
  · right
    refine ⟨h, hv, ?_⟩
    rw [e, if_pos (by simpa using h), show x % 2 ^ 31 = x - 2 ^ 31 by omega]
  · left
    refine ⟨by omega, ?_⟩
    rw [e, if_neg (by simpa using h), show x % 2 ^ 31 = x by omega]

theorem l1p_lo32 {x : ℕ} (h : -1 < binary32.val x) : -1 + 1 / 2 ^ 24 ≤ binary32.val x := by
  have h1 : binary32.Finite 0xBF7FFFFF ∧ binary32.val 0xBF7FFFFF = -1 + 1 / 2 ^ 24 := by
    refine ⟨by decide +kernel, ?_⟩
    rw [lit32 true 16777215 24 (by decide +kernel) (by decide +kernel) (by decide +kernel) (by decide +kernel)]
    norm_num [sg]
  have h2 : binary32.val 0xBF800000 = -1 := by
    rw [lit32 true 8388608 23 (by decide +kernel) (by decide +kernel) (by decide +kernel) (by decide +kernel)]
    norm_num [sg]
  rw [← h2, binary32.val_lt_iff_key, show binary32.key 0xBF800000 = -0x3F800000 by decide] at h
  rw [← h1.2, binary32.val_le_iff_key, show binary32.key 0xBF7FFFFF = -0x3F7FFFFF by decide]
  omega

theorem l1pf_outer (md : Mode) {x : ℕ} (hx : binary32.Finite x) (h : -1 < binary32.val x) (hm : x ≠ 0x7F7FFFFF ∨ md ≠ .up)
    (hc : 41428 / 100000 ≤ binary32.val x ∨ binary32.val x ≤ -(29289 / 100000)) :
    let u := binary32.hadd md 0x3F800000 x
    binary32.heq u 0x3F800000 = false ∧ binary32.Finite (CC.logFloatImpl md u) ∧
      |binary32.val (CC.logFloatImpl md u) - log (1 + binary32.val x)| ≤ (452 / 100 * ruf md) * |log (1 + binary32.val x)| := by
  obtain ⟨u1, hu2, hu⟩ := ruf_bounds md
  obtain ⟨f1, v1⟩ := fval_one32
  have lo := l1p_lo32 h
  have hl := log1p_far h hc
  have R := binary32.hadd_spec md f1 hx
  rw [v1] at R
  have key : binary32.Finite (binary32.hadd md 0x3F800000 x) ∧ |binary32.val (binary32.hadd md 0x3F800000 x) - (1 + binary32.val x)| ≤ ruf md * (1 + binary32.val x) := by
    by_cases hxm : x = 0x7F7FFFFF
    · have hup : md ≠ .up := hm.resolve_left (fun h => h hxm)
      have e : binary32.hadd md 0x3F800000 x = x := by
        rw [hxm]; cases md <;> first | exact absurd rfl hup | decide +kernel
      rw [e]
      refine ⟨hx, ?_⟩
      rw [show binary32.val x - (1 + binary32.val x) = -1 by ring, abs_neg, abs_one]
      have : (2 : ℝ) ^ 30 ≤ binary32.val x := by
        have p := pat_le32 (P := 0x4E800000) (Q := x) (by omega) (by omega)
        have q := pat32 (P := 0x4E800000) (by norm_num) (by norm_num)
        rw [q.2] at p
        norm_num at p ⊢
        linarith
      have := mul_le_mul u1 this (by norm_num) hu.le
      norm_num at this; linarith
    · have hle : 1 + binary32.val x ≤ binary32.maxFin := by
        rcases le_or_gt (binary32.val x) 1 with h1 | h1
        · refine le_trans ?_ bigf_le
          have : (2 : ℝ) ^ (1 : ℤ) ≤ 2 ^ (110 : ℤ) := zpow_le_zpow_right₀ (by norm_num) (by norm_num)
          rw [zpow_one] at this
          exact le_trans (by linarith) this
        · obtain ⟨p0, p1⟩ := pos_pat32 hx (by linarith)
          have p := pat_le32 (P := x) (Q := 0x7F7FFFFE) (by omega) (by norm_num)
          have q := pat32 (P := 0x7F7FFFFE) (by norm_num) (by norm_num)
          rw [q.2] at p
          have h2 := binary32.maxFin_add
          have e1 : ((binary32.bias : ℤ) + 1) = 128 := by decide
          have e2 : ((binary32.bias : ℤ) - binary32.F) = 104 := by decide
          rw [e1, e2, show (128 : ℤ) = 104 + 24 by norm_num, zpow_add₀ (by norm_num)] at h2
          have h3 : (1 : ℝ) ≤ 2 ^ (104 : ℤ) := one_le_zpow₀ (by norm_num) (by norm_num)
          have e3 : (((0x7F7FFFFE / 2 ^ 23 : ℕ) : ℤ) - 150) = 104 := by norm_num
          rw [e3] at p
          generalize (2 : ℝ) ^ (104 : ℤ) = G at *
          norm_num at p h2
          linarith
      have := rel_err R (by
        rw [abs_of_pos (by norm_num at lo; linarith)]
        have e : binary32.minNormal = (2 : ℝ) ^ (-126 : ℤ) := rfl
        have e2 : (2 : ℝ) ^ (-126 : ℤ) ≤ 2 ^ (-24 : ℤ) := zpow_le_zpow_right₀ (by norm_num) (by norm_num)
        rw [e]
        refine e2.trans ?_
        norm_num at lo ⊢; linarith) (by rw [abs_of_pos (by norm_num at lo; linarith)]; exact hle)
      rw [fu32, abs_of_pos (show 0 < 1 + binary32.val x by norm_num at lo; linarith)] at this
      exact this
  obtain ⟨fu, eu⟩ := key
  dsimp only
  generalize binary32.hadd md 0x3F800000 x = u at *
  generalize hX : binary32.val x = X at *
  have p1 : 0 < 1 + X := by linarith
  have eu2 : |binary32.val u - (1 + X)| ≤ 1 / 2 ^ 23 * (1 + X) := eu.trans (mul_le_mul_of_nonneg_right hu2 p1.le)
  have eu3 := abs_le.1 eu2
  have pU : 0 < binary32.val u := by
    norm_num at eu3; linarith [eu3.1]
  refine ⟨?_, (logFloatImpl_err md fu pU).1, ?_⟩
  · rw [Bool.eq_false_iff, ne_eq, CC.heq_finite binary32 fu f1, v1]
    intro hE
    rw [hE] at eu3
    norm_num at eu3
    rcases hc with hc | hc <;> norm_num at hc <;> linarith [eu3.1, eu3.2]
  · refine (log_round p1 hu.le (hu2.trans (by norm_num)) eu rfl hl (by norm_num) (by norm_num) (logFloatImpl_err md fu pU).2).trans ?_
    refine mul_le_mul_of_nonneg_right ?_ (abs_nonneg _)
    linarith

theorem hgt_finite32 {x y : ℕ} (hx : binary32.Finite x) (hy : binary32.Finite y) : binary32.hgt x y = true ↔ binary32.val y < binary32.val x :=
  CC.hlt_finite binary32 hy hx

theorem fval_l1pf : (binary32.Finite 0x3ED41D08 ∧ binary32.val 0x3ED41D08 = 13901064 / 2 ^ 25) ∧
    (binary32.Finite 0xBE95F612 ∧ binary32.val 0xBE95F612 = -(9827858 / 2 ^ 25)) := by
  refine ⟨⟨by decide +kernel, ?_⟩, ⟨by decide +kernel, ?_⟩⟩
  · rw [lit32 false 13901064 25 (by decide +kernel) (by decide +kernel) (by decide +kernel) (by decide +kernel)]
    norm_num [sg]
  · rw [lit32 true 9827858 25 (by decide +kernel) (by decide +kernel) (by decide +kernel) (by decide +kernel)]
    norm_num [sg]

/-- the float kernel of log1p -/
theorem log1pFloatImpl_err (md : Mode) {x : ℕ} (hx : binary32.Finite x) (h : -1 < binary32.val x) (hm : x ≠ 0x7F7FFFFF ∨ md ≠ .up) :
    let X := binary32.val x
    let r := CC.log1pFloatImpl md x
    binary32.Finite r ∧
      (binary32.val 0xBE95F612 ≤ X → X ≤ binary32.val 0x3ED41D08 → |binary32.val r - log (1 + X)| ≤ 134 / 100 * ruf md * |log (1 + X)|) ∧
      |binary32.val r - log (1 + X)| ≤ 452 / 100 * ruf md * |log (1 + X)| := by
  obtain ⟨hu1, hu2, hu⟩ := ruf_bounds md
  obtain ⟨⟨fa, va⟩, ⟨fb, vb⟩⟩ := fval_l1pf
  dsimp only
  unfold CC.log1pFloatImpl
  have weak : 134 / 100 * ruf md * |log (1 + binary32.val x)| ≤ 452 / 100 * ruf md * |log (1 + binary32.val x)| :=
    mul_le_mul_of_nonneg_right (by linarith) (abs_nonneg _)
  by_cases hc : binary32.val 0x3ED41D08 < binary32.val x ∨ binary32.val x < binary32.val 0xBE95F612
  · rw [if_pos (by
      rw [Bool.or_eq_true, hgt_finite32 hx fa, CC.hlt_finite binary32 hx fb]; exact hc)]
    dsimp only
    obtain ⟨a, b, c⟩ := l1pf_outer md hx h hm (by
      rw [va, vb] at hc
      refine hc.imp (fun h => ?_) (fun h => ?_) <;> norm_num at h ⊢ <;> linarith)
    rw [a]
    simp only [Bool.false_eq_true, if_false]
    refine ⟨b, fun h1 h2 => ?_, c⟩
    exfalso
    rcases hc with hc | hc <;> linarith
  · rw [if_neg (by
      rw [Bool.or_eq_true, hgt_finite32 hx fa, CC.hlt_finite binary32 hx fb]; exact hc)]
    have hc1 := not_lt.1 (not_or.1 hc).1
    have hc2 := not_lt.1 (not_or.1 hc).2
    have fin : ∀ r, (binary32.Finite r ∧ |binary32.val r - log (1 + binary32.val x)| ≤ 134 / 100 * ruf md * |log (1 + binary32.val x)|) →
      binary32.Finite r ∧
      (binary32.val 0xBE95F612 ≤ binary32.val x → binary32.val x ≤ binary32.val 0x3ED41D08 → |binary32.val r - log (1 + binary32.val x)| ≤ 134 / 100 * ruf md * |log (1 + binary32.val x)|) ∧
      |binary32.val r - log (1 + binary32.val x)| ≤ 452 / 100 * ruf md * |log (1 + binary32.val x)| :=
      fun r hr => ⟨hr.1, fun _ _ => hr.2, hr.2.trans weak⟩
    have tiny : |binary32.val x| ≤ 1 / 2 ^ 24 → binary32.Finite x ∧ |binary32.val x - log (1 + binary32.val x)| ≤ 134 / 100 * ruf md * |log (1 + binary32.val x)| := by
      intro ht
      refine ⟨hx, (l1p_tiny' (le_refl _) ht).trans (mul_le_mul_of_nonneg_right ?_ (abs_nonneg _))⟩
      norm_num at *; linarith
    have inner := fun a b c => (l1pf_inner md hx (X := binary32.val x) rfl a b c).imp_right (fun h => h.trans (mul_le_mul_of_nonneg_right (show _ ≤ 134 / 100 * ruf md by linarith) (abs_nonneg _)))
    have tval : ∀ m : ℕ, m < 2 ^ 31 → m < 0x33800000 → binary32.val m ≤ 1 / 2 ^ 24 := by
      intro m hm hm2
      have p := pat_le32 (P := m) (Q := 0x33800000) (by omega) (by norm_num)
      have q := pat32 (P := 0x33800000) (by norm_num) (by norm_num)
      rw [q.2] at p
      norm_num at p ⊢; linarith
    have tval2 : ∀ m : ℕ, m < 2 ^ 31 → ¬ m < 0x33800000 → 1 / 2 ^ 25 ≤ binary32.val m := by
      intro m hm hm2
      have p := pat_le32 (P := 0x33800000) (Q := m) (by omega) hm
      have q := pat32 (P := 0x33800000) (by norm_num) (by norm_num)
      rw [q.2] at p
      norm_num at p ⊢; linarith
    have k1 := hc1
    have k2 := hc2
    rw [binary32.val_le_iff_key, show binary32.key 0x3ED41D08 = 0x3ED41D08 by decide] at k1
    rw [binary32.val_le_iff_key, show binary32.key 0xBE95F612 = -0x3E95F612 by decide] at k2
    rw [va] at hc1
    rw [vb] at hc2
    norm_num at hc1 hc2
    have sh1 : x <<< 1 % 2 ^ 32 < 0x33800000 <<< 1 % 2 ^ 32 ↔ x % 2 ^ 31 < 0x33800000 := by
      have := hx.1
      change x < 2 ^ 32 at this
      rw [Nat.shiftLeft_eq]
      norm_num
      omega
    have sh2 : x >>> 31 = x / 2 ^ 31 := Nat.shiftRight_eq_div_pow _ _
    have v0 : binary32.val 0 = 0 := (binary32.val_eq_zero_iff _).2 (by decide +kernel)
    have pos : ∀ m < 2 ^ 31, 0 ≤ binary32.val m := fun m hm => by
      have := pat_le32 (Nat.zero_le m) hm
      rwa [v0] at this
    rcases key32 hx with ⟨hx63, hk⟩ | ⟨hx63, hx64, hk⟩
    · rw [hk] at k1 k2
      have hxm : x % 2 ^ 31 = x := by omega
      rw [hxm] at sh1
      by_cases h1 : x < 0x3ed413d0
      · rw [if_pos (by rw [Bool.or_eq_true, decide_eq_true_eq, decide_eq_true_eq]; left; exact h1), if_neg (by omega)]
        by_cases h2 : x < 0x33800000
        · rw [if_pos (sh1.2 h2)]
          refine fin x (tiny ?_)
          rw [abs_of_nonneg (pos x hx63)]
          exact tval x hx63 h2
        · rw [if_neg (fun h => h2 (sh1.1 h)), if_pos (by omega)]
          have := tval2 x hx63 h2
          exact fin _ (inner (this.trans (le_abs_self _)) (by linarith) (by linarith))
      · rw [if_neg (by rw [Bool.or_eq_true, decide_eq_true_eq, decide_eq_true_eq, sh2]; omega), if_neg (by omega)]
        obtain ⟨a, b⟩ := l1pf_reduced md (x := x) (by omega) (by omega)
        generalize CC.log1pRedf md x = t at a b ⊢
        obtain ⟨k, f, c⟩ := t
        dsimp only at a b ⊢
        generalize CC.log1pKernelf md k f c = r at a b ⊢
        exact ⟨a, fun _ _ => b, b.trans weak⟩
    · rw [hk] at k1 k2
      have hv : binary32.val x = -binary32.val (x % 2 ^ 31) := by
        have := CC.val_mag binary32 x
        have e := CC.val_eq_sg_abs binary32 x
        rw [show binary32.sgn x = true by rw [show binary32.sgn x = decide (2 ^ 31 ≤ x) from rfl]; simpa using hx63] at e
        rw [show x % 2 ^ 31 = binary32.mag x from rfl, this, e]
        simp [sg]
      have hm63 : x % 2 ^ 31 < 2 ^ 31 := Nat.mod_lt _ (by norm_num)
      rw [if_pos (by rw [Bool.or_eq_true, decide_eq_true_eq, decide_eq_true_eq, sh2]; omega), if_neg (by omega)]
      by_cases h2 : x % 2 ^ 31 < 0x33800000
      · rw [if_pos (sh1.2 h2)]
        refine fin x (tiny ?_)
        rw [hv, abs_neg, abs_of_nonneg (pos _ hm63)]
        exact tval _ hm63 h2
      · rw [if_neg (fun h => h2 (sh1.1 h)), if_pos (by omega)]
        have := tval2 _ hm63 h2
        exact fin _ (inner (by rw [hv, abs_neg]; exact this.trans (le_abs_self _)) (by linarith) (by linarith))

end Verif
