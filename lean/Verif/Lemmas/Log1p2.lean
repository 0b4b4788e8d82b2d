import Verif.Lemmas.Log1p1

/-!
# log1p of double: rounding errors of the kernel
-/

namespace Verif
open Fmt Real

theorem fval_two64 : binary64.Finite 0x4000000000000000 ∧ binary64.val 0x4000000000000000 = 2 := by
  refine ⟨by decide +kernel, ?_⟩
  rw [lit64 false 4503599627370496 51 (by decide +kernel) (by decide +kernel) (by decide +kernel) (by decide +kernel)]
  norm_num [sg]

/-- the quotient `f / (2 + f)` -/
theorem l1p_s (md : Mode) {f : ℕ} (hf : binary64.Finite f) {F a : ℝ} (hF : binary64.val f = F) (ha : |F| = a) (h0 : 1 / 2 ^ 60 ≤ a) (h1 : -(29290 / 100000) ≤ F) (h2 : F ≤ 41429 / 100000) :
    Ap md (binary64.hdiv md f (binary64.hadd md 0x4000000000000000 f)) (F / (2 + F)) (586 / 1000 * a) (118 / 100 * a) ∧ |F / (2 + F)| ≤ 172 / 1000 := by
  have hu := ru_pos md
  have hu1 := ru_ge md
  have hu2 := ru_le md
  have he := eta_le
  obtain ⟨f2, v2⟩ := fval_two64
  have hp : 17071 / 10000 ≤ 2 + F := by linarith
  obtain ⟨ft, et⟩ := add64_err md f2 hf (by rw [v2, hF, abs_of_pos (by linarith)]; norm_num; linarith)
  rw [v2, hF] at et
  generalize binary64.hadd md 0x4000000000000000 f = t at *
  set T := binary64.val t with hT
  rw [abs_of_pos (show 0 < 2 + F by linarith)] at et
  have et' : |T - (2 + F)| ≤ ru md * (2 + F) * (1 + 1 / 2 ^ 100) := by
    refine et.trans ?_
    have : 1 / 2 ^ 53 * (17071 / 10000) ≤ ru md * (2 + F) := mul_le_mul hu1 hp (by norm_num) hu.le
    norm_num at this he ⊢
    linarith
  have lT : 17070 / 10000 ≤ T := by
    have k1 := mul_le_mul_of_nonneg_right hu2 (show 0 ≤ 2 + F by linarith)
    have k2 := (abs_le.1 et').1
    norm_num at k1 k2 ⊢
    linarith
  have R := binary64.hdiv_spec md hf ft (by linarith)
  rw [hF, ← hT] at R
  have bq : |F / T| ≤ 5859 / 10000 * a := by
    rw [abs_div, ha, abs_of_pos (by linarith), div_le_iff₀ (by linarith)]
    have := mul_le_mul_of_nonneg_left lT (show 0 ≤ 5859 / 10000 * a by norm_num at h0; linarith)
    norm_num at h0
    linarith
  have ha4 : a ≤ 1 := by rw [← ha, abs_le]; constructor <;> linarith
  obtain ⟨fs, es⟩ := err64 R (by refine bq.trans ?_; norm_num; linarith)
  have d : |F / T - F / (2 + F)| ≤ ru md * (5860 / 10000 * a) := by
    have e : F / T - F / (2 + F) = F / T * ((2 + F - T) / (2 + F)) := by
      have : T ≠ 0 := by linarith
      have : 2 + F ≠ 0 := by linarith
      field_simp
    have k : |(2 + F - T) / (2 + F)| ≤ ru md * (1 + 1 / 2 ^ 100) := by
      rw [abs_div, abs_of_pos (show 0 < 2 + F by linarith), div_le_iff₀ (by linarith), abs_sub_comm]
      linarith
    rw [e]
    refine (abs_mul_le bq k).trans ?_
    have : 5859 / 10000 * a * (ru md * (1 + 1 / 2 ^ 100)) = ru md * (5859 / 10000 * (1 + 1 / 2 ^ 100) * a) := by ring
    rw [this]
    refine mul_le_mul_of_nonneg_left (mul_le_mul_of_nonneg_right (by norm_num) (by rw [← ha]; exact abs_nonneg _)) hu.le
  refine ⟨⟨fs, ?_, ?_⟩, ?_⟩
  · refine (abs_tri es d).trans ?_
    have k1 := mul_le_mul_of_nonneg_left bq hu.le
    have k2 : eta ≤ ru md * (1 / 1000 * a) := by
      have := mul_le_mul_of_nonneg_right hu1 (show 0 ≤ 1 / 1000 * a by norm_num at h0 ⊢; linarith)
      norm_num at this he h0 ⊢
      linarith
    have k3 : 0 ≤ ru md * a := by rw [← ha]; positivity
    linarith
  · rw [abs_div, ha, abs_of_pos (show 0 < 2 + F by linarith), div_le_iff₀ (by linarith)]
    have := mul_le_mul_of_nonneg_left hp (show 0 ≤ 586 / 1000 * a by norm_num at h0; linarith)
    norm_num at h0
    linarith
  · rw [abs_le]
    constructor
    · rw [le_div_iff₀ (by linarith)]; linarith
    · rw [div_le_iff₀ (by linarith)]; linarith

/-- the correction term `s * (hfsq + r)` and the square `hfsq` -/
theorem l1p_core (md : Mode) {f : ℕ} (hf : binary64.Finite f) {F a : ℝ} (hF : binary64.val f = F) (ha : |F| = a) (h0 : 1 / 2 ^ 60 ≤ a) (h1 : -(29290 / 100000) ≤ F) (h2 : F ≤ 41429 / 100000) :
    let mul := binary64.hmul md
    let add := binary64.hadd md
    let s := binary64.hdiv md f (add 0x4000000000000000 f)
    let z := mul s s
    let w := mul z z
    let t1 := mul w (add CC.l1pD2 (mul w (add CC.l1pD4 (mul w CC.l1pD6))))
    let t2 := mul z (add CC.l1pD1 (mul w (add CC.l1pD3 (mul w (add CC.l1pD5 (mul w CC.l1pD7))))))
    let r := add t2 t1
    let hfsq := mul (mul 0x3FE0000000000000 f) f
    let S := F / (2 + F)
    Ap md hfsq (F * F / 2) (20715 / 100000 * a) (20716 / 100000 * a) ∧
      Ap md (mul s (add hfsq r)) (S * (F * F / 2 + l1pP (S * S))) (626 / 10000 * a) (42 / 100 * a) := by
  obtain ⟨As, hs⟩ := l1p_s md hf hF ha h0 h1 h2
  have ha4 : a ≤ 41429 / 100000 := by rw [← ha, abs_le]; constructor <;> linarith
  obtain ⟨fh, vh⟩ := fval_half64
  have Af : Ap md f F a 0 := Ap.ofVal hf hF ha.le
  dsimp only
  generalize binary64.hdiv md f (binary64.hadd md 0x4000000000000000 f) = s at *
  generalize hSdef : F / (2 + F) = S at *
  norm_num at h0
  have Asc : Ap md s S (172 / 1000) (49 / 100) := ⟨As.1, (As.mono le_rfl (show _ ≤ (49 / 100 : ℝ) by linarith)).2.1, hs⟩
  -- half the square
  have Ah : Ap md (binary64.hmul md 0x3FE0000000000000 f) (F / 2) (a / 2) 0 := by
    have R := binary64.hmul_spec md fh hf
    have e := binary64.scale_exact (x := f) (k := -1) (Or.inr (by
      rw [hF, abs_mul, ha]
      have : binary64.minNormal = (2 : ℝ) ^ (-1022 : ℤ) := rfl
      rw [this, show |(2 : ℝ) ^ (-1 : ℤ)| = 1 / 2 by rw [abs_of_pos (by positivity)]; norm_num]
      have : (2 : ℝ) ^ (-1022 : ℤ) ≤ 2 ^ (-100 : ℤ) := zpow_le_zpow_right₀ (by norm_num) (by norm_num)
      have e2 : (2 : ℝ) ^ (-100 : ℤ) = 1 / 2 ^ 100 := by norm_num
      rw [e2] at this
      norm_num at this ⊢
      linarith)) (by
      rw [hF, abs_mul, ha, show |(2 : ℝ) ^ (-1 : ℤ)| = 1 / 2 by rw [abs_of_pos (by positivity)]; norm_num]
      have : (2 : ℝ) ^ (1 : ℤ) ≤ (2 : ℝ) ^ ((binary64.bias : ℤ) + 1) := zpow_le_zpow_right₀ (by norm_num) (by decide)
      norm_num at this ⊢
      linarith)
    obtain ⟨b, hb, hvb, -⟩ := e
    have hb2 : binary64.val b = binary64.val 0x3FE0000000000000 * binary64.val f := by rw [hvb, vh]; norm_num; ring
    obtain ⟨f3, v3⟩ := RoundsTo.exact_of R ⟨b, hb, hb2⟩
    exact Ap.ofVal f3 (by rw [v3, vh, hF]; ring) (by rw [abs_div, ha]; norm_num)
  have Afc : Ap md f F (41429 / 100000) 0 := Af.mono ha4 le_rfl
  have Aq := (Ah.mul Afc (B := 20715 / 100000 * a) (e := 20716 / 100000 * a) (by linarith) (by norm_num; linarith) (by norm_num; linarith)).congr (show F / 2 * F = F * F / 2 by ring)
  refine ⟨Aq, ?_⟩
  have Aqc : Ap md _ _ (859 / 10000) (859 / 10000) := Aq.mono (by linarith) (by linarith)
  generalize binary64.hmul md (binary64.hmul md 0x3FE0000000000000 f) f = q at *
  clear Ah Afc Af Aq
  obtain ⟨f1, v1⟩ := val_l1pD1
  obtain ⟨f2', v2⟩ := val_l1pD2
  obtain ⟨f3, v3⟩ := val_l1pD3
  obtain ⟨f4, v4⟩ := val_l1pD4
  obtain ⟨f5, v5⟩ := val_l1pD5
  obtain ⟨f6, v6⟩ := val_l1pD6
  obtain ⟨f7, v7⟩ := val_l1pD7
  have A1 : Ap md CC.l1pD1 _ (667 / 1000) 0 := Ap.ofVal f1 v1 (by rw [abs_le]; constructor <;> norm_num)
  have A2 : Ap md CC.l1pD2 _ (4 / 10) 0 := Ap.ofVal f2' v2 (by rw [abs_le]; constructor <;> norm_num)
  have A3 : Ap md CC.l1pD3 _ (286 / 1000) 0 := Ap.ofVal f3 v3 (by rw [abs_le]; constructor <;> norm_num)
  have A4 : Ap md CC.l1pD4 _ (223 / 1000) 0 := Ap.ofVal f4 v4 (by rw [abs_le]; constructor <;> norm_num)
  have A5 : Ap md CC.l1pD5 _ (182 / 1000) 0 := Ap.ofVal f5 v5 (by rw [abs_le]; constructor <;> norm_num)
  have A6 : Ap md CC.l1pD6 _ (154 / 1000) 0 := Ap.ofVal f6 v6 (by rw [abs_le]; constructor <;> norm_num)
  have A7 : Ap md CC.l1pD7 _ (134 / 1000) 0 := Ap.ofVal f7 v7 (by rw [abs_le]; constructor <;> norm_num)
  have Az := Asc.mul Asc (B := 29584 / 1000000) (e := 199 / 1000) (by norm_num) (by norm_num) (by norm_num)
  have Aw := Az.mul Az (B := 876 / 1000000) (e := 13 / 1000) (by norm_num) (by norm_num) (by norm_num)
  generalize binary64.hmul md s s = z at *
  generalize binary64.hmul md z z = w at *
  have B6 := Aw.mul A6 (B := 2 / 10000) (e := 3 / 1000) (by norm_num) (by norm_num) (by norm_num)
  have C4 := A4.add B6 (S := 224 / 1000) (B := 224 / 1000) (e := 23 / 100) ((abs_add_le' A4.bd B6.bd).trans (by norm_num)) le_rfl (by norm_num) (by norm_num)
  have B4 := Aw.mul C4 (B := 2 / 10000) (e := 4 / 1000) (by norm_num) (by norm_num) (by norm_num)
  have C2 := A2.add B4 (S := 402 / 1000) (B := 402 / 1000) (e := 41 / 100) ((abs_add_le' A2.bd B4.bd).trans (by norm_num)) le_rfl (by norm_num) (by norm_num)
  have T1 := Aw.mul C2 (B := 36 / 100000) (e := 7 / 1000) (by norm_num) (by norm_num) (by norm_num)
  have B7 := Aw.mul A7 (B := 2 / 10000) (e := 3 / 1000) (by norm_num) (by norm_num) (by norm_num)
  have C5 := A5.add B7 (S := 183 / 1000) (B := 183 / 1000) (e := 19 / 100) ((abs_add_le' A5.bd B7.bd).trans (by norm_num)) le_rfl (by norm_num) (by norm_num)
  have B5 := Aw.mul C5 (B := 2 / 10000) (e := 3 / 1000) (by norm_num) (by norm_num) (by norm_num)
  have C3 := A3.add B5 (S := 287 / 1000) (B := 287 / 1000) (e := 3 / 10) ((abs_add_le' A3.bd B5.bd).trans (by norm_num)) le_rfl (by norm_num) (by norm_num)
  have B3 := Aw.mul C3 (B := 3 / 10000) (e := 5 / 1000) (by norm_num) (by norm_num) (by norm_num)
  have C1 := A1.add B3 (S := 668 / 1000) (B := 668 / 1000) (e := 674 / 1000) ((abs_add_le' A1.bd B3.bd).trans (by norm_num)) le_rfl (by norm_num) (by norm_num)
  have T2 := Az.mul C1 (B := 199 / 10000) (e := 173 / 1000) (by norm_num) (by norm_num) (by norm_num)
  have Ar := T2.add T1 (S := 203 / 10000) (B := 203 / 10000) (e := 201 / 1000) ((abs_add_le' T2.bd T1.bd).trans (by norm_num)) le_rfl (by norm_num) (by norm_num)
  have Am := Aqc.add Ar (S := 1062 / 10000) (B := 1062 / 10000) (e := 394 / 1000) ((abs_add_le' Aqc.bd Ar.bd).trans (by norm_num)) le_rfl (by norm_num) (by norm_num)
  have Ax := As.mul Am (B := 626 / 10000 * a) (e := 42 / 100 * a) (by linarith) (by norm_num; linarith) (by norm_num; linarith)
  refine Ax.congr ?_
  unfold l1pP
  ring

/-- adding a zero is exact -/
theorem hadd_zero64 (md : Mode) {x y : ℕ} (hx : binary64.Finite x) (hy : binary64.Finite y) (h0 : binary64.val y = 0) :
    binary64.Finite (binary64.hadd md x y) ∧ binary64.val (binary64.hadd md x y) = binary64.val x := by
  have R := binary64.hadd_spec md hx hy
  rw [h0, add_zero] at R
  exact RoundsTo.exact_of R ⟨x, hx, rfl⟩

theorem l1pP_nonneg {Z : ℝ} (h : 0 ≤ Z) : 0 ≤ l1pP Z := by
  unfold l1pP; positivity

/-- the sum `s (hfsq + r) - hfsq` -/
theorem l1p_diff {F S a : ℝ} (hS : S = F / (2 + F)) (ha : |F| = a) (h1 : -(29290 / 100000) ≤ F) (h2 : F ≤ 41429 / 100000) (hb : |S * (F * F / 2 + l1pP (S * S))| ≤ 626 / 10000 * a) :
    |S * (F * F / 2 + l1pP (S * S)) - F * F / 2| ≤ 210 / 1000 * a := by
  have hP := l1pP_nonneg (mul_self_nonneg S)
  have hb' := abs_le.1 hb
  rcases le_total 0 F with h | h
  · rw [abs_of_nonneg h] at ha
    subst ha
    have hS0 : 0 ≤ S := by rw [hS]; exact div_nonneg h (by linarith)
    have : 0 ≤ S * (F * F / 2 + l1pP (S * S)) := mul_nonneg hS0 (by nlinarith)
    rw [abs_le]; constructor <;> nlinarith
  · rw [abs_of_nonpos h] at ha
    subst ha
    rw [abs_le]; constructor <;> nlinarith

/-- the kernel without reduction -/
theorem l1p_kernel0 (md : Mode) {f : ℕ} (hf : binary64.Finite f) {F a : ℝ} (hF : binary64.val f = F) (ha : |F| = a) (h0 : 1 / 2 ^ 60 ≤ a) (h1 : -(29290 / 100000) ≤ F) (h2 : F ≤ 41429 / 100000) :
    let S := F / (2 + F)
    let V := F - F * F / 2 + S * (F * F / 2 + l1pP (S * S))
    binary64.Finite (CC.log1pKernel md 0 f 0) ∧ |binary64.val (CC.log1pKernel md 0 f 0) - V| ≤ ru md * (|V| + 84 / 100 * a) := by
  have hu := ru_pos md
  have hu1 := ru_ge md
  have hu2 := ru_le md
  have ha4 : a ≤ 41429 / 100000 := by rw [← ha, abs_le]; constructor <;> linarith
  obtain ⟨Aq, Ax⟩ := l1p_core md hf hF ha h0 h1 h2
  have Af : Ap md f F a 0 := Ap.ofVal hf hF ha.le
  dsimp only at Aq Ax ⊢
  have hd := l1p_diff rfl ha h1 h2 Ax.bd
  unfold CC.log1pKernel
  dsimp only
  have z1 : binary64.ofInt md 0 = 0 := by cases md <;> decide +kernel
  have z2 : binary64.hadd md (binary64.hmul md 0 CC.logLn2lo) 0 = 0 := by cases md <;> decide +kernel
  have z3 : binary64.hmul md 0 CC.logLn2hi = 0 := by cases md <;> decide +kernel
  have f0 : binary64.Finite 0 := by decide +kernel
  have v0 : binary64.val 0 = 0 := (binary64.val_eq_zero_iff _).2 (by decide +kernel)
  rw [z1, z2, z3]
  generalize binary64.hmul md (binary64.hdiv md f _) _ = x at *
  generalize binary64.hmul md (binary64.hmul md 0x3FE0000000000000 f) f = q at *
  generalize F / (2 + F) = S at *
  obtain ⟨fx, vx⟩ := hadd_zero64 md Ax.1 f0 v0
  have Ax' : Ap md (binary64.hadd md x 0) _ _ _ := ⟨fx, by rw [vx]; exact Ax.err, Ax.bd⟩
  generalize binary64.hadd md x 0 = x' at *
  norm_num at h0
  have Ad := Ax'.sub Aq (S := 210 / 1000 * a) (B := 210 / 1000 * a) (e := 839 / 1000 * a) hd le_rfl (by norm_num; linarith) (by norm_num; linarith)
  generalize binary64.hsub md x' q = d at *
  generalize S * (F * F / 2 + l1pP (S * S)) = X at *
  obtain ⟨fd, ed, bd⟩ := Ad
  have bdv := abs_near ed bd
  have k5 := mul_le_mul_of_nonneg_right hu2 (show (0 : ℝ) ≤ 839 / 1000 * a by linarith)
  obtain ⟨fr, er⟩ := add64_err md fd hf (by rw [hF]; refine (abs_add_le' bdv ha.le).trans ?_; norm_num at k5 ⊢; linarith)
  obtain ⟨fr', vr'⟩ := hadd_zero64 md fr f0 v0
  refine ⟨fr', ?_⟩
  rw [vr']
  rw [hF] at er
  generalize binary64.val (binary64.hadd md d f) = res at *
  have e2 : |binary64.val d + F - (F - F * F / 2 + X)| ≤ ru md * (839 / 1000 * a) := by
    rw [show binary64.val d + F - (F - F * F / 2 + X) = binary64.val d - (X - F * F / 2) by ring]; exact ed
  generalize F - F * F / 2 + X = V at *
  refine (abs_tri er e2).trans ?_
  have e3 := mul_le_mul_of_nonneg_left (abs_near e2 (le_refl |V|)) hu.le
  have he := eta_le
  have k1 : eta ≤ ru md * (1 / 10000 * a) := by
    have := mul_le_mul_of_nonneg_right hu1 (show (0 : ℝ) ≤ 1 / 10000 * a by linarith)
    norm_num at this he ⊢
    linarith
  have k2 : ru md * (ru md * (839 / 1000 * a)) ≤ ru md * (1 / 10000 * a) := by
    refine mul_le_mul_of_nonneg_left (k5.trans ?_) hu.le
    norm_num; linarith
  have k3 : 0 ≤ ru md * a := by rw [← ha]; positivity
  linarith

end Verif
