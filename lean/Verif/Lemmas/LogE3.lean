import Verif.Lemmas.LogE2

/-!
# The branch of the double base-2 logarithm near 1: rounding errors of the evaluation
-/

namespace Verif
open Fmt Real

/-- the higher coefficients of the polynomial of the branch near 1 -/
theorem log2Near_poly (md : Mode) {r r2 r4 : ℕ} {R : ℝ} (Ar : Ap md r R (1 / 22) 0) (Ar2 : Ap md r2 (R * R) (21 / 10000) (21 / 10000))
    (Ar4 : Ap md r4 (R * R * (R * R)) (5 / 10 ^ 6) (2 / 10 ^ 5)) :
    let mul := binary64.hmul md
    let add := binary64.hadd md
    ∃ S : ℝ, Ap md (add (add (add CC.log2P2 (mul r CC.log2P3)) (mul r2 (add CC.log2P4 (mul r CC.log2P5))))
      (mul r4 (add (add CC.log2P6 (mul r CC.log2P7)) (mul r2 (add CC.log2P8 (mul r CC.log2P9)))))) S (40 / 100) 2 ∧
      R * log2PP R = R * (109006955297540689852369 / 2 ^ 76) + R * R * (-3248660424278399 / 2 ^ 52 + R * (8663094464742391 / 2 ^ 54)) + R * R * (R * R) * S := by
  obtain ⟨f2, v2⟩ := val_log2P2
  obtain ⟨f3, v3⟩ := val_log2P3
  obtain ⟨f4, v4⟩ := val_log2P4
  obtain ⟨f5, v5⟩ := val_log2P5
  obtain ⟨f6, v6⟩ := val_log2P6
  obtain ⟨f7, v7⟩ := val_log2P7
  obtain ⟨f8, v8⟩ := val_log2P8
  obtain ⟨f9, v9⟩ := val_log2P9
  have A2 : Ap md CC.log2P2 _ (361 / 1000) 0 := Ap.ofVal f2 v2 (by rw [abs_le]; constructor <;> norm_num)
  have A3 : Ap md CC.log2P3 _ (289 / 1000) 0 := Ap.ofVal f3 v3 (by rw [abs_le]; constructor <;> norm_num)
  have A4 : Ap md CC.log2P4 _ (241 / 1000) 0 := Ap.ofVal f4 v4 (by rw [abs_le]; constructor <;> norm_num)
  have A5 : Ap md CC.log2P5 _ (207 / 1000) 0 := Ap.ofVal f5 v5 (by rw [abs_le]; constructor <;> norm_num)
  have A6 : Ap md CC.log2P6 _ (181 / 1000) 0 := Ap.ofVal f6 v6 (by rw [abs_le]; constructor <;> norm_num)
  have A7 : Ap md CC.log2P7 _ (161 / 1000) 0 := Ap.ofVal f7 v7 (by rw [abs_le]; constructor <;> norm_num)
  have A8 : Ap md CC.log2P8 _ (145 / 1000) 0 := Ap.ofVal f8 v8 (by rw [abs_le]; constructor <;> norm_num)
  have A9 : Ap md CC.log2P9 _ (131 / 1000) 0 := Ap.ofVal f9 v9 (by rw [abs_le]; constructor <;> norm_num)
  have B9 := Ar.mul A9 (B := 1 / 100) (e := 1 / 100) (by norm_num) (by norm_num) (by norm_num)
  have C8 := A8.add B9 (S := 16 / 100) (B := 16 / 100) (e := 2 / 10) ((abs_add_le' A8.bd B9.bd).trans (by norm_num)) le_rfl (by norm_num) (by norm_num)
  have D8 := Ar2.mul C8 (B := 1 / 1000) (e := 2 / 1000) (by norm_num) (by norm_num) (by norm_num)
  have B7 := Ar.mul A7 (B := 1 / 100) (e := 1 / 100) (by norm_num) (by norm_num) (by norm_num)
  have C6 := A6.add B7 (S := 20 / 100) (B := 20 / 100) (e := 3 / 10) ((abs_add_le' A6.bd B7.bd).trans (by norm_num)) le_rfl (by norm_num) (by norm_num)
  have C7 := C6.add D8 (S := 21 / 100) (B := 21 / 100) (e := 6 / 10) ((abs_add_le' C6.bd D8.bd).trans (by norm_num)) le_rfl (by norm_num) (by norm_num)
  have D7 := Ar4.mul C7 (B := 1 / 10 ^ 5) (e := 1 / 10 ^ 4) (by norm_num) (by norm_num) (by norm_num)
  have B5 := Ar.mul A5 (B := 1 / 100) (e := 1 / 100) (by norm_num) (by norm_num) (by norm_num)
  have C4 := A4.add B5 (S := 26 / 100) (B := 26 / 100) (e := 3 / 10) ((abs_add_le' A4.bd B5.bd).trans (by norm_num)) le_rfl (by norm_num) (by norm_num)
  have D4 := Ar2.mul C4 (B := 1 / 1000) (e := 2 / 1000) (by norm_num) (by norm_num) (by norm_num)
  have B3 := Ar.mul A3 (B := 14 / 1000) (e := 14 / 1000) (by norm_num) (by norm_num) (by norm_num)
  have C2 := A2.add B3 (S := 376 / 1000) (B := 376 / 1000) (e := 4 / 10) ((abs_add_le' A2.bd B3.bd).trans (by norm_num)) le_rfl (by norm_num) (by norm_num)
  have C3 := C2.add D4 (S := 378 / 1000) (B := 378 / 1000) (e := 8 / 10) ((abs_add_le' C2.bd D4.bd).trans (by norm_num)) le_rfl (by norm_num) (by norm_num)
  have C := C3.add D7 (S := 40 / 100) (B := 40 / 100) (e := 2) ((abs_add_le' C3.bd D7.bd).trans (by norm_num)) le_rfl (by norm_num) (by norm_num)
  refine ⟨_, C, ?_⟩
  unfold log2PP
  ring

/-- the evaluation near 1, from the exact `r = x - 1` -/
theorem log2Near_eval (md : Mode) {r : ℕ} (hr : binary64.Finite r) {a : ℝ} (hR : |binary64.val r| = a) (ha : 1 / 2 ^ 53 ≤ a) (ha2 : a ≤ 1 / 22) :
    let mul := binary64.hmul md
    let add := binary64.hadd md
    let sub := binary64.hsub md
    let rhi := r &&& (2 ^ 64 - 2 ^ 32)
    let rlo := sub r rhi
    let hi := mul rhi CC.log2Inv_hi
    let lo := add (mul rlo CC.log2Inv_hi) (mul r CC.log2Inv_lo)
    let r2 := mul r r
    let r4 := mul r2 r2
    let p := mul r2 (add CC.log2P0 (mul r CC.log2P1))
    let y := add hi p
    let lo := add lo (add (sub hi y) p)
    let lo := add lo (mul r4 (add (add (add CC.log2P2 (mul r CC.log2P3)) (mul r2 (add CC.log2P4 (mul r CC.log2P5))))
      (mul r4 (add (add CC.log2P6 (mul r CC.log2P7)) (mul r2 (add CC.log2P8 (mul r CC.log2P9)))))))
    let res := add y lo
    let V := binary64.val r * log2PP (binary64.val r)
    binary64.Finite res ∧ |binary64.val res - V| ≤ ru md * (|V| + 14 / 100 * a) := by
  have hu := ru_pos md
  have hu1 := ru_ge md
  have hu2 := ru_le md
  obtain ⟨f0, v0⟩ := val_log2P0
  obtain ⟨f1, v1⟩ := val_log2P1
  obtain ⟨fH, vH⟩ := val_log2Inv_hi
  obtain ⟨fL, vL⟩ := val_log2Inv_lo
  obtain ⟨fh, eh, hex⟩ := split32 hr
  obtain ⟨n, E, hn, hnb, hE⟩ := hex (by rw [hR]; refine le_trans ?_ ha; norm_num)
  have Ar : Ap md r (binary64.val r) a 0 := Ap.exact hr hR.le
  have Arc : Ap md r (binary64.val r) (1 / 22) 0 := Ar.mono ha2 le_rfl
  generalize binary64.val r = R at *
  dsimp only
  norm_num at ha
  generalize r &&& (2 ^ 64 - 2 ^ 32) = rh at *
  set H := binary64.val rh with hH
  have eh' : |H - R| ≤ a / 2 ^ 19 := by
    refine eh.trans ?_
    rw [hR]
    have h1 := eta_le
    norm_num at h1 ⊢; linarith
  have eh2 : |R - H| ≤ a / 2 ^ 19 := by rw [abs_sub_comm]; exact eh'
  have bH : |H| ≤ 100001 / 100000 * a := (abs_near eh' Ar.bd).trans (by norm_num; linarith)
  have Ah : Ap md rh H (100001 / 100000 * a) 0 := Ap.exact fh bH
  have A0 : Ap md CC.log2P0 _ (7214 / 10000) 0 := Ap.ofVal f0 v0 (by rw [abs_le]; constructor <;> norm_num)
  have A1 : Ap md CC.log2P1 _ (481 / 1000) 0 := Ap.ofVal f1 v1 (by rw [abs_le]; constructor <;> norm_num)
  have AH : Ap md CC.log2Inv_hi _ (14427 / 10 ^ 4) 0 := Ap.ofVal fH vH (by rw [abs_le]; constructor <;> norm_num)
  have AL : Ap md CC.log2Inv_lo _ (2 / 10 ^ 10) 0 := Ap.ofVal fL vL (by rw [abs_le]; constructor <;> norm_num)
  -- hi is exact
  have bHI : |H * (3098164009 / 2 ^ 31)| ≤ 14428 / 10000 * a :=
    (abs_mul_le bH (show |(3098164009 / 2 ^ 31 : ℝ)| ≤ 14427 / 10000 by rw [abs_le]; constructor <;> norm_num)).trans (by linarith)
  obtain ⟨fhi, vhi⟩ := ex64 (E - 31) (binary64.hmul_spec md fh fH) ⟨n * 3098164009, by
      rw [← hH, vH, hn, zpow_sub₀ (by norm_num)]; push_cast; norm_num; ring⟩ (by omega)
    (by rw [← hH, vH, hn]
        have h1 : |(n : ℝ)| ≤ 2 ^ 21 := by exact_mod_cast hnb.le
        rw [abs_mul, abs_mul, abs_of_pos (show (0 : ℝ) < 2 ^ E by positivity), show E - 31 + 53 = E + 22 by ring, zpow_add₀ (by norm_num)]
        have h2 : |(3098164009 / 2 ^ 31 : ℝ)| ≤ 2 := by rw [abs_le]; constructor <;> norm_num
        calc |(n : ℝ)| * 2 ^ E * |(3098164009 / 2 ^ 31 : ℝ)| ≤ 2 ^ 21 * 2 ^ E * 2 := by gcongr
          _ = 2 ^ E * 2 ^ (22 : ℤ) := by norm_num; ring)
    (by rw [← hH, vH]; refine bHI.trans (by norm_num; linarith))
  rw [← hH, vH] at vhi
  generalize binary64.hmul md rh CC.log2Inv_hi = hi at *
  set J := H * (3098164009 / 2 ^ 31) with hJ
  have Ahi : Ap md hi J (14428 / 10000 * a) 0 := Ap.ofVal fhi vhi bHI
  have Arl := Ar.sub Ah (S := a / 2 ^ 19) (B := a / 2 ^ 19) (e := a / 2 ^ 18) eh2 le_rfl (by norm_num; linarith) (by norm_num; linarith)
  have Am1 := Arl.mul AH (B := a / 2 ^ 18) (e := a / 2 ^ 16) (by linarith) (by norm_num; linarith) (by norm_num; linarith)
  have Am2 := Ar.mul AL (B := a / 2 ^ 30) (e := a / 2 ^ 30) (by norm_num; linarith) (by norm_num; linarith) (by norm_num; linarith)
  have Alo := Am1.add Am2 (S := a / 2 ^ 17) (B := a / 2 ^ 17) (e := a / 2 ^ 15) ((abs_add_le' Am1.bd Am2.bd).trans (by norm_num; linarith)) le_rfl (by norm_num; linarith) (by norm_num; linarith)
  have Ar2 := Arc.mul Arc (B := 21 / 10000) (e := 21 / 10000) (by norm_num) (by norm_num) (by norm_num)
  have Ar2a := Ar.mul Arc (B := 4546 / 100000 * a) (e := 4547 / 100000 * a) (by linarith) (by norm_num; linarith) (by norm_num; linarith)
  have Ar4 := Ar2.mul Ar2 (B := 5 / 10 ^ 6) (e := 2 / 10 ^ 5) (by norm_num) (by norm_num) (by norm_num)
  have Ar4a := Ar2a.mul Ar2 (B := 1 / 10000 * a) (e := 4 / 10000 * a) (by linarith) (by norm_num; linarith) (by norm_num; linarith)
  obtain ⟨S, AS, hS⟩ := log2Near_poly md Arc Ar2 Ar4
  have Az := Ar4a.mul AS (B := 1 / 10000 * a) (e := 5 / 10000 * a) (by linarith) (by norm_num; linarith) (by norm_num; linarith)
  have B1 := Arc.mul A1 (B := 219 / 10000) (e := 219 / 10000) (by norm_num) (by norm_num) (by norm_num)
  have C1 := A0.add B1 (S := 7434 / 10000) (B := 7434 / 10000) (e := 7654 / 10000) ((abs_add_le' A0.bd B1.bd).trans (by norm_num)) le_rfl (by norm_num) (by norm_num)
  have Ap' := Ar2a.mul C1 (B := 339 / 10000 * a) (e := 1025 / 10000 * a) (by linarith) (by norm_num; linarith) (by norm_num; linarith)
  obtain ⟨fp, ep, bp⟩ := Ap'
  clear AS C1 B1 Ar4 Ar4a Ar2 Ar2a Am1 Am2 Arl
  generalize binary64.hmul md (binary64.hmul md r r) (binary64.hadd md CC.log2P0 _) = p at *
  have bpv : |binary64.val p| ≤ 340 / 10000 * a := by
    refine (abs_near ep bp).trans ?_
    have := mul_le_mul_of_nonneg_right hu2 (show (0 : ℝ) ≤ 1025 / 10000 * a by positivity)
    norm_num at this ⊢; linarith
  set P := binary64.val p with hP
  have Apv : Ap md p P (340 / 10000 * a) 0 := Ap.exact fp bpv
  have Ay := Ahi.add Apv (S := 15 / 10 * a) (B := 15 / 10 * a) (e := 16 / 10 * a) ((abs_add_le' Ahi.bd bpv).trans (by norm_num; linarith)) le_rfl (by norm_num; linarith) (by norm_num; linarith)
  obtain ⟨fy, ey, by'⟩ := Ay
  generalize binary64.hadd md hi p = y at *
  set Y := binary64.val y with hY
  have ey' : |Y - (J + P)| ≤ a / 2 ^ 50 := by
    refine ey.trans ?_
    have := mul_le_mul_of_nonneg_right hu2 (show (0 : ℝ) ≤ 16 / 10 * a by positivity)
    norm_num at this ⊢; linarith
  have bY : |Y| ≤ 16 / 10 * a := (abs_near ey' by').trans (by norm_num; linarith)
  have AY : Ap md y Y (16 / 10 * a) 0 := Ap.exact fy bY
  have yn : |-(Y - (J + P))| ≤ a / 2 ^ 50 := by rw [abs_neg]; exact ey'
  have pn : |-P| ≤ 340 / 10000 * a := by rw [abs_neg]; exact bpv
  have As1 := Ahi.sub AY (S := 341 / 10000 * a) (B := 341 / 10000 * a) (e := 342 / 10000 * a)
    (by rw [show J - Y = -(Y - (J + P)) + -P by ring]; exact (abs_add_le' yn pn).trans (by norm_num; linarith)) le_rfl (by norm_num; linarith) (by norm_num; linarith)
  have As2 := As1.add Apv (S := a / 2 ^ 50) (B := a / 2 ^ 50) (e := 343 / 10000 * a)
    (by rw [show J - Y + P = -(Y - (J + P)) by ring]; exact yn) le_rfl (by norm_num; linarith) (by norm_num; linarith)
  have Al2 := Alo.add As2 (S := a / 2 ^ 16) (B := a / 2 ^ 16) (e := 345 / 10000 * a) ((abs_add_le' Alo.bd As2.bd).trans (by norm_num; linarith)) le_rfl (by norm_num; linarith) (by norm_num; linarith)
  have Aq := Al2.add Az (S := 2 / 10000 * a) (B := 2 / 10000 * a) (e := 353 / 10000 * a) ((abs_add_le' Al2.bd Az.bd).trans (by norm_num; linarith)) le_rfl (by norm_num; linarith) (by norm_num; linarith)
  obtain ⟨fq, eq, bq⟩ := Aq
  clear Al2 Az As2 As1 Alo
  generalize binary64.hadd md (binary64.hadd md (binary64.hadd md (binary64.hmul md (binary64.hsub md r rh) CC.log2Inv_hi) (binary64.hmul md r CC.log2Inv_lo)) _) _ = q at *
  have R' := last_add md (q := y) (hi := q) (Q := Y) (V := R * log2PP R) (E1 := 0) (E2 := 1378 / 10000 * a) (E := 14 / 100 * a) fy fq (by rw [← hY]; simp) ?_ (bY.trans (by norm_num; linarith))
    ((abs_near eq bq).trans (by
      have := mul_le_mul_of_nonneg_right hu2 (show (0 : ℝ) ≤ 353 / 10000 * a by positivity)
      norm_num at this ⊢; linarith)) (by norm_num) (by norm_num; linarith) (by norm_num) (by positivity) (by norm_num; linarith)
  · exact ⟨R'.1, R'.2.1⟩
  · have e : Y + binary64.val q - R * log2PP R = (binary64.val q - ((R - H) * (3098164009 / 2 ^ 31) + R * (12657236604881 / 2 ^ 76) + (J - Y + P) + R * R * (R * R) * S))
        + (P - R * R * (-3248660424278399 / 2 ^ 52 + R * (8663094464742391 / 2 ^ 54))) := by
      rw [hS, hJ]; ring
    rw [e, show ru md * (1378 / 10000 * a) = ru md * (353 / 10000 * a) + ru md * (1025 / 10000 * a) by ring]
    exact abs_add_le' eq ep

end Verif
