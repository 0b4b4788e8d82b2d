import Verif.Lemmas.LogD2

/-!
# The branch of the double logarithm near 1: rounding errors of the evaluation
-/

namespace Verif
open Fmt Real

theorem val_two27 : binary64.Finite 0x41A0000000000000 ∧ binary64.val 0x41A0000000000000 = 2 ^ 27 := by
  refine ⟨by decide +kernel, ?_⟩
  have h := bits64 (e := 0x41A - 1) (m := 2 ^ 52) (by norm_num) (by norm_num) (by norm_num)
  norm_num at h
  rw [h.2]
  norm_num

/-- the polynomial `P1 + r P2 + …` of the branch near 1 -/
theorem logNear_poly (md : Mode) {r r2 r3 : ℕ} {R : ℝ} (Ar : Ap md r R (1 / 16) 0) (Ar2 : Ap md r2 (R * R) (1 / 256) (101 / 25600)) (Ar3 : Ap md r3 (R * (R * R)) (1 / 4096) (202 / 409600)) :
    let mul := binary64.hmul md
    let add := binary64.hadd md
    ∃ S : ℝ, Ap md (add (add (add CC.logP1 (mul r CC.logP2)) (mul r2 CC.logP3)) (mul r3 (add (add (add CC.logP4 (mul r CC.logP5)) (mul r2 CC.logP6))
      (mul r3 (add (add (add CC.logP7 (mul r CC.logP8)) (mul r2 CC.logP9)) (mul r3 CC.logP10)))))) S (36 / 100) (11 / 10) ∧
      R * logPP R = R - R * R / 2 + R * (R * R) * S := by
  obtain ⟨f1, v1⟩ := val_logP1
  obtain ⟨f2, v2⟩ := val_logP2
  obtain ⟨f3, v3⟩ := val_logP3
  obtain ⟨f4, v4⟩ := val_logP4
  obtain ⟨f5, v5⟩ := val_logP5
  obtain ⟨f6, v6⟩ := val_logP6
  obtain ⟨f7, v7⟩ := val_logP7
  obtain ⟨f8, v8⟩ := val_logP8
  obtain ⟨f9, v9⟩ := val_logP9
  obtain ⟨f10, v10⟩ := val_logP10
  have A1 : Ap md CC.logP1 _ (334 / 1000) 0 := Ap.ofVal f1 v1 (by rw [abs_le]; constructor <;> norm_num)
  have A2 : Ap md CC.logP2 _ (251 / 1000) 0 := Ap.ofVal f2 v2 (by rw [abs_le]; constructor <;> norm_num)
  have A3 : Ap md CC.logP3 _ (201 / 1000) 0 := Ap.ofVal f3 v3 (by rw [abs_le]; constructor <;> norm_num)
  have A4 : Ap md CC.logP4 _ (168 / 1000) 0 := Ap.ofVal f4 v4 (by rw [abs_le]; constructor <;> norm_num)
  have A5 : Ap md CC.logP5 _ (143 / 1000) 0 := Ap.ofVal f5 v5 (by rw [abs_le]; constructor <;> norm_num)
  have A6 : Ap md CC.logP6 _ (126 / 1000) 0 := Ap.ofVal f6 v6 (by rw [abs_le]; constructor <;> norm_num)
  have A7 : Ap md CC.logP7 _ (112 / 1000) 0 := Ap.ofVal f7 v7 (by rw [abs_le]; constructor <;> norm_num)
  have A8 : Ap md CC.logP8 _ (101 / 1000) 0 := Ap.ofVal f8 v8 (by rw [abs_le]; constructor <;> norm_num)
  have A9 : Ap md CC.logP9 _ (92 / 1000) 0 := Ap.ofVal f9 v9 (by rw [abs_le]; constructor <;> norm_num)
  have A10 : Ap md CC.logP10 _ (84 / 1000) 0 := Ap.ofVal f10 v10 (by rw [abs_le]; constructor <;> norm_num)
  have B8 := Ar.mul A8 (B := 1 / 100) (e := 1 / 100) (by norm_num) (by norm_num) (by norm_num)
  have B9 := Ar2.mul A9 (B := 1 / 1000) (e := 1 / 1000) (by norm_num) (by norm_num) (by norm_num)
  have B10 := Ar3.mul A10 (B := 1 / 10000) (e := 1 / 10000) (by norm_num) (by norm_num) (by norm_num)
  have C7 := A7.add B8 (S := 13 / 100) (B := 13 / 100) (e := 15 / 100) ((abs_add_le' A7.bd B8.bd).trans (by norm_num)) le_rfl (by norm_num) (by norm_num)
  have C8 := C7.add B9 (S := 14 / 100) (B := 14 / 100) (e := 3 / 10) ((abs_add_le' C7.bd B9.bd).trans (by norm_num)) le_rfl (by norm_num) (by norm_num)
  have C9 := C8.add B10 (S := 15 / 100) (B := 15 / 100) (e := 5 / 10) ((abs_add_le' C8.bd B10.bd).trans (by norm_num)) le_rfl (by norm_num) (by norm_num)
  have B5 := Ar.mul A5 (B := 1 / 100) (e := 1 / 100) (by norm_num) (by norm_num) (by norm_num)
  have B6 := Ar2.mul A6 (B := 1 / 1000) (e := 2 / 1000) (by norm_num) (by norm_num) (by norm_num)
  have B7 := Ar3.mul C9 (B := 1 / 10000) (e := 1 / 1000) (by norm_num) (by norm_num) (by norm_num)
  have C4 := A4.add B5 (S := 18 / 100) (B := 18 / 100) (e := 20 / 100) ((abs_add_le' A4.bd B5.bd).trans (by norm_num)) le_rfl (by norm_num) (by norm_num)
  have C5 := C4.add B6 (S := 19 / 100) (B := 19 / 100) (e := 4 / 10) ((abs_add_le' C4.bd B6.bd).trans (by norm_num)) le_rfl (by norm_num) (by norm_num)
  have C6 := C5.add B7 (S := 20 / 100) (B := 20 / 100) (e := 7 / 10) ((abs_add_le' C5.bd B7.bd).trans (by norm_num)) le_rfl (by norm_num) (by norm_num)
  have B2 := Ar.mul A2 (B := 16 / 1000) (e := 17 / 1000) (by norm_num) (by norm_num) (by norm_num)
  have B3 := Ar2.mul A3 (B := 1 / 1000) (e := 2 / 1000) (by norm_num) (by norm_num) (by norm_num)
  have B4 := Ar3.mul C6 (B := 1 / 10000) (e := 1 / 1000) (by norm_num) (by norm_num) (by norm_num)
  have C1 := A1.add B2 (S := 350 / 1000) (B := 350 / 1000) (e := 37 / 100) ((abs_add_le' A1.bd B2.bd).trans (by norm_num)) le_rfl (by norm_num) (by norm_num)
  have C2 := C1.add B3 (S := 352 / 1000) (B := 352 / 1000) (e := 73 / 100) ((abs_add_le' C1.bd B3.bd).trans (by norm_num)) le_rfl (by norm_num) (by norm_num)
  have C3 := C2.add B4 (S := 36 / 100) (B := 36 / 100) (e := 11 / 10) ((abs_add_le' C2.bd B4.bd).trans (by norm_num)) le_rfl (by norm_num) (by norm_num)
  refine ⟨_, C3, ?_⟩
  unfold logPP
  ring

/-- the evaluation near 1, from the exact `r = x - 1` -/
theorem logNear_eval (md : Mode) {r : ℕ} (hr : binary64.Finite r) {a : ℝ} (hR : |binary64.val r| = a) (ha : 1 / 2 ^ 53 ≤ a) (ha2 : a ≤ 1 / 16) :
    let mul := binary64.hmul md
    let add := binary64.hadd md
    let sub := binary64.hsub md
    let r2 := mul r r
    let r3 := mul r r2
    let y := mul r3 (add (add (add CC.logP1 (mul r CC.logP2)) (mul r2 CC.logP3))
      (mul r3 (add (add (add CC.logP4 (mul r CC.logP5)) (mul r2 CC.logP6))
        (mul r3 (add (add (add CC.logP7 (mul r CC.logP8)) (mul r2 CC.logP9)) (mul r3 CC.logP10))))))
    let w := mul r 0x41A0000000000000
    let rhi := sub (add r w) w
    let rlo := sub r rhi
    let w := mul (mul rhi rhi) CC.logP0
    let hi := add r w
    let lo := add (sub r hi) w
    let lo := add lo (mul (mul CC.logP0 rlo) (add rhi r))
    let res := add (add y lo) hi
    let V := binary64.val r * logPP (binary64.val r)
    binary64.Finite res ∧ |binary64.val res - V| ≤ ru md * (|V| + 106 / 1000 * a) := by
  have hu := ru_pos md
  have hu1 := ru_ge md
  have hu2 := ru_le md
  obtain ⟨f0, v0⟩ := val_logP0
  obtain ⟨f27, v27⟩ := val_two27
  have Ar : Ap md r (binary64.val r) a 0 := Ap.exact hr hR.le
  have Arc : Ap md r (binary64.val r) (1 / 16) 0 := Ar.mono ha2 le_rfl
  have A0 : Ap md CC.logP0 (-1 / 2 ^ 1) (1 / 2) 0 := Ap.ofVal f0 v0 (by rw [abs_le]; constructor <;> norm_num)
  have A27 : Ap md 0x41A0000000000000 (2 ^ 27) (2 ^ 27) 0 := Ap.ofVal f27 v27 (by rw [abs_le]; constructor <;> norm_num)
  have hR' := hR
  generalize binary64.val r = R at *
  dsimp only
  norm_num at ha
  have Ar2 := Arc.mul Arc (B := 1 / 256) (e := 101 / 25600) (by norm_num) (by norm_num) (by norm_num)
  have Ar3c := Arc.mul Ar2 (B := 1 / 4096) (e := 202 / 409600) (by norm_num) (by norm_num) (by norm_num)
  have Ar3 := Ar.mul Ar2 (B := a / 256) (e := 202 / 25600 * a) (by linarith) (by norm_num; linarith) (by norm_num; linarith)
  obtain ⟨S, AS, hS⟩ := logNear_poly md Arc Ar2 Ar3c
  have Ay := Ar3.mul AS (B := 15 / 10000 * a) (e := 86 / 10000 * a) (by linarith) (by norm_num; linarith) (by norm_num; linarith)
  clear AS Ar3 Ar3c Ar2
  generalize binary64.hmul md (binary64.hmul md r (binary64.hmul md r r)) _ = y at *
  -- the high part of r
  have Aw := Ar.mul A27 (B := 2 ^ 27 * a) (e := 2 ^ 28 * a) (by linarith) (by norm_num; linarith) (by norm_num; linarith)
  have Aw2 := Ar.add Aw (S := 2 ^ 28 * a) (B := 2 ^ 28 * a) (e := 2 ^ 30 * a) ((abs_add_le' Ar.bd Aw.bd).trans (by norm_num; linarith)) le_rfl (by norm_num; linarith) (by norm_num; linarith)
  have Arh := Aw2.sub Aw (S := a) (B := a) (e := 2 ^ 31 * a) (by rw [show R + R * 2 ^ 27 - R * 2 ^ 27 = R by ring]; exact Ar.bd) le_rfl (by norm_num; linarith) (by norm_num; linarith)
  rw [show R + R * 2 ^ 27 - R * 2 ^ 27 = R by ring] at Arh
  obtain ⟨frh, erh, -⟩ := Arh
  clear Aw Aw2
  generalize binary64.hsub md _ _ = rh at *
  have erh' : |binary64.val rh - R| ≤ a / 2 ^ 21 := by
    refine erh.trans ?_
    have := mul_le_mul_of_nonneg_right hu2 (show (0 : ℝ) ≤ 2 ^ 31 * a by positivity)
    norm_num at this ⊢; linarith
  have brh : |binary64.val rh| ≤ 1000001 / 1000000 * a := (abs_near erh' Ar.bd).trans (by norm_num; linarith)
  have Ah : Ap md rh (binary64.val rh) (1000001 / 1000000 * a) 0 := Ap.exact frh brh
  have Ahc : Ap md rh (binary64.val rh) (1000001 / 16000000) 0 := Ah.mono (by linarith) le_rfl
  clear erh
  have hrl : |R - binary64.val rh| ≤ a / 2 ^ 21 := by rw [abs_sub_comm]; exact erh'
  have Arl := Ar.sub Ah (S := a / 2 ^ 21) (B := a / 2 ^ 21) (e := a / 2 ^ 20) hrl le_rfl (by norm_num; linarith) (by norm_num; linarith)
  have Ahh := Ah.mul Ahc (B := 625002 / 10000000 * a) (e := 625003 / 10000000 * a) (by linarith) (by norm_num; linarith) (by norm_num; linarith)
  have Aw := Ahh.mul A0 (B := 312501 / 10000000 * a) (e := 62501 / 1000000 * a) (by linarith) (by norm_num; linarith) (by norm_num; linarith)
  obtain ⟨fw, ew, bw⟩ := Aw
  generalize binary64.hmul md (binary64.hmul md rh rh) CC.logP0 = w at *
  have bwv : |binary64.val w| ≤ 312502 / 10000000 * a := by
    refine (abs_near ew bw).trans ?_
    have := mul_le_mul_of_nonneg_right hu2 (show (0 : ℝ) ≤ 62501 / 1000000 * a by positivity)
    norm_num at this ⊢; linarith
  have Awv : Ap md w (binary64.val w) (312502 / 10000000 * a) 0 := Ap.exact fw bwv
  have Ahi := Ar.add Awv (S := 104 / 100 * a) (B := 104 / 100 * a) (e := 105 / 100 * a) ((abs_add_le' Ar.bd bwv).trans (by norm_num; linarith)) le_rfl (by norm_num; linarith) (by norm_num; linarith)
  obtain ⟨fhi, ehi, bhi⟩ := Ahi
  generalize binary64.hadd md r w = hi at *
  set H := binary64.val rh with hH
  set W := binary64.val w with hW
  set I := binary64.val hi with hI
  have ehi' : |I - (R + W)| ≤ a / 2 ^ 50 := by
    refine ehi.trans ?_
    have := mul_le_mul_of_nonneg_right hu2 (show (0 : ℝ) ≤ 105 / 100 * a by positivity)
    norm_num at this ⊢; linarith
  have bI : |I| ≤ 105 / 100 * a := (abs_near ehi' bhi).trans (by norm_num; linarith)
  have AI : Ap md hi I (105 / 100 * a) 0 := Ap.exact fhi bI
  have hn : |-(I - (R + W))| ≤ a / 2 ^ 50 := by rw [abs_neg]; exact ehi'
  have wn : |-W| ≤ 312502 / 10000000 * a := by rw [abs_neg]; exact bwv
  have As1 := Ar.sub AI (S := 312503 / 10000000 * a) (B := 312503 / 10000000 * a) (e := 312504 / 10000000 * a)
    (by rw [show R - I = -(I - (R + W)) + -W by ring]; exact (abs_add_le' hn wn).trans (by norm_num; linarith)) le_rfl (by norm_num; linarith) (by norm_num; linarith)
  have As2 := As1.add Awv (S := a / 2 ^ 50) (B := a / 2 ^ 50) (e := 312505 / 10000000 * a)
    (by rw [show R - I + W = -(I - (R + W)) by ring]; exact hn) le_rfl (by norm_num; linarith) (by norm_num; linarith)
  have Am1 := A0.mul Arl (B := a / 2 ^ 22) (e := a / 2 ^ 19) (by linarith) (by norm_num; linarith) (by norm_num; linarith)
  have Am2 := Ahc.add Arc (S := 13 / 100) (B := 13 / 100) (e := 14 / 100) ((abs_add_le' Ahc.bd Arc.bd).trans (by norm_num)) le_rfl (by norm_num) (by norm_num)
  have Am3 := Am1.mul Am2 (B := a / 2 ^ 22) (e := a / 2 ^ 18) (by linarith) (by norm_num; linarith) (by norm_num; linarith)
  have Alo := As2.add Am3 (S := a / 2 ^ 21) (B := a / 2 ^ 21) (e := 313 / 10000 * a) ((abs_add_le' As2.bd Am3.bd).trans (by norm_num; linarith)) le_rfl (by norm_num; linarith) (by norm_num; linarith)
  have Aq := Ay.add Alo (S := 16 / 10000 * a) (B := 16 / 10000 * a) (e := 42 / 1000 * a) ((abs_add_le' Ay.bd Alo.bd).trans (by norm_num; linarith)) le_rfl (by norm_num; linarith) (by norm_num; linarith)
  obtain ⟨fq, eq, bq⟩ := Aq
  clear Ay Alo Am3 Am2 Am1 As2 As1
  generalize binary64.hadd md y _ = q at *
  set Q := R * (R * R) * S + (R - I + W + -1 / 2 ^ 1 * (R - H) * (H + R)) with hQ
  have eV : R * logPP R - (Q + I) = -(W - H * H * (-1 / 2 ^ 1)) := by
    rw [hS, hQ]; ring
  have eV' : |(Q + I) - R * logPP R| ≤ ru md * (62501 / 1000000 * a) := by
    rw [abs_sub_comm, eV, abs_neg]; exact ew
  clear_value Q
  generalize R * logPP R = V at *
  have bqv := abs_near eq bq
  have b1 : |binary64.val q + I| ≤ 2 ^ 200 := by
    refine (abs_add_le' bqv bI).trans ?_
    have := mul_le_mul_of_nonneg_right hu2 (show (0 : ℝ) ≤ 42 / 1000 * a by positivity)
    norm_num at this ⊢; linarith
  obtain ⟨fr, er⟩ := add64_err md fq fhi b1
  refine ⟨fr, ?_⟩
  have e2 : |binary64.val q + I - (Q + I)| ≤ ru md * (42 / 1000 * a) := by
    rw [show binary64.val q + I - (Q + I) = binary64.val q - Q by ring]; exact eq
  have e2' := abs_tri e2 eV'
  have e3 := abs_near e2' (le_refl |V|)
  refine (abs_tri er e2').trans ?_
  have e4 := mul_le_mul_of_nonneg_left e3 hu.le
  have e5 : eta ≤ ru md * (1 / 10 ^ 9 * a) := by
    have h1 := eta_le
    have h2 := mul_le_mul_of_nonneg_right hu1 (show (0 : ℝ) ≤ 1 / 10 ^ 9 * a by positivity)
    norm_num at h1 h2 ⊢
    linarith
  have e6 : ru md * (ru md * (42 / 1000 * a) + ru md * (62501 / 1000000 * a)) ≤ ru md * (1 / 10 ^ 9 * a) := by
    refine mul_le_mul_of_nonneg_left ?_ hu.le
    have h1 := mul_le_mul_of_nonneg_right hu2 (show (0 : ℝ) ≤ 42 / 1000 * a by positivity)
    have h2 := mul_le_mul_of_nonneg_right hu2 (show (0 : ℝ) ≤ 62501 / 1000000 * a by positivity)
    norm_num at h1 h2 ⊢; linarith
  calc _ ≤ ru md * |V| + ru md * (1 / 10 ^ 9 * a) + ru md * (1 / 10 ^ 9 * a) + (ru md * (42 / 1000 * a) + ru md * (62501 / 1000000 * a)) := by linarith
    _ = ru md * (|V| + (1 / 10 ^ 9 * a + 1 / 10 ^ 9 * a + (42 / 1000 * a + 62501 / 1000000 * a))) := by ring
    _ ≤ _ := mul_le_mul_of_nonneg_left (by norm_num; linarith) hu.le

end Verif
