import Verif.Lemmas.LogE1

/-!
# The table branch of the double base-2 logarithm: rounding errors of the evaluation
-/

namespace Verif
open Fmt Real

/-- final addition `q + hi` where `q ≈ Q`, `Q + hi ≈ V` -/
theorem last_add (md : Mode) {q hi : ℕ} {Q V E1 E2 E : ℝ} (fq : binary64.Finite q) (fh : binary64.Finite hi) (e1 : |binary64.val q - Q| ≤ ru md * E1)
    (e2 : |Q + binary64.val hi - V| ≤ ru md * E2) (bQ : |Q| ≤ 2 ^ 90) (bh : |binary64.val hi| ≤ 2 ^ 90) (h1 : E1 ≤ 2 ^ 100) (h2 : E2 ≤ 2 ^ 100) (h1p : 0 ≤ E1) (h2p : 0 ≤ E2)
    (hE : E1 + E2 + 1 / 2 ^ 52 * (E1 + E2) + 1 / 2 ^ 140 ≤ E) :
    binary64.Finite (binary64.hadd md q hi) ∧ |binary64.val (binary64.hadd md q hi) - V| ≤ ru md * (|V| + E) ∧
      ∃ zs s, binary64.RoundsTo md zs s (binary64.hadd md q hi) ∧ |s - V| ≤ ru md * (E1 + E2) := by
  have hu := ru_pos md
  have hu1 := ru_ge md
  have hu2 := ru_le md
  have e3 : |binary64.val q + binary64.val hi - V| ≤ ru md * (E1 + E2) := by
    have := abs_add_le' e1 e2
    rw [show binary64.val q - Q + (Q + binary64.val hi - V) = binary64.val q + binary64.val hi - V by ring] at this
    rw [mul_add]; exact this
  have h3 : ru md * (E1 + E2) ≤ 1 / 2 ^ 52 * (E1 + E2) := mul_le_mul_of_nonneg_right hu2 (by linarith)
  have e4 := abs_near e3 (le_refl |V|)
  have bV : |V| ≤ 2 ^ 101 := by
    have e2' : |V - (Q + binary64.val hi)| ≤ ru md * E2 := by rw [abs_sub_comm]; exact e2
    have := abs_near e2' (abs_add_le' bQ bh)
    refine this.trans ?_
    have h4 := mul_le_mul_of_nonneg_right hu2 h2p
    norm_num at h2 h4 ⊢; linarith
  have b : |binary64.val q + binary64.val hi| ≤ 2 ^ 200 := e4.trans (by norm_num at h1 h2 h3 bV ⊢; linarith)
  obtain ⟨fr, er⟩ := add64_err md fq fh b
  refine ⟨fr, (abs_tri er e3).trans ?_, _, _, binary64.hadd_spec md fq fh, e3⟩
  have e5 := mul_le_mul_of_nonneg_left (e4.trans (add_le_add_right h3 |V|)) hu.le
  have e6 : eta ≤ ru md * (1 / 2 ^ 140) := by
    have h5 := eta_le
    have h6 := mul_le_mul_of_nonneg_right hu1 (show (0 : ℝ) ≤ 1 / 2 ^ 140 by positivity)
    norm_num at h5 h6 ⊢; linarith
  have e7 := mul_le_mul_of_nonneg_left hE hu.le
  calc _ ≤ ru md * (|V| + 1 / 2 ^ 52 * (E1 + E2)) + ru md * (1 / 2 ^ 140) + ru md * (E1 + E2) := by linarith
    _ = ru md * |V| + ru md * (E1 + E2 + 1 / 2 ^ 52 * (E1 + E2) + 1 / 2 ^ 140) := by ring
    _ ≤ _ := by rw [mul_add]; linarith

/-- correction term and polynomial of the table branch, in terms of the exact `t3 = k + logc` and of `r` -/
theorem log2_q (md : Mode) {w r : ℕ} (hw : binary64.Finite w) (hr : binary64.Finite r) (bw : |binary64.val w| ≤ 1200) (br : |binary64.val r| ≤ 7753 / 10 ^ 6) :
    let mul := binary64.hmul md
    let add := binary64.hadd md
    let sub := binary64.hsub md
    let rhi := r &&& (2 ^ 64 - 2 ^ 32)
    let rlo := sub r rhi
    let t1 := mul rhi CC.log2Inv_hi
    let t2 := add (mul rlo CC.log2Inv_hi) (mul r CC.log2Inv_lo)
    let hi := add w t1
    let lo := add (add (sub w hi) t1) t2
    let r2 := mul r r
    let r4 := mul r2 r2
    let p := add (add (add CC.log2A0 (mul r CC.log2A1)) (mul r2 (add CC.log2A2 (mul r CC.log2A3)))) (mul r4 (add CC.log2A4 (mul r CC.log2A5)))
    let res := add (add lo (mul r2 p)) hi
    let V := binary64.val w + binary64.val r * log2PA (binary64.val r)
    binary64.Finite res ∧ |binary64.val res - V| ≤ ru md * (|V| + 227 / 10 ^ 4) ∧
      ∃ zs s, binary64.RoundsTo md zs s res ∧ |s - V| ≤ ru md * (1147 / 10 ^ 5 + 111856 / 10 ^ 7) := by
  have hu := ru_pos md
  have hu1 := ru_ge md
  have hu2 := ru_le md
  obtain ⟨fA0, vA0⟩ := val_log2A0
  obtain ⟨fA1, vA1⟩ := val_log2A1
  obtain ⟨fA2, vA2⟩ := val_log2A2
  obtain ⟨fA3, vA3⟩ := val_log2A3
  obtain ⟨fA4, vA4⟩ := val_log2A4
  obtain ⟨fA5, vA5⟩ := val_log2A5
  obtain ⟨fH, vH⟩ := val_log2Inv_hi
  obtain ⟨fL, vL⟩ := val_log2Inv_lo
  dsimp only
  obtain ⟨fh, eh, -⟩ := split32 hr
  generalize r &&& (2 ^ 64 - 2 ^ 32) = rh at *
  set R := binary64.val r with hR
  set H := binary64.val rh with hH
  have eh' : |H - R| ≤ 1 / 10 ^ 8 := by
    refine eh.trans ?_
    have h1 := eta_le
    norm_num at h1 br ⊢; linarith
  have bH : |H| ≤ 77531 / 10 ^ 7 := (abs_near eh' br).trans (by norm_num)
  have Ar : Ap md r R (7753 / 10 ^ 6) 0 := Ap.exact hr br
  have Ah : Ap md rh H (77531 / 10 ^ 7) 0 := Ap.exact fh bH
  have AH : Ap md CC.log2Inv_hi _ (14427 / 10 ^ 4) 0 := Ap.ofVal fH vH (by rw [abs_le]; constructor <;> norm_num)
  have AL : Ap md CC.log2Inv_lo _ (2 / 10 ^ 10) 0 := Ap.ofVal fL vL (by rw [abs_le]; constructor <;> norm_num)
  have eh2 : |R - H| ≤ 1 / 10 ^ 8 := by rw [abs_sub_comm]; exact eh'
  have Arl := Ar.sub Ah (S := 1 / 10 ^ 8) (B := 1 / 10 ^ 8) (e := 2 / 10 ^ 8) eh2 le_rfl (by norm_num) (by norm_num)
  have Am1 := Arl.mul AH (B := 2 / 10 ^ 8) (e := 5 / 10 ^ 8) (by norm_num) (by norm_num) (by norm_num)
  have Am2 := Ar.mul AL (B := 1 / 10 ^ 8) (e := 1 / 10 ^ 8) (by norm_num) (by norm_num) (by norm_num)
  have At2 := Am1.add Am2 (S := 3 / 10 ^ 8) (B := 3 / 10 ^ 8) (e := 1 / 10 ^ 7) ((abs_add_le' Am1.bd Am2.bd).trans (by norm_num)) le_rfl (by norm_num) (by norm_num)
  have At1 := Ah.mul AH (B := 111855 / 10 ^ 7) (e := 111856 / 10 ^ 7) (by norm_num) (by norm_num) (by norm_num)
  obtain ⟨ft1, et1, bt1⟩ := At1
  generalize binary64.hmul md rh CC.log2Inv_hi = t1 at *
  have bT : |binary64.val t1| ≤ 111856 / 10 ^ 7 := by
    refine (abs_near et1 bt1).trans ?_
    have := mul_le_mul_of_nonneg_right hu2 (show (0 : ℝ) ≤ 111856 / 10 ^ 7 by positivity)
    norm_num at this ⊢; linarith
  set T := binary64.val t1 with hT
  set W := binary64.val w with hW
  have At1' : Ap md t1 T (111856 / 10 ^ 7) 0 := Ap.exact ft1 bT
  have Aw : Ap md w W 1200 0 := Ap.exact hw bw
  have bwt : |W + T| ≤ 1201 := (abs_add_le' bw bT).trans (by norm_num)
  obtain ⟨fhi, ehi⟩ := st_add md hw ft1 bwt (by norm_num)
  have ehi' : |binary64.val (binary64.hadd md w t1) - (W + T)| ≤ 1 / 10 ^ 12 := by
    refine ehi.trans ?_
    have := mul_le_mul_of_nonneg_right hu2 (show (0 : ℝ) ≤ 1201 + 1 / 2 ^ 140 by positivity)
    norm_num at this ⊢; linarith
  clear ehi
  generalize binary64.hadd md w t1 = hi at *
  set I := binary64.val hi with hI
  have AI : Ap md hi I 1202 0 := Ap.exact fhi ((abs_near ehi' bwt).trans (by norm_num))
  have hn : |-(I - (W + T))| ≤ 1 / 10 ^ 12 := by rw [abs_neg]; exact ehi'
  have tn : |-T| ≤ 111856 / 10 ^ 7 := by rw [abs_neg]; exact bT
  have As1 := Aw.sub AI (S := 111857 / 10 ^ 7) (B := 111857 / 10 ^ 7) (e := 111858 / 10 ^ 7)
    (by rw [show W - I = -(I - (W + T)) + -T by ring]; exact (abs_add_le' hn tn).trans (by norm_num)) le_rfl (by norm_num) (by norm_num)
  have As2 := As1.add At1' (S := 1 / 10 ^ 12) (B := 1 / 10 ^ 12) (e := 111859 / 10 ^ 7)
    (by rw [show W - I + T = -(I - (W + T)) by ring]; exact hn) le_rfl (by norm_num) (by norm_num)
  have Alo := As2.add At2 (S := 4 / 10 ^ 8) (B := 4 / 10 ^ 8) (e := 111865 / 10 ^ 7) ((abs_add_le' As2.bd At2.bd).trans (by norm_num)) le_rfl (by norm_num) (by norm_num)
  have Ar2 := Ar.mul Ar (B := 602 / 10 ^ 7) (e := 603 / 10 ^ 7) (by norm_num) (by norm_num) (by norm_num)
  have Ar4 := Ar2.mul Ar2 (B := 4 / 10 ^ 9) (e := 12 / 10 ^ 9) (by norm_num) (by norm_num) (by norm_num)
  have A0 : Ap md CC.log2A0 _ (722 / 1000) 0 := Ap.ofVal fA0 vA0 (by rw [abs_le]; constructor <;> norm_num)
  have A1 : Ap md CC.log2A1 _ (481 / 1000) 0 := Ap.ofVal fA1 vA1 (by rw [abs_le]; constructor <;> norm_num)
  have A2 : Ap md CC.log2A2 _ (361 / 1000) 0 := Ap.ofVal fA2 vA2 (by rw [abs_le]; constructor <;> norm_num)
  have A3 : Ap md CC.log2A3 _ (289 / 1000) 0 := Ap.ofVal fA3 vA3 (by rw [abs_le]; constructor <;> norm_num)
  have A4 : Ap md CC.log2A4 _ (241 / 1000) 0 := Ap.ofVal fA4 vA4 (by rw [abs_le]; constructor <;> norm_num)
  have A5 : Ap md CC.log2A5 _ (207 / 1000) 0 := Ap.ofVal fA5 vA5 (by rw [abs_le]; constructor <;> norm_num)
  have B1 := Ar.mul A1 (B := 4 / 1000) (e := 4 / 1000) (by norm_num) (by norm_num) (by norm_num)
  have C1 := A0.add B1 (S := 726 / 1000) (B := 726 / 1000) (e := 731 / 1000) ((abs_add_le' A0.bd B1.bd).trans (by norm_num)) le_rfl (by norm_num) (by norm_num)
  have B3 := Ar.mul A3 (B := 3 / 1000) (e := 3 / 1000) (by norm_num) (by norm_num) (by norm_num)
  have C3 := A2.add B3 (S := 365 / 1000) (B := 365 / 1000) (e := 37 / 100) ((abs_add_le' A2.bd B3.bd).trans (by norm_num)) le_rfl (by norm_num) (by norm_num)
  have D3 := Ar2.mul C3 (B := 1 / 10000) (e := 1 / 10000) (by norm_num) (by norm_num) (by norm_num)
  have C4 := C1.add D3 (S := 727 / 1000) (B := 727 / 1000) (e := 15 / 10) ((abs_add_le' C1.bd D3.bd).trans (by norm_num)) le_rfl (by norm_num) (by norm_num)
  have B5 := Ar.mul A5 (B := 3 / 1000) (e := 3 / 1000) (by norm_num) (by norm_num) (by norm_num)
  have C5 := A4.add B5 (S := 25 / 100) (B := 25 / 100) (e := 26 / 100) ((abs_add_le' A4.bd B5.bd).trans (by norm_num)) le_rfl (by norm_num) (by norm_num)
  have D5 := Ar4.mul C5 (B := 1 / 10 ^ 7) (e := 1 / 10 ^ 7) (by norm_num) (by norm_num) (by norm_num)
  have C6 := C4.add D5 (S := 728 / 1000) (B := 728 / 1000) (e := 23 / 10) ((abs_add_le' C4.bd D5.bd).trans (by norm_num)) le_rfl (by norm_num) (by norm_num)
  have D6 := Ar2.mul C6 (B := 44 / 10 ^ 6) (e := 23 / 10 ^ 5) (by norm_num) (by norm_num) (by norm_num)
  have Aq := Alo.add D6 (S := 45 / 10 ^ 6) (B := 45 / 10 ^ 6) (e := 1147 / 10 ^ 5) ((abs_add_le' Alo.bd D6.bd).trans (by norm_num)) le_rfl (by norm_num) (by norm_num)
  obtain ⟨fq, eq, bq⟩ := Aq
  clear Alo D6 C6 C5 D5 B5 C4 D3 C3 B3 C1 B1 Ar4 Ar2 As1 As2 At2 Am1 Am2 Arl
  refine last_add md (V := W + R * log2PA R) (E1 := 1147 / 10 ^ 5) (E2 := 111856 / 10 ^ 7) fq fhi eq ?_ (bq.trans (by norm_num)) (AI.bd.trans (by norm_num)) (by norm_num) (by norm_num) (by norm_num) (by norm_num) (by norm_num)
  rw [← hI]
  have e : W - I + T + ((R - H) * (3098164009 / 2 ^ 31) + R * (12657236604881 / 2 ^ 76)) +
      R * R * (-6497320848556857 / 2 ^ 53 + R * (4331547232371295 / 2 ^ 53) + R * R * (-6497320836280315 / 2 ^ 54 + R * (649732082919817 / 2 ^ 51)) +
        R * R * (R * R) * (-2165955400213679 / 2 ^ 53 + R * (3713132112116887 / 2 ^ 54))) + I - (W + R * log2PA R) = T - H * (3098164009 / 2 ^ 31) := by
    unfold log2PA; ring
  rw [e]
  exact et1

end Verif
