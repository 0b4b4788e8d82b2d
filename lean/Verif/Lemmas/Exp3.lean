import Verif.Lemmas.Exp2

/-!
# Reduction and polynomial of the double exponential
-/

namespace Verif
open Fmt Real

theorem st_err {m : Mode} {zs : Bool} {v : ℝ} {b : ℕ} (R : binary64.RoundsTo m zs v b) {B : ℝ} (hB : |v| ≤ B) (hB2 : B ≤ 2 ^ 100) :
    binary64.Finite b ∧ |binary64.val b - v| ≤ ru m * (B + 1 / 2 ^ 140) := by
  have h200 : (2 : ℝ) ^ 100 ≤ 2 ^ 200 := by norm_num
  obtain ⟨h1, h2⟩ := err64 R (le_trans hB (by linarith))
  refine ⟨h1, le_trans h2 ?_⟩
  have e1 := eta_le
  have e2 : (1 : ℝ) / 2 ^ 200 ≤ 1 / 2 ^ 53 * (1 / 2 ^ 140) := by norm_num
  have e3 : 1 / 2 ^ 53 * (1 / 2 ^ 140) ≤ ru m * (1 / 2 ^ 140) := mul_le_mul_of_nonneg_right (ru_ge m) (by positivity)
  have e4 := mul_le_mul_of_nonneg_left hB (ru_pos m).le
  rw [mul_add]; linarith

theorem st_mul (m : Mode) {x y : ℕ} (hx : binary64.Finite x) (hy : binary64.Finite y) {B : ℝ} (hB : |binary64.val x * binary64.val y| ≤ B) (hB2 : B ≤ 2 ^ 100) :
    binary64.Finite (binary64.hmul m x y) ∧ |binary64.val (binary64.hmul m x y) - binary64.val x * binary64.val y| ≤ ru m * (B + 1 / 2 ^ 140) :=
  st_err (binary64.hmul_spec m hx hy) hB hB2
theorem st_add (m : Mode) {x y : ℕ} (hx : binary64.Finite x) (hy : binary64.Finite y) {B : ℝ} (hB : |binary64.val x + binary64.val y| ≤ B) (hB2 : B ≤ 2 ^ 100) :
    binary64.Finite (binary64.hadd m x y) ∧ |binary64.val (binary64.hadd m x y) - (binary64.val x + binary64.val y)| ≤ ru m * (B + 1 / 2 ^ 140) :=
  st_err (binary64.hadd_spec m hx hy) hB hB2
theorem st_sub (m : Mode) {x y : ℕ} (hx : binary64.Finite x) (hy : binary64.Finite y) {B : ℝ} (hB : |binary64.val x - binary64.val y| ≤ B) (hB2 : B ≤ 2 ^ 100) :
    binary64.Finite (binary64.hsub m x y) ∧ |binary64.val (binary64.hsub m x y) - (binary64.val x - binary64.val y)| ≤ ru m * (B + 1 / 2 ^ 140) :=
  st_err (binary64.hsub_spec m hx hy) hB hB2

/-- The evaluation `T + p + r² (C2 + r C3) + r⁴ (C4 + r C5)`, where `p` is the linear term. -/
theorem poly_round (md : Mode) {tT p r c2 c3 c4 c5 : ℕ} (hT : binary64.Finite tT) (hp : binary64.Finite p) (hr : binary64.Finite r)
    (h2 : binary64.Finite c2) (h3 : binary64.Finite c3) (h4 : binary64.Finite c4) (h5 : binary64.Finite c5)
    (bT : |binary64.val tT| ≤ 1 / 2 ^ 53) (bp : |binary64.val p| ≤ 55 / 10000) (br : |binary64.val r| ≤ 79 / 10000)
    (b2 : |binary64.val c2| ≤ 51 / 100) (b3 : |binary64.val c3| ≤ 17 / 100) (b4 : |binary64.val c4| ≤ 42 / 1000) (b5 : |binary64.val c5| ≤ 84 / 10000) :
    binary64.Finite (binary64.hadd md
      (binary64.hadd md (binary64.hadd md tT p) (binary64.hmul md (binary64.hmul md r r) (binary64.hadd md c2 (binary64.hmul md r c3))))
      (binary64.hmul md (binary64.hmul md (binary64.hmul md r r) (binary64.hmul md r r)) (binary64.hadd md c4 (binary64.hmul md r c5)))) ∧
    |binary64.val (binary64.hadd md
      (binary64.hadd md (binary64.hadd md tT p) (binary64.hmul md (binary64.hmul md r r) (binary64.hadd md c2 (binary64.hmul md r c3))))
      (binary64.hmul md (binary64.hmul md (binary64.hmul md r r) (binary64.hmul md r r)) (binary64.hadd md c4 (binary64.hmul md r c5)))) -
      (binary64.val tT + binary64.val p + binary64.val r ^ 2 * (binary64.val c2 + binary64.val r * binary64.val c3) +
        binary64.val r ^ 4 * (binary64.val c4 + binary64.val r * binary64.val c5))| ≤ ru md * (171 / 10000) := by
  have hu := ru_pos md
  have hu2 := ru_le md
  have hu3 : ru md ≤ 1 / 10 ^ 12 := le_trans hu2 (by norm_num)
  -- first half
  obtain ⟨fa, ea⟩ := st_mul md hr h3 (B := 14 / 10000) (le_trans (abs_mul_le br b3) (by norm_num)) (by norm_num)
  set a := binary64.hmul md r c3
  have ba : |binary64.val a| ≤ 15 / 10000 := by
    refine le_trans (abs_near ea (le_trans (abs_mul_le br b3) (by norm_num : _ ≤ (14 : ℝ) / 10000))) ?_; linarith
  obtain ⟨fb, eb⟩ := st_add md h2 fa (B := 512 / 1000) (le_trans (abs_add_le' b2 ba) (by norm_num)) (by norm_num)
  set b := binary64.hadd md c2 a
  have bb : |binary64.val b| ≤ 513 / 1000 := by
    refine le_trans (abs_near eb (le_trans (abs_add_le' b2 ba) (by norm_num : _ ≤ (512 : ℝ) / 1000))) ?_; linarith
  obtain ⟨f2, e2⟩ := st_mul md hr hr (B := 63 / 1000000) (le_trans (abs_mul_le br br) (by norm_num)) (by norm_num)
  set r2 := binary64.hmul md r r
  have br2 : |binary64.val r2| ≤ 64 / 1000000 := by
    refine le_trans (abs_near e2 (le_trans (abs_mul_le br br) (by norm_num : _ ≤ (63 : ℝ) / 1000000))) ?_; linarith
  obtain ⟨fd, ed⟩ := st_mul md f2 fb (B := 33 / 1000000) (le_trans (abs_mul_le br2 bb) (by norm_num)) (by norm_num)
  set d := binary64.hmul md r2 b
  have bd : |binary64.val d| ≤ 34 / 1000000 := by
    refine le_trans (abs_near ed (le_trans (abs_mul_le br2 bb) (by norm_num : _ ≤ (33 : ℝ) / 1000000))) ?_; linarith
  obtain ⟨f1, e1⟩ := st_add md hT hp (B := 551 / 100000) (le_trans (abs_add_le' bT bp) (by norm_num)) (by norm_num)
  set t1 := binary64.hadd md tT p
  have b1 : |binary64.val t1| ≤ 552 / 100000 := by
    refine le_trans (abs_near e1 (le_trans (abs_add_le' bT bp) (by norm_num : _ ≤ (551 : ℝ) / 100000))) ?_; linarith
  obtain ⟨ft, et⟩ := st_add md f1 fd (B := 556 / 100000) (le_trans (abs_add_le' b1 bd) (by norm_num)) (by norm_num)
  set t2 := binary64.hadd md t1 d
  have bt : |binary64.val t2| ≤ 557 / 100000 := by
    refine le_trans (abs_near et (le_trans (abs_add_le' b1 bd) (by norm_num : _ ≤ (556 : ℝ) / 100000))) ?_; linarith
  -- second half
  obtain ⟨fe, ee⟩ := st_mul md hr h5 (B := 67 / 1000000) (le_trans (abs_mul_le br b5) (by norm_num)) (by norm_num)
  set e := binary64.hmul md r c5
  have be : |binary64.val e| ≤ 68 / 1000000 := by
    refine le_trans (abs_near ee (le_trans (abs_mul_le br b5) (by norm_num : _ ≤ (67 : ℝ) / 1000000))) ?_; linarith
  obtain ⟨fg, eg⟩ := st_add md h4 fe (B := 43 / 1000) (le_trans (abs_add_le' b4 be) (by norm_num)) (by norm_num)
  set g := binary64.hadd md c4 e
  have bg : |binary64.val g| ≤ 44 / 1000 := by
    refine le_trans (abs_near eg (le_trans (abs_add_le' b4 be) (by norm_num : _ ≤ (43 : ℝ) / 1000))) ?_; linarith
  obtain ⟨fh, eh⟩ := st_mul md f2 f2 (B := 41 / 10 ^ 10) (le_trans (abs_mul_le br2 br2) (by norm_num)) (by norm_num)
  set h := binary64.hmul md r2 r2
  have bh : |binary64.val h| ≤ 42 / 10 ^ 10 := by
    refine le_trans (abs_near eh (le_trans (abs_mul_le br2 br2) (by norm_num : _ ≤ (41 : ℝ) / 10 ^ 10))) ?_; linarith
  obtain ⟨fw, ew⟩ := st_mul md fh fg (B := 19 / 10 ^ 11) (le_trans (abs_mul_le bh bg) (by norm_num)) (by norm_num)
  set w := binary64.hmul md h g
  have bw : |binary64.val w| ≤ 20 / 10 ^ 11 := by
    refine le_trans (abs_near ew (le_trans (abs_mul_le bh bg) (by norm_num : _ ≤ (19 : ℝ) / 10 ^ 11))) ?_; linarith
  obtain ⟨fm, em⟩ := st_add md ft fw (B := 558 / 100000) (le_trans (abs_add_le' bt bw) (by norm_num)) (by norm_num)
  refine ⟨fm, ?_⟩
  generalize binary64.val (binary64.hadd md t2 w) = M at *
  generalize binary64.val w = W at *
  generalize binary64.val h = Hh at *
  generalize binary64.val g = G at *
  generalize binary64.val e = Ee at *
  generalize binary64.val t2 = T2 at *
  generalize binary64.val t1 = T1 at *
  generalize binary64.val d = Dd at *
  generalize binary64.val r2 = R2 at *
  generalize binary64.val b = Bb at *
  generalize binary64.val a = Aa at *
  generalize binary64.val r = X at *
  generalize binary64.val c2 = C2 at *
  generalize binary64.val c3 = C3 at *
  generalize binary64.val c4 = C4 at *
  generalize binary64.val c5 = C5 at *
  generalize ru md = u at *
  -- quadratic and cubic terms
  have k1 : |Bb - (C2 + X * C3)| ≤ u * (514 / 1000) := by
    have : Bb - (C2 + X * C3) = (Bb - (C2 + Aa)) + (Aa - X * C3) := by ring
    rw [this]; exact le_trans (abs_add_le' eb ea) (by linarith)
  have k2 : |Dd - X ^ 2 * (C2 + X * C3)| ≤ u * (1 / 10000) := by
    have : Dd - X ^ 2 * (C2 + X * C3) = (Dd - R2 * Bb) + (R2 - X * X) * Bb + X * X * (Bb - (C2 + X * C3)) := by ring
    rw [this]
    refine le_trans (abs_add_le' (abs_add_le' ed (abs_mul_le e2 bb)) (abs_mul_le (abs_mul_le br br) k1)) ?_
    linarith
  have k3 : |G - (C4 + X * C5)| ≤ u * (44 / 1000) := by
    have : G - (C4 + X * C5) = (G - (C4 + Ee)) + (Ee - X * C5) := by ring
    rw [this]; exact le_trans (abs_add_le' eg ee) (by linarith)
  have k4 : |Hh - X ^ 4| ≤ u * (2 / 10 ^ 8) := by
    have : Hh - X ^ 4 = (Hh - R2 * R2) + (R2 - X * X) * R2 + X * X * (R2 - X * X) := by ring
    rw [this]
    refine le_trans (abs_add_le' (abs_add_le' eh (abs_mul_le e2 br2)) (abs_mul_le (abs_mul_le br br) e2)) ?_
    linarith
  have k5 : |W - X ^ 4 * (C4 + X * C5)| ≤ u * (1 / 10 ^ 8) := by
    have : W - X ^ 4 * (C4 + X * C5) = (W - Hh * G) + (Hh - X ^ 4) * G + (X * X) * (X * X) * (G - (C4 + X * C5)) := by ring
    rw [this]
    refine le_trans (abs_add_le' (abs_add_le' ew (abs_mul_le k4 bg)) (abs_mul_le (abs_mul_le (abs_mul_le br br) (abs_mul_le br br)) k3)) ?_
    linarith
  generalize binary64.val tT = T at *
  generalize binary64.val p = P at *
  have : M - (T + P + X ^ 2 * (C2 + X * C3) + X ^ 4 * (C4 + X * C5)) =
      (M - (T2 + W)) + (T2 - (T1 + Dd)) + (T1 - (T + P)) + (Dd - X ^ 2 * (C2 + X * C3)) + (W - X ^ 4 * (C4 + X * C5)) := by ring
  rw [this]
  refine le_trans (abs_add_le' (abs_add_le' (abs_add_le' (abs_add_le' em et) e1) k2) k5) ?_
  linarith

end Verif
