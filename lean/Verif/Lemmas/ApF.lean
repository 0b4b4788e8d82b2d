import Verif.Lemmas.Expm1F
import Verif.Lemmas.Exp3

/-!
# Running error analysis for floats

`ApF md b v B ε`: the float `b` is finite, differs from the real `v` by at most `ruf md * ε`, and `|v| ≤ B`. The rules below propagate such facts through the operations.
-/

namespace Verif
open Fmt

theorem stf_sub (m : Mode) {x y : ℕ} (hx : binary32.Finite x) (hy : binary32.Finite y) {B : ℝ} (hB : |binary32.val x - binary32.val y| ≤ B) (hB2 : B ≤ 2 ^ 100) :
    binary32.Finite (binary32.hsub m x y) ∧ |binary32.val (binary32.hsub m x y) - (binary32.val x - binary32.val y)| ≤ ruf m * (B + 1 / 2 ^ 70) :=
  stf_err (binary32.hsub_spec m hx hy) hB hB2

/-- `b` approximates `v`, `|v| ≤ B`, to within `ε` rounding units -/
def ApF (md : Mode) (b : ℕ) (v B ε : ℝ) : Prop := binary32.Finite b ∧ |binary32.val b - v| ≤ ruf md * ε ∧ |v| ≤ B

namespace ApF
variable {md : Mode} {x y z : ℕ} {X Y Z BX BY BZ eX eY eZ : ℝ}

theorem fin (h : ApF md x X BX eX) : binary32.Finite x := h.1
theorem err (h : ApF md x X BX eX) : |binary32.val x - X| ≤ ruf md * eX := h.2.1
theorem bd (h : ApF md x X BX eX) : |X| ≤ BX := h.2.2
theorem e0 (h : ApF md x X BX eX) : 0 ≤ eX := by
  have h1 := le_trans (abs_nonneg _) h.err
  exact nonneg_of_mul_nonneg_right h1 (ruf_pos md)
theorem b0 (h : ApF md x X BX eX) : 0 ≤ BX := le_trans (abs_nonneg _) h.bd

theorem exact (hx : binary32.Finite x) (h : |binary32.val x| ≤ BX) : ApF md x (binary32.val x) BX 0 := ⟨hx, by simp, h⟩

theorem ofVal (hx : binary32.Finite x) (e : binary32.val x = X) (h : |X| ≤ BX) : ApF md x X BX 0 := ⟨hx, by rw [e]; simp, h⟩

theorem mono (h : ApF md x X BX eX) {B e : ℝ} (h1 : BX ≤ B) (h2 : eX ≤ e) : ApF md x X B e :=
  ⟨h.1, le_trans h.2.1 (mul_le_mul_of_nonneg_left h2 (ruf_pos md).le), le_trans h.2.2 h1⟩

theorem congr (h : ApF md x X BX eX) (e : X = Y) : ApF md x Y BX eX := e ▸ h

theorem neg (h : ApF md x X BX eX) : ApF md (binary32.hneg x) (-X) BX eX := by
  refine ⟨binary32.finite_hneg h.1, ?_, by rw [abs_neg]; exact h.bd⟩
  rw [binary32.val_hneg, show -binary32.val x - -X = -(binary32.val x - X) by ring, abs_neg]
  exact h.err

/-- bound of the computed value -/
theorem val_le (h : ApF md x X BX eX) : |binary32.val x| ≤ BX + 1 / 2 ^ 23 * eX :=
  le_trans (abs_near h.err h.bd) (by have := mul_le_mul_of_nonneg_right (ruf_le md) h.e0; linarith)

theorem prod_err (hx : ApF md x X BX eX) (hy : ApF md y Y BY eY) :
    |binary32.val x * binary32.val y - X * Y| ≤ ruf md * (eX * BY + eY * BX + 1 / 2 ^ 23 * (eX * eY)) := by
  have hu := ruf_pos md
  have hu2 := ruf_le md
  have e : binary32.val x * binary32.val y - X * Y =
      (binary32.val x - X) * Y + (binary32.val y - Y) * X + (binary32.val x - X) * (binary32.val y - Y) := by ring
  rw [e]
  have h1 := abs_mul_le hx.err hy.bd
  have h2 := abs_mul_le hy.err hx.bd
  have h3 := abs_mul_le hx.err hy.err
  have h4 : ruf md * eX * (ruf md * eY) ≤ ruf md * (1 / 2 ^ 23 * (eX * eY)) := by
    have h5 := mul_le_mul_of_nonneg_left (mul_le_mul_of_nonneg_right hu2 (mul_nonneg hx.e0 hy.e0)) hu.le
    calc ruf md * eX * (ruf md * eY) = ruf md * (ruf md * (eX * eY)) := by ring
      _ ≤ _ := h5
  refine le_trans (abs_add_le' (abs_add_le' h1 h2) h3) ?_
  linarith

theorem mul (hx : ApF md x X BX eX) (hy : ApF md y Y BY eY) {B e : ℝ} (hB : BX * BY ≤ B)
    (he : eX * BY + eY * BX + 1 / 2 ^ 23 * (eX * eY) + (BX * BY + 1 / 2 ^ 23 * (eX * BY + eY * BX + 1 / 2 ^ 23 * (eX * eY))) + 1 / 2 ^ 70 ≤ e)
    (h : BX * BY + 1 / 2 ^ 23 * (eX * BY + eY * BX + 1 / 2 ^ 23 * (eX * eY)) ≤ 2 ^ 100) : ApF md (binary32.hmul md x y) (X * Y) B e := by
  have p := prod_err hx hy
  have hE0 : 0 ≤ eX * BY + eY * BX + 1 / 2 ^ 23 * (eX * eY) := by
    have := hx.e0; have := hx.b0; have := hy.e0; have := hy.b0; positivity
  generalize eX * BY + eY * BX + 1 / 2 ^ 23 * (eX * eY) = E at *
  have hXY := abs_mul_le hx.bd hy.bd
  have hu := ruf_pos md
  have b : |binary32.val x * binary32.val y| ≤ BX * BY + 1 / 2 ^ 23 * E :=
    le_trans (abs_near p hXY) (by have := mul_le_mul_of_nonneg_right (ruf_le md) hE0; linarith)
  obtain ⟨f, r⟩ := stf_mul md hx.1 hy.1 b h
  refine ⟨f, ?_, le_trans hXY hB⟩
  refine le_trans (abs_tri r p) ?_
  rw [← mul_add]
  exact mul_le_mul_of_nonneg_left (by linarith) hu.le

theorem add (hx : ApF md x X BX eX) (hy : ApF md y Y BY eY) {S B e : ℝ} (hS : |X + Y| ≤ S) (hB : S ≤ B)
    (he : eX + eY + (S + 1 / 2 ^ 23 * (eX + eY)) + 1 / 2 ^ 70 ≤ e) (h : S + 1 / 2 ^ 23 * (eX + eY) ≤ 2 ^ 100) : ApF md (binary32.hadd md x y) (X + Y) B e := by
  have hu := ruf_pos md
  have p : |binary32.val x + binary32.val y - (X + Y)| ≤ ruf md * (eX + eY) := by
    rw [show binary32.val x + binary32.val y - (X + Y) = (binary32.val x - X) + (binary32.val y - Y) by ring, mul_add]
    exact abs_add_le' hx.err hy.err
  have hE0 : 0 ≤ eX + eY := by have := hx.e0; have := hy.e0; positivity
  generalize eX + eY = E at *
  have b : |binary32.val x + binary32.val y| ≤ S + 1 / 2 ^ 23 * E :=
    le_trans (abs_near p hS) (by have := mul_le_mul_of_nonneg_right (ruf_le md) hE0; linarith)
  obtain ⟨f, r⟩ := stf_add md hx.1 hy.1 b h
  refine ⟨f, ?_, le_trans hS hB⟩
  refine le_trans (abs_tri r p) ?_
  rw [← mul_add]
  exact mul_le_mul_of_nonneg_left (by linarith) hu.le

theorem sub (hx : ApF md x X BX eX) (hy : ApF md y Y BY eY) {S B e : ℝ} (hS : |X - Y| ≤ S) (hB : S ≤ B)
    (he : eX + eY + (S + 1 / 2 ^ 23 * (eX + eY)) + 1 / 2 ^ 70 ≤ e) (h : S + 1 / 2 ^ 23 * (eX + eY) ≤ 2 ^ 100) : ApF md (binary32.hsub md x y) (X - Y) B e := by
  have hu := ruf_pos md
  have p : |binary32.val x - binary32.val y - (X - Y)| ≤ ruf md * (eX + eY) := by
    rw [show binary32.val x - binary32.val y - (X - Y) = (binary32.val x - X) - (binary32.val y - Y) by ring, mul_add]
    exact le_trans (abs_sub _ _) (add_le_add hx.err hy.err)
  have hE0 : 0 ≤ eX + eY := by have := hx.e0; have := hy.e0; positivity
  generalize eX + eY = E at *
  have b : |binary32.val x - binary32.val y| ≤ S + 1 / 2 ^ 23 * E :=
    le_trans (abs_near p hS) (by have := mul_le_mul_of_nonneg_right (ruf_le md) hE0; linarith)
  obtain ⟨f, r⟩ := stf_sub md hx.1 hy.1 b h
  refine ⟨f, ?_, le_trans hS hB⟩
  refine le_trans (abs_tri r p) ?_
  rw [← mul_add]
  exact mul_le_mul_of_nonneg_left (by linarith) hu.le

/-- `multiply_add` with a bound `S` on the exact result -/
theorem ma' (fused : Bool) (hx : ApF md x X BX eX) (hy : ApF md y Y BY eY) (hz : ApF md z Z BZ eZ) {S B e : ℝ} (hS : |X * Y + Z| ≤ S) (hB : S ≤ B)
    (h1 : BX ≤ 2 ^ 15) (h2 : BY ≤ 2 ^ 15) (h3 : BZ ≤ 2 ^ 15) (h4 : eX ≤ 2 ^ 15) (h5 : eY ≤ 2 ^ 15) (h6 : eZ ≤ 2 ^ 15)
    (he : eX * BY + eY * BX + 1 / 2 ^ 23 * (eX * eY) + eZ + (S + 1 / 2 ^ 23 * (eX * BY + eY * BX + 1 / 2 ^ 23 * (eX * eY) + eZ))
      + (1 + 1 / 2 ^ 20) * (BX * BY + 1 / 2 ^ 23 * (eX * BY + eY * BX + 1 / 2 ^ 23 * (eX * eY))) + 3 / 2 ^ 70 ≤ e) :
    ApF md (CC.multiplyAdd binary32 fused md x y z) (X * Y + Z) B e := by
  have hu := ruf_pos md
  have hu2 := ruf_le md
  have hxv := hx.val_le
  have hyv := hy.val_le
  have hzv := hz.val_le
  have p := prod_err hx hy
  have hE0 : 0 ≤ eX * BY + eY * BX + 1 / 2 ^ 23 * (eX * eY) := by
    have := hx.e0; have := hx.b0; have := hy.e0; have := hy.b0; positivity
  have hz0 := hz.e0
  have hXY := abs_mul_le hx.bd hy.bd
  have q : |binary32.val x * binary32.val y| ≤ 2 ^ 32 := by
    refine le_trans (abs_mul_le (hxv.trans (show _ ≤ (2 : ℝ) ^ 16 by norm_num at *; linarith)) (hyv.trans (show _ ≤ (2 : ℝ) ^ 16 by norm_num at *; linarith))) (by norm_num)
  have qz : |binary32.val z| ≤ 2 ^ 40 := hzv.trans (by norm_num at *; linarith)
  obtain ⟨f, r⟩ := ma32_err fused md hx.1 hy.1 hz.1 (q.trans (by norm_num)) qz
  have b : |binary32.val x * binary32.val y| ≤ BX * BY + 1 / 2 ^ 23 * (eX * BY + eY * BX + 1 / 2 ^ 23 * (eX * eY)) :=
    le_trans (abs_near p hXY) (by have := mul_le_mul_of_nonneg_right hu2 hE0; linarith)
  generalize eX * BY + eY * BX + 1 / 2 ^ 23 * (eX * eY) = E at *
  have t : |binary32.val x * binary32.val y + binary32.val z - (X * Y + Z)| ≤ ruf md * (E + eZ) := by
    rw [show binary32.val x * binary32.val y + binary32.val z - (X * Y + Z) = (binary32.val x * binary32.val y - X * Y) + (binary32.val z - Z) by ring, mul_add]
    exact abs_add_le' p hz.err
  have s : |binary32.val x * binary32.val y + binary32.val z| ≤ S + 1 / 2 ^ 23 * (E + eZ) :=
    le_trans (abs_near t hS) (by have := mul_le_mul_of_nonneg_right hu2 (show 0 ≤ E + eZ by linarith); linarith)
  refine ⟨f, ?_, le_trans hS hB⟩
  refine le_trans (abs_tri r t) ?_
  have k1 := mul_le_mul_of_nonneg_left s hu.le
  have k2 := mul_le_mul_of_nonneg_left b (show 0 ≤ (1 + 1 / 2 ^ 20) * ruf md by positivity)
  have k3 : 3 * etaf ≤ ruf md * (3 / 2 ^ 70) := by
    have e1 := etaf_le
    have e2 : (1 : ℝ) / 2 ^ 100 ≤ 1 / 2 ^ 24 * (1 / 2 ^ 70) := by norm_num
    have e3 : 1 / 2 ^ 24 * (1 / 2 ^ 70) ≤ ruf md * (1 / 2 ^ 70) := mul_le_mul_of_nonneg_right (ruf_ge md) (by positivity)
    have e4 : ruf md * (3 / 2 ^ 70) = 3 * (ruf md * (1 / 2 ^ 70)) := by ring
    rw [e4]; linarith
  have k4 := mul_le_mul_of_nonneg_left he hu.le
  clear he b s t p r q qz hxv hyv hzv h1 h2 h3 h4 h5 h6 hS hXY
  calc _ ≤ ruf md * (S + 1 / 2 ^ 23 * (E + eZ)) + (1 + 1 / 2 ^ 20) * ruf md * (BX * BY + 1 / 2 ^ 23 * E) + ruf md * (3 / 2 ^ 70) + ruf md * (E + eZ) := by linarith
    _ = ruf md * (E + eZ + (S + 1 / 2 ^ 23 * (E + eZ)) + (1 + 1 / 2 ^ 20) * (BX * BY + 1 / 2 ^ 23 * E) + 3 / 2 ^ 70) := by ring
    _ ≤ _ := k4

/-- `multiply_add` without cancellation -/
theorem ma (fused : Bool) (hx : ApF md x X BX eX) (hy : ApF md y Y BY eY) (hz : ApF md z Z BZ eZ) {B e : ℝ} (hB : BX * BY + BZ ≤ B)
    (h1 : BX ≤ 2 ^ 15) (h2 : BY ≤ 2 ^ 15) (h3 : BZ ≤ 2 ^ 15) (h4 : eX ≤ 2 ^ 15) (h5 : eY ≤ 2 ^ 15) (h6 : eZ ≤ 2 ^ 15)
    (he : eX * BY + eY * BX + 1 / 2 ^ 23 * (eX * eY) + eZ + (BX * BY + BZ + 1 / 2 ^ 23 * (eX * BY + eY * BX + 1 / 2 ^ 23 * (eX * eY) + eZ))
      + (1 + 1 / 2 ^ 20) * (BX * BY + 1 / 2 ^ 23 * (eX * BY + eY * BX + 1 / 2 ^ 23 * (eX * eY))) + 3 / 2 ^ 70 ≤ e) :
    ApF md (CC.multiplyAdd binary32 fused md x y z) (X * Y + Z) B e :=
  ma' fused hx hy hz (abs_add_le' (abs_mul_le hx.bd hy.bd) hz.bd) hB h1 h2 h3 h4 h5 h6 he

end ApF
end Verif
