import Verif.Lemmas.Exp3

/-!
# Running error analysis

`Ap md b v B ε`: the double `b` is finite, differs from the real `v` by at most `ru md * ε`, and `|v| ≤ B`. The rules below propagate such facts through the operations.
-/

namespace Verif
open Fmt

/-- `b` approximates `v`, `|v| ≤ B`, to within `ε` rounding units -/
def Ap (md : Mode) (b : ℕ) (v B ε : ℝ) : Prop := binary64.Finite b ∧ |binary64.val b - v| ≤ ru md * ε ∧ |v| ≤ B

namespace Ap
variable {md : Mode} {x y z : ℕ} {X Y Z BX BY BZ eX eY eZ : ℝ}

theorem fin (h : Ap md x X BX eX) : binary64.Finite x := h.1
theorem err (h : Ap md x X BX eX) : |binary64.val x - X| ≤ ru md * eX := h.2.1
theorem bd (h : Ap md x X BX eX) : |X| ≤ BX := h.2.2
theorem e0 (h : Ap md x X BX eX) : 0 ≤ eX := by
  have h1 := le_trans (abs_nonneg _) h.err
  exact nonneg_of_mul_nonneg_right h1 (ru_pos md)
theorem b0 (h : Ap md x X BX eX) : 0 ≤ BX := le_trans (abs_nonneg _) h.bd

theorem exact (hx : binary64.Finite x) (h : |binary64.val x| ≤ BX) : Ap md x (binary64.val x) BX 0 := ⟨hx, by simp, h⟩

theorem ofVal (hx : binary64.Finite x) (e : binary64.val x = X) (h : |X| ≤ BX) : Ap md x X BX 0 := ⟨hx, by rw [e]; simp, h⟩

theorem mono (h : Ap md x X BX eX) {B e : ℝ} (h1 : BX ≤ B) (h2 : eX ≤ e) : Ap md x X B e :=
  ⟨h.1, le_trans h.2.1 (mul_le_mul_of_nonneg_left h2 (ru_pos md).le), le_trans h.2.2 h1⟩

theorem congr (h : Ap md x X BX eX) (e : X = Y) : Ap md x Y BX eX := e ▸ h

theorem neg (h : Ap md x X BX eX) : Ap md (binary64.hneg x) (-X) BX eX := by
  refine ⟨binary64.finite_hneg h.1, ?_, by rw [abs_neg]; exact h.bd⟩
  rw [binary64.val_hneg, show -binary64.val x - -X = -(binary64.val x - X) by ring, abs_neg]
  exact h.err

/-- bound of the computed value -/
theorem val_le (h : Ap md x X BX eX) : |binary64.val x| ≤ BX + 1 / 2 ^ 52 * eX :=
  le_trans (abs_near h.err h.bd) (by have := mul_le_mul_of_nonneg_right (ru_le md) h.e0; linarith)

theorem prod_err (hx : Ap md x X BX eX) (hy : Ap md y Y BY eY) :
    |binary64.val x * binary64.val y - X * Y| ≤ ru md * (eX * BY + eY * BX + 1 / 2 ^ 52 * (eX * eY)) := by
  have hu := ru_pos md
  have hu2 := ru_le md
  have e : binary64.val x * binary64.val y - X * Y =
      (binary64.val x - X) * Y + (binary64.val y - Y) * X + (binary64.val x - X) * (binary64.val y - Y) := by ring
  rw [e]
  have h1 := abs_mul_le hx.err hy.bd
  have h2 := abs_mul_le hy.err hx.bd
  have h3 := abs_mul_le hx.err hy.err
  have h4 : ru md * eX * (ru md * eY) ≤ ru md * (1 / 2 ^ 52 * (eX * eY)) := by
    have h5 := mul_le_mul_of_nonneg_left (mul_le_mul_of_nonneg_right hu2 (mul_nonneg hx.e0 hy.e0)) hu.le
    calc ru md * eX * (ru md * eY) = ru md * (ru md * (eX * eY)) := by ring
      _ ≤ _ := h5
  refine le_trans (abs_add_le' (abs_add_le' h1 h2) h3) ?_
  linarith

theorem mul (hx : Ap md x X BX eX) (hy : Ap md y Y BY eY) {B e : ℝ} (hB : BX * BY ≤ B)
    (he : eX * BY + eY * BX + 1 / 2 ^ 52 * (eX * eY) + (BX * BY + 1 / 2 ^ 52 * (eX * BY + eY * BX + 1 / 2 ^ 52 * (eX * eY))) + 1 / 2 ^ 140 ≤ e)
    (h : BX * BY + 1 / 2 ^ 52 * (eX * BY + eY * BX + 1 / 2 ^ 52 * (eX * eY)) ≤ 2 ^ 100) : Ap md (binary64.hmul md x y) (X * Y) B e := by
  have p := prod_err hx hy
  have hE0 : 0 ≤ eX * BY + eY * BX + 1 / 2 ^ 52 * (eX * eY) := by
    have := hx.e0; have := hx.b0; have := hy.e0; have := hy.b0; positivity
  generalize eX * BY + eY * BX + 1 / 2 ^ 52 * (eX * eY) = E at *
  have hXY := abs_mul_le hx.bd hy.bd
  have hu := ru_pos md
  have b : |binary64.val x * binary64.val y| ≤ BX * BY + 1 / 2 ^ 52 * E :=
    le_trans (abs_near p hXY) (by have := mul_le_mul_of_nonneg_right (ru_le md) hE0; linarith)
  obtain ⟨f, r⟩ := st_mul md hx.1 hy.1 b h
  refine ⟨f, ?_, le_trans hXY hB⟩
  refine le_trans (abs_tri r p) ?_
  rw [← mul_add]
  exact mul_le_mul_of_nonneg_left (by linarith) hu.le

theorem add (hx : Ap md x X BX eX) (hy : Ap md y Y BY eY) {S B e : ℝ} (hS : |X + Y| ≤ S) (hB : S ≤ B)
    (he : eX + eY + (S + 1 / 2 ^ 52 * (eX + eY)) + 1 / 2 ^ 140 ≤ e) (h : S + 1 / 2 ^ 52 * (eX + eY) ≤ 2 ^ 100) : Ap md (binary64.hadd md x y) (X + Y) B e := by
  have hu := ru_pos md
  have p : |binary64.val x + binary64.val y - (X + Y)| ≤ ru md * (eX + eY) := by
    rw [show binary64.val x + binary64.val y - (X + Y) = (binary64.val x - X) + (binary64.val y - Y) by ring, mul_add]
    exact abs_add_le' hx.err hy.err
  have hE0 : 0 ≤ eX + eY := by have := hx.e0; have := hy.e0; positivity
  generalize eX + eY = E at *
  have b : |binary64.val x + binary64.val y| ≤ S + 1 / 2 ^ 52 * E :=
    le_trans (abs_near p hS) (by have := mul_le_mul_of_nonneg_right (ru_le md) hE0; linarith)
  obtain ⟨f, r⟩ := st_add md hx.1 hy.1 b h
  refine ⟨f, ?_, le_trans hS hB⟩
  refine le_trans (abs_tri r p) ?_
  rw [← mul_add]
  exact mul_le_mul_of_nonneg_left (by linarith) hu.le

theorem sub (hx : Ap md x X BX eX) (hy : Ap md y Y BY eY) {S B e : ℝ} (hS : |X - Y| ≤ S) (hB : S ≤ B)
    (he : eX + eY + (S + 1 / 2 ^ 52 * (eX + eY)) + 1 / 2 ^ 140 ≤ e) (h : S + 1 / 2 ^ 52 * (eX + eY) ≤ 2 ^ 100) : Ap md (binary64.hsub md x y) (X - Y) B e := by
  have hu := ru_pos md
  have p : |binary64.val x - binary64.val y - (X - Y)| ≤ ru md * (eX + eY) := by
    rw [show binary64.val x - binary64.val y - (X - Y) = (binary64.val x - X) - (binary64.val y - Y) by ring, mul_add]
    exact le_trans (abs_sub _ _) (add_le_add hx.err hy.err)
  have hE0 : 0 ≤ eX + eY := by have := hx.e0; have := hy.e0; positivity
  generalize eX + eY = E at *
  have b : |binary64.val x - binary64.val y| ≤ S + 1 / 2 ^ 52 * E :=
    le_trans (abs_near p hS) (by have := mul_le_mul_of_nonneg_right (ru_le md) hE0; linarith)
  obtain ⟨f, r⟩ := st_sub md hx.1 hy.1 b h
  refine ⟨f, ?_, le_trans hS hB⟩
  refine le_trans (abs_tri r p) ?_
  rw [← mul_add]
  exact mul_le_mul_of_nonneg_left (by linarith) hu.le

/-- `multiply_add` with a bound `S` on the exact result -/
theorem ma' (fused : Bool) (hx : Ap md x X BX eX) (hy : Ap md y Y BY eY) (hz : Ap md z Z BZ eZ) {S B e : ℝ} (hS : |X * Y + Z| ≤ S) (hB : S ≤ B)
    (h1 : BX ≤ 2 ^ 40) (h2 : BY ≤ 2 ^ 40) (h3 : BZ ≤ 2 ^ 40) (h4 : eX ≤ 2 ^ 40) (h5 : eY ≤ 2 ^ 40) (h6 : eZ ≤ 2 ^ 40)
    (he : eX * BY + eY * BX + 1 / 2 ^ 52 * (eX * eY) + eZ + (S + 1 / 2 ^ 52 * (eX * BY + eY * BX + 1 / 2 ^ 52 * (eX * eY) + eZ))
      + (1 + 1 / 2 ^ 50) * (BX * BY + 1 / 2 ^ 52 * (eX * BY + eY * BX + 1 / 2 ^ 52 * (eX * eY))) + 3 / 2 ^ 140 ≤ e) :
    Ap md (CC.multiplyAdd binary64 fused md x y z) (X * Y + Z) B e := by
  have hu := ru_pos md
  have hu2 := ru_le md
  have hxv := hx.val_le
  have hyv := hy.val_le
  have hzv := hz.val_le
  have p := prod_err hx hy
  have hE0 : 0 ≤ eX * BY + eY * BX + 1 / 2 ^ 52 * (eX * eY) := by
    have := hx.e0; have := hx.b0; have := hy.e0; have := hy.b0; positivity
  have hz0 := hz.e0
  have hXY := abs_mul_le hx.bd hy.bd
  have q : |binary64.val x * binary64.val y| ≤ 2 ^ 82 := by
    refine le_trans (abs_mul_le (hxv.trans (show _ ≤ (2 : ℝ) ^ 41 by norm_num at *; linarith)) (hyv.trans (show _ ≤ (2 : ℝ) ^ 41 by norm_num at *; linarith))) (by norm_num)
  have qz : |binary64.val z| ≤ 2 ^ 100 := hzv.trans (by norm_num at *; linarith)
  obtain ⟨f, r⟩ := ma64_err fused md hx.1 hy.1 hz.1 (q.trans (by norm_num)) qz
  have b : |binary64.val x * binary64.val y| ≤ BX * BY + 1 / 2 ^ 52 * (eX * BY + eY * BX + 1 / 2 ^ 52 * (eX * eY)) :=
    le_trans (abs_near p hXY) (by have := mul_le_mul_of_nonneg_right hu2 hE0; linarith)
  generalize eX * BY + eY * BX + 1 / 2 ^ 52 * (eX * eY) = E at *
  have t : |binary64.val x * binary64.val y + binary64.val z - (X * Y + Z)| ≤ ru md * (E + eZ) := by
    rw [show binary64.val x * binary64.val y + binary64.val z - (X * Y + Z) = (binary64.val x * binary64.val y - X * Y) + (binary64.val z - Z) by ring, mul_add]
    exact abs_add_le' p hz.err
  have s : |binary64.val x * binary64.val y + binary64.val z| ≤ S + 1 / 2 ^ 52 * (E + eZ) :=
    le_trans (abs_near t hS) (by have := mul_le_mul_of_nonneg_right hu2 (show 0 ≤ E + eZ by linarith); linarith)
  refine ⟨f, ?_, le_trans hS hB⟩
  refine le_trans (abs_tri r t) ?_
  have k1 := mul_le_mul_of_nonneg_left s hu.le
  have k2 := mul_le_mul_of_nonneg_left b (show 0 ≤ (1 + 1 / 2 ^ 50) * ru md by positivity)
  have k3 : 3 * eta ≤ ru md * (3 / 2 ^ 140) := by
    have e1 := eta_le
    have e2 : (1 : ℝ) / 2 ^ 200 ≤ 1 / 2 ^ 53 * (1 / 2 ^ 140) := by norm_num
    have e3 : 1 / 2 ^ 53 * (1 / 2 ^ 140) ≤ ru md * (1 / 2 ^ 140) := mul_le_mul_of_nonneg_right (ru_ge md) (by positivity)
    have e4 : ru md * (3 / 2 ^ 140) = 3 * (ru md * (1 / 2 ^ 140)) := by ring
    rw [e4]; linarith
  have k4 := mul_le_mul_of_nonneg_left he hu.le
  clear he b s t p r q qz hxv hyv hzv h1 h2 h3 h4 h5 h6 hS hXY
  calc _ ≤ ru md * (S + 1 / 2 ^ 52 * (E + eZ)) + (1 + 1 / 2 ^ 50) * ru md * (BX * BY + 1 / 2 ^ 52 * E) + ru md * (3 / 2 ^ 140) + ru md * (E + eZ) := by linarith
    _ = ru md * (E + eZ + (S + 1 / 2 ^ 52 * (E + eZ)) + (1 + 1 / 2 ^ 50) * (BX * BY + 1 / 2 ^ 52 * E) + 3 / 2 ^ 140) := by ring
    _ ≤ _ := k4

/-- `multiply_add` without cancellation -/
theorem ma (fused : Bool) (hx : Ap md x X BX eX) (hy : Ap md y Y BY eY) (hz : Ap md z Z BZ eZ) {B e : ℝ} (hB : BX * BY + BZ ≤ B)
    (h1 : BX ≤ 2 ^ 40) (h2 : BY ≤ 2 ^ 40) (h3 : BZ ≤ 2 ^ 40) (h4 : eX ≤ 2 ^ 40) (h5 : eY ≤ 2 ^ 40) (h6 : eZ ≤ 2 ^ 40)
    (he : eX * BY + eY * BX + 1 / 2 ^ 52 * (eX * eY) + eZ + (BX * BY + BZ + 1 / 2 ^ 52 * (eX * BY + eY * BX + 1 / 2 ^ 52 * (eX * eY) + eZ))
      + (1 + 1 / 2 ^ 50) * (BX * BY + 1 / 2 ^ 52 * (eX * BY + eY * BX + 1 / 2 ^ 52 * (eX * eY))) + 3 / 2 ^ 140 ≤ e) :
    Ap md (CC.multiplyAdd binary64 fused md x y z) (X * Y + Z) B e :=
  ma' fused hx hy hz (abs_add_le' (abs_mul_le hx.bd hy.bd) hz.bd) hB h1 h2 h3 h4 h5 h6 he

end Ap
end Verif
