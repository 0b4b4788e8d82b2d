import Verif.Lemmas.ApF
import Verif.Lemmas.Asin4
import Verif.Model.InvTrigF

/-!
# Rounding error of `asin_eval` in float arithmetic
-/

namespace Verif
open Fmt Real

theorem ApF.ofNear {md : Mode} {x : ℕ} {X B e : ℝ} (hx : binary32.Finite x) (h : |binary32.val x - X| ≤ 1 / 2 ^ 24 * e) (hB : |X| ≤ B) : ApF md x X B e := by
  refine ⟨hx, le_trans h ?_, hB⟩
  have e0 : 0 ≤ e := by
    have := le_trans (abs_nonneg _) h
    exact nonneg_of_mul_nonneg_right this (by norm_num)
  exact mul_le_mul_of_nonneg_right (ruf_ge md) e0

theorem ascf0 (md : Mode) : ApF md 0x3E2AAAAB (46912496118439 / 2 ^ 48) (167 / 1000) (4167 / 50000) := by
  refine ApF.ofNear (by decide +kernel) ?_ (by norm_num [abs_le])
  rw [lit32 false 11184811 26 (by decide +kernel) (by decide +kernel) (by decide +kernel) (by decide +kernel)]; norm_num [sg, abs_le]

theorem ascf1 (md : Mode) : ApF md 0x3D99999A (5404319553092955 / 2 ^ 56) (19 / 250) (999 / 20000) := by
  refine ApF.ofNear (by decide +kernel) ?_ (by norm_num [abs_le])
  rw [lit32 false 10066330 27 (by decide +kernel) (by decide +kernel) (by decide +kernel) (by decide +kernel)]; norm_num [sg, abs_le]

theorem ascf2 (md : Mode) : ApF md 0x3D36DB6E (1608428426836271 / 2 ^ 55) (9 / 200) (1161 / 50000) := by
  refine ApF.ofNear (by decide +kernel) ?_ (by norm_num [abs_le])
  rw [lit32 false 11983726 28 (by decide +kernel) (by decide +kernel) (by decide +kernel) (by decide +kernel)]; norm_num [sg, abs_le]

theorem ascf3 (md : Mode) : ApF md 0x3CF8E396 (4378501779311471 / 2 ^ 57) (31 / 1000) (313 / 50000) := by
  refine ApF.ofNear (by decide +kernel) ?_ (by norm_num [abs_le])
  rw [lit32 false 16311190 29 (by decide +kernel) (by decide +kernel) (by decide +kernel) (by decide +kernel)]; norm_num [sg, abs_le]

theorem ascf4 (md : Mode) : ApF md 0x3CB744F8 (6448219253556811 / 2 ^ 58) (23 / 1000) (981 / 100000) := by
  refine ApF.ofNear (by decide +kernel) ?_ (by norm_num [abs_le])
  rw [lit32 false 12010744 29 (by decide +kernel) (by decide +kernel) (by decide +kernel) (by decide +kernel)]; norm_num [sg, abs_le]

theorem ascf5 (md : Mode) : ApF md 0x3C8E3609 (1250901783711773 / 2 ^ 56) (9 / 500) (1381 / 100000) := by
  refine ApF.ofNear (by decide +kernel) ?_ (by norm_num [abs_le])
  rw [lit32 false 9319945 29 (by decide +kernel) (by decide +kernel) (by decide +kernel) (by decide +kernel)]; norm_num [sg, abs_le]

theorem ascf6 (md : Mode) : ApF md 0x3C637D42 (2001016989263467 / 2 ^ 57) (7 / 500) (277 / 50000) := by
  refine ApF.ofNear (by decide +kernel) ?_ (by norm_num [abs_le])
  rw [lit32 false 14908738 30 (by decide +kernel) (by decide +kernel) (by decide +kernel) (by decide +kernel)]; norm_num [sg, abs_le]

theorem ascf7 (md : Mode) : ApF md 0x3C476B05 (7016398763515161 / 2 ^ 59) (13 / 1000) (191 / 100000) := by
  refine ApF.ofNear (by decide +kernel) ?_ (by norm_num [abs_le])
  rw [lit32 false 13069061 30 (by decide +kernel) (by decide +kernel) (by decide +kernel) (by decide +kernel)]; norm_num [sg, abs_le]

theorem ascf8 (md : Mode) : ApF md 0x3BD59D05 (7515851594203209 / 2 ^ 60) (7 / 1000) (19 / 5000) := by
  refine ApF.ofNear (by decide +kernel) ?_ (by norm_num [abs_le])
  rw [lit32 false 13999365 31 (by decide +kernel) (by decide +kernel) (by decide +kernel) (by decide +kernel)]; norm_num [sg, abs_le]

theorem ascf9 (md : Mode) : ApF md 0x3CA0290A (2817569923332003 / 2 ^ 57) (1 / 50) (311 / 100000) := by
  refine ApF.ofNear (by decide +kernel) ?_ (by norm_num [abs_le])
  rw [lit32 false 10496266 29 (by decide +kernel) (by decide +kernel) (by decide +kernel) (by decide +kernel)]; norm_num [sg, abs_le]

theorem ascf10 (md : Mode) : ApF md 0xBC852D1C (-4685721306087269 / 2 ^ 58) (17 / 1000) (6 / 3125) := by
  refine ApF.ofNear (by decide +kernel) ?_ (by norm_num [abs_le])
  rw [lit32 true 8727836 29 (by decide +kernel) (by decide +kernel) (by decide +kernel) (by decide +kernel)]; norm_num [sg, abs_le]

theorem ascf11 (md : Mode) : ApF md 0x3D02CC2D (4602030130368581 / 2 ^ 57) (4 / 125) (619 / 100000) := by
  refine ApF.ofNear (by decide +kernel) ?_ (by norm_num [abs_le])
  rw [lit32 false 8571949 28 (by decide +kernel) (by decide +kernel) (by decide +kernel) (by decide +kernel)]; norm_num [sg, abs_le]

/-- `asin_eval<float>` at a finite float in `[0, 1/4]` is close to the polynomial with the double coefficients in exact arithmetic -/
theorem asinEvalF_ap (fused : Bool) (md : Mode) {u : ℕ} {s : ℝ} (hs : ApF md u s (1 / 4) 0) : ApF md (CC.asinEvalF fused md u) (asinP s) (379 / 2000) (277 / 400) := by
  have x4 := ApF.mul hs hs (B := (1 / 16)) (e := (313 / 5000)) (by norm_num) (by norm_num) (by norm_num)
  have c0 := ApF.ma fused hs (ascf1 md) (ascf0 md) (B := (93 / 500)) (e := (3009 / 10000)) (by norm_num) (by norm_num) (by norm_num) (by norm_num) (by norm_num) (by norm_num) (by norm_num) (by norm_num)
  have c1 := ApF.ma fused hs (ascf3 md) (ascf2 md) (B := (33 / 625)) (e := (853 / 10000)) (by norm_num) (by norm_num) (by norm_num) (by norm_num) (by norm_num) (by norm_num) (by norm_num) (by norm_num)
  have c2 := ApF.ma fused hs (ascf5 md) (ascf4 md) (B := (11 / 400)) (e := (453 / 10000)) (by norm_num) (by norm_num) (by norm_num) (by norm_num) (by norm_num) (by norm_num) (by norm_num) (by norm_num)
  have c3 := ApF.ma fused hs (ascf7 md) (ascf6 md) (B := (173 / 10000)) (e := (133 / 5000)) (by norm_num) (by norm_num) (by norm_num) (by norm_num) (by norm_num) (by norm_num) (by norm_num) (by norm_num)
  have c4 := ApF.ma fused hs (ascf9 md) (ascf8 md) (B := (3 / 250)) (e := (27 / 1250)) (by norm_num) (by norm_num) (by norm_num) (by norm_num) (by norm_num) (by norm_num) (by norm_num) (by norm_num)
  have c5 := ApF.ma fused hs (ascf11 md) (ascf10 md) (B := (1 / 40)) (e := (73 / 2000)) (by norm_num) (by norm_num) (by norm_num) (by norm_num) (by norm_num) (by norm_num) (by norm_num) (by norm_num)
  have x8 := ApF.mul x4 x4 (B := (1 / 250)) (e := (59 / 5000)) (by norm_num) (by norm_num) (by norm_num)
  have d0 := ApF.ma fused x4 c1 c0 (B := (1893 / 10000)) (e := (2511 / 5000)) (by norm_num) (by norm_num) (by norm_num) (by norm_num) (by norm_num) (by norm_num) (by norm_num) (by norm_num)
  have d1 := ApF.ma fused x4 c3 c2 (B := (143 / 5000)) (e := (389 / 5000)) (by norm_num) (by norm_num) (by norm_num) (by norm_num) (by norm_num) (by norm_num) (by norm_num) (by norm_num)
  have d2 := ApF.ma fused x4 c5 c4 (B := (17 / 1250)) (e := (203 / 5000)) (by norm_num) (by norm_num) (by norm_num) (by norm_num) (by norm_num) (by norm_num) (by norm_num) (by norm_num)
  have g := ApF.ma fused x8 d2 d1 (B := (287 / 10000)) (e := (1069 / 10000)) (by norm_num) (by norm_num) (by norm_num) (by norm_num) (by norm_num) (by norm_num) (by norm_num) (by norm_num)
  have r := ApF.ma fused x8 g d0 (B := (379 / 2000)) (e := (277 / 400)) (by norm_num) (by norm_num) (by norm_num) (by norm_num) (by norm_num) (by norm_num) (by norm_num) (by norm_num)
  refine ApF.congr r ?_
  unfold asinP
  ring

end Verif
