import Verif.Lemmas.Ap
import Verif.Lemmas.Asin2
import Verif.Model.InvTrig

/-!
# Rounding error of `asin_eval`
-/

namespace Verif
open Fmt Real

theorem asc0 (md : Mode) : Ap md 0x3FC5555555555380 (46912496118439 / 2 ^ 48) (167 / 1000) 0 := by
  refine Ap.ofVal (by decide +kernel) ?_ (by norm_num [abs_le])
  rw [lit64 false 6004799503160192 55 (by decide +kernel) (by decide +kernel) (by decide +kernel) (by decide +kernel)]; norm_num [sg]

theorem asc1 (md : Mode) : Ap md 0x3FB333333336FD5B (5404319553092955 / 2 ^ 56) (19 / 250) 0 := by
  refine Ap.ofVal (by decide +kernel) ?_ (by norm_num [abs_le])
  rw [lit64 false 5404319553092955 56 (by decide +kernel) (by decide +kernel) (by decide +kernel) (by decide +kernel)]; norm_num [sg]

theorem asc2 (md : Mode) : Ap md 0x3FA6DB6DB41CE4BC (1608428426836271 / 2 ^ 55) (9 / 200) 0 := by
  refine Ap.ofVal (by decide +kernel) ?_ (by norm_num [abs_le])
  rw [lit64 false 6433713707345084 57 (by decide +kernel) (by decide +kernel) (by decide +kernel) (by decide +kernel)]; norm_num [sg]

theorem asc3 (md : Mode) : Ap md 0x3F9F1C72C66896DE (4378501779311471 / 2 ^ 57) (31 / 1000) 0 := by
  refine Ap.ofVal (by decide +kernel) ?_ (by norm_num [abs_le])
  rw [lit64 false 8757003558622942 58 (by decide +kernel) (by decide +kernel) (by decide +kernel) (by decide +kernel)]; norm_num [sg]

theorem asc4 (md : Mode) : Ap md 0x3F96E89F0A0AC64B (6448219253556811 / 2 ^ 58) (23 / 1000) 0 := by
  refine Ap.ofVal (by decide +kernel) ?_ (by norm_num [abs_le])
  rw [lit64 false 6448219253556811 58 (by decide +kernel) (by decide +kernel) (by decide +kernel) (by decide +kernel)]; norm_num [sg]

theorem asc5 (md : Mode) : Ap md 0x3F91C6C111DE4074 (1250901783711773 / 2 ^ 56) (9 / 500) 0 := by
  refine Ap.ofVal (by decide +kernel) ?_ (by norm_num [abs_le])
  rw [lit64 false 5003607134847092 58 (by decide +kernel) (by decide +kernel) (by decide +kernel) (by decide +kernel)]; norm_num [sg]

theorem asc6 (md : Mode) : Ap md 0x3F8C6FA84B5699AC (2001016989263467 / 2 ^ 57) (7 / 500) 0 := by
  refine Ap.ofVal (by decide +kernel) ?_ (by norm_num [abs_le])
  rw [lit64 false 8004067957053868 59 (by decide +kernel) (by decide +kernel) (by decide +kernel) (by decide +kernel)]; norm_num [sg]

theorem asc7 (md : Mode) : Ap md 0x3F88ED60A3E6DD19 (7016398763515161 / 2 ^ 59) (13 / 1000) 0 := by
  refine Ap.ofVal (by decide +kernel) ?_ (by norm_num [abs_le])
  rw [lit64 false 7016398763515161 59 (by decide +kernel) (by decide +kernel) (by decide +kernel) (by decide +kernel)]; norm_num [sg]

theorem asc8 (md : Mode) : Ap md 0x3F7AB3A090750049 (7515851594203209 / 2 ^ 60) (7 / 1000) 0 := by
  refine Ap.ofVal (by decide +kernel) ?_ (by norm_num [abs_le])
  rw [lit64 false 7515851594203209 60 (by decide +kernel) (by decide +kernel) (by decide +kernel) (by decide +kernel)]; norm_num [sg]

theorem asc9 (md : Mode) : Ap md 0x3F9405213CD1EF46 (2817569923332003 / 2 ^ 57) (1 / 50) 0 := by
  refine Ap.ofVal (by decide +kernel) ?_ (by norm_num [abs_le])
  rw [lit64 false 5635139846664006 58 (by decide +kernel) (by decide +kernel) (by decide +kernel) (by decide +kernel)]; norm_num [sg]

theorem asc10 (md : Mode) : Ap md 0xBF90A5A381F73F65 (-4685721306087269 / 2 ^ 58) (17 / 1000) 0 := by
  refine Ap.ofVal (by decide +kernel) ?_ (by norm_num [abs_le])
  rw [lit64 true 4685721306087269 58 (by decide +kernel) (by decide +kernel) (by decide +kernel) (by decide +kernel)]; norm_num [sg]

theorem asc11 (md : Mode) : Ap md 0x3FA05985A32A9045 (4602030130368581 / 2 ^ 57) (4 / 125) 0 := by
  refine Ap.ofVal (by decide +kernel) ?_ (by norm_num [abs_le])
  rw [lit64 false 4602030130368581 57 (by decide +kernel) (by decide +kernel) (by decide +kernel) (by decide +kernel)]; norm_num [sg]

/-- `asin_eval` at a finite double in `[0, 1/4]` is close to the polynomial with exact arithmetic -/
theorem asinEval_ap (fused : Bool) (md : Mode) {u : ℕ} {s : ℝ} (hs : Ap md u s (1 / 4) 0) : Ap md (CC.asinEval fused md u) (asinP s) (379 / 2000) (5951 / 10000) := by
  have x4 := Ap.mul hs hs (B := (1 / 16)) (e := (313 / 5000)) (by norm_num) (by norm_num) (by norm_num)
  have c0 := Ap.ma fused hs (asc1 md) (asc0 md) (B := (93 / 500)) (e := (2051 / 10000)) (by norm_num) (by norm_num) (by norm_num) (by norm_num) (by norm_num) (by norm_num) (by norm_num) (by norm_num)
  have c1 := Ap.ma fused hs (asc3 md) (asc2 md) (B := (33 / 625)) (e := (303 / 5000)) (by norm_num) (by norm_num) (by norm_num) (by norm_num) (by norm_num) (by norm_num) (by norm_num) (by norm_num)
  have c2 := Ap.ma fused hs (asc5 md) (asc4 md) (B := (11 / 400)) (e := (321 / 10000)) (by norm_num) (by norm_num) (by norm_num) (by norm_num) (by norm_num) (by norm_num) (by norm_num) (by norm_num)
  have c3 := Ap.ma fused hs (asc7 md) (asc6 md) (B := (173 / 10000)) (e := (103 / 5000)) (by norm_num) (by norm_num) (by norm_num) (by norm_num) (by norm_num) (by norm_num) (by norm_num) (by norm_num)
  have c4 := Ap.ma fused hs (asc9 md) (asc8 md) (B := (3 / 250)) (e := (171 / 10000)) (by norm_num) (by norm_num) (by norm_num) (by norm_num) (by norm_num) (by norm_num) (by norm_num) (by norm_num)
  have c5 := Ap.ma fused hs (asc11 md) (asc10 md) (B := (1 / 40)) (e := (331 / 10000)) (by norm_num) (by norm_num) (by norm_num) (by norm_num) (by norm_num) (by norm_num) (by norm_num) (by norm_num)
  have x8 := Ap.mul x4 x4 (B := (1 / 250)) (e := (59 / 5000)) (by norm_num) (by norm_num) (by norm_num)
  have d0 := Ap.ma fused x4 c1 c0 (B := (1893 / 10000)) (e := (253 / 625)) (by norm_num) (by norm_num) (by norm_num) (by norm_num) (by norm_num) (by norm_num) (by norm_num) (by norm_num)
  have d1 := Ap.ma fused x4 c3 c2 (B := (143 / 5000)) (e := (321 / 5000)) (by norm_num) (by norm_num) (by norm_num) (by norm_num) (by norm_num) (by norm_num) (by norm_num) (by norm_num)
  have d2 := Ap.ma fused x4 c5 c4 (B := (17 / 1250)) (e := (359 / 10000)) (by norm_num) (by norm_num) (by norm_num) (by norm_num) (by norm_num) (by norm_num) (by norm_num) (by norm_num)
  have g := Ap.ma fused x8 d2 d1 (B := (287 / 10000)) (e := (933 / 10000)) (by norm_num) (by norm_num) (by norm_num) (by norm_num) (by norm_num) (by norm_num) (by norm_num) (by norm_num)
  have r := Ap.ma fused x8 g d0 (B := (379 / 2000)) (e := (5951 / 10000)) (by norm_num) (by norm_num) (by norm_num) (by norm_num) (by norm_num) (by norm_num) (by norm_num) (by norm_num)
  refine Ap.congr r ?_
  unfold asinP
  ring

end Verif
