import Verif.Model.Log
import Verif.Lemmas.Ap

/-! # Values of the constants of the logarithms -/

namespace Verif
open Fmt

theorem val_logP0 : binary64.Finite CC.logP0 ∧ binary64.val CC.logP0 = -1 / 2 ^ 1 := by
  refine ⟨by decide +kernel, ?_⟩
  rw [lit64 true 4503599627370496 53 (by decide +kernel) (by decide +kernel) (by decide +kernel) (by decide +kernel)]
  norm_num [sg]
theorem val_logP1 : binary64.Finite CC.logP1 ∧ binary64.val CC.logP1 = 6004799503160695 / 2 ^ 54 := by
  refine ⟨by decide +kernel, ?_⟩
  rw [lit64 false 6004799503160695 54 (by decide +kernel) (by decide +kernel) (by decide +kernel) (by decide +kernel)]
  norm_num [sg]
theorem val_logP2 : binary64.Finite CC.logP2 ∧ binary64.val CC.logP2 = -9007199254740427 / 2 ^ 55 := by
  refine ⟨by decide +kernel, ?_⟩
  rw [lit64 true 9007199254740427 55 (by decide +kernel) (by decide +kernel) (by decide +kernel) (by decide +kernel)]
  norm_num [sg]
theorem val_logP3 : binary64.Finite CC.logP3 ∧ binary64.val CC.logP3 = 1801439850886979 / 2 ^ 53 := by
  refine ⟨by decide +kernel, ?_⟩
  rw [lit64 false 7205759403547916 55 (by decide +kernel) (by decide +kernel) (by decide +kernel) (by decide +kernel)]
  norm_num [sg]
theorem val_logP4 : binary64.Finite CC.logP4 ∧ binary64.val CC.logP4 = -6004799504336295 / 2 ^ 55 := by
  refine ⟨by decide +kernel, ?_⟩
  rw [lit64 true 6004799504336295 55 (by decide +kernel) (by decide +kernel) (by decide +kernel) (by decide +kernel)]
  norm_num [sg]
theorem val_logP5 : binary64.Finite CC.logP5 ∧ binary64.val CC.logP5 = 321685705477603 / 2 ^ 51 := by
  refine ⟨by decide +kernel, ?_⟩
  rw [lit64 false 5146971287641648 55 (by decide +kernel) (by decide +kernel) (by decide +kernel) (by decide +kernel)]
  norm_num [sg]
theorem val_logP6 : binary64.Finite CC.logP6 ∧ binary64.val CC.logP6 = -9007197715578213 / 2 ^ 56 := by
  refine ⟨by decide +kernel, ?_⟩
  rw [lit64 true 9007197715578213 56 (by decide +kernel) (by decide +kernel) (by decide +kernel) (by decide +kernel)]
  norm_num [sg]
theorem val_logP7 : binary64.Finite CC.logP7 ∧ binary64.val CC.logP7 = 4003055885708133 / 2 ^ 55 := by
  refine ⟨by decide +kernel, ?_⟩
  rw [lit64 false 8006111771416266 56 (by decide +kernel) (by decide +kernel) (by decide +kernel) (by decide +kernel)]
  norm_num [sg]
theorem val_logP8 : binary64.Finite CC.logP8 ∧ binary64.val CC.logP8 = -7206110149765375 / 2 ^ 56 := by
  refine ⟨by decide +kernel, ?_⟩
  rw [lit64 true 7206110149765375 56 (by decide +kernel) (by decide +kernel) (by decide +kernel) (by decide +kernel)]
  norm_num [sg]
theorem val_logP9 : binary64.Finite CC.logP9 ∧ binary64.val CC.logP9 = 6616323965571205 / 2 ^ 56 := by
  refine ⟨by decide +kernel, ?_⟩
  rw [lit64 false 6616323965571205 56 (by decide +kernel) (by decide +kernel) (by decide +kernel) (by decide +kernel)]
  norm_num [sg]
theorem val_logP10 : binary64.Finite CC.logP10 ∧ binary64.val CC.logP10 = -6001218045429197 / 2 ^ 56 := by
  refine ⟨by decide +kernel, ?_⟩
  rw [lit64 true 6001218045429197 56 (by decide +kernel) (by decide +kernel) (by decide +kernel) (by decide +kernel)]
  norm_num [sg]
theorem val_logA0 : binary64.Finite CC.logA0 ∧ binary64.val CC.logA0 = -4503599627370497 / 2 ^ 53 := by
  refine ⟨by decide +kernel, ?_⟩
  rw [lit64 true 4503599627370497 53 (by decide +kernel) (by decide +kernel) (by decide +kernel) (by decide +kernel)]
  norm_num [sg]
theorem val_logA1 : binary64.Finite CC.logA1 ∧ binary64.val CC.logA1 = 6004799502889051 / 2 ^ 54 := by
  refine ⟨by decide +kernel, ?_⟩
  rw [lit64 false 6004799502889051 54 (by decide +kernel) (by decide +kernel) (by decide +kernel) (by decide +kernel)]
  norm_num [sg]
theorem val_logA2 : binary64.Finite CC.logA2 ∧ binary64.val CC.logA2 = -562949953336409 / 2 ^ 51 := by
  refine ⟨by decide +kernel, ?_⟩
  rw [lit64 true 9007199253382544 55 (by decide +kernel) (by decide +kernel) (by decide +kernel) (by decide +kernel)]
  norm_num [sg]
theorem val_logA3 : binary64.Finite CC.logA3 ∧ binary64.val CC.logA3 = 7205869115736337 / 2 ^ 55 := by
  refine ⟨by decide +kernel, ?_⟩
  rw [lit64 false 7205869115736337 55 (by decide +kernel) (by decide +kernel) (by decide +kernel) (by decide +kernel)]
  norm_num [sg]
theorem val_logA4 : binary64.Finite CC.logA4 ∧ binary64.val CC.logA4 = -6004939352885407 / 2 ^ 55 := by
  refine ⟨by decide +kernel, ?_⟩
  rw [lit64 true 6004939352885407 55 (by decide +kernel) (by decide +kernel) (by decide +kernel) (by decide +kernel)]
  norm_num [sg]
theorem val_logLn2hi : binary64.Finite CC.logLn2hi ∧ binary64.val CC.logLn2hi = 3048493539143 / 2 ^ 42 := by
  refine ⟨by decide +kernel, ?_⟩
  rw [lit64 false 6243314768164864 53 (by decide +kernel) (by decide +kernel) (by decide +kernel) (by decide +kernel)]
  norm_num [sg]
theorem val_logLn2lo : binary64.Finite CC.logLn2lo ∧ binary64.val CC.logLn2lo = 544487923021427 / 2 ^ 93 := by
  refine ⟨by decide +kernel, ?_⟩
  rw [lit64 false 8711806768342832 97 (by decide +kernel) (by decide +kernel) (by decide +kernel) (by decide +kernel)]
  norm_num [sg]
theorem val_logAf0 : binary64.Finite CC.logAf0 ∧ binary64.val CC.logAf0 = -1129923522470093 / 2 ^ 52 := by
  refine ⟨by decide +kernel, ?_⟩
  rw [lit64 true 4519694089880372 54 (by decide +kernel) (by decide +kernel) (by decide +kernel) (by decide +kernel)]
  norm_num [sg]
theorem val_logAf1 : binary64.Finite CC.logAf1 ∧ binary64.val CC.logAf1 = 3003511531898293 / 2 ^ 53 := by
  refine ⟨by decide +kernel, ?_⟩
  rw [lit64 false 6007023063796586 54 (by decide +kernel) (by decide +kernel) (by decide +kernel) (by decide +kernel)]
  norm_num [sg]
theorem val_logAf2 : binary64.Finite CC.logAf2 ∧ binary64.val CC.logAf2 = -9007194725564707 / 2 ^ 54 := by
  refine ⟨by decide +kernel, ?_⟩
  rw [lit64 true 9007194725564707 54 (by decide +kernel) (by decide +kernel) (by decide +kernel) (by decide +kernel)]
  norm_num [sg]
theorem val_logLn2f : binary64.Finite CC.logLn2f ∧ binary64.val CC.logLn2f = 6243314768165359 / 2 ^ 53 := by
  refine ⟨by decide +kernel, ?_⟩
  rw [lit64 false 6243314768165359 53 (by decide +kernel) (by decide +kernel) (by decide +kernel) (by decide +kernel)]
  norm_num [sg]
theorem val_log2P0 : binary64.Finite CC.log2P0 ∧ binary64.val CC.log2P0 = -3248660424278399 / 2 ^ 52 := by
  refine ⟨by decide +kernel, ?_⟩
  rw [lit64 true 6497320848556798 53 (by decide +kernel) (by decide +kernel) (by decide +kernel) (by decide +kernel)]
  norm_num [sg]
theorem val_log2P1 : binary64.Finite CC.log2P1 ∧ binary64.val CC.log2P1 = 8663094464742391 / 2 ^ 54 := by
  refine ⟨by decide +kernel, ?_⟩
  rw [lit64 false 8663094464742391 54 (by decide +kernel) (by decide +kernel) (by decide +kernel) (by decide +kernel)]
  norm_num [sg]
theorem val_log2P2 : binary64.Finite CC.log2P2 ∧ binary64.val CC.log2P2 = -6497320848555071 / 2 ^ 54 := by
  refine ⟨by decide +kernel, ?_⟩
  rw [lit64 true 6497320848555071 54 (by decide +kernel) (by decide +kernel) (by decide +kernel) (by decide +kernel)]
  norm_num [sg]
theorem val_log2P3 : binary64.Finite CC.log2P3 ∧ binary64.val CC.log2P3 = 1299464169723641 / 2 ^ 52 := by
  refine ⟨by decide +kernel, ?_⟩
  rw [lit64 false 5197856678894564 54 (by decide +kernel) (by decide +kernel) (by decide +kernel) (by decide +kernel)]
  norm_num [sg]
theorem val_log2P4 : binary64.Finite CC.log2P4 ∧ binary64.val CC.log2P4 = -8663094485487589 / 2 ^ 55 := by
  refine ⟨by decide +kernel, ?_⟩
  rw [lit64 true 8663094485487589 55 (by decide +kernel) (by decide +kernel) (by decide +kernel) (by decide +kernel)]
  norm_num [sg]
theorem val_log2P5 : binary64.Finite CC.log2P5 ∧ binary64.val CC.log2P5 = 3712754672366491 / 2 ^ 54 := by
  refine ⟨by decide +kernel, ?_⟩
  rw [lit64 false 7425509344732982 55 (by decide +kernel) (by decide +kernel) (by decide +kernel) (by decide +kernel)]
  norm_num [sg]
theorem val_log2P6 : binary64.Finite CC.log2P6 ∧ binary64.val CC.log2P6 = -6497287952181147 / 2 ^ 55 := by
  refine ⟨by decide +kernel, ?_⟩
  rw [lit64 true 6497287952181147 55 (by decide +kernel) (by decide +kernel) (by decide +kernel) (by decide +kernel)]
  norm_num [sg]
theorem val_log2P7 : binary64.Finite CC.log2P7 ∧ binary64.val CC.log2P7 = 2887767071133093 / 2 ^ 54 := by
  refine ⟨by decide +kernel, ?_⟩
  rw [lit64 false 5775534142266186 55 (by decide +kernel) (by decide +kernel) (by decide +kernel) (by decide +kernel)]
  norm_num [sg]
theorem val_log2P8 : binary64.Finite CC.log2P8 ∧ binary64.val CC.log2P8 = -1304541182758415 / 2 ^ 53 := by
  refine ⟨by decide +kernel, ?_⟩
  rw [lit64 true 5218164731033660 55 (by decide +kernel) (by decide +kernel) (by decide +kernel) (by decide +kernel)]
  norm_num [sg]
theorem val_log2P9 : binary64.Finite CC.log2P9 ∧ binary64.val CC.log2P9 = 2350307374626611 / 2 ^ 54 := by
  refine ⟨by decide +kernel, ?_⟩
  rw [lit64 false 4700614749253222 55 (by decide +kernel) (by decide +kernel) (by decide +kernel) (by decide +kernel)]
  norm_num [sg]
theorem val_log2A0 : binary64.Finite CC.log2A0 ∧ binary64.val CC.log2A0 = -6497320848556857 / 2 ^ 53 := by
  refine ⟨by decide +kernel, ?_⟩
  rw [lit64 true 6497320848556857 53 (by decide +kernel) (by decide +kernel) (by decide +kernel) (by decide +kernel)]
  norm_num [sg]
theorem val_log2A1 : binary64.Finite CC.log2A1 ∧ binary64.val CC.log2A1 = 4331547232371295 / 2 ^ 53 := by
  refine ⟨by decide +kernel, ?_⟩
  rw [lit64 false 8663094464742590 54 (by decide +kernel) (by decide +kernel) (by decide +kernel) (by decide +kernel)]
  norm_num [sg]
theorem val_log2A2 : binary64.Finite CC.log2A2 ∧ binary64.val CC.log2A2 = -6497320836280315 / 2 ^ 54 := by
  refine ⟨by decide +kernel, ?_⟩
  rw [lit64 true 6497320836280315 54 (by decide +kernel) (by decide +kernel) (by decide +kernel) (by decide +kernel)]
  norm_num [sg]
theorem val_log2A3 : binary64.Finite CC.log2A3 ∧ binary64.val CC.log2A3 = 649732082919817 / 2 ^ 51 := by
  refine ⟨by decide +kernel, ?_⟩
  rw [lit64 false 5197856663358536 54 (by decide +kernel) (by decide +kernel) (by decide +kernel) (by decide +kernel)]
  norm_num [sg]
theorem val_log2A4 : binary64.Finite CC.log2A4 ∧ binary64.val CC.log2A4 = -2165955400213679 / 2 ^ 53 := by
  refine ⟨by decide +kernel, ?_⟩
  rw [lit64 true 8663821600854716 55 (by decide +kernel) (by decide +kernel) (by decide +kernel) (by decide +kernel)]
  norm_num [sg]
theorem val_log2A5 : binary64.Finite CC.log2A5 ∧ binary64.val CC.log2A5 = 3713132112116887 / 2 ^ 54 := by
  refine ⟨by decide +kernel, ?_⟩
  rw [lit64 false 7426264224233774 55 (by decide +kernel) (by decide +kernel) (by decide +kernel) (by decide +kernel)]
  norm_num [sg]
theorem val_log2Inv_hi : binary64.Finite CC.log2Inv_hi ∧ binary64.val CC.log2Inv_hi = 3098164009 / 2 ^ 31 := by
  refine ⟨by decide +kernel, ?_⟩
  rw [lit64 false 6497320847802368 52 (by decide +kernel) (by decide +kernel) (by decide +kernel) (by decide +kernel)]
  norm_num [sg]
theorem val_log2Inv_lo : binary64.Finite CC.log2Inv_lo ∧ binary64.val CC.log2Inv_lo = 12657236604881 / 2 ^ 76 := by
  refine ⟨by decide +kernel, ?_⟩
  rw [lit64 false 6480505141699072 85 (by decide +kernel) (by decide +kernel) (by decide +kernel) (by decide +kernel)]
  norm_num [sg]
theorem val_log2Af0 : binary64.Finite CC.log2Af0 ∧ binary64.val CC.log2Af0 = -6494501502352973 / 2 ^ 54 := by
  refine ⟨by decide +kernel, ?_⟩
  rw [lit64 true 6494501502352973 54 (by decide +kernel) (by decide +kernel) (by decide +kernel) (by decide +kernel)]
  norm_num [sg]
theorem val_log2Af1 : binary64.Finite CC.log2Af1 ∧ binary64.val CC.log2Af1 = 270849131889047 / 2 ^ 49 := by
  refine ⟨by decide +kernel, ?_⟩
  rw [lit64 false 8667172220449504 54 (by decide +kernel) (by decide +kernel) (by decide +kernel) (by decide +kernel)]
  norm_num [sg]
theorem val_log2Af2 : binary64.Finite CC.log2Af2 ∧ binary64.val CC.log2Af2 = -3248660917613039 / 2 ^ 52 := by
  refine ⟨by decide +kernel, ?_⟩
  rw [lit64 true 6497321835226078 53 (by decide +kernel) (by decide +kernel) (by decide +kernel) (by decide +kernel)]
  norm_num [sg]
theorem val_log2Af3 : binary64.Finite CC.log2Af3 ∧ binary64.val CC.log2Af3 = 812165093570839 / 2 ^ 49 := by
  refine ⟨by decide +kernel, ?_⟩
  rw [lit64 false 6497320748566712 52 (by decide +kernel) (by decide +kernel) (by decide +kernel) (by decide +kernel)]
  norm_num [sg]

end Verif
