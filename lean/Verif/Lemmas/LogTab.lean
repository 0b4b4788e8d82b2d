import Verif.Lemmas.Log1
import Verif.Lemmas.LogRed

/-!
# The tables of the double logarithms, checked by kernel evaluation
-/

namespace Verif
open Fmt Real

/-- the check for one entry: `c = chi + clo`; `Λn / Λd` is the factor of `logc` (1 or an approximation of `log 2`), `zl`, `zh` the ends of the subinterval, `ρ` (in
millionths) the bound of `|z - c| / c` -/
def logTabOk (ic lc ch cl zl zh Λn Λd ρ : ℕ) : Bool :=
  let C := ints 112 ch + ints 112 cl
  let c := C.toNat
  let L := ints 112 lc
  intsOk 112 ic && intsOk 112 lc && intsOk 112 ch && intsOk 112 cl && intsOk 112 zl && intsOk 112 zh &&
  decide (2 ^ 111 ≤ C) && decide (C ≤ 2 ^ 113) &&
  decide ((ints 112 ic * C - 2 ^ 224).natAbs ≤ 2 ^ 124) &&
  decide ((ints 112 zl - C).natAbs * 10 ^ 6 ≤ ρ * c) && decide ((ints 112 zh - C).natAbs * 10 ^ 6 ≤ ρ * c) &&
  decide (L % 2 ^ 69 = 0) && decide ((ints 112 cl).natAbs ≤ 2 ^ 59) && decide (L.natAbs * Λn ≤ 2 ^ 112 * Λd) &&
  decide ((ints 112 ch) % 2 ^ 59 = 0) &&
  (if 0 ≤ L then logChk 66 c (2 ^ 112) (L.natAbs * Λn) (2 ^ 112 * Λd) else logChk 66 (2 ^ 112) c (L.natAbs * Λn) (2 ^ 112 * Λd))

theorem mult_of_ints {v : ℝ} {n : ℤ} (p q : ℕ) (hv : v = (n : ℝ) / 2 ^ (p + q)) (h : n % 2 ^ p = 0) : Mult (-(q : ℤ)) v := by
  obtain ⟨m, hm⟩ := Int.dvd_of_emod_eq_zero h
  refine ⟨m, ?_⟩
  rw [hv, hm, zpow_neg, zpow_natCast, pow_add]
  push_cast
  field_simp

theorem natAbs_le_real {a : ℤ} {b : ℕ} (h : a.natAbs ≤ b) : |(a : ℝ)| ≤ b := by
  have : ((a.natAbs : ℕ) : ℝ) ≤ b := by exact_mod_cast h
  rwa [Nat.cast_natAbs, Int.cast_abs] at this

theorem logTabOk_spec {ic lc ch cl zl zh Λn Λd ρ : ℕ} (h : logTabOk ic lc ch cl zl zh Λn Λd ρ = true) (hΛ : 0 < Λd) :
    binary64.Finite ic ∧ binary64.Finite lc ∧ binary64.Finite ch ∧ binary64.Finite cl ∧
    1 / 2 ≤ binary64.val ch + binary64.val cl ∧ binary64.val ch + binary64.val cl ≤ 2 ∧
    |binary64.val ic * (binary64.val ch + binary64.val cl) - 1| ≤ 1 / 2 ^ 100 ∧
    Mult (-43) (binary64.val lc) ∧ |binary64.val cl| ≤ 1 / 2 ^ 53 ∧ Mult (-53) (binary64.val ch) ∧
    |binary64.val lc| * (Λn / Λd) ≤ 1 ∧
    |log (binary64.val ch + binary64.val cl) - binary64.val lc * (Λn / Λd)| ≤ 101 / 100 / 2 ^ 66 ∧
    (∀ z : ℝ, binary64.val zl ≤ z → z ≤ binary64.val zh → |z - (binary64.val ch + binary64.val cl)| ≤ ρ / 10 ^ 6 * (binary64.val ch + binary64.val cl)) := by
  unfold logTabOk at h
  simp only [Bool.and_eq_true, decide_eq_true_eq] at h
  obtain ⟨⟨⟨⟨⟨⟨⟨⟨⟨⟨⟨⟨⟨⟨⟨h1, h2⟩, h3⟩, h4⟩, h5⟩, h6⟩, h7⟩, h8⟩, h9⟩, h10⟩, h11⟩, h12⟩, h13⟩, h14⟩, h16⟩, h15⟩ := h
  obtain ⟨f1, v1⟩ := intsOk_spec h1
  obtain ⟨f2, v2⟩ := intsOk_spec h2
  obtain ⟨f3, v3⟩ := intsOk_spec h3
  obtain ⟨f4, v4⟩ := intsOk_spec h4
  obtain ⟨f5, v5⟩ := intsOk_spec h5
  obtain ⟨f6, v6⟩ := intsOk_spec h6
  have mlc := mult_of_ints 69 43 v2 h12
  have mch := mult_of_ints 59 53 v3 h16
  rw [v1, v2, v3, v4, v5, v6]
  generalize ints 112 ic = I at *
  generalize ints 112 lc = L at *
  generalize ints 112 ch = CH at *
  generalize ints 112 cl = CL at *
  generalize ints 112 zl = ZL at *
  generalize ints 112 zh = ZH at *
  obtain ⟨c, hc⟩ : ∃ c : ℕ, CH + CL = c := ⟨(CH + CL).toNat, by omega⟩
  have hcr : (CH : ℝ) / 2 ^ 112 + (CL : ℝ) / 2 ^ 112 = c / 2 ^ 112 := by
    rw [← add_div]; congr 1; exact_mod_cast hc
  rw [hc] at h7 h8 h9 h10 h11 h15
  rw [Int.toNat_natCast] at h10 h11 h15
  rw [hcr]
  have hc1 : (2 : ℝ) ^ 111 ≤ c := by exact_mod_cast h7
  have hc2 : (c : ℝ) ≤ 2 ^ 113 := by exact_mod_cast h8
  have hc0 : 0 < c := by have : (0 : ℝ) < c := lt_of_lt_of_le (by positivity) hc1
                         exact_mod_cast this
  have hΛ' : (0 : ℝ) < Λd := by exact_mod_cast hΛ
  have hLabs : |(L : ℝ)| = (L.natAbs : ℝ) := by rw [Nat.cast_natAbs, Int.cast_abs]
  have hLe : |(L : ℝ) / 2 ^ 112| * (Λn / Λd) = ((L.natAbs * Λn : ℕ) : ℝ) / ((2 ^ 112 * Λd : ℕ) : ℝ) := by
    rw [abs_div, hLabs, abs_of_pos (show (0 : ℝ) < 2 ^ 112 by positivity)]
    rw [Nat.cast_mul, Nat.cast_mul, Nat.cast_pow, Nat.cast_ofNat]
    field_simp
  have hpos : 0 < 2 ^ 112 * Λd := by positivity
  refine ⟨f1, f2, f3, f4, ?_, ?_, ?_, by rwa [← v2], ?_, by rwa [← v3], ?_, ?_, ?_⟩
  · rw [le_div_iff₀ (by positivity)]; norm_num at hc1 ⊢; linarith
  · rw [div_le_iff₀ (by positivity)]; norm_num at hc2 ⊢; linarith
  · have := natAbs_le_real h9
    rw [Int.cast_sub, Int.cast_mul, Int.cast_natCast, Int.cast_pow, Int.cast_ofNat] at this
    have e : (I : ℝ) / 2 ^ 112 * (c / 2 ^ 112) - 1 = (I * c - 2 ^ 224) / 2 ^ 224 := by
      rw [sub_div, div_mul_div_comm, ← pow_add, div_self (by positivity)]
    rw [e, abs_div, abs_of_pos (show (0 : ℝ) < 2 ^ 224 by positivity), div_le_iff₀ (by positivity)]
    refine this.trans ?_
    norm_num
  · have := natAbs_le_real h13
    rw [abs_div, abs_of_pos (show (0 : ℝ) < 2 ^ 112 by positivity), div_le_iff₀ (by positivity)]
    refine this.trans ?_
    norm_num
  · rw [hLe, div_le_one (by exact_mod_cast hpos)]
    exact_mod_cast h14
  · have hb : (1 : ℝ) / 2 ^ 66 + 1 / 2 ^ 104 + 4 / 2 ^ (2 * 66) ≤ 101 / 100 / 2 ^ 66 := by norm_num
    split_ifs at h15 with hs
    · have := logChk_sound h15 (by positivity) hpos h14 (by norm_num)
      rw [← hLe] at this
      have hL0 : (0 : ℝ) ≤ L := by exact_mod_cast hs
      rw [abs_of_nonneg (show (0 : ℝ) ≤ L / 2 ^ 112 by positivity)] at this
      rw [Nat.cast_pow, Nat.cast_ofNat] at this
      exact this.trans (by norm_num)
    · have := logChk_sound h15 hc0 hpos h14 (by norm_num)
      rw [← hLe] at this
      have hL0 : (L : ℝ) < 0 := by exact_mod_cast not_le.1 hs
      rw [abs_of_neg (show (L : ℝ) / 2 ^ 112 < 0 from div_neg_of_neg_of_pos hL0 (by positivity))] at this
      have e : log (((2 ^ 112 : ℕ) : ℝ) / c) = -log (c / 2 ^ 112) := by
        rw [← log_inv, inv_div, Nat.cast_pow, Nat.cast_ofNat]
      rw [e, show -log (c / 2 ^ 112) - -((L : ℝ) / 2 ^ 112) * (Λn / Λd) = -(log (c / 2 ^ 112) - (L : ℝ) / 2 ^ 112 * (Λn / Λd)) by ring, abs_neg] at this
      exact this.trans (by norm_num)
  · intro z hz1 hz2
    have g1 : |(ZL : ℝ) - c| * 10 ^ 6 ≤ ρ * c := by
      have := (Nat.cast_le (α := ℝ)).2 h10
      rw [Nat.cast_mul, Nat.cast_mul, Nat.cast_natAbs, Int.cast_abs, Int.cast_sub, Int.cast_natCast, Nat.cast_pow, Nat.cast_ofNat] at this
      exact this
    have g2 : |(ZH : ℝ) - c| * 10 ^ 6 ≤ ρ * c := by
      have := (Nat.cast_le (α := ℝ)).2 h11
      rw [Nat.cast_mul, Nat.cast_mul, Nat.cast_natAbs, Int.cast_abs, Int.cast_sub, Int.cast_natCast, Nat.cast_pow, Nat.cast_ofNat] at this
      exact this
    have k1 := (abs_le.1 (show |(ZL : ℝ) - c| ≤ ρ * c / 10 ^ 6 by rw [le_div_iff₀ (by positivity)]; exact g1)).1
    have k2 := (abs_le.1 (show |(ZH : ℝ) - c| ≤ ρ * c / 10 ^ 6 by rw [le_div_iff₀ (by positivity)]; exact g2)).2
    have e : (ρ : ℝ) / 10 ^ 6 * (c / 2 ^ 112) = (ρ * c / 10 ^ 6) / 2 ^ 112 := by ring
    rw [e, abs_le]
    constructor
    · have : -((ρ * c / 10 ^ 6 : ℝ)) / 2 ^ 112 ≤ ((ZL : ℝ) - c) / 2 ^ 112 := div_le_div_of_nonneg_right k1 (by positivity)
      rw [sub_div, neg_div] at this
      linarith
    · have : ((ZH : ℝ) - c) / 2 ^ 112 ≤ (ρ * c / 10 ^ 6 : ℝ) / 2 ^ 112 := div_le_div_of_nonneg_right k2 (by positivity)
      rw [sub_div] at this
      linarith

/-- all entries of the table of `log` pass -/
theorem logTab_ok : ∀ i < 128, logTabOk (CC.logInvc.getD i 0) (CC.logLogc.getD i 0) (CC.logChi.getD i 0) (CC.logClo.getD i 0) (0x3fe6000000000000 + i * 2 ^ 45)
    (0x3fe6000000000000 + (i + 1) * 2 ^ 45) 1 1 3892 = true := by decide +kernel

/-- numerator of `log 2`, denominator `2^160` -/
def ln2N : ℕ := 1013035739299659071135698605846798551586536899300

/-- all entries of the table of `log2` pass -/
theorem log2Tab_ok : ∀ i < 64, logTabOk (CC.log2Invc.getD i 0) (CC.log2Logc.getD i 0) (CC.log2Chi.getD i 0) (CC.log2Clo.getD i 0) (0x3fe6000000000000 + i * 2 ^ 46)
    (0x3fe6000000000000 + (i + 1) * 2 ^ 46) ln2N (2 ^ 160) 7752 = true := by decide +kernel

end Verif
