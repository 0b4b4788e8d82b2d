import Verif.Lemmas.SinCosF2
import Verif.Lemmas.SinCos5
import Verif.Lemmas.Dio

/-!
# Lemmas for float sine and cosine: reduction of small arguments
-/

namespace Verif
open Fmt

theorem rep32 (g : ℤ) {v : ℝ} (hm : Mult g v) (hg : -149 ≤ g) (h1 : |v| ≤ (2 : ℝ) ^ (g + 24)) (h2 : |v| ≤ 2 ^ 100) :
    ∃ c, binary32.Finite c ∧ binary32.val c = v := by
  refine binary32.rep (g := g) hm (by exact hg) ?_ ?_
  · have : g + (binary32.F : ℤ) + 1 = g + 24 := by
      have : binary32.F = 23 := rfl
      rw [this]; push_cast; ring
    rw [this]; exact h1
  · exact lt_of_le_of_lt (bigf_ge h2) (two_zpow_lt (by decide +kernel))

/-- an exact product (needed only without a fused operation) and a representable sum -/
theorem ma32_ex (fused : Bool) (m : Mode) {x y z q : ℕ} (hx : binary32.Finite x) (hy : binary32.Finite y) (hz : binary32.Finite z)
    (hp : fused = false → ∃ p, binary32.Finite p ∧ binary32.val p = binary32.val x * binary32.val y)
    (hq : binary32.Finite q) (hqv : binary32.val q = binary32.val x * binary32.val y + binary32.val z) :
    binary32.Finite (CC.multiplyAdd binary32 fused m x y z) ∧
      binary32.val (CC.multiplyAdd binary32 fused m x y z) = binary32.val x * binary32.val y + binary32.val z := by
  unfold CC.multiplyAdd
  cases fused
  · obtain ⟨p, hp, hpv⟩ := hp rfl
    have e := RoundsTo.exact binary32 hp hpv (binary32.hmul_spec m hx hy)
    have R := binary32.hadd_spec m e.1 hz
    rw [e.2] at R
    exact RoundsTo.exact binary32 hq hqv R
  · exact RoundsTo.exact binary32 hq hqv (hfma_spec binary32 m)

/-- an exact product: one rounding -/
theorem ma32_one (fused : Bool) (m : Mode) {x y z : ℕ} (hx : binary32.Finite x) (hy : binary32.Finite y) (hz : binary32.Finite z)
    (hp : fused = false → ∃ p, binary32.Finite p ∧ binary32.val p = binary32.val x * binary32.val y)
    (hb : |binary32.val x * binary32.val y + binary32.val z| ≤ 2 ^ 100) :
    binary32.Finite (CC.multiplyAdd binary32 fused m x y z) ∧
      |binary32.val (CC.multiplyAdd binary32 fused m x y z) - (binary32.val x * binary32.val y + binary32.val z)| ≤
        ruf m * |binary32.val x * binary32.val y + binary32.val z| + etaf := by
  unfold CC.multiplyAdd
  cases fused
  · obtain ⟨p, hp, hpv⟩ := hp rfl
    have e := RoundsTo.exact binary32 hp hpv (binary32.hmul_spec m hx hy)
    have R := binary32.hadd_spec m e.1 hz
    rw [e.2] at R
    exact err32 R hb
  · exact err32 (hfma_spec binary32 m) hb

theorem toInt32f_spec {k : ℕ} {n : ℤ} (hk : binary32.Finite k) (hv : binary32.val k = n) (h1 : -2 ^ 31 ≤ n) (h2 : n < 2 ^ 31) :
    CC.toInt32 binary32 k = some n := by
  obtain ⟨b1, b2⟩ := binary32.finite_B hk
  have hU := binary32.uscale_pos
  have e : binary32.ival k = n * binary32.uscale := by
    rw [binary32.val_eq_ival] at hv
    have hUm := binary32.uscale_minSub
    have : (binary32.ival k : ℝ) = n * binary32.uscale := by
      calc (binary32.ival k : ℝ) = binary32.ival k * (binary32.uscale * binary32.minSub) := by rw [hUm, mul_one]
        _ = (binary32.ival k * binary32.minSub) * binary32.uscale := by ring
        _ = _ := by rw [hv]
    exact_mod_cast this
  unfold CC.toInt32
  rw [b1, b2]
  simp only [Bool.or_self, Bool.false_eq_true, if_false]
  have e2 : (binary32.ival k).tdiv binary32.uscale = n := by
    rw [e]; exact Int.mul_tdiv_cancel _ (by exact_mod_cast hU.ne')
  rw [e2, if_pos ⟨h1, h2⟩]

theorem ni32 (ce : Bool) (md : Mode) (hce : ce = true → md = .nearest) {x : ℕ} (hx : binary32.Finite x) (hb : |binary32.val x| ≤ 2 ^ 21) :
    binary32.Finite (CC.nearestInteger binary32 ce md x) ∧
      ∃ n : ℤ, binary32.val (CC.nearestInteger binary32 ce md x) = n ∧ |binary32.val x - n| ≤ 1 / 2 + 1 / 2 ^ 24 := by
  have hbias : (binary32.F : ℤ) + 2 ≤ binary32.bias := by decide +kernel
  cases ce
  · obtain ⟨h1, n, h2, h3⟩ := C44_directed_partial binary32 binary32_wide hbias md hx
    refine ⟨h1, n, h2, ?_⟩
    have : (2 : ℝ) ^ (-(binary32.F : ℤ) - 1) = 1 / 2 ^ 24 := by
      have : (-(binary32.F : ℤ) - 1) = -((24 : ℕ) : ℤ) := by decide +kernel
      rw [this, zpow_neg, zpow_natCast, one_div]
    rwa [this] at h3
  · rw [hce rfl]
    have : |binary32.val x| < (2 : ℝ) ^ (binary32.F : ℤ) := by
      refine lt_of_le_of_lt hb ?_
      rw [zpow_natCast]
      exact pow_lt_pow_right₀ (by norm_num) (by decide +kernel)
    obtain ⟨h1, n, h2, h3, -⟩ := C44_nearest_even binary32 binary32_wide hbias true hx this
    exact ⟨h1, n, h2, le_trans h3 (by norm_num)⟩

theorem val_oopf : binary32.val CC.oneOverPif = 0xa2f983 / 2 ^ 22 := by
  rw [lit32 false 0xa2f983 22 (by decide +kernel) (by decide +kernel) (by decide +kernel) (by decide +kernel)]
  simp [sg]
theorem val_mpif0 : binary32.val CC.mpif0 = -(0x3243f / 2 ^ 19) := by
  rw [lit32 true 0xc90fc0 25 (by decide +kernel) (by decide +kernel) (by decide +kernel) (by decide +kernel)]
  norm_num [sg]
theorem val_mpif1 : binary32.val CC.mpif1 = -(0xd511 / 2 ^ 36) := by
  rw [lit32 true 0xd51100 44 (by decide +kernel) (by decide +kernel) (by decide +kernel) (by decide +kernel)]
  norm_num [sg]
theorem val_mpif2 : binary32.val CC.mpif2 = -(0xb4611a / 2 ^ 64) := by
  rw [lit32 true 0xb4611a 64 (by decide +kernel) (by decide +kernel) (by decide +kernel) (by decide +kernel)]
  norm_num [sg]

theorem mpif_const : |binary32.val CC.oneOverPif * (Real.pi / 8) - 1| ≤ 1 / 2 ^ 24 ∧ |Real.pi / 8 + binary32.val CC.mpif0| ≤ 8 / 10 ^ 7 ∧
    |Real.pi / 8 + binary32.val CC.mpif0 + binary32.val CC.mpif1| ≤ 1 / 2 ^ 40 ∧
    |Real.pi / 8 + binary32.val CC.mpif0 + binary32.val CC.mpif1 + binary32.val CC.mpif2| ≤ 0.8 / 2 ^ 65 := by
  rw [val_oopf, val_mpif0, val_mpif1, val_mpif2]
  obtain ⟨a, b⟩ := pi_250
  refine ⟨?_, ?_, ?_, ?_⟩ <;> rw [abs_le] <;> constructor <;> linarith

theorem distf_pi {X P K c O : ℝ} (hX : |X| ≤ 2 ^ 18) (hc : 0 < c) (hc1 : c ≤ 0.3927) (hP : |P - X * O| ≤ 0.08) (hK : |P - K| ≤ 1 / 2 + 1 / 2 ^ 24)
    (hO : |O * c - 1| ≤ 1 / 2 ^ 24) : |X - K * c| ≤ 0.244 := by
  have h1 : |X * O - K| ≤ 0.08 + (1 / 2 + 1 / 2 ^ 24) := abs_tri (by rw [abs_sub_comm]; exact hP) hK
  have h2 : |(X * O - K) * c| ≤ (0.08 + (1 / 2 + 1 / 2 ^ 24)) * 0.3927 := by
    refine abs_mul_le h1 ?_
    rw [abs_of_pos hc]; exact hc1
  have h3 := abs_mul_le hX hO
  have e : X - K * c = (X * O - K) * c + -(X * (O * c - 1)) := by ring
  rw [e]
  refine le_trans (abs_add_le' h2 ((abs_neg _).le.trans h3)) ?_
  norm_num

/-- the last step of the reduction -/
theorem redf_last {u η V u1 t T r Y w : ℝ} (hu : 0 < u) (hu2 : u ≤ 1 / 2 ^ 23) (hη : 0 < η) (hη2 : η ≤ 1 / 2 ^ 100)
    (h1 : u1 = V ∨ (1 / 2 ^ 12 ≤ |V| ∧ |u1 - V| ≤ u * |V| + η)) (ht : |t| ≤ 1 / 2 ^ 20) (hT : |V + t - Y| ≤ T) (hT2 : T ≤ 1 / 2 ^ 45)
    (hw : 0 ≤ w) (hr : |r - (t + u1)| ≤ u * |t + u1| + w) :
    |r - Y| ≤ (2 + 1 / 2 ^ 6) * u * |Y| + (1 + 1 / 2 ^ 10) * T + w + 2 * η := by
  have hY : |V + t| ≤ |Y| + T := abs_near hT le_rfl
  have k1 : 0 ≤ u * |Y| := by positivity
  have hT0 : 0 ≤ T := le_trans (abs_nonneg _) hT
  have k2 : u * T ≤ 1 / 2 ^ 23 * T := mul_le_mul_of_nonneg_right hu2 hT0
  have k3 : u * η ≤ 1 / 2 ^ 23 * η := mul_le_mul_of_nonneg_right hu2 hη.le
  rcases h1 with rfl | ⟨hV, hu1⟩
  · rw [add_comm t u1] at hr
    have h2 := mul_le_mul_of_nonneg_left hY hu.le
    have h3 := abs_tri hr hT
    refine le_trans h3 ?_
    nlinarith
  · have h2 : |t + u1 - (V + t)| ≤ u * |V| + η := by
      have : t + u1 - (V + t) = u1 - V := by ring
      rw [this]; exact hu1
    have h3 : |V| ≤ |Y| + T + 1 / 2 ^ 20 := by
      have : V = (V + t) + -t := by ring
      rw [this]; exact abs_add_le' hY (by rw [abs_neg]; exact ht)
    have h4 : |t + u1| ≤ |Y| + T + (u * |V| + η) := abs_near h2 hY
    have h5 := abs_tri (abs_tri hr h2) hT
    refine le_trans h5 ?_
    have m1 := mul_le_mul_of_nonneg_left h4 hu.le
    have m2 := mul_le_mul_of_nonneg_left h3 hu.le
    have m3 : u * (u * |V|) ≤ 1 / 2 ^ 23 * (u * |V|) := mul_le_mul_of_nonneg_right hu2 (by positivity)
    have m5 : 1 / 2 ^ 13 ≤ |Y| := by
      have : (1 : ℝ) / 2 ^ 13 + 1 / 2 ^ 45 + 1 / 2 ^ 20 ≤ 1 / 2 ^ 12 := by norm_num
      linarith
    have m6 : u * (1 / 2 ^ 13) ≤ u * |Y| := mul_le_mul_of_nonneg_left m5 hu.le
    nlinarith

theorem sincosfSmall_spec (ce fused : Bool) (md : Mode) (hce : ce = true → md = .nearest) {x : ℕ} (hx : binary32.Finite x) (hb : |binary32.val x| ≤ 2 ^ 18)
    (hf : fused = true ∨ |binary32.val x| ≤ 31) :
    ∃ (K : ℤ) (y : ℕ), CC.sincosfSmall ce fused md x = some ((K % 2 ^ 32).toNat, y) ∧ binary32.Finite y ∧
      |binary32.val x - K * (Real.pi / 8)| ≤ 0.244 ∧ |(K : ℝ)| ≤ 2 ^ 20 ∧ (fused = false → |(K : ℝ)| ≤ 80) ∧
      (K = 0 → binary32.val y = binary32.val x) ∧
      |binary32.val y - (binary32.val x - K * (Real.pi / 8))| ≤
        (2 + 1 / 2 ^ 6) * ruf md * |binary32.val x - K * (Real.pi / 8)| + |(K : ℝ)| * (if fused then 1 / 2 ^ 65 else 1 / 2 ^ 61) := by
  have hu := ruf_pos md
  have hu2 := ruf_le md
  have hη := etaf_pos
  have hη2 := etaf_le
  obtain ⟨c1, c2, c3, c4⟩ := mpif_const
  have fO : binary32.Finite CC.oneOverPif := by decide +kernel
  have f0 : binary32.Finite CC.mpif0 := by decide +kernel
  have f1 : binary32.Finite CC.mpif1 := by decide +kernel
  have f2 : binary32.Finite CC.mpif2 := by decide +kernel
  have bO : |binary32.val CC.oneOverPif| ≤ 2.547 := by rw [val_oopf, abs_of_pos (by positivity)]; norm_num
  have b0 : |binary32.val CC.mpif0| ≤ 0.3928 := by rw [val_mpif0, abs_neg, abs_of_pos (by positivity)]; norm_num
  have b1 : |binary32.val CC.mpif1| ≤ 8 / 10 ^ 7 := by rw [val_mpif1, abs_neg, abs_of_pos (by positivity)]; norm_num
  have b2 : |binary32.val CC.mpif2| ≤ 1 / 2 ^ 40 := by rw [val_mpif2, abs_neg, abs_of_pos (by positivity)]; norm_num
  obtain ⟨pi1, pi2⟩ := pi_near
  unfold CC.sincosfSmall
  dsimp only
  have bXO := abs_mul_le hb bO
  obtain ⟨fP, eP⟩ := mul32_err md hx fO (le_trans bXO (by norm_num))
  generalize binary32.hmul md x CC.oneOverPif = P at *
  have eP' : |binary32.val P - binary32.val x * binary32.val CC.oneOverPif| ≤ 0.08 := by
    refine le_trans eP ?_
    have : ruf md * |binary32.val x * binary32.val CC.oneOverPif| ≤ 1 / 2 ^ 23 * (2 ^ 18 * 2.547) := mul_le_mul hu2 bXO (abs_nonneg _) (by positivity)
    have : (1 : ℝ) / 2 ^ 23 * (2 ^ 18 * 2.547) + 1 / 2 ^ 100 ≤ 0.08 := by norm_num
    linarith
  have bP : |binary32.val P| ≤ 2 ^ 18 * 2.547 + 0.08 := abs_near eP' bXO
  obtain ⟨fk, n, vk, en⟩ := ni32 ce md hce fP (le_trans bP (by norm_num))
  generalize CC.nearestInteger binary32 ce md P = k at *
  have hd := distf_pi hb (by linarith : 0 < Real.pi / 8) (by linarith) eP' en c1
  have hnX : |(n : ℝ)| * (Real.pi / 8) ≤ |binary32.val x| + 0.244 := by
    have : |(n : ℝ) * (Real.pi / 8)| ≤ |binary32.val x| + 0.244 := abs_near (by rw [abs_sub_comm]; exact hd) le_rfl
    rwa [abs_mul, abs_of_pos (by linarith : 0 < Real.pi / 8)] at this
  have bn : |(n : ℝ)| ≤ 668000 := by
    have : |(n : ℝ)| * 0.3926 ≤ |(n : ℝ)| * (Real.pi / 8) := mul_le_mul_of_nonneg_left (by linarith) (abs_nonneg _)
    norm_num at hb
    linarith
  have bn64 : |binary32.val x| ≤ 31 → |(n : ℝ)| ≤ 80 := by
    intro h
    have : |(n : ℝ)| * 0.3926 ≤ |(n : ℝ)| * (Real.pi / 8) := mul_le_mul_of_nonneg_left (by linarith) (abs_nonneg _)
    linarith
  have bnf : fused = false → |(n : ℝ)| ≤ 80 := by
    intro h
    rcases hf with h' | h'
    · rw [h] at h'; exact absurd h' (by simp)
    · exact bn64 h'
  have bn20 : |(n : ℝ)| ≤ 2 ^ 20 := le_trans bn (by norm_num)
  have bnz : |n| ≤ 2 ^ 20 := by exact_mod_cast bn20
  rw [toInt32f_spec fk vk (by have := (abs_le.1 bnz).1; omega) (by have := (abs_le.1 bnz).2; omega)]
  refine ⟨n, CC.multiplyAdd binary32 fused md k CC.mpif2 (CC.multiplyAdd binary32 fused md k CC.mpif1 (CC.multiplyAdd binary32 fused md k CC.mpif0 x)), rfl, ?_⟩
  by_cases hn0 : n = 0
  · -- no reduction
    subst hn0
    have vk0 : binary32.val k = 0 := by rw [vk]; simp
    have hz : ∀ {c z : ℕ}, binary32.Finite c → binary32.Finite z → binary32.Finite (CC.multiplyAdd binary32 fused md k c z) ∧
        binary32.val (CC.multiplyAdd binary32 fused md k c z) = binary32.val z := by
      intro c z hc hz
      have := ma32_ex fused md fk hc hz (fun _ => ⟨k, fk, by rw [vk0, zero_mul]⟩) hz (by rw [vk0, zero_mul, zero_add])
      rwa [vk0, zero_mul, zero_add] at this
    obtain ⟨g1, e1⟩ := hz f0 hx
    obtain ⟨g2, e2⟩ := hz f1 g1
    obtain ⟨g3, e3⟩ := hz f2 g2
    rw [e2, e1] at e3
    refine ⟨g3, hd, bn20, bnf, fun _ => e3, ?_⟩
    rw [e3]
    have : binary32.val x - (binary32.val x - ((0 : ℤ) : ℝ) * (Real.pi / 8)) = 0 := by push_cast; ring
    rw [this, abs_zero]
    split_ifs <;> positivity
  · have hn1 : 1 ≤ |(n : ℝ)| := by
      have := Int.one_le_abs hn0
      exact_mod_cast this
    -- the argument is not small
    have hx8 : (1 : ℝ) / 8 ≤ |binary32.val x| := by
      nlinarith
    have hm : Mult (-26) (binary32.val x) := by
      refine (binary32.mult_ce x).weaken (binary32.le_ce_of ?_)
      have : (-26 : ℤ) + (binary32.F : ℤ) = -3 := by decide +kernel
      rw [this]
      refine le_trans (le_of_eq ?_) hx8
      norm_num
    have hm0 : Mult (-19) ((n : ℝ) * binary32.val CC.mpif0) := by
      rw [val_mpif0]
      exact Mult.int_mul n ⟨-0x3243f, by rw [show (-19 : ℤ) = -((19 : ℕ) : ℤ) by rfl, zpow_neg, zpow_natCast]; push_cast; ring⟩
    have hm1 : Mult (-36) ((n : ℝ) * binary32.val CC.mpif1) := by
      rw [val_mpif1]
      exact Mult.int_mul n ⟨-0xd511, by rw [show (-36 : ℤ) = -((36 : ℕ) : ℤ) by rfl, zpow_neg, zpow_natCast]; push_cast; ring⟩
    have B1 : |(n : ℝ) * binary32.val CC.mpif1| ≤ 0.54 := int_scale bn b1 (by norm_num)
    have B2 : |(n : ℝ) * binary32.val CC.mpif2| ≤ 1 / 2 ^ 20 := int_scale bn20 b2 (by norm_num)
    have hp0 : fused = false → ∃ p, binary32.Finite p ∧ binary32.val p = binary32.val k * binary32.val CC.mpif0 := by
      intro h
      have : |(n : ℝ) * binary32.val CC.mpif0| ≤ 2 ^ 5 := int_scale (bnf h) b0 (by norm_num)
      rw [vk]
      exact rep32 (-19) hm0 (by norm_num) (le_trans this (by norm_num)) (le_trans this (by norm_num))
    have hp1 : fused = false → ∃ p, binary32.Finite p ∧ binary32.val p = binary32.val k * binary32.val CC.mpif1 := by
      intro h
      have : |(n : ℝ) * binary32.val CC.mpif1| ≤ 1 / 2 ^ 12 := int_scale (bnf h) b1 (by norm_num)
      rw [vk]
      exact rep32 (-36) hm1 (by norm_num) (le_trans this (by rw [show (-36 + 24 : ℤ) = -((12 : ℕ) : ℤ) by rfl, zpow_neg, zpow_natCast]; norm_num))
        (le_trans this (by norm_num))
    -- y_hi is exact
    have eD : (n : ℝ) * binary32.val CC.mpif0 + binary32.val x = (binary32.val x - n * (Real.pi / 8)) + n * (Real.pi / 8 + binary32.val CC.mpif0) := by ring
    have D0 : |(n : ℝ) * binary32.val CC.mpif0 + binary32.val x| ≤ 0.8 := by
      rw [eD]
      exact le_trans (abs_add_le' hd (int_scale bn c2 le_rfl)) (by norm_num)
    have hq0 : ∃ q, binary32.Finite q ∧ binary32.val q = (n : ℝ) * binary32.val CC.mpif0 + binary32.val x := by
      rcases le_total 1 |binary32.val x| with h | h
      · have hm' : Mult (-23) (binary32.val x) := by
          refine (binary32.mult_ce x).weaken (binary32.le_ce_of ?_)
          have : (-23 : ℤ) + (binary32.F : ℤ) = 0 := by decide +kernel
          rw [this, zpow_zero]; exact h
        exact rep32 (-23) ((hm0.weaken (by norm_num)).add hm') (by norm_num) (le_trans D0 (by norm_num)) (le_trans D0 (by norm_num))
      · have bn4 : |(n : ℝ)| ≤ 4 := by
          have : |(n : ℝ)| * 0.3926 ≤ |(n : ℝ)| * (Real.pi / 8) := mul_le_mul_of_nonneg_left (by linarith) (abs_nonneg _)
          linarith
        have D1 : |(n : ℝ) * binary32.val CC.mpif0 + binary32.val x| ≤ 1 / 4 := by
          rw [eD]
          exact le_trans (abs_add_le' hd (int_scale bn4 c2 le_rfl)) (by norm_num)
        exact rep32 (-26) ((hm0.weaken (by norm_num)).add hm) (by norm_num) (le_trans D1 (by norm_num)) (le_trans D1 (by norm_num))
    obtain ⟨q0, fq0, vq0⟩ := hq0
    rw [← vk] at vq0
    obtain ⟨g1, e1⟩ := ma32_ex fused md fk f0 hx hp0 fq0 vq0
    generalize CC.multiplyAdd binary32 fused md k CC.mpif0 x = yHi at *
    rw [vk] at e1
    have hmy : Mult (-36) (binary32.val yHi) := by rw [e1]; exact ((hm0.weaken (by norm_num)).add hm).weaken (by norm_num)
    have DV : |(n : ℝ) * binary32.val CC.mpif1 + binary32.val yHi| ≤ 2 :=
      le_trans (abs_add_le' B1 (e1.symm ▸ D0)) (by norm_num)
    have h1 : binary32.Finite (CC.multiplyAdd binary32 fused md k CC.mpif1 yHi) ∧
        (binary32.val (CC.multiplyAdd binary32 fused md k CC.mpif1 yHi) = (n : ℝ) * binary32.val CC.mpif1 + binary32.val yHi ∨
          (1 / 2 ^ 12 ≤ |(n : ℝ) * binary32.val CC.mpif1 + binary32.val yHi| ∧
            |binary32.val (CC.multiplyAdd binary32 fused md k CC.mpif1 yHi) - ((n : ℝ) * binary32.val CC.mpif1 + binary32.val yHi)| ≤
              ruf md * |(n : ℝ) * binary32.val CC.mpif1 + binary32.val yHi| + etaf)) := by
      rcases le_total |(n : ℝ) * binary32.val CC.mpif1 + binary32.val yHi| (1 / 2 ^ 12) with h | h
      · obtain ⟨q1, fq1, vq1⟩ := rep32 (-36) (hm1.add hmy) (by norm_num)
          (le_trans h (by rw [show (-36 + 24 : ℤ) = -((12 : ℕ) : ℤ) by rfl, zpow_neg, zpow_natCast]; norm_num)) (le_trans h (by norm_num))
        rw [← vk] at vq1
        obtain ⟨a, b⟩ := ma32_ex fused md fk f1 g1 hp1 fq1 vq1
        rw [vk] at b
        exact ⟨a, Or.inl b⟩
      · obtain ⟨a, b⟩ := ma32_one fused md fk f1 g1 hp1 (by rw [vk]; exact le_trans DV (by norm_num))
        rw [vk] at b
        exact ⟨a, Or.inr ⟨h, b⟩⟩
    obtain ⟨g2, e2⟩ := h1
    generalize CC.multiplyAdd binary32 fused md k CC.mpif1 yHi = u1 at *
    have bu1 : |binary32.val u1| ≤ 4 := by
      rcases e2 with e | ⟨-, e⟩
      · rw [e]; exact le_trans DV (by norm_num)
      · refine le_trans (abs_near e DV) ?_
        have : ruf md * |(n : ℝ) * binary32.val CC.mpif1 + binary32.val yHi| ≤ 1 / 2 ^ 23 * 2 := mul_le_mul hu2 DV (abs_nonneg _) (by positivity)
        have : (2 : ℝ) + (1 / 2 ^ 23 * 2 + 1 / 2 ^ 100) ≤ 4 := by norm_num
        linarith
    have hT : |(n : ℝ) * binary32.val CC.mpif1 + binary32.val yHi + n * binary32.val CC.mpif2 - (binary32.val x - n * (Real.pi / 8))| ≤
        |(n : ℝ)| * (0.8 / 2 ^ 65) := by
      rw [e1]
      have e : (n : ℝ) * binary32.val CC.mpif1 + (n * binary32.val CC.mpif0 + binary32.val x) + n * binary32.val CC.mpif2 - (binary32.val x - n * (Real.pi / 8)) =
          n * (Real.pi / 8 + binary32.val CC.mpif0 + binary32.val CC.mpif1 + binary32.val CC.mpif2) := by ring
      rw [e]
      exact abs_mul_le le_rfl c4
    have hT2 : |(n : ℝ)| * (0.8 / 2 ^ 65) ≤ 1 / 2 ^ 45 := by
      have := mul_le_mul_of_nonneg_right bn20 (by norm_num : (0 : ℝ) ≤ 0.8 / 2 ^ 65)
      exact le_trans this (by norm_num)
    have hηn : etaf ≤ |(n : ℝ)| * (1 / 2 ^ 100) := by linarith
    cases fused
    · obtain ⟨g3, e3⟩ := ma32_err false md fk f2 g2 (by rw [vk]; exact le_trans B2 (by norm_num)) (le_trans bu1 (by norm_num))
      rw [vk] at e3
      refine ⟨g3, hd, bn20, bnf, fun h => absurd h hn0, ?_⟩
      have hw : (1 + 1 / 2 ^ 20) * ruf md * |(n : ℝ) * binary32.val CC.mpif2| ≤ (1 + 1 / 2 ^ 20) * (1 / 2 ^ 23) * (|(n : ℝ)| * (1 / 2 ^ 40)) :=
        mul_le_mul (mul_le_mul_of_nonneg_left hu2 (by norm_num)) (abs_mul_le le_rfl b2) (abs_nonneg _) (by positivity)
      refine le_trans (redf_last (w := (1 + 1 / 2 ^ 20) * ruf md * |(n : ℝ) * binary32.val CC.mpif2| + 3 * etaf) hu hu2 hη hη2 e2 B2 hT hT2 (by positivity)
        (by rw [← add_assoc]; exact e3)) ?_
      simp only [Bool.false_eq_true, if_false]
      linarith
    · obtain ⟨g3, e3⟩ := ma32_one true md fk f2 g2 (by simp) (by
        rw [vk]; exact le_trans (abs_add_le' B2 bu1) (by norm_num))
      rw [vk] at e3
      refine ⟨g3, hd, bn20, bnf, fun h => absurd h hn0, ?_⟩
      refine le_trans (redf_last (w := etaf) hu hu2 hη hη2 e2 B2 hT hT2 hη.le e3) ?_
      simp only [if_true]
      linarith

end Verif
