import Verif.Lemmas.SinCos3
import Verif.Props.FpSupport

/-!
# Lemmas for double sine and cosine: reduction of small arguments
-/

namespace Verif
open Fmt

theorem rep64 (g : ℤ) {v : ℝ} (hm : Mult g v) (hg : -1074 ≤ g) (h1 : |v| ≤ (2 : ℝ) ^ (g + 53)) (h2 : |v| ≤ 2 ^ 200) :
    ∃ c, binary64.Finite c ∧ binary64.val c = v := by
  refine binary64.rep (g := g) hm (by exact hg) ?_ ?_
  · have : g + (binary64.F : ℤ) + 1 = g + 53 := by
      have : binary64.F = 52 := rfl
      rw [this]; push_cast; ring
    rw [this]; exact h1
  · exact lt_of_le_of_lt (big_ge h2) (two_zpow_lt (by decide +kernel))

/-- an exact product and a representable sum -/
theorem ma64_ex (fused : Bool) (m : Mode) {x y z p q : ℕ} (hx : binary64.Finite x) (hy : binary64.Finite y) (hz : binary64.Finite z)
    (hp : binary64.Finite p) (hpv : binary64.val p = binary64.val x * binary64.val y)
    (hq : binary64.Finite q) (hqv : binary64.val q = binary64.val x * binary64.val y + binary64.val z) :
    binary64.Finite (CC.multiplyAdd binary64 fused m x y z) ∧
      binary64.val (CC.multiplyAdd binary64 fused m x y z) = binary64.val x * binary64.val y + binary64.val z := by
  unfold CC.multiplyAdd
  cases fused
  · have e := RoundsTo.exact binary64 hp hpv (binary64.hmul_spec m hx hy)
    have R := binary64.hadd_spec m e.1 hz
    rw [e.2] at R
    exact RoundsTo.exact binary64 hq hqv R
  · exact RoundsTo.exact binary64 hq hqv (hfma_spec binary64 m)

/-- an exact product: one rounding -/
theorem ma64_one (fused : Bool) (m : Mode) {x y z p : ℕ} (hx : binary64.Finite x) (hy : binary64.Finite y) (hz : binary64.Finite z)
    (hp : binary64.Finite p) (hpv : binary64.val p = binary64.val x * binary64.val y)
    (hb : |binary64.val x * binary64.val y + binary64.val z| ≤ 2 ^ 200) :
    binary64.Finite (CC.multiplyAdd binary64 fused m x y z) ∧
      |binary64.val (CC.multiplyAdd binary64 fused m x y z) - (binary64.val x * binary64.val y + binary64.val z)| ≤
        ru m * |binary64.val x * binary64.val y + binary64.val z| + eta := by
  unfold CC.multiplyAdd
  cases fused
  · have e := RoundsTo.exact binary64 hp hpv (binary64.hmul_spec m hx hy)
    have R := binary64.hadd_spec m e.1 hz
    rw [e.2] at R
    exact err64 R hb
  · exact err64 (hfma_spec binary64 m) hb

theorem toInt32_spec {k : ℕ} {n : ℤ} (hk : binary64.Finite k) (hv : binary64.val k = n) (h1 : -2 ^ 31 ≤ n) (h2 : n < 2 ^ 31) :
    CC.toInt32 binary64 k = some n := by
  obtain ⟨b1, b2⟩ := binary64.finite_B hk
  have hU := binary64.uscale_pos
  have e : binary64.ival k = n * binary64.uscale := by
    rw [binary64.val_eq_ival] at hv
    have hUm := binary64.uscale_minSub
    have : (binary64.ival k : ℝ) = n * binary64.uscale := by
      calc (binary64.ival k : ℝ) = binary64.ival k * (binary64.uscale * binary64.minSub) := by rw [hUm, mul_one]
        _ = (binary64.ival k * binary64.minSub) * binary64.uscale := by ring
        _ = _ := by rw [hv]
    exact_mod_cast this
  unfold CC.toInt32
  rw [b1, b2]
  simp only [Bool.or_self, Bool.false_eq_true, if_false]
  have e2 : (binary64.ival k).tdiv binary64.uscale = n := by
    rw [e]; exact Int.mul_tdiv_cancel _ (by exact_mod_cast hU.ne')
  rw [e2, if_pos ⟨h1, h2⟩]

theorem ni64 (ce : Bool) (md : Mode) (hce : ce = true → md = .nearest) {x : ℕ} (hx : binary64.Finite x) (hb : |binary64.val x| ≤ 2 ^ 30) :
    binary64.Finite (CC.nearestInteger binary64 ce md x) ∧
      ∃ n : ℤ, binary64.val (CC.nearestInteger binary64 ce md x) = n ∧ |binary64.val x - n| ≤ 1 / 2 + 1 / 2 ^ 53 := by
  have hbias : (binary64.F : ℤ) + 2 ≤ binary64.bias := by decide +kernel
  cases ce
  · obtain ⟨h1, n, h2, h3⟩ := C44_directed_partial binary64 binary64_wide hbias md hx
    refine ⟨h1, n, h2, ?_⟩
    have : (2 : ℝ) ^ (-(binary64.F : ℤ) - 1) = 1 / 2 ^ 53 := by
      have : (-(binary64.F : ℤ) - 1) = -((53 : ℕ) : ℤ) := by decide +kernel
      rw [this, zpow_neg, zpow_natCast, one_div]
    rwa [this] at h3
  · rw [hce rfl]
    have : |binary64.val x| < (2 : ℝ) ^ (binary64.F : ℤ) := by
      refine lt_of_le_of_lt hb ?_
      rw [zpow_natCast]
      exact pow_lt_pow_right₀ (by norm_num) (by decide +kernel)
    obtain ⟨h1, n, h2, h3, -⟩ := C44_nearest_even binary64 binary64_wide hbias true hx this
    exact ⟨h1, n, h2, le_trans h3 (by norm_num)⟩

theorem val_oop : binary64.val CC.oneOverPi = 0x145f306dc9c883 / 2 ^ 51 := by
  rw [lit64 false 0x145f306dc9c883 51 (by decide +kernel) (by decide +kernel) (by decide +kernel) (by decide +kernel)]
  simp [sg]
theorem val_mpi0 : binary64.val CC.mpi0 = -(0x6487ed51 / 2 ^ 32) := by
  rw [lit64 true 0x1921fb54400000 54 (by decide +kernel) (by decide +kernel) (by decide +kernel) (by decide +kernel)]
  norm_num [sg]
theorem val_mpi1 : binary64.val CC.mpi1 = -(0x2168c235 / 2 ^ 65) := by
  rw [lit64 true 0x10b4611a800000 88 (by decide +kernel) (by decide +kernel) (by decide +kernel) (by decide +kernel)]
  norm_num [sg]
theorem val_mpi2 : binary64.val CC.mpi2 = 0x1d9cceba3f91f2 / 2 ^ 120 := by
  rw [lit64 false 0x1d9cceba3f91f2 120 (by decide +kernel) (by decide +kernel) (by decide +kernel) (by decide +kernel)]
  norm_num [sg]

theorem mpi_const : |binary64.val CC.oneOverPi * (Real.pi / 8) - 1| ≤ 1 / 2 ^ 53 ∧ |Real.pi / 8 + binary64.val CC.mpi0| ≤ 1 / 2 ^ 35 ∧
    |Real.pi / 8 + binary64.val CC.mpi0 + binary64.val CC.mpi1| ≤ 1 / 2 ^ 67 ∧
    |Real.pi / 8 + binary64.val CC.mpi0 + binary64.val CC.mpi1 + binary64.val CC.mpi2| ≤ 1 / 2 ^ 121 := by
  rw [val_oop, val_mpi0, val_mpi1, val_mpi2]
  obtain ⟨a, b⟩ := pi_250
  refine ⟨?_, ?_, ?_, ?_⟩ <;> rw [abs_le] <;> constructor <;> linarith

theorem int_scale {n : ℤ} {v e A B : ℝ} (hn : |(n : ℝ)| ≤ A) (hv : |v| ≤ B) (h : A * B ≤ e) : |(n : ℝ) * v| ≤ e := le_trans (abs_mul_le hn hv) h

theorem dist_pi {X P K c O : ℝ} (hX : |X| ≤ 2 ^ 20) (hc : 0 < c) (hc1 : 3 / 8 ≤ c) (hP : |P - X * O| ≤ 1 / 2 ^ 30) (hK : |P - K| ≤ 1 / 2 + 1 / 2 ^ 53)
    (hO : |O * c - 1| ≤ 1 / 2 ^ 53) : |X - K * c| ≤ (1 / 2 + 1 / 2 ^ 28) * c := by
  have h1 : |X * O - K| ≤ 1 / 2 ^ 30 + (1 / 2 + 1 / 2 ^ 53) := abs_tri (by rw [abs_sub_comm]; exact hP) hK
  have h2 : |(X * O - K) * c| ≤ (1 / 2 ^ 30 + (1 / 2 + 1 / 2 ^ 53)) * c := by
    rw [abs_mul, abs_of_pos hc]; exact mul_le_mul_of_nonneg_right h1 hc.le
  have h3 := abs_mul_le hX hO
  have e : X - K * c = (X * O - K) * c + -(X * (O * c - 1)) := by ring
  rw [e]
  refine le_trans (abs_add_le' h2 ((abs_neg _).le.trans h3)) ?_
  have : (2 : ℝ) ^ 20 * (1 / 2 ^ 53) ≤ 1 / 2 ^ 31 * (3 / 8) := by norm_num
  have : (1 : ℝ) / 2 ^ 31 * (3 / 8) ≤ 1 / 2 ^ 31 * c := by linarith
  nlinarith

/-- the last step of the reduction -/
theorem red_last {u η V u1 t N r Y : ℝ} (hu : 0 < u) (hu2 : u ≤ 1 / 2 ^ 52) (hul : 1 / 2 ^ 53 ≤ u) (hη : 0 < η) (hη2 : η ≤ 1 / 2 ^ 200) (hN1 : 1 ≤ N)
    (hN : N ≤ 2 ^ 22)
    (h1 : u1 = V ∨ (1 / 2 ^ 12 ≤ |V| ∧ |u1 - V| ≤ u * |V| + η)) (ht : |t| ≤ N * (1 / 2 ^ 67)) (hT : |V + t - Y| ≤ N * (1 / 2 ^ 121))
    (hr : |r - (t + u1)| ≤ u * |t + u1| + (1 + 1 / 2 ^ 50) * u * |t| + 3 * η) :
    |r - Y| ≤ (2 + 1 / 2 ^ 20) * u * |Y| + 1.52 / 2 ^ 67 * (N * u) := by
  have hY : |V + t| ≤ |Y| + N * (1 / 2 ^ 121) := abs_near hT le_rfl
  obtain ⟨z, hz⟩ : ∃ z, z = N * u := ⟨_, rfl⟩
  rw [← hz]
  have z1 : N * (1 / 2 ^ 53) ≤ z := by rw [hz]; exact mul_le_mul_of_nonneg_left hul (by linarith)
  have z2 : 1 / 2 ^ 53 ≤ z := le_trans (by linarith) z1
  have k0 : u * |t| ≤ z * (1 / 2 ^ 67) := by
    have := mul_le_mul_of_nonneg_left ht hu.le
    rw [hz]; linarith
  have k0' : 0 ≤ u * |t| := by positivity
  have k1 : 0 ≤ u * |Y| := by positivity
  have k2 : u * (N * (1 / 2 ^ 121)) = z * (1 / 2 ^ 121) := by rw [hz]; ring
  have k3 : u * η ≤ 1 / 2 ^ 52 * η := mul_le_mul_of_nonneg_right hu2 hη.le
  have k4 : η ≤ 1 / 2 ^ 140 * z := by
    have : (1 : ℝ) / 2 ^ 200 ≤ 1 / 2 ^ 140 * (1 / 2 ^ 53) := by norm_num
    linarith
  rcases h1 with rfl | ⟨hV, hu1⟩
  · rw [add_comm t u1] at hr
    have h2 := mul_le_mul_of_nonneg_left hY hu.le
    have h3 := abs_tri hr hT
    refine le_trans h3 ?_
    linarith
  · have h2 : |t + u1 - (V + t)| ≤ u * |V| + η := by
      have : t + u1 - (V + t) = u1 - V := by ring
      rw [this]; exact hu1
    have ht' : |t| ≤ 1 / 2 ^ 45 := by linarith
    have hT' : N * (1 / 2 ^ 121) ≤ 1 / 2 ^ 99 := by linarith
    have h3 : |V| ≤ |Y| + N * (1 / 2 ^ 121) + 1 / 2 ^ 45 := by
      have : V = (V + t) + -t := by ring
      rw [this]; exact abs_add_le' hY (by rw [abs_neg]; exact ht')
    have h4 : |t + u1| ≤ |Y| + N * (1 / 2 ^ 121) + (u * |V| + η) := abs_near h2 hY
    have h5 := abs_tri (abs_tri hr h2) hT
    refine le_trans h5 ?_
    have m1 := mul_le_mul_of_nonneg_left h4 hu.le
    have m2 := mul_le_mul_of_nonneg_left h3 hu.le
    have m3 : u * (u * |V|) ≤ 1 / 2 ^ 52 * (u * |V|) := mul_le_mul_of_nonneg_right hu2 (by positivity)
    have m4 : u * (1 / 2 ^ 45) ≤ 1 / 2 ^ 52 * (1 / 2 ^ 45) := mul_le_mul_of_nonneg_right hu2 (by positivity)
    -- |V| ≥ 2^-12 makes 2^-45 relatively small
    have m5 : 1 / 2 ^ 13 ≤ |Y| := by
      have : (1 : ℝ) / 2 ^ 13 + 1 / 2 ^ 99 + 1 / 2 ^ 45 ≤ 1 / 2 ^ 12 := by norm_num
      linarith
    have m6 : u * (1 / 2 ^ 13) ≤ u * |Y| := mul_le_mul_of_nonneg_left m5 hu.le
    have m7 : u * |t| ≤ u * (1 / 2 ^ 45) := mul_le_mul_of_nonneg_left ht' hu.le
    have m8 : u * |V| ≥ 0 := by positivity
    rw [mul_add, mul_add, k2] at m1 m2
    rw [mul_add u (u * |V|)] at m1
    linarith

theorem sincosSmall_spec (ce fused : Bool) (md : Mode) (hce : ce = true → md = .nearest) {x : ℕ} (hx : binary64.Finite x) (hb : |binary64.val x| ≤ 2 ^ 20) :
    ∃ (K : ℤ) (y : ℕ), CC.sincosSmall ce fused md x = some ((K % 2 ^ 32).toNat, y) ∧ binary64.Finite y ∧
      |binary64.val x - K * (Real.pi / 8)| ≤ (1 / 2 + 1 / 2 ^ 28) * (Real.pi / 8) ∧
      (K = 0 → binary64.val y = binary64.val x) ∧
      |binary64.val y - (binary64.val x - K * (Real.pi / 8))| ≤
        (2 + 1 / 2 ^ 20) * ru md * |binary64.val x - K * (Real.pi / 8)| + 1.52 / 2 ^ 67 * (|(K : ℝ)| * ru md) ∧ |(K : ℝ)| ≤ 2 ^ 22 := by
  have hu := ru_pos md
  have hu2 := ru_le md
  have hη := eta_pos
  have hη2 := eta_le
  obtain ⟨c1, c2, c3, c4⟩ := mpi_const
  have fO : binary64.Finite CC.oneOverPi := by decide +kernel
  have f0 : binary64.Finite CC.mpi0 := by decide +kernel
  have f1 : binary64.Finite CC.mpi1 := by decide +kernel
  have f2 : binary64.Finite CC.mpi2 := by decide +kernel
  have bO : |binary64.val CC.oneOverPi| ≤ 2.55 := by rw [val_oop, abs_of_pos (by positivity)]; norm_num
  have b0 : |binary64.val CC.mpi0| ≤ 1 / 2 := by rw [val_mpi0, abs_neg, abs_of_pos (by positivity)]; norm_num
  have b1 : |binary64.val CC.mpi1| ≤ 1 / 2 ^ 35 := by rw [val_mpi1, abs_neg, abs_of_pos (by positivity)]; norm_num
  have b2 : |binary64.val CC.mpi2| ≤ 1 / 2 ^ 67 := by rw [val_mpi2, abs_of_pos (by positivity)]; norm_num
  have hpi3 : 3 < Real.pi := by have := pi_250.1; linarith
  have hpi4 : Real.pi < 3.15 := by have := pi_250.2; linarith
  unfold CC.sincosSmall
  dsimp only
  have bXO := abs_mul_le hb bO
  obtain ⟨fP, eP⟩ := mul64_err md hx fO (le_trans bXO (by norm_num))
  generalize binary64.hmul md x CC.oneOverPi = P at *
  have eP' : |binary64.val P - binary64.val x * binary64.val CC.oneOverPi| ≤ 1 / 2 ^ 30 := by
    refine le_trans eP ?_
    have : ru md * |binary64.val x * binary64.val CC.oneOverPi| ≤ 1 / 2 ^ 52 * (2 ^ 20 * 2.55) := mul_le_mul hu2 bXO (abs_nonneg _) (by positivity)
    have : (1 : ℝ) / 2 ^ 52 * (2 ^ 20 * 2.55) + 1 / 2 ^ 200 ≤ 1 / 2 ^ 30 := by norm_num
    linarith
  have bP : |binary64.val P| ≤ 2 ^ 20 * 2.55 + 1 / 2 ^ 30 := abs_near eP' bXO
  obtain ⟨fk, n, vk, en⟩ := ni64 ce md hce fP (le_trans bP (by norm_num))
  generalize CC.nearestInteger binary64 ce md P = k at *
  have bn : |(n : ℝ)| ≤ 2 ^ 22 := by
    have : |(n : ℝ) - binary64.val P| ≤ 1 / 2 + 1 / 2 ^ 53 := by rw [abs_sub_comm]; exact en
    exact le_trans (abs_near this bP) (by norm_num)
  have bnz : |n| ≤ 2 ^ 22 := by exact_mod_cast bn
  have hd := dist_pi hb (by linarith : 0 < Real.pi / 8) (by linarith) eP' en c1
  have hdY : |binary64.val x - n * (Real.pi / 8)| ≤ 0.1969 := by
    refine le_trans hd ?_
    have : (1 / 2 + 1 / 2 ^ 28) * (Real.pi / 8) ≤ (1 / 2 + 1 / 2 ^ 28) * (3.15 / 8) := mul_le_mul_of_nonneg_left (by linarith) (by norm_num)
    exact le_trans this (by norm_num)
  rw [toInt32_spec fk vk (by have := (abs_le.1 bnz).1; omega) (by have := (abs_le.1 bnz).2; omega)]
  refine ⟨n, CC.multiplyAdd binary64 fused md k CC.mpi2 (CC.multiplyAdd binary64 fused md k CC.mpi1 (CC.multiplyAdd binary64 fused md k CC.mpi0 x)), rfl, ?_⟩
  by_cases hn0 : n = 0
  · -- no reduction
    subst hn0
    have vk0 : binary64.val k = 0 := by rw [vk]; simp
    have hz : ∀ {c z : ℕ}, binary64.Finite c → binary64.Finite z → binary64.Finite (CC.multiplyAdd binary64 fused md k c z) ∧
        binary64.val (CC.multiplyAdd binary64 fused md k c z) = binary64.val z := by
      intro c z hc hz
      have := ma64_ex fused md fk hc hz fk (by rw [vk0, zero_mul]) hz (by rw [vk0, zero_mul, zero_add])
      rwa [vk0, zero_mul, zero_add] at this
    obtain ⟨g1, e1⟩ := hz f0 hx
    obtain ⟨g2, e2⟩ := hz f1 g1
    obtain ⟨g3, e3⟩ := hz f2 g2
    rw [e2, e1] at e3
    refine ⟨g3, hd, fun _ => e3, ?_⟩
    rw [e3]
    have : binary64.val x - (binary64.val x - ((0 : ℤ) : ℝ) * (Real.pi / 8)) = 0 := by push_cast; ring
    rw [this, abs_zero]
    exact ⟨by positivity, bn⟩
  · have hn1 : 1 ≤ |(n : ℝ)| := by
      have := Int.one_le_abs hn0
      exact_mod_cast this
    -- the argument is not small
    have hx8 : (1 : ℝ) / 8 ≤ |binary64.val x| := by
      by_contra hc
      rw [not_le] at hc
      have h1 : |(n : ℝ) * (Real.pi / 8)| ≤ |binary64.val x| + 0.1969 := abs_near (by rw [abs_sub_comm]; exact hdY) le_rfl
      rw [abs_mul, abs_of_pos (by linarith : 0 < Real.pi / 8)] at h1
      nlinarith
    have hm : Mult (-55) (binary64.val x) := by
      refine (binary64.mult_ce x).weaken (binary64.le_ce_of ?_)
      have : (-55 : ℤ) + (binary64.F : ℤ) = -3 := by decide +kernel
      rw [this]
      refine le_trans (le_of_eq ?_) hx8
      norm_num
    have hm0 : Mult (-32) ((n : ℝ) * binary64.val CC.mpi0) := by
      rw [val_mpi0]
      exact Mult.int_mul n ⟨-0x6487ed51, by rw [show (-32 : ℤ) = -((32 : ℕ) : ℤ) by rfl, zpow_neg, zpow_natCast]; push_cast; ring⟩
    have hm1 : Mult (-65) ((n : ℝ) * binary64.val CC.mpi1) := by
      rw [val_mpi1]
      exact Mult.int_mul n ⟨-0x2168c235, by rw [show (-65 : ℤ) = -((65 : ℕ) : ℤ) by rfl, zpow_neg, zpow_natCast]; push_cast; ring⟩
    have B0 : |(n : ℝ) * binary64.val CC.mpi0| ≤ 2 ^ 21 := int_scale bn b0 (by norm_num)
    have B1 : |(n : ℝ) * binary64.val CC.mpi1| ≤ 1 / 2 ^ 13 := int_scale bn b1 (by norm_num)
    have B2 : |(n : ℝ) * binary64.val CC.mpi2| ≤ 1 / 2 ^ 45 := int_scale bn b2 (by norm_num)
    obtain ⟨p0, fp0, vp0⟩ := rep64 (-32) hm0 (by norm_num) (le_trans B0 (by norm_num)) (le_trans B0 (by norm_num))
    obtain ⟨p1, fp1, vp1⟩ := rep64 (-65) hm1 (by norm_num) (le_trans B1 (by rw [show (-65 + 53 : ℤ) = -((12 : ℕ) : ℤ) by rfl, zpow_neg, zpow_natCast]; norm_num))
      (le_trans B1 (by norm_num))
    rw [← vk] at vp0 vp1
    -- y_hi is exact
    have D0 : |(n : ℝ) * binary64.val CC.mpi0 + binary64.val x| ≤ 1 / 4 := by
      have e : (n : ℝ) * binary64.val CC.mpi0 + binary64.val x = (binary64.val x - n * (Real.pi / 8)) + n * (Real.pi / 8 + binary64.val CC.mpi0) := by ring
      rw [e]
      exact le_trans (abs_add_le' hdY (int_scale bn c2 le_rfl)) (by norm_num)
    obtain ⟨q0, fq0, vq0⟩ := rep64 (-55) ((hm0.weaken (by norm_num)).add hm) (by norm_num) (le_trans D0 (by norm_num)) (le_trans D0 (by norm_num))
    rw [← vk] at vq0
    obtain ⟨g1, e1⟩ := ma64_ex fused md fk f0 hx fp0 vp0 fq0 vq0
    generalize CC.multiplyAdd binary64 fused md k CC.mpi0 x = yHi at *
    rw [vk] at e1
    have hmy : Mult (-65) (binary64.val yHi) := by rw [e1]; exact ((hm0.weaken (by norm_num)).add hm).weaken (by norm_num)
    have DV : |(n : ℝ) * binary64.val CC.mpi1 + binary64.val yHi| ≤ 1 / 2 :=
      le_trans (abs_add_le' B1 (e1.symm ▸ D0)) (by norm_num)
    have h1 : binary64.Finite (CC.multiplyAdd binary64 fused md k CC.mpi1 yHi) ∧
        (binary64.val (CC.multiplyAdd binary64 fused md k CC.mpi1 yHi) = (n : ℝ) * binary64.val CC.mpi1 + binary64.val yHi ∨
          (1 / 2 ^ 12 ≤ |(n : ℝ) * binary64.val CC.mpi1 + binary64.val yHi| ∧
            |binary64.val (CC.multiplyAdd binary64 fused md k CC.mpi1 yHi) - ((n : ℝ) * binary64.val CC.mpi1 + binary64.val yHi)| ≤
              ru md * |(n : ℝ) * binary64.val CC.mpi1 + binary64.val yHi| + eta)) := by
      rcases le_total |(n : ℝ) * binary64.val CC.mpi1 + binary64.val yHi| (1 / 2 ^ 12) with h | h
      · obtain ⟨q1, fq1, vq1⟩ := rep64 (-65) (hm1.add hmy) (by norm_num)
          (le_trans h (by rw [show (-65 + 53 : ℤ) = -((12 : ℕ) : ℤ) by rfl, zpow_neg, zpow_natCast]; norm_num)) (le_trans h (by norm_num))
        rw [← vk] at vq1
        obtain ⟨a, b⟩ := ma64_ex fused md fk f1 g1 fp1 vp1 fq1 vq1
        rw [vk] at b
        exact ⟨a, Or.inl b⟩
      · obtain ⟨a, b⟩ := ma64_one fused md fk f1 g1 fp1 vp1 (by rw [vk]; exact le_trans DV (by norm_num))
        rw [vk] at b
        exact ⟨a, Or.inr ⟨h, b⟩⟩
    obtain ⟨g2, e2⟩ := h1
    generalize CC.multiplyAdd binary64 fused md k CC.mpi1 yHi = u1 at *
    have bu1 : |binary64.val u1| ≤ 2 := by
      rcases e2 with e | ⟨-, e⟩
      · rw [e]; exact le_trans DV (by norm_num)
      · refine le_trans (abs_near e DV) ?_
        have : ru md * |(n : ℝ) * binary64.val CC.mpi1 + binary64.val yHi| ≤ 1 / 2 ^ 52 * (1 / 2) := mul_le_mul hu2 DV (abs_nonneg _) (by positivity)
        have : (1 : ℝ) / 2 + (1 / 2 ^ 52 * (1 / 2) + 1 / 2 ^ 200) ≤ 2 := by norm_num
        linarith
    obtain ⟨g3, e3⟩ := ma64_err fused md fk f2 g2 (by rw [vk]; exact le_trans B2 (by norm_num)) (le_trans bu1 (by norm_num))
    rw [vk] at e3
    refine ⟨g3, hd, fun h => absurd h hn0, ?_⟩
    refine ⟨red_last hu hu2 (ru_ge md) hη hη2 hn1 bn e2 (abs_mul_le le_rfl b2) ?_ e3, bn⟩
    rw [e1]
    have e : (n : ℝ) * binary64.val CC.mpi1 + (n * binary64.val CC.mpi0 + binary64.val x) + n * binary64.val CC.mpi2 - (binary64.val x - n * (Real.pi / 8)) =
        n * (Real.pi / 8 + binary64.val CC.mpi0 + binary64.val CC.mpi1 + binary64.val CC.mpi2) := by ring
    rw [e]
    exact abs_mul_le le_rfl c4

end Verif
