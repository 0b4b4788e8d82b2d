import Verif.Lemmas.SinCos2

/-!
# Lemmas for double sine and cosine: recombination
-/

namespace Verif
open Fmt

/-- recombination of two products -/
theorem comb_gen {u η A a B b p r : ℝ} (hu : 0 < u) (hu2 : u ≤ 1 / 2 ^ 52) (hη : 0 < η)
    (hp : |p - B * b| ≤ u * |B * b| + η) (hr : |r - (A * a + p)| ≤ u * |A * a + p| + (1 + 1 / 2 ^ 50) * u * |A * a| + 3 * η) :
    |r - (A * a + B * b)| ≤ (2 + 1 / 2 ^ 40) * u * (|A * a| + |B * b|) + 5 * η := by
  have h1 : |A * a + p - (A * a + B * b)| ≤ u * |B * b| + η := by rw [add_sub_add_left_eq_sub]; exact hp
  have h2 : |A * a + p| ≤ |A * a| + |B * b| + (u * |B * b| + η) := abs_near h1 (abs_add_le _ _)
  have h3 := mul_le_mul_of_nonneg_left h2 hu.le
  have h4 := abs_tri hr h1
  refine le_trans h4 ?_
  have k1 : 0 ≤ u * |A * a| := by positivity
  have k2 : 0 ≤ u * |B * b| := by positivity
  have k3 : u * (u * |B * b|) ≤ 1 / 2 ^ 52 * (u * |B * b|) := mul_le_mul_of_nonneg_right hu2 k2
  have k4 : u * η ≤ 1 / 2 ^ 52 * η := mul_le_mul_of_nonneg_right hu2 hη.le
  nlinarith

theorem prod_near {u A α a a0 e M : ℝ} (hu : 0 < u) (hu2 : u ≤ 1 / 2 ^ 52) (hA : |A - α| ≤ u / 2) (hα : |α| ≤ 1) (ha : |a - a0| ≤ e * u) (h0 : |a0| ≤ M) :
    |A * a - α * a0| ≤ (e + M / 2 + e / 2 ^ 50) * u := by
  have hA' : |A| ≤ 1 + 1 / 2 ^ 50 := by
    refine le_trans (abs_near hA hα) ?_
    have : (1 : ℝ) / 2 ^ 52 / 2 ≤ 1 / 2 ^ 50 := by norm_num
    linarith
  have e1 : A * a - α * a0 = A * (a - a0) + (A - α) * a0 := by ring
  rw [e1]
  refine le_trans (abs_add_le' (abs_mul_le hA' ha) (abs_mul_le hA h0)) (le_of_eq ?_)
  ring

/-- absolute error of the recombination -/
theorem comb_abs {u η A a B b p r α β a0 b0 ea eb Ma Mb : ℝ} (hu : 0 < u) (hu2 : u ≤ 1 / 2 ^ 52) (hη : 0 < η) (hη2 : η ≤ u / 2 ^ 100)
    (hA : |A - α| ≤ u / 2) (hα : |α| ≤ 1) (hB : |B - β| ≤ u / 2) (hβ : |β| ≤ 1)
    (ha : |a - a0| ≤ ea * u) (hb : |b - b0| ≤ eb * u) (ha0 : |a0| ≤ Ma) (hb0 : |b0| ≤ Mb) (hea : ea + eb ≤ 2) (hM : Ma + Mb ≤ 6 / 5) (ha1 : 0 ≤ ea) (hb1 : 0 ≤ eb)
    (hp : |p - B * b| ≤ u * |B * b| + η) (hr : |r - (A * a + p)| ≤ u * |A * a + p| + (1 + 1 / 2 ^ 50) * u * |A * a| + 3 * η) :
    |r - (α * a0 + β * b0)| ≤ (ea + eb + 301 / 100) * u := by
  have p1 := prod_near hu hu2 hA hα ha ha0
  have p2 := prod_near hu hu2 hB hβ hb hb0
  have g := comb_gen hu hu2 hη hp hr
  have t : |A * a + B * b - (α * a0 + β * b0)| ≤ (ea + Ma / 2 + ea / 2 ^ 50) * u + (eb + Mb / 2 + eb / 2 ^ 50) * u := by
    have : A * a + B * b - (α * a0 + β * b0) = (A * a - α * a0) + (B * b - β * b0) := by ring
    rw [this]; exact abs_add_le' p1 p2
  have m1 : |A * a| ≤ Ma + (ea + Ma / 2 + ea / 2 ^ 50) * u := abs_near p1 (by have := abs_mul_le hα ha0; rwa [one_mul] at this)
  have m2 : |B * b| ≤ Mb + (eb + Mb / 2 + eb / 2 ^ 50) * u := abs_near p2 (by have := abs_mul_le hβ hb0; rwa [one_mul] at this)
  have m3 : |A * a| + |B * b| ≤ 6 / 5 + 1 / 2 ^ 40 := by
    have e : (ea + Ma / 2 + ea / 2 ^ 50) * u + (eb + Mb / 2 + eb / 2 ^ 50) * u = (ea + eb + (Ma + Mb) / 2 + (ea + eb) / 2 ^ 50) * u := by ring
    have : (ea + eb + (Ma + Mb) / 2 + (ea + eb) / 2 ^ 50) * u ≤ 4 * (1 / 2 ^ 52) := mul_le_mul (by linarith) hu2 hu.le (by norm_num)
    have : 4 * ((1 : ℝ) / 2 ^ 52) ≤ 1 / 2 ^ 40 := by norm_num
    linarith
  have m4 := mul_le_mul_of_nonneg_left m3 (by positivity : 0 ≤ (2 + 1 / 2 ^ 40) * u)
  have := abs_tri g t
  refine le_trans this ?_
  have h7 : 5 * η ≤ 1 / 2 ^ 50 * u := by
    have : 5 * (u / 2 ^ 100) ≤ 1 / 2 ^ 50 * u := by
      have : 5 * (u / 2 ^ 100) = 5 / 2 ^ 100 * u := by ring
      rw [this]; exact mul_le_mul_of_nonneg_right (by norm_num) hu.le
    linarith
  have m5 : Ma * u + Mb * u ≤ 6 / 5 * u := by
    have := mul_le_mul_of_nonneg_right hM hu.le
    linarith
  have m6 : ea * u + eb * u ≤ 2 * u := by
    have := mul_le_mul_of_nonneg_right hea hu.le
    linarith
  nlinarith

theorem sinTab_ru (md : Mode) {k : ℕ} (hk : k < 16) : binary64.Finite (CC.sinKPi8.getD k 0) ∧
    |binary64.val (CC.sinKPi8.getD k 0) - Real.sin (k * (Real.pi / 8))| ≤ ru md / 2 ∧
    (k % 4 = 0 → binary64.val (CC.sinKPi8.getD k 0) = Real.sin (k * (Real.pi / 8))) := by
  obtain ⟨a, b, c⟩ := sinTab_spec hk
  refine ⟨a, le_trans b ?_, c⟩
  have := ru_ge md
  have e : (1 : ℝ) / 2 ^ 54 = 1 / 2 ^ 53 / 2 := by norm_num
  rw [e]; linarith

theorem cos_tab (k : ℕ) : Real.sin ((((k + 4) % 16 : ℕ) : ℝ) * (Real.pi / 8)) = Real.cos (((k % 16 : ℕ) : ℝ) * (Real.pi / 8)) := by
  have h : k % 16 + 4 = (k + 4) % 16 ∨ k % 16 + 4 = (k + 4) % 16 + 16 := by omega
  rw [← Real.sin_add_pi_div_two]
  rcases h with h | h
  · rw [← h]; congr 1; push_cast; ring
  · rw [← Real.sin_add_two_pi]
    congr 1
    have : (((k % 16 : ℕ) : ℝ)) + 4 = ((k + 4) % 16 : ℕ) + 16 := by exact_mod_cast h
    have e : (((k + 4) % 16 : ℕ) : ℝ) = ((k % 16 : ℕ) : ℝ) - 12 := by linarith
    rw [e]; ring

/-- zero or one at multiples of a right angle -/
theorem tab_axis {k : ℕ} (h : k % 8 = 0) : Real.sin (((k % 16 : ℕ) : ℝ) * (Real.pi / 8)) = 0 ∧ |Real.cos (((k % 16 : ℕ) : ℝ) * (Real.pi / 8))| = 1 := by
  have h : k % 16 = 0 ∨ k % 16 = 8 := by omega
  rcases h with h | h
  · rw [h]; simp
  · rw [h]
    have : ((8 : ℕ) : ℝ) * (Real.pi / 8) = Real.pi := by push_cast; ring
    rw [this]; simp

theorem tab_axis' {k : ℕ} (h : k % 8 = 4) : Real.cos (((k % 16 : ℕ) : ℝ) * (Real.pi / 8)) = 0 ∧ |Real.sin (((k % 16 : ℕ) : ℝ) * (Real.pi / 8))| = 1 := by
  have h : k % 16 = 4 ∨ k % 16 = 12 := by omega
  rcases h with h | h
  · rw [h]
    have : ((4 : ℕ) : ℝ) * (Real.pi / 8) = Real.pi / 2 := by push_cast; ring
    rw [this]; simp
  · rw [h]
    have : ((12 : ℕ) : ℝ) * (Real.pi / 8) = Real.pi / 2 + Real.pi := by push_cast; ring
    rw [this, Real.cos_add_pi, Real.sin_add_pi]; simp

theorem rel_aux {u η A a a0 y r : ℝ} (hu : 0 < u) (hu2 : u ≤ 1 / 2 ^ 52) (hη : 0 < η) (hη1 : η ≤ 1) (hA : |A| = 1) (ha0 : |a0| ≤ |y|)
    (ha : |a - a0| ≤ 11 / 10 * u * |y| + 6 * η) (hr : |r - A * a| ≤ (2 + 1 / 2 ^ 40) * u * |A * a| + 5 * η) :
    |r - A * a0| ≤ 32 / 10 * u * |y| + 12 * η := by
  have h1 : |A * a - A * a0| ≤ 11 / 10 * u * |y| + 6 * η := by
    rw [← mul_sub, abs_mul, hA, one_mul]; exact ha
  have h2 : |A * a| ≤ |y| + (11 / 10 * u * |y| + 6 * η) := abs_near h1 (by rw [abs_mul, hA, one_mul]; exact ha0)
  have h3 := mul_le_mul_of_nonneg_left h2 (by positivity : 0 ≤ (2 + 1 / 2 ^ 40) * u)
  have h4 := abs_tri hr h1
  refine le_trans h4 ?_
  have hy := abs_nonneg y
  have k1 : 0 ≤ u * |y| := by positivity
  have k2 : u * (u * |y|) ≤ 1 / 2 ^ 52 * (u * |y|) := mul_le_mul_of_nonneg_right hu2 k1
  have k3 : u * η ≤ 1 / 2 ^ 52 * η := mul_le_mul_of_nonneg_right hu2 hη.le
  nlinarith

/-- sine and cosine kernels on a reduced argument -/
theorem poly64 (fused : Bool) (md : Mode) {k y : ℕ} (hk : k < 2 ^ 32) (fy : binary64.Finite y) (hy : |binary64.val y| ≤ 1 / 5) :
    (binary64.Finite (CC.sincosPoly true fused md k y) ∧
      |binary64.val (CC.sincosPoly true fused md k y) - Real.sin (((k % 16 : ℕ) : ℝ) * (Real.pi / 8) + binary64.val y)| ≤ 5 * ru md ∧
      (k % 8 = 0 → |binary64.val (CC.sincosPoly true fused md k y) - Real.sin (((k % 16 : ℕ) : ℝ) * (Real.pi / 8) + binary64.val y)| ≤
        32 / 10 * ru md * |binary64.val y| + 12 * eta)) ∧
    (binary64.Finite (CC.sincosPoly false fused md k y) ∧
      |binary64.val (CC.sincosPoly false fused md k y) - Real.cos (((k % 16 : ℕ) : ℝ) * (Real.pi / 8) + binary64.val y)| ≤ 5 * ru md ∧
      (k % 8 = 4 → |binary64.val (CC.sincosPoly false fused md k y) - Real.cos (((k % 16 : ℕ) : ℝ) * (Real.pi / 8) + binary64.val y)| ≤
        32 / 10 * ru md * |binary64.val y| + 12 * eta)) := by
  have hu := ru_pos md
  have hu2 := ru_le md
  have hη := eta_pos
  have hη2 := eta_ru md
  have hη1 : eta ≤ 1 := le_trans eta_le (by norm_num)
  have e1 : k &&& 15 = k % 16 := Nat.and_two_pow_sub_one_eq_mod k 4
  have e2 : ((k + 4) % 2 ^ 32) &&& 15 = (k + 4) % 16 := by
    rw [show (15 : ℕ) = 2 ^ 4 - 1 from rfl, Nat.and_two_pow_sub_one_eq_mod, Nat.mod_mod_of_dvd _ (by norm_num)]
  obtain ⟨fS, eS, xS⟩ := sinTab_ru md (Nat.mod_lt k (by norm_num : 0 < 16))
  obtain ⟨fC, eC, xC⟩ := sinTab_ru md (Nat.mod_lt (k + 4) (by norm_num : 0 < 16))
  rw [cos_tab] at eC xC
  have hax := @tab_axis k
  have hax' := @tab_axis' k
  unfold CC.sincosPoly
  simp only [if_true, Bool.false_eq_true, if_false]
  rw [e1, e2]
  generalize CC.sinKPi8.getD (k % 16) 0 = S at *
  generalize CC.sinKPi8.getD ((k + 4) % 16) 0 = C at *
  generalize hθ : ((k % 16 : ℕ) : ℝ) * (Real.pi / 8) = θ at *
  obtain ⟨fs, es, fc, ec⟩ := kernel64 fused md fy hy rfl rfl rfl rfl rfl rfl
  generalize CC.multiplyAdd binary64 fused md (binary64.hmul md (binary64.hmul md y y) y) _ y = s1 at *
  generalize CC.multiplyAdd binary64 fused md (binary64.hmul md y y) _ (CC.pow2 binary64 false 0) = c1 at *
  have hsy : |Real.sin (binary64.val y)| ≤ |binary64.val y| := by
    have := Real.abs_sin_le_abs (x := binary64.val y)
    exact this
  have hsin1 := Real.abs_sin_le_one θ
  have hcos1 := Real.abs_cos_le_one θ
  have hcy := Real.abs_cos_le_one (binary64.val y)
  have es' : |binary64.val s1 - Real.sin (binary64.val y)| ≤ 23 / 100 * ru md := by
    refine le_trans es ?_
    have : 11 / 10 * ru md * |binary64.val y| ≤ 11 / 10 * ru md * (1 / 5) := mul_le_mul_of_nonneg_left hy (by positivity)
    have : 6 * (ru md / 2 ^ 100) ≤ 1 / 100 * ru md := by
      have : 6 * (ru md / 2 ^ 100) = 6 / 2 ^ 100 * ru md := by ring
      rw [this]; exact mul_le_mul_of_nonneg_right (by norm_num) hu.le
    linarith
  have bS : |binary64.val S| ≤ 2 := by
    refine le_trans (abs_near eS hsin1) ?_
    have : (1 : ℝ) / 2 ^ 52 / 2 ≤ 1 := by norm_num
    linarith
  have bC : |binary64.val C| ≤ 2 := by
    refine le_trans (abs_near eC hcos1) ?_
    have : (1 : ℝ) / 2 ^ 52 / 2 ≤ 1 := by norm_num
    linarith
  have bs : |binary64.val s1| ≤ 1 := by
    refine le_trans (abs_near es' (le_trans hsy hy)) ?_
    have : (23 : ℝ) / 100 * (1 / 2 ^ 52) ≤ 1 / 5 := by norm_num
    linarith
  have bc : |binary64.val c1| ≤ 2 := by
    refine le_trans (abs_near ec hcy) ?_
    have : (17 : ℝ) / 10 * (1 / 2 ^ 52) ≤ 1 / 5 := by norm_num
    linarith
  refine ⟨?_, ?_⟩
  · -- sine
    have bSc := abs_mul_le bS bc
    obtain ⟨fp, ep⟩ := mul64_err md fS fc (le_trans bSc (by norm_num))
    have bp : |binary64.val (binary64.hmul md S c1)| ≤ 10 := by
      refine le_trans (abs_near ep bSc) ?_
      have h1 : ru md * |binary64.val S * binary64.val c1| ≤ 1 / 2 ^ 52 * (2 * 2) := mul_le_mul hu2 bSc (abs_nonneg _) (by positivity)
      have : (2 : ℝ) * 2 + (1 / 2 ^ 52 * (2 * 2) + 1) ≤ 10 := by norm_num
      linarith
    obtain ⟨fr, er⟩ := ma64_err fused md fC fs fp (le_trans (abs_mul_le bC bs) (by norm_num)) (le_trans bp (by norm_num))
    have et : Real.sin (θ + binary64.val y) = Real.cos θ * Real.sin (binary64.val y) + Real.sin θ * Real.cos (binary64.val y) := by rw [Real.sin_add]; ring
    rw [et]
    refine ⟨fr, ?_, fun h8 => ?_⟩
    · refine le_trans (comb_abs hu hu2 hη hη2 eC hcos1 eS hsin1 es' ec (le_trans hsy hy) hcy (by norm_num) (by norm_num) (by norm_num) (by norm_num) ep er) ?_
      exact mul_le_mul_of_nonneg_right (by norm_num) hu.le
    · obtain ⟨z1, z2⟩ := hax h8
      have g := comb_gen hu hu2 hη ep er
      rw [xS (by omega), z1] at g
      rw [xC (by omega)] at g
      rw [z1]
      simp only [zero_mul, add_zero, abs_zero] at g ⊢
      exact rel_aux hu hu2 hη hη1 z2 hsy es g
  · -- cosine
    have fS' := binary64.finite_hneg fS
    have bS' : |binary64.val (binary64.hneg S)| ≤ 2 := by rw [binary64.val_hneg, abs_neg]; exact bS
    have eS' : |binary64.val (binary64.hneg S) - -Real.sin θ| ≤ ru md / 2 := by rw [binary64.val_hneg, neg_sub_neg, abs_sub_comm]; exact eS
    have hsin1' : |-Real.sin θ| ≤ 1 := by rw [abs_neg]; exact hsin1
    have bSs := abs_mul_le bS' bs
    obtain ⟨fp, ep⟩ := mul64_err md fS' fs (le_trans bSs (by norm_num))
    have bp : |binary64.val (binary64.hmul md (binary64.hneg S) s1)| ≤ 10 := by
      refine le_trans (abs_near ep bSs) ?_
      have h1 : ru md * |binary64.val (binary64.hneg S) * binary64.val s1| ≤ 1 / 2 ^ 52 * (2 * 1) := mul_le_mul hu2 bSs (abs_nonneg _) (by positivity)
      have : (2 : ℝ) * 1 + (1 / 2 ^ 52 * (2 * 1) + 1) ≤ 10 := by norm_num
      linarith
    obtain ⟨fr, er⟩ := ma64_err fused md fC fc fp (le_trans (abs_mul_le bC bc) (by norm_num)) (le_trans bp (by norm_num))
    have et : Real.cos (θ + binary64.val y) = Real.cos θ * Real.cos (binary64.val y) + -Real.sin θ * Real.sin (binary64.val y) := by rw [Real.cos_add]; ring
    rw [et]
    refine ⟨fr, ?_, fun h8 => ?_⟩
    · refine le_trans (comb_abs hu hu2 hη hη2 eC hcos1 eS' hsin1' ec es' hcy (le_trans hsy hy) (by norm_num) (by norm_num) (by norm_num) (by norm_num) ep er) ?_
      exact mul_le_mul_of_nonneg_right (by norm_num) hu.le
    · obtain ⟨z1, z2⟩ := hax' h8
      have g := comb_gen hu hu2 hη ep er
      rw [binary64.val_hneg, xS (by omega)] at g
      rw [xC (by omega), z1] at g
      rw [z1]
      simp only [zero_mul, zero_add, abs_zero] at g ⊢
      exact rel_aux hu hu2 hη hη1 (by rw [abs_neg]; exact z2) hsy es g

end Verif
