import Verif.Lemmas.Asin8

/-!
# Accuracy of double `atan`
-/

namespace Verif
open Fmt Real

theorem atan_root_aux {u η N q s R t : ℝ} (hu : 0 < u) (hu2 : u ≤ 1 / 2 ^ 52) (hη2 : η ≤ u * (1 / 10 ^ 9)) (hηN : η ≤ u * (1 / 10 ^ 6 * |N|)) (hN : |N| ≤ 1)
    (hq : |q - N * N| ≤ u * |N * N| + η) (hs : |s - (1 + q)| ≤ u * |1 + q| + η) (hs0 : 0 ≤ s) (hR : |R - √s| ≤ u * √s + η) (ht : |t - N / R| ≤ u * |N / R| + η) :
    0 < R ∧ |t - N / √(1 + N ^ 2)| ≤ u * (276 / 100 * |N / √(1 + N ^ 2)|) := by
  have u1 : u ≤ 1 / 10 ^ 6 := le_trans hu2 (by norm_num)
  have hNN : 0 ≤ N ^ 2 := sq_nonneg N
  have hNN1 : N ^ 2 ≤ 1 := by rw [← sq_abs]; exact pow_le_one₀ (abs_nonneg N) hN
  rw [show N * N = N ^ 2 by ring, abs_of_nonneg hNN] at hq
  have uN : u * N ^ 2 ≤ u * 1 := mul_le_mul_of_nonneg_left hNN1 hu.le
  have q1 := abs_le.1 hq
  have q0 : 0 ≤ 1 + q := by linarith
  rw [abs_of_nonneg q0] at hs
  set σ := 1 + N ^ 2 with hσ
  have hσ1 : 1 ≤ σ := by linarith
  have hσ2 : σ ≤ 2 := by linarith
  have s1 : |s - σ| ≤ u * (1501 / 1000 * σ) := by
    have k1 : |(1 + q) - σ| ≤ u * N ^ 2 + η := by rw [hσ, show 1 + q - (1 + N ^ 2) = q - N ^ 2 by ring]; exact hq
    have k2 : u * (1 + q) ≤ u * (σ + 1 / 10000) := mul_le_mul_of_nonneg_left (by linarith) hu.le
    refine le_trans (abs_tri hs k1) ?_
    have k3 : u * (σ + 1 / 10000) + η + (u * N ^ 2 + η) ≤ u * (σ + 1 / 10000 + N ^ 2 + 2 / 10 ^ 9) := by
      have : u * (σ + 1 / 10000 + N ^ 2 + 2 / 10 ^ 9) = u * (σ + 1 / 10000) + u * N ^ 2 + 2 * (u * (1 / 10 ^ 9)) := by ring
      linarith
    refine le_trans (by linarith) (le_trans k3 (mul_le_mul_of_nonneg_left ?_ hu.le))
    rw [hσ]; norm_num; linarith
  have s2 : 9801 / 10000 * σ ≤ s := by
    have := (abs_le.1 s1).1
    have k : u * (1501 / 1000 * σ) ≤ 1 / 10 ^ 6 * (1501 / 1000 * σ) := mul_le_mul_of_nonneg_right u1 (by linarith)
    norm_num at k; linarith
  have r0 : 0 < √σ := Real.sqrt_pos.2 (by linarith)
  have r1 : 99 / 100 * √σ ≤ √s := by
    apply Real.le_sqrt_of_sq_le
    rw [mul_pow, Real.sq_sqrt (by linarith)]; norm_num; linarith
  have r2 : |√s - √σ| ≤ u * (755 / 1000 * √σ) := by
    have e : (√s - √σ) * (√s + √σ) = s - σ := by
      have a := Real.sq_sqrt hs0
      have b := Real.sq_sqrt (show 0 ≤ σ by linarith)
      nlinarith
    have e2 : |√s - √σ| * (√s + √σ) ≤ u * (1501 / 1000 * σ) := by
      rw [← abs_of_nonneg (show 0 ≤ √s + √σ by linarith), ← abs_mul, e]; exact s1
    have e3 : |√s - √σ| * (199 / 100 * √σ) ≤ |√s - √σ| * (√s + √σ) := mul_le_mul_of_nonneg_left (by linarith) (abs_nonneg _)
    have e4 : u * (1501 / 1000 * σ) = u * (1501 / 1990 * √σ) * (199 / 100 * √σ) := by
      have b := Real.mul_self_sqrt (show 0 ≤ σ by linarith)
      linear_combination (-1501 / 1000 * u) * b
    have e5 : |√s - √σ| ≤ u * (1501 / 1990 * √σ) := by
      have := le_trans e3 e2
      rw [e4] at this
      exact le_of_mul_le_mul_right this (by positivity)
    exact le_trans e5 (mul_le_mul_of_nonneg_left (mul_le_mul_of_nonneg_right (by norm_num) r0.le) hu.le)
  have rσ1 : 1 ≤ √σ := Real.one_le_sqrt.2 hσ1
  have r3 : |R - √σ| ≤ u * (1757 / 1000 * √σ) := by
    have a := abs_near r2 (le_of_eq (abs_of_pos r0))
    rw [abs_of_nonneg (Real.sqrt_nonneg s)] at a
    have b : u * (755 / 1000 * √σ) ≤ 1 / 10 ^ 6 * (755 / 1000 * √σ) := mul_le_mul_of_nonneg_right u1 (by positivity)
    have c : u * √s ≤ u * (1001 / 1000 * √σ) := mul_le_mul_of_nonneg_left (by norm_num at b; linarith) hu.le
    have d : η ≤ u * (1 / 10 ^ 9 * √σ) := le_trans hη2 (mul_le_mul_of_nonneg_left (by linarith) hu.le)
    refine le_trans (abs_tri hR r2) ?_
    have e : u * (1001 / 1000 * √σ) + u * (1 / 10 ^ 9 * √σ) + u * (755 / 1000 * √σ) = u * ((1001 / 1000 + 1 / 10 ^ 9 + 755 / 1000) * √σ) := by ring
    refine le_trans (by linarith) (le_trans (le_of_eq e) (mul_le_mul_of_nonneg_left (mul_le_mul_of_nonneg_right (by norm_num) r0.le) hu.le))
  have R1 : 9999 / 10000 * √σ ≤ R := by
    have := (abs_le.1 r3).1
    have k : u * (1757 / 1000 * √σ) ≤ 1 / 10 ^ 6 * (1757 / 1000 * √σ) := mul_le_mul_of_nonneg_right u1 (by positivity)
    norm_num at k; linarith
  have R0 : 0 < R := lt_of_lt_of_le (by positivity) R1
  refine ⟨R0, ?_⟩
  -- the quotient
  have T0 := abs_nonneg (N / √σ)
  have d1 : |N / R - N / √σ| ≤ u * (1758 / 1000 * |N / √σ|) := by
    have e : N / R - N / √σ = N / √σ * ((√σ - R) / R) := by field_simp
    rw [e]
    have k : |(√σ - R) / R| ≤ u * (1758 / 1000) := by
      rw [abs_div, abs_of_pos R0, div_le_iff₀ R0, abs_sub_comm]
      refine le_trans r3 ?_
      have : u * (1758 / 1000 * (9999 / 10000 * √σ)) ≤ u * (1758 / 1000 * R) := mul_le_mul_of_nonneg_left (mul_le_mul_of_nonneg_left R1 (by norm_num)) hu.le
      have h2 : u * (1757 / 1000 * √σ) ≤ u * (1758 / 1000 * (9999 / 10000 * √σ)) := mul_le_mul_of_nonneg_left (by norm_num; linarith) hu.le
      linarith
    have := abs_mul_le (le_refl |N / √σ|) k
    linarith
  have d2 := abs_near d1 le_rfl
  have d3 : |N / R| ≤ 1001 / 1000 * |N / √σ| := by
    have b : u * (1758 / 1000 * |N / √σ|) ≤ 1 / 10 ^ 6 * (1758 / 1000 * |N / √σ|) := mul_le_mul_of_nonneg_right u1 (by positivity)
    norm_num at b; linarith
  have d4 : |N| ≤ 2 * |N / √σ| := by
    have : √σ ≤ 2 := by
      rw [show (2 : ℝ) = √4 by rw [show (4 : ℝ) = 2 ^ 2 by norm_num, Real.sqrt_sq (by norm_num)]]; exact Real.sqrt_le_sqrt (by linarith)
    rw [abs_div, abs_of_pos r0, ← mul_div_assoc, le_div_iff₀ r0, mul_comm]
    exact mul_le_mul_of_nonneg_right this (abs_nonneg N)
  have d5 : η ≤ u * (1 / 10 ^ 6 * (2 * |N / √σ|)) := le_trans hηN (mul_le_mul_of_nonneg_left (mul_le_mul_of_nonneg_left d4 (by norm_num)) hu.le)
  refine le_trans (abs_tri ht d1) ?_
  have d6 := mul_le_mul_of_nonneg_left d3 hu.le
  have e : u * (1001 / 1000 * |N / √σ|) + u * (1 / 10 ^ 6 * (2 * |N / √σ|)) + u * (1758 / 1000 * |N / √σ|) = u * ((1001 / 1000 + 2 / 10 ^ 6 + 1758 / 1000) * |N / √σ|) := by ring
  refine le_trans (by linarith) (le_trans (le_of_eq e) (mul_le_mul_of_nonneg_left (mul_le_mul_of_nonneg_right (by norm_num) T0) hu.le))

/-- the main branch: `asin(n / sqrt(1 + n^2))` -/
theorem atan_mid (fused : Bool) (md : Mode) {n ax : ℕ} (hn : binary64.Finite n) (ha : binary64.Finite ax) (hv : binary64.val ax = |binary64.val n|)
    (h1 : 1 / 2 ^ 14 ≤ |binary64.val n|) (h2 : |binary64.val n| ≤ 1) :
    let r := CC.asinDouble fused md (binary64.hdiv md n (CC.sqrt binary64 md (binary64.hadd md 0x3FF0000000000000 (binary64.hmul md ax ax))))
    binary64.Finite r ∧ |binary64.val r - arctan (binary64.val n)| ≤ ru md * (18 * |arctan (binary64.val n)|) + 3 * eta ∧
      (0 ≤ binary64.val n → |binary64.val r - arctan (binary64.val n)| ≤ ru md * (12 * |arctan (binary64.val n)|) + 3 * eta) := by
  dsimp only
  have hu := ru_pos md
  have hu2 := ru_le md
  have hu3 := ru_ge md
  have hη := eta_le
  have hη0 := eta_pos
  have f1 : binary64.Finite 0x3FF0000000000000 := by decide +kernel
  have hvv : binary64.val ax * binary64.val ax = binary64.val n * binary64.val n := by rw [hv, abs_mul_abs_self]
  have hNN : |binary64.val n * binary64.val n| ≤ 1 := le_trans (abs_mul_le h2 h2) (by norm_num)
  obtain ⟨fq, eq⟩ := mul64_err md ha ha (by rw [hvv]; exact le_trans hNN (by norm_num))
  rw [hvv] at eq
  have hη9 : eta ≤ ru md * (1 / 10 ^ 9) := by
    have a : (1 : ℝ) / 2 ^ 200 ≤ 1 / 2 ^ 53 * (1 / 10 ^ 9) := by norm_num
    have b := mul_le_mul_of_nonneg_right hu3 (show (0 : ℝ) ≤ 1 / 10 ^ 9 by norm_num)
    linarith
  have hηN : eta ≤ ru md * (1 / 10 ^ 6 * |binary64.val n|) := by
    have a : (1 : ℝ) / 2 ^ 200 ≤ 1 / 2 ^ 53 * (1 / 10 ^ 6 * (1 / 2 ^ 14)) := by norm_num
    have b : 1 / 2 ^ 53 * (1 / 10 ^ 6 * (1 / 2 ^ 14)) ≤ ru md * (1 / 10 ^ 6 * |binary64.val n|) :=
      mul_le_mul hu3 (mul_le_mul_of_nonneg_left h1 (by positivity)) (by positivity) hu.le
    linarith
  have hη1 : eta ≤ 1 / 100 := le_trans hη (by norm_num)
  have hu1 : ru md ≤ 1 / 100 := le_trans hu2 (by norm_num)
  have hq : |binary64.val (binary64.hmul md ax ax) - binary64.val n * binary64.val n| ≤ 1 / 10 := by
    have := mul_le_mul hu1 hNN (abs_nonneg _) (by norm_num)
    norm_num at *; linarith
  have hnn0 : 0 ≤ binary64.val n * binary64.val n := mul_self_nonneg _
  have hnn1 : binary64.val n * binary64.val n ≤ 1 := le_trans (le_abs_self _) hNN
  have hq2 := abs_le.1 hq
  obtain ⟨fs, es⟩ := add64_err md f1 fq (by
    rw [val_one64, abs_of_nonneg (by linarith)]; have : (3 : ℝ) ≤ 2 ^ 200 := by norm_num
    linarith)
  rw [val_one64] at es
  have hs := es
  rw [abs_of_nonneg (a := 1 + binary64.val (binary64.hmul md ax ax)) (by linarith)] at hs
  have hs1 : |binary64.val (binary64.hadd md 0x3FF0000000000000 (binary64.hmul md ax ax)) - (1 + binary64.val (binary64.hmul md ax ax))| ≤ 1 / 10 := by
    refine le_trans hs ?_
    have := mul_le_mul hu1 (show 1 + binary64.val (binary64.hmul md ax ax) ≤ 3 by linarith) (by linarith) (by norm_num)
    norm_num at *; linarith
  have hs2 := abs_le.1 hs1
  have hs0 : 0 ≤ binary64.val (binary64.hadd md 0x3FF0000000000000 (binary64.hmul md ax ax)) := by linarith
  have hs3 : 1 / 4 ≤ binary64.val (binary64.hadd md 0x3FF0000000000000 (binary64.hmul md ax ax)) := by linarith
  have hs4 : binary64.val (binary64.hadd md 0x3FF0000000000000 (binary64.hmul md ax ax)) ≤ 4 := by linarith
  have Rs := C19_sqrt binary64 (by decide) (by decide) md fs hs0
  have q1 : 1 / 2 ≤ √(binary64.val (binary64.hadd md 0x3FF0000000000000 (binary64.hmul md ax ax))) := by
    apply Real.le_sqrt_of_sq_le; norm_num at *; linarith
  have q2 : √(binary64.val (binary64.hadd md 0x3FF0000000000000 (binary64.hmul md ax ax))) ≤ 2 := by
    rw [show (2 : ℝ) = √4 by rw [show (4 : ℝ) = 2 ^ 2 by norm_num, Real.sqrt_sq (by norm_num)]]; exact Real.sqrt_le_sqrt hs4
  obtain ⟨fR, eR⟩ := err64 Rs (by rw [abs_of_nonneg (by linarith)]; refine le_trans q2 (by norm_num))
  rw [abs_of_nonneg (a := √(binary64.val (binary64.hadd md 0x3FF0000000000000 (binary64.hmul md ax ax)))) (by linarith)] at eR
  have hR1 : |binary64.val (CC.sqrt binary64 md (binary64.hadd md 0x3FF0000000000000 (binary64.hmul md ax ax))) -
      √(binary64.val (binary64.hadd md 0x3FF0000000000000 (binary64.hmul md ax ax)))| ≤ 1 / 10 := by
    refine le_trans eR ?_
    have := mul_le_mul hu1 q2 (by linarith) (by norm_num)
    norm_num at *; linarith
  have hR2 := abs_le.1 hR1
  generalize hroot : CC.sqrt binary64 md (binary64.hadd md 0x3FF0000000000000 (binary64.hmul md ax ax)) = root at *
  have hRpos : 1 / 4 ≤ binary64.val root := by linarith
  have Rd := binary64.hdiv_spec md hn fR (by intro h; linarith)
  have hquot : |binary64.val n / binary64.val root| ≤ 4 := by
    rw [abs_div, abs_of_pos (a := binary64.val root) (by linarith), div_le_iff₀ (by linarith)]; linarith
  obtain ⟨ft, et⟩ := err64 Rd (le_trans hquot (by norm_num))
  obtain ⟨-, key⟩ := atan_root_aux hu hu2 hη9 hηN h2 eq es hs0 eR et
  generalize binary64.hdiv md n root = t at *
  have hT : |binary64.val n / √(1 + binary64.val n ^ 2)| ≤ 7072 / 10000 := by
    have hσ : 0 < 1 + binary64.val n ^ 2 := by positivity
    rw [abs_div, abs_of_pos (Real.sqrt_pos.2 hσ), div_le_iff₀ (Real.sqrt_pos.2 hσ)]
    have : |binary64.val n| * (10000 / 7072) ≤ √(1 + binary64.val n ^ 2) := by
      apply Real.le_sqrt_of_sq_le
      rw [mul_pow, sq_abs]
      have : binary64.val n ^ 2 ≤ 1 := by rw [pow_two]; exact hnn1
      norm_num; linarith
    linarith
  have hTA : |binary64.val n / √(1 + binary64.val n ^ 2)| ≤ |arctan (binary64.val n)| := by
    rw [Real.arctan_eq_arcsin]; exact abs_le_arcsin (le_trans hT (by norm_num))
  have hA : arctan (binary64.val n) = arcsin (binary64.val n / √(1 + binary64.val n ^ 2)) := Real.arctan_eq_arcsin _
  have htb : |binary64.val t| ≤ 708 / 1000 := by
    refine le_trans (abs_near key hT) ?_
    have := mul_le_mul (le_trans hu2 (show (1 : ℝ) / 2 ^ 52 ≤ 1 / 10 ^ 6 by norm_num)) (show 276 / 100 * |binary64.val n / √(1 + binary64.val n ^ 2)| ≤ 276 / 100 * 1 by linarith) (by positivity) (by norm_num)
    norm_num at *; linarith
  have lip := arcsin_lip htb (le_trans hT (by norm_num))
  rw [← hA] at lip
  have lip2 : |arcsin (binary64.val t) - arctan (binary64.val n)| ≤ ru md * (3911 / 1000 * |arctan (binary64.val n)|) := by
    refine le_trans lip ?_
    have a := mul_le_mul_of_nonneg_left key (show (0 : ℝ) ≤ 1417 / 1000 by norm_num)
    have b : ru md * (276 / 100 * |binary64.val n / √(1 + binary64.val n ^ 2)|) ≤ ru md * (276 / 100 * |arctan (binary64.val n)|) :=
      mul_le_mul_of_nonneg_left (by linarith) hu.le
    have c : 1417 / 1000 * (ru md * (276 / 100 * |arctan (binary64.val n)|)) = ru md * (1417 / 1000 * (276 / 100) * |arctan (binary64.val n)|) := by ring
    have d : ru md * (1417 / 1000 * (276 / 100) * |arctan (binary64.val n)|) ≤ ru md * (3911 / 1000 * |arctan (binary64.val n)|) :=
      mul_le_mul_of_nonneg_left (mul_le_mul_of_nonneg_right (by norm_num) (abs_nonneg _)) hu.le
    linarith
  obtain ⟨fo, e1, e2⟩ := asinDouble_all fused md ft (le_trans htb (by norm_num))
  have hAs : |arcsin (binary64.val t)| ≤ 1001 / 1000 * |arctan (binary64.val n)| := by
    refine le_trans (abs_near lip2 le_rfl) ?_
    have k1 := mul_le_mul_of_nonneg_right (le_trans hu2 (show (1 : ℝ) / 2 ^ 52 ≤ 1 / 10 ^ 6 by norm_num)) (show 0 ≤ 3911 / 1000 * |arctan (binary64.val n)| by positivity)
    have k2 := abs_nonneg (arctan (binary64.val n))
    norm_num at k1 ⊢; linarith
  have comb : ∀ c d : ℝ, 0 ≤ c → c * (1001 / 1000) + 3911 / 1000 ≤ d → |binary64.val (CC.asinDouble fused md t) - arcsin (binary64.val t)| ≤ ru md * (c * |arcsin (binary64.val t)|) + 3 * eta →
      |binary64.val (CC.asinDouble fused md t) - arctan (binary64.val n)| ≤ ru md * (d * |arctan (binary64.val n)|) + 3 * eta := by
    intro c d hc hd h
    refine le_trans (abs_tri h lip2) ?_
    have a : ru md * (c * |arcsin (binary64.val t)|) ≤ ru md * (c * (1001 / 1000 * |arctan (binary64.val n)|)) := mul_le_mul_of_nonneg_left (mul_le_mul_of_nonneg_left hAs hc) hu.le
    have b : ru md * ((c * (1001 / 1000) + 3911 / 1000) * |arctan (binary64.val n)|) ≤ ru md * (d * |arctan (binary64.val n)|) :=
      mul_le_mul_of_nonneg_left (mul_le_mul_of_nonneg_right hd (abs_nonneg _)) hu.le
    have e : ru md * (c * (1001 / 1000 * |arctan (binary64.val n)|)) + ru md * (3911 / 1000 * |arctan (binary64.val n)|) = ru md * ((c * (1001 / 1000) + 3911 / 1000) * |arctan (binary64.val n)|) := by ring
    linarith
  refine ⟨fo, comb 14 18 (by norm_num) (by norm_num) e1, fun h => comb 8 12 (by norm_num) (by norm_num) (e2 ?_)⟩
  -- the quotient is not negative
  by_contra hneg
  rw [not_le] at hneg
  have hNpos : 0 < binary64.val n := lt_of_le_of_ne h (fun e => by rw [← e, abs_zero] at h1; norm_num at h1)
  have hTp : 0 < binary64.val n / √(1 + binary64.val n ^ 2) := by positivity
  rw [abs_of_pos hTp] at key
  have k1 := (abs_le.1 key).1
  have k2 := mul_le_mul_of_nonneg_right (le_trans hu2 (show (1 : ℝ) / 2 ^ 52 ≤ 1 / 10 ^ 6 by norm_num)) (show 0 ≤ 276 / 100 * (binary64.val n / √(1 + binary64.val n ^ 2)) by positivity)
  norm_num at k2; linarith

end Verif
