import Verif.Props.Dyadic

/-!
# C103: `approx_reciprocal` of dyadic floats

Newton's iteration from a quotient of 32-bit numbers: for a positive number it ends after as many steps as the precision needs, and the product of the
result and the number is one up to `7 N` units (`N` words).  For a negative number it diverges, because it starts from a positive value.
-/

namespace Verif
open Fmt

theorem Dy.exp_le {B : ℕ} {d : Dy} (hB : 1 ≤ B) (hd : d.Normal B) (h0 : d.m ≠ 0) {k : ℤ} (h : |d.val| < (2 : ℝ) ^ k) : d.e ≤ k - B := by
  rw [d.abs_val] at h
  have hm : 2 ^ (B - 1) ≤ d.m := by have := hd.2; tauto
  have h1 : (2 : ℝ) ^ (((B - 1 : ℕ) : ℤ) + d.e) < 2 ^ k := by
    rw [zpow_add₀ (by norm_num), zpow_natCast]
    exact lt_of_le_of_lt (mul_le_mul_of_nonneg_right (by exact_mod_cast hm) (two_zpow_pos _).le) h
  have := (zpow_lt_zpow_iff_right₀ (show (1 : ℝ) < 2 by norm_num)).1 h1
  omega

/-- one step of Newton's iteration with a relative error in both products and an absolute one in the difference -/
theorem newton103 {δ t1 t2 h D ε η : ℝ} (hδ : |δ| ≤ D) (hD : D ≤ 1 / 1024) (ht1 : 0 ≤ t1) (ht1' : t1 ≤ ε) (ht2 : 0 ≤ t2) (ht2' : t2 ≤ ε) (hh : |h| ≤ η)
    (hε : ε ≤ 1 / 1024) (hη : η ≤ 1 / 1024) : |(1 + δ) * (2 - (1 + δ) * (1 - t1) + h) * (1 - t2) - 1| ≤ D ^ 2 + (2.01 * ε + 1.01 * η) := by
  have hD0 : 0 ≤ D := le_trans (abs_nonneg _) hδ
  have hε0 : 0 ≤ ε := le_trans ht1 ht1'
  have hη0 : 0 ≤ η := le_trans (abs_nonneg _) hh
  have d1 : |1 + δ| ≤ 1.001 := by
    have := abs_add_le 1 δ; rw [abs_one] at this; norm_num; linarith
  have d2 : |1 + δ| ^ 2 ≤ 1.0021 := by
    have := mul_le_mul d1 d1 (abs_nonneg _) (by norm_num : (0 : ℝ) ≤ 1.001)
    rw [pow_two]; norm_num at this ⊢; linarith
  have e1 : |δ ^ 2| ≤ D ^ 2 := by rw [abs_pow]; exact pow_le_pow_left₀ (abs_nonneg _) hδ 2
  have e2 : |(1 + δ) ^ 2 * t1| ≤ 1.0021 * ε := by
    rw [abs_mul, abs_pow, abs_of_nonneg ht1]; exact mul_le_mul d2 ht1' ht1 (by norm_num)
  have e3 : |(1 + δ) * h| ≤ 1.001 * η := by rw [abs_mul]; exact mul_le_mul d1 hh (abs_nonneg _) (by norm_num)
  have P1 : |(1 + δ) * (2 - (1 + δ) * (1 - t1) + h) - 1| ≤ D ^ 2 + 1.0021 * ε + 1.001 * η := by
    have : (1 + δ) * (2 - (1 + δ) * (1 - t1) + h) - 1 = -δ ^ 2 + (1 + δ) ^ 2 * t1 + (1 + δ) * h := by ring
    rw [this]
    refine le_trans (abs_add_le _ _) (add_le_add (le_trans (abs_add_le _ _) (add_le_add ?_ e2)) e3)
    rw [abs_neg]; exact e1
  have D2 : D ^ 2 ≤ 1 / 1024 := by nlinarith
  set P := (1 + δ) * (2 - (1 + δ) * (1 - t1) + h) with hP
  have P2 : |P| ≤ 1.007 := by
    have := abs_add_le (P - 1) 1
    rw [sub_add_cancel, abs_one] at this
    norm_num at P1 ⊢; linarith
  have e4 : |P * t2| ≤ 1.007 * ε := by rw [abs_mul, abs_of_nonneg ht2]; exact mul_le_mul P2 ht2' ht2 (by norm_num)
  have : P * (1 - t2) - 1 = (P - 1) - P * t2 := by ring
  rw [this]
  have := abs_sub (P - 1) (P * t2)
  norm_num at *
  linarith

/-- the error of the step as real numbers -/
noncomputable def recipC (N B : ℕ) : ℝ := 2.01 * mulEps N B + 1.01 * 2 ^ (2 - (B : ℤ))

theorem recip_small {w N : ℕ} (hw : 1 ≤ w) (hN : 1 ≤ N) (hB : 64 ≤ w * N) :
    mulEps N (w * N) ≤ 1 / 2 ^ 50 ∧ (2 : ℝ) ^ (2 - ((w * N : ℕ) : ℤ)) ≤ mulEps N (w * N) ∧ 0 < (2 : ℝ) ^ (2 - ((w * N : ℕ) : ℤ)) := by
  have hz : (0 : ℝ) < 2 ^ (2 - ((w * N : ℕ) : ℤ)) := two_zpow_pos _
  have hNr : (1 : ℝ) ≤ N := by exact_mod_cast hN
  refine ⟨?_, ?_, hz⟩
  · have key : ∀ n : ℕ, n + 64 ≤ 2 ^ (n + 7) := by
      intro n
      induction n with
      | zero => norm_num
      | succ n ih => rw [show n + 1 + 7 = n + 7 + 1 by ring, pow_succ]; omega
    obtain ⟨n, hn⟩ : ∃ n, w * N = n + 64 := ⟨w * N - 64, by omega⟩
    have h1 : N ≤ 2 ^ (n + 7) := le_trans (le_trans (Nat.le_mul_of_pos_left N hw) (le_of_eq hn)) (key n)
    unfold mulEps
    rw [hn]
    calc (N : ℝ) * 2 ^ (2 - ((n + 64 : ℕ) : ℤ)) ≤ 2 ^ (n + 7) * 2 ^ (2 - ((n + 64 : ℕ) : ℤ)) :=
          mul_le_mul_of_nonneg_right (by exact_mod_cast h1) (two_zpow_pos _).le
      _ = 2 ^ (-55 : ℤ) := by
          rw [← zpow_natCast, ← zpow_add₀ (by norm_num)]; congr 1; push_cast; ring
      _ ≤ 1 / 2 ^ 50 := by norm_num
  · unfold mulEps
    nlinarith

/-- the body of the loop -/
theorem recip_step (wide : Bool) {w N : ℕ} (hw : 1 ≤ w) (he : wide = false → w % 2 = 0) (hN : 1 ≤ N) (hM : N < 2 ^ w) (hB : 64 ≤ w * N) {a x : Dy}
    (ha : a.Normal (w * N)) (hx : x.Normal (w * N)) (as : a.s = false) (xs : x.s = false) {D : ℝ} (hδ : |a.val * x.val - 1| ≤ D) (hD : D ≤ 1 / 1024) :
    let x' := CC.quickMul wide w N x (CC.quickSub (w * N) (CC.dyMk (w * N) false 1 1) (CC.quickMul wide w N a x))
    x'.Normal (w * N) ∧ x'.s = false ∧ |a.val * x'.val - 1| ≤ D ^ 2 + recipC N (w * N) := by
  intro x'
  obtain ⟨s1, s2, s3⟩ := recip_small hw hN hB
  set B := w * N with hBdef
  have hd := abs_le.1 hδ
  obtain ⟨ny, sy, θ1, l1, u1, vy⟩ := CC.quickMul_rel wide hw he hN hM ha hx (by omega)
  set y := CC.quickMul wide w N a x with hy
  rw [as, xs] at sy
  have hε : mulEps N B ≤ 1 / 1024 := le_trans s1 (by norm_num)
  have yv : 0.99 ≤ y.val ∧ y.val ≤ 1.01 := by
    rw [vy]
    have a1 : 0.999 ≤ a.val * x.val := by norm_num; linarith [hd.1]
    have a2 : a.val * x.val ≤ 1.001 := by norm_num; linarith [hd.2]
    have t1 : 0.999 ≤ θ1 := by norm_num; linarith
    constructor
    · have := mul_le_mul a1 t1 (by norm_num) (by linarith)
      norm_num at this ⊢; linarith
    · have := mul_le_mul a2 u1 (by linarith) (by norm_num : (0 : ℝ) ≤ 1.001)
      norm_num at this ⊢; linarith
  have y0 : y.m ≠ 0 := fun h => by
    have := (Dy.val_eq_zero y).2 h
    rw [this] at yv; norm_num at yv
  obtain ⟨nt, vt, st⟩ := C32_construct (B := B) false 1 (mant := 1) (Nat.one_lt_two_pow (by omega))
  set two := CC.dyMk B false 1 1 with htwo
  replace vt : two.val = 2 := by rw [vt]; norm_num
  have t0 : two.m ≠ 0 := fun h => by
    have := (Dy.val_eq_zero two).2 h
    rw [this] at vt; norm_num at vt
  obtain ⟨nz, ez, -⟩ := C32_quick_sub_opposite nt ny t0 y0 (by rw [st, sy]; rfl)
  set z := CC.quickSub B two y with hz
  have et := Dy.exp_le (by omega) nt t0 (k := 2) (by rw [vt, abs_of_pos (by norm_num)]; norm_num)
  have ey := Dy.exp_le (by omega) ny y0 (k := 1) (by rw [abs_of_pos (by norm_num at yv; linarith)]; norm_num at yv ⊢; linarith)
  have ez' : |z.val - (2 - y.val)| ≤ 2 ^ (2 - (B : ℤ)) := by
    rw [vt] at ez
    exact le_trans ez.le (zpow_le_zpow_right₀ (by norm_num) (max_le et (by omega)))
  have hη : (2 : ℝ) ^ (2 - (B : ℤ)) ≤ 1 / 1024 := le_trans s2 hε
  have zs : z.s = false := by
    by_contra hc
    have hc' : z.s = true := by simpa using hc
    have : z.val ≤ 0 := by
      unfold Dy.val
      rw [hc', if_pos rfl]
      have := two_zpow_pos z.e
      have : (0 : ℝ) ≤ (z.m : ℝ) * 2 ^ z.e := by positivity
      linarith
    have h := (abs_le.1 ez').1
    norm_num at yv hη
    linarith [yv.2]
  obtain ⟨nx', sx', θ2, l2, u2, vx'⟩ := CC.quickMul_rel wide hw he hN hM hx nz (by omega)
  refine ⟨nx', by rw [show x'.s = (x.s != z.s) from sx', xs, zs]; rfl, ?_⟩
  have vx'' : x'.val = x.val * z.val * θ2 := vx'
  have := newton103 (δ := a.val * x.val - 1) (t1 := 1 - θ1) (t2 := 1 - θ2) (h := z.val - (2 - y.val)) hδ hD (by linarith) (by linarith : _ ≤ mulEps N B)
    (by linarith) (by linarith) ez' hε hη
  have e : (1 + (a.val * x.val - 1)) * (2 - (1 + (a.val * x.val - 1)) * (1 - (1 - θ1)) + (z.val - (2 - y.val))) * (1 - (1 - θ2)) - 1 = a.val * x'.val - 1 := by
    rw [vx'', vy]; ring
  rw [e] at this
  exact this

theorem recip_loop (wide : Bool) {w N : ℕ} (hw : 1 ≤ w) (he : wide = false → w % 2 = 0) (hN : 1 ≤ N) (hM : N < 2 ^ w) (hB : 64 ≤ w * N) {a : Dy}
    (ha : a.Normal (w * N)) (as : a.s = false) (k ok : ℕ) {x : Dy} (hk : w * N ≤ ok + k) (hok : 31 ≤ ok) (hx : x.Normal (w * N)) (xs : x.s = false)
    (hδ : |a.val * x.val - 1| ≤ 1 / 2 ^ ok + 2 * recipC N (w * N)) :
    (CC.recipLoop wide w N a k ok x).Normal (w * N) ∧ (CC.recipLoop wide w N a k ok x).s = false ∧
      |a.val * (CC.recipLoop wide w N a k ok x).val - 1| ≤ 1 / 2 ^ (w * N) + 2 * recipC N (w * N) := by
  have fin : w * N ≤ ok → |a.val * x.val - 1| ≤ 1 / 2 ^ (w * N) + 2 * recipC N (w * N) := by
    intro h
    refine le_trans hδ ?_
    have : (1 : ℝ) / 2 ^ ok ≤ 1 / 2 ^ (w * N) := one_div_le_one_div_of_le (by positivity) (pow_le_pow_right₀ (by norm_num) h)
    linarith
  induction k generalizing ok x with
  | zero => exact ⟨hx, xs, fin (by omega)⟩
  | succ k ih =>
    unfold CC.recipLoop
    split_ifs with hlt
    · obtain ⟨s1, s2, s3⟩ := recip_small hw hN hB
      have p1 : (1 : ℝ) / 2 ^ ok ≤ 1 / 2 ^ 31 := one_div_le_one_div_of_le (by positivity) (pow_le_pow_right₀ (by norm_num) hok)
      have p0 : (0 : ℝ) < 1 / 2 ^ ok := by positivity
      have c0 : 0 ≤ recipC N (w * N) := by unfold recipC; linarith
      have c1 : recipC N (w * N) ≤ 1 / 2 ^ 20 := by
        refine le_trans (b := 4 * mulEps N (w * N)) (by unfold recipC; linarith) (le_trans (mul_le_mul_of_nonneg_left s1 (by norm_num)) (by norm_num))
      obtain ⟨g1, g2, g3⟩ := recip_step wide hw he hN hM hB ha hx as xs hδ
        (le_trans (add_le_add p1 (mul_le_mul_of_nonneg_left c1 (by norm_num))) (by norm_num))
      have q : (1 / (2 : ℝ) ^ ok + 2 * recipC N (w * N)) ^ 2 + recipC N (w * N) ≤ 1 / 2 ^ (2 * ok - 1) + 2 * recipC N (w * N) := by
        have e : (1 : ℝ) / 2 ^ (2 * ok - 1) = 2 * (1 / 2 ^ ok) ^ 2 := by
          have h2 : (2 : ℝ) ^ (2 * ok) = 2 * 2 ^ (2 * ok - 1) := by
            rw [← pow_succ']; congr 1; omega
          rw [one_div_pow, ← pow_mul, mul_comm ok 2, h2]; field_simp
        rw [e]
        generalize (1 : ℝ) / 2 ^ ok = p at *
        generalize recipC N (w * N) = c at *
        norm_num at p1 c1
        have h1 : p * c ≤ 1 / 16 * c := mul_le_mul_of_nonneg_right (by linarith) c0
        have h2 : c * c ≤ 1 / 16 * c := mul_le_mul_of_nonneg_right (by linarith) c0
        nlinarith [sq_nonneg p]
      have g4 := le_trans g3 q
      refine ih (2 * ok - 1) (by omega) (by omega) g1 g2 g4 fun h => ?_
      refine le_trans g4 ?_
      have : (1 : ℝ) / 2 ^ (2 * ok - 1) ≤ 1 / 2 ^ (w * N) := one_div_le_one_div_of_le (by positivity) (pow_le_pow_right₀ (by norm_num) h)
      linarith
    · exact ⟨hx, xs, fin (by omega)⟩

/-- C103: for a positive normalized number of at least 64 bits `approx_reciprocal` returns a normalized positive number whose product with it is one up to
`7 N 2^(2 - Bits)` -/
theorem C103_approx_reciprocal (wide : Bool) {w N : ℕ} (hw : 1 ≤ w) (he : wide = false → w % 2 = 0) (hN : 1 ≤ N) (hM : N < 2 ^ w) (hB : 64 ≤ w * N) {a : Dy}
    (ha : a.Normal (w * N)) (ha0 : a.m ≠ 0) (as : a.s = false) :
    ∃ x, CC.approxReciprocal wide w N a = some x ∧ x.Normal (w * N) ∧ x.s = false ∧ |a.val * x.val - 1| ≤ 7 * N * 2 ^ (2 - ((w * N : ℕ) : ℤ)) := by
  obtain ⟨s1, s2, s3⟩ := recip_small hw hN hB
  set B := w * N with hBdef
  have hm : 2 ^ (B - 1) ≤ a.m := by have := ha.2; tauto
  have hm2 := ha.1
  set T := 2 ^ (B - 32) with hT
  have hTp : 0 < T := by positivity
  have eB : 2 ^ B = 2 ^ 32 * T := by rw [hT, ← pow_add]; congr 1; omega
  have eB1 : 2 ^ (B - 1) = 2 ^ 31 * T := by rw [hT, ← pow_add]; congr 1; omega
  set d := a.m / T with hd
  have d1 : 2 ^ 31 ≤ d := (Nat.le_div_iff_mul_le hTp).2 (by rw [← eB1]; exact hm)
  have d2 : d < 2 ^ 32 := (Nat.div_lt_iff_lt_mul hTp).2 (by rw [← eB]; exact hm2)
  have dsh : (a.m >>> (B - 32)) % 2 ^ 64 = d := by rw [Nat.shiftRight_eq_div_pow, Nat.mod_eq_of_lt (lt_trans d2 (by norm_num))]
  set q := 0xFFFFFFFFFFFFFFFF / d with hq
  have q1 : q < 2 ^ 33 + 1 := by
    have : q ≤ 0xFFFFFFFFFFFFFFFF / 2 ^ 31 := Nat.div_le_div_left d1 (by norm_num)
    norm_num at this ⊢; omega
  have qB : q % 2 ^ B = q := Nat.mod_eq_of_lt (lt_of_lt_of_le q1 (le_trans (by norm_num) (Nat.pow_le_pow_right (by norm_num) hB)))
  obtain ⟨nx, vx, sx⟩ := C32_construct (B := B) false (-32 - a.e - (B : ℕ)) (mant := q) (by rw [← qB]; exact Nat.mod_lt _ (by positivity))
  set x0 := CC.dyMk B false (-32 - a.e - (B : ℕ)) q with hx0
  -- the product of the start value
  have prod : a.val * x0.val = (a.m : ℝ) * q / (T * 2 ^ 64) := by
    rw [vx]; unfold Dy.val
    rw [as]
    simp only [Bool.false_eq_true, if_false, one_mul]
    have hTr : (T : ℝ) = 2 ^ ((B : ℤ) - 32) := by
      rw [hT]; push_cast
      rw [← zpow_natCast]; congr 1; omega
    rw [hTr, eq_div_iff (mul_ne_zero (two_zpow_pos _).ne' (by norm_num)), show (2 : ℝ) ^ 64 = 2 ^ (64 : ℤ) by norm_num]
    have : (2 : ℝ) ^ a.e * 2 ^ (-32 - a.e - (B : ℤ)) * (2 ^ ((B : ℤ) - 32) * 2 ^ (64 : ℤ)) = 1 := by
      rw [← zpow_add₀ (by norm_num), ← zpow_add₀ (by norm_num), ← zpow_add₀ (by norm_num)]
      rw [show a.e + (-32 - a.e - (B : ℤ)) + ((B : ℤ) - 32 + 64) = 0 by ring, zpow_zero]
    calc _ = (a.m : ℝ) * q * ((2 : ℝ) ^ a.e * 2 ^ (-32 - a.e - (B : ℤ)) * (2 ^ ((B : ℤ) - 32) * 2 ^ (64 : ℤ))) := by ring
      _ = _ := by rw [this, mul_one]
  have f1 : d * T ≤ a.m := Nat.div_mul_le_self _ _
  have f2 : a.m < (d + 1) * T := by rw [mul_comm]; exact Nat.lt_mul_div_succ _ hTp
  have f3 : q * d ≤ 0xFFFFFFFFFFFFFFFF := Nat.div_mul_le_self _ _
  have f4 : 0xFFFFFFFFFFFFFFFF < (q + 1) * d := by rw [mul_comm]; exact Nat.lt_mul_div_succ _ (by omega)
  have h0 : |a.val * x0.val - 1| ≤ 1 / 2 ^ 31 := by
    have hTr : (0 : ℝ) < T := by exact_mod_cast hTp
    have F1 : (d : ℝ) * T ≤ a.m := by exact_mod_cast f1
    have F2 : (a.m : ℝ) < (d + 1) * T := by exact_mod_cast f2
    have F3 : (q : ℝ) * d ≤ 18446744073709551615 := by exact_mod_cast f3
    have F4 : (18446744073709551615 : ℝ) < (q + 1) * d := by exact_mod_cast f4
    have Q : (q : ℝ) ≤ 8589934592 := by
      have : q ≤ 8589934592 := by norm_num at q1; omega
      exact_mod_cast this
    have Q0 : (0 : ℝ) ≤ q := Nat.cast_nonneg _
    have D2 : (d : ℝ) ≤ 4294967296 := by
      have : d ≤ 4294967296 := by norm_num at d2; omega
      exact_mod_cast this
    have G1 := mul_le_mul_of_nonneg_right F1 Q0
    have G2 := mul_le_mul_of_nonneg_right F2.le Q0
    rw [prod, abs_le]
    constructor
    · have : (1 - 1 / 2 ^ 31 : ℝ) ≤ (a.m : ℝ) * q / (T * 2 ^ 64) := by
        rw [le_div_iff₀ (by positivity)]
        have h5 : (1 - 1 / 2 ^ 31 : ℝ) * 2 ^ 64 ≤ (q : ℝ) * d := by norm_num; linarith
        have := mul_le_mul_of_nonneg_right h5 hTr.le
        linarith
      linarith
    · have : (a.m : ℝ) * q / (T * 2 ^ 64) ≤ 1 + 1 / 2 ^ 31 := by
        rw [div_le_iff₀ (by positivity)]
        have h5 : ((d : ℝ) + 1) * q ≤ (1 + 1 / 2 ^ 31) * 2 ^ 64 := by norm_num; linarith
        have := mul_le_mul_of_nonneg_right h5 hTr.le
        linarith
      linarith
  have c0 : 0 ≤ recipC N B := by unfold recipC; linarith
  obtain ⟨r1, r2, r3⟩ := recip_loop wide hw he hN hM hB ha as B 31 (x := x0) (by omega) le_rfl nx sx (le_trans h0 (by linarith))
  refine ⟨_, ?_, r1, r2, le_trans r3 ?_⟩
  · unfold CC.approxReciprocal
    simp only [← hBdef, dsh]
    rw [if_neg (by omega), ← hq, qB]
  · have e1 : (1 : ℝ) / 2 ^ B = 2 ^ (2 - (B : ℤ)) / 4 := by
      rw [zpow_sub₀ (by norm_num), zpow_natCast]; norm_num; ring
    rw [e1]
    have e2 : 7 * (N : ℝ) * 2 ^ (2 - (B : ℤ)) = 7 * mulEps N B := by unfold mulEps; ring
    rw [e2]
    unfold recipC
    linarith

/-- 2/3 with 128 bits -/
example : CC.approxReciprocal false 64 2 ⟨false, -127, 3 * 2 ^ 126⟩ = some ⟨false, -128, 226854911280625642308916404954512140972⟩ ∧
    Dy.Normal (64 * 2) ⟨false, -127, 3 * 2 ^ 126⟩ := by
  refine ⟨by decide +kernel, ?_⟩
  unfold Dy.Normal; decide

/-- C103, finding: the start value is positive whatever the sign, and the iteration diverges for a negative number: with 64 bits the reciprocal of `-3/2` is
positive; with 32 bits the start value does not fit the mantissa and the reciprocal of `3/2` is about `0.29` -/
theorem C103_approx_reciprocal_wrong :
    (∃ x, CC.approxReciprocal true 64 1 ⟨true, -63, 3 * 2 ^ 62⟩ = some x ∧ x.s = false ∧ x.m ≠ 0) ∧
    CC.approxReciprocal true 32 1 ⟨false, -31, 3 * 2 ^ 30⟩ = some ⟨false, -33, 2505397590⟩ := by
  refine ⟨?_, by decide +kernel⟩
  have h : ((CC.approxReciprocal true 64 1 ⟨true, -63, 3 * 2 ^ 62⟩).any fun x => !x.s && x.m != 0) = true := by decide +kernel
  rcases e : CC.approxReciprocal true 64 1 ⟨true, -63, 3 * 2 ^ 62⟩ with _ | x
  · rw [e] at h; simp at h
  · rw [e] at h
    simp only [Option.any_some, Bool.and_eq_true, Bool.not_eq_true', bne_iff_ne] at h
    exact ⟨x, rfl, h.1, h.2⟩

end Verif
