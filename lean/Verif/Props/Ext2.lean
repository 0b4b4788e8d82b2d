import Mathlib.Algebra.Order.Floor.Ring
import Mathlib.Data.Nat.Log
import Verif.Props.Ext

/-!
# C43 (`fract`, `repeat`, `ping_pong`), C53 (`unlerp`, `mix`, `remap`), C54 (`normalize`, `smoothstep`), C55 (`delta_angle`)
-/

namespace Verif
open Fmt
variable (f : Fmt)

/-! ## C43 -/

/-- **C43** `fract(x)` is the exact fractional part `x - ⌊x⌋` rounded once; it lies in `[0, 1]` for every finite `x`, and for
`x ≥ 0` it is exact and below 1.  The full claim `fract(x) < 1` fails for small negative `x`, see `C43_fract_one`. -/
theorem C43_fract_partial (hw : f.Wide) (m : Mode) {x : ℕ} (hx : f.Finite x) :
    (∃ zs, f.RoundsTo m zs (Int.fract (f.val x)) (CC.fract f m x)) ∧
    f.Finite (CC.fract f m x) ∧ 0 ≤ f.val (CC.fract f m x) ∧ f.val (CC.fract f m x) ≤ 1 ∧
    (0 ≤ f.val x → f.val (CC.fract f m x) = Int.fract (f.val x) ∧ f.val (CC.fract f m x) < 1) := by
  obtain ⟨h1, -, n, h2, h3⟩ := (C07_floor f hw m).finite hx
  have e : f.val x - f.val (CC.floor f m x) = Int.fract (f.val x) := by
    rw [h2, h3, Int.self_sub_floor]
  have R := f.hsub_spec m hx h1
  rw [e] at R
  obtain ⟨b1, b2, b3⟩ := RoundsTo.between R (f.finite_zero false) (CC.finite_one f false)
    (by rw [f.val_zero]; exact Int.fract_nonneg _) (by rw [CC.val_one, sg_false]; exact (Int.fract_lt_one _).le)
  rw [f.val_zero] at b2; rw [CC.val_one, sg_false] at b3
  refine ⟨⟨_, R⟩, b1, b2, b3, ?_⟩
  intro h0
  have ex : ∃ c, f.Finite c ∧ f.val c = Int.fract (f.val x) := by
    have hn0 : 0 ≤ ⌊f.val x⌋ := Int.floor_nonneg.2 h0
    have hle : Int.fract (f.val x) ≤ f.val x := by
      have := Int.self_sub_floor (f.val x)
      have h : (0 : ℝ) ≤ ⌊f.val x⌋ := by exact_mod_cast hn0
      linarith
    by_cases hn : ⌊f.val x⌋ = 0
    · refine ⟨x, hx, ?_⟩
      have := Int.self_sub_floor (f.val x)
      rw [hn] at this; simpa using this
    · -- both are multiples of the spacing of x, which is at most 1 because the fractional part would vanish otherwise
      by_cases hg : f.ce x ≤ 0
      · have hm : Mult (f.ce x) (Int.fract (f.val x)) := by
          have h := (f.mult_ce x).sub ((Mult.int_mul ⌊f.val x⌋ (Mult.two_zpow 0)).weaken hg)
          rw [zpow_zero, mul_one, Int.self_sub_floor] at h
          exact h
        have hl := f.abs_val_lt_ce x
        rw [abs_of_nonneg h0] at hl
        refine f.rep hm (f.ce_ge x) ?_ ?_
        · rw [abs_of_nonneg (Int.fract_nonneg _)]; linarith
        · rw [abs_of_nonneg (Int.fract_nonneg _)]
          have := f.abs_val_lt_huge hx
          rw [abs_of_nonneg h0] at this
          linarith
      · refine ⟨f.zero false, f.finite_zero false, ?_⟩
        obtain ⟨a, ha⟩ := (f.mult_ce x).weaken (not_le.1 hg).le
        rw [f.val_zero, ha, zpow_zero, mul_one, Int.fract_intCast]
  have h := RoundsTo.exact_of R ex
  exact ⟨h.2, by unfold CC.fract; rw [h.2]; exact Int.fract_lt_one _⟩

/-- ... `fract` can return 1: `fract(-2^-60) = 1`, in nearest and upward mode. -/
theorem C43_fract_one : ∃ x, binary64.Finite x ∧ CC.fract binary64 .nearest x = CC.oneLit binary64 false ∧
    CC.fract binary64 .up x = CC.oneLit binary64 false :=
  ⟨0xbc30000000000000, by decide +kernel⟩

example : binary64.Finite 0xc004000000000000 ∧ CC.fract binary64 .nearest 0xc004000000000000 = 0x3fe0000000000000 ∧
    CC.fract binary64 .down 0xbc30000000000000 = 0x3fefffffffffffff := by decide +kernel

/-- integers below `2^F` are exact data -/
theorem int_rep (hw : f.Wide) {z : ℤ} (h : |z| ≤ 2 ^ f.F) : ∃ c, f.Finite c ∧ f.val c = (z : ℝ) := int_datum f hw h

/-- the floor of a rounded integer quotient is the floor of the exact quotient -/
theorem floor_div_exact (hw : f.Wide) {m : Mode} {zs : Bool} {V L : ℤ} {q : ℕ} (hL : 0 < L) (hVL : |V| + L ≤ 2 ^ f.F)
    (R : f.RoundsTo m zs ((V : ℝ) / L) q) : f.Finite q ∧ ⌊f.val q⌋ = V / L := by
  have hLr : (0 : ℝ) < L := by exact_mod_cast hL
  set k : ℤ := V / L with hk
  have hk1 : L * k ≤ V := Int.mul_ediv_self_le hL.ne'
  have hk2 : V < L * k + L := Int.lt_mul_ediv_self_add hL
  have hkl : (k : ℝ) ≤ (V : ℝ) / L := by
    rw [le_div_iff₀ hLr]; have : ((k * L : ℤ) : ℝ) ≤ V := by exact_mod_cast (by linarith : k * L ≤ V)
    push_cast at this; exact this
  -- bounds
  have hkL : |k| * L ≤ 2 ^ f.F ∧ |k + 1| * L ≤ 2 ^ f.F := by
    have a1 := neg_abs_le V
    have a2 := le_abs_self V
    constructor
    · rcases abs_cases k with ⟨h, _⟩ | ⟨h, _⟩ <;> rw [h] <;> nlinarith
    · rcases abs_cases (k + 1) with ⟨h, _⟩ | ⟨h, _⟩ <;> rw [h] <;> nlinarith
  have hkF : |k| ≤ 2 ^ f.F := le_trans (by nlinarith [abs_nonneg k]) hkL.1
  obtain ⟨ck, ckf, ckv⟩ := int_datum f hw hkF
  -- a datum strictly below k+1 and not below the quotient
  have hL1 : 1 ≤ L.toNat := by omega
  have hLn : ((L.toNat : ℕ) : ℝ) = (L : ℝ) := by
    have : ((L.toNat : ℕ) : ℤ) = L := Int.toNat_of_nonneg hL.le
    rw [← Int.cast_natCast, this]
  set j := Nat.clog 2 L.toNat with hj
  have j1 : (L : ℝ) ≤ (2 : ℝ) ^ j := by
    rw [← hLn]; exact_mod_cast Nat.le_pow_clog (by decide) _
  have j2 : (2 : ℝ) ^ j < 2 * (L : ℝ) := by
    rcases Nat.lt_or_ge 1 L.toNat with h | h
    · have h2 := Nat.pow_pred_clog_lt_self (b := 2) (by decide) h
      have hj1 : 1 ≤ j := Nat.clog_pos (by decide) h
      have : (2 : ℕ) ^ j < 2 * L.toNat := by
        have : (2 : ℕ) ^ j = 2 * 2 ^ (j - 1) := by rw [← pow_succ']; congr 1; omega
        rw [this]; exact Nat.mul_lt_mul_of_pos_left h2 (by decide)
      rw [← hLn]; exact_mod_cast this
    · have h1 : L.toNat = 1 := by omega
      rw [hj, ← hLn, h1]; norm_num
  have hjF : j ≤ f.F := by
    refine Nat.clog_le_of_le_pow ?_
    have : ((L.toNat : ℕ) : ℤ) ≤ 2 ^ f.F := by rw [Int.toNat_of_nonneg hL.le]; linarith [abs_nonneg V]
    exact_mod_cast this
  have hpj : (2 : ℝ) ^ (-(j : ℤ)) * (2 : ℝ) ^ j = 1 := by
    rw [← zpow_natCast, ← zpow_add₀ (by norm_num)]; simp
  have pj0 : (0 : ℝ) < (2 : ℝ) ^ (-(j : ℤ)) := two_zpow_pos _
  have pj1 : (2 : ℝ) ^ (-(j : ℤ)) * L ≤ 1 := by nlinarith
  have hg : f.emin ≤ -(j : ℤ) := by
    have h1 := hw.1
    unfold Fmt.emin
    have h2 := hw.2
    omega
  have hmult : Mult (-(j : ℤ)) ((k : ℝ) + 1) := by
    have := (Mult.int_mul (k + 1) (Mult.two_zpow 0)).weaken (show -(j : ℤ) ≤ 0 by omega)
    rw [zpow_zero, mul_one] at this; push_cast at this; exact this
  have habs : |(k : ℝ) + 1| < (2 : ℝ) ^ (-(j : ℤ) + f.F + 1) := by
    have h1 : |(k : ℝ) + 1| * L ≤ (2 : ℝ) ^ f.F := by
      have := hkL.2
      have h : ((|k + 1| * L : ℤ) : ℝ) ≤ ((2 ^ f.F : ℤ) : ℝ) := by exact_mod_cast this
      push_cast at h; exact h
    have h2 : (2 : ℝ) ^ (-(j : ℤ) + f.F + 1) = (2 : ℝ) ^ (-(j : ℤ)) * (2 : ℝ) ^ f.F * 2 := by
      rw [zpow_add₀ (by norm_num), zpow_add₀ (by norm_num), zpow_natCast, zpow_one]
    rw [h2]
    -- multiply by L
    by_contra hc
    have h3 := mul_le_mul_of_nonneg_right (not_lt.1 hc) hLr.le
    have h4 : (1 : ℝ) < 2 * ((2 : ℝ) ^ (-(j : ℤ)) * L) := by nlinarith
    have h5 : (0 : ℝ) < (2 : ℝ) ^ f.F := by positivity
    nlinarith
  have hmc : Mult (-(j : ℤ)) ((k : ℝ) + 1 - (2 : ℝ) ^ (-(j : ℤ))) := hmult.sub (Mult.two_zpow _)
  have hce : |(k : ℝ) + 1 - (2 : ℝ) ^ (-(j : ℤ))| ≤ (2 : ℝ) ^ (-(j : ℤ) + f.F + 1) := by
    have hM : Mult (-(j : ℤ)) ((2 : ℝ) ^ (-(j : ℤ) + f.F + 1)) := (Mult.two_zpow _).weaken (by omega)
    obtain ⟨u1, u2⟩ := abs_lt.1 habs
    have u3 := Mult.lt_imp hM.neg hmult u1
    rw [abs_le]; constructor <;> linarith
  have hmx : |(k : ℝ) + 1 - (2 : ℝ) ^ (-(j : ℤ))| < (2 : ℝ) ^ ((f.bias : ℤ) + 1) := by
    have p1 : (2 : ℝ) ^ (-(j : ℤ)) ≤ 1 := by
      have := two_zpow_le (show -(j : ℤ) ≤ 0 by omega); rwa [zpow_zero] at this
    have h1 : |(k : ℝ)| ≤ (2 : ℝ) ^ f.F := by
      have h : ((|k| : ℤ) : ℝ) ≤ ((2 ^ f.F : ℤ) : ℝ) := by exact_mod_cast hkF
      push_cast at h; exact h
    have h2 : (2 : ℝ) ^ f.F + 1 < (2 : ℝ) ^ ((f.bias : ℤ) + 1) := by
      have h3 := two_zpow_le (show (f.F : ℤ) + 1 ≤ (f.bias : ℤ) + 1 by have := hw.1; omega)
      rw [two_zpow_succ, zpow_natCast] at h3
      have : (2 : ℝ) ^ 1 ≤ (2 : ℝ) ^ f.F := pow_le_pow_right₀ (by norm_num) f.hF
      linarith
    obtain ⟨h4, h5⟩ := abs_le.1 h1
    rw [abs_lt]; constructor <;> linarith
  obtain ⟨c, cf, cv⟩ := f.rep hmc hg hce hmx
  have hqc : (V : ℝ) / L ≤ f.val c := by
    rw [cv, div_le_iff₀ hLr]
    have h1 : ((V : ℤ) : ℝ) ≤ ((L * k + L - 1 : ℤ) : ℝ) := by exact_mod_cast (by omega : V ≤ L * k + L - 1)
    push_cast at h1
    nlinarith
  obtain ⟨b1, b2, b3⟩ := RoundsTo.between R ckf cf (by rw [ckv]; exact hkl) hqc
  refine ⟨b1, ?_⟩
  rw [Int.floor_eq_iff]
  rw [ckv] at b2; rw [cv] at b3
  exact ⟨b2, by linarith⟩

/-- **C43** for integer arguments `V` and `L ≥ 1` with `|V| + L ≤ 2^F` (`2^52` for double) `repeat(V, L)` is exactly the residue
of `V` modulo `L`, hence in `[0, L)`, in every rounding mode.  The claim for all arguments is false: see
`C43_repeat_negative` and `C43_repeat_far`. -/
theorem C43_repeat_partial (hw : f.Wide) (m : Mode) {v l : ℕ} {V L : ℤ} (hv : f.Finite v) (hl : f.Finite l)
    (ev : f.val v = V) (el : f.val l = L) (hL : 0 < L) (hVL : |V| + L ≤ 2 ^ f.F) :
    f.Finite (CC.repeat' f m v l) ∧ f.val (CC.repeat' f m v l) = ((V % L : ℤ) : ℝ) ∧
    CC.safeRepeat f m v l = CC.repeat' f m v l := by
  have hL0 : f.val l ≠ 0 := by rw [el]; exact_mod_cast hL.ne'
  have R := f.hdiv_spec m hv hl hL0
  rw [ev, el] at R
  obtain ⟨q1, q2⟩ := floor_div_exact f hw hL hVL R
  obtain ⟨h1, -, n, h2, h3⟩ := (C07_floor f hw m).finite q1
  rw [q2] at h3; subst h3
  have hk1 : L * (V / L) ≤ V := Int.mul_ediv_self_le hL.ne'
  have hk2 : V < L * (V / L) + L := Int.lt_mul_ediv_self_add hL
  have a1 := neg_abs_le V
  have a2 := le_abs_self V
  obtain ⟨p, pf, pv⟩ := int_datum f hw (z := V / L * L) (by rw [abs_le]; constructor <;> nlinarith)
  obtain ⟨m1, m2⟩ := RoundsTo.exact f pf (by rw [pv, h2, el]; push_cast; ring) (f.hmul_spec m h1 hl)
  have m3 := Int.emod_nonneg V hL.ne'
  have m4 := Int.emod_lt_of_pos V hL
  obtain ⟨r, rf, rv⟩ := int_datum f hw (z := V % L) (by rw [abs_le]; constructor <;> nlinarith [abs_nonneg V])
  have e : f.val v - f.val (f.hmul m (CC.floor f m (f.hdiv m v l)) l) = ((V % L : ℤ) : ℝ) := by
    rw [m2, h2, el, ev]
    have := Int.emod_add_mul_ediv V L
    have h : ((V % L + L * (V / L) : ℤ) : ℝ) = ((V : ℤ) : ℝ) := by rw [this]
    rw [Int.cast_add, Int.cast_mul] at h
    rw [← h]; ring
  obtain ⟨s1, s2⟩ := RoundsTo.exact f rf (by rw [rv, e]) (f.hsub_spec m hv m1)
  refine ⟨s1, by unfold CC.repeat'; rw [s2, e], ?_⟩
  unfold CC.safeRepeat
  rw [if_neg]
  rw [CC.heq_finite f hl (f.finite_zero _), f.val_zero]; exact hL0

/-- ... but `repeat(61.9, 0.1)` is negative (default rounding), outside `[0, 0.1]`. -/
theorem C43_repeat_negative : ∃ v l, binary64.Finite v ∧ binary64.Finite l ∧ 0 < binary64.ival v ∧ 0 < binary64.ival l ∧
    binary64.ival (CC.repeat' binary64 .nearest v l) < 0 :=
  ⟨0x404ef33333333333, 0x3fb999999999999a, by decide +kernel⟩

/-- ... and `repeat(1793205730701976832, 3) = 256` is far above its length `3`. -/
theorem C43_repeat_far : ∃ v l, binary64.Finite v ∧ binary64.Finite l ∧ 0 < binary64.ival v ∧ 0 < binary64.ival l ∧
    binary64.ival l < binary64.ival (CC.repeat' binary64 .nearest v l) :=
  ⟨0x43b8e2bf1c7bafa5, 0x4008000000000000, by decide +kernel⟩

example : binary64.Finite 0xc01c000000000000 ∧ CC.repeat' binary64 .nearest 0xc01c000000000000 0x4008000000000000 = 0x4000000000000000 := by
  decide +kernel -- repeat(-7, 3) = 2

/-- **C43** `ping_pong(a, b)` lies in `[0, b]` for every finite `a` and `b > 0`, in every rounding mode, provided `2b` is in range
and the quotient `(a - b)/(2b)` does not overflow. -/
theorem C43_ping_pong (hw : f.Wide) (m : Mode) {a b : ℕ} (hb : f.Finite b) (hb0 : 0 < f.val b)
    (h2b : 2 * f.val b ≤ f.maxFin)
    (hq : f.Finite (f.hdiv m (f.hsub m a b) (f.hmul m b (CC.twoLit f false)))) :
    f.Finite (CC.pingPong f m a b) ∧ 0 ≤ f.val (CC.pingPong f m a b) ∧ f.val (CC.pingPong f m a b) ≤ f.val b := by
  obtain ⟨t1, t2, -⟩ := CC.two_val f hw false
  have t3 : f.val (CC.twoLit f false) = 2 := by rw [t2, sg_false]; norm_num
  unfold CC.pingPong
  have hne : f.heq b (f.zero false) = false := by
    rw [← Bool.not_eq_true, CC.heq_finite f hb (f.finite_zero _), f.val_zero]; exact hb0.ne'
  rw [hne]
  simp only [Bool.false_eq_true, if_false]
  obtain ⟨-, F1, F2, F3, -⟩ := C43_fract_partial f hw m hq
  set q := f.hdiv m (f.hsub m a b) (f.hmul m b (CC.twoLit f false))
  obtain ⟨p1, p2, p3⟩ := RoundsTo.between (f.hmul_spec m F1 hb) (f.finite_zero false) hb
    (by rw [f.val_zero]; positivity) (by nlinarith)
  rw [f.val_zero] at p2
  obtain ⟨B, B1, B2, -⟩ := f.scale_exact (x := b) (k := 1) (Or.inl (by norm_num)) (by
    rw [zpow_one, abs_of_nonneg (by positivity)]
    have := f.maxFin_add
    have h := two_zpow_pos ((f.bias : ℤ) - f.F)
    linarith)
  rw [zpow_one] at B2
  obtain ⟨d1, d2, d3⟩ := RoundsTo.between (f.hmul_spec m p1 t1) (f.finite_zero false) B1
    (by rw [f.val_zero, t3]; positivity) (by rw [t3, B2]; linarith)
  rw [f.val_zero] at d2; rw [B2] at d3
  obtain ⟨s1, s2, s3⟩ := RoundsTo.between (f.hsub_spec m d1 hb) (f.finite_hneg hb) hb (by rw [f.val_hneg]; linarith) (by linarith)
  rw [f.val_hneg] at s2
  obtain ⟨a1, a2, -⟩ := C03_fabs_value f s1
  exact ⟨a1, by rw [a2]; exact abs_nonneg _, by rw [a2, abs_le]; exact ⟨s2, s3⟩⟩

/-- `ping_pong(a, 0) = 0` for every `a`. -/
theorem C43_ping_pong_zero (m : Mode) {a b : ℕ} (hb : f.Finite b) (hb0 : f.val b = 0) : CC.pingPong f m a b = f.zero false := by
  unfold CC.pingPong
  rw [if_pos]
  rw [CC.heq_finite f hb (f.finite_zero _), f.val_zero]; exact hb0

example : binary64.Finite 0x4014000000000000 ∧ CC.pingPong binary64 .nearest 0x4014000000000000 0x4008000000000000 = 0x3ff0000000000000 ∧
    binary64.Finite (binary64.hdiv .nearest (binary64.hsub .nearest 0x4014000000000000 0x4008000000000000)
      (binary64.hmul .nearest 0x4008000000000000 (CC.twoLit binary64 false))) := by decide +kernel

end Verif
