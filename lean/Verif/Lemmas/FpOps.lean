import Verif.Lemmas.Dyadic5

/-!
# Lemmas for the software cast, multiplication and addition
-/

namespace Verif
open Fmt

/-- A value strictly between the two neighbours of an odd integer with at least two digits more than the format rounds like that integer. -/
theorem RoundsTo.odd_jam (f : Fmt) {md : Mode} {a b s : Bool} {J : ℕ} {u : ℤ} {v : ℝ} (hodd : J % 2 = 1) (hJ : 2 ^ (f.F + 2) ≤ J)
    (h1 : (J : ℝ) - 1 < v) (h2 : v < (J : ℝ) + 1) {r : ℕ} (hr : f.RoundsTo md a (sg s * ((J : ℝ) * 2 ^ u)) r) :
    f.RoundsTo md b (sg s * (v * 2 ^ u)) r := by
  have hJ0 : 0 < J := by omega
  obtain ⟨l1, l2, l3⟩ := CC.bitWidth_spec hJ0
  set L := CC.bitWidth J with hL
  have hLF : f.F + 3 ≤ L := by
    by_contra hc
    have : 2 ^ L ≤ 2 ^ (f.F + 2) := Nat.pow_le_pow_right (by norm_num) (by omega)
    omega
  -- position of the last place of the format
  obtain ⟨k, n, hk1, hk2, hk3⟩ : ∃ k n : ℕ, (k : ℤ) - (n + 1) = u - (1 - (f.bias : ℤ) - f.F) ∧ L ≤ n + 1 + (f.F + 1) ∧ (k = 0 ∨ n + 1 + (f.F + 1) = L) := by
    by_cases h : 0 ≤ u - (1 - (f.bias : ℤ) - f.F) + L - (f.F + 1)
    · exact ⟨(u - (1 - (f.bias : ℤ) - f.F) + L - (f.F + 1)).toNat, L - (f.F + 1) - 1, by omega, by omega, by omega⟩
    · exact ⟨0, (-(u - (1 - (f.bias : ℤ) - f.F))).toNat - 1, by omega, by omega, by omega⟩
  have hd : 2 ^ 1 ∣ J - 1 := by rw [pow_one]; omega
  have hc : ((J - 1 : ℕ) : ℝ) = (J : ℝ) - 1 := by rw [Nat.cast_sub (by omega)]; simp
  have B1 := shift_rbits (M := J - 1) (n := n) (j := 1) (v := v) (tl := true) (by omega) hd (by rw [hc]; linarith) (by rw [hc]; linarith)
    (by simp; rw [hc]; exact h1.ne')
  have B2 := shift_rbits (M := J - 1) (n := n) (j := 1) (v := (J : ℝ)) (tl := true) (by omega) hd (by rw [hc]; linarith) (by rw [hc]; linarith)
    (by simp; omega)
  have hval : ∀ t : ℝ, t * 2 ^ u = t / 2 ^ (n + 1) * 2 ^ k * f.minSub := by
    intro t
    rw [mul_assoc, CC.minSub_pow, div_mul_eq_mul_div, eq_div_iff (by positivity), mul_assoc, ← zpow_natCast (2 : ℝ) (n + 1), ← zpow_add₀ (by norm_num)]
    congr 2; push_cast; omega
  have hq : (J - 1) / 2 ^ (n + 1) < 2 ^ (f.F + 1) := by
    rw [Nat.div_lt_iff_lt_mul (by positivity), ← pow_add]
    have : 2 ^ L ≤ 2 ^ (f.F + 1 + (n + 1)) := Nat.pow_le_pow_right (by norm_num) (by omega)
    omega
  have hk : k = 0 ∨ 2 ^ f.F ≤ (J - 1) / 2 ^ (n + 1) := by
    rcases hk3 with h | h
    · exact Or.inl h
    · right
      rw [Nat.le_div_iff_mul_le (by positivity), ← pow_add, show f.F + (n + 1) = L - 1 by omega]
      have : 2 ^ (L - 1) = 2 * 2 ^ (L - 2) := by rw [← pow_succ']; congr 1; omega
      omega
  have hp : (0 : ℝ) < 2 ^ (n + 1) := by positivity
  have hJ1 : (1 : ℝ) ≤ J := by exact_mod_cast hJ0
  rw [hval] at hr ⊢
  exact CC.same_bits f (b := b) B2 B1 (div_pos (by linarith) hp) (div_pos (by linarith) hp) hq hk hr

namespace CC

theorem hcvt_spec (f g : Fmt) (m : Mode) {x : ℕ} (hx : g.Finite x) : f.RoundsTo m (g.sgn x) (g.val x) (f.hcvt g m x) := by
  obtain ⟨hn, hi⟩ := g.finite_B hx
  unfold Fmt.hcvt
  rw [hn, hi]
  simp only [Bool.false_eq_true, if_false]
  have h := f.roundsTo_roundQ m (g.sgn x) (g.sgn x) (N := g.umag (g.mag x) * f.uscale) (D := g.uscale) g.uscale_pos (fun _ => rfl)
  convert h using 1
  have h1 := f.uscale_minSub
  have h2 := g.uscale_minSub
  have h3 : (g.uscale : ℝ) ≠ 0 := by exact_mod_cast g.uscale_pos.ne'
  rw [g.val_eq]
  congr 1
  push_cast
  rw [div_mul_eq_mul_div, mul_assoc, h1, mul_one, eq_div_iff h3, mul_assoc, mul_comm g.minSub, h2, mul_one]

theorem fastAs_zero (f : Fmt) (B : ℕ) (fused : Bool) (md : Mode) {d : Dy} (h : d.m = 0) : fastAs f B fused md d = f.zero d.s := by
  unfold fastAs
  rw [if_pos h, FPBits.zero_eq]; rfl

/-- the low digits of the mantissa made from a datum vanish -/
theorem dyOf_dvd (f : Fmt) {B : ℕ} (hB : f.F + 1 ≤ B) (x : ℕ) : 2 ^ (B - (f.F + 1)) ∣ (dyOf f B x).m := by
  unfold dyOf dyNormalize
  have hlt : FPBits.explicitMantissa f x < 2 ^ (f.F + 1) := by
    rw [explicitMantissa_eq]
    have : f.frac x < 2 ^ f.F := Nat.mod_lt _ (by positivity)
    rw [pow_succ]; split <;> omega
  have hlt2 : FPBits.explicitMantissa f x < 2 ^ B := lt_of_lt_of_le hlt (Nat.pow_le_pow_right (by norm_num) hB)
  simp only [Nat.mod_eq_of_lt hlt2]
  split
  · simp only
    have hbw : bitWidth (FPBits.explicitMantissa f x) ≤ f.F + 1 := bitWidth_le.2 hlt
    rw [Nat.shiftLeft_eq]
    have hd : 2 ^ (B - (f.F + 1)) ∣ 2 ^ (B - bitWidth (FPBits.explicitMantissa f x)) := pow_dvd_pow 2 (by omega)
    refine (Nat.dvd_mod_iff (pow_dvd_pow 2 (by omega))).2 (Dvd.dvd.mul_left hd _)
  · simp_all

theorem or_one_eq (a : ℕ) : a ||| 1 = 2 * (a / 2) + 1 := by
  apply Nat.eq_of_testBit_eq
  intro i
  rw [Nat.testBit_or]
  rcases i with _ | i
  · simp
  · rw [Nat.testBit_succ, Nat.testBit_succ (x := 2 * (a / 2) + 1), show (2 * (a / 2) + 1) / 2 = a / 2 by omega, Nat.testBit_succ]; simp

/-- l.143-175 of add_or_sub.hpp for a normal larger operand `p` and a normal smaller operand `q` -/
theorem addSub_core (f g : Fmt) (hF : 2 ≤ f.F) (hb : f.F + 3 ≤ f.bias) (hfg : f.F ≤ g.F) (hE : 4 ≤ g.E) {B : ℕ} (hB : g.F + 5 ≤ B)
    (hnum : 2 * (g.bias + g.F + B + 2) ≤ 2 ^ 31) (fused : Bool) (md : Mode) {p q : ℕ} (hp : g.Finite p) (hq : g.Finite q)
    (hpn : g.bexp p ≠ 0) (hqn : g.bexp q ≠ 0) (hps : g.sgn p = false) (hqs : g.sgn q = false) (hle : g.val q ≤ g.val p) (rs effAdd zs : Bool)
    (hne : effAdd = false → g.val q < g.val p) :
    f.RoundsTo md zs (sg rs * (g.val p + (if effAdd then 1 else -1) * g.val q))
      (fastAs f B fused md (dyMk B rs (FPBits.getExponent g p - (g.F + 3 : ℤ))
        ((let mxm := (FPBits.explicitMantissa g p <<< 3) % 2 ^ (g.E + g.F + 1)
          let mnm := (FPBits.explicitMantissa g q <<< 3) % 2 ^ (g.E + g.F + 1)
          let al := FPBits.biasedExp g p - FPBits.biasedExp g q
          let aligned := mnm >>> (min al (g.F + 4))
          let sticky := if al ≤ 3 then false else if al ≤ g.F + 3 then ((mnm <<< (g.E + g.F + 1 - al)) % 2 ^ (g.E + g.F + 1)) != 0 else true
          let v := aligned ||| (if sticky then 1 else 0)
          if effAdd then (mxm + v) % 2 ^ (g.E + g.F + 1) else (mxm + 2 ^ (g.E + g.F + 1) - v) % 2 ^ (g.E + g.F + 1)) % 2 ^ B))) := by
  have hp0 : g.val p ≠ 0 := by
    intro h; have := (g.val_eq_zero_iff p).1 h; apply hpn; unfold bexp; rw [this]; simp
  have hq0 : g.val q ≠ 0 := by
    intro h; have := (g.val_eq_zero_iff q).1 h; apply hqn; unfold bexp; rw [this]; simp
  have vp := explicit_val g hp0
  have vq := explicit_val g hq0
  rw [hps, sg_false, one_mul] at vp
  rw [hqs, sg_false, one_mul] at vq
  have ep := explicitExponent_eq g hp0
  have eq := explicitExponent_eq g hq0
  rw [if_neg hpn] at ep
  rw [if_neg hqn] at eq
  have mp := explicitMantissa_eq g p
  have mq := explicitMantissa_eq g q
  rw [if_neg hpn] at mp
  rw [if_neg hqn] at mq
  have fp : g.frac p < 2 ^ g.F := Nat.mod_lt _ (by positivity)
  have fq : g.frac q < 2 ^ g.F := Nat.mod_lt _ (by positivity)
  rw [ep] at vp
  rw [eq] at vq
  generalize FPBits.explicitMantissa g p = X at *
  generalize FPBits.explicitMantissa g q = Y at *
  have hX1 : 2 ^ g.F ≤ X := by omega
  have hX2 : X < 2 * 2 ^ g.F := by omega
  have hY1 : 2 ^ g.F ≤ Y := by omega
  have hY2 : Y < 2 * 2 ^ g.F := by omega
  have hge : FPBits.getExponent g p = (g.bexp p : ℤ) - g.bias := by unfold FPBits.getExponent; rw [FPBits.biasedExp_eq]
  rw [hge, FPBits.biasedExp_eq, FPBits.biasedExp_eq]
  -- exponents are ordered
  have hbe : g.bexp q ≤ g.bexp p := by
    by_contra hc
    push Not at hc
    have : g.val p < g.val q := by
      rw [vp, vq]
      have h1 : (2 : ℝ) ^ ((g.bexp p : ℤ) - g.bias - g.F) * 2 ≤ 2 ^ ((g.bexp q : ℤ) - g.bias - g.F) := by
        rw [mul_comm, ← two_zpow_succ]; exact zpow_le_zpow_right₀ (by norm_num) (by omega)
      have h2 : (X : ℝ) < 2 * 2 ^ g.F := by exact_mod_cast hX2
      have h3 : (2 : ℝ) ^ g.F ≤ Y := by exact_mod_cast hY1
      have h4 := two_zpow_pos ((g.bexp p : ℤ) - g.bias - g.F)
      calc (X : ℝ) * 2 ^ ((g.bexp p : ℤ) - g.bias - g.F) < 2 * 2 ^ g.F * 2 ^ ((g.bexp p : ℤ) - g.bias - g.F) := mul_lt_mul_of_pos_right h2 h4
        _ = 2 ^ g.F * (2 ^ ((g.bexp p : ℤ) - g.bias - g.F) * 2) := by ring
        _ ≤ Y * 2 ^ ((g.bexp q : ℤ) - g.bias - g.F) := mul_le_mul h3 h1 (by positivity) (by positivity)
    linarith
  obtain ⟨al, hal⟩ : ∃ al, g.bexp p = g.bexp q + al := ⟨g.bexp p - g.bexp q, by omega⟩
  rw [show g.bexp p - g.bexp q = al by omega]
  set u : ℤ := (g.bexp p : ℤ) - g.bias - (g.F + 3 : ℤ) with hu
  have vp' : g.val p = (8 * X : ℕ) * (2 : ℝ) ^ u := by
    rw [vp, show (g.bexp p : ℤ) - g.bias - g.F = u + 3 by omega, zpow_add₀ (by norm_num)]; push_cast; norm_num; ring
  have vq' : g.val q = ((8 * Y : ℕ) : ℝ) / 2 ^ al * (2 : ℝ) ^ u := by
    rw [vq, show (g.bexp q : ℤ) - g.bias - g.F = u + 3 - al by omega, zpow_sub₀ (by norm_num), zpow_add₀ (by norm_num), zpow_natCast]
    push_cast; norm_num; ring
  have hu0 := two_zpow_pos u
  -- widths
  have hS : 2 ^ (g.F + 5) ≤ 2 ^ (g.E + g.F + 1) := Nat.pow_le_pow_right (by norm_num) (by omega)
  have hBp : 2 ^ (g.F + 5) ≤ 2 ^ B := Nat.pow_le_pow_right (by norm_num) hB
  have hF5 : 2 ^ (g.F + 5) = 32 * 2 ^ g.F := by rw [pow_add]; ring
  have hF4 : 2 ^ (g.F + 4) = 16 * 2 ^ g.F := by rw [pow_add]; ring
  have hsX : (X <<< 3) % 2 ^ (g.E + g.F + 1) = 8 * X := by rw [Nat.shiftLeft_eq, Nat.mod_eq_of_lt (by omega)]; ring
  have hsY : (Y <<< 3) % 2 ^ (g.E + g.F + 1) = 8 * Y := by rw [Nat.shiftLeft_eq, Nat.mod_eq_of_lt (by omega)]; ring
  simp only [hsX, hsY]
  -- the value handed to the conversion
  have finish : ∀ R : ℕ, R < 2 ^ (g.F + 5) → f.RoundsTo md rs (sg rs * ((R : ℝ) * 2 ^ u)) (fastAs f B fused md (dyMk B rs u (R % 2 ^ B))) := by
    intro R hR
    have hRB : R < 2 ^ B := by omega
    rw [Nat.mod_eq_of_lt hRB]
    obtain ⟨n1, n2, n3, -, n5, -⟩ := dyNormalize_spec (B := B) (d := ⟨rs, u, R⟩) hRB
    have hnum' : 2 * ((g.bias : ℤ) + g.F + B + 2) ≤ 2 ^ 31 := by exact_mod_cast hnum
    have := fastAs_spec f hF hb (B := B) (by omega) (by omega) fused md n1 (by simp only at n5; omega)
    rw [n2, n3, Dy.val_sg] at this
    exact this
  have hpw : 0 < 2 ^ al := by positivity
  have hpwr : (0 : ℝ) < 2 ^ al := by positivity
  have hqp : effAdd = false → ((8 * Y : ℕ) : ℝ) / 2 ^ al < (8 * X : ℕ) := by
    intro h; have := hne h; rw [vp', vq'] at this; exact lt_of_mul_lt_mul_right this hu0.le
  -- no digit lost
  have exactCase : 2 ^ al ∣ 8 * Y → al ≤ g.F + 3 → f.RoundsTo md zs (sg rs * (g.val p + (if effAdd then 1 else -1) * g.val q))
      (fastAs f B fused md (dyMk B rs u ((if effAdd = true then (8 * X + (8 * Y) >>> (min al (g.F + 4))) % 2 ^ (g.E + g.F + 1)
        else (8 * X + 2 ^ (g.E + g.F + 1) - (8 * Y) >>> (min al (g.F + 4))) % 2 ^ (g.E + g.F + 1)) % 2 ^ B))) := by
    intro hdv hle3
    rw [min_eq_left (by omega), Nat.shiftRight_eq_div_pow]
    have hc : ((8 * Y : ℕ) : ℝ) / 2 ^ al = ((8 * Y / 2 ^ al : ℕ) : ℝ) := by
      rw [div_eq_iff (by positivity)]
      exact_mod_cast (Nat.div_mul_cancel hdv).symm
    rw [hc] at vq' hqp
    have hyl : 8 * Y / 2 ^ al ≤ 8 * Y := Nat.div_le_self _ _
    have hpos : 0 < g.val p + (if effAdd then 1 else -1) * g.val q := by
      have h1 : 0 < g.val p := by rw [vp']; exact mul_pos (by exact_mod_cast (by have := Nat.two_pow_pos g.F; omega)) hu0
      have h2 : 0 ≤ g.val q := by rw [vq']; positivity
      cases effAdd
      · have := hne rfl; simp only [Bool.false_eq_true, if_false]; linarith
      · simp only [if_true]; linarith
    refine RoundsTo.zs_irrel (a := rs) ?_ (mul_ne_zero (sg_ne_zero _) hpos.ne')
    generalize 8 * Y / 2 ^ al = T at *
    cases effAdd
    · have := hqp rfl
      have hlt : T < 8 * X := by exact_mod_cast this
      simp only [Bool.false_eq_true, if_false]
      rw [show 8 * X + 2 ^ (g.E + g.F + 1) - T = (8 * X - T) + 2 ^ (g.E + g.F + 1) by omega, Nat.add_mod_right,
        Nat.mod_eq_of_lt (a := 8 * X - T) (by omega)]
      have := finish (8 * X - T) (by omega)
      convert this using 2
      rw [vp', vq', Nat.cast_sub hlt.le]; ring
    · simp only [if_true]
      rw [Nat.mod_eq_of_lt (a := 8 * X + T) (by omega)]
      have := finish (8 * X + T) (by omega)
      convert this using 2
      rw [vp', vq']; push_cast; ring
  -- digits lost: the last retained digit is odd
  have jamCase : ¬ 2 ^ al ∣ 8 * Y → 4 ≤ al → ∀ A : ℕ, A = 8 * Y / 2 ^ al → f.RoundsTo md zs (sg rs * (g.val p + (if effAdd then 1 else -1) * g.val q))
      (fastAs f B fused md (dyMk B rs u ((if effAdd = true then (8 * X + (A ||| 1)) % 2 ^ (g.E + g.F + 1)
        else (8 * X + 2 ^ (g.E + g.F + 1) - (A ||| 1)) % 2 ^ (g.E + g.F + 1)) % 2 ^ B))) := by
    intro hdv hal4 A hA
    have hAle : A ≤ 2 ^ g.F := by
      rw [hA]
      have h16 : 2 ^ 4 ≤ 2 ^ al := Nat.pow_le_pow_right (by norm_num) hal4
      calc 8 * Y / 2 ^ al ≤ 8 * Y / 2 ^ 4 := Nat.div_le_div_left h16 (by norm_num)
        _ ≤ 2 ^ g.F := by omega
    have hlo : (A : ℝ) < ((8 * Y : ℕ) : ℝ) / 2 ^ al := by
      rw [lt_div_iff₀ hpwr]
      have h1 : A * 2 ^ al ≤ 8 * Y := by rw [hA]; exact Nat.div_mul_le_self _ _
      have h2 : A * 2 ^ al ≠ 8 * Y := fun h => hdv ⟨A, by rw [← h]; ring⟩
      have : A * 2 ^ al < 8 * Y := by omega
      exact_mod_cast this
    have hhi : ((8 * Y : ℕ) : ℝ) / 2 ^ al < A + 1 := by
      rw [div_lt_iff₀ hpwr]
      have := Nat.lt_div_mul_add (a := 8 * Y) hpw
      rw [← hA] at this
      have h3 : 8 * Y < (A + 1) * 2 ^ al := by rw [Nat.add_mul, one_mul]; exact this
      exact_mod_cast h3
    generalize ((8 * Y : ℕ) : ℝ) / 2 ^ al = t at *
    have hv := or_one_eq A
    generalize (A ||| 1) = v at *
    have hF0 : 4 ≤ 2 ^ g.F := by
      calc 4 = 2 ^ 2 := by norm_num
        _ ≤ 2 ^ g.F := Nat.pow_le_pow_right (by norm_num) (by omega)
    have hv1 : v ≤ A + 1 := by omega
    have hv2 : A ≤ v := by omega
    have hvr1 : (v : ℝ) - 1 < t := by
      have : (v : ℝ) ≤ A + 1 := by exact_mod_cast hv1
      linarith
    have hvr2 : t < (v : ℝ) + 1 := by
      have : (A : ℝ) ≤ v := by exact_mod_cast hv2
      linarith
    have hfF : 2 ^ (f.F + 2) ≤ 4 * 2 ^ g.F := by
      rw [pow_add]
      have : 2 ^ f.F ≤ 2 ^ g.F := Nat.pow_le_pow_right (by norm_num) hfg
      omega
    cases effAdd
    · simp only [Bool.false_eq_true, if_false]
      rw [show 8 * X + 2 ^ (g.E + g.F + 1) - v = (8 * X - v) + 2 ^ (g.E + g.F + 1) by omega, Nat.add_mod_right,
        Nat.mod_eq_of_lt (a := 8 * X - v) (by omega)]
      have h := finish (8 * X - v) (by omega)
      have hc : ((8 * X - v : ℕ) : ℝ) = (8 * X : ℕ) - v := by rw [Nat.cast_sub (by omega)]
      have := RoundsTo.odd_jam f (b := zs) (v := ((8 * X : ℕ) : ℝ) - t) (by omega) (by omega) (by rw [hc]; linarith) (by rw [hc]; linarith) h
      convert this using 2
      rw [vp', vq']; ring
    · simp only [if_true]
      rw [Nat.mod_eq_of_lt (a := 8 * X + v) (by omega)]
      have h := finish (8 * X + v) (by omega)
      have hc : ((8 * X + v : ℕ) : ℝ) = (8 * X : ℕ) + v := by push_cast; rfl
      have := RoundsTo.odd_jam f (b := zs) (v := ((8 * X : ℕ) : ℝ) + t) (by omega) (by omega) (by rw [hc]; linarith) (by rw [hc]; linarith) h
      convert this using 2
      rw [vp', vq']; ring
  by_cases c1 : al ≤ 3
  · simp only [if_pos c1, Bool.false_eq_true, if_false, Nat.or_zero]
    refine exactCase ?_ (by omega)
    exact Dvd.dvd.mul_right (by rw [show (8 : ℕ) = 2 ^ 3 by norm_num]; exact pow_dvd_pow 2 c1) _
  · simp only [if_neg c1]
    by_cases c2 : al ≤ g.F + 3
    · simp only [if_pos c2]
      have hst : (((8 * Y) <<< (g.E + g.F + 1 - al)) % 2 ^ (g.E + g.F + 1) != 0) = decide (¬ 2 ^ al ∣ 8 * Y) := by
        rw [shl_mod (by omega)]
        have hpz : 2 ^ (g.E + g.F + 1 - al) ≠ 0 := by positivity
        by_cases hd : 2 ^ al ∣ 8 * Y
        · rw [Nat.mod_eq_zero_of_dvd hd]; simp [hd]
        · have : 8 * Y % 2 ^ al ≠ 0 := fun h => hd (Nat.dvd_of_mod_eq_zero h)
          simp [hd, this]
      rw [hst]
      by_cases hd : 2 ^ al ∣ 8 * Y
      · simp only [hd, not_true, decide_false, Bool.false_eq_true, if_false, Nat.or_zero]
        exact exactCase hd c2
      · simp only [hd, not_false_eq_true, decide_true, if_true]
        rw [min_eq_left (by omega), Nat.shiftRight_eq_div_pow]
        exact jamCase hd (by omega) _ rfl
    · simp only [if_neg c2, if_true]
      have h16 : 2 ^ (g.F + 4) ≤ 2 ^ al := Nat.pow_le_pow_right (by norm_num) (by omega)
      have hd : ¬ 2 ^ al ∣ 8 * Y := by
        intro h
        have := Nat.le_of_dvd (by have := Nat.two_pow_pos g.F; omega) h
        omega
      rw [min_eq_right (by omega), Nat.shiftRight_eq_div_pow]
      refine jamCase hd (by omega) _ ?_
      rw [Nat.div_eq_of_lt (by omega), Nat.div_eq_of_lt (by omega)]

end CC
end Verif
