import Verif.Model.FpSupport
import Verif.Lemmas.Ext

/-!
# Helper lemmas for `nearest_integer`
-/

namespace Verif
open Fmt
variable (f : Fmt) {m : Mode}

theorem pow2_spec (s : Bool) {k : ℤ} (h1 : -(f.bias : ℤ) < k) (h2 : k ≤ f.bias) :
    f.Finite (CC.pow2 f s k) ∧ f.val (CC.pow2 f s k) = sg s * (2 : ℝ) ^ k := by
  have h := f.pow2_val s (e := ((f.bias : ℤ) + k).toNat) (by omega) (by omega)
  refine ⟨h.1, ?_⟩
  unfold CC.pow2
  rw [h.2.1]
  congr 2
  omega

theorem mod_two_eq_gs {a : ℕ} : (a % 2 = 0) ↔ f.gs (f.mag a) % 2 = 0 := by
  have h1 := f.gk_gs (f.mag a)
  have hF := f.hF
  have h2 : 2 ^ f.F = 2 * 2 ^ (f.F - 1) := by
    rw [← pow_succ']; congr 1; omega
  have h3 : 2 ^ (f.E + f.F) = 2 * 2 ^ (f.E + f.F - 1) := by
    rw [← pow_succ']; congr 1; omega
  have h4 : f.mag a % 2 = a % 2 := by
    unfold Fmt.mag
    rw [h3, Nat.mod_mul_right_mod]
  have h5 : f.mag a % 2 = f.gs (f.mag a) % 2 := by
    conv_lhs => rw [← h1, h2]
    rw [show f.gk (f.mag a) * (2 * 2 ^ (f.F - 1)) + f.gs (f.mag a) = f.gs (f.mag a) + 2 * (f.gk (f.mag a) * 2 ^ (f.F - 1)) by ring,
      Nat.add_mul_mod_self_left]
  rw [← h4, h5]

theorem even_of_unit {a : ℕ} {n : ℤ} (hc : f.ce a = 0) (hv : f.val a = n) (h : a % 2 = 0) : Even n := by
  rw [mod_two_eq_gs f] at h
  rw [val_eq, umag_eq_gs, minSub_eq_zpow] at hv
  unfold ce at hc
  have e1 : ((2 : ℝ) ^ f.gk (f.mag a)) * (2 : ℝ) ^ f.emin = 1 := by
    rw [← zpow_natCast, ← zpow_add₀ (by norm_num), hc, zpow_zero]
  push_cast at hv
  rw [mul_assoc (f.gs (f.mag a) : ℝ), e1, mul_one] at hv
  rcases Nat.even_iff.2 h with ⟨k, hk⟩
  cases hs : f.sgn a <;> rw [hs] at hv
  · rw [sg_false, one_mul] at hv
    have : n = (f.gs (f.mag a) : ℤ) := by exact_mod_cast hv.symm
    rw [this, hk]; exact ⟨k, by push_cast; ring⟩
  · rw [sg_true] at hv
    have : n = -(f.gs (f.mag a) : ℤ) := by
      have : (n : ℝ) = ((-(f.gs (f.mag a) : ℤ) : ℤ) : ℝ) := by rw [← hv]; push_cast; ring
      exact_mod_cast this
    rw [this, hk]; exact ⟨-k, by push_cast; ring⟩

/-- Rounding at the scale where the unit in the last place is `2^g` -/
theorem magic_round {zs : Bool} {S : ℝ} {a : ℕ} (g : ℤ) (hg : f.emin ≤ g) (hb : g + f.F + 1 ≤ f.bias)
    (R : f.RoundsTo m zs S a) (h1 : (2 : ℝ) ^ (g + f.F) ≤ |S|) (h2 : |S| ≤ (2 : ℝ) ^ (g + f.F + 1)) :
    f.Finite a ∧ Mult g (f.val a) ∧ |f.val a| ≤ (2 : ℝ) ^ (g + f.F + 1) ∧ |f.val a - S| < (2 : ℝ) ^ g ∧
      (0 < S → (2 : ℝ) ^ (g + f.F) ≤ f.val a) ∧ (S < 0 → f.val a ≤ -(2 : ℝ) ^ (g + f.F)) := by
  have hlow : -(f.bias : ℤ) < g + f.F := by unfold emin at hg; omega
  obtain ⟨l1, l2⟩ := pow2_spec f false (k := g + f.F) hlow (by omega)
  obtain ⟨u1, u2⟩ := pow2_spec f false (k := g + f.F + 1) (by omega) hb
  obtain ⟨l3, l4⟩ := pow2_spec f true (k := g + f.F) hlow (by omega)
  obtain ⟨u3, u4⟩ := pow2_spec f true (k := g + f.F + 1) (by omega) hb
  rw [sg_false, one_mul] at l2 u2
  rw [sg_true, neg_one_mul] at l4 u4
  have hp := two_zpow_pos (g + f.F)
  have hmx : |S| ≤ f.maxFin := by
    have := f.abs_val_le u1
    rw [u2, abs_of_pos (two_zpow_pos _)] at this
    exact le_trans h2 this
  have hul := RoundsTo.ulp_of R hmx hg h2
  rcases le_total 0 S with hS | hS
  · rw [abs_of_nonneg hS] at h1 h2
    obtain ⟨b1, b2, b3⟩ := RoundsTo.between R l1 u1 (by rw [l2]; exact h1) (by rw [u2]; exact h2)
    rw [l2] at b2; rw [u2] at b3
    have ha : |f.val a| = f.val a := abs_of_nonneg (by linarith)
    refine ⟨b1, (f.mult_ce a).weaken (f.le_ce_of (by rw [ha]; exact b2)), by rw [ha]; exact b3, hul, fun _ => b2, fun h => ?_⟩
    exfalso; linarith
  · rw [abs_of_nonpos hS] at h1 h2
    obtain ⟨b1, b2, b3⟩ := RoundsTo.between R u3 l3 (by rw [u4]; linarith) (by rw [l4]; linarith)
    rw [u4] at b2; rw [l4] at b3
    have ha : |f.val a| = -f.val a := abs_of_nonpos (by linarith)
    refine ⟨b1, (f.mult_ce a).weaken (f.le_ce_of (by rw [ha]; linarith)), by rw [ha]; linarith, hul, fun h => ?_, fun _ => b3⟩
    exfalso; linarith

theorem Mult.int {v : ℝ} (h : Mult 0 v) : ∃ n : ℤ, v = n := by
  obtain ⟨n, hn⟩ := h; exact ⟨n, by rw [hn]; simp⟩

theorem Mult.of_int (n : ℤ) : Mult 0 (n : ℝ) := ⟨n, by simp⟩

theorem magic_tie {zs : Bool} {S : ℝ} {a : ℕ} {n : ℤ} (hw : f.Wide) (hb : (f.F : ℤ) + 1 ≤ f.bias)
    (R : f.RoundsTo .nearest zs S a) (h1 : (2 : ℝ) ^ (f.F : ℤ) ≤ |S|) (h2 : |S| ≤ (2 : ℝ) ^ ((f.F : ℤ) + 1)) (hn : f.val a = n)
    (ht : |(n : ℝ) - S| = 1 / 2) : Even n := by
  have he0 : f.emin ≤ 0 := by unfold emin; have := hw.1; have := hw.2; omega
  obtain ⟨fa, -, ha, -, -, -⟩ := magic_round f 0 he0 (by omega) R (by rw [zero_add]; exact h1) (by rw [zero_add]; exact h2)
  rw [zero_add] at ha
  have e2 : (2 : ℝ) ^ ((f.F : ℤ) + 1) = ((2 ^ (f.F + 1) : ℕ) : ℝ) := by push_cast; exact_mod_cast rfl
  rw [hn] at ha
  rcases eq_or_lt_of_le ha with hE | hL
  · rw [e2] at hE
    have h3 : |n| = 2 ^ (f.F + 1) := by exact_mod_cast hE
    have h4 : Even |n| := by rw [h3, pow_succ']; exact even_two_mul _
    exact (even_abs).1 h4
  · have hc : f.ce a = 0 := by
      refine le_antisymm (f.ce_le_of he0 (by rw [hn, zero_add]; exact hL)) (f.le_ce_of ?_)
      rw [zero_add, hn]
      obtain ⟨-, -, -, -, p, q⟩ := magic_round f 0 he0 (by omega) R (by rw [zero_add]; exact h1) (by rw [zero_add]; exact h2)
      rw [zero_add, hn] at p q
      have hpos := two_zpow_pos (f.F : ℤ)
      rcases lt_trichotomy S 0 with hS | hS | hS
      · have := q hS; rw [abs_of_neg (by linarith)]; linarith
      · rw [hS, abs_zero] at h1; linarith
      · have := p hS; rw [abs_of_pos (by linarith)]; exact this
    refine even_of_unit f hc hn ?_
    have hI := RoundsTo.isNearest R fa
    -- the other neighbour
    obtain ⟨k, hk1, hk2, hk3⟩ : ∃ k : ℤ, |(k : ℝ) - S| = 1 / 2 ∧ k ≠ n ∧ |k| ≤ 2 ^ (f.F + 1) := by
      have hL' : |n| < 2 ^ (f.F + 1) := by
        rw [e2] at hL; exact_mod_cast hL
      rcases abs_eq (by norm_num : (0 : ℝ) ≤ 1 / 2) |>.1 ht with h | h
      · refine ⟨n - 1, ?_, by omega, ?_⟩
        · push_cast; rw [show (n : ℝ) - 1 - S = -(1 / 2) by linarith]; norm_num
        · rw [abs_le]; rw [abs_lt] at hL'; omega
      · refine ⟨n + 1, ?_, by omega, ?_⟩
        · push_cast; rw [show (n : ℝ) + 1 - S = (1 / 2) by linarith]; norm_num
        · rw [abs_le]; rw [abs_lt] at hL'; omega
    obtain ⟨c, c1, c2⟩ := f.rep (Mult.of_int k) he0 (by
      rw [zero_add, e2, ← Int.cast_abs]; exact_mod_cast hk3) (by
      refine lt_of_le_of_lt (b := (2 : ℝ) ^ ((f.F : ℤ) + 1)) ?_ (two_zpow_lt (by omega))
      rw [e2, ← Int.cast_abs]; exact_mod_cast hk3)
    refine hI.ties_even c c1 (by rw [hn, c2, ht, hk1]) ?_
    rw [c2, hn]; exact_mod_cast hk2


theorem two_zpow_F_nat : (2 : ℝ) ^ (f.F : ℤ) = ((2 ^ f.F : ℤ) : ℝ) := by push_cast; exact_mod_cast rfl

/-- the magic-number addition and subtraction -/
theorem magic_core {zs zs' : Bool} {x a r : ℕ} {σ : ℝ} (hw : f.Wide) (hb : (f.F : ℤ) + 2 ≤ f.bias)
    (hσ : (σ = 1 ∧ 0 ≤ f.val x) ∨ (σ = -1 ∧ f.val x ≤ 0)) (hx : |f.val x| < (2 : ℝ) ^ ((f.F : ℤ) + 1))
    (R : f.RoundsTo m zs (f.val x + σ * (2 : ℝ) ^ (f.F : ℤ)) a) (Q : f.RoundsTo m zs' (f.val a - σ * (2 : ℝ) ^ (f.F : ℤ)) r) :
    f.Finite a ∧ f.Finite r ∧ ∃ n : ℤ, f.val r = n ∧ |f.val x - n| ≤ 1 ∧
      (|f.val x| < (2 : ℝ) ^ (f.F : ℤ) → |f.val x - n| < 1 ∧ |n| ≤ 2 ^ f.F ∧
        (m = .nearest → |f.val x - n| ≤ 1 / 2 ∧ (|f.val x - n| = 1 / 2 → Even n))) ∧
      ((2 : ℝ) ^ (f.F : ℤ) ≤ |f.val x| → ∃ k : ℤ, f.val x = k) := by
  have he0 : f.emin ≤ 0 := by unfold emin; have := hw.1; have := hw.2; omega
  have hp := two_zpow_pos (f.F : ℤ)
  have hp1 : (2 : ℝ) ^ ((f.F : ℤ) + 1) = 2 * (2 : ℝ) ^ (f.F : ℤ) := two_zpow_succ _
  have hp2 : (2 : ℝ) ^ ((f.F : ℤ) + 1 + 1) = 4 * (2 : ℝ) ^ (f.F : ℤ) := by rw [two_zpow_succ, hp1]; ring
  have hS : |f.val x + σ * (2 : ℝ) ^ (f.F : ℤ)| = |f.val x| + (2 : ℝ) ^ (f.F : ℤ) := by
    rcases hσ with ⟨h, h'⟩ | ⟨h, h'⟩ <;> rw [h]
    · rw [abs_of_nonneg h', abs_of_nonneg (by linarith)]; ring
    · rw [abs_of_nonpos h', abs_of_nonpos (by linarith)]; ring
  have hF := f.hF
  have hσm : ∀ g : ℤ, g ≤ f.F → Mult g (σ * (2 : ℝ) ^ (f.F : ℤ)) := by
    intro g hg
    have := (Mult.two_zpow (f.F : ℤ)).weaken hg
    rcases hσ with ⟨h, -⟩ | ⟨h, -⟩ <;> rw [h]
    · rw [one_mul]; exact this
    · rw [neg_one_mul]; exact this.neg
  have hbig : ∀ t : ℝ, t ≤ (2 : ℝ) ^ ((f.F : ℤ) + 1 + 1) → t < (2 : ℝ) ^ ((f.bias : ℤ) + 1) :=
    fun t ht => lt_of_le_of_lt ht (two_zpow_lt (by omega))
  rcases lt_or_ge |f.val x| ((2 : ℝ) ^ (f.F : ℤ)) with hlt | hge
  · obtain ⟨fa, ma, ba, ua, p, q⟩ := magic_round f 0 he0 (by omega) R (by rw [zero_add, hS]; linarith [abs_nonneg (f.val x)])
      (by rw [zero_add, hS, hp1]; linarith)
    rw [zero_add] at ba p q
    rw [zpow_zero] at ua
    have hn : |f.val a - σ * (2 : ℝ) ^ (f.F : ℤ)| ≤ (2 : ℝ) ^ (f.F : ℤ) := by
      rw [hp1] at ba
      rw [abs_le] at ba ⊢
      rcases hσ with ⟨h, h'⟩ | ⟨h, h'⟩ <;> rw [h] at p q ⊢
      · have := p (by linarith); constructor <;> linarith
      · have := q (by linarith); constructor <;> linarith
    obtain ⟨c, c1, c2⟩ := f.rep (ma.sub (hσm 0 (by omega))) he0 (by rw [zero_add, hp1]; linarith) (hbig _ (by rw [hp2]; linarith))
    obtain ⟨r1, r2⟩ := RoundsTo.exact f c1 c2 Q
    obtain ⟨n, hn'⟩ := (ma.sub (hσm 0 (by omega))).int
    have hd : f.val x - n = -(f.val a - (f.val x + σ * (2 : ℝ) ^ (f.F : ℤ))) := by rw [← hn']; ring
    have hnF : |n| ≤ 2 ^ f.F := by
      rw [hn', two_zpow_F_nat, ← Int.cast_abs] at hn; exact_mod_cast hn
    refine ⟨fa, r1, n, by rw [r2, hn'], by rw [hd, abs_neg]; exact ua.le, fun _ => ⟨by rw [hd, abs_neg]; exact ua, hnF, ?_⟩, fun h => by linarith⟩
    intro hm
    subst hm
    have hh := RoundsTo.half_of R fa he0 (by rw [zero_add, hS, hp1]; linarith)
    rw [show (2 : ℝ) ^ ((0 : ℤ) - 1) = 1 / 2 by norm_num] at hh
    refine ⟨by rw [hd, abs_neg]; exact hh, fun ht => ?_⟩
    obtain ⟨k, hk⟩ := ma.int
    rw [hd, abs_neg, hk] at ht
    have hev := magic_tie f hw (by omega) R (by rw [hS]; linarith [abs_nonneg (f.val x)]) (by rw [hS, hp1]; linarith) hk ht
    have hE : Even (2 ^ f.F : ℤ) := by
      obtain ⟨j, hj⟩ : ∃ j, f.F = j + 1 := ⟨f.F - 1, by omega⟩
      rw [hj, pow_succ']; exact even_two_mul _
    rcases hσ with ⟨h, h'⟩ | ⟨h, h'⟩ <;> rw [h, hk, two_zpow_F_nat] at hn'
    · have : n = k - 2 ^ f.F := by
        have : ((n : ℤ) : ℝ) = ((k - 2 ^ f.F : ℤ) : ℝ) := by rw [← hn']; push_cast; ring
        exact_mod_cast this
      rw [this]; exact hev.sub hE
    · have : n = k + 2 ^ f.F := by
        have : ((n : ℤ) : ℝ) = ((k + 2 ^ f.F : ℤ) : ℝ) := by rw [← hn']; push_cast; ring
        exact_mod_cast this
      rw [this]; exact hev.add hE
  · have hxm : Mult 0 (f.val x) := (f.mult_ce x).weaken (f.le_ce_of (by rw [zero_add]; exact hge))
    obtain ⟨k, hk⟩ := hxm.int
    have e1 : (1 : ℤ) + f.F = f.F + 1 := by ring
    obtain ⟨fa, ma, ba, ua, p, q⟩ := magic_round f 1 (by omega) (by omega) R (by rw [e1, hS, hp1]; linarith)
      (by rw [e1, hS, hp2]; linarith)
    rw [e1, hp2] at ba
    rw [e1, hp1] at p q
    rw [zpow_one] at ua
    have hn : |f.val a - σ * (2 : ℝ) ^ (f.F : ℤ)| ≤ 4 * (2 : ℝ) ^ (f.F : ℤ) := by
      rw [abs_le] at ba ⊢
      have hx0 : f.val x ≠ 0 := by
        intro h; rw [h, abs_zero] at hge; linarith
      rcases hσ with ⟨h, h'⟩ | ⟨h, h'⟩ <;> rw [h] at p q ⊢
      · have := p (by linarith); constructor <;> linarith
      · have := q (by linarith); constructor <;> linarith
    obtain ⟨c, c1, c2⟩ := f.rep (ma.sub (hσm 1 (by omega))) (by omega) (by rw [e1, hp2]; exact hn) (hbig _ (by rw [hp2]; exact hn))
    obtain ⟨r1, r2⟩ := RoundsTo.exact f c1 c2 Q
    obtain ⟨n, hn'⟩ := ((ma.sub (hσm 1 (by omega))).weaken (by omega : (0 : ℤ) ≤ 1)).int
    have hd : f.val x - n = -(f.val a - (f.val x + σ * (2 : ℝ) ^ (f.F : ℤ))) := by rw [← hn']; ring
    have h1 : |f.val x - n| < 2 := by rw [hd, abs_neg]; exact ua
    have h2 : |f.val x - n| ≤ 1 := by
      rw [hk] at h1 ⊢
      rw [← Int.cast_sub, ← Int.cast_abs] at h1 ⊢
      have h1' : |k - n| < 2 := by exact_mod_cast h1
      have h1'' : |k - n| ≤ 1 := by omega
      exact_mod_cast h1''
    exact ⟨fa, r1, n, by rw [r2, hn'], h2, fun h => by linarith, fun _ => ⟨k, hk⟩⟩


/-- the mirrored rounding direction -/
def Mode.flip : Mode → Mode
  | .up => .down
  | .down => .up
  | m => m

theorem kind_flip (m : Mode) (s : Bool) : kind m.flip (!s) = kind m s := by cases m <;> cases s <;> rfl

/-- Rounding commutes with negation when the direction is mirrored. -/
theorem RoundsTo.neg {f : Fmt} {m : Mode} {zs : Bool} {v : ℝ} {b : ℕ} (h : f.RoundsTo m zs v b) :
    f.RoundsTo m.flip (!zs) (-v) (f.hneg b) := by
  obtain ⟨s, t, ht, hv, hz⟩ := f.exists_decomp zs v
  obtain ⟨n, hn⟩ := f.exists_rndMag (kind m s) ht
  have h1 := f.roundsTo_of_rndMag ht hv hz hn
  obtain rfl := RoundsTo.unique f h h1
  have hlt : f.cap (kind m s) n < 2 ^ (f.E + f.F) := lt_of_le_of_lt (f.cap_le _ _) f.infMag_lt
  have h2 := f.roundsTo_of_rndMag (m := m.flip) (zs := !zs) (s := !s) (v := -v) ht (by rw [hv, sg_not]; ring)
    (fun h0 => by rw [hz h0]) (n := n) (by rw [kind_flip]; exact hn)
  rw [kind_flip] at h2
  unfold Fmt.hneg
  rw [f.sgn_pack _ hlt, f.mag_pack _ hlt]
  exact h2

/-- Distinct data near `v` are at least half a unit of `v` apart from it. -/
theorem gap_of_ne {v c : ℕ} {g : ℤ} (hv : (2 : ℝ) ^ (g + f.F) ≤ |f.val v|) (h : f.val c ≠ f.val v) :
    (2 : ℝ) ^ (g - 1) ≤ |f.val v - f.val c| := by
  have hcv : g ≤ f.ce v := f.le_ce_of hv
  rcases le_or_gt (g - 1) (f.ce c) with h1 | h1
  · exact Mult.ge (((f.mult_ce v).weaken (by omega)).sub ((f.mult_ce c).weaken h1)) (sub_ne_zero.2 h.symm)
  · have h2 := f.abs_val_lt_ce c
    have h3 : (2 : ℝ) ^ (f.ce c + f.F + 1) ≤ (2 : ℝ) ^ (g + f.F - 1) := two_zpow_le (by omega)
    have h4 : (2 : ℝ) ^ (g + f.F) = 2 * (2 : ℝ) ^ (g + f.F - 1) := by rw [← two_zpow_succ]; congr 1; ring
    have h5 : (2 : ℝ) ^ (g - 1) ≤ (2 : ℝ) ^ (g + f.F - 1) := two_zpow_le (by omega)
    have h6 := abs_sub_abs_le_abs_sub (f.val v) (f.val c)
    linarith

end Verif
