import Verif.Lemmas.Exact
import Verif.Lemmas.Dyadic

/-!
# Rounding commutes with powers of two in the normal range
-/

namespace Verif
namespace Fmt
variable (f : Fmt)

theorem umag_shift' {n : ℕ} (h : 2 ^ f.F ≤ n) (k : ℕ) : f.umag (n + k * 2 ^ f.F) = 2 ^ k * f.umag n := by
  obtain ⟨d, rfl⟩ := Nat.exists_eq_add_of_le h
  have hp : 0 < 2 ^ f.F := Nat.two_pow_pos _
  have h1 : d / 2 ^ f.F * 2 ^ f.F + d % 2 ^ f.F = d := Nat.div_add_mod' d _
  have h2 : d % 2 ^ f.F < 2 ^ f.F := Nat.mod_lt _ hp
  have := CC.umag_shift f (K := d / 2 ^ f.F) (n := k) (q := 2 ^ f.F + d % 2 ^ f.F) (by omega) (by rw [pow_succ]; omega)
  rw [add_mul] at this
  rw [show 2 ^ f.F + d + k * 2 ^ f.F = d / 2 ^ f.F * 2 ^ f.F + k * 2 ^ f.F + (2 ^ f.F + d % 2 ^ f.F) by omega, this]
  congr 2; omega

theorem RndMag.shift (hF : 1 ≤ f.F) {kd : Kind} {t : ℝ} {n : ℕ} (h : f.RndMag kd t n) (ht : (f.umag (2 ^ f.F) : ℝ) ≤ t) (k : ℕ) :
    f.RndMag kd (t * 2 ^ k) (n + k * 2 ^ f.F) := by
  obtain ⟨n0, hf, hk⟩ := h
  have h0 : 2 ^ f.F ≤ n0 := (hf.le_iff f).1 ht
  have e0 := f.umag_shift' h0 k
  have e1 := f.umag_shift' (show 2 ^ f.F ≤ n0 + 1 by omega) k
  have e2 : n0 + k * 2 ^ f.F + 1 = n0 + 1 + k * 2 ^ f.F := by ring
  have pk : (0 : ℝ) < 2 ^ k := by positivity
  have pe : k * 2 ^ f.F % 2 = 0 := by
    obtain ⟨j, hj⟩ := Nat.exists_eq_add_of_le hF
    rw [hj, pow_add, pow_one, show k * (2 * 2 ^ j) = 2 * (k * 2 ^ j) by ring]; omega
  refine ⟨n0 + k * 2 ^ f.F, ⟨?_, ?_⟩, ?_⟩
  · rw [e0]; push_cast; rw [mul_comm]; exact mul_le_mul_of_nonneg_right hf.1 pk.le
  · rw [e2, e1]; push_cast; rw [mul_comm]; exact mul_lt_mul_of_pos_left hf.2 pk
  · rw [e2, e0, e1]
    push_cast
    cases kd
    · rcases hk with ⟨a, b⟩ | ⟨a, b⟩ | ⟨a, b⟩
      · exact Or.inl ⟨by have := mul_lt_mul_of_pos_right a pk; linarith, by rw [b]⟩
      · exact Or.inr (Or.inl ⟨by rw [show 2 * (t * 2 ^ k) = 2 * t * 2 ^ k by ring, a]; ring, by omega⟩)
      · exact Or.inr (Or.inr ⟨by have := mul_lt_mul_of_pos_right a pk; linarith, by omega⟩)
    · change n = n0 at hk
      exact congrArg (· + _) hk
    · change n = if t = (f.umag n0 : ℝ) then n0 else n0 + 1 at hk
      change _ = if t * 2 ^ k = 2 ^ k * (f.umag n0 : ℝ) then n0 + k * 2 ^ f.F else n0 + 1 + k * 2 ^ f.F
      have : t * 2 ^ k = 2 ^ k * (f.umag n0 : ℝ) ↔ t = f.umag n0 := by
        rw [mul_comm]; exact mul_right_inj' pk.ne'
      simp only [this, hk]
      split <;> rfl

theorem RoundsTo.rnd {m : Mode} {zs : Bool} {v : ℝ} {b : ℕ} (R : f.RoundsTo m zs v b)
    (hv : f.minNormal ≤ |v|) (hv2 : |v| < 2 ^ ((f.bias : ℤ) + 1)) (hb : f.Finite b) :
    ∃ s t n, 0 < t ∧ v = sg s * (t * f.minSub) ∧ f.RndMag (kind m s) t n ∧ n < f.infMag ∧ 2 ^ f.F ≤ n ∧ (f.umag (2 ^ f.F) : ℝ) ≤ t ∧ f.mag b = n ∧ f.sgn b = s := by
  obtain ⟨s, t, ht, e, hz⟩ := f.exists_decomp zs v
  obtain ⟨n, hn⟩ := f.exists_rndMag (kind m s) ht
  have R' := f.roundsTo_of_rndMag ht e hz hn
  have hu := f.minSub_pos
  have ta : |v| = t * f.minSub := by
    rw [e, abs_mul, abs_of_nonneg (show 0 ≤ t * f.minSub by positivity)]
    cases s <;> simp
  have e0 := RoundsTo.unique f R R'
  have hmn : (f.umag (2 ^ f.F) : ℝ) * f.minSub = f.minNormal := by
    rw [f.umag_small (Nat.pow_lt_pow_right (by norm_num) (by omega))]
    push_cast
    unfold Fmt.minSub Fmt.minNormal
    rw [← zpow_natCast, ← zpow_add₀ (by norm_num)]
    congr 1; ring
  have tn : (f.umag (2 ^ f.F) : ℝ) ≤ t := by
    rw [ta, ← hmn] at hv
    exact le_of_mul_le_mul_right hv hu
  have t0 : 0 < t := by
    refine lt_of_lt_of_le ?_ tn
    rw [f.umag_small (Nat.pow_lt_pow_right (by norm_num) (by omega))]
    positivity
  have tlt : t < f.umag f.infMag := by
    rw [ta, ← huge_eq] at hv2
    exact lt_of_mul_lt_mul_right hv2 hu.le
  have hni : n < f.infMag := by
    by_contra hcn
    have hm := ((f.finite_iff b).1 hb).2
    rw [e0] at hm
    unfold Fmt.cap at hm
    rw [if_neg hcn] at hm
    obtain ⟨n0, hf, hk⟩ := hn
    have hn0 : n0 < f.infMag := f.umag_lt_iff.1 (by exact_mod_cast hf.1.trans_lt tlt)
    generalize kind m s = kd at *
    cases kd
    · rw [f.mag_pack _ f.infMag_lt] at hm; omega
    · change n = n0 at hk; omega
    · rw [f.mag_pack _ f.infMag_lt] at hm; omega
  have hcap : f.cap (kind m s) n = n := if_pos hni
  rw [hcap] at e0
  refine ⟨s, t, n, t0, e, hn, hni, ?_, tn, by rw [e0]; exact f.mag_pack _ (hni.trans f.infMag_lt), by rw [e0]; exact f.sgn_pack' hni.le⟩
  obtain ⟨n0, hf, hk⟩ := hn
  have h0 : 2 ^ f.F ≤ n0 := (hf.le_iff f).1 tn
  generalize kind m s = kd at *
  cases kd
  · rcases hk with ⟨-, b⟩ | ⟨-, b⟩ | ⟨-, b⟩ <;> omega
  · change n = n0 at hk; omega
  · change n = if t = (f.umag n0 : ℝ) then n0 else n0 + 1 at hk
    split at hk <;> omega

/-- rounding commutes with a power of two when neither side leaves the normal range -/
theorem RoundsTo.scale (hF : 1 ≤ f.F) {m : Mode} {zs : Bool} {v : ℝ} {b c : ℕ} (R : f.RoundsTo m zs v b) (k : ℤ)
    (hv : f.minNormal ≤ |v|) (hv2 : |v| < 2 ^ ((f.bias : ℤ) + 1)) (hw : f.minNormal ≤ |v * 2 ^ k|)
    (hb : f.Finite b) (hc : f.Finite c) (h : f.val c = f.val b * 2 ^ k) (hs : f.sgn c = f.sgn b) :
    f.RoundsTo m zs (v * 2 ^ k) c := by
  obtain ⟨s, t, n, t0, e, hn, hni, hn2, tn, hmb, hsb⟩ := R.rnd f hv hv2 hb
  have hu := f.minSub_pos
  have pk : (0 : ℝ) < 2 ^ k := zpow_pos (by norm_num) k
  have hci := ((f.finite_iff c).1 hc).2
  have hmc : (f.umag (f.mag c) : ℝ) = f.umag n * 2 ^ k := by
    rw [val_eq, val_eq, hs, hmb, mul_assoc] at h
    have h1 := mul_left_cancel₀ (sg_ne_zero _) h
    apply mul_right_cancel₀ hu.ne'
    linarith
  suffices hR : f.RndMag (kind m s) (t * 2 ^ k) (f.mag c) by
    have := f.roundsTo_of_rndMag (m := m) (zs := zs) (s := s) (v := v * 2 ^ k) (mul_pos t0 pk).le (by rw [e]; ring)
      (fun h => absurd h (mul_pos t0 pk).ne') hR
    rwa [show f.cap (kind m s) (f.mag c) = f.mag c from if_pos hci, ← hsb, ← hs, f.pack_sgn_mag hc.1] at this
  rcases le_total 0 k with hk | hk
  · lift k to ℕ using hk
    rw [zpow_natCast] at hmc ⊢
    have : f.mag c = n + k * 2 ^ f.F := by
      apply f.umag_inj.1
      rw [f.umag_shift' hn2, mul_comm]
      exact_mod_cast hmc
    rw [this]; exact hn.shift f hF tn k
  · obtain ⟨j, rfl⟩ : ∃ j : ℕ, k = -(j : ℤ) := ⟨k.natAbs, by omega⟩
    have pj : (2 : ℝ) ^ j ≠ 0 := by positivity
    rw [zpow_neg, zpow_natCast] at hmc ⊢
    obtain ⟨n', hn'⟩ := f.exists_rndMag (kind m s) (t := t * (2 ^ j)⁻¹) (mul_nonneg t0.le (by positivity))
    have tw : (f.umag (2 ^ f.F) : ℝ) ≤ t * (2 ^ j)⁻¹ := by
      have hmn : (f.umag (2 ^ f.F) : ℝ) * f.minSub = f.minNormal := by
        rw [f.umag_small (Nat.pow_lt_pow_right (by norm_num) (by omega))]
        push_cast
        unfold Fmt.minSub Fmt.minNormal
        rw [← zpow_natCast, ← zpow_add₀ (by norm_num)]
        congr 1; ring
      rw [e, zpow_neg, zpow_natCast, mul_assoc, abs_mul, abs_of_nonneg (show 0 ≤ t * f.minSub * (2 ^ j)⁻¹ by positivity),
        show |sg s| = 1 by cases s <;> simp, one_mul, ← hmn] at hw
      refine le_of_mul_le_mul_right (hw.trans (le_of_eq ?_)) hu
      ring
    have h2 := hn'.shift f hF tw j
    rw [inv_mul_cancel_right₀ pj] at h2
    have h3 := RndMag.unique f hn h2
    have h4 : 2 ^ f.F ≤ n' := by
      obtain ⟨n0, hf, hk⟩ := hn'
      have h0 : 2 ^ f.F ≤ n0 := (hf.le_iff f).1 tw
      generalize kind m s = kd at *
      cases kd
      · rcases hk with ⟨-, b⟩ | ⟨-, b⟩ | ⟨-, b⟩ <;> omega
      · change n' = n0 at hk; omega
      · change n' = ite _ _ _ at hk
        split at hk <;> omega
    have : f.mag c = n' := by
      apply f.umag_inj.1
      rw [h3, f.umag_shift' h4] at hmc
      push_cast at hmc
      rw [mul_comm, inv_mul_cancel_left₀ pj] at hmc
      exact_mod_cast hmc
    rw [this]; exact hn'

end Fmt
end Verif
