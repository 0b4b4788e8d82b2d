import Verif.Lemmas.Ulp

/-!
# Error-free transformations, stated on correctly rounded operations

`fastTwoSum_spec`, `twoSum_spec`, `veltkamp_spec`, `dekker_spec`, `residual_mul`: the classical algorithms return the exact error.
Nothing in this file mentions the model of the code.
-/

namespace Verif
open Fmt
variable {f : Fmt}

theorem RoundsTo.isNearest {zs : Bool} {v : ℝ} {b : ℕ} (h : f.RoundsTo .nearest zs v b) (hf : f.Finite b) : f.IsNearest v b := by
  have hval := h.value
  unfold RoundValue at hval
  simp only at hval
  have hinf : ∀ s, b ≠ f.inf s := fun s hb => by
    have := f.isInf_inf s; rw [← hb, isInf_iff] at this; rw [finite_iff] at hf; omega
  split_ifs at hval with h1 h2
  · exact absurd hval (hinf _)
  · exact absurd hval (hinf _)
  · exact hval

theorem RoundsTo.le_dist {zs : Bool} {v : ℝ} {b c : ℕ} (h : f.RoundsTo .nearest zs v b) (hf : f.Finite b) (hc : f.Finite c) :
    |f.val b - v| ≤ |f.val c - v| := IsNearest.le (RoundsTo.isNearest h hf) hc

theorem RoundsTo.exact_of {m : Mode} {zs : Bool} {v : ℝ} {b : ℕ} (h : f.RoundsTo m zs v b) (hr : ∃ c, f.Finite c ∧ f.val c = v) :
    f.Finite b ∧ f.val b = v := by
  obtain ⟨c, hc, hv⟩ := hr
  exact RoundsTo.exact f hc hv h

theorem RoundsTo.mult_nearest {zs : Bool} {v : ℝ} {b : ℕ} {g : ℤ} (h : f.RoundsTo .nearest zs v b) (hf : f.Finite b) (hm : Mult g v) (hg : f.emin ≤ g) :
    Mult g (f.val b) := by
  obtain ⟨h1, h2⟩ := RoundsTo.half_ulp h hf
  exact RoundsTo.mult h hm hg h1 (lt_of_le_of_lt h2 (two_zpow_lt (by omega)))

/-- nearest integer multiple of `2^g` -/
theorem exists_near_mult (g : ℤ) (v : ℝ) {B : ℤ} (hB : |v| ≤ (2 : ℝ) ^ (g + B)) (h0 : 0 ≤ B) :
    ∃ w, Mult g w ∧ |w - v| ≤ (2 : ℝ) ^ (g - 1) ∧ |w| ≤ (2 : ℝ) ^ (g + B) := by
  have hp := two_zpow_pos g
  have e : (2 : ℝ) ^ g = 2 * (2 : ℝ) ^ (g - 1) := by rw [← two_zpow_succ]; congr 1; ring
  obtain ⟨N, hN⟩ : ∃ N : ℕ, B = N := ⟨B.toNat, by omega⟩
  have hv : v = v / (2 : ℝ) ^ g * (2 : ℝ) ^ g := by field_simp
  set q := v / (2 : ℝ) ^ g with hq
  have hq1 : |q| ≤ ((2 ^ N : ℤ) : ℝ) := by
    rw [hN, zpow_add₀ (by norm_num), hv, abs_mul, abs_of_pos hp, mul_comm] at hB
    have := le_of_mul_le_mul_left hB hp
    push_cast; rw [zpow_natCast] at this; exact this
  refine ⟨(round q : ℝ) * (2 : ℝ) ^ g, ⟨_, rfl⟩, ?_, ?_⟩
  · conv_lhs => rw [hv]
    rw [← sub_mul, abs_mul, abs_of_pos hp]
    have := abs_sub_round q
    rw [abs_sub_comm] at this
    rw [e]; nlinarith [two_zpow_pos (g - 1)]
  · rw [abs_mul, abs_of_pos hp, hN, zpow_add₀ (by norm_num), mul_comm, zpow_natCast]
    apply mul_le_mul_of_nonneg_left _ hp.le
    have h1 : round q ≤ 2 ^ N := by
      rw [round_eq]; 
      have := (abs_le.1 hq1).2
      refine Int.floor_le_iff.2 ?_
      push_cast at this ⊢; linarith
    have h2 : -(2 ^ N) ≤ round q := by
      rw [round_eq]
      have := (abs_le.1 hq1).1
      refine Int.le_floor.2 ?_
      push_cast at this ⊢; linarith
    have : |round q| ≤ 2 ^ N := abs_le.2 ⟨h2, h1⟩
    rw [← Int.cast_abs]
    exact_mod_cast this

/-- Error bound of round-to-nearest from the size of the exact value. -/
theorem RoundsTo.half_of {zs : Bool} {v : ℝ} {b : ℕ} {g : ℤ} (h : f.RoundsTo .nearest zs v b) (hf : f.Finite b) (hg : f.emin ≤ g)
    (hv : |v| ≤ (2 : ℝ) ^ (g + f.F + 1)) : |f.val b - v| ≤ (2 : ℝ) ^ (g - 1) := by
  rcases le_or_gt (f.ce b) g with hc | hc
  · exact le_trans (RoundsTo.half_ulp h hf).2 (two_zpow_le (by omega))
  · have := f.ce_le_max hf
    obtain ⟨w, h1, h2, h3⟩ := exists_near_mult g v (B := f.F + 1) (by rw [← add_assoc]; exact hv) (by omega)
    obtain ⟨c, hc1, hc2⟩ := f.rep h1 hg (by rw [add_assoc]; exact h3) (lt_of_le_of_lt h3 (two_zpow_lt (by omega)))
    have := RoundsTo.le_dist h hf hc1
    rw [hc2] at this
    exact le_trans this h2

/-- Error bound in any mode from the size of the exact value. -/
theorem RoundsTo.ulp_of {m : Mode} {zs : Bool} {v : ℝ} {b : ℕ} {g : ℤ} (h : f.RoundsTo m zs v b) (hmx : |v| ≤ f.maxFin) (hg : f.emin ≤ g)
    (hv : |v| ≤ (2 : ℝ) ^ (g + f.F + 1)) : |f.val b - v| < (2 : ℝ) ^ g := by
  obtain ⟨hf, hu⟩ := RoundsTo.ulp h hmx
  rcases le_or_gt (f.ce b) g with hc | hc
  · exact lt_of_lt_of_le hu (two_zpow_le hc)
  · have hcm := f.ce_le_max hf
    have hp := two_zpow_pos g
    -- `|b| ≥ 2^(g+F+1) ≥ |v|`, so `b` is `±2^(g+F+1)`
    have hlt : (2 : ℝ) ^ (g + f.F + 1) < (2 : ℝ) ^ ((f.bias : ℤ) + 1) := two_zpow_lt (by omega)
    have habs : ∀ w, Mult g w → |w| ≤ (2 : ℝ) ^ (g + f.F + 1) → ∃ c, f.Finite c ∧ f.val c = w :=
      fun w hw1 hw2 => f.rep hw1 hg hw2 (lt_of_le_of_lt hw2 hlt)
    have hM : Mult g ((2 : ℝ) ^ (g + f.F + 1)) := (Mult.two_zpow _).weaken (by omega)
    have hp2 := two_zpow_pos (g + f.F + 1)
    obtain ⟨P, hP1, hP2⟩ := habs _ hM (by rw [abs_of_pos hp2])
    obtain ⟨N, hN1, hN2⟩ := habs _ hM.neg (by rw [abs_neg, abs_of_pos hp2])
    have hv' := abs_le.1 hv
    obtain ⟨-, hb1, hb2⟩ := RoundsTo.between h hN1 hP1 (by linarith) (by linarith)
    have hbge : (2 : ℝ) ^ (g + f.F + 1) ≤ |f.val b| := by
      rcases f.ce_normal b with q | q
      · omega
      · exact le_trans (two_zpow_le (by omega)) q
    have hsmall : (2 : ℝ) ^ g ≤ (2 : ℝ) ^ (g + f.F + 1) := two_zpow_le (by omega)
    by_contra hcon
    push Not at hcon
    rcases le_abs.1 hbge with q | q
    · -- b = 2^(g+F+1), v ≤ b - 2^g
      have : v ≤ (2 : ℝ) ^ (g + f.F + 1) - (2 : ℝ) ^ g := by
        rcases le_abs.1 hcon with r | r <;> linarith
      obtain ⟨c, hc1, hc2⟩ := habs _ (hM.sub (Mult.two_zpow g)) (by rw [abs_le]; constructor <;> linarith)
      obtain ⟨-, -, k⟩ := RoundsTo.between h hN1 hc1 (by linarith) (by linarith)
      linarith
    · have : -(2 : ℝ) ^ (g + f.F + 1) + (2 : ℝ) ^ g ≤ v := by
        rcases le_abs.1 hcon with r | r <;> linarith
      obtain ⟨c, hc1, hc2⟩ := habs _ (hM.neg.add (Mult.two_zpow g)) (by rw [abs_le]; constructor <;> linarith)
      obtain ⟨-, k, -⟩ := RoundsTo.between h hc1 hP1 (by linarith) (by linarith)
      linarith

/-- multiples of `2^g` closer than `2^g` are equal -/
theorem Mult.eq_of_close {g : ℤ} {v w : ℝ} (hv : Mult g v) (hw : Mult g w) (h : |v - w| < (2 : ℝ) ^ g) : v = w := by
  by_contra hne
  have := (hv.sub hw).ge (sub_ne_zero.2 hne)
  linarith

/-- The rounding error of an addition to nearest is a format value. -/
theorem residual_add {zs : Bool} {a b s : ℕ} (hb : f.Finite b) (ha : f.Finite a) (hab : f.ce b ≤ f.ce a)
    (H : f.RoundsTo .nearest zs (f.val a + f.val b) s) (hs : f.Finite s) :
    Mult (f.ce b) (f.val s) ∧ |f.val s - (f.val a + f.val b)| ≤ |f.val b| ∧
      ∀ σ : ℝ, |σ| = 1 → ∃ c, f.Finite c ∧ f.val c = σ * (f.val s - (f.val a + f.val b)) := by
  have m1 : Mult (f.ce b) (f.val a + f.val b) := ((f.mult_ce a).weaken hab).add (f.mult_ce b)
  have m2 := RoundsTo.mult_nearest H hs m1 (f.ce_ge b)
  have hd := RoundsTo.le_dist H hs ha
  rw [show f.val a - (f.val a + f.val b) = -f.val b by ring, abs_neg] at hd
  refine ⟨m2, hd, fun σ hσ => f.rep (g := f.ce b) ?_ (f.ce_ge b) ?_ ?_⟩
  · rcases (abs_eq (by norm_num)).1 hσ with rfl | rfl
    · rw [one_mul]; exact m2.sub m1
    · rw [neg_one_mul]; exact (m2.sub m1).neg
  · rw [abs_mul, hσ, one_mul]; exact le_trans hd (f.abs_val_lt_ce b).le
  · rw [abs_mul, hσ, one_mul]; exact lt_of_le_of_lt hd (f.abs_val_lt_huge hb)

theorem residual_add_pos {zs : Bool} {a b s : ℕ} (hb : f.Finite b) (ha : f.Finite a) (hab : f.ce b ≤ f.ce a)
    (H : f.RoundsTo .nearest zs (f.val a + f.val b) s) (hs : f.Finite s) : ∃ c, f.Finite c ∧ f.val c = f.val s - (f.val a + f.val b) := by
  have := (residual_add hb ha hab H hs).2.2 1 (by simp)
  rwa [one_mul] at this

theorem residual_add_neg {zs : Bool} {a b s : ℕ} (hb : f.Finite b) (ha : f.Finite a) (hab : f.ce b ≤ f.ce a)
    (H : f.RoundsTo .nearest zs (f.val a + f.val b) s) (hs : f.Finite s) : ∃ c, f.Finite c ∧ f.val c = f.val a + f.val b - f.val s := by
  have := (residual_add hb ha hab H hs).2.2 (-1) (by simp)
  rw [show -1 * (f.val s - (f.val a + f.val b)) = f.val a + f.val b - f.val s by ring] at this
  exact this

theorem ce_le_of_abs_le {a b : ℕ} (h : |f.val b| ≤ |f.val a|) : f.ce b ≤ f.ce a :=
  f.ce_le_of (f.ce_ge a) (lt_of_le_of_lt h (f.abs_val_lt_ce a))

/-- The difference between a rounded sum and its larger operand is a format value. -/
theorem sum_sub_rep {zs : Bool} {a b s : ℕ} (ha : f.Finite a) (hb : f.Finite b) (hle : |f.val b| ≤ |f.val a|)
    (H : f.RoundsTo .nearest zs (f.val a + f.val b) s) (hs : f.Finite s) : ∃ c, f.Finite c ∧ f.val c = f.val s - f.val a := by
  have hab := ce_le_of_abs_le hle
  obtain ⟨m2, hd, -⟩ := residual_add hb ha hab H hs
  have hu := (RoundsTo.half_ulp H hs).2
  have m1 : Mult (f.ce b) (f.val a + f.val b) := ((f.mult_ce a).weaken hab).add (f.mult_ce b)
  have hsm := f.ce_le_max hs
  have htri : |f.val s - f.val a| ≤ |f.val b| + |f.val s - (f.val a + f.val b)| := by
    have := abs_add_le (f.val b) (f.val s - (f.val a + f.val b))
    rwa [show f.val b + (f.val s - (f.val a + f.val b)) = f.val s - f.val a by ring] at this
  rcases le_or_gt (f.ce s) (f.ce b) with h1 | h1
  · have := m2.eq_of_close m1 (lt_of_le_of_lt hu (two_zpow_lt (by omega)))
    exact ⟨b, hb, by rw [this]; ring⟩
  · have e1 := two_zpow_succ (f.ce s + f.F)
    rcases le_or_gt (f.ce s) (f.ce a) with h2 | h2
    · have b1 : |f.val b| < (2 : ℝ) ^ (f.ce s + f.F) := lt_of_lt_of_le (f.abs_val_lt_ce b) (two_zpow_le (by omega))
      have b2 : (2 : ℝ) ^ (f.ce s - 1) ≤ (2 : ℝ) ^ (f.ce s + f.F) := two_zpow_le (by omega)
      have b3 : |f.val s - f.val a| < (2 : ℝ) ^ (f.ce s + f.F + 1) := by linarith
      exact f.rep (g := f.ce s) ((f.mult_ce s).sub ((f.mult_ce a).weaken h2)) (f.ce_ge s) b3.le (lt_of_lt_of_le b3 (two_zpow_le (by omega)))
    · have b0 := f.abs_val_le_ce a
      have b1 : |f.val s - (f.val a + f.val b)| ≤ (2 : ℝ) ^ (f.ce a + 1 - 1) := by
        refine RoundsTo.half_of H hs (by have := f.ce_ge a; omega) ?_
        have := abs_add_le (f.val a) (f.val b)
        have e := two_zpow_succ (f.ce a + f.F + 1)
        rw [show f.ce a + 1 + f.F + 1 = f.ce a + f.F + 1 + 1 by ring, e]
        linarith [two_zpow_pos (f.ce a)]
      rw [add_sub_cancel_right] at b1
      have b3 : |f.val s - f.val a| ≤ (2 : ℝ) ^ (f.ce a + f.F + 1) := by linarith
      exact f.rep (g := f.ce a) (((f.mult_ce s).weaken (by omega)).sub (f.mult_ce a)) (f.ce_ge a) b3 (lt_of_le_of_lt b3 (two_zpow_lt (by omega)))

/-- Dekker's Fast2Sum. -/
theorem fastTwoSum_spec {z1 z2 z3 : Bool} {a b s t l : ℕ} (ha : f.Finite a) (hb : f.Finite b) (hle : |f.val b| ≤ |f.val a| ∨ f.val a = 0)
    (H : f.RoundsTo .nearest z1 (f.val a + f.val b) s) (hs : f.Finite s)
    (T : f.RoundsTo .nearest z2 (f.val s - f.val a) t) (L : f.RoundsTo .nearest z3 (f.val b - f.val t) l) :
    f.Finite t ∧ f.val t = f.val s - f.val a ∧ f.Finite l ∧ f.val s + f.val l = f.val a + f.val b := by
  rcases hle with hle | h0
  · obtain ⟨t1, t2⟩ := RoundsTo.exact_of T (sum_sub_rep ha hb hle H hs)
    rw [t2] at L
    obtain ⟨l1, l2⟩ := RoundsTo.exact_of L (by
      obtain ⟨c, hc1, hc2⟩ := residual_add_neg hb ha (ce_le_of_abs_le hle) H hs
      exact ⟨c, hc1, by rw [hc2]; ring⟩)
    exact ⟨t1, t2, l1, by rw [l2]; ring⟩
  · rw [h0, zero_add] at H
    obtain ⟨s1, s2⟩ := RoundsTo.exact_of H ⟨b, hb, rfl⟩
    rw [h0, s2, sub_zero] at T
    obtain ⟨t1, t2⟩ := RoundsTo.exact_of T ⟨b, hb, rfl⟩
    rw [t2, sub_self] at L
    obtain ⟨l1, l2⟩ := RoundsTo.exact_of L ⟨f.zero false, f.finite_zero _, f.val_zero _⟩
    exact ⟨t1, by rw [t2, s2, h0]; ring, l1, by rw [l2, s2, h0]; ring⟩

/-- Knuth's 2Sum. -/
theorem twoSum_spec {z1 z2 z3 z4 z5 z6 : Bool} {a b s a' b' da db t : ℕ} (ha : f.Finite a) (hb : f.Finite b)
    (H : f.RoundsTo .nearest z1 (f.val a + f.val b) s) (hs : f.Finite s)
    (A' : f.RoundsTo .nearest z2 (f.val s - f.val b) a') (ha' : f.Finite a')
    (B' : f.Finite a' → f.RoundsTo .nearest z3 (f.val s - f.val a') b')
    (DA : f.Finite a' → f.RoundsTo .nearest z4 (f.val a - f.val a') da)
    (DB : f.Finite b' → f.RoundsTo .nearest z5 (f.val b - f.val b') db)
    (T : f.Finite da → f.Finite db → f.RoundsTo .nearest z6 (f.val da + f.val db) t) :
    f.Finite t ∧ f.val s + f.val t = f.val a + f.val b := by
  -- the last step, common to all cases
  have fin : ∀ x y : ℝ, f.Finite da → f.Finite db → f.val da = x → f.val db = y → x + y = f.val a + f.val b - f.val s →
      (∃ c, f.Finite c ∧ f.val c = f.val a + f.val b - f.val s) → f.Finite t ∧ f.val s + f.val t = f.val a + f.val b := by
    intro x y h1 h2 h3 h4 h5 h6
    have T := T h1 h2
    rw [h3, h4, h5] at T
    obtain ⟨t1, t2⟩ := RoundsTo.exact_of T h6
    exact ⟨t1, by rw [t2]; ring⟩
  have hz : ∃ c, f.Finite c ∧ f.val c = 0 := ⟨f.zero false, f.finite_zero _, f.val_zero _⟩
  rcases le_total (|f.val a|) (|f.val b|) with hle | hle
  · have H' : f.RoundsTo .nearest z1 (f.val b + f.val a) s := by rwa [add_comm]
    obtain ⟨-, a2⟩ := RoundsTo.exact_of A' (sum_sub_rep hb ha hle H' hs)
    have hres := residual_add_neg ha hb (ce_le_of_abs_le hle) H' hs
    have B' := B' ha'
    rw [a2, sub_sub_cancel] at B'
    obtain ⟨b1, b2⟩ := RoundsTo.exact_of B' ⟨b, hb, rfl⟩
    have DA := DA ha'
    rw [a2] at DA
    obtain ⟨d1, d2⟩ := RoundsTo.exact_of DA (by obtain ⟨c, k1, k2⟩ := hres; exact ⟨c, k1, by rw [k2]; ring⟩)
    have DB := DB b1
    rw [b2, sub_self] at DB
    obtain ⟨e1, e2⟩ := RoundsTo.exact_of DB hz
    exact fin _ _ d1 e1 d2 e2 (by ring) (by rwa [add_comm (f.val b)] at hres)
  · have hab := ce_le_of_abs_le hle
    have hres := residual_add_neg hb ha hab H hs
    obtain ⟨m2, hd, -⟩ := residual_add hb ha hab H hs
    have hu := (RoundsTo.half_ulp H hs).2
    have m1 : Mult (f.ce b) (f.val a + f.val b) := ((f.mult_ce a).weaken hab).add (f.mult_ce b)
    have hb0 := f.ce_ge b
    have m3 : Mult (f.ce b) (f.val s - f.val b) := m2.sub (f.mult_ce b)
    have m4 := RoundsTo.mult_nearest A' ha' m3 hb0
    have hu' := (RoundsTo.half_ulp A' ha').2
    -- if `a'` is exact everything else is
    have exactCase : f.val a' = f.val s - f.val b → f.Finite t ∧ f.val s + f.val t = f.val a + f.val b := by
      intro a2
      have B' := B' ha'
      rw [a2, sub_sub_cancel] at B'
      obtain ⟨b1, b2⟩ := RoundsTo.exact_of B' ⟨b, hb, rfl⟩
      have DA := DA ha'
      rw [a2] at DA
      obtain ⟨d1, d2⟩ := RoundsTo.exact_of DA (by obtain ⟨c, k1, k2⟩ := hres; exact ⟨c, k1, by rw [k2]; ring⟩)
      have DB := DB b1
      rw [b2, sub_self] at DB
      obtain ⟨e1, e2⟩ := RoundsTo.exact_of DB hz
      exact fin _ _ d1 e1 d2 e2 (by ring) hres
    rcases le_or_gt (f.ce s) (f.ce b) with h1 | h1
    · have hex := m2.eq_of_close m1 (lt_of_le_of_lt hu (two_zpow_lt (by omega)))
      refine exactCase (RoundsTo.exact_of A' ⟨a, ha, by rw [hex]; ring⟩).2
    rcases le_or_gt (f.ce a') (f.ce b) with h2 | h2
    · exact exactCase (m4.eq_of_close m3 (lt_of_le_of_lt hu' (two_zpow_lt (by omega))))
    -- general case
    have hsm := f.ce_le_max hs
    have hbs : |f.val b| < (2 : ℝ) ^ (f.ce b + f.F + 1) := f.abs_val_lt_ce b
    have hss := f.abs_val_lt_ce s
    have e0 := two_zpow_succ (f.ce s + f.F)
    have e1 := two_zpow_succ (f.ce s + f.F + 1)
    have hbs2 : |f.val b| < (2 : ℝ) ^ (f.ce s + f.F) := lt_of_lt_of_le hbs (two_zpow_le (by omega))
    -- δ = a' - (s - b)
    have hδ1 : |f.val a' - (f.val s - f.val b)| ≤ (2 : ℝ) ^ (f.ce s + 1 - 1) := by
      refine RoundsTo.half_of A' ha' (by have := f.ce_ge s; omega) ?_
      have : |f.val s - f.val b| ≤ |f.val s| + |f.val b| := by
        have := abs_add_le (f.val s) (-f.val b); rwa [abs_neg, ← sub_eq_add_neg] at this
      rw [show f.ce s + 1 + f.F + 1 = f.ce s + f.F + 1 + 1 by ring, e1]
      linarith [two_zpow_pos (f.ce s + f.F)]
    rw [add_sub_cancel_right] at hδ1
    have hδ2 : |f.val a' - (f.val s - f.val b)| ≤ |f.val b| := by
      have := RoundsTo.le_dist A' ha' hs
      rwa [sub_sub_cancel] at this
    obtain ⟨δ, hδ⟩ : ∃ δ, δ = f.val a' - (f.val s - f.val b) := ⟨_, rfl⟩
    rw [← hδ] at hδ1 hδ2 hu'
    have mδ : Mult (f.ce b) δ := hδ ▸ m4.sub m3
    -- b' exact
    have hrepb : ∃ c, f.Finite c ∧ f.val c = f.val s - f.val a' := by
      have htr : |f.val s - f.val a'| ≤ |f.val b| + |δ| := by
        have := abs_add_le (f.val b) (-δ)
        rw [abs_neg] at this
        rwa [show f.val b + -δ = f.val s - f.val a' by rw [hδ]; ring] at this
      refine f.rep (g := min (f.ce s) (f.ce a')) (((f.mult_ce s).weaken (min_le_left _ _)).sub ((f.mult_ce a').weaken (min_le_right _ _)))
        (le_min (f.ce_ge s) (f.ce_ge a')) ?_ ?_
      · have q1 : |f.val b| < (2 : ℝ) ^ (min (f.ce s) (f.ce a') + f.F) := lt_of_lt_of_le hbs (two_zpow_le (by omega))
        have q2 : |δ| ≤ (2 : ℝ) ^ (min (f.ce s) (f.ce a') + f.F) := by
          rcases min_choice (f.ce s) (f.ce a') with k | k <;> rw [k]
          · exact le_trans hδ1 (two_zpow_le (by omega))
          · exact le_trans hu' (two_zpow_le (by omega))
        have e := two_zpow_succ (min (f.ce s) (f.ce a') + f.F)
        linarith
      · refine lt_of_lt_of_le ?_ (two_zpow_le (show f.ce s + f.F + 1 ≤ (f.bias : ℤ) + 1 by omega))
        linarith
    obtain ⟨b1, b2⟩ := RoundsTo.exact_of (B' ha') hrepb
    -- db = δ
    have DB := DB b1
    rw [b2, show f.val b - (f.val s - f.val a') = δ by rw [hδ]; ring] at DB
    obtain ⟨e1', e2'⟩ := RoundsTo.exact_of DB (f.rep (g := f.ce b) mδ hb0 (by linarith) (lt_of_le_of_lt hδ2 (f.abs_val_lt_huge hb)))
    -- da = a - a'
    have hes : f.ce s ≤ f.ce a + 1 := by
      have b0 := f.abs_val_le_ce a
      have e := two_zpow_succ (f.ce a + f.F + 1)
      have htr := abs_add_le (f.val a) (f.val b)
      have hp := two_zpow_pos (f.ce a)
      have hx : |f.val s - (f.val a + f.val b)| ≤ (2 : ℝ) ^ (f.ce a + 1 - 1) := by
        refine RoundsTo.half_of H hs (by have := f.ce_ge a; omega) ?_
        rw [show f.ce a + 1 + f.F + 1 = f.ce a + f.F + 1 + 1 by ring, e]
        linarith
      rw [add_sub_cancel_right] at hx
      refine f.ce_le_of (by have := f.ce_ge a; omega) ?_
      rw [show f.ce a + 1 + f.F + 1 = f.ce a + f.F + 1 + 1 by ring, e]
      have : |f.val s| ≤ |f.val s - (f.val a + f.val b)| + |f.val a + f.val b| := by
        have := abs_add_le (f.val s - (f.val a + f.val b)) (f.val a + f.val b)
        rwa [sub_add_cancel] at this
      linarith
    have ma' : Mult (f.ce s - 1) (f.val a') := by
      rcases eq_or_lt_of_le (show f.ce b + 1 ≤ f.ce s by omega) with k | k
      · exact m4.weaken (by omega)
      · refine (f.mult_ce a').weaken ?_
        by_contra hcon
        push Not at hcon
        have q0 : (2 : ℝ) ^ (f.ce s + f.F) ≤ |f.val s| := by
          rcases f.ce_normal s with q | q
          · omega
          · exact q
        have q1 : |f.val b| < (2 : ℝ) ^ (f.ce s + f.F - 1) := lt_of_lt_of_le hbs (two_zpow_le (by omega))
        have q2 := f.abs_val_le_ce a'
        have q3 : (2 : ℝ) ^ (f.ce a' + f.F + 1) ≤ (2 : ℝ) ^ (f.ce s + f.F - 1) := two_zpow_le (by omega)
        have q4 : (2 : ℝ) ^ (f.ce a' - 1) < (2 : ℝ) ^ f.ce a' := two_zpow_lt (by omega)
        have e : (2 : ℝ) ^ (f.ce s + f.F) = 2 * (2 : ℝ) ^ (f.ce s + f.F - 1) := by rw [← two_zpow_succ]; congr 1; ring
        have : |f.val s| ≤ |f.val a'| + |f.val b| + |δ| := by
          have := abs_add_three (f.val a') (f.val b) (-δ)
          rw [abs_neg] at this
          rwa [show f.val a' + f.val b + -δ = f.val s by rw [hδ]; ring] at this
        linarith
    have ma : Mult (f.ce s - 1) (f.val a) := (f.mult_ce a).weaken (by omega)
    have hrepa : ∃ c, f.Finite c ∧ f.val c = f.val a - f.val a' := by
      have hF : (1 : ℤ) ≤ f.F := by exact_mod_cast f.hF
      have htr : |f.val a - f.val a'| ≤ |f.val s - (f.val a + f.val b)| + |δ| := by
        have := abs_add_le (-(f.val s - (f.val a + f.val b))) (-δ)
        rw [abs_neg, abs_neg] at this
        rwa [show -(f.val s - (f.val a + f.val b)) + -δ = f.val a - f.val a' by rw [hδ]; ring] at this
      have e : (2 : ℝ) ^ (f.ce s) = 2 * (2 : ℝ) ^ (f.ce s - 1) := by rw [← two_zpow_succ]; congr 1; ring
      have e' : (2 : ℝ) ^ (f.ce s + 1) = 2 * (2 : ℝ) ^ (f.ce s) := two_zpow_succ _
      have hp := two_zpow_pos (f.ce s - 1)
      have k : |f.val a - f.val a'| < (2 : ℝ) ^ (f.ce s + 1) := by linarith
      refine f.rep (g := f.ce s - 1) (ma.sub ma') (by have := f.ce_ge b; omega) ?_ ?_
      · exact le_trans k.le (two_zpow_le (by omega))
      · exact lt_of_lt_of_le k (two_zpow_le (by omega))
    obtain ⟨d1, d2⟩ := RoundsTo.exact_of (DA ha') hrepa
    exact fin _ _ d1 e1' d2 e2' (by rw [hδ]; ring) hres

end Verif
