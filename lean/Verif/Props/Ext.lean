import Verif.Lemmas.Ext
import Verif.Props.Nearest

/-!
# C40 (`clamp`, `saturate`, `sign`, `step`), C41 (`move_towards`), C42 (`lerp`)
-/

namespace Verif
open Fmt
variable (f : Fmt) {v lo hi : ℕ}

theorem not_nan_of_finite {x : ℕ} (hx : f.Finite x) : ¬ f.IsNaN x := by
  rw [finite_iff] at hx; rw [isNaN_iff]; omega

/-- **C40** `clamp` returns one of its arguments: numerically `v` itself if it lies between the bounds, and the violated bound
otherwise. -/
theorem C40_clamp (hv : f.Valid v) (hlo : f.Valid lo) (hhi : f.Valid hi) (nv : ¬ f.IsNaN v) (nlo : ¬ f.IsNaN lo)
    (nhi : ¬ f.IsNaN hi) (hb : f.xval lo ≤ f.xval hi) :
    (CC.clamp f v lo hi = v ∨ CC.clamp f v lo hi = lo ∨ CC.clamp f v lo hi = hi) ∧
    (f.xval lo ≤ f.xval v → f.xval v ≤ f.xval hi → f.xval (CC.clamp f v lo hi) = f.xval v) ∧
    (f.xval v < f.xval lo → f.xval (CC.clamp f v lo hi) = f.xval lo) ∧
    (f.xval hi < f.xval v → f.xval (CC.clamp f v lo hi) = f.xval hi) := by
  unfold CC.clamp
  obtain ⟨a1, a2, -⟩ := C04_fmax f hv hlo nv nlo
  have hm : f.Valid (CC.fmax f v lo) := by rcases a1 with h | h <;> rw [h] <;> assumption
  have nm : ¬ f.IsNaN (CC.fmax f v lo) := by rcases a1 with h | h <;> rw [h] <;> assumption
  obtain ⟨b1, b2, -⟩ := C04_fmin f hm hhi nm nhi
  rw [b2, a2]
  refine ⟨?_, ?_, ?_, ?_⟩
  · rcases b1 with h | h <;> rw [h]
    · rcases a1 with h | h <;> rw [h] <;> simp
    · simp
  · intro h1 h2; rw [max_eq_left h1, min_eq_left h2]
  · intro h; rw [max_eq_right h.le, min_eq_left hb]
  · intro h; rw [max_eq_left (le_trans hb h.le), min_eq_right h.le]

/-- **C40** even for a NaN argument (for which it returns the lower bound) `clamp` stays between the bounds. -/
theorem C40_clamp_range (hv : f.Valid v) (hlo : f.Valid lo) (hhi : f.Valid hi) (nlo : ¬ f.IsNaN lo) (nhi : ¬ f.IsNaN hi)
    (hb : f.xval lo ≤ f.xval hi) :
    f.Valid (CC.clamp f v lo hi) ∧ ¬ f.IsNaN (CC.clamp f v lo hi) ∧
    f.xval lo ≤ f.xval (CC.clamp f v lo hi) ∧ f.xval (CC.clamp f v lo hi) ≤ f.xval hi ∧
    (f.IsNaN v → f.xval (CC.clamp f v lo hi) = f.xval lo) := by
  by_cases nv : f.IsNaN v
  · unfold CC.clamp
    rw [((C04_nan f hv hlo).1 nv nlo).2]
    obtain ⟨b1, b2, -⟩ := C04_fmin f hlo hhi nlo nhi
    rw [min_eq_left hb] at b2
    refine ⟨?_, ?_, le_of_eq b2.symm, by rw [b2]; exact hb, fun _ => b2⟩
    · rcases b1 with h | h <;> rw [h] <;> assumption
    · rcases b1 with h | h <;> rw [h] <;> assumption
  · obtain ⟨h0, h1, h2, h3⟩ := C40_clamp f hv hlo hhi nv nlo nhi hb
    refine ⟨by rcases h0 with h | h | h <;> rw [h] <;> assumption, by rcases h0 with h | h | h <;> rw [h] <;> assumption, ?_, ?_,
      fun h => absurd h nv⟩
    · rcases lt_or_ge (f.xval v) (f.xval lo) with c | c
      · rw [h2 c]
      · rcases lt_or_ge (f.xval hi) (f.xval v) with c' | c'
        · rw [h3 c']; exact hb
        · rw [h1 c c']; exact c
    · rcases lt_or_ge (f.xval v) (f.xval lo) with c | c
      · rw [h2 c]; exact hb
      · rcases lt_or_ge (f.xval hi) (f.xval v) with c' | c'
        · rw [h3 c']
        · rw [h1 c c']; exact c'

example : binary64.xval 0xbff0000000000000 ≤ binary64.xval 0x4000000000000000 ∧
    CC.clamp binary64 0x4008000000000000 0xbff0000000000000 0x4000000000000000 = 0x4000000000000000 ∧
    CC.clamp binary64 0x7ff8000000000000 0xbff0000000000000 0x4000000000000000 = 0xbff0000000000000 := by
  refine ⟨?_, by decide +kernel, by decide +kernel⟩
  exact ((binary64.hle_spec (by decide) (by decide)).1 (by decide +kernel : binary64.hle 0xbff0000000000000 0x4000000000000000 = true)).2.2

/-- **C40** `saturate` of anything, NaN and infinities included, is a number in `[0, 1]`; it is the argument itself if that
lies in `[0, 1]`, and `0` for NaN. -/
theorem C40_saturate (hv : f.Valid v) :
    f.Finite (CC.saturate f v) ∧ 0 ≤ f.val (CC.saturate f v) ∧ f.val (CC.saturate f v) ≤ 1 ∧
    (f.Finite v → 0 ≤ f.val v → f.val v ≤ 1 → f.val (CC.saturate f v) = f.val v) ∧
    (¬ f.IsNaN v → f.xval v < 0 → f.val (CC.saturate f v) = 0) ∧ (¬ f.IsNaN v → 1 < f.xval v → f.val (CC.saturate f v) = 1) ∧
    (f.IsNaN v → f.val (CC.saturate f v) = 0) := by
  have z0 := f.finite_zero false
  have z1 := CC.finite_one f false
  have x0 : f.xval (f.zero false) = 0 := by rw [f.xval_of_finite z0, f.val_zero]; rfl
  have x1 : f.xval (CC.oneLit f false) = 1 := by rw [f.xval_of_finite z1, CC.val_one, sg_false]; rfl
  have hb : f.xval (f.zero false) ≤ f.xval (CC.oneLit f false) := by rw [x0, x1]; exact zero_le_one
  obtain ⟨r0, r1, r2, r3, r4⟩ := C40_clamp_range f hv z0.valid z1.valid (not_nan_of_finite f z0) (not_nan_of_finite f z1) hb
  change f.Valid (CC.saturate f v) at r0
  change ¬ f.IsNaN (CC.saturate f v) at r1
  change _ ≤ f.xval (CC.saturate f v) at r2
  change f.xval (CC.saturate f v) ≤ _ at r3
  change f.IsNaN v → f.xval (CC.saturate f v) = _ at r4
  rw [x0] at r2 r4
  rw [x1] at r3
  have hf : f.Finite (CC.saturate f v) := by
    rcases f.not_nan_cases r0 r1 with h | h
    · exact h
    · exfalso
      rw [f.isInf_eq h, xval_inf] at r2 r3
      split_ifs at r2 r3 with hs
      · simp at r2
      · have := top_le_iff.1 r3
        exact EReal.coe_ne_top 1 this
  have e := f.xval_of_finite hf
  have back : ∀ {c : ℝ}, f.xval (CC.saturate f v) = (c : EReal) → f.val (CC.saturate f v) = c := by
    intro c hc; rw [e] at hc; exact_mod_cast hc
  rw [e] at r2 r3
  refine ⟨hf, by exact_mod_cast r2, by exact_mod_cast r3, ?_, ?_, ?_, fun h => back (r4 h)⟩
  · intro h h1 h2
    obtain ⟨-, c1, -, -⟩ := C40_clamp f hv z0.valid z1.valid (not_nan_of_finite f h) (not_nan_of_finite f z0) (not_nan_of_finite f z1) hb
    refine back ?_
    rw [← f.xval_of_finite h]
    refine c1 ?_ ?_
    · rw [x0, f.xval_of_finite h]; exact_mod_cast h1
    · rw [x1, f.xval_of_finite h]; exact_mod_cast h2
  · intro h h1
    obtain ⟨-, -, c1, -⟩ := C40_clamp f hv z0.valid z1.valid h (not_nan_of_finite f z0) (not_nan_of_finite f z1) hb
    refine back ?_
    rw [x0] at c1; exact c1 h1
  · intro h h1
    obtain ⟨-, -, -, c1⟩ := C40_clamp f hv z0.valid z1.valid h (not_nan_of_finite f z0) (not_nan_of_finite f z1) hb
    refine back ?_
    rw [x1] at c1; exact c1 h1

example : binary32.Valid 0x7fc00001 ∧ CC.saturate binary32 0x7fc00001 = 0 ∧ CC.saturate binary32 0xff800000 = 0 ∧
    CC.saturate binary32 0x3f000000 = 0x3f000000 ∧ CC.saturate binary32 0x40000000 = 0x3f800000 := by decide +kernel

/-- **C40** `sign` is `-1`, `0` or `1` according to the order of its argument with zero, in every rounding mode (0 for NaN). -/
theorem C40_sign (m : Mode) (hv : f.Valid v) :
    f.Finite (CC.sign f m v) ∧
    (¬ f.IsNaN v → f.xval v < 0 → f.val (CC.sign f m v) = -1) ∧
    (¬ f.IsNaN v → f.xval v = 0 → f.val (CC.sign f m v) = 0) ∧
    (¬ f.IsNaN v → 0 < f.xval v → f.val (CC.sign f m v) = 1) ∧
    (f.IsNaN v → f.val (CC.sign f m v) = 0) := by
  have z0 := f.finite_zero false
  have x0 : f.xval (f.zero false) = 0 := by rw [f.xval_of_finite z0, f.val_zero]; rfl
  have key : ∀ z : ℤ, (z = 0 ∨ z = 1 ∨ z = -1) → f.Finite (f.ofInt m z) ∧ f.val (f.ofInt m z) = z := by
    intro z hz
    have hs := ofInt_spec f m z
    rcases hz with rfl | rfl | rfl
    · exact RoundsTo.exact f z0 (by rw [f.val_zero]; simp) hs
    · exact RoundsTo.exact f (CC.finite_one f false) (by rw [CC.val_one]; simp) hs
    · exact RoundsTo.exact f (CC.finite_one f true) (by rw [CC.val_one]; simp) hs
  have l1 : f.hlt (f.zero false) v = true ↔ ¬ f.IsNaN v ∧ 0 < f.xval v := by
    rw [f.hlt_spec z0.valid hv, x0]; have := not_nan_of_finite f z0; tauto
  have l2 : f.hlt v (f.zero false) = true ↔ ¬ f.IsNaN v ∧ f.xval v < 0 := by
    rw [f.hlt_spec hv z0.valid, x0]; have := not_nan_of_finite f z0; tauto
  unfold CC.sign
  refine ⟨(key _ (by split_ifs <;> simp)).1, ?_, ?_, ?_, ?_⟩
  · intro h h1
    rw [if_pos (l2.2 ⟨h, h1⟩), if_neg (by rw [l1]; exact fun h2 => absurd h1 (not_lt.2 h2.2.le))]
    rw [(key _ (by simp)).2]; norm_num
  · intro h h1
    rw [if_neg (by rw [l1, h1]; simp), if_neg (by rw [l2, h1]; simp)]
    rw [(key _ (by simp)).2]; norm_num
  · intro h h1
    rw [if_pos (l1.2 ⟨h, h1⟩), if_neg (by rw [l2]; exact fun h2 => absurd h1 (not_lt.2 h2.2.le))]
    rw [(key _ (by simp)).2]; norm_num
  · intro h
    rw [if_neg (by rw [l1]; simp [h]), if_neg (by rw [l2]; simp [h])]
    rw [(key _ (by simp)).2]; norm_num

example : binary64.Valid 0x8000000000000001 ∧ CC.sign binary64 .up 0x8000000000000001 = 0xbff0000000000000 ∧
    CC.sign binary64 .down 0x8000000000000000 = 0 := by decide +kernel

/-- **C40** `step` is `0` strictly below the edge and `1` from the edge on. -/
theorem C40_step {edge : ℕ} (he : f.Valid edge) (hv : f.Valid v) (ne : ¬ f.IsNaN edge) (nv : ¬ f.IsNaN v) :
    f.Finite (CC.step f edge v) ∧ (f.xval v < f.xval edge → f.val (CC.step f edge v) = 0) ∧
    (f.xval edge ≤ f.xval v → f.val (CC.step f edge v) = 1) := by
  unfold CC.step
  refine ⟨?_, ?_, ?_⟩
  · split_ifs
    · exact f.finite_zero _
    · exact CC.finite_one f _
  · intro h
    rw [if_pos ((f.hlt_spec hv he).2 ⟨nv, ne, h⟩), f.val_zero]
  · intro h
    rw [if_neg (by rw [f.hlt_spec hv he]; exact fun h2 => absurd h2.2.2 (not_lt.2 h)), CC.val_one, sg_false]

example : CC.step binary64 0x3ff0000000000000 0x3ff0000000000000 = 0x3ff0000000000000 ∧
    CC.step binary64 0x3ff0000000000000 0x3fefffffffffffff = 0 := by decide +kernel

/-! ## C41 -/

section C41
variable (m : Mode) {cur tgt d : ℕ}

/-- **C41** `move_towards` never overshoots: for finite `current` and `target` and any step `0 ≤ max_delta ≤ +∞` the result is a
finite number between the two (in every rounding mode), and it is `target` itself when the exact distance is at most the step. -/
theorem C41_move_towards (hc : f.Finite cur) (ht : f.Finite tgt) (hd : f.Valid d) (nd : ¬ f.IsNaN d) (h0 : 0 ≤ f.xval d) :
    f.Finite (CC.moveTowards f m cur tgt d) ∧
    min (f.val cur) (f.val tgt) ≤ f.val (CC.moveTowards f m cur tgt d) ∧
    f.val (CC.moveTowards f m cur tgt d) ≤ max (f.val cur) (f.val tgt) ∧
    ((|f.val tgt - f.val cur| : ℝ) ≤ f.xval d → CC.moveTowards f m cur tgt d = tgt) := by
  have R := f.hsub_spec m ht hc
  unfold CC.moveTowards
  dsimp only
  by_cases hle : f.hle (CC.abs f (f.hsub m tgt cur)) d = true
  · rw [if_pos hle]
    exact ⟨ht, min_le_right _ _, le_max_right _ _, fun _ => rfl⟩
  · rw [if_neg hle]
    have dfin : f.Finite d := by
      rcases f.not_nan_cases hd nd with h | h
      · exact h
      · exfalso; apply hle
        obtain ⟨a1, a2⟩ := abs_not_nan f R.valid R.not_nan
        rw [f.hle_spec a1 hd, xval_not_neg_inf f h h0]
        exact ⟨a2, nd, le_top⟩
    have hd0 : 0 ≤ f.val d := by rw [f.xval_of_finite dfin] at h0; exact_mod_cast h0
    have hlt : f.val d < |f.val tgt - f.val cur| := by
      by_contra hcon
      apply hle
      have hab := abs_le.1 (not_lt.1 hcon)
      obtain ⟨b1, b2, b3⟩ := RoundsTo.between R (f.finite_hneg dfin) dfin (by rw [f.val_hneg]; exact hab.1) hab.2
      rw [f.val_hneg] at b2
      exact abs_hle_of f b1 dfin (abs_le.2 ⟨b2, b3⟩)
    have no : ((|f.val tgt - f.val cur| : ℝ) : EReal) ≤ f.xval d → False := by
      intro h
      rw [f.xval_of_finite dfin] at h
      have : |f.val tgt - f.val cur| ≤ f.val d := by exact_mod_cast h
      linarith
    rcases lt_or_ge (f.val cur) (f.val tgt) with hct | hct
    · rw [if_pos ((hsub_pos_iff f ht hc).2 hct)]
      rw [abs_of_pos (by linarith)] at hlt
      obtain ⟨b1, b2, b3⟩ := RoundsTo.between (f.hadd_spec m hc dfin) hc ht (by linarith) (by linarith)
      exact ⟨b1, le_trans (min_le_left _ _) b2, le_trans b3 (le_max_right _ _), fun h => absurd h no⟩
    · rw [if_neg (by rw [hsub_pos_iff f ht hc]; exact not_lt.2 hct)]
      rw [abs_of_nonpos (by linarith)] at hlt
      obtain ⟨b1, b2, b3⟩ := RoundsTo.between (f.hadd_spec m hc (f.finite_hneg dfin)) ht hc
        (by rw [f.val_hneg]; linarith) (by rw [f.val_hneg]; linarith)
      exact ⟨b1, le_trans (min_le_right _ _) b2, le_trans b3 (le_max_left _ _), fun h => absurd h no⟩

/-- **C41** any number of steps, with any (possibly varying) steps sizes and rounding modes, stays in the interval and never moves
away from the target. -/
theorem C41_iterate (step : ℕ → ℕ) (md : ℕ → Mode) (pos : ℕ → ℕ) (hc : f.Finite (pos 0)) (ht : f.Finite tgt)
    (hs : ∀ n, f.Valid (step n) ∧ ¬ f.IsNaN (step n) ∧ 0 ≤ f.xval (step n))
    (hp : ∀ n, pos (n + 1) = CC.moveTowards f (md n) (pos n) tgt (step n)) (n : ℕ) :
    f.Finite (pos n) ∧ min (f.val (pos 0)) (f.val tgt) ≤ f.val (pos n) ∧ f.val (pos n) ≤ max (f.val (pos 0)) (f.val tgt) ∧
    |f.val tgt - f.val (pos (n + 1))| ≤ |f.val tgt - f.val (pos n)| := by
  have one : ∀ k, f.Finite (pos k) → f.Finite (pos (k + 1)) ∧ min (f.val (pos k)) (f.val tgt) ≤ f.val (pos (k + 1)) ∧
      f.val (pos (k + 1)) ≤ max (f.val (pos k)) (f.val tgt) := by
    intro k hk
    obtain ⟨h1, h2, h3⟩ := hs k
    rw [hp k]
    obtain ⟨a, b, c, -⟩ := C41_move_towards f (md k) hk ht h1 h2 h3
    exact ⟨a, b, c⟩
  have main : ∀ k, f.Finite (pos k) ∧ min (f.val (pos 0)) (f.val tgt) ≤ f.val (pos k) ∧
      f.val (pos k) ≤ max (f.val (pos 0)) (f.val tgt) := by
    intro k
    induction k with
    | zero => exact ⟨hc, min_le_left _ _, le_max_left _ _⟩
    | succ k ih =>
      obtain ⟨i1, i2, i3⟩ := ih
      obtain ⟨a, b, c⟩ := one k i1
      exact ⟨a, le_trans (le_min i2 (min_le_right _ _)) b, le_trans c (max_le i3 (le_max_right _ _))⟩
  obtain ⟨h1, h2, h3⟩ := main n
  obtain ⟨-, a, b⟩ := one n h1
  refine ⟨h1, h2, h3, ?_⟩
  rcases le_total (f.val (pos n)) (f.val tgt) with h | h
  · rw [min_eq_left h] at a; rw [max_eq_right h] at b
    rw [abs_of_nonneg (by linarith), abs_of_nonneg (by linarith)]; linarith
  · rw [min_eq_right h] at a; rw [max_eq_left h] at b
    rw [abs_of_nonpos (by linarith), abs_of_nonpos (by linarith)]; linarith

example : binary64.Finite 0 ∧ binary64.Finite 0x4024000000000000 ∧ ¬ binary64.IsNaN 0x4008000000000000 ∧
    CC.moveTowards binary64 .nearest 0 0x4024000000000000 0x4008000000000000 = 0x4008000000000000 ∧
    CC.moveTowards binary64 .nearest 0x4022000000000000 0x4024000000000000 0x4008000000000000 = 0x4024000000000000 := by
  decide +kernel

end C41

/-! ## C42 -/

section C42
variable (m : Mode) {a b t : ℕ}

private theorem isnan_fin {x : ℕ} (hx : f.Finite x) : CC.isnan f x = false := by
  rw [CC.isnan_eq]; exact (f.finite_B hx).1

private theorem hle_zero {x : ℕ} (hx : f.Finite x) : f.hle x (f.zero false) = true ↔ f.val x ≤ 0 := by
  rw [CC.hle_finite f hx (f.finite_zero _), f.val_zero]

private theorem hge_zero {x : ℕ} (hx : f.Finite x) : f.hge x (f.zero false) = true ↔ 0 ≤ f.val x := by
  unfold Fmt.hge; rw [CC.hle_finite f (f.finite_zero _) hx, f.val_zero]

/-- the branches of `lerp` for finite arguments -/
private theorem lerp_cases (ha : f.Finite a) (hb : f.Finite b) (ht : f.Finite t) :
    ((f.val a ≤ 0 ∧ 0 ≤ f.val b ∨ 0 ≤ f.val a ∧ f.val b ≤ 0) ∧
      CC.lerp f m a b t = f.hadd m (f.hmul m t b) (f.hmul m (f.hsub m (CC.oneLit f false) t) a)) ∨
    ((0 < f.val a ∧ 0 < f.val b ∨ f.val a < 0 ∧ f.val b < 0) ∧
      CC.lerp f m a b t = if f.heq t (CC.oneLit f false) then b
        else if f.hgt t (CC.oneLit f false) == f.hgt b a then
          (if f.hlt b (f.hadd m a (f.hmul m t (f.hsub m b a))) then f.hadd m a (f.hmul m t (f.hsub m b a)) else b)
        else (if f.hlt (f.hadd m a (f.hmul m t (f.hsub m b a))) b then f.hadd m a (f.hmul m t (f.hsub m b a)) else b)) := by
  unfold CC.lerp
  rw [isnan_fin f ha, isnan_fin f hb, isnan_fin f ht]
  simp only [Bool.or_false, Bool.false_eq_true, if_false]
  by_cases h : f.val a ≤ 0 ∧ 0 ≤ f.val b ∨ 0 ≤ f.val a ∧ f.val b ≤ 0
  · left
    refine ⟨h, ?_⟩
    rw [if_pos]
    rw [Bool.or_eq_true, Bool.and_eq_true, Bool.and_eq_true, hle_zero f ha, hge_zero f hb, hge_zero f ha, hle_zero f hb]
    exact h
  · right
    refine ⟨?_, ?_⟩
    · push Not at h
      rcases lt_trichotomy (f.val a) 0 with h1 | h1 | h1
      · exact Or.inr ⟨h1, h.1 h1.le⟩
      · exfalso; have e1 := h.1 h1.le; have e2 := h.2 h1.ge; linarith
      · exact Or.inl ⟨h1, h.2 h1.le⟩
    · rw [if_neg]
      rw [Bool.or_eq_true, Bool.and_eq_true, Bool.and_eq_true, hle_zero f ha, hge_zero f hb, hge_zero f ha, hle_zero f hb]
      exact h

/-- for operands of the same sign the difference cannot overflow -/
private theorem sub_same_sign (ha : f.Finite a) (hb : f.Finite b) (h : 0 < f.val a ∧ 0 < f.val b ∨ f.val a < 0 ∧ f.val b < 0) :
    f.Finite (f.hsub m b a) := by
  have R := f.hsub_spec m hb ha
  rcases h with ⟨h1, h2⟩ | ⟨h1, h2⟩
  · exact (RoundsTo.between R (f.finite_hneg ha) hb (by rw [f.val_hneg]; linarith) (by linarith)).1
  · exact (RoundsTo.between R hb (f.finite_hneg ha) (by linarith) (by rw [f.val_hneg]; linarith)).1

/-- **C42** `lerp` is bounded: for finite `a`, `b` and `0 ≤ t ≤ 1` the result is a finite number between `a` and `b`, in every
rounding mode (in particular no intermediate overflow escapes). -/
theorem C42_lerp_bounded (ha : f.Finite a) (hb : f.Finite b) (ht : f.Finite t) (h0 : 0 ≤ f.val t) (h1 : f.val t ≤ 1) :
    f.Finite (CC.lerp f m a b t) ∧ min (f.val a) (f.val b) ≤ f.val (CC.lerp f m a b t) ∧
    f.val (CC.lerp f m a b t) ≤ max (f.val a) (f.val b) := by
  have one := CC.finite_one f false
  have onev : f.val (CC.oneLit f false) = 1 := by rw [CC.val_one, sg_false]
  have z0 := f.finite_zero false
  have z0v := f.val_zero false
  rcases lerp_cases f m ha hb ht with ⟨hs, e⟩ | ⟨hs, e⟩
  · rw [e]
    obtain ⟨s1, s2, s3⟩ := RoundsTo.between (f.hsub_spec m one ht) z0 one (by rw [z0v, onev]; linarith) (by rw [onev]; linarith)
    rw [z0v] at s2; rw [onev] at s3
    rcases hs with ⟨ca, cb⟩ | ⟨ca, cb⟩
    · obtain ⟨p1, p2, p3⟩ := RoundsTo.between (f.hmul_spec m ht hb) z0 hb (by rw [z0v]; positivity) (by nlinarith)
      obtain ⟨q1, q2, q3⟩ := RoundsTo.between (f.hmul_spec m s1 ha) ha z0 (by nlinarith) (by rw [z0v]; nlinarith)
      rw [z0v] at p2 q3
      obtain ⟨r1, r2, r3⟩ := RoundsTo.between (f.hadd_spec m p1 q1) ha hb (by linarith) (by linarith)
      exact ⟨r1, le_trans (min_le_left _ _) r2, le_trans r3 (le_max_right _ _)⟩
    · obtain ⟨p1, p2, p3⟩ := RoundsTo.between (f.hmul_spec m ht hb) hb z0 (by nlinarith) (by rw [z0v]; nlinarith)
      obtain ⟨q1, q2, q3⟩ := RoundsTo.between (f.hmul_spec m s1 ha) z0 ha (by rw [z0v]; positivity) (by nlinarith)
      rw [z0v] at p3 q2
      obtain ⟨r1, r2, r3⟩ := RoundsTo.between (f.hadd_spec m p1 q1) hb ha (by linarith) (by linarith)
      exact ⟨r1, le_trans (min_le_right _ _) r2, le_trans r3 (le_max_left _ _)⟩
  · rw [e]
    split
    · exact ⟨hb, min_le_right _ _, le_max_right _ _⟩
    · rename_i hne
      have htlt : f.hgt t (CC.oneLit f false) = false := by
        unfold Fmt.hgt
        rw [← Bool.not_eq_true, CC.hlt_finite f one ht, onev]; exact not_lt.2 h1
      rw [htlt]
      have D := sub_same_sign f m ha hb hs
      have RD := f.hsub_spec m hb ha
      have RP := f.hmul_spec m ht D
      by_cases hab : f.val a < f.val b
      · have hg : f.hgt b a = true := (CC.hlt_finite f ha hb).2 hab
        rw [hg]
        simp only [Bool.false_eq_true, beq_iff_eq, if_false]
        obtain ⟨-, d2⟩ := (⟨trivial, (f.val_zero false ▸ (by
          have := RoundsTo.ge_of RD z0 (by rw [z0v]; linarith)
          rw [f.xval_of_finite z0, f.xval_of_finite D] at this
          exact_mod_cast this) : (0 : ℝ) ≤ f.val (f.hsub m b a))⟩ : True ∧ _)
        obtain ⟨p1, p2, -⟩ := RoundsTo.between RP z0 D (by rw [z0v]; positivity) (by nlinarith)
        rw [z0v] at p2
        have RX := f.hadd_spec m ha p1
        have hx := RoundsTo.ge_of RX ha (by linarith)
        split
        · rename_i hlt
          rw [f.hlt_spec RX.valid hb.valid] at hlt
          have xf : f.Finite (f.hadd m a (f.hmul m t (f.hsub m b a))) := by
            rcases f.not_nan_cases RX.valid RX.not_nan with h | h
            · exact h
            · exfalso
              rw [f.isInf_eq h, xval_inf, f.xval_of_finite ha] at hx
              have h3 := hlt.2.2
              rw [f.isInf_eq h, xval_inf, f.xval_of_finite hb] at h3
              split_ifs at hx h3
              · simp at hx
              · simp at h3
          rw [f.xval_of_finite xf, f.xval_of_finite ha] at hx
          have h3 := hlt.2.2
          rw [f.xval_of_finite xf, f.xval_of_finite hb] at h3
          exact ⟨xf, le_trans (min_le_left _ _) (by exact_mod_cast hx), le_trans (le_of_lt (by exact_mod_cast h3)) (le_max_right _ _)⟩
        · exact ⟨hb, min_le_right _ _, le_max_right _ _⟩
      · have hg : f.hgt b a = false := by
          rw [← Bool.not_eq_true]; unfold Fmt.hgt; rw [CC.hlt_finite f ha hb]; exact hab
        rw [hg]
        simp only [beq_self_eq_true, if_true]
        have d2 : f.val (f.hsub m b a) ≤ 0 := by
          have := RoundsTo.le_of RD z0 (by rw [z0v]; linarith)
          rw [f.xval_of_finite z0, f.xval_of_finite D, z0v] at this
          exact_mod_cast this
        obtain ⟨p1, -, p2⟩ := RoundsTo.between RP D z0 (by nlinarith) (by rw [z0v]; nlinarith)
        rw [z0v] at p2
        have RX := f.hadd_spec m ha p1
        have hx := RoundsTo.le_of RX ha (by linarith)
        split
        · rename_i hlt
          rw [f.hlt_spec hb.valid RX.valid] at hlt
          have xf : f.Finite (f.hadd m a (f.hmul m t (f.hsub m b a))) := by
            rcases f.not_nan_cases RX.valid RX.not_nan with h | h
            · exact h
            · exfalso
              rw [f.isInf_eq h, xval_inf, f.xval_of_finite ha] at hx
              have h3 := hlt.2.2
              rw [f.isInf_eq h, xval_inf, f.xval_of_finite hb] at h3
              split_ifs at hx h3
              · simp at h3
              · simp at hx
          rw [f.xval_of_finite xf, f.xval_of_finite ha] at hx
          have h3 := hlt.2.2
          rw [f.xval_of_finite xf, f.xval_of_finite hb] at h3
          exact ⟨xf, le_trans (min_le_right _ _) (le_of_lt (by exact_mod_cast h3)), le_trans (by exact_mod_cast hx) (le_max_left _ _)⟩
        · exact ⟨hb, min_le_right _ _, le_max_right _ _⟩

/-- **C42** `lerp(a, b, 0)` is `a` (numerically; the same bit pattern unless `a` is a zero). -/
theorem C42_lerp_zero (ha : f.Finite a) (hb : f.Finite b) (ht : f.Finite t) (h0 : f.val t = 0) :
    f.Finite (CC.lerp f m a b t) ∧ f.val (CC.lerp f m a b t) = f.val a ∧ (f.val a ≠ 0 → CC.lerp f m a b t = a) := by
  have one := CC.finite_one f false
  have onev : f.val (CC.oneLit f false) = 1 := by rw [CC.val_one, sg_false]
  have z0 := f.finite_zero false
  have z0v := f.val_zero false
  suffices h : f.Finite (CC.lerp f m a b t) ∧ f.val (CC.lerp f m a b t) = f.val a from
    ⟨h.1, h.2, fun hn => eq_of_val_ne f h.1.valid ha.valid h.2 hn⟩
  rcases lerp_cases f m ha hb ht with ⟨hs, e⟩ | ⟨hs, e⟩
  · rw [e]
    obtain ⟨s1, s2⟩ := RoundsTo.exact f one (by rw [onev, h0]; ring) (f.hsub_spec m one ht)
    obtain ⟨p1, p2⟩ := RoundsTo.exact f z0 (by rw [z0v, h0]; ring) (f.hmul_spec m ht hb)
    obtain ⟨q1, q2⟩ := RoundsTo.exact f ha (by rw [s2, onev, h0]; ring) (f.hmul_spec m s1 ha)
    obtain ⟨r1, r2⟩ := RoundsTo.exact f ha (by rw [p2, q2, s2, h0, onev]; ring) (f.hadd_spec m p1 q1)
    refine ⟨r1, ?_⟩
    rw [r2, p2, q2, s2, h0, onev]; ring
  · have hne : f.heq t (CC.oneLit f false) = false := by
      rw [← Bool.not_eq_true, CC.heq_finite f ht one, h0, onev]; norm_num
    have hgt : f.hgt t (CC.oneLit f false) = false := by
      rw [← Bool.not_eq_true]; unfold Fmt.hgt; rw [CC.hlt_finite f one ht, h0, onev]; norm_num
    rw [e, hne, hgt]
    have D := sub_same_sign f m ha hb hs
    obtain ⟨p1, p2⟩ := RoundsTo.exact f z0 (by rw [z0v, h0]; ring) (f.hmul_spec m ht D)
    obtain ⟨x1, x2⟩ := RoundsTo.exact f ha (by rw [p2, h0]; ring) (f.hadd_spec m ha p1)
    have xv : f.val (f.hadd m a (f.hmul m t (f.hsub m b a))) = f.val a := by rw [x2, p2, h0]; ring
    simp only [Bool.false_eq_true, if_false]
    by_cases hab : f.val a < f.val b
    · have hg : f.hgt b a = true := (CC.hlt_finite f ha hb).2 hab
      rw [hg]
      simp only [Bool.false_eq_true, beq_iff_eq, if_false]
      rw [if_pos ((CC.hlt_finite f x1 hb).2 (by rw [xv]; exact hab))]
      exact ⟨x1, xv⟩
    · have hg : f.hgt b a = false := by
        rw [← Bool.not_eq_true]; unfold Fmt.hgt; rw [CC.hlt_finite f ha hb]; exact hab
      rw [hg]
      simp only [beq_self_eq_true, if_true]
      by_cases hba : f.val b < f.val a
      · rw [if_pos ((CC.hlt_finite f hb x1).2 (by rw [xv]; exact hba))]
        exact ⟨x1, xv⟩
      · rw [if_neg (by rw [CC.hlt_finite f hb x1, xv]; exact hba)]
        exact ⟨hb, le_antisymm (not_lt.1 hab) (not_lt.1 hba)⟩

/-- **C42** `lerp(a, b, 1)` is `b` (numerically; the same bit pattern unless `b` is a zero). -/
theorem C42_lerp_one (ha : f.Finite a) (hb : f.Finite b) (ht : f.Finite t) (h1 : f.val t = 1) :
    f.Finite (CC.lerp f m a b t) ∧ f.val (CC.lerp f m a b t) = f.val b ∧ (f.val b ≠ 0 → CC.lerp f m a b t = b) := by
  have one := CC.finite_one f false
  have onev : f.val (CC.oneLit f false) = 1 := by rw [CC.val_one, sg_false]
  have z0 := f.finite_zero false
  have z0v := f.val_zero false
  suffices h : f.Finite (CC.lerp f m a b t) ∧ f.val (CC.lerp f m a b t) = f.val b from
    ⟨h.1, h.2, fun hn => eq_of_val_ne f h.1.valid hb.valid h.2 hn⟩
  rcases lerp_cases f m ha hb ht with ⟨hs, e⟩ | ⟨hs, e⟩
  · rw [e]
    obtain ⟨s1, s2⟩ := RoundsTo.exact f z0 (by rw [onev, h1, z0v]; ring) (f.hsub_spec m one ht)
    obtain ⟨p1, p2⟩ := RoundsTo.exact f hb (by rw [h1]; ring) (f.hmul_spec m ht hb)
    obtain ⟨q1, q2⟩ := RoundsTo.exact f z0 (by rw [s2, onev, h1, z0v]; ring) (f.hmul_spec m s1 ha)
    obtain ⟨r1, r2⟩ := RoundsTo.exact f hb (by rw [p2, q2, s2, h1, onev]; ring) (f.hadd_spec m p1 q1)
    refine ⟨r1, ?_⟩
    rw [r2, p2, q2, s2, h1, onev]; ring
  · have heq : f.heq t (CC.oneLit f false) = true := by rw [CC.heq_finite f ht one, h1, onev]
    rw [e, heq]
    exact ⟨hb, rfl⟩

/-- **C42** `lerp(a, b, t)` with equal end points is that value for every finite `t` (for a zero end point provided `1 - t` is
in range, which can only fail in the upward mode). -/
theorem C42_lerp_equal (ha : f.Finite a) (hb : f.Finite b) (ht : f.Finite t) (hab : f.val a = f.val b)
    (h1 : f.val a = 0 → |1 - f.val t| ≤ f.maxFin) :
    f.Finite (CC.lerp f m a b t) ∧ f.val (CC.lerp f m a b t) = f.val a := by
  have one := CC.finite_one f false
  have onev : f.val (CC.oneLit f false) = 1 := by rw [CC.val_one, sg_false]
  have z0 := f.finite_zero false
  have z0v := f.val_zero false
  rcases lerp_cases f m ha hb ht with ⟨hs, e⟩ | ⟨hs, e⟩
  · have hz : f.val a = 0 := by rcases hs with h | h <;> linarith [h.1, h.2]
    rw [e]
    have s1 : f.Finite (f.hsub m (CC.oneLit f false) t) := RoundsTo.finite_of_le f (f.hsub_spec m one ht) (by rw [onev]; exact h1 hz)
    obtain ⟨p1, p2⟩ := RoundsTo.exact f z0 (by rw [← hab, hz, z0v]; ring) (f.hmul_spec m ht hb)
    obtain ⟨q1, q2⟩ := RoundsTo.exact f z0 (by rw [hz, z0v]; ring) (f.hmul_spec m s1 ha)
    obtain ⟨r1, r2⟩ := RoundsTo.exact f z0 (by rw [p2, q2, z0v, ← hab, hz]; ring) (f.hadd_spec m p1 q1)
    refine ⟨r1, ?_⟩
    rw [r2, p2, q2, ← hab, hz]; ring
  · rw [e]
    have D := sub_same_sign f m ha hb hs
    obtain ⟨d1, d2⟩ := RoundsTo.exact f z0 (by rw [z0v, hab]; ring) (f.hsub_spec m hb ha)
    have dv : f.val (f.hsub m b a) = 0 := by rw [d2, hab]; ring
    obtain ⟨p1, p2⟩ := RoundsTo.exact f z0 (by rw [z0v, dv]; ring) (f.hmul_spec m ht D)
    obtain ⟨x1, x2⟩ := RoundsTo.exact f ha (by rw [p2, dv]; ring) (f.hadd_spec m ha p1)
    have xv : f.val (f.hadd m a (f.hmul m t (f.hsub m b a))) = f.val a := by rw [x2, p2, dv]; ring
    split_ifs
    · exact ⟨hb, hab.symm⟩
    · exact ⟨x1, xv⟩
    · exact ⟨hb, hab.symm⟩
    · exact ⟨x1, xv⟩
    · exact ⟨hb, hab.symm⟩

private theorem le_of_mono {m : Mode} {z z' : Bool} {p q : ℕ} {u w : ℝ} (hp : f.RoundsTo m z u p) (hq : f.RoundsTo m z' w q)
    (fp : f.Finite p) (fq : f.Finite q) (h : u ≤ w) : f.val p ≤ f.val q := by
  have := RoundsTo.mono hp hq h
  rw [f.xval_of_finite fp, f.xval_of_finite fq] at this
  exact_mod_cast this

/-- **C42** `lerp` is monotone in `t` on `[0, 1]`: non-decreasing if `a ≤ b`, non-increasing if `b ≤ a`, in every rounding mode. -/
theorem C42_lerp_monotone {t' : ℕ} (ha : f.Finite a) (hb : f.Finite b) (ht : f.Finite t) (ht' : f.Finite t')
    (h0 : 0 ≤ f.val t) (h01 : f.val t ≤ f.val t') (h1 : f.val t' ≤ 1) :
    (f.val a ≤ f.val b → f.val (CC.lerp f m a b t) ≤ f.val (CC.lerp f m a b t')) ∧
    (f.val b ≤ f.val a → f.val (CC.lerp f m a b t') ≤ f.val (CC.lerp f m a b t)) := by
  have one := CC.finite_one f false
  have onev : f.val (CC.oneLit f false) = 1 := by rw [CC.val_one, sg_false]
  have z0 := f.finite_zero false
  have z0v := f.val_zero false
  obtain ⟨L1, L2, L3⟩ := C42_lerp_bounded f m ha hb ht h0 (le_trans h01 h1)
  obtain ⟨M1, M2, M3⟩ := C42_lerp_bounded f m ha hb ht' (le_trans h0 h01) h1
  by_cases hs : f.val a ≤ 0 ∧ 0 ≤ f.val b ∨ 0 ≤ f.val a ∧ f.val b ≤ 0
  · -- opposite signs
    have e1 : CC.lerp f m a b t = f.hadd m (f.hmul m t b) (f.hmul m (f.hsub m (CC.oneLit f false) t) a) := by
      rcases lerp_cases f m ha hb ht with ⟨-, e⟩ | ⟨h, -⟩
      · exact e
      · exfalso; rcases hs with h' | h' <;> rcases h with h | h <;> linarith [h.1, h.2, h'.1, h'.2]
    have e2 : CC.lerp f m a b t' = f.hadd m (f.hmul m t' b) (f.hmul m (f.hsub m (CC.oneLit f false) t') a) := by
      rcases lerp_cases f m ha hb ht' with ⟨-, e⟩ | ⟨h, -⟩
      · exact e
      · exfalso; rcases hs with h' | h' <;> rcases h with h | h <;> linarith [h.1, h.2, h'.1, h'.2]
    rw [e1] at L1; rw [e2] at M1
    rw [e1, e2]
    obtain ⟨s1, s2, s3⟩ := RoundsTo.between (f.hsub_spec m one ht) z0 one (by rw [z0v, onev]; linarith) (by rw [onev]; linarith)
    obtain ⟨s1', s2', s3'⟩ := RoundsTo.between (f.hsub_spec m one ht') z0 one (by rw [z0v, onev]; linarith) (by rw [onev]; linarith)
    rw [z0v] at s2 s2'; rw [onev] at s3 s3'
    have hsub := le_of_mono f (f.hsub_spec m one ht') (f.hsub_spec m one ht) s1' s1 (by linarith)
    have fin : ∀ {c d : ℕ}, f.Finite c → f.Finite d → 0 ≤ f.val c → f.val c ≤ 1 → f.Finite (f.hmul m c d) := by
      intro c d hc hd c0 c1
      refine RoundsTo.finite_of_le f (f.hmul_spec m hc hd) ?_
      rw [abs_mul, abs_of_nonneg c0]
      have := f.abs_val_le hd
      nlinarith [abs_nonneg (f.val d)]
    have P := fin ht hb h0 (by linarith)
    have P' := fin ht' hb (by linarith) h1
    have Q := fin s1 ha s2 s3
    have Q' := fin s1' ha s2' s3'
    constructor
    · intro hab
      have ca : f.val a ≤ 0 := by rcases hs with h | h <;> linarith [h.1, h.2]
      have cb : 0 ≤ f.val b := by rcases hs with h | h <;> linarith [h.1, h.2]
      have p := le_of_mono f (f.hmul_spec m ht hb) (f.hmul_spec m ht' hb) P P' (by nlinarith)
      have q := le_of_mono f (f.hmul_spec m s1 ha) (f.hmul_spec m s1' ha) Q Q' (by nlinarith)
      exact le_of_mono f (f.hadd_spec m P Q) (f.hadd_spec m P' Q') L1 M1 (by linarith)
    · intro hab
      have ca : 0 ≤ f.val a := by rcases hs with h | h <;> linarith [h.1, h.2]
      have cb : f.val b ≤ 0 := by rcases hs with h | h <;> linarith [h.1, h.2]
      have p := le_of_mono f (f.hmul_spec m ht' hb) (f.hmul_spec m ht hb) P' P (by nlinarith)
      have q := le_of_mono f (f.hmul_spec m s1' ha) (f.hmul_spec m s1 ha) Q' Q (by nlinarith)
      exact le_of_mono f (f.hadd_spec m P' Q') (f.hadd_spec m P Q) M1 L1 (by linarith)
  · -- same sign
    by_cases hab : f.val a = f.val b
    · constructor <;> intro _
      · rw [← hab, max_self] at L3; rw [← hab, min_self] at M2; linarith
      · rw [← hab, min_self] at L2; rw [← hab, max_self] at M3; linarith
    by_cases ht1 : f.val t' = 1
    · have e := (C42_lerp_one f m ha hb ht' ht1).2.1
      rw [e]
      constructor
      · intro h; rw [max_eq_right h] at L3; exact L3
      · intro h; rw [min_eq_right h] at L2; exact L2
    have hs' : 0 < f.val a ∧ 0 < f.val b ∨ f.val a < 0 ∧ f.val b < 0 := by
      rcases lerp_cases f m ha hb ht with ⟨h, -⟩ | ⟨h, -⟩
      · exact absurd h hs
      · exact h
    have lt1 : f.val t' < 1 := lt_of_le_of_ne h1 ht1
    have red : ∀ {u : ℕ}, f.Finite u → f.val u < 1 → CC.lerp f m a b u =
        (if f.hgt b a = false then (if f.hlt b (f.hadd m a (f.hmul m u (f.hsub m b a))) then f.hadd m a (f.hmul m u (f.hsub m b a)) else b)
         else (if f.hlt (f.hadd m a (f.hmul m u (f.hsub m b a))) b then f.hadd m a (f.hmul m u (f.hsub m b a)) else b)) := by
      intro u hu u1
      rcases lerp_cases f m ha hb hu with ⟨h, -⟩ | ⟨-, e⟩
      · exact absurd h hs
      · have g1 : f.heq u (CC.oneLit f false) = false := by
          rw [← Bool.not_eq_true, CC.heq_finite f hu one, onev]; exact ne_of_lt u1
        have g2 : f.hgt u (CC.oneLit f false) = false := by
          rw [← Bool.not_eq_true]; unfold Fmt.hgt; rw [CC.hlt_finite f one hu, onev]; exact not_lt.2 u1.le
        rw [e, g1, g2]
        simp only [Bool.false_eq_true, if_false]
        cases f.hgt b a <;> simp
    have D := sub_same_sign f m ha hb hs'
    have Dle := f.abs_val_le D
    have fin : ∀ {u : ℕ}, f.Finite u → 0 ≤ f.val u → f.val u < 1 → f.Finite (f.hmul m u (f.hsub m b a)) := by
      intro u hu u0 u1
      refine RoundsTo.finite_of_le f (f.hmul_spec m hu D) ?_
      rw [abs_mul, abs_of_nonneg u0]
      nlinarith [abs_nonneg (f.val (f.hsub m b a))]
    have P := fin ht h0 (by linarith)
    have P' := fin ht' (by linarith) lt1
    have RX := f.hadd_spec m ha P
    have RX' := f.hadd_spec m ha P'
    have key : ∀ {p q : ℕ}, f.Finite p → f.Finite q → f.xval p ≤ f.xval q → f.val p ≤ f.val q := by
      intro p q hp hq h
      rw [f.xval_of_finite hp, f.xval_of_finite hq] at h
      exact_mod_cast h
    have ltx : ∀ {p q : ℕ}, f.Valid p → f.Valid q → ¬ f.IsNaN p → ¬ f.IsNaN q → ¬ f.hlt p q = true → f.xval q ≤ f.xval p := by
      intro p q vp vq np nq h
      rw [f.hlt_spec vp vq] at h
      by_contra hc
      exact h ⟨np, nq, not_le.1 hc⟩
    rcases lt_or_gt_of_ne hab with hlt | hlt
    · have hg : f.hgt b a = true := (CC.hlt_finite f ha hb).2 hlt
      refine ⟨fun _ => key L1 M1 ?_, fun h => absurd h (not_le.2 hlt)⟩
      have d0 : 0 ≤ f.val (f.hsub m b a) := by
        have := RoundsTo.ge_of (f.hsub_spec m hb ha) z0 (by rw [z0v]; linarith)
        rw [f.xval_of_finite z0, f.xval_of_finite D, z0v] at this
        exact_mod_cast this
      have p := le_of_mono f (f.hmul_spec m ht D) (f.hmul_spec m ht' D) P P' (by nlinarith)
      have x := RoundsTo.mono RX RX' (by linarith)
      rw [red ht (by linarith), red ht' lt1, hg]
      simp only [Bool.true_eq_false, if_false]
      split_ifs with c1 c2 c2
      · exact x
      · exact ((f.hlt_spec RX.valid hb.valid).1 c1).2.2.le
      · exact le_trans (ltx RX.valid hb.valid RX.not_nan (not_nan_of_finite f hb) c1) x
      · exact le_refl _
    · have hg : f.hgt b a = false := by
        rw [← Bool.not_eq_true]; unfold Fmt.hgt; rw [CC.hlt_finite f ha hb]; exact not_lt.2 hlt.le
      refine ⟨fun h => absurd h (not_le.2 hlt), fun _ => key M1 L1 ?_⟩
      have d0 : f.val (f.hsub m b a) ≤ 0 := by
        have := RoundsTo.le_of (f.hsub_spec m hb ha) z0 (by rw [z0v]; linarith)
        rw [f.xval_of_finite z0, f.xval_of_finite D, z0v] at this
        exact_mod_cast this
      have p := le_of_mono f (f.hmul_spec m ht' D) (f.hmul_spec m ht D) P' P (by nlinarith)
      have x := RoundsTo.mono RX' RX (by linarith)
      rw [red ht (by linarith), red ht' lt1, hg]
      simp only [if_true]
      split_ifs with c1 c2 c2
      · exact x
      · exact le_trans x (ltx hb.valid RX.valid (not_nan_of_finite f hb) RX.not_nan c2)
      · exact ((f.hlt_spec hb.valid RX.valid).1 c2).2.2.le
      · exact le_refl _

example : binary64.Finite 0x3ff0000000000000 ∧ binary64.Finite 0xc008000000000000 ∧
    CC.lerp binary64 .nearest 0x3ff0000000000000 0xc008000000000000 0x3fe0000000000000 = 0xbff0000000000000 ∧
    CC.lerp binary64 .nearest 0x3ff0000000000000 0x7fefffffffffffff 0x3fefffffffffffff = 0x7feffffffffffffe ∧
    CC.lerp binary64 .up 0x3ff0000000000000 0x7fefffffffffffff 0x3fefffffffffffff = 0x7fefffffffffffff ∧
    CC.lerp binary64 .down 0x3ff0000000000000 0xc008000000000000 0 = 0x3ff0000000000000 := by decide +kernel

end C42

end Verif
