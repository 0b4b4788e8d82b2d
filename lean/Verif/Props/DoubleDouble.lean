import Verif.Props.EFT
import Verif.Lemmas.RelErr
import Verif.Lemmas.FErr

/-!
# C104: addition of double-double numbers

A double-double number is the unevaluated sum of `hi` and a small `lo`.  The sum of two such numbers whose high parts have the same sign, the larger one
first, is computed with an error of about the square of the rounding unit.
-/

namespace Verif
open Fmt
variable (f : Fmt)

/-- the rounding unit to nearest -/
noncomputable def unit104 : ℝ := 1 / 2 ^ (f.F + 1)

theorem mult_val (x : ℕ) : Mult f.emin (f.val x) := ⟨f.ival x, f.val_eq_ival x⟩

/-- the error of an addition is relative even among the subnormal numbers -/
theorem add_rel {x y z : ℕ} {zs : Bool} (R : f.RoundsTo .nearest zs (f.val x + f.val y) z) (h : |f.val x + f.val y| ≤ f.maxFin) :
    f.Finite z ∧ |f.val z - (f.val x + f.val y)| ≤ unit104 f * |f.val x + f.val y| := by
  have fz := RoundsTo.finite_of_le f R h
  refine ⟨fz, ?_⟩
  have e := RoundsTo.err_nearest R h
  have hu : unit104 f = (2 : ℝ) ^ (-(f.F : ℤ)) / 2 := by
    unfold unit104; rw [zpow_neg, zpow_natCast, pow_succ]; field_simp
  have hm : (0 : ℝ) < 2 ^ f.emin := two_zpow_pos _
  have hg : f.gapBound (f.val x + f.val y) = max ((2 : ℝ) ^ (-(f.F : ℤ)) * |f.val x + f.val y|) (2 ^ f.emin) := by
    unfold Fmt.gapBound Fmt.minSub Fmt.emin
    rw [mul_comm]
  rw [hg] at e
  rcases le_total ((2 : ℝ) ^ (-(f.F : ℤ)) * |f.val x + f.val y|) (2 ^ f.emin) with hc | hc
  · rw [max_eq_right hc] at e
    have := Mult.eq_of_close (mult_val f z) ((mult_val f x).add (mult_val f y)) (lt_of_le_of_lt e (by linarith))
    rw [this, sub_self, abs_zero]
    have : 0 ≤ unit104 f := by unfold unit104; positivity
    positivity
  · rw [max_eq_left hc] at e
    rw [hu]; linarith

/-- the core: `s` the rounded sum of the high parts, `l` the rounded correction -/
theorem dd_final {s l : ℕ} (hs : f.Finite s) (hl : f.Finite l) (hle : |f.val l| ≤ |f.val s| ∨ f.val s = 0) (hM : |f.val s + f.val l| ≤ f.maxFin) :
    f.Finite (CC.exactAdd f .nearest s l).hi ∧ f.Finite (CC.exactAdd f .nearest s l).lo ∧
      (∃ zs, f.RoundsTo .nearest zs (f.val s + f.val l) (CC.exactAdd f .nearest s l).hi) ∧
      f.val (CC.exactAdd f .nearest s l).hi + f.val (CC.exactAdd f .nearest s l).lo = f.val s + f.val l := by
  have fh : f.Finite (CC.exactAdd f .nearest s l).hi := RoundsTo.finite_of_le f (f.hadd_spec .nearest hs hl) hM
  obtain ⟨h1, h2, h3⟩ := C33_fast_two_sum f hs hl hle fh
  exact ⟨fh, h2, h1, h3⟩

/-- C104: `add(DoubleDouble, DoubleDouble)`.  High parts of the same sign, the larger one first, low parts below one unit of the high parts: the pair
returned is normalized (`hi` is the rounded value of the whole) and its value is the sum up to `5.2 u²`. -/
theorem C104_add (hF : 3 ≤ f.F) {a b : CC.Pair} (ah : f.Finite a.hi) (al : f.Finite a.lo) (bh : f.Finite b.hi) (bl : f.Finite b.lo)
    (hs : 0 ≤ f.val a.hi * f.val b.hi) (hab : |f.val b.hi| ≤ |f.val a.hi|) (hM : |f.val a.hi| ≤ f.maxFin / 4)
    (la : |f.val a.lo| ≤ |f.val a.hi| / 2 ^ f.F) (lb : |f.val b.lo| ≤ |f.val b.hi| / 2 ^ f.F) :
    f.Finite (CC.ddAdd f .nearest a b).hi ∧ f.Finite (CC.ddAdd f .nearest a b).lo ∧
      (∃ zs, f.RoundsTo .nearest zs (f.val (CC.ddAdd f .nearest a b).hi + f.val (CC.ddAdd f .nearest a b).lo) (CC.ddAdd f .nearest a b).hi) ∧
      |f.val (CC.ddAdd f .nearest a b).hi + f.val (CC.ddAdd f .nearest a b).lo - (f.val a.hi + f.val a.lo + (f.val b.hi + f.val b.lo))| ≤
        5.2 * unit104 f ^ 2 * |f.val a.hi + f.val b.hi| := by
  set u := unit104 f with hu
  have u0 : 0 < u := by rw [hu]; unfold unit104; positivity
  have u1 : u ≤ 1 / 16 := by
    rw [hu]; unfold unit104
    exact one_div_le_one_div_of_le (by norm_num) (le_trans (by norm_num) (pow_le_pow_right₀ (by norm_num : (1 : ℝ) ≤ 2) (show 4 ≤ f.F + 1 by omega)))
  have eu : ∀ t : ℝ, t / 2 ^ f.F = 2 * u * t := by
    intro t; rw [hu]; unfold unit104; rw [pow_succ]; field_simp
  rw [eu] at la lb
  have hS : |f.val a.hi + f.val b.hi| = |f.val a.hi| + |f.val b.hi| := by
    rcases mul_nonneg_iff.1 hs with ⟨h1, h2⟩ | ⟨h1, h2⟩
    · rw [abs_of_nonneg h1, abs_of_nonneg h2, abs_of_nonneg (by linarith)]
    · rw [abs_of_nonpos h1, abs_of_nonpos h2, abs_of_nonpos (by linarith)]; ring
  set S := |f.val a.hi + f.val b.hi| with hSd
  have S0 : 0 ≤ S := abs_nonneg _
  have hSM : S ≤ f.maxFin / 2 := by linarith
  have M0 : 0 ≤ f.maxFin := by linarith
  have uS : u * S ≤ 1 / 16 * S := mul_le_mul_of_nonneg_right u1 S0
  -- the high parts
  obtain ⟨fs, es⟩ := add_rel f (f.hadd_spec .nearest ah bh) (by linarith)
  obtain ⟨-, fr, er⟩ := C33_fast_two_sum f ah bh (.inl hab) fs
  set r := CC.exactAdd f .nearest a.hi b.hi with hr
  have es' : |f.val r.hi - (f.val a.hi + f.val b.hi)| ≤ u * S := es
  have rlo : |f.val r.lo| ≤ u * S := by
    rw [show f.val r.lo = -(f.val r.hi - (f.val a.hi + f.val b.hi)) by linarith, abs_neg]; exact es'
  -- the low parts
  have hlo : |f.val a.lo + f.val b.lo| ≤ 2 * (u * S) := by
    have := abs_add_le (f.val a.lo) (f.val b.lo)
    have e : 2 * (u * S) = 2 * u * |f.val a.hi| + 2 * u * |f.val b.hi| := by rw [hS]; ring
    linarith
  obtain ⟨fl, el⟩ := add_rel f (f.hadd_spec .nearest al bl) (by linarith)
  set l := f.hadd .nearest a.lo b.lo with hl
  have el' : |f.val l - (f.val a.lo + f.val b.lo)| ≤ 2 * (u * (u * S)) := by
    refine le_trans el ?_
    have := mul_le_mul_of_nonneg_left hlo u0.le
    linarith
  have uuS : u * (u * S) ≤ 1 / 16 * (u * S) := mul_le_mul_of_nonneg_right u1 (by positivity)
  have ll : |f.val l| ≤ 2 * (u * S) + 2 * (u * (u * S)) := by
    have := abs_add_le (f.val l - (f.val a.lo + f.val b.lo)) (f.val a.lo + f.val b.lo)
    rw [sub_add_cancel] at this
    linarith
  have hrl : |f.val r.lo + f.val l| ≤ 3 * (u * S) + 2 * (u * (u * S)) := by
    have := abs_add_le (f.val r.lo) (f.val l); linarith
  obtain ⟨fc, ec⟩ := add_rel f (f.hadd_spec .nearest fr fl) (by linarith)
  set c := f.hadd .nearest r.lo l with hc
  have ec' : |f.val c - (f.val r.lo + f.val l)| ≤ 3 * (u * (u * S)) + 2 * (u * (u * (u * S))) := by
    refine le_trans ec ?_
    have := mul_le_mul_of_nonneg_left hrl u0.le
    linarith
  have uuuS : u * (u * (u * S)) ≤ 1 / 16 * (u * (u * S)) := mul_le_mul_of_nonneg_right u1 (by positivity)
  have cc : |f.val c| ≤ S / 2 := by
    have := abs_add_le (f.val c - (f.val r.lo + f.val l)) (f.val r.lo + f.val l)
    rw [sub_add_cancel] at this
    linarith
  have rh : 3 / 4 * S ≤ |f.val r.hi| := by
    have := abs_sub_abs_le_abs_sub (f.val a.hi + f.val b.hi) (f.val r.hi)
    rw [abs_sub_comm] at this
    linarith
  have rh2 : |f.val r.hi| ≤ 5 / 4 * S := by
    have := abs_add_le (f.val r.hi - (f.val a.hi + f.val b.hi)) (f.val a.hi + f.val b.hi)
    rw [sub_add_cancel] at this
    linarith
  obtain ⟨g1, g2, ⟨zs, g3⟩, g4⟩ := dd_final f (s := r.hi) fs fc (.inl (by linarith : |f.val c| ≤ |f.val r.hi|)) (by
    have := abs_add_le (f.val r.hi) (f.val c); linarith)
  refine ⟨g1, g2, ⟨zs, ?_⟩, ?_⟩
  · have := g3; rw [← g4] at this; exact this
  · change |f.val (CC.exactAdd f .nearest r.hi c).hi + f.val (CC.exactAdd f .nearest r.hi c).lo - _| ≤ _
    rw [g4]
    have e : f.val r.hi + f.val c - (f.val a.hi + f.val a.lo + (f.val b.hi + f.val b.lo)) =
      (f.val c - (f.val r.lo + f.val l)) + (f.val l - (f.val a.lo + f.val b.lo)) := by linarith
    rw [e]
    refine le_trans (abs_add_le _ _) ?_
    have e2 : 5.2 * u ^ 2 * S = 5.2 * (u * (u * S)) := by ring
    rw [e2]
    have : 0 ≤ u * (u * S) := by positivity
    norm_num
    linarith

/-- C104: `add(DoubleDouble, double)`: the same with `3 u²` -/
theorem C104_add_double (hF : 3 ≤ f.F) {a : CC.Pair} {b : ℕ} (ah : f.Finite a.hi) (al : f.Finite a.lo) (bh : f.Finite b)
    (hs : 0 ≤ f.val a.hi * f.val b) (hab : |f.val b| ≤ |f.val a.hi|) (hM : |f.val a.hi| ≤ f.maxFin / 4) (la : |f.val a.lo| ≤ |f.val a.hi| / 2 ^ f.F) :
    f.Finite (CC.ddAddD f .nearest a b).hi ∧ f.Finite (CC.ddAddD f .nearest a b).lo ∧
      (∃ zs, f.RoundsTo .nearest zs (f.val (CC.ddAddD f .nearest a b).hi + f.val (CC.ddAddD f .nearest a b).lo) (CC.ddAddD f .nearest a b).hi) ∧
      |f.val (CC.ddAddD f .nearest a b).hi + f.val (CC.ddAddD f .nearest a b).lo - (f.val a.hi + f.val a.lo + f.val b)| ≤
        3 * unit104 f ^ 2 * |f.val a.hi + f.val b| := by
  set u := unit104 f with hu
  have u0 : 0 < u := by rw [hu]; unfold unit104; positivity
  have u1 : u ≤ 1 / 16 := by
    rw [hu]; unfold unit104
    exact one_div_le_one_div_of_le (by norm_num) (le_trans (by norm_num) (pow_le_pow_right₀ (by norm_num : (1 : ℝ) ≤ 2) (show 4 ≤ f.F + 1 by omega)))
  have eu : ∀ t : ℝ, t / 2 ^ f.F = 2 * u * t := by
    intro t; rw [hu]; unfold unit104; rw [pow_succ]; field_simp
  rw [eu] at la
  have hS : |f.val a.hi + f.val b| = |f.val a.hi| + |f.val b| := by
    rcases mul_nonneg_iff.1 hs with ⟨h1, h2⟩ | ⟨h1, h2⟩
    · rw [abs_of_nonneg h1, abs_of_nonneg h2, abs_of_nonneg (by linarith)]
    · rw [abs_of_nonpos h1, abs_of_nonpos h2, abs_of_nonpos (by linarith)]; ring
  set S := |f.val a.hi + f.val b| with hSd
  have S0 : 0 ≤ S := abs_nonneg _
  have b0 := abs_nonneg (f.val b)
  have hSM : S ≤ f.maxFin / 2 := by linarith
  have M0 : 0 ≤ f.maxFin := by linarith
  have uS : u * S ≤ 1 / 16 * S := mul_le_mul_of_nonneg_right u1 S0
  obtain ⟨fs, es⟩ := add_rel f (f.hadd_spec .nearest ah bh) (by linarith)
  obtain ⟨-, fr, er⟩ := C33_fast_two_sum f ah bh (.inl hab) fs
  set r := CC.exactAdd f .nearest a.hi b with hr
  have es' : |f.val r.hi - (f.val a.hi + f.val b)| ≤ u * S := es
  have rlo : |f.val r.lo| ≤ u * S := by
    rw [show f.val r.lo = -(f.val r.hi - (f.val a.hi + f.val b)) by linarith, abs_neg]; exact es'
  have hlo : |f.val a.lo| ≤ 2 * (u * S) := by
    have := mul_le_mul_of_nonneg_left (show |f.val a.hi| ≤ S by linarith) (show 0 ≤ 2 * u by linarith)
    linarith
  have uuS : u * (u * S) ≤ 1 / 16 * (u * S) := mul_le_mul_of_nonneg_right u1 (by positivity)
  have hrl : |f.val r.lo + f.val a.lo| ≤ 3 * (u * S) := by
    have := abs_add_le (f.val r.lo) (f.val a.lo); linarith
  obtain ⟨fc, ec⟩ := add_rel f (f.hadd_spec .nearest fr al) (by linarith)
  set c := f.hadd .nearest r.lo a.lo with hc
  have ec' : |f.val c - (f.val r.lo + f.val a.lo)| ≤ 3 * (u * (u * S)) := by
    refine le_trans ec ?_
    have := mul_le_mul_of_nonneg_left hrl u0.le
    linarith
  have cc : |f.val c| ≤ S / 2 := by
    have := abs_add_le (f.val c - (f.val r.lo + f.val a.lo)) (f.val r.lo + f.val a.lo)
    rw [sub_add_cancel] at this
    linarith
  have rh : 3 / 4 * S ≤ |f.val r.hi| := by
    have := abs_sub_abs_le_abs_sub (f.val a.hi + f.val b) (f.val r.hi)
    rw [abs_sub_comm] at this
    linarith
  have rh2 : |f.val r.hi| ≤ 5 / 4 * S := by
    have := abs_add_le (f.val r.hi - (f.val a.hi + f.val b)) (f.val a.hi + f.val b)
    rw [sub_add_cancel] at this
    linarith
  obtain ⟨g1, g2, ⟨zs, g3⟩, g4⟩ := dd_final f (s := r.hi) fs fc (.inl (by linarith : |f.val c| ≤ |f.val r.hi|)) (by
    have := abs_add_le (f.val r.hi) (f.val c); linarith)
  refine ⟨g1, g2, ⟨zs, ?_⟩, ?_⟩
  · have := g3; rw [← g4] at this; exact this
  · change |f.val (CC.exactAdd f .nearest r.hi c).hi + f.val (CC.exactAdd f .nearest r.hi c).lo - _| ≤ _
    rw [g4]
    have e : f.val r.hi + f.val c - (f.val a.hi + f.val a.lo + f.val b) = f.val c - (f.val r.lo + f.val a.lo) := by linarith
    rw [e]
    have e2 : 3 * u ^ 2 * S = 3 * (u * (u * S)) := by ring
    rw [e2]
    exact ec'

/-- 1 + 2^-54 and 1: the low part survives -/
example : CC.ddAddD binary64 .nearest { hi := 0x3FF0000000000000, lo := 0x3C90000000000000 } 0x3FF0000000000000 =
    { hi := 0x4000000000000000, lo := 0x3C90000000000000 } ∧
    CC.ddAdd binary64 .nearest { hi := 0x3FF0000000000000, lo := 0x3C90000000000000 } { hi := 0x3FF0000000000000, lo := 0x3C90000000000000 } =
    { hi := 0x4000000000000000, lo := 0x3CA0000000000000 } := by decide +kernel

/-- the hypotheses of `C104_add` hold for twice `1 + 2^-54` -/
example : |binary64.val (CC.ddAdd binary64 .nearest ⟨0x3C90000000000000, 0x3FF0000000000000⟩ ⟨0x3C90000000000000, 0x3FF0000000000000⟩).hi +
      binary64.val (CC.ddAdd binary64 .nearest ⟨0x3C90000000000000, 0x3FF0000000000000⟩ ⟨0x3C90000000000000, 0x3FF0000000000000⟩).lo -
      (binary64.val 0x3FF0000000000000 + binary64.val 0x3C90000000000000 + (binary64.val 0x3FF0000000000000 + binary64.val 0x3C90000000000000))| ≤
    5.2 * unit104 binary64 ^ 2 * |binary64.val 0x3FF0000000000000 + binary64.val 0x3FF0000000000000| := by
  have e1 := lit64 (x := 0x3FF0000000000000) false (2 ^ 52) 52 (by decide +kernel) (by decide +kernel) (by decide +kernel) (by decide +kernel)
  have e2 := lit64 (x := 0x3C90000000000000) false (2 ^ 52) 106 (by decide +kernel) (by decide +kernel) (by decide +kernel) (by decide +kernel)
  have f1 : binary64.Finite 0x3FF0000000000000 := by rw [finite_iff]; decide +kernel
  have f2 : binary64.Finite 0x3C90000000000000 := by rw [finite_iff]; decide +kernel
  have l : |binary64.val 0x3C90000000000000| ≤ |binary64.val 0x3FF0000000000000| / 2 ^ binary64.F := by
    rw [e1, e2, show binary64.F = 52 from rfl]; simp [sg]; norm_num
  have M : |binary64.val 0x3FF0000000000000| ≤ binary64.maxFin / 4 := by
    have : (4 : ℝ) ≤ binary64.maxFin :=
      le_trans (le_trans (by norm_num : (4 : ℝ) ≤ 2 ^ (2 : ℤ)) (zpow_le_zpow_right₀ (by norm_num) (by norm_num))) big_le
    have e : |binary64.val 0x3FF0000000000000| = 1 := by rw [e1]; norm_num [sg]
    rw [e]; linarith
  exact (C104_add binary64 (by decide) (a := ⟨0x3C90000000000000, 0x3FF0000000000000⟩) (b := ⟨0x3C90000000000000, 0x3FF0000000000000⟩)
    f1 f2 f1 f2 (mul_self_nonneg _) le_rfl M l l).2.2.2

/-- C104, finding: the documented assumption `|a.hi| ≥ |b.hi|` is not enough.  Both summands are normalized (adding `lo` to `hi` gives `hi` back)
and `|a.hi| > |b.hi|`, but the high parts have opposite signs: the result is zero, the sum is not. -/
theorem C104_cancel_wrong :
    ∃ a b : CC.Pair, binary64.hadd .nearest a.hi a.lo = a.hi ∧ binary64.hadd .nearest b.hi b.lo = b.hi ∧
      binary64.mag b.hi < binary64.mag a.hi ∧ CC.ddAdd binary64 .nearest a b = { hi := 0, lo := 0 } ∧
      binary64.val a.hi + binary64.val a.lo + (binary64.val b.hi + binary64.val b.lo) = 1 / 2 ^ 107 := by
  refine ⟨⟨0xBC90000000000000, 0x3FF0000000000000⟩, ⟨0xBC8FFFFFFFFFFFFF, 0xBFEFFFFFFFFFFFFF⟩, by decide +kernel, by decide +kernel,
    by decide +kernel, by decide +kernel, ?_⟩
  have e1 := lit64 (x := 0x3FF0000000000000) false (2 ^ 52) 52 (by decide +kernel) (by decide +kernel) (by decide +kernel) (by decide +kernel)
  have e2 := lit64 (x := 0xBC90000000000000) true (2 ^ 52) 106 (by decide +kernel) (by decide +kernel) (by decide +kernel) (by decide +kernel)
  have e3 := lit64 (x := 0xBFEFFFFFFFFFFFFF) true (2 ^ 53 - 1) 53 (by decide +kernel) (by decide +kernel) (by decide +kernel) (by decide +kernel)
  have e4 := lit64 (x := 0xBC8FFFFFFFFFFFFF) true (2 ^ 53 - 1) 107 (by decide +kernel) (by decide +kernel) (by decide +kernel) (by decide +kernel)
  rw [e1, e2, e3, e4]
  norm_num [sg]

end Verif
