import Mathlib.Data.Nat.Digits.Defs
import Verif.Model.NanHypot
import Verif.Lemmas.RelErr
import Verif.Props.Rem

/-!
# C23 (`nan`, `nanf`) and C24 (`hypot`)
-/

namespace Verif
open Fmt
variable (f : Fmt)

/-- `c` is the code of a character spelling the decimal digit `d`. -/
def DecChar (c d : ℕ) : Prop := d < 10 ∧ c = '0'.toNat + d

/-- `c` is the code of a character spelling the hexadecimal digit `d`. -/
def HexChar (c d : ℕ) : Prop :=
  (d < 10 ∧ c = '0'.toNat + d) ∨ (10 ≤ d ∧ d < 16 ∧ (c + 10 = 'a'.toNat + d ∨ c + 10 = 'A'.toNat + d))

/-- The number written by the digits `ds`, most significant first. -/
def written (base : ℕ) (ds : List ℕ) : ℕ := ds.foldl (fun n d => n * base + d) 0

theorem digitToInt_lt (c : ℕ) : CC.digitToInt c < 16 := by unfold CC.digitToInt; split_ifs <;> omega

theorem written_append (base : ℕ) (l : List ℕ) (d : ℕ) : written base (l ++ [d]) = written base l * base + d := by
  simp [written]

theorem written_lt {base : ℕ} : ∀ l : List ℕ, (∀ d ∈ l, d < base) → written base l < base ^ l.length := by
  intro l
  induction l using List.reverseRecOn with
  | nil => intro _; simp [written]
  | append_singleton l a ih =>
    intro h
    have h1 := ih fun d hd => h d (by simp [hd])
    have h2 := h a (by simp)
    rw [written_append, List.length_append, List.length_singleton, pow_succ]
    have h3 := Nat.mul_le_mul_right base h1
    rw [Nat.succ_mul] at h3
    omega

/-- The accumulation loop computes the number written, reduced modulo `md` once more than `lim` digits have been read. -/
theorem nanLoop_eq {W lim md base : ℕ} (hb : 0 < base) (hmd0 : 0 < md) (hlim : base ^ (lim + 1) ≤ 2 ^ W) (hW : base * md ≤ 2 ^ W) :
    ∀ (cs : List ℕ), (∀ c ∈ cs, CC.digitToInt c < base) → ∀ pre : List ℕ, (∀ d ∈ pre, d < base) →
      CC.nanLoop W lim md base pre.length (if pre.length ≤ lim then written base pre else written base pre % md) cs =
        if (pre ++ cs.map CC.digitToInt).length ≤ lim then written base (pre ++ cs.map CC.digitToInt)
        else written base (pre ++ cs.map CC.digitToInt) % md := by
  intro cs
  induction cs with
  | nil => intro _ pre _; simp [CC.nanLoop]
  | cons c cs ih =>
    intro hcs pre hpre
    have hc := hcs c (by simp)
    have step : ∀ acc, acc * base + CC.digitToInt c < 2 ^ W →
        (acc * base % 2 ^ W + CC.digitToInt c % 256) % 2 ^ W = acc * base + CC.digitToInt c := by
      intro acc h1
      have h256 : CC.digitToInt c % 256 = CC.digitToInt c := by
        apply Nat.mod_eq_of_lt; have := digitToInt_lt c; omega
      rw [Nat.mod_eq_of_lt (a := acc * base) (by omega), h256, Nat.mod_eq_of_lt h1]
    have hpre' : ∀ d ∈ pre ++ [CC.digitToInt c], d < base := by
      intro d hd; rcases List.mem_append.1 hd with h | h
      · exact hpre d h
      · rw [List.mem_singleton.1 h]; exact hc
    have ih' := ih (fun c h => hcs c (by simp [h])) (pre ++ [CC.digitToInt c]) hpre'
    have hval := written_append base pre (CC.digitToInt c)
    rw [List.append_assoc, List.singleton_append] at ih'
    rw [List.map_cons, ← ih']
    conv_lhs => unfold CC.nanLoop
    simp only [List.length_append, List.length_cons, List.length_nil, zero_add]
    congr 1
    by_cases h1 : pre.length ≤ lim
    · have hl : written base pre * base + CC.digitToInt c < 2 ^ W := by
        rw [← hval]
        refine lt_of_lt_of_le (written_lt _ hpre') (le_trans (Nat.pow_le_pow_right hb ?_) hlim)
        simp; omega
      rw [if_pos h1, step _ hl, hval]
      by_cases h2 : lim ≤ pre.length
      · rw [if_pos h2, if_neg (by omega)]
      · rw [if_neg h2, if_pos (by omega)]
    · have hl : written base pre % md * base + CC.digitToInt c < 2 ^ W := by
        have h2 := Nat.mul_le_mul_right base (Nat.mod_lt (written base pre) hmd0)
        rw [Nat.succ_mul, mul_comm md] at h2
        omega
      rw [if_neg h1, step _ hl, if_pos (by omega), if_neg (by omega), hval]
      conv_lhs => rw [Nat.add_mod, Nat.mul_mod, Nat.mod_mod, ← Nat.mul_mod, ← Nat.add_mod]

theorem qnan_testBit (i : ℕ) : f.qnan.testBit i = (decide (f.F - 1 ≤ i) && decide (i < f.E + f.F)) := by
  have hF := f.hF
  have h : f.qnan = (2 ^ (f.E + 1) - 1) <<< (f.F - 1) := by
    have h2 : 1 ≤ 2 ^ f.E := Nat.one_le_two_pow
    obtain ⟨k, hk⟩ : ∃ k, f.F = k + 1 := ⟨f.F - 1, by omega⟩
    unfold qnan
    rw [f.infMag_eq, Nat.shiftLeft_eq, hk, Nat.add_sub_cancel, pow_succ, pow_succ]
    have he := f.two_pow_E; have hb := f.two_bias
    rw [show 2 ^ f.E * 2 - 1 = 4 * f.bias + 3 by omega]; ring
  rw [h, Nat.testBit_shiftLeft, Nat.testBit_two_pow_sub_one]
  by_cases h1 : f.F - 1 ≤ i
  · simp only [h1, decide_true, Bool.true_and]; congr 1; apply propext; omega
  · simp [h1]

theorem or_qnan {v : ℕ} (hv : v < 2 ^ (f.E + f.F)) :
    IsQuietNaN f (v ||| f.qnan) ∧ f.sgn (v ||| f.qnan) = false ∧ (v ||| f.qnan) % 2 ^ (f.F - 1) = v % 2 ^ (f.F - 1) := by
  have hF := f.hF
  have hq := f.qnan_mag
  have hql : f.qnan < 2 ^ (f.E + f.F) := by rw [← hq.1]; exact f.mag_lt _
  have hlt := Nat.or_lt_two_pow hv hql
  have hmag : f.mag (v ||| f.qnan) = v ||| f.qnan := Nat.mod_eq_of_lt hlt
  have hle : f.qnan ≤ v ||| f.qnan := Nat.right_le_or
  refine ⟨⟨(f.isNaN_iff _).2 ⟨?_, by rw [hmag]; omega⟩, ?_⟩, ?_, ?_⟩
  · unfold Valid; rw [pow_succ]; omega
  · unfold frac
    rw [Nat.testBit_mod_two_pow, Nat.testBit_or, qnan_testBit]; simp; omega
  · unfold sgn
    simp; exact hlt
  · apply Nat.eq_of_testBit_eq
    intro i
    rw [Nat.testBit_mod_two_pow, Nat.testBit_mod_two_pow, Nat.testBit_or, qnan_testBit]
    by_cases h : i < f.F - 1
    · simp [h, show ¬ f.F - 1 ≤ i by omega]
    · simp [h]

theorem nanParse_quiet {W lim md : ℕ} (hmd0 : 0 < md) (hlim : 16 ^ (lim + 1) ≤ 2 ^ W) (hW : 16 * md ≤ 2 ^ W)
    (h1 : 16 ^ lim ≤ 2 ^ (f.E + f.F)) (h2 : md ≤ 2 ^ (f.E + f.F)) (s : List ℕ) :
    IsQuietNaN f (CC.nanParse f W lim md s) ∧ f.sgn (CC.nanParse f W lim md s) = false := by
  have hq : IsQuietNaN f f.qnan ∧ f.sgn f.qnan = false := by
    have := or_qnan f (v := 0) (by positivity)
    rw [Nat.zero_or] at this; exact ⟨this.1, this.2.1⟩
  have key : ∀ base, 0 < base → base ≤ 16 → ∀ t : List ℕ, (∀ c ∈ t, CC.digitToInt c < base) →
      IsQuietNaN f (CC.nanLoop W lim md base 0 0 t ||| f.qnan) ∧ f.sgn (CC.nanLoop W lim md base 0 0 t ||| f.qnan) = false := by
    intro base hb0 hb t ht
    have h := nanLoop_eq (lim := lim) hb0 hmd0 (le_trans (Nat.pow_le_pow_left hb _) hlim) (le_trans (Nat.mul_le_mul_right _ hb) hW) t ht [] (by simp)
    have h' : CC.nanLoop W lim md base 0 0 t < 2 ^ (f.E + f.F) := by
      simp only [List.length_nil, Nat.zero_le, if_true, List.nil_append, written, List.foldl_nil] at h
      rw [h]
      split_ifs with hl
      · refine lt_of_lt_of_le (written_lt (base := base) _ (by simpa using ht)) ?_
        exact le_trans (le_trans (Nat.pow_le_pow_right hb0 hl) (Nat.pow_le_pow_left hb _)) h1
      · exact lt_of_lt_of_le (Nat.mod_lt _ hmd0) h2
    have := or_qnan f h'
    exact ⟨this.1, this.2.1⟩
  unfold CC.nanParse
  split
  · exact key 16 (by norm_num) le_rfl _ fun c _ => digitToInt_lt c
  · exact key 16 (by norm_num) le_rfl _ fun c _ => digitToInt_lt c
  · split_ifs with h
    · exact hq
    · refine key 10 (by norm_num) (by norm_num) _ fun c hc => ?_
      simp only [List.any_eq_true, not_exists, not_and, Bool.or_eq_true, decide_eq_true_eq] at h
      have := h c hc
      unfold CC.digitToInt; split_ifs <;> omega

/-- C23: `nan(tag)` is a quiet NaN with a clear sign bit for every tag, the null pointer included. -/
theorem C23_nan_quiet (s : Option (List ℕ)) : ∃ r, CC.nan s = some r ∧ IsQuietNaN binary64 r ∧ binary64.sgn r = false := by
  have hq : IsQuietNaN binary64 binary64.qnan ∧ binary64.sgn binary64.qnan = false := by
    have := or_qnan binary64 (v := 0) (by positivity)
    rw [Nat.zero_or] at this; exact ⟨this.1, this.2.1⟩
  unfold CC.nan
  split
  · exact ⟨_, rfl, hq⟩
  · exact ⟨_, rfl, hq⟩
  · exact ⟨_, rfl, nanParse_quiet binary64 (by norm_num) (by norm_num) (by norm_num) (by decide +kernel) (by decide +kernel) _⟩

example : CC.nan (some ['0'.toNat, 'x'.toNat, 'f'.toNat, 'F'.toNat]) = some 0x7ff80000000000ff := by decide +kernel

/-- C23: `nanf(tag)` is a quiet NaN with a clear sign bit for every tag string. -/
theorem C23_nanf_quiet (s : List ℕ) : ∃ r, CC.nanf (some s) = some r ∧ IsQuietNaN binary32 r ∧ binary32.sgn r = false :=
  ⟨_, rfl, nanParse_quiet binary32 (by norm_num) (by norm_num) (by norm_num) (by decide +kernel) (by decide +kernel) _⟩

example : CC.nanf (some ['1'.toNat, '2'.toNat]) = some 0x7fc0000c := by decide +kernel

/-- C23: unlike `nan`, `nanf` dereferences a null pointer. -/
theorem C23_nanf_null : CC.nanf none = none := rfl

theorem forall₂_map {R : ℕ → ℕ → Prop} (h : ∀ c d, R c d → CC.digitToInt c = d) :
    ∀ {s ds : List ℕ}, List.Forall₂ R s ds → s.map CC.digitToInt = ds
  | _, _, .nil => rfl
  | _, _, .cons h1 h2 => by rw [List.map_cons, h _ _ h1, forall₂_map h h2]

theorem DecChar.digit {c d : ℕ} (h : DecChar c d) : CC.digitToInt c = d ∧ 48 ≤ c ∧ c ≤ 57 := by
  obtain ⟨h1, h2⟩ := h
  have h0 : '0'.toNat = 48 := rfl
  unfold CC.digitToInt
  rw [if_pos (by omega)]; omega

theorem HexChar.digit {c d : ℕ} (h : HexChar c d) : CC.digitToInt c = d ∧ d < 16 := by
  have h0 : '0'.toNat = 48 := rfl
  have h1 : 'a'.toNat = 97 := rfl
  have h2 : 'A'.toNat = 65 := rfl
  unfold HexChar at h; unfold CC.digitToInt
  split_ifs <;> omega

theorem nanParse_dec {W lim md : ℕ} (hmd0 : 0 < md) (hlim : 10 ^ (lim + 1) ≤ 2 ^ W) (hW : 10 * md ≤ 2 ^ W) (h1 : 10 ^ lim ≤ 2 ^ (f.E + f.F))
    (h2 : md ≤ 2 ^ (f.E + f.F)) {s ds : List ℕ} (hs : List.Forall₂ DecChar s ds) :
    CC.nanParse f W lim md s % 2 ^ (f.F - 1) = (if ds.length ≤ lim then written 10 ds else written 10 ds % md) % 2 ^ (f.F - 1) := by
  have hc : ∀ c ∈ s, 48 ≤ c ∧ c ≤ 57 ∧ CC.digitToInt c < 10 := by
    clear hmd0 hlim hW h1 h2
    induction hs with
    | nil => simp
    | cons h _ ih =>
      intro c hc
      rcases List.mem_cons.1 hc with rfl | hc
      · have := h.digit; have := h.1; omega
      · exact ih c hc
  have hm := forall₂_map (fun c d h => (DecChar.digit h).1) hs
  have hp : CC.nanParse f W lim md s = CC.nanLoop W lim md 10 0 0 s ||| f.qnan := by
    unfold CC.nanParse
    split
    · have := hc 120 (by simp); omega
    · have := hc 88 (by simp); omega
    · rw [if_neg]
      simp only [List.any_eq_true, not_exists, not_and, Bool.or_eq_true, decide_eq_true_eq]
      intro c h; have := hc c h; omega
  have h := nanLoop_eq (lim := lim) (by norm_num) hmd0 hlim hW s (fun c h => (hc c h).2.2) [] (by simp)
  simp only [List.length_nil, Nat.zero_le, if_true, List.nil_append, hm] at h
  rw [show written 10 [] = 0 from rfl] at h
  have hlt : CC.nanLoop W lim md 10 0 0 s < 2 ^ (f.E + f.F) := by
    rw [h]; split_ifs with hl
    · refine lt_of_lt_of_le (written_lt _ ?_) (le_trans (Nat.pow_le_pow_right (by norm_num) hl) h1)
      intro d hd; rw [← hm] at hd
      obtain ⟨c, hc', rfl⟩ := List.mem_map.1 hd
      exact (hc c hc').2.2
    · exact lt_of_lt_of_le (Nat.mod_lt _ hmd0) h2
  rw [hp, (or_qnan f hlt).2.2, h]

theorem nanParse_hex {W lim md : ℕ} (hmd0 : 0 < md) (hlim : 16 ^ (lim + 1) ≤ 2 ^ W) (hW : 16 * md ≤ 2 ^ W) (h1 : 16 ^ lim ≤ 2 ^ (f.E + f.F))
    (h2 : md ≤ 2 ^ (f.E + f.F)) {x : ℕ} (hx : x = 'x'.toNat ∨ x = 'X'.toNat) {s ds : List ℕ} (hs : List.Forall₂ HexChar s ds) :
    CC.nanParse f W lim md ('0'.toNat :: x :: s) % 2 ^ (f.F - 1) =
      (if ds.length ≤ lim then written 16 ds else written 16 ds % md) % 2 ^ (f.F - 1) := by
  have hm := forall₂_map (fun c d h => (HexChar.digit h).1) hs
  have hp : CC.nanParse f W lim md ('0'.toNat :: x :: s) = CC.nanLoop W lim md 16 0 0 s ||| f.qnan := by
    rcases hx with rfl | rfl <;> rfl
  have h := nanLoop_eq (lim := lim) (by norm_num) hmd0 hlim hW s (fun c _ => digitToInt_lt c) [] (by simp)
  simp only [List.length_nil, Nat.zero_le, if_true, List.nil_append, hm] at h
  rw [show written 16 [] = 0 from rfl] at h
  have hlt : CC.nanLoop W lim md 16 0 0 s < 2 ^ (f.E + f.F) := by
    rw [h]; split_ifs with hl
    · refine lt_of_lt_of_le (written_lt _ ?_) (le_trans (Nat.pow_le_pow_right (by norm_num) hl) h1)
      intro d hd; rw [← hm] at hd
      obtain ⟨c, hc', rfl⟩ := List.mem_map.1 hd
      exact digitToInt_lt c
    · exact lt_of_lt_of_le (Nat.mod_lt _ hmd0) h2
  rw [hp, (or_qnan f hlt).2.2, h]

/-- C23, payload of a decimal tag.  Missing: tags of more than 15 (7) digits are first reduced modulo `10^18` (`10^8`), and a
leading `0` does not select octal (see `C23_nan_payload_wrong`). -/
theorem C23_nan_decimal_partial {s ds : List ℕ} (hs : List.Forall₂ DecChar s ds) :
    (∃ r, CC.nan (some s) = some r ∧ r % 2 ^ 51 = (if ds.length ≤ 15 then written 10 ds else written 10 ds % 10 ^ 18) % 2 ^ 51) ∧
    (∃ r, CC.nanf (some s) = some r ∧ r % 2 ^ 22 = (if ds.length ≤ 7 then written 10 ds else written 10 ds % 10 ^ 8) % 2 ^ 22) := by
  refine ⟨?_, _, rfl, nanParse_dec binary32 (by norm_num) (by norm_num) (by norm_num) (by decide +kernel) (by decide +kernel) hs⟩
  cases hs with
  | nil => exact ⟨_, rfl, by decide +kernel⟩
  | cons h hs =>
    exact ⟨_, rfl, nanParse_dec binary64 (by norm_num) (by norm_num) (by norm_num) (by decide +kernel) (by decide +kernel) (.cons h hs)⟩

example : List.Forall₂ DecChar ['4'.toNat, '2'.toNat] [4, 2] := by simp [DecChar]

/-- C23, payload of a hexadecimal tag.  Missing: tags of more than 15 (7) digits are first reduced modulo `10^18` (`10^8`). -/
theorem C23_nan_hex_partial {x : ℕ} (hx : x = 'x'.toNat ∨ x = 'X'.toNat) {s ds : List ℕ} (hs : List.Forall₂ HexChar s ds) :
    (∃ r, CC.nan (some ('0'.toNat :: x :: s)) = some r ∧
      r % 2 ^ 51 = (if ds.length ≤ 15 then written 16 ds else written 16 ds % 10 ^ 18) % 2 ^ 51) ∧
    (∃ r, CC.nanf (some ('0'.toNat :: x :: s)) = some r ∧
      r % 2 ^ 22 = (if ds.length ≤ 7 then written 16 ds else written 16 ds % 10 ^ 8) % 2 ^ 22) :=
  ⟨⟨_, rfl, nanParse_hex binary64 (by norm_num) (by norm_num) (by norm_num) (by decide +kernel) (by decide +kernel) hx hs⟩,
   ⟨_, rfl, nanParse_hex binary32 (by norm_num) (by norm_num) (by norm_num) (by decide +kernel) (by decide +kernel) hx hs⟩⟩

example : List.Forall₂ HexChar ['a'.toNat, 'F'.toNat, '9'.toNat] [10, 15, 9] := by simp [HexChar]

/-- C23, negation: the payload of a long tag is not the tag modulo the payload width, and an octal tag is read as decimal. -/
theorem C23_nan_payload_wrong :
    (∃ s ds : List ℕ, List.Forall₂ HexChar s ds ∧ ∃ r, CC.nan (some ('0'.toNat :: 'x'.toNat :: s)) = some r ∧ r % 2 ^ 51 ≠ written 16 ds % 2 ^ 51) ∧
    (∃ r, CC.nan (some ("010".toList.map Char.toNat)) = some r ∧ r % 2 ^ 51 ≠ written 8 [1, 0]) := by
  refine ⟨⟨'1'.toNat :: List.replicate 15 '0'.toNat, 1 :: List.replicate 15 0, ?_, _, rfl, by decide +kernel⟩, _, rfl, by decide +kernel⟩
  simp [HexChar, List.replicate]

/-! ## C24: hypot -/

/-- three halves is a value of every format with `2 ≤ bias` -/
theorem exists_three_halves (hw : 2 ≤ f.bias) : ∃ b, f.Finite b ∧ f.val b = 3 / 2 := by
  have hF := f.hF
  have hu := f.uscale_minSub
  have hlt : 3 * 2 ^ (f.bias + f.F - 2) < f.umag f.infMag := by
    rw [f.umag_infMag, ← pow_add, add_comm f.F]
    have h1 : 2 ^ (f.bias + f.F - 2) * 4 = 2 ^ (f.bias + f.F) := by
      rw [show (4 : ℕ) = 2 ^ 2 from rfl, ← pow_add]; congr 1; omega
    have h2 : 2 ^ (f.bias + f.F) ≤ 2 ^ (2 * f.bias + f.F) := Nat.pow_le_pow_right (by norm_num) (by omega)
    have h3 : 0 < 2 ^ (f.bias + f.F - 2) := by positivity
    omega
  obtain ⟨b, h1, h2, _⟩ := f.exists_exact false (a := 3) (k := f.bias + f.F - 2) (by rw [pow_succ]; have : 2 ^ 1 ≤ 2 ^ f.F := Nat.pow_le_pow_right (by norm_num) hF; omega) hlt
  refine ⟨b, h1, ?_⟩
  rw [h2, sg_false, one_mul]
  have : f.uscale = 2 ^ (f.bias + f.F - 2) * 2 := by
    unfold uscale; rw [← pow_succ]; congr 1; omega
  rw [this] at hu
  push_cast at hu ⊢
  linarith

theorem hypot_finite_eq {m : Mode} {x y : ℕ} (hx : f.Finite x) (hy : f.Finite y) :
    CC.hypot f m x y = if f.mag x = 0 ∧ f.mag y = 0 then f.zero false
      else CC.hypotCore f m (max (f.mag x) (f.mag y)) (min (f.mag x) (f.mag y)) := by
  obtain ⟨nx, ix⟩ := f.finite_B hx
  obtain ⟨ny, iy⟩ := f.finite_B hy
  unfold CC.hypot
  simp only [CC.isinf_eq, CC.isnan_eq, nx, ny, ix, iy, Bool.or_self, Bool.false_eq_true, if_false, CC.abs_eq f hx.valid, CC.abs_eq f hy.valid,
    CC.heq_zero, zeroB, CC.mag_mag, hgt, hlt, CC.nanB_mag, CC.key_mag, Bool.not_false, Bool.true_and, Bool.and_eq_true, decide_eq_true_eq, Nat.cast_lt]
  split_ifs with h1 h2
  · rfl
  · rw [max_eq_right (by omega), min_eq_left (by omega)]
  · rw [max_eq_left (by omega), min_eq_right (by omega)]

theorem hypotCore_spec (hE : 3 ≤ f.E) (hb : f.F + 2 ≤ f.bias) (m : Mode) {a b : ℕ} (ha : f.Finite a) (hbf : f.Finite b) (h0 : 0 < f.val a)
    (hb0 : 0 ≤ f.val b) (hle : f.val b ≤ f.val a) (sb : f.sgn b = false) :
    ∃ r q t s z, f.Finite r ∧ f.Finite q ∧ f.Finite t ∧ f.Finite s ∧
      0 ≤ f.val r ∧ f.val r ≤ 1 ∧ 0 ≤ f.val q ∧ f.val q ≤ 1 ∧ 1 ≤ f.val t ∧ f.val t ≤ 2 ∧ 1 ≤ f.val s ∧ f.val s ≤ 3 / 2 ∧
      f.RoundsTo m false (f.val b / f.val a) r ∧ f.RoundsTo m false (f.val r * f.val r) q ∧ f.RoundsTo m z (1 + f.val q) t ∧
      f.RoundsTo m false (Real.sqrt (f.val t)) s ∧ f.RoundsTo m false (f.val a * f.val s) (CC.hypotCore f m a b) := by
  have hF := f.hF
  have sa := sgn_of_pos f h0
  obtain ⟨o1, o2, o3⟩ := CC.one_val f false
  obtain ⟨w1, w2, w3⟩ := CC.two_val f ⟨by omega, by omega⟩ false
  obtain ⟨c, c1, c2⟩ := exists_three_halves f (by omega)
  rw [sg_false, one_mul, Nat.cast_one] at o2
  rw [sg_false, one_mul, Nat.cast_ofNat] at w2
  have z1 := f.finite_zero false
  have z2 := f.val_zero false
  have hr := f.hdiv_spec m hbf ha h0.ne'
  rw [sa, sb, Bool.xor_self] at hr
  obtain ⟨r1, r2, r3⟩ := RoundsTo.between hr z1 o1 (by rw [z2]; positivity) (by rw [o2, div_le_one h0]; exact hle)
  rw [z2] at r2; rw [o2] at r3
  have hq := f.hmul_spec m r1 r1
  rw [Bool.xor_self] at hq
  obtain ⟨q1, q2, q3⟩ := RoundsTo.between hq z1 o1 (by rw [z2]; positivity) (by rw [o2]; nlinarith)
  rw [z2] at q2; rw [o2] at q3
  have ht := f.hadd_spec m o1 q1
  rw [o2] at ht
  obtain ⟨t1, t2, t3⟩ := RoundsTo.between ht o1 w1 (by rw [o2]; linarith) (by rw [w2]; linarith)
  rw [o2] at t2; rw [w2] at t3
  have hs := C19_sqrt f hE hb m t1 (by linarith)
  rw [sgn_of_pos f (by linarith : 0 < f.val _)] at hs
  obtain ⟨s1, s2, s3⟩ := RoundsTo.between hs o1 c1 (by rw [o2]; exact Real.one_le_sqrt.2 t2)
    (by rw [c2]; apply Real.sqrt_le_iff.2; constructor <;> linarith)
  rw [o2] at s2; rw [c2] at s3
  have hp := f.hmul_spec m ha s1
  rw [sa, sgn_of_pos f (by linarith : 0 < f.val _), Bool.xor_self] at hp
  exact ⟨_, _, _, _, _, r1, q1, t1, s1, r2, r3, q2, q3, t2, t3, s2, s3, hr, hq, ht, hs, hp⟩

theorem hypot_nan_eq {m : Mode} {x y : ℕ} (ix : f.infB x = false) (iy : f.infB y = false) (h : f.nanB x = true ∨ f.nanB y = true) :
    CC.hypot f m x y = f.qnan := by
  have hq : f.hadd m x y = f.qnan := by unfold hadd; rcases h with h | h <;> simp [h]
  unfold CC.hypot
  simp only [CC.isinf_eq, CC.isnan_eq, ix, iy, Bool.or_self, Bool.false_eq_true, if_false, hq]
  rcases h with h | h <;> simp [h]

theorem hypot_inf_eq {m : Mode} {x y : ℕ} (h : f.infB x = true ∨ f.infB y = true) : CC.hypot f m x y = f.inf false := by
  unfold CC.hypot
  rw [CC.isinf_eq, CC.isinf_eq, if_pos (by simpa using h), FPBits.inf_eq]

/-- C24: `hypot` is symmetric and does not depend on the signs (`mag` clears the sign bit), for every pair of bit patterns and every
rounding mode. -/
theorem C24_hypot_symmetric (m : Mode) {x y : ℕ} (hx : f.Valid x) (hy : f.Valid y) :
    CC.hypot f m x y = CC.hypot f m y x ∧ CC.hypot f m x y = CC.hypot f m (f.mag x) (f.mag y) := by
  have im : ∀ x, f.infB (f.mag x) = f.infB x := fun x => by unfold infB; rw [CC.mag_mag]
  by_cases hi : f.infB x = true ∨ f.infB y = true
  · rw [hypot_inf_eq f hi, hypot_inf_eq f hi.symm, hypot_inf_eq f (by rw [im, im]; exact hi)]; exact ⟨rfl, rfl⟩
  simp only [not_or, Bool.not_eq_true] at hi
  by_cases hn : f.nanB x = true ∨ f.nanB y = true
  · rw [hypot_nan_eq f hi.1 hi.2 hn, hypot_nan_eq f hi.2 hi.1 hn.symm,
      hypot_nan_eq f (by rw [im]; exact hi.1) (by rw [im]; exact hi.2) (by rw [CC.nanB_mag, CC.nanB_mag]; exact hn)]
    exact ⟨rfl, rfl⟩
  simp only [not_or, Bool.not_eq_true] at hn
  have fx := f.finite_of_B hx hn.1 hi.1
  have fy := f.finite_of_B hy hn.2 hi.2
  have fx' := f.finite_of_B (CC.valid_mag f x) (by rw [CC.nanB_mag]; exact hn.1) (by rw [im]; exact hi.1)
  have fy' := f.finite_of_B (CC.valid_mag f y) (by rw [CC.nanB_mag]; exact hn.2) (by rw [im]; exact hi.2)
  rw [hypot_finite_eq f fx fy, hypot_finite_eq f fy fx, hypot_finite_eq f fx' fy', CC.mag_mag, CC.mag_mag]
  exact ⟨by simp only [and_comm, max_comm, min_comm], rfl⟩

example : CC.hypot binary64 .nearest 0xc010000000000000 0x4008000000000000 = 0x4014000000000000 := by decide +kernel -- hypot(-4,3)=5

/-- C24: an infinite argument gives `+∞` even if the other is a NaN; otherwise a NaN argument gives a NaN. -/
theorem C24_hypot_special (m : Mode) {x y : ℕ} (hx : f.Valid x) (hy : f.Valid y) :
    (f.IsInf x ∨ f.IsInf y → CC.hypot f m x y = f.inf false) ∧
    (¬ f.IsInf x → ¬ f.IsInf y → f.IsNaN x ∨ f.IsNaN y → f.IsNaN (CC.hypot f m x y)) := by
  rw [← f.infB_iff hx, ← f.infB_iff hy, ← f.nanB_iff hx, ← f.nanB_iff hy]
  refine ⟨fun h => hypot_inf_eq f h, fun h1 h2 h3 => ?_⟩
  rw [hypot_nan_eq f (by simpa using h1) (by simpa using h2) h3]; exact f.isNaN_qnan

example : binary32.IsInf 0xff800000 ∧ binary32.IsNaN 0x7fc00001 := by
  rw [isNaN_iff, isInf_iff]; decide +kernel

/-- The larger and the smaller magnitude of two finite arguments. -/
theorem hypot_args {x y : ℕ} (hx : f.Finite x) (hy : f.Finite y) (h0 : ¬ (f.mag x = 0 ∧ f.mag y = 0)) :
    f.Finite (max (f.mag x) (f.mag y)) ∧ f.Finite (min (f.mag x) (f.mag y)) ∧ 0 < f.val (max (f.mag x) (f.mag y)) ∧
    0 ≤ f.val (min (f.mag x) (f.mag y)) ∧ f.val (min (f.mag x) (f.mag y)) ≤ f.val (max (f.mag x) (f.mag y)) ∧
    f.sgn (min (f.mag x) (f.mag y)) = false ∧
    f.val (max (f.mag x) (f.mag y)) ^ 2 + f.val (min (f.mag x) (f.mag y)) ^ 2 = f.val x ^ 2 + f.val y ^ 2 := by
  have fm : ∀ {x}, f.Finite x → f.Finite (f.mag x) := fun {x} h => by
    rw [finite_iff] at h ⊢; rw [CC.mag_mag]; exact ⟨CC.valid_mag f x, h.2⟩
  set a := max (f.mag x) (f.mag y) with ha
  set b := min (f.mag x) (f.mag y) with hbd
  have fa : f.Finite a := by rw [ha]; rcases max_choice (f.mag x) (f.mag y) with h | h <;> rw [h] <;> exact fm ‹_›
  have fb : f.Finite b := by rw [hbd]; rcases min_choice (f.mag x) (f.mag y) with h | h <;> rw [h] <;> exact fm ‹_›
  have ma : f.mag a = a := by rw [ha]; rcases max_choice (f.mag x) (f.mag y) with h | h <;> rw [h] <;> exact CC.mag_mag f _
  have mb : f.mag b = b := by rw [hbd]; rcases min_choice (f.mag x) (f.mag y) with h | h <;> rw [h] <;> exact CC.mag_mag f _
  have va : f.val a = |f.val a| := by conv_lhs => rw [← ma, CC.val_mag]
  have vb : f.val b = |f.val b| := by conv_lhs => rw [← mb, CC.val_mag]
  have mono : ∀ {p q : ℕ}, f.mag p ≤ f.mag q → |f.val p| ≤ |f.val q| := by
    intro p q h
    rw [← CC.val_mag, ← CC.val_mag, f.val_le_iff_key, CC.key_mag, CC.key_mag]; exact_mod_cast h
  have hle : f.val b ≤ f.val a := by rw [va, vb]; apply mono; rw [ma, mb]; exact min_le_max
  have hpos : 0 < f.val a := by
    rw [va, abs_pos, Ne, f.val_eq_zero_iff, ma]; omega
  have hmax : f.val a = max |f.val x| (|f.val y|) := by
    rw [ha]; rcases le_total (f.mag x) (f.mag y) with h | h
    · rw [max_eq_right h, CC.val_mag, max_eq_right (mono h)]
    · rw [max_eq_left h, CC.val_mag, max_eq_left (mono h)]
  have sb : f.sgn b = false := by rw [← mb]; exact CC.sgn_mag f b
  have hb0 : 0 ≤ f.val b := by rw [vb]; positivity
  refine ⟨fa, fb, hpos, hb0, hle, sb, ?_⟩
  rw [ha, hbd]
  rcases le_total (f.mag x) (f.mag y) with h | h
  · rw [max_eq_right h, min_eq_left h, CC.val_mag, CC.val_mag, sq_abs, sq_abs, add_comm]
  · rw [max_eq_left h, min_eq_right h, CC.val_mag, CC.val_mag, sq_abs, sq_abs]

/-- C24: for finite arguments the result is not a NaN, has a clear sign, is not below either magnitude, is at most any format value that
is at least one and a half times the larger magnitude, and `hypot(x, ±0) = |x|` exactly. -/
theorem C24_hypot_bounds (hE : 3 ≤ f.E) (hb : f.F + 2 ≤ f.bias) (m : Mode) {x y : ℕ} (hx : f.Finite x) (hy : f.Finite y) :
    f.Valid (CC.hypot f m x y) ∧ ¬ f.IsNaN (CC.hypot f m x y) ∧ f.sgn (CC.hypot f m x y) = false ∧
    ((max |f.val x| (|f.val y|) : ℝ) : EReal) ≤ f.xval (CC.hypot f m x y) ∧
    (∀ c, f.Finite c → 3 / 2 * max |f.val x| (|f.val y|) ≤ f.val c → f.xval (CC.hypot f m x y) ≤ (f.val c : ℝ)) ∧
    (f.val y = 0 → CC.hypot f m x y = f.mag x) := by
  have fm : ∀ {x}, f.Finite x → f.Finite (f.mag x) := fun {x} h => by
    rw [finite_iff] at h ⊢; rw [CC.mag_mag]; exact ⟨CC.valid_mag f x, h.2⟩
  rw [hypot_finite_eq f hx hy]
  split_ifs with h0
  · have hx0 := (f.val_eq_zero_iff x).2 h0.1
    have hy0 := (f.val_eq_zero_iff y).2 h0.2
    rw [hx0, hy0, f.xval_of_finite (f.finite_zero _), f.val_zero, h0.1]
    refine ⟨f.valid_zero _, ?_, f.sgn_zero _, by simp, ?_, fun _ => CC.pack_false f 0⟩
    · have := f.finite_B (f.finite_zero false)
      rw [← f.nanB_iff (f.valid_zero _), this.1]; simp
    · intro c _ h; rw [abs_zero, max_self, mul_zero] at h; exact_mod_cast h
  · -- the larger magnitude `a`, the smaller `b`
    set a := max (f.mag x) (f.mag y) with ha
    set b := min (f.mag x) (f.mag y) with hbd
    have fa : f.Finite a := by rw [ha]; rcases max_choice (f.mag x) (f.mag y) with h | h <;> rw [h] <;> exact fm ‹_›
    have fb : f.Finite b := by rw [hbd]; rcases min_choice (f.mag x) (f.mag y) with h | h <;> rw [h] <;> exact fm ‹_›
    have ma : f.mag a = a := by rw [ha]; rcases max_choice (f.mag x) (f.mag y) with h | h <;> rw [h] <;> exact CC.mag_mag f _
    have mb : f.mag b = b := by rw [hbd]; rcases min_choice (f.mag x) (f.mag y) with h | h <;> rw [h] <;> exact CC.mag_mag f _
    have va : f.val a = |f.val a| := by conv_lhs => rw [← ma, CC.val_mag]
    have vb : f.val b = |f.val b| := by conv_lhs => rw [← mb, CC.val_mag]
    have mono : ∀ {p q : ℕ}, f.mag p ≤ f.mag q → |f.val p| ≤ |f.val q| := by
      intro p q h
      rw [← CC.val_mag, ← CC.val_mag, f.val_le_iff_key, CC.key_mag, CC.key_mag]; exact_mod_cast h
    have hle : f.val b ≤ f.val a := by rw [va, vb]; apply mono; rw [ma, mb]; exact min_le_max
    have hpos : 0 < f.val a := by
      rw [va, abs_pos, Ne, f.val_eq_zero_iff, ma]; omega
    have hmax : f.val a = max |f.val x| (|f.val y|) := by
      rw [ha]; rcases le_total (f.mag x) (f.mag y) with h | h
      · rw [max_eq_right h, CC.val_mag, max_eq_right (mono h)]
      · rw [max_eq_left h, CC.val_mag, max_eq_left (mono h)]
    have sb : f.sgn b = false := by rw [← mb]; exact CC.sgn_mag f b
    have hb0 : 0 ≤ f.val b := by rw [vb]; positivity
    obtain ⟨r, q, t, s, z, r1, q1, t1, s1, r2, r3, q2, q3, t2, t3, s2, s3, hr, hq, ht, hs, hp⟩ :=
      hypotCore_spec f hE hb m fa fb hpos hb0 hle sb
    rw [← hmax, ← f.xval_of_finite fa]
    refine ⟨hp.valid, RoundsTo.not_nan f hp, ?_, RoundsTo.ge_of hp fa (by nlinarith), ?_, ?_⟩
    · rw [hp.sign, if_neg (by nlinarith)]; simp; nlinarith
    · intro c hc h
      rw [← f.xval_of_finite hc]
      exact RoundsTo.le_of hp hc (by nlinarith)
    · intro hy0
      have hb' : f.val b = 0 := by
        rw [f.val_eq_zero_iff, mb, hbd, (f.val_eq_zero_iff y).1 hy0, Nat.min_zero]
      have ha' : a = f.mag x := by rw [ha, (f.val_eq_zero_iff y).1 hy0, Nat.max_zero]
      obtain ⟨o1, o2, o3⟩ := CC.one_val f false
      rw [sg_false, one_mul, Nat.cast_one] at o2
      rw [hb', zero_div] at hr
      have hr' := (RoundsTo.exact f (f.finite_zero false) (f.val_zero false) hr).2
      rw [hr', zero_mul] at hq
      have hq' := (RoundsTo.exact f (f.finite_zero false) (f.val_zero false) hq).2
      rw [hq', add_zero] at ht
      have ht' := (RoundsTo.exact f o1 o2 ht).2
      rw [ht', Real.sqrt_one] at hs
      have hs' := (RoundsTo.exact f o1 o2 hs).2
      rw [hs', mul_one] at hp
      rw [← ha']
      exact RoundsTo.exact_eq f fa hp fun h => absurd h hpos.ne'

example : CC.hypot binary64 .up 0x7fe0000000000000 0x0000000000000001 = 0x7fe0000000000001 := by decide +kernel

/-- C24: the three-argument form is the nested two-argument form, so it is not below any of the three magnitudes either. -/
theorem C24_hypot3_bounds (hE : 3 ≤ f.E) (hb : f.F + 2 ≤ f.bias) (m : Mode) {x y z : ℕ} (hx : f.Finite x) (hy : f.Finite y) (hz : f.Finite z) :
    ¬ f.IsNaN (CC.hypot3 f m x y z) ∧ ((|f.val x| : ℝ) : EReal) ≤ f.xval (CC.hypot3 f m x y z) ∧
    ((|f.val y| : ℝ) : EReal) ≤ f.xval (CC.hypot3 f m x y z) ∧ ((|f.val z| : ℝ) : EReal) ≤ f.xval (CC.hypot3 f m x y z) := by
  obtain ⟨hv, hn, hs, hge, -, -⟩ := C24_hypot_bounds f hE hb m hx hy
  have hx' : ((|f.val x| : ℝ) : EReal) ≤ f.xval (CC.hypot f m x y) := le_trans (EReal.coe_le_coe_iff.2 (le_max_left _ _)) hge
  have hy' : ((|f.val y| : ℝ) : EReal) ≤ f.xval (CC.hypot f m x y) := le_trans (EReal.coe_le_coe_iff.2 (le_max_right _ _)) hge
  unfold CC.hypot3
  rcases f.not_nan_cases hv hn with hf | hi
  · obtain ⟨hv2, hn2, hs2, hge2, -, -⟩ := C24_hypot_bounds f hE hb m hf hz
    rw [f.xval_of_finite hf] at hx' hy'
    have hh : ((f.val (CC.hypot f m x y) : ℝ) : EReal) ≤ f.xval (CC.hypot f m (CC.hypot f m x y) z) :=
      le_trans (EReal.coe_le_coe_iff.2 (le_trans (le_abs_self _) (le_max_left _ _))) hge2
    exact ⟨hn2, le_trans hx' hh, le_trans hy' hh, le_trans (EReal.coe_le_coe_iff.2 (le_max_right _ _)) hge2⟩
  · rw [(C24_hypot_special f m hv hz.valid).1 (Or.inl hi), f.xval_inf]
    refine ⟨?_, le_top, le_top, le_top⟩
    rw [isNaN_iff, (f.isInf_iff _).1 (f.isInf_inf false) |>.2]; simp

example : CC.hypot3 binary64 .nearest 0x3ff0000000000000 0x4000000000000000 0x4000000000000000 = 0x4008000000000000 := by
  decide +kernel -- hypot(1,2,2) = 3 although sqrt 5 is rounded on the way

/-! ## C51: accuracy of hypot -/

theorem gapBound_le {v B : ℝ} (h1 : |v| ≤ B) (hB : (1 : ℝ) ≤ B) : f.gapBound v ≤ (2 : ℝ) ^ (-(f.F : ℤ)) * B := by
  have hu : (0 : ℝ) < (2 : ℝ) ^ (-(f.F : ℤ)) := zpow_pos (by norm_num) _
  refine max_le (mul_le_mul_of_nonneg_left h1 hu.le) ?_
  have : f.minSub ≤ (2 : ℝ) ^ (-(f.F : ℤ)) := by
    unfold minSub; apply zpow_le_zpow_right₀ (by norm_num); have := f.bias_pos; omega
  nlinarith

theorem one_le_maxFin : (2 : ℝ) ≤ f.maxFin ∨ f.bias < 2 := by
  by_cases h : f.bias < 2
  · exact Or.inr h
  left
  have h2 : (2 : ℝ) ^ (-(f.F : ℤ)) ≤ 1 := by
    apply zpow_le_one_of_nonpos₀ (by norm_num); omega
  have h3 : (2 : ℝ) ^ (1 : ℤ) ≤ (2 : ℝ) ^ (f.bias : ℤ) := zpow_le_zpow_right₀ (by norm_num) (by omega)
  unfold maxFin
  rw [zpow_one] at h3
  nlinarith

theorem hypotCore_err {m : Mode} {A B r q t s p : ℕ} {z : Bool} (hbias : 2 ≤ f.bias) (h0 : 0 < f.val A) (hb0 : 0 ≤ f.val B) (hle : f.val B ≤ f.val A)
    (r2 : 0 ≤ f.val r) (r3 : f.val r ≤ 1) (q2 : 0 ≤ f.val q) (q3 : f.val q ≤ 1) (t2 : 1 ≤ f.val t) (t3 : f.val t ≤ 2) (s2 : 1 ≤ f.val s)
    (s3 : f.val s ≤ 3 / 2)
    (hr : f.RoundsTo m false (f.val B / f.val A) r) (hq : f.RoundsTo m false (f.val r * f.val r) q) (ht : f.RoundsTo m z (1 + f.val q) t)
    (hs : f.RoundsTo m false (Real.sqrt (f.val t)) s) (hp : f.RoundsTo m false (f.val A * f.val s) p)
    (hmax : Real.sqrt (f.val A ^ 2 + f.val B ^ 2) * (1 + 4 * (2 : ℝ) ^ (-(f.F : ℤ))) ≤ f.maxFin) :
    |f.val p - Real.sqrt (f.val A ^ 2 + f.val B ^ 2)| ≤ 6 * (2 : ℝ) ^ (-(f.F : ℤ)) * Real.sqrt (f.val A ^ 2 + f.val B ^ 2) + f.minSub := by
  have hM : (2 : ℝ) ≤ f.maxFin := (one_le_maxFin f).resolve_right (by omega)
  have hu : (0 : ℝ) < (2 : ℝ) ^ (-(f.F : ℤ)) := zpow_pos (by norm_num) _
  set u := (2 : ℝ) ^ (-(f.F : ℤ)) with hud
  set ρ := f.val B / f.val A with hρ
  have hρ0 : 0 ≤ ρ := by positivity
  have hρ1 : ρ ≤ 1 := by rw [hρ, div_le_one h0]; exact hle
  have e1 := RoundsTo.err hr (by rw [abs_of_nonneg hρ0]; linarith)
  have g1 := gapBound_le f (v := ρ) (B := 1) (by rw [abs_of_nonneg hρ0]; exact hρ1) le_rfl
  have hrr : f.val r * f.val r ≤ 1 := by nlinarith
  have e2 := RoundsTo.err hq (by rw [abs_of_nonneg (by positivity)]; linarith)
  have g2 := gapBound_le f (v := f.val r * f.val r) (B := 1) (by rw [abs_of_nonneg (by positivity)]; exact hrr) le_rfl
  have e3 := RoundsTo.err ht (by rw [abs_of_nonneg (by positivity)]; linarith)
  have g3 := gapBound_le f (v := 1 + f.val q) (B := 2) (by rw [abs_of_nonneg (by positivity)]; linarith) (by norm_num)
  have hst : 1 ≤ Real.sqrt (f.val t) := Real.one_le_sqrt.2 t2
  have hst2 : Real.sqrt (f.val t) ≤ 3 / 2 := by apply Real.sqrt_le_iff.2; constructor <;> linarith
  have e4 := RoundsTo.err hs (by rw [abs_of_nonneg (by positivity)]; linarith)
  have g4 := gapBound_le f (v := Real.sqrt (f.val t)) (B := 3 / 2) (by rw [abs_of_nonneg (by positivity)]; linarith) (by norm_num)
  have e1' := abs_le.1 (le_trans e1 g1)
  have e2' := abs_le.1 (le_trans e2 g2)
  have e3' := abs_le.1 (le_trans e3 g3)
  have e4' := abs_le.1 (le_trans e4 g4)
  -- the exact radicand
  set T := 1 + ρ ^ 2 with hT
  have hT1 : 1 ≤ T := by rw [hT]; nlinarith
  have hsT : 1 ≤ Real.sqrt T := Real.one_le_sqrt.2 hT1
  have hH : Real.sqrt (f.val A ^ 2 + f.val B ^ 2) = f.val A * Real.sqrt T := by
    have : f.val A ^ 2 + f.val B ^ 2 = f.val A ^ 2 * T := by rw [hT, hρ]; field_simp
    rw [this, Real.sqrt_mul (by positivity), Real.sqrt_sq h0.le]
  have hd : |f.val t - T| ≤ 5 * u := by
    have hrρ : |f.val r * f.val r - ρ ^ 2| ≤ 2 * u := by
      have : f.val r * f.val r - ρ ^ 2 = (f.val r - ρ) * (f.val r + ρ) := by ring
      rw [this, abs_mul, abs_of_nonneg (by positivity : 0 ≤ f.val r + ρ)]
      have h1 : |f.val r - ρ| ≤ u := by linarith [le_trans e1 g1]
      nlinarith [abs_nonneg (f.val r - ρ)]
    have := abs_le.1 hrρ
    rw [abs_le]; constructor <;> linarith
  have hsd : |Real.sqrt (f.val t) - Real.sqrt T| ≤ 5 / 2 * u := by
    have h1 : (Real.sqrt (f.val t) - Real.sqrt T) * (Real.sqrt (f.val t) + Real.sqrt T) = f.val t - T := by
      have a1 := Real.mul_self_sqrt (by linarith : 0 ≤ f.val t)
      have a2 := Real.mul_self_sqrt (by linarith : 0 ≤ T)
      linear_combination a1 - a2
    rw [← h1, abs_mul, abs_of_nonneg (by positivity : 0 ≤ Real.sqrt (f.val t) + Real.sqrt T)] at hd
    nlinarith [abs_nonneg (Real.sqrt (f.val t) - Real.sqrt T)]
  have hsd' := abs_le.1 hsd
  have hsT4 : |f.val s - Real.sqrt T| ≤ 4 * u := by rw [abs_le]; constructor <;> linarith
  have hsT4' := abs_le.1 hsT4
  rw [hH] at hmax ⊢
  have has : f.val A * f.val s ≤ f.val A * Real.sqrt T * (1 + 4 * u) := by
    have : f.val s ≤ Real.sqrt T * (1 + 4 * u) := by
      have := mul_le_mul_of_nonneg_left hsT hu.le
      linarith
    calc f.val A * f.val s ≤ f.val A * (Real.sqrt T * (1 + 4 * u)) := mul_le_mul_of_nonneg_left this h0.le
      _ = _ := by ring
  have hap : 0 ≤ f.val A * f.val s := by positivity
  have e5 := RoundsTo.err hp (by rw [abs_of_nonneg hap]; linarith)
  have g5 : f.gapBound (f.val A * f.val s) ≤ u * (f.val A * f.val s) + f.minSub := by
    unfold gapBound; rw [abs_of_nonneg hap]
    have := mul_nonneg hu.le hap
    exact max_le (by linarith [f.minSub_pos]) (by linarith)
  have e5' := abs_le.1 (le_trans e5 g5)
  have hA : f.val A ≤ f.val A * Real.sqrt T := le_mul_of_one_le_right h0.le hsT
  have h6 : |f.val A * f.val s - f.val A * Real.sqrt T| ≤ f.val A * (4 * u) := by
    rw [← mul_sub, abs_mul, abs_of_pos h0]; exact mul_le_mul_of_nonneg_left hsT4 h0.le
  have h6' := abs_le.1 h6
  have h7 : u * (f.val A * f.val s) ≤ 3 / 2 * u * f.val A := by
    have : f.val A * f.val s ≤ f.val A * (3 / 2) := mul_le_mul_of_nonneg_left s3 h0.le
    have := mul_le_mul_of_nonneg_left this hu.le
    linarith
  have h8 : u * f.val A ≤ u * (f.val A * Real.sqrt T) := mul_le_mul_of_nonneg_left hA hu.le
  rw [abs_le]; constructor <;> linarith

/-- C51: in every rounding mode, unless the true length (enlarged by the error) overflows, the result differs from `√(x²+y²)` by at most
`6·2^-F` of it plus one least subnormal; in particular the intermediate quotient, square and sum neither overflow nor lose accuracy. -/
theorem C51_hypot_error (hE : 3 ≤ f.E) (hb : f.F + 2 ≤ f.bias) (m : Mode) {x y : ℕ} (hx : f.Finite x) (hy : f.Finite y)
    (hmax : Real.sqrt (f.val x ^ 2 + f.val y ^ 2) * (1 + 4 * (2 : ℝ) ^ (-(f.F : ℤ))) ≤ f.maxFin) :
    |f.val (CC.hypot f m x y) - Real.sqrt (f.val x ^ 2 + f.val y ^ 2)| ≤
      6 * (2 : ℝ) ^ (-(f.F : ℤ)) * Real.sqrt (f.val x ^ 2 + f.val y ^ 2) + f.minSub := by
  rw [hypot_finite_eq f hx hy]
  split_ifs with h0
  · have hx0 := (f.val_eq_zero_iff x).2 h0.1
    have hy0 := (f.val_eq_zero_iff y).2 h0.2
    rw [hx0, hy0, f.val_zero]; simpa using f.minSub_pos.le
  · obtain ⟨fa, fb, hpos, hb0, hle, sb, hsq⟩ := hypot_args f hx hy h0
    obtain ⟨r, q, t, s, z, r1, q1, t1, s1, r2, r3, q2, q3, t2, t3, s2, s3, hr, hq, ht, hs, hp⟩ :=
      hypotCore_spec f hE hb m fa fb hpos hb0 hle sb
    rw [← hsq] at hmax ⊢
    exact hypotCore_err f (by omega) hpos hb0 hle r2 r3 q2 q3 t2 t3 s2 s3 hr hq ht hs hp hmax

example : Real.sqrt (binary64.val (CC.oneLit binary64 true) ^ 2 + binary64.val (CC.oneLit binary64 false) ^ 2) *
    (1 + 4 * (2 : ℝ) ^ (-(binary64.F : ℤ))) ≤ binary64.maxFin := by
  rw [CC.val_one, CC.val_one, sg_true, sg_false]
  have h1 := (one_le_maxFin binary64).resolve_right (by decide)
  have h2 : (2 : ℝ) ^ (-(binary64.F : ℤ)) ≤ 1 / 16 := by
    rw [show binary64.F = 52 from rfl, zpow_neg]; norm_num
  have h3 : Real.sqrt ((-1) ^ 2 + 1 ^ 2) ≤ 3 / 2 := by apply Real.sqrt_le_iff.2; norm_num
  have h4 : Real.sqrt ((-1) ^ 2 + 1 ^ 2) * (1 + 4 * (2 : ℝ) ^ (-(binary64.F : ℤ))) ≤ 3 / 2 * (5 / 4) :=
    mul_le_mul h3 (by linarith) (by positivity) (by norm_num)
  exact le_trans h4 (le_trans (by norm_num) h1)

end Verif
