import Verif.Model.Trig
import Verif.Lemmas.PiBits
import Verif.Lemmas.Dyadic5

/-!
# Lemmas for the Payne-Hanek reduction
-/

namespace Verif
open Fmt

/-- the stored digits as one integer: `⌊2^2048 (8/π - 2)⌋` by the next theorem -/
def fracTable : ℕ := CC.frac8OverPi.foldl (fun a w => a * 2 ^ 64 + w) 0

/-- lower bound for `2^2112 π / 4` -/
def piLo : ℤ := 4 * atanFix (2 ^ 2112) 5 456 - atanFix (2 ^ 2112) 239 134 - 2000
/-- upper bound for `2^2112 π / 4` -/
def piHi : ℤ := 4 * atanFix (2 ^ 2112) 5 456 - atanFix (2 ^ 2112) 239 134 + 2000

theorem pi_bounds_2112 : 4 * (piLo : ℝ) ≤ ((2 ^ 2112 : ℕ) : ℝ) * Real.pi ∧ ((2 ^ 2112 : ℕ) : ℝ) * Real.pi ≤ 4 * piHi := by
  refine pi_bounds (2 ^ 2112) 456 134 piLo piHi (by decide +kernel) (by decide +kernel) ?_ ?_
  · unfold piLo; push_cast; generalize atanFix (2 ^ 2112) 5 456 = a; generalize atanFix (2 ^ 2112) 239 134 = b; omega
  · unfold piHi; push_cast; generalize atanFix (2 ^ 2112) 5 456 = a; generalize atanFix (2 ^ 2112) 239 134 = b; omega

theorem table_check : ((2 ^ 2049 + fracTable : ℕ) : ℤ) * piHi ≤ 2 ^ 2112 * 2 ^ 2049 ∧ (2 : ℤ) ^ 2112 * 2 ^ 2049 < ((2 ^ 2049 + fracTable + 1 : ℕ) : ℤ) * piLo ∧ 0 < piLo := by
  decide +kernel

theorem table_aux (D M : ℝ) (T : ℕ) (lo hi : ℤ) (hD : 0 < D) (h1 : 4 * (lo : ℝ) ≤ D * Real.pi) (h2 : D * Real.pi ≤ 4 * hi)
    (h3 : (2 * M + T) * hi ≤ D * (2 * M)) (h4 : D * (2 * M) < (2 * M + T + 1) * lo) (hM : 0 < M) :
    (T : ℝ) / M ≤ 8 / Real.pi - 2 ∧ 8 / Real.pi - 2 < (T + 1) / M := by
  have hp := Real.pi_pos
  have e : 8 / Real.pi - 2 = (8 - 2 * Real.pi) / Real.pi := by field_simp
  rw [e, div_le_div_iff₀ hM hp, div_lt_div_iff₀ hp hM]
  have hT : (0 : ℝ) ≤ T := Nat.cast_nonneg T
  constructor
  · have a1 : D * ((2 * M + T) * Real.pi) ≤ D * (8 * M) := by
      have := mul_le_mul_of_nonneg_left h2 (by positivity : 0 ≤ 2 * M + (T : ℝ))
      linarith
    have := le_of_mul_le_mul_left a1 hD
    linarith
  · have a1 : D * (8 * M) < D * ((2 * M + T + 1) * Real.pi) := by
      have := mul_le_mul_of_nonneg_left h1 (by positivity : 0 ≤ 2 * M + (T : ℝ) + 1)
      linarith
    have := lt_of_mul_lt_mul_left a1 hD.le
    linarith

/-- The table holds the first 2048 bits of the fraction of `8/π`. -/
theorem table_spec : (fracTable : ℝ) / 2 ^ 2048 ≤ 8 / Real.pi - 2 ∧ 8 / Real.pi - 2 < (fracTable + 1) / 2 ^ 2048 := by
  obtain ⟨a, b⟩ := pi_bounds_2112
  obtain ⟨c, d, -⟩ := table_check
  have c' : ((2 ^ 2049 + fracTable : ℕ) : ℝ) * piHi ≤ 2 ^ 2112 * 2 ^ 2049 := by exact_mod_cast c
  have d' : (2 : ℝ) ^ 2112 * 2 ^ 2049 < ((2 ^ 2049 + fracTable + 1 : ℕ) : ℝ) * piLo := by exact_mod_cast d
  have e : (2 : ℝ) ^ 2049 = 2 * 2 ^ 2048 := by rw [← pow_succ']
  rw [Nat.cast_add, Nat.cast_pow, Nat.cast_ofNat, e] at c'
  rw [Nat.cast_add, Nat.cast_add, Nat.cast_pow, Nat.cast_ofNat, Nat.cast_one, e] at d'
  rw [Nat.cast_pow, Nat.cast_ofNat] at a b
  exact table_aux (2 ^ 2112) (2 ^ 2048) fracTable piLo piHi (by positivity) a b c' d' (by positivity)

/-- value of the accumulator -/
def accVal (l : List ℕ) : ℕ := Nat.ofDigits (2 ^ 64) l

theorem accVal_cons (a : ℕ) (l : List ℕ) : accVal (a :: l) = a + 2 ^ 64 * accVal l := by simp [accVal, Nat.ofDigits_cons]

theorem pow_step (X w : ℕ) : 2 ^ (X * (w + 1)) = 2 ^ X * 2 ^ (X * w) := by rw [mul_add, mul_one, pow_add, mul_comm]

theorem addAtWord_spec : ∀ (l : List ℕ) (v w : ℕ), (∀ a ∈ l, a < 2 ^ 64) → v < 2 ^ 64 →
    (CC.addAtWord l v w).length = l.length ∧ (∀ a ∈ CC.addAtWord l v w, a < 2 ^ 64) ∧
      accVal (CC.addAtWord l v w) ≡ accVal l + v * 2 ^ (64 * w) [MOD 2 ^ (64 * l.length)] := by
  intro l
  induction l with
  | nil => intro v w _ _; simp [CC.addAtWord, accVal, Nat.modEq_one]
  | cons a as ih =>
    intro v w hl hv
    have ha := hl a (by simp)
    have has : ∀ b ∈ as, b < 2 ^ 64 := fun b hb => hl b (by simp [hb])
    have e64 : 2 ^ (64 * (as.length + 1)) = 2 ^ 64 * 2 ^ (64 * as.length) := pow_step 64 _
    cases w with
    | zero =>
      unfold CC.addAtWord
      by_cases h0 : v = 0
      · rw [if_pos h0, h0]; exact ⟨rfl, hl, by simp; rfl⟩
      · rw [if_neg h0]
        set n := (a + v) % 2 ^ 64 with hn
        set c := if n < a then 1 else 0 with hc
        have hc1 : c < 2 ^ 64 := by rw [hc]; split_ifs <;> norm_num
        obtain ⟨i1, i2, i3⟩ := ih c 0 has hc1
        have hcar : n + 2 ^ 64 * c = a + v := by rw [hc, hn]; split_ifs <;> omega
        show (n :: CC.addAtWord as c 0).length = (a :: as).length ∧ (∀ b ∈ n :: CC.addAtWord as c 0, b < 2 ^ 64) ∧ accVal (n :: CC.addAtWord as c 0) ≡ _ [MOD _]
        refine ⟨by simp [i1], ?_, ?_⟩
        · intro b hb
          rcases List.mem_cons.1 hb with h | h
          · rw [h, hn]; exact Nat.mod_lt _ (by positivity)
          · exact i2 b h
        · simp only [List.length_cons, e64]
          have h3 := (Nat.ModEq.mul_left' (2 ^ 64) i3).add_left n
          simp only [accVal_cons]
          have h4 : n + 2 ^ 64 * (accVal as + c * 2 ^ (64 * 0)) = a + 2 ^ 64 * accVal as + v * 2 ^ (64 * 0) := by
            rw [mul_zero, pow_zero, mul_one, mul_one]; omega
          rw [h4] at h3; exact h3
    | succ w =>
      unfold CC.addAtWord
      obtain ⟨i1, i2, i3⟩ := ih v w has hv
      refine ⟨by simp [i1], ?_, ?_⟩
      · intro b hb
        rcases List.mem_cons.1 hb with h | h
        · rw [h]; exact ha
        · exact i2 b h
      · simp only [List.length_cons, e64]
        have h3 := (Nat.ModEq.mul_left' (2 ^ 64) i3).add_left a
        simp only [accVal_cons]
        have : 2 ^ (64 * (w + 1)) = 2 ^ 64 * 2 ^ (64 * w) := pow_step 64 w
        have h4 : a + 2 ^ 64 * (accVal as + v * 2 ^ (64 * w)) = a + 2 ^ 64 * accVal as + v * 2 ^ (64 * (w + 1)) := by
          rewrite [this]; generalize 2 ^ (64 * w) = Y; generalize 2 ^ 64 = X; ring
        rw [h4] at h3; exact h3

/-- the words of an accumulator -/
def AccOk (l : List ℕ) : Prop := l.length = 4 ∧ ∀ a ∈ l, a < 2 ^ 64

theorem addAtWord_acc {l : List ℕ} (hl : AccOk l) {v : ℕ} (hv : v < 2 ^ 64) (w : ℕ) :
    AccOk (CC.addAtWord l v w) ∧ accVal (CC.addAtWord l v w) ≡ accVal l + v * 2 ^ (64 * w) [MOD 2 ^ 256] := by
  obtain ⟨h1, h2, h3⟩ := addAtWord_spec l v w hl.2 hv
  rw [hl.1] at h1 h3
  exact ⟨⟨h1, h2⟩, h3⟩

theorem shiftl_split (w off : ℕ) (hoff : off < 64) : w <<< off = (w <<< off) % 2 ^ 64 + 2 ^ 64 * (w >>> (64 - off)) := by
  rw [Nat.shiftLeft_eq, Nat.shiftRight_eq_div_pow]
  have e : 2 ^ 64 = 2 ^ (64 - off) * 2 ^ off := by rw [← pow_add]; congr 1; omega
  have : w * 2 ^ off / 2 ^ 64 = w / 2 ^ (64 - off) := by
    rw [e]; exact Nat.mul_div_mul_right _ _ (by positivity)
  rw [← this]; exact (Nat.mod_add_div _ _).symm

theorem addWordAt_nonneg {l : List ℕ} (hl : AccOk l) {w : ℕ} (hw : w < 2 ^ 64) (b : ℕ) :
    AccOk (CC.addWordAt l w b) ∧ accVal (CC.addWordAt l w b) ≡ accVal l + w * 2 ^ b [MOD 2 ^ 256] := by
  unfold CC.addWordAt
  have hb0 : ¬ ((b : ℤ) < 0) := by omega
  simp only [hb0, false_and, if_false]
  by_cases h0 : w = 0
  · rw [if_pos h0, h0]; exact ⟨hl, by simp; rfl⟩
  · rw [if_neg h0, if_neg h0]
    by_cases h1 : (b : ℤ) ≥ 256
    · rw [if_pos h1]
      refine ⟨hl, ?_⟩
      have h2 : w * 2 ^ b ≡ 0 [MOD 2 ^ 256] := by
        rw [Nat.modEq_zero_iff_dvd]; exact Dvd.dvd.mul_left (pow_dvd_pow 2 (by omega)) _
      simpa using (h2.add_left (accVal l)).symm
    · rw [if_neg h1]
      simp only [Int.toNat_natCast]
      have hoff : b &&& 63 = b % 64 := Nat.and_two_pow_sub_one_eq_mod b 6
      have hword : b >>> 6 = b / 64 := by rw [Nat.shiftRight_eq_div_pow]
      rw [hoff, hword]
      have hlow : (w <<< (b % 64)) % 2 ^ 64 < 2 ^ 64 := Nat.mod_lt _ (by positivity)
      obtain ⟨k1, k2⟩ := addAtWord_acc hl hlow (b / 64)
      have hhigh : (if b % 64 ≠ 0 then w >>> (64 - b % 64) else 0) = w >>> (64 - b % 64) := by
        by_cases h : b % 64 ≠ 0
        · rw [if_pos h]
        · push Not at h
          rw [if_neg (by simp [h]), h, Nat.shiftRight_eq_div_pow, Nat.div_eq_of_lt hw]
      rw [hhigh]
      have hsp := shiftl_split w (b % 64) (Nat.mod_lt _ (by norm_num))
      have htot : w * 2 ^ b = (w <<< (b % 64)) % 2 ^ 64 * 2 ^ (64 * (b / 64)) + (w >>> (64 - b % 64)) * 2 ^ (64 * (b / 64 + 1)) := by
        have e1 : 2 ^ b = 2 ^ (b % 64) * 2 ^ (64 * (b / 64)) := by rw [← pow_add]; congr 1; omega
        have e2 : 2 ^ (64 * (b / 64 + 1)) = 2 ^ 64 * 2 ^ (64 * (b / 64)) := by rw [← pow_add]; congr 1; ring
        calc w * 2 ^ b = (w <<< (b % 64)) * 2 ^ (64 * (b / 64)) := by rw [Nat.shiftLeft_eq, e1]; ring
          _ = ((w <<< (b % 64)) % 2 ^ 64 + 2 ^ 64 * (w >>> (64 - b % 64))) * 2 ^ (64 * (b / 64)) := by rw [← hsp]
          _ = _ := by rw [e2]; ring
      have hhi : w >>> (64 - b % 64) < 2 ^ 64 := lt_of_le_of_lt (by rw [Nat.shiftRight_eq_div_pow]; exact Nat.div_le_self _ _) hw
      by_cases h2 : w >>> (64 - b % 64) ≠ 0 ∧ b / 64 + 1 < 4
      · rw [if_pos h2]
        obtain ⟨k3, k4⟩ := addAtWord_acc k1 hhi (b / 64 + 1)
        refine ⟨k3, k4.trans ?_⟩
        rw [htot, ← add_assoc]; exact k2.add_right _
      · rw [if_neg h2]
        refine ⟨k1, k2.trans ?_⟩
        rw [htot, ← add_assoc]
        have hz : (w >>> (64 - b % 64)) * 2 ^ (64 * (b / 64 + 1)) ≡ 0 [MOD 2 ^ 256] := by
          by_cases h3 : w >>> (64 - b % 64) = 0
          · rw [h3, zero_mul]
          · have h4 : 4 ≤ b / 64 + 1 := by by_contra hc; exact h2 ⟨h3, by omega⟩
            rw [Nat.modEq_zero_iff_dvd]
            exact Dvd.dvd.mul_left (pow_dvd_pow 2 (by omega)) _
        simpa using (hz.add_left (accVal l + (w <<< (b % 64)) % 2 ^ 64 * 2 ^ (64 * (b / 64)))).symm

/-- `add_word_at` adds `⌊w 2^b⌋` modulo `2^256`. -/
theorem addWordAt_neg {l : List ℕ} (hl : AccOk l) {w : ℕ} (hw : w < 2 ^ 64) (s : ℕ) :
    AccOk (CC.addWordAt l w (-(s : ℤ))) ∧ accVal (CC.addWordAt l w (-(s : ℤ))) ≡ accVal l + w / 2 ^ s [MOD 2 ^ 256] := by
  rcases Nat.eq_zero_or_pos s with h | h
  · have := addWordAt_nonneg hl hw 0
    rw [h]; simpa using this
  by_cases h0 : w = 0
  · unfold CC.addWordAt; rw [if_pos h0, h0]; exact ⟨hl, by simp; rfl⟩
  by_cases h1 : s ≥ 64
  · unfold CC.addWordAt
    rw [if_neg h0, if_pos (by omega)]
    have : w / 2 ^ s = 0 := Nat.div_eq_of_lt (lt_of_lt_of_le hw (Nat.pow_le_pow_right (by norm_num) h1))
    rw [this]; exact ⟨hl, rfl⟩
  · have hlt : w / 2 ^ s < 2 ^ 64 := lt_of_le_of_lt (Nat.div_le_self _ _) hw
    have key : CC.addWordAt l w (-(s : ℤ)) = CC.addWordAt l (w / 2 ^ s) ((0 : ℕ) : ℤ) := by
      unfold CC.addWordAt
      have c1 : ¬ (-(s : ℤ) < 0 ∧ - -(s : ℤ) ≥ 64) := by omega
      have c2 : -(s : ℤ) < 0 := by omega
      have c3 : (- -(s : ℤ)).toNat = s := by omega
      rw [if_neg h0, if_neg c1]
      simp only [c2, if_true, c3, Nat.shiftRight_eq_div_pow]
      by_cases h2 : w / 2 ^ s = 0
      · rw [if_pos h2, if_pos h2]
      · simp [h2]
    rw [key]
    simpa using addWordAt_nonneg hl hlt 0

theorem mul64_spec {a b : ℕ} (ha : a < 2 ^ 64) (hb : b < 2 ^ 64) :
    (CC.mul64 a b).1 * 2 ^ 64 + (CC.mul64 a b).2 = a * b ∧ (CC.mul64 a b).1 < 2 ^ 64 ∧ (CC.mul64 a b).2 < 2 ^ 64 := by
  unfold CC.mul64
  have hm : ∀ n : ℕ, n &&& 0xffffffff = n % 2 ^ 32 := fun n => Nat.and_two_pow_sub_one_eq_mod n 32
  simp only [hm, Nat.shiftRight_eq_div_pow, Nat.shiftLeft_eq]
  have h1 : a % 2 ^ 32 < 2 ^ 32 := Nat.mod_lt _ (by norm_num)
  have h2 : b % 2 ^ 32 < 2 ^ 32 := Nat.mod_lt _ (by norm_num)
  have h3 : a / 2 ^ 32 < 2 ^ 32 := by omega
  have h4 : b / 2 ^ 32 < 2 ^ 32 := by omega
  have ea : a = a / 2 ^ 32 * 2 ^ 32 + a % 2 ^ 32 := by omega
  have eb : b = b / 2 ^ 32 * 2 ^ 32 + b % 2 ^ 32 := by omega
  have hprod : a * b = (a / 2 ^ 32) * (b / 2 ^ 32) * 2 ^ 64 + (a % 2 ^ 32 * (b / 2 ^ 32) + a / 2 ^ 32 * (b % 2 ^ 32)) * 2 ^ 32 + a % 2 ^ 32 * (b % 2 ^ 32) := by
    conv_lhs => rw [ea, eb]
    ring
  rw [hprod]
  have bnd : ∀ u v : ℕ, u < 2 ^ 32 → v < 2 ^ 32 → u * v ≤ (2 ^ 32 - 1) * (2 ^ 32 - 1) := fun u v hu hv => Nat.mul_le_mul (by omega) (by omega)
  have b1 := bnd _ _ h1 h2
  have b2 := bnd _ _ h1 h4
  have b3 := bnd _ _ h3 h2
  have b4 := bnd _ _ h3 h4
  generalize a % 2 ^ 32 * (b % 2 ^ 32) = ll at *
  generalize a % 2 ^ 32 * (b / 2 ^ 32) = lh at *
  generalize a / 2 ^ 32 * (b % 2 ^ 32) = hl at *
  generalize a / 2 ^ 32 * (b / 2 ^ 32) = hh at *
  clear ea eb hprod bnd h1 h2 h3 h4 ha hb
  norm_num at b1 b2 b3 b4
  rw [Nat.mod_eq_of_lt (a := ll) (by omega), Nat.mod_eq_of_lt (a := lh) (by omega), Nat.mod_eq_of_lt (a := hl) (by omega), Nat.mod_eq_of_lt (a := hh) (by omega),
    Nat.mod_eq_of_lt (a := ll / 2 ^ 32 + lh % 2 ^ 32 + hl % 2 ^ 32) (by omega)]
  set mid := ll / 2 ^ 32 + lh % 2 ^ 32 + hl % 2 ^ 32 with hmid
  have hor : ll % 2 ^ 32 ||| mid * 2 ^ 32 % 2 ^ 64 = ll % 2 ^ 32 + mid * 2 ^ 32 % 2 ^ 64 := by
    have e : mid * 2 ^ 32 % 2 ^ 64 = 2 ^ 32 * (mid % 2 ^ 32) := by omega
    rw [e, Nat.or_comm, ← Nat.two_pow_add_eq_or_of_lt (Nat.mod_lt _ (by norm_num)), add_comm]
  rw [hor]
  rw [Nat.mod_eq_of_lt (a := hh + lh / 2 ^ 32 + hl / 2 ^ 32 + mid / 2 ^ 32) (by omega)]
  refine ⟨?_, ?_, ?_⟩ <;> omega

/-- `⌊p 2^sh⌋` -/
def flo (p : ℕ) (sh : ℤ) : ℕ := if 0 ≤ sh then p * 2 ^ sh.toNat else p / 2 ^ (-sh).toNat

theorem addWordAt_acc {l : List ℕ} (hl : AccOk l) {w : ℕ} (hw : w < 2 ^ 64) (b : ℤ) :
    AccOk (CC.addWordAt l w b) ∧ accVal (CC.addWordAt l w b) ≡ accVal l + flo w b [MOD 2 ^ 256] := by
  unfold flo
  by_cases h : 0 ≤ b
  · rw [if_pos h]
    have := addWordAt_nonneg hl hw b.toNat
    rwa [Int.toNat_of_nonneg h] at this
  · rw [if_neg h]
    have := addWordAt_neg hl hw (-b).toNat
    rwa [Int.toNat_of_nonneg (by omega), neg_neg] at this

theorem flo_split {hi lo : ℕ} (hlo : lo < 2 ^ 64) (sh : ℤ) : flo lo sh + flo hi (sh + 64) = flo (hi * 2 ^ 64 + lo) sh := by
  unfold flo
  by_cases h : 0 ≤ sh
  · rw [if_pos h, if_pos (by omega), if_pos h]
    have : (sh + 64).toNat = sh.toNat + 64 := by omega
    rw [this, pow_add]; ring
  · rw [if_neg h, if_neg h]
    by_cases h2 : 0 ≤ sh + 64
    · rw [if_pos h2]
      have e : (2 : ℕ) ^ 64 = 2 ^ (sh + 64).toNat * 2 ^ (-sh).toNat := by rw [← pow_add]; congr 1; omega
      have e2 : hi * 2 ^ 64 = hi * 2 ^ (sh + 64).toNat * 2 ^ (-sh).toNat := by rw [e]; ring
      rw [e2, add_comm (hi * 2 ^ (sh + 64).toNat * 2 ^ (-sh).toNat), Nat.add_mul_div_right _ _ (by positivity)]
    · rw [if_neg h2]
      have e : (-sh).toNat = 64 + (-(sh + 64)).toNat := by omega
      rw [e, pow_add, ← Nat.div_div_eq_div_mul, ← Nat.div_div_eq_div_mul, Nat.div_eq_of_lt hlo, Nat.zero_div, zero_add]
      congr 1
      omega

theorem flo_small {p : ℕ} (hp : p < 2 ^ 128) {sh : ℤ} (h : sh ≤ -128) : flo p sh = 0 := by
  unfold flo
  rw [if_neg (by omega)]
  exact Nat.div_eq_of_lt (lt_of_lt_of_le hp (Nat.pow_le_pow_right (by norm_num) (by omega)))

theorem flo_big (p : ℕ) {sh : ℤ} (h : 256 ≤ sh) : flo p sh ≡ 0 [MOD 2 ^ 256] := by
  unfold flo
  rw [if_pos (by omega), Nat.modEq_zero_iff_dvd]
  exact Dvd.dvd.mul_left (pow_dvd_pow 2 (by omega)) _

/-- the sum of the truncated contributions of the table entries from index `i` on -/
def phSum (mant : ℕ) (be : ℤ) : List ℕ → ℕ → ℕ
  | [], _ => 0
  | t :: ts, i => flo (mant * t) (be - 64 * (i + 1) + 252) + phSum mant be ts (i + 1)

theorem phLoop_spec {mant : ℕ} (hm : mant < 2 ^ 64) (be : ℤ) : ∀ (ts : List ℕ) (i : ℕ) (acc : List ℕ), (∀ t ∈ ts, t < 2 ^ 64) → AccOk acc →
    AccOk (CC.phLoop mant be ts i acc) ∧ accVal (CC.phLoop mant be ts i acc) ≡ accVal acc + phSum mant be ts i [MOD 2 ^ 256] := by
  intro ts
  induction ts with
  | nil => intro i acc _ h; exact ⟨h, by simp [phSum, CC.phLoop]; rfl⟩
  | cons t ts ih =>
    intro i acc ht hacc
    have ht0 := ht t (by simp)
    have hts : ∀ t ∈ ts, t < 2 ^ 64 := fun u hu => ht u (by simp [hu])
    unfold CC.phLoop phSum
    set sh : ℤ := be - 64 * (i + 1) + 252 with hsh
    have key : ∃ acc', (if sh ≤ -128 ∨ sh ≥ 256 then acc else CC.addWordAt (CC.addWordAt acc (CC.mul64 mant t).2 sh) (CC.mul64 mant t).1 (sh + 64)) = acc' ∧
        AccOk acc' ∧ accVal acc' ≡ accVal acc + flo (mant * t) sh [MOD 2 ^ 256] := by
      refine ⟨_, rfl, ?_⟩
      by_cases hc : sh ≤ -128 ∨ sh ≥ 256
      · rw [if_pos hc]
        refine ⟨hacc, ?_⟩
        rcases hc with hc | hc
        · have hlt : mant * t < 2 ^ 128 := lt_of_lt_of_le (Nat.mul_lt_mul_of_lt_of_lt hm ht0) (by rw [← pow_add])
          rw [flo_small hlt hc, add_zero]
        · simpa using ((flo_big (mant * t) hc).add_left (accVal acc)).symm
      · rw [if_neg hc]
        obtain ⟨m1, m2, m3⟩ := mul64_spec hm ht0
        obtain ⟨a1, a2⟩ := addWordAt_acc hacc m3 sh
        obtain ⟨b1, b2⟩ := addWordAt_acc a1 m2 (sh + 64)
        refine ⟨b1, b2.trans ?_⟩
        rw [← m1, ← flo_split m3, ← add_assoc]
        exact a2.add_right _
    obtain ⟨acc', e, k1, k2⟩ := key
    obtain ⟨r1, r2⟩ := ih (i + 1) acc' hts k1
    simp only [e]
    refine ⟨r1, r2.trans ?_⟩
    rw [← add_assoc]; exact k2.add_right _

theorem flo_real (p : ℕ) (sh : ℤ) : (flo p sh : ℝ) ≤ p * (2 : ℝ) ^ sh ∧ (p : ℝ) * (2 : ℝ) ^ sh < flo p sh + 1 ∧ (0 ≤ sh → (flo p sh : ℝ) = p * (2 : ℝ) ^ sh) := by
  unfold flo
  by_cases h : 0 ≤ sh
  · rw [if_pos h]
    have e : (2 : ℝ) ^ sh = 2 ^ sh.toNat := by rw [← zpow_natCast, Int.toNat_of_nonneg h]
    rw [e]; push_cast
    exact ⟨le_rfl, by linarith, fun _ => rfl⟩
  · rw [if_neg h]
    have e : (2 : ℝ) ^ sh = (2 ^ (-sh).toNat)⁻¹ := by
      rw [← zpow_natCast, Int.toNat_of_nonneg (by omega), zpow_neg, inv_inv]
    rw [e, ← div_eq_mul_inv]
    have hq : 0 < 2 ^ (-sh).toNat := by positivity
    refine ⟨?_, ?_, fun h' => absurd h' h⟩
    · have := @Nat.cast_div_le ℝ _ _ _ p (2 ^ (-sh).toNat)
      push_cast at this; exact this
    · rw [div_lt_iff₀ (by positivity)]
      have := Nat.lt_mul_div_succ p hq
      rw [mul_comm] at this
      exact_mod_cast this

/-- bound on the truncation of all table entries from shift `sh` on -/
noncomputable def phLoss (sh : ℤ) : ℝ := if -64 ≤ sh then 2 + 1 / 1024 else if -128 < sh then 1 + 1 / 1024 else 2 * (2 : ℝ) ^ (117 + sh)

theorem phLoss_small {sh : ℤ} (h : sh ≤ -128) : 2 * (2 : ℝ) ^ (117 + sh) ≤ 1 / 1024 := by
  have : (2 : ℝ) ^ (117 + sh) ≤ 2 ^ (-11 : ℤ) := zpow_le_zpow_right₀ (by norm_num) (by omega)
  have e : (2 : ℝ) ^ (-11 : ℤ) = 1 / 2048 := by norm_num
  rw [e] at this; linarith

theorem phLoss_nonneg (sh : ℤ) : 0 ≤ phLoss sh := by
  unfold phLoss
  split_ifs
  · norm_num
  · norm_num
  · have := two_zpow_pos (117 + sh); linarith

theorem phLoss_le (sh : ℤ) : phLoss sh ≤ 2 + 1 / 1024 := by
  unfold phLoss
  split_ifs with h1 h2
  · norm_num
  · norm_num
  · have := phLoss_small (sh := sh) (by omega); linarith

/-- exact counterpart of `phSum` -/
noncomputable def phExact (mant : ℕ) (be : ℤ) : List ℕ → ℕ → ℝ
  | [], _ => 0
  | t :: ts, i => ((mant * t : ℕ) : ℝ) * (2 : ℝ) ^ (be - 64 * (i + 1) + 252) + phExact mant be ts (i + 1)

theorem phSum_bound {mant : ℕ} (hm : mant < 2 ^ 53) (be : ℤ) : ∀ (ts : List ℕ) (i : ℕ), (∀ t ∈ ts, t < 2 ^ 64) →
    (phSum mant be ts i : ℝ) ≤ phExact mant be ts i ∧ phExact mant be ts i ≤ phSum mant be ts i + phLoss (be - 64 * (i + 1) + 252) := by
  intro ts
  induction ts with
  | nil => intro i _; simp [phSum, phExact]; exact phLoss_nonneg _
  | cons t ts ih =>
    intro i ht
    have ht0 := ht t (by simp)
    obtain ⟨i1, i2⟩ := ih (i + 1) (fun u hu => ht u (by simp [hu]))
    unfold phSum phExact
    set sh : ℤ := be - 64 * (i + 1) + 252 with hsh
    have hsh' : be - 64 * (((i + 1 : ℕ) : ℤ) + 1) + 252 = sh - 64 := by rw [hsh]; push_cast; ring
    rw [hsh'] at i2
    obtain ⟨f1, f2, f3⟩ := flo_real (mant * t) sh
    rw [Nat.cast_add]
    refine ⟨by linarith, ?_⟩
    have hstep : ((mant * t : ℕ) : ℝ) * (2 : ℝ) ^ sh - flo (mant * t) sh + phLoss (sh - 64) ≤ phLoss sh := by
      by_cases c1 : 0 ≤ sh
      · rw [f3 c1]
        have : phLoss sh = 2 + 1 / 1024 := by unfold phLoss; rw [if_pos (by omega)]
        rw [this]; have := phLoss_le (sh - 64); linarith
      · by_cases c2 : -64 ≤ sh
        · have e1 : phLoss sh = 2 + 1 / 1024 := by unfold phLoss; rw [if_pos (by omega)]
          have e2 : phLoss (sh - 64) ≤ 1 + 1 / 1024 := by
            unfold phLoss; rw [if_neg (by omega)]
            split_ifs with h
            · exact le_rfl
            · have := phLoss_small (sh := sh - 64) (by omega); linarith
          rw [e1]; linarith
        · by_cases c3 : -128 < sh
          · have e1 : phLoss sh = 1 + 1 / 1024 := by unfold phLoss; rw [if_neg (by omega), if_pos c3]
            have e2 : phLoss (sh - 64) ≤ 1 / 1024 := by
              unfold phLoss; rw [if_neg (by omega), if_neg (by omega)]
              exact phLoss_small (by omega)
            rw [e1]; linarith
          · have e1 : phLoss sh = 2 * (2 : ℝ) ^ (117 + sh) := by unfold phLoss; rw [if_neg (by omega), if_neg c3]
            have e2 : phLoss (sh - 64) ≤ (2 : ℝ) ^ (117 + sh) := by
              unfold phLoss; rw [if_neg (by omega), if_neg (by omega)]
              have : 2 * (2 : ℝ) ^ (117 + (sh - 64)) = (2 : ℝ) ^ (117 + sh - 63) := by
                rw [← zpow_one_add₀ (by norm_num)]; congr 1; ring
              rw [this]; exact zpow_le_zpow_right₀ (by norm_num) (by omega)
            have e3 : ((mant * t : ℕ) : ℝ) * (2 : ℝ) ^ sh ≤ (2 : ℝ) ^ (117 + sh) := by
              rw [zpow_add₀ (by norm_num) 117 sh]
              refine mul_le_mul_of_nonneg_right ?_ (two_zpow_pos sh).le
              have : mant * t ≤ 2 ^ 117 := (lt_of_lt_of_le (Nat.mul_lt_mul_of_lt_of_lt hm ht0) (by rw [← pow_add])).le
              exact_mod_cast this
            have e4 : (0 : ℝ) ≤ flo (mant * t) sh := Nat.cast_nonneg _
            rw [e1]; linarith
    linarith

/-- the table entries as one integer -/
def tabVal : List ℕ → ℕ
  | [] => 0
  | t :: ts => t * 2 ^ (64 * ts.length) + tabVal ts

theorem phExact_eq (mant : ℕ) (be : ℤ) : ∀ (ts : List ℕ) (i : ℕ),
    phExact mant be ts i = mant * tabVal ts * (2 : ℝ) ^ (be - 64 * (i + ts.length) + 252) := by
  intro ts
  induction ts with
  | nil => intro i; simp [phExact, tabVal]
  | cons t ts ih =>
    intro i
    unfold phExact tabVal
    rw [ih (i + 1)]
    push_cast
    simp only [List.length_cons]
    have e1 : (2 : ℝ) ^ (be - 64 * ((i : ℤ) + 1) + 252) = 2 ^ (64 * ts.length) * (2 : ℝ) ^ (be - 64 * ((i : ℤ) + (ts.length + 1)) + 252) := by
      rw [← zpow_natCast (2 : ℝ) (64 * ts.length), ← zpow_add₀ (by norm_num)]; congr 1; push_cast; ring
    have e2 : be - 64 * ((i : ℤ) + 1 + ts.length) + 252 = be - 64 * ((i : ℤ) + (ts.length + 1)) + 252 := by ring
    push_cast
    rw [e1, e2]; ring

theorem table_len : CC.frac8OverPi.length = 32 := by decide +kernel
theorem table_lt : ∀ t ∈ CC.frac8OverPi, t < 2 ^ 64 := by decide +kernel
theorem table_val : tabVal CC.frac8OverPi = fracTable := by decide +kernel

theorem accVal_lt {l : List ℕ} (h : AccOk l) : accVal l < 2 ^ 256 := by
  have := Nat.ofDigits_lt_base_pow_length (b := 2 ^ 64) (l := l) (by norm_num) (fun x hx => h.2 x hx)
  rw [h.1, ← pow_mul] at this
  exact this

theorem ph_final (a b Q M H : ℝ) (T S : ℕ) (p L : ℝ) (ha : 0 ≤ a) (hb : 0 < b) (hx : a * b < H) (hQ : 0 < Q) (hM : 0 < M)
    (t1 : (T : ℝ) / M ≤ 8 / p - 2) (t2 : 8 / p - 2 < (T + 1) / M) (hH : 2 * (H * Q) ≤ M)
    (s1 : (S : ℝ) ≤ a * T * (b * Q / M)) (s2 : a * T * (b * Q / M) ≤ S + L) (hL : L ≤ 2 + 1 / 1024) :
    a * (2 * (b * Q)) + S ≤ a * b * (8 / p) * Q ∧ a * b * (8 / p) * Q < a * (2 * (b * Q)) + S + 3 := by
  have hX : 0 ≤ a * b * Q := by positivity
  have e1 : a * T * (b * Q / M) = a * b * Q * (T / M) := by ring
  have e2 : a * b * (8 / p) * Q = a * b * Q * (8 / p - 2) + a * (2 * (b * Q)) := by ring
  rw [e1] at s1 s2
  rw [e2]
  have h1 := mul_le_mul_of_nonneg_left t1 hX
  have h2 : a * b * Q * (8 / p - 2) ≤ a * b * Q * (T / M) + 1 / 2 := by
    have h3 := mul_le_mul_of_nonneg_left t2.le hX
    have h4 : a * b * Q * ((T + 1) / M) = a * b * Q * (T / M) + a * b * Q / M := by ring
    have h5 : a * b * Q / M ≤ 1 / 2 := by
      rw [div_le_iff₀ hM]
      have := mul_le_mul_of_nonneg_right hx.le hQ.le
      linarith
    linarith
  constructor <;> linarith

theorem ph_HM_aux (r : ℝ) (hr : 1 ≤ r) (a b c d n : ℕ) (h : n = a + b + (c + d)) (h2 : 2 ≤ r ^ b) : 2 * (r ^ c * r ^ d) ≤ r ^ n := by
  rw [h, pow_add, pow_add, pow_add]
  have e4 : (1 : ℝ) ≤ r ^ a := one_le_pow₀ hr
  have e5 : (0 : ℝ) < r ^ c * r ^ d := by positivity
  have : 2 ≤ r ^ a * r ^ b := by nlinarith
  exact mul_le_mul_of_nonneg_right this e5.le

theorem ph_HM : 2 * ((2 : ℝ) ^ 1024 * 2 ^ 252) ≤ 2 ^ 2048 :=
  ph_HM_aux 2 (by norm_num) 770 2 1024 252 2048 (by norm_num) (by norm_num)

/-- Accumulator of the reduction: `|x| 8/π = 16 n + acc/2^252 + δ`, `0 ≤ δ < 3/2^252`. -/
theorem phAcc_spec {x : ℕ} (hx : binary64.Finite x) (hb : 822 ≤ binary64.bexp x) :
    AccOk (CC.phAcc x) ∧ ∃ n : ℕ, 2 ^ 256 * (n : ℝ) + accVal (CC.phAcc x) ≤ |binary64.val x| * (8 / Real.pi) * 2 ^ 252 ∧
      |binary64.val x| * (8 / Real.pi) * 2 ^ 252 < 2 ^ 256 * (n : ℝ) + accVal (CC.phAcc x) + 3 := by
  have hF : binary64.F = 52 := rfl
  have hE : binary64.E = 11 := rfl
  have hfr : binary64.frac x < 2 ^ 52 := Nat.mod_lt _ (by positivity)
  unfold CC.phAcc
  simp only [FPBits.abs_eq]
  have h1 : binary64.mag x >>> 52 &&& 0x7ff = binary64.bexp x := by
    rw [Nat.and_two_pow_sub_one_eq_mod _ 11, Nat.shiftRight_eq_div_pow]
    have : binary64.bexp x = binary64.mag x / 2 ^ 52 := rfl
    rw [this]
    exact Nat.mod_eq_of_lt (by rw [← this]; exact binary64.bexp_lt x)
  have h2 : binary64.mag x &&& 0xfffffffffffff = binary64.frac x := by
    rw [Nat.and_two_pow_sub_one_eq_mod _ 52]; unfold mag frac; rw [hF, hE]; exact Nat.mod_mod_of_dvd _ (pow_dvd_pow 2 (by norm_num))
  rw [h1, h2]
  have h3 : binary64.frac x ||| 0x10000000000000 = 2 ^ 52 + binary64.frac x := by
    have := Nat.two_pow_add_eq_or_of_lt hfr 1
    rw [mul_one] at this
    rw [this, Nat.or_comm]
  rw [h3]
  set mant := 2 ^ 52 + binary64.frac x with hmant
  have hm : mant < 2 ^ 53 := by rw [hmant]; omega
  have hm64 : mant < 2 ^ 64 := lt_trans hm (by norm_num)
  set be : ℤ := (binary64.bexp x : ℤ) - 1023 - 52 with hbe
  have hval : |binary64.val x| = mant * (2 : ℝ) ^ be := by
    have := CC.val_normal binary64 (x := x) (k := (binary64.bexp x : ℤ) - 1023) (by omega) (by
      unfold FPBits.getExponent; rw [FPBits.biasedExp_eq]; congr 1)
    rw [this, hmant, hbe, hF, mul_comm]; rfl
  have ok0 : AccOk [0, 0, 0, 0] := by unfold AccOk; simp
  obtain ⟨a1, a2⟩ := addWordAt_acc ok0 hm64 (be + 1 + 252)
  obtain ⟨b1, b2⟩ := phLoop_spec hm64 be CC.frac8OverPi 0 _ table_lt a1
  refine ⟨b1, ?_⟩
  obtain ⟨s1, s2⟩ := phSum_bound hm be CC.frac8OverPi 0 table_lt
  have hlt := accVal_lt b1
  set acc := accVal (CC.phLoop mant be CC.frac8OverPi 0 (CC.addWordAt [0, 0, 0, 0] mant (be + 1 + 252))) with hacc
  have hz : accVal [0, 0, 0, 0] = 0 := by simp [accVal, Nat.ofDigits_cons]
  rw [hz, zero_add] at a2
  have hmod := b2.trans (a2.add_right (phSum mant be CC.frac8OverPi 0))
  set S := flo mant (be + 1 + 252) + phSum mant be CC.frac8OverPi 0 with hS
  have hn : S = 2 ^ 256 * (S / 2 ^ 256) + acc := by
    have h4 : acc = S % 2 ^ 256 := by
      have := hmod; unfold Nat.ModEq at this; rwa [Nat.mod_eq_of_lt hlt] at this
    rw [h4]; exact (Nat.div_add_mod _ _).symm
  refine ⟨S / 2 ^ 256, ?_⟩
  have hSr : (2 : ℝ) ^ 256 * ((S / 2 ^ 256 : ℕ) : ℝ) + (acc : ℝ) = S := by
    conv_rhs => rw [hn]
    push_cast; ring
  rw [hSr]
  have f3 := (flo_real mant (be + 1 + 252)).2.2 (by omega)
  rw [phExact_eq, table_len, table_val] at s1 s2
  have e1 : (2 : ℝ) ^ (be + 1 + 252) = 2 * ((2 : ℝ) ^ be * 2 ^ 252) := by
    rw [zpow_add₀ (by norm_num), zpow_add₀ (by norm_num)]; norm_num; ring
  have e2 : (2 : ℝ) ^ (be - 64 * (((0 : ℕ) : ℤ) + ((32 : ℕ) : ℤ)) + 252) = (2 : ℝ) ^ be * 2 ^ 252 / 2 ^ 2048 := by
    rw [zpow_add₀ (by norm_num), zpow_sub₀ (by norm_num)]
    have u1 : (2 : ℝ) ^ ((64 : ℤ) * (((0 : ℕ) : ℤ) + ((32 : ℕ) : ℤ))) = 2 ^ 2048 := by
      rw [← zpow_natCast]; congr 1
    have u2 : (2 : ℝ) ^ (252 : ℤ) = 2 ^ 252 := by rw [← zpow_natCast]; congr 1
    rw [u1, u2, div_mul_eq_mul_div]
  rw [e2] at s1 s2
  rw [e1] at f3
  have hloss := phLoss_le (be - 64 * (((0 : ℕ) : ℤ) + 1) + 252)
  obtain ⟨t1, t2⟩ := table_spec
  have hx2 : |binary64.val x| < 2 ^ 1024 := by
    have := binary64.abs_val_lt_huge hx
    have e : ((binary64.bias : ℤ) + 1) = ((1024 : ℕ) : ℤ) := by decide
    rwa [e, zpow_natCast] at this
  have hSc : (S : ℝ) = flo mant (be + 1 + 252) + phSum mant be CC.frac8OverPi 0 := by rw [hS]; push_cast; ring
  rw [hSc, f3]
  rw [hval] at hx2 ⊢
  refine ph_final mant (2 ^ be) (2 ^ 252) (2 ^ 2048) (2 ^ 1024) fracTable (phSum mant be CC.frac8OverPi 0) (Real.pi) _ (Nat.cast_nonneg _) (two_zpow_pos be) hx2
    (pow_pos two_pos _) (pow_pos two_pos _) t1 t2
    ph_HM s1 s2 hloss

end Verif
