import Verif.Lemmas.Dyadic4

/-!
# Lemmas on dyadic floats: error of quick multiplication, integer powers, integer parts
-/

namespace Verif
open Fmt

/-- the relative error bound of `quick_mul` with `N` words and `B` bits -/
noncomputable def mulEps (N B : ℕ) : ℝ := N * 2 ^ (2 - (B : ℤ))

theorem mulEps_nonneg (N B : ℕ) : 0 ≤ mulEps N B := by have := two_zpow_pos (2 - (B : ℤ)); unfold mulEps; positivity

namespace CC

theorem quickMul_abs (wide : Bool) {w N : ℕ} (hw : 1 ≤ w) (he : wide = false → w % 2 = 0) (hN : 1 ≤ N) (hM : N < 2 ^ w) {a b : Dy}
    (ha : a.Normal (w * N)) (hb : b.Normal (w * N)) (ha0 : a.m ≠ 0) (hb0 : b.m ≠ 0) (hB : 2 ≤ w * N) :
    |(quickMul wide w N a b).val| ≤ |a.val * b.val| ∧ |a.val * b.val| < |(quickMul wide w N a b).val| + N * 2 ^ (a.e + b.e + (w * N : ℕ)) := by
  obtain ⟨-, -, -, h, -, -⟩ := quickMul_spec wide hw he hN hM ha hb ha0 hb0 hB
  obtain ⟨L, l1, l2, l3, l4⟩ := mulHi_spec wide hw he hN hM ha.1 hb.1
  rw [h, abs_mul, a.abs_val, b.abs_val, l4]
  have hz : (2 : ℝ) ^ (a.e + b.e + (w * N : ℕ)) = 2 ^ (w * N) * (2 ^ a.e * 2 ^ b.e) := by
    rw [zpow_add₀ (by norm_num), zpow_add₀ (by norm_num), zpow_natCast]; ring
  have hp : (0 : ℝ) < 2 ^ a.e * 2 ^ b.e := mul_pos (two_zpow_pos _) (two_zpow_pos _)
  have k1 : (a.m * b.m - L) / 2 ^ (w * N) * 2 ^ (w * N) ≤ a.m * b.m := le_trans (Nat.div_mul_le_self _ _) (Nat.sub_le _ _)
  have k2 : a.m * b.m < ((a.m * b.m - L) / 2 ^ (w * N) + N) * 2 ^ (w * N) := by
    have h1 := Nat.lt_div_mul_add (a := a.m * b.m - L) (Nat.two_pow_pos (w * N))
    have h3 : 1 ≤ N * 2 ^ (w * (N - 1)) := Nat.mul_pos hN (by positivity)
    have h4 : N * 2 ^ (w * N) = (N - 1) * 2 ^ (w * N) + 2 ^ (w * N) := by rw [← Nat.succ_mul]; congr 1; omega
    rw [Nat.add_mul, h4]; omega
  generalize (a.m * b.m - L) / 2 ^ (w * N) = q at *
  have k1' : (q : ℝ) * 2 ^ (w * N) ≤ a.m * b.m := by exact_mod_cast k1
  have k2' : (a.m : ℝ) * b.m < (q + N) * 2 ^ (w * N) := by exact_mod_cast k2
  rw [hz]
  have e1 : (a.m : ℝ) * 2 ^ a.e * (b.m * 2 ^ b.e) = a.m * b.m * (2 ^ a.e * 2 ^ b.e) := by ring
  rw [e1]
  constructor
  · rw [← mul_assoc]; exact mul_le_mul_of_nonneg_right k1' hp.le
  · have := mul_lt_mul_of_pos_right k2' hp
    rw [add_mul, add_mul] at this
    linarith [this, mul_assoc (q : ℝ) (2 ^ (w * N)) (2 ^ a.e * 2 ^ b.e), mul_assoc (N : ℝ) (2 ^ (w * N)) (2 ^ a.e * 2 ^ b.e)]

theorem quickMul_rel (wide : Bool) {w N : ℕ} (hw : 1 ≤ w) (he : wide = false → w % 2 = 0) (hN : 1 ≤ N) (hM : N < 2 ^ w) {a b : Dy}
    (ha : a.Normal (w * N)) (hb : b.Normal (w * N)) (hB : 2 ≤ w * N) :
    (quickMul wide w N a b).Normal (w * N) ∧ (quickMul wide w N a b).s = (a.s != b.s) ∧
      ∃ θ : ℝ, 1 - mulEps N (w * N) ≤ θ ∧ θ ≤ 1 ∧ (quickMul wide w N a b).val = a.val * b.val * θ := by
  have hε := mulEps_nonneg N (w * N)
  by_cases h0 : a.m = 0 ∨ b.m = 0
  · obtain ⟨z1, z2⟩ := quickMul_zero wide (w := w) (N := N) h0
    refine ⟨⟨by rw [z1]; positivity, Or.inl z1⟩, z2, 1, by linarith, le_rfl, ?_⟩
    rw [(Dy.val_eq_zero _).2 z1]
    rcases h0 with h | h
    · rw [(Dy.val_eq_zero a).2 h]; ring
    · rw [(Dy.val_eq_zero b).2 h]; ring
  · push Not at h0
    obtain ⟨g1, g2, g3, -, -, -⟩ := quickMul_spec wide hw he hN hM ha hb h0.1 h0.2 hB
    obtain ⟨k1, k2⟩ := quickMul_abs wide hw he hN hM ha hb h0.1 h0.2 hB
    generalize quickMul wide w N a b = r at *
    refine ⟨g1, g3, |r.val| / |a.val * b.val|, ?_⟩
    have hA : 0 < |a.val| := abs_pos.2 (fun h => h0.1 ((Dy.val_eq_zero a).1 h))
    have hBv : 0 < |b.val| := abs_pos.2 (fun h => h0.2 ((Dy.val_eq_zero b).1 h))
    have hAB : 0 < |a.val * b.val| := by rw [abs_mul]; positivity
    have a2 : (2 : ℝ) ^ (((w * N : ℕ) : ℤ) - 1) * 2 ^ a.e ≤ |a.val| := by
      rw [a.abs_val]
      have : 2 ^ (w * N - 1) ≤ a.m := by have := ha.2; tauto
      have h2 : (2 : ℝ) ^ (((w * N : ℕ) : ℤ) - 1) ≤ a.m := by
        rw [show ((w * N : ℕ) : ℤ) - 1 = ((w * N - 1 : ℕ) : ℤ) by omega, zpow_natCast]; exact_mod_cast this
      exact mul_le_mul_of_nonneg_right h2 (two_zpow_pos _).le
    have b2 : (2 : ℝ) ^ (((w * N : ℕ) : ℤ) - 1) * 2 ^ b.e ≤ |b.val| := by
      rw [b.abs_val]
      have : 2 ^ (w * N - 1) ≤ b.m := by have := hb.2; tauto
      have h2 : (2 : ℝ) ^ (((w * N : ℕ) : ℤ) - 1) ≤ b.m := by
        rw [show ((w * N : ℕ) : ℤ) - 1 = ((w * N - 1 : ℕ) : ℤ) by omega, zpow_natCast]; exact_mod_cast this
      exact mul_le_mul_of_nonneg_right h2 (two_zpow_pos _).le
    have hab : (2 : ℝ) ^ (a.e + b.e + (w * N : ℕ)) ≤ 2 ^ (2 - ((w * N : ℕ) : ℤ)) * |a.val * b.val| := by
      rw [abs_mul]
      have h3 := mul_le_mul a2 b2 (mul_pos (two_zpow_pos _) (two_zpow_pos _)).le (abs_nonneg _)
      refine le_trans (le_of_eq ?_) (mul_le_mul_of_nonneg_left h3 (two_zpow_pos _).le)
      rw [← zpow_add₀ (by norm_num), ← zpow_add₀ (by norm_num), ← zpow_add₀ (by norm_num), ← zpow_add₀ (by norm_num)]
      congr 1; ring
    refine ⟨?_, (div_le_one hAB).2 k1, ?_⟩
    · rw [le_div_iff₀ hAB]
      have : (N : ℝ) * 2 ^ (a.e + b.e + (w * N : ℕ)) ≤ mulEps N (w * N) * |a.val * b.val| := by
        unfold mulEps; rw [mul_assoc]; exact mul_le_mul_of_nonneg_left hab (by positivity)
      rw [sub_mul, one_mul]; linarith
    · have e1 : r.val = sg r.s * |r.val| := by rw [r.abs_val, r.val_sg]
      have e2 : a.val * b.val = sg r.s * |a.val * b.val| := by
        rw [abs_mul, a.abs_val, b.abs_val, a.val_sg, b.val_sg, g3]; cases a.s <;> cases b.s <;> simp
      calc r.val = sg r.s * |r.val| := e1
        _ = sg r.s * |a.val * b.val| * (|r.val| / |a.val * b.val|) := by field_simp
        _ = _ := by rw [← e2]

/-- no error when a low part vanishes and the product fits the retained digits -/
theorem quickMul_exact (wide : Bool) {w N : ℕ} (hw : 1 ≤ w) (he : wide = false → w % 2 = 0) (hN : 1 ≤ N) (hM : N < 2 ^ w) {a b : Dy}
    (ha : a.Normal (w * N)) (hb : b.Normal (w * N)) (ha0 : a.m ≠ 0) (hb0 : b.m ≠ 0) (hB : 2 ≤ w * N)
    (hlow : a.m % 2 ^ (w * (N - 1)) = 0) (hd : 2 ^ (w * N) ∣ a.m * b.m) :
    (quickMul wide w N a b).val = a.val * b.val := by
  obtain ⟨-, -, hs, h, -, -⟩ := quickMul_spec wide hw he hN hM ha hb ha0 hb0 hB
  obtain ⟨L, l1, l2, l3, l4⟩ := mulHi_spec wide hw he hN hM ha.1 hb.1
  rw [hlow, Nat.zero_mul] at l1
  rw [show L = 0 by omega, Nat.sub_zero] at l4
  have hz : (2 : ℝ) ^ (a.e + b.e + (w * N : ℕ)) = 2 ^ (w * N) * (2 ^ a.e * 2 ^ b.e) := by
    rw [zpow_add₀ (by norm_num), zpow_add₀ (by norm_num), zpow_natCast]; ring
  have hq : ((mulHi wide w N a.m b.m : ℕ) : ℝ) * 2 ^ (w * N) = a.m * b.m := by
    rw [l4]; exact_mod_cast Nat.div_mul_cancel hd
  rw [Dy.val_sg, ← Dy.abs_val, h, hs, hz, ← mul_assoc ((mulHi wide w N a.m b.m : ℕ) : ℝ), hq, a.val_sg, b.val_sg]
  have : sg (a.s != b.s) = sg a.s * sg b.s := sg_xor _ _
  rw [this]; ring

theorem powNLoop_spec (wide : Bool) {w N : ℕ} (hw : 1 ≤ w) (he : wide = false → w % 2 = 0) (hN : 1 ≤ N) (hM : N < 2 ^ w) (hB : 2 ≤ w * N)
    (hε : mulEps N (w * N) ≤ 1) (k : ℕ) : ∀ (R C : Dy) (p : ℕ), R.Normal (w * N) → C.Normal (w * N) → p < 2 ^ k →
    (powNLoop wide w N k R C p).Normal (w * N) ∧
      ∃ θ : ℝ, (1 - mulEps N (w * N)) ^ p ≤ θ ∧ θ ≤ 1 ∧ (powNLoop wide w N k R C p).val = R.val * C.val ^ p * θ := by
  have hε0 := mulEps_nonneg N (w * N)
  generalize hδ : 1 - mulEps N (w * N) = δ at *
  have d0 : 0 ≤ δ := by linarith
  have d1 : δ ≤ 1 := by linarith
  induction k with
  | zero =>
    intro R C p hR hC hp
    have : p = 0 := by simpa using hp
    subst this
    exact ⟨hR, 1, by simp, le_rfl, by simp [powNLoop]⟩
  | succ k ih =>
    intro R C p hR hC hp
    unfold powNLoop
    by_cases h0 : p = 0
    · rw [if_pos h0, h0]
      exact ⟨hR, 1, by simp, le_rfl, by simp⟩
    · rw [if_neg h0]
      obtain ⟨c1, -, t, t1, t2, t3⟩ := quickMul_rel wide hw he hN hM hC hC hB
      obtain ⟨r1, -, u, u1, u2, u3⟩ := quickMul_rel wide hw he hN hM hR hC hB
      rw [hδ] at t1 u1
      have ehalf : p >>> 1 = p / 2 := by rw [Nat.shiftRight_eq_div_pow, pow_one]
      rw [ehalf]
      have hh : p / 2 < 2 ^ k := by rw [pow_succ] at hp; omega
      have tp1 : δ ^ (p / 2) ≤ t ^ (p / 2) := pow_le_pow_left₀ d0 t1 _
      have tp2 : t ^ (p / 2) ≤ 1 := pow_le_one₀ (by linarith) t2
      have tp0 : 0 ≤ δ ^ (p / 2) := by positivity
      by_cases hodd : p % 2 > 0
      · rw [if_pos hodd]
        obtain ⟨g1, v, v1, v2, v3⟩ := ih _ _ (p / 2) r1 c1 hh
        refine ⟨g1, u * t ^ (p / 2) * v, ?_, ?_, ?_⟩
        · have : δ ^ p = δ * δ ^ (p / 2) * δ ^ (p / 2) := by
            rw [mul_assoc, ← pow_add, ← pow_succ']; congr 1; omega
          rw [this]
          exact mul_le_mul (mul_le_mul u1 tp1 tp0 (by linarith)) v1 tp0 (mul_nonneg (by linarith) (by linarith))
        · exact mul_le_one₀ (mul_le_one₀ u2 (by linarith) tp2) (by linarith) v2
        · have e : C.val ^ p = C.val * (C.val * C.val) ^ (p / 2) := by
            rw [← pow_two, ← pow_mul, ← pow_succ']; congr 1; omega
          rw [v3, u3, t3, e, mul_pow]; ring
      · rw [if_neg hodd]
        obtain ⟨g1, v, v1, v2, v3⟩ := ih _ _ (p / 2) hR c1 hh
        refine ⟨g1, t ^ (p / 2) * v, ?_, ?_, ?_⟩
        · have : δ ^ p = δ ^ (p / 2) * δ ^ (p / 2) := by
            rw [← pow_add]; congr 1; omega
          rw [this]
          exact mul_le_mul tp1 v1 tp0 (by linarith)
        · exact mul_le_one₀ tp2 (by linarith) v2
        · have e : C.val ^ p = (C.val * C.val) ^ (p / 2) := by
            rw [← pow_two, ← pow_mul]; congr 1; omega
          rw [v3, t3, e, mul_pow]; ring

/-! ### integer parts -/

theorem shiftRight_big {v n B : ℕ} (hv : v < 2 ^ B) (h : B ≤ n) : v / 2 ^ n = 0 :=
  Nat.div_eq_of_lt (lt_of_lt_of_le hv (Nat.pow_le_pow_right (by norm_num) h))

theorem twos {B n : ℕ} (s : Bool) (hn : n < 2 ^ B) : (((if s then (2 ^ B - n) % 2 ^ B else n : ℕ)) : ℤ) = (sgi s n) % (2 ^ B : ℤ) := by
  have hc : ((2 ^ B : ℕ) : ℤ) = 2 ^ B := by push_cast; rfl
  cases s
  · simp only [sgi, Bool.false_eq_true, if_false]
    rw [Int.emod_eq_of_lt (by omega) (by rw [← hc]; exact_mod_cast hn)]
  · simp only [sgi, if_true]
    rw [Int.natCast_mod, Nat.cast_sub hn.le, hc, Int.neg_emod_eq_sub_emod]

theorem sgi_emod (B : ℕ) (s : Bool) (n : ℕ) : sgi s (n % 2 ^ B) % (2 ^ B : ℤ) = sgi s n % (2 ^ B : ℤ) := by
  have hc : ((2 ^ B : ℕ) : ℤ) = 2 ^ B := by push_cast; rfl
  cases s
  · simp only [sgi, Bool.false_eq_true, if_false, Int.natCast_mod, hc, Int.emod_emod_of_dvd _ (dvd_refl _)]
  · simp only [sgi, if_true, Int.natCast_mod, hc]
    rw [Int.emod_eq_emod_iff_emod_sub_eq_zero]
    apply Int.emod_eq_zero_of_dvd
    exact ⟨(n : ℤ) / 2 ^ B, by have := Int.emod_add_mul_ediv (n : ℤ) (2 ^ B); linarith⟩

/-- l.54-73 for a shift of at least the width, in the modes where the direction is right -/
theorem roundingDirection_far {md : Mode} (hm : md = .nearest ∨ md = .zero) {I v n : ℕ} (hn : I ≤ n + 1) (hv : v < 2 ^ I) (s : Bool) :
    (roundingDirection md I v (n + 1) s > 0) ↔ roundIncrement md s (v.testBit n) (decide (v % 2 ^ n ≠ 0)) (decide (v / 2 ^ (n + 1) % 2 = 1)) = true := by
  have hq : v / 2 ^ (n + 1) = 0 := shiftRight_big hv hn
  rw [hq]
  unfold roundingDirection
  by_cases h0 : v = 0
  · rw [if_pos (Or.inr (Or.inr ⟨hn, h0⟩)), h0]
    rcases hm with rfl | rfl <;> simp [roundIncrement]
  · rw [if_neg (by push Not; exact ⟨by omega, fun h => by omega, fun _ => h0⟩)]
    rcases hm with rfl | rfl
    · simp only [Nat.add_sub_cancel]
      by_cases h : n + 1 = I
      · subst h
        have e2 : (v <<< (n + 1 - (n + 1) + 1)) % 2 ^ (n + 1) = (v % 2 ^ n) * 2 := by
          have := shl_mod (v := v) (n := n) (I := n + 1) (by omega)
          rw [show n + 1 - (n + 1) + 1 = n + 1 - n by omega, this, show n + 1 - n = 1 by omega, pow_one]
        rw [e2]
        by_cases ht : v.testBit n = true
        · by_cases hl : v % 2 ^ n = 0 <;> simp [ht, hl, roundIncrement]
        · simp [ht, roundIncrement]
      · rw [if_neg (by omega)]
        have : v.testBit n = false := Nat.testBit_lt_two_pow (lt_of_lt_of_le hv (Nat.pow_le_pow_right (by norm_num) (by omega)))
        simp [this, roundIncrement]
    · simp [roundIncrement]

theorem roundingDirection_cases (md : Mode) (I v n : ℕ) (s : Bool) :
    roundingDirection md I v n s = 0 ∨ roundingDirection md I v n s = 1 ∨ roundingDirection md I v n s = -1 := by
  unfold roundingDirection
  cases md <;> simp only <;> split_ifs <;> simp

theorem roundingDirection_zero (md : Mode) {I v n : ℕ} (hv : v < 2 ^ I) (s : Bool) : roundingDirection md I v n s = 0 ↔ v % 2 ^ n = 0 := by
  have key : (n = 0 ∨ (n < I ∧ (v <<< (I - n)) % 2 ^ I = 0) ∨ (n ≥ I ∧ v = 0)) ↔ v % 2 ^ n = 0 := by
    by_cases h : n < I
    · rw [shl_mod h.le]
      have hp : 2 ^ (I - n) ≠ 0 := by positivity
      constructor
      · rintro (h1 | ⟨-, h1⟩ | ⟨h1, -⟩)
        · subst h1; simp [Nat.mod_one]
        · rcases Nat.mul_eq_zero.1 h1 with h2 | h2
          · exact h2
          · exact absurd h2 hp
        · omega
      · intro h1; exact Or.inr (Or.inl ⟨h, by rw [h1, Nat.zero_mul]⟩)
    · have hle : v < 2 ^ n := lt_of_lt_of_le hv (Nat.pow_le_pow_right (by norm_num) (by omega))
      rw [Nat.mod_eq_of_lt hle]
      constructor
      · rintro (h1 | ⟨h1, -⟩ | ⟨-, h1⟩)
        · subst h1; simpa using hle
        · omega
        · exact h1
      · intro h1; exact Or.inr (Or.inr ⟨by omega, h1⟩)
  rw [← key]
  unfold roundingDirection
  constructor
  · intro h
    by_contra hc
    rw [if_neg hc] at h
    cases md <;> simp only at h <;> (try split_ifs at h) <;> simp_all
  · intro h; rw [if_pos h]

theorem asMantissa_spec {B : ℕ} {d : Dy} (hd : d.m < 2 ^ B) :
    (asMantissa B d : ℤ) = (if 0 ≤ d.val then ⌊d.val⌋ else ⌈d.val⌉) % (2 ^ B : ℤ) := by
  have htr : ∀ q : ℕ, (q : ℝ) ≤ (d.m : ℝ) * 2 ^ d.e → (d.m : ℝ) * 2 ^ d.e < q + 1 → (if 0 ≤ d.val then ⌊d.val⌋ else ⌈d.val⌉) = sgi d.s q := by
    intro q h1 h2
    have hf : ⌊(d.m : ℝ) * 2 ^ d.e⌋ = (q : ℤ) := by rw [Int.floor_eq_iff]; exact ⟨by exact_mod_cast h1, by exact_mod_cast h2⟩
    have h0 : (0 : ℝ) ≤ (d.m : ℝ) * 2 ^ d.e := le_trans (by positivity) h1
    rw [d.val_sg]
    cases d.s
    · simp only [sg_false, one_mul, if_pos h0, sgi, Bool.false_eq_true, if_false, hf]
    · simp only [sg_true, neg_mul, one_mul, sgi, if_true]
      split
      · have : (d.m : ℝ) * 2 ^ d.e = 0 := by linarith
        rw [this] at hf ⊢
        simp only [Int.floor_zero] at hf
        simp [← hf]
      · rw [Int.ceil_neg, hf]
  unfold asMantissa
  by_cases h0 : d.m = 0
  · rw [if_pos h0, htr 0 (by simp [h0]) (by simp [h0])]; cases d.s <;> simp [sgi]
  · rw [if_neg h0]
    simp only
    by_cases h : d.e > 0
    · rw [if_pos h]
      obtain ⟨t, ht⟩ : ∃ t : ℕ, d.e = t := ⟨d.e.toNat, by omega⟩
      have e1 : (d.m : ℝ) * 2 ^ d.e = ((d.m * 2 ^ t : ℕ) : ℝ) := by rw [ht, zpow_natCast]; push_cast; rfl
      rw [htr (d.m * 2 ^ t) (le_of_eq e1.symm) (by rw [e1]; linarith), twos _ (Nat.mod_lt _ (by positivity)),
        sgi_emod, Nat.shiftLeft_eq, show d.e.toNat = t by omega]
    · rw [if_neg h]
      obtain ⟨t, ht⟩ : ∃ t : ℕ, d.e = -t := ⟨(-d.e).toNat, by omega⟩
      obtain ⟨p1, p2⟩ := align_bounds d.m t d.e 0 (by omega)
      rw [zpow_zero, mul_one] at p1
      rw [zpow_zero, mul_one] at p2
      rw [htr _ p1 p2, twos _ (lt_of_le_of_lt (by rw [Nat.shiftRight_eq_div_pow]; exact Nat.div_le_self _ _) hd), Nat.shiftRight_eq_div_pow,
        show (-d.e).toNat = t by omega]

/-- what is returned by `as_mantissa_type_rounded`: the integer nearest in the given mode, modulo `2^B`, and the direction of the rounding -/
theorem asMantissaRounded_spec {B : ℕ} {d : Dy} (hd : d.m < 2 ^ B) (md : Mode) (h : md = .nearest ∨ md = .zero ∨ -(B : ℤ) < d.e) :
    ∃ k : ℤ, IntRound md d.val k ∧ ((asMantissaRounded md B d).1 : ℤ) = k % (2 ^ B : ℤ) ∧
      ((asMantissaRounded md B d).2 = 1 ∧ |d.val| < |(k : ℝ)| ∨ (asMantissaRounded md B d).2 = 0 ∧ d.val = k ∨ (asMantissaRounded md B d).2 = -1 ∧ |(k : ℝ)| < |d.val|) := by
  have exactR : ∀ k : ℤ, d.val = k → IntRound md d.val k := by
    intro k hk
    rw [hk]
    cases md <;> simp [IntRound]
  unfold asMantissaRounded
  by_cases h0 : d.m = 0
  · rw [if_pos h0]
    have : d.val = ((0 : ℤ) : ℝ) := by rw [(Dy.val_eq_zero d).2 h0]; simp
    exact ⟨0, exactR 0 this, by simp, Or.inr (Or.inl ⟨rfl, this⟩)⟩
  · rw [if_neg h0]
    simp only
    by_cases h1 : d.e > 0
    · rw [if_pos h1]
      obtain ⟨t, ht⟩ : ∃ t : ℕ, d.e = t := ⟨d.e.toNat, by omega⟩
      have e1 : d.val = (sgi d.s (d.m * 2 ^ t) : ℤ) := by rw [sgi_cast, d.val_sg, ht, zpow_natCast]; push_cast; rfl
      refine ⟨_, exactR _ e1, ?_, Or.inr (Or.inl ⟨rfl, e1⟩)⟩
      simp only
      rw [twos _ (Nat.mod_lt _ (by positivity)), sgi_emod, Nat.shiftLeft_eq, show d.e.toNat = t by omega]
    · rw [if_neg h1]
      by_cases h2 : d.e < 0
      · rw [if_pos h2]
        obtain ⟨n, hn⟩ : ∃ n : ℕ, d.e = -((n + 1 : ℕ) : ℤ) := ⟨(-d.e).toNat - 1, by omega⟩
        rw [show (-d.e).toNat = n + 1 by omega]
        have hw : (d.m : ℝ) * 2 ^ d.e = d.m / 2 ^ (n + 1) := by
          rw [hn, zpow_neg, zpow_natCast, div_eq_mul_inv]
        have hwpos : 0 < (d.m : ℝ) / 2 ^ (n + 1) := by
          have : 0 < d.m := Nat.pos_of_ne_zero h0
          positivity
        have hR := rbits_shift d.m n
        have hi := intRound_bits (md := md) (s := d.s) hR hwpos
        have hdir : (roundingDirection md B d.m (n + 1) d.s > 0) ↔
            roundIncrement md d.s (d.m.testBit n) (decide (d.m % 2 ^ n ≠ 0)) (decide (d.m / 2 ^ (n + 1) % 2 = 1)) = true := by
          by_cases hB : n + 1 < B
          · exact roundingDirection_spec md hB d.s
          · exact roundingDirection_far (by rcases h with h | h | h; · exact Or.inl h
                                            · exact Or.inr h
                                            · omega) (by omega) hd d.s
        have hzero := roundingDirection_zero md (n := n + 1) hd d.s
        have hcs := roundingDirection_cases md B d.m (n + 1) d.s
        have hq : (if n + 1 ≥ B then 0 else d.m >>> (n + 1)) = d.m / 2 ^ (n + 1) := by
          split
          · rw [shiftRight_big hd (by omega)]
          · rw [Nat.shiftRight_eq_div_pow]
        rw [hq]
        have hlo := hR.lo
        have hhi := hR.hi
        have hqlt : d.m / 2 ^ (n + 1) + 1 ≤ 2 ^ B := le_trans (Nat.add_le_add_right (Nat.div_le_self _ _) 1) hd
        have hval : d.val = sg d.s * ((d.m : ℝ) / 2 ^ (n + 1)) := by rw [d.val_sg, hw]
        have habs : |d.val| = (d.m : ℝ) / 2 ^ (n + 1) := by rw [d.abs_val, hw]
        have hk : ∀ k : ℕ, |((sgi d.s k : ℤ) : ℝ)| = k := by
          intro k; rw [sgi_cast, abs_mul, abs_sg, one_mul, Nat.abs_cast]
        have hfrac : (d.m : ℝ) / 2 ^ (n + 1) = (d.m / 2 ^ (n + 1) : ℕ) ↔ d.m % 2 ^ (n + 1) = 0 := by
          rw [div_eq_iff (by positivity)]
          have e := Nat.div_add_mod' d.m (2 ^ (n + 1))
          constructor
          · intro hh
            have : d.m = d.m / 2 ^ (n + 1) * 2 ^ (n + 1) := by exact_mod_cast hh
            omega
          · intro hh
            have : d.m = d.m / 2 ^ (n + 1) * 2 ^ (n + 1) := by omega
            exact_mod_cast this
        rw [← hval] at hi
        refine ⟨_, hi, ?_, ?_⟩
        · simp only
          by_cases hd1 : roundingDirection md B d.m (n + 1) d.s > 0
          · rw [if_pos hd1, if_pos (hdir.1 hd1), twos _ (Nat.mod_lt _ (by positivity)), sgi_emod]
          · rw [if_neg hd1, if_neg (fun hc => hd1 (hdir.2 hc)), twos _ (by omega)]; rfl
        · simp only
          rw [hk, habs]
          rcases hcs with hc | hc | hc
          · right; left
            refine ⟨hc, ?_⟩
            rw [if_neg (fun hh => by have := hdir.2 hh; omega), sgi_cast, Nat.add_zero, hval, hfrac.2 (hzero.1 hc)]
          · left
            refine ⟨hc, ?_⟩
            rw [if_pos (hdir.1 (by omega))]; push_cast; exact hhi
          · right; right
            refine ⟨hc, ?_⟩
            rw [if_neg (fun hh => by have := hdir.2 hh; omega), Nat.add_zero]
            refine lt_of_le_of_ne hlo (fun hh => ?_)
            have := hzero.2 (hfrac.1 hh.symm)
            omega
      · rw [if_neg h2]
        have he : d.e = 0 := by omega
        have e1 : d.val = (sgi d.s d.m : ℤ) := by rw [sgi_cast, d.val_sg, he]; simp
        refine ⟨_, exactR _ e1, ?_, Or.inr (Or.inl ⟨rfl, e1⟩)⟩
        simp only
        rw [twos _ hd]

end CC
end Verif
