import Verif.Lemmas.IntUtil
import Verif.Lemmas.IntTy

/-!
# C34-C39: bit utilities, checked arithmetic and the integer helpers of `ext/`
-/

namespace Verif
open CC

/-! ## C34 bit utilities -/

/-- C34: for every power-of-two width `N` and every value, `countr_zero` is the number of consecutive zero bits from the bottom -/
theorem C34_countr_zero (k v : ℕ) (hv : v < 2 ^ 2 ^ k) :
    let r := countrZero (2 ^ k) v
    r ≤ 2 ^ k ∧ (∀ i < r, v.testBit i = false) ∧ (r < 2 ^ k → v.testBit r = true) := by
  intro r
  by_cases h0 : v = 0
  · have : r = 2 ^ k := by simp only [r, countrZero, if_pos h0]
    rw [this, h0]; simp
  have hkey : ∃ r', countrZero (2 ^ k) v = r' ∧ r' < 2 ^ k ∧ 2 ^ r' ∣ v ∧ ¬ 2 ^ (r' + 1) ∣ v := by
    unfold countrZero
    rw [if_neg h0]
    by_cases h1 : v &&& 1 ≠ 0
    · rw [if_pos h1]
      refine ⟨0, rfl, Nat.pow_pos (by decide), by simp, ?_⟩
      rw [Nat.and_one_is_mod] at h1
      rw [zero_add, pow_one]; omega
    · rw [if_neg h1]
      have hN : (2 ^ k) >>> 1 = 2 ^ k / 2 := rfl
      rcases k with _ | k
      · exfalso
        simp only [Nat.and_one_is_mod] at h1
        norm_num at hv
        omega
      have h3 : 2 ^ (k + 1) / 2 = 2 ^ k := by rw [pow_succ]; omega
      have h4 : 2 ^ (k + 1) = 2 ^ k + 2 ^ k := by rw [pow_succ]; omega
      have hm : (2 ^ 2 ^ (k + 1) - 1) >>> (2 ^ (k + 1) / 2) = 2 ^ (2 ^ (k + 1) / 2) - 1 := by
        rw [Nat.shiftRight_eq_div_pow, h3, h4, pow_add]
        have hq : 0 < 2 ^ 2 ^ k := Nat.pow_pos (by decide)
        apply Nat.div_eq_of_lt_le
        · have : (2 ^ 2 ^ k - 1) * 2 ^ 2 ^ k + 2 ^ 2 ^ k = 2 ^ 2 ^ k * 2 ^ 2 ^ k := by
            rw [← Nat.succ_mul, Nat.succ_eq_add_one, Nat.sub_add_cancel hq]
          omega
        · rw [Nat.sub_add_cancel hq]
          have : 0 < 2 ^ 2 ^ k * 2 ^ 2 ^ k := Nat.mul_pos hq hq
          omega
      rw [hN, hm]
      obtain ⟨r', e, rest⟩ := ctzLoop_spec (k + 1) (2 ^ (k + 1)) v 0 (by rwa [Nat.mod_eq_of_lt hv]) (le_two_pow_self _) (by simp)
      exact ⟨r', by rw [e]; simp, rest⟩
  obtain ⟨r', e, hr, d, nd⟩ := hkey
  change countrZero (2 ^ k) v = r' at e
  have : r = r' := e
  rw [this]
  refine ⟨hr.le, ?_, ?_⟩
  · intro i hi
    rw [Nat.testBit_eq_decide_div_mod_eq]
    obtain ⟨q, rfl⟩ := d
    obtain ⟨j, hj⟩ := Nat.exists_eq_add_of_lt hi
    have : 2 ^ r' * q / 2 ^ i = 2 * (2 ^ j * q) := by
      rw [hj, show 2 ^ (i + j + 1) * q = 2 ^ i * (2 * (2 ^ j * q)) by ring, Nat.mul_div_cancel_left _ (Nat.pow_pos (by decide))]
    rw [this]; simp
  · intro _
    rw [Nat.testBit_eq_decide_div_mod_eq, decide_eq_true_eq]
    obtain ⟨q, rfl⟩ := d
    rw [Nat.mul_div_cancel_left _ (Nat.pow_pos (by decide))]
    by_contra h
    apply nd
    rw [pow_succ]
    exact Nat.mul_dvd_mul_left _ (by omega)

example : countrZero 64 0x5000 = 12 := by decide

/-- C34: `countl_zero` is the number of consecutive zero bits from the top -/
theorem C34_countl_zero (k v : ℕ) (hv : v < 2 ^ 2 ^ k) :
    let r := countlZero (2 ^ k) v
    r ≤ 2 ^ k ∧ v < 2 ^ (2 ^ k - r) ∧ (r < 2 ^ k → v.testBit (2 ^ k - r - 1) = true) := by
  intro r
  by_cases h0 : v = 0
  · have : r = 2 ^ k := by simp only [r, countlZero, if_pos h0]
    rw [this, h0]; simp
  obtain ⟨r', e, hr, l, u⟩ := clzLoop_spec k (2 ^ k) v 0 h0 hv (le_two_pow_self _) (by simp)
  have : r = r' := by
    have : r = clzLoop (2 ^ k) v (2 ^ k / 2) 0 := by simp only [r, countlZero, if_neg h0]; rfl
    rw [this, e, Nat.zero_add]
  rw [this]
  refine ⟨hr.le, u, fun _ => ?_⟩
  rw [Nat.testBit_eq_decide_div_mod_eq, decide_eq_true_eq]
  have : v / 2 ^ (2 ^ k - r' - 1) = 1 := by
    apply Nat.div_eq_of_lt_le
    · omega
    · have : 2 ^ (2 ^ k - r') = 2 * 2 ^ (2 ^ k - r' - 1) := by
        rw [← pow_succ']; congr 1; omega
      omega
  rw [this]

example : countlZero 64 0x5000 = 49 := by decide

theorem compl_testBit {N v : ℕ} (hv : v < 2 ^ N) (i : ℕ) : (2 ^ N - 1 - v).testBit i = (decide (i < N) && !v.testBit i) := by
  rw [← Nat.testBit_two_pow_sub_succ hv]; congr 1; omega

/-- C34: `countr_one` is the number of consecutive one bits from the bottom -/
theorem C34_countr_one (k v : ℕ) (hv : v < 2 ^ 2 ^ k) :
    let r := countrOne (2 ^ k) v
    r ≤ 2 ^ k ∧ (∀ i < r, v.testBit i = true) ∧ (r < 2 ^ k → v.testBit r = false) := by
  obtain ⟨h1, h2, h3⟩ := C34_countr_zero k (2 ^ 2 ^ k - 1 - v) (by omega)
  refine ⟨h1, fun i hi => ?_, fun hr => ?_⟩
  · have := h2 i hi
    rw [compl_testBit hv] at this
    have hi' : i < 2 ^ k := lt_of_lt_of_le hi h1
    simpa [hi'] using this
  · have := h3 hr
    rw [compl_testBit hv] at this
    simp only [Bool.and_eq_true, Bool.not_eq_true'] at this
    exact this.2

/-- C34: `countl_one` is the number of consecutive one bits from the top -/
theorem C34_countl_one (k v : ℕ) (hv : v < 2 ^ 2 ^ k) :
    let r := countlOne (2 ^ k) v
    r ≤ 2 ^ k ∧ (∀ i, 2 ^ k - r ≤ i → i < 2 ^ k → v.testBit i = true) ∧ (r < 2 ^ k → v.testBit (2 ^ k - r - 1) = false) := by
  intro r
  by_cases h : v = 2 ^ 2 ^ k - 1
  · have : r = 2 ^ k := by simp only [r, countlOne, if_neg (not_not.2 h)]
    rw [this]
    refine ⟨le_rfl, fun i _ hi => ?_, fun h => absurd h (lt_irrefl _)⟩
    rw [h, Nat.testBit_two_pow_sub_one, decide_eq_true_eq]; exact hi
  · have : r = countlZero (2 ^ k) (2 ^ 2 ^ k - 1 - v) := by simp only [r, countlOne, if_pos (show v ≠ 2 ^ 2 ^ k - 1 from h)]
    obtain ⟨h1, h2, h3⟩ := C34_countl_zero k (2 ^ 2 ^ k - 1 - v) (by omega)
    rw [this]
    refine ⟨h1, fun i hi hi2 => ?_, fun hr => ?_⟩
    · have := Nat.testBit_lt_two_pow (lt_of_lt_of_le h2 (Nat.pow_le_pow_right (by decide) hi))
      rw [compl_testBit hv] at this
      simpa [hi2] using this
    · have := h3 hr
      rw [compl_testBit hv] at this
      simp only [Bool.and_eq_true, Bool.not_eq_true'] at this
      exact this.2

example : countrOne 32 0xF00F = 4 ∧ countlOne 16 0xF00F = 4 := by decide

/-- C34: `bit_width` is the number of binary digits -/
theorem C34_bit_width (k v : ℕ) (hv : v < 2 ^ 2 ^ k) :
    let w := bitWidthU (2 ^ k) v
    v < 2 ^ w ∧ (v ≠ 0 → 0 < w ∧ 2 ^ (w - 1) ≤ v) ∧ (v = 0 → w = 0) := by
  intro w
  obtain ⟨h1, h2, h3⟩ := C34_countl_zero k v hv
  refine ⟨h2, fun h => ?_, fun h => ?_⟩
  · have hr : countlZero (2 ^ k) v < 2 ^ k := by
      rcases h1.lt_or_eq with h' | h'
      · exact h'
      · rw [h', Nat.sub_self, pow_zero] at h2; omega
    have := Nat.ge_two_pow_of_testBit (h3 hr)
    refine ⟨?_, this⟩
    change 0 < 2 ^ k - _
    omega
  · change 2 ^ k - countlZero (2 ^ k) v = 0
    unfold countlZero
    rw [if_pos h, Nat.sub_self]

example : bitWidthU 8 0x2F = 6 := by decide

/-- C34: `bit_ceil` is the least power of two not below the argument whenever that is a value of the type, and is undefined
otherwise -/
theorem C34_bit_ceil (k x : ℕ) (hx : x < 2 ^ 2 ^ k) :
    (∀ j, 2 ^ j < 2 ^ 2 ^ k → x ≤ 2 ^ j → (∀ i < j, 2 ^ i < x) → bitCeil (2 ^ k) x = some (2 ^ j)) ∧
    ((∀ j, 2 ^ j < 2 ^ 2 ^ k → 2 ^ j < x) → bitCeil (2 ^ k) x = none) := by
  have hN : 0 < 2 ^ k := Nat.pow_pos (by decide)
  by_cases h2 : x < 2
  · constructor
    · intro j _ hj hmin
      have : j = 0 := by
        by_contra h
        have := hmin 0 (by omega)
        simp at this; omega
      simp [bitCeil, h2, this]
    · intro h
      have := h 0 (Nat.pow_lt_pow_right (by decide) hN)
      have h' := h (2 ^ k - 1) (Nat.pow_lt_pow_right (by decide) (by omega))
      simp at this; omega
  obtain ⟨w1, w2, -⟩ := C34_bit_width k (x - 1) (by omega)
  obtain ⟨w3, w2⟩ := w2 (by omega)
  have hw : 2 ^ k - countlZero (2 ^ k) (x - 1) = bitWidthU (2 ^ k) (x - 1) := rfl
  set w := bitWidthU (2 ^ k) (x - 1) with hwdef
  have hwN : w ≤ 2 ^ k := by rw [hwdef]; exact Nat.sub_le _ _
  have val : bitCeil (2 ^ k) x = if w < 2 ^ k then some (2 ^ w) else none := by
    unfold bitCeil
    rw [if_neg h2]
    simp only [hw]
    by_cases h32 : 32 ≤ 2 ^ k
    · rw [if_pos h32, Nat.one_shiftLeft]
    · rw [if_neg h32]
      by_cases hlt : w < 2 ^ k
      · rw [if_pos (by omega), if_pos hlt]
        rw [Nat.one_shiftLeft, Nat.shiftRight_eq_div_pow, pow_add, Nat.mul_div_cancel _ (Nat.pow_pos (by decide)),
          Nat.mod_eq_of_lt (Nat.pow_lt_pow_right (by decide) hlt)]
      · rw [if_neg (by omega), if_neg hlt]
  constructor
  · intro j hj hxj hmin
    have hjw : j = w := by
      apply le_antisymm
      · by_contra h
        have := hmin w (by omega)
        omega
      · by_contra h
        have : 2 ^ j ≤ 2 ^ (w - 1) := Nat.pow_le_pow_right (by decide) (by omega)
        omega
    have : w < 2 ^ k := by
      rw [← hjw]; exact (Nat.pow_lt_pow_iff_right (by decide)).1 hj
    rw [val, if_pos this, hjw]
  · intro h
    rw [val, if_neg]
    intro hlt
    have := h w (Nat.pow_lt_pow_right (by decide) hlt)
    omega

example : bitCeil 32 1000 = some 1024 ∧ bitCeil 8 129 = none ∧ bitCeil 8 128 = some 128 := by decide

/-- C34: `has_single_bit` decides powers of two, for every width -/
theorem C34_has_single_bit (x : ℕ) : hasSingleBit x = true ↔ ∃ k, x = 2 ^ k := by
  unfold hasSingleBit
  by_cases h : x = 0
  · subst h
    simp only [bne_self_eq_false, Bool.false_and, Bool.false_eq_true, false_iff, not_exists]
    intro k hk
    exact absurd hk (Nat.pow_pos (by decide)).ne
  · simp only [bne_iff_ne, ne_eq, h, not_false_eq_true, Bool.and_eq_true, beq_iff_eq, true_and]
    exact and_pred_eq_zero_iff h

/-- C34: the portable `popcount` counts the one bits, for every width -/
theorem C34_popcount (N v : ℕ) : popcount N v = ((Finset.range N).filter (fun i => v.testBit i)).card := popcount_eq N v

/-- C34: the fallback for 64-bit types counts the one bits -/
theorem C34_popcount64 (n : ℕ) (hn : n < 2 ^ 64) :
    popcount64 n = ((Finset.range 64).filter (fun i => n.testBit i)).card := popcount64_eq hn

/-- C34: the fallback for `unsigned char` counts the one bits -/
theorem C34_popcount8 (n : ℕ) (hn : n < 2 ^ 8) :
    popcount8 n = ((Finset.range 8).filter (fun i => n.testBit i)).card := by
  have h : ∀ m : Fin 256, popcount8 m = ((Finset.range 8).filter (fun i => (m : ℕ).testBit i)).card := by decide +kernel
  exact h ⟨n, hn⟩

example : popcount64 0xFFFF0000FFFF = 32 := by decide +kernel

/-- C34 fails for the 16-bit and 32-bit fallbacks (missing parentheses; wrong final shift): `3` has two one bits and `1` has one -/
theorem C34_popcount_fallback_wrong :
    popcount16 1 = 0 ∧ popcount16 3 = 0 ∧ popcount32 3 = 0 ∧
    ((Finset.range 16).filter (fun i => (1 : ℕ).testBit i)).card = 1 ∧
    ((Finset.range 16).filter (fun i => (3 : ℕ).testBit i)).card = 2 := by decide +kernel

theorem rot_bits {N t a : ℕ} (ht : t < 2 ^ N) (_ha : 0 < a) (haN : a < N) (i : ℕ) (hi : i < N) :
    (((t >>> a) ||| (t <<< (N - a))) % 2 ^ N).testBit i = t.testBit ((i + a) % N) := by
  rw [Nat.testBit_mod_two_pow, Nat.testBit_or, Nat.testBit_shiftRight, Nat.testBit_shiftLeft]
  simp only [hi, decide_true, Bool.true_and]
  by_cases h : i + a < N
  · rw [Nat.mod_eq_of_lt h, Nat.add_comm a i]
    simp [show ¬ i ≥ N - a by omega]
  · rw [Nat.mod_eq_sub_mod (by omega), Nat.mod_eq_of_lt (by omega)]
    have : t.testBit (a + i) = false := Nat.testBit_lt_two_pow (lt_of_lt_of_le ht (Nat.pow_le_pow_right (by decide) (by omega)))
    rw [this]
    simp only [show i ≥ N - a by omega, decide_true, Bool.true_and, Bool.false_or]
    congr 1; omega

/-- C34: for every width of at most 32 bits or any larger power of two up to `2^31` (`N ∣ 2^31`), `rotr` moves bit
`(i + cnt) mod N` to position `i`, for every `int` count, negative ones included, without undefined behaviour -/
theorem C34_rotr (k t : ℕ) (cnt : ℤ) (hk : k ≤ 31) (ht : t < 2 ^ 2 ^ k) (hc : -2 ^ 31 ≤ cnt) (hc' : cnt < 2 ^ 31) :
    ∃ r, rotr (2 ^ k) t cnt = some r ∧ r < 2 ^ 2 ^ k ∧
      ∀ i : ℕ, i < 2 ^ k → r.testBit i = t.testBit (((i : ℤ) + cnt) % 2 ^ k).toNat := by
  have hN : 0 < 2 ^ k := Nat.pow_pos (by decide)
  have hNz : (0 : ℤ) < 2 ^ k := by exact_mod_cast hN
  have hd : (2 : ℤ) ^ k ∣ 2 ^ 32 := pow_dvd_pow 2 (by omega)
  have hmod : (((cnt % 2 ^ 32).toNat % 2 ^ k : ℕ) : ℤ) = cnt % 2 ^ k := by
    rw [Int.natCast_mod, Int.toNat_of_nonneg (Int.emod_nonneg _ (by norm_num))]
    push_cast
    exact Int.emod_emod_of_dvd _ hd
  unfold rotr
  by_cases h0 : (cnt % 2 ^ 32).toNat % 2 ^ k = 0
  · rw [if_pos h0]
    refine ⟨t, rfl, ht, fun i hi => ?_⟩
    have h1 : cnt % 2 ^ k = 0 := by rw [← hmod, h0]; rfl
    have : ((i : ℤ) + cnt) % 2 ^ k = i := by
      rw [Int.add_emod, h1, add_zero, Int.emod_emod]
      exact Int.emod_eq_of_lt (by omega) (by exact_mod_cast hi)
    rw [this]; simp
  · rw [if_neg h0]
    have h1 : cnt % 2 ^ k ≠ 0 := by
      intro h; rw [h] at hmod; exact h0 (by exact_mod_cast hmod)
    have lt_mod : ∀ x : ℕ, x % 2 ^ 2 ^ k < 2 ^ 2 ^ k := fun x => Nat.mod_lt _ (Nat.pow_pos (by decide))
    by_cases hneg : cnt < 0
    · rw [if_pos hneg, if_neg]
      swap
      · rintro rfl
        apply h1
        exact Int.emod_eq_zero_of_dvd ((Int.dvd_neg).2 (pow_dvd_pow 2 hk))
      refine ⟨_, rfl, lt_mod _, fun i hi => ?_⟩
      set c := (-cnt).toNat with hcdef
      have hcz : (c : ℤ) = -cnt := Int.toNat_of_nonneg (by omega)
      have hcm : c % 2 ^ k ≠ 0 := by
        intro h
        apply h1
        have : ((c % 2 ^ k : ℕ) : ℤ) = (-cnt) % 2 ^ k := by rw [Int.natCast_mod, hcz]; norm_num
        rw [h] at this
        have h2 : (2 : ℤ) ^ k ∣ -cnt := Int.dvd_of_emod_eq_zero this.symm
        exact Int.emod_eq_zero_of_dvd ((Int.dvd_neg).1 h2)
      have hcl : c % 2 ^ k < 2 ^ k := Nat.mod_lt _ hN
      rw [Nat.or_comm]
      have := rot_bits ht (show 0 < 2 ^ k - c % 2 ^ k by omega) (by omega) i hi
      rw [Nat.sub_sub_self hcl.le] at this
      rw [this]
      congr 1
      have e : (((i + (2 ^ k - c % 2 ^ k)) % 2 ^ k : ℕ) : ℤ) = ((i : ℤ) + cnt) % 2 ^ k := by
        rw [Int.natCast_mod, Int.natCast_add, Int.natCast_sub hcl.le, Int.natCast_mod, hcz]
        push_cast
        rw [show (i : ℤ) + (2 ^ k - -cnt % 2 ^ k) = (i + cnt) + 2 ^ k * (1 + (-cnt) / 2 ^ k) by
          have := Int.emod_add_mul_ediv (-cnt) (2 ^ k); linarith, Int.add_mul_emod_self_left]
      omega
    · rw [if_neg hneg]
      refine ⟨_, rfl, lt_mod _, fun i hi => ?_⟩
      set c := cnt.toNat with hcdef
      have hcz : (c : ℤ) = cnt := Int.toNat_of_nonneg (by omega)
      have hcc : ((c % 2 ^ k : ℕ) : ℤ) = cnt % 2 ^ k := by rw [Int.natCast_mod, hcz]; norm_num
      have hcm : c % 2 ^ k ≠ 0 := by
        intro h; rw [h] at hcc; exact h1 hcc.symm
      have hcl : c % 2 ^ k < 2 ^ k := Nat.mod_lt _ hN
      rw [rot_bits ht (by omega) hcl i hi]
      congr 1
      have e : (((i + c % 2 ^ k) % 2 ^ k : ℕ) : ℤ) = ((i : ℤ) + cnt) % 2 ^ k := by
        rw [Int.natCast_mod, Int.natCast_add, hcc]
        push_cast
        rw [Int.add_emod_emod]
      omega

/-- C34: `rotl` moves bit `(i - cnt) mod N` to position `i`, for every `int` count except `INT_MIN`, whose negation is undefined -/
theorem C34_rotl (k t : ℕ) (cnt : ℤ) (hk : k ≤ 31) (ht : t < 2 ^ 2 ^ k) (hc : -2 ^ 31 < cnt) (hc' : cnt < 2 ^ 31) :
    ∃ r, rotl (2 ^ k) t cnt = some r ∧ r < 2 ^ 2 ^ k ∧
      ∀ i : ℕ, i < 2 ^ k → r.testBit i = t.testBit (((i : ℤ) - cnt) % 2 ^ k).toNat := by
  unfold rotl
  rw [if_neg (by omega)]
  simpa only [sub_eq_add_neg] using C34_rotr k t (-cnt) hk ht (by omega) (by omega)

/-- C34 fails for `rotl(t, INT_MIN)`: undefined -/
theorem C34_rotl_undefined (N t : ℕ) : rotl N t (-2 ^ 31) = none := by simp [rotl]

example : rotr 8 0b10010011 3 = some 0b01110010 ∧ rotl 8 0b10010011 3 = some 0b10011100 ∧ rotr 8 0b10010011 (-3) = some 0b10011100 := by
  decide

/-! ## C35 checked addition and subtraction -/

/-- C35: `add_overflow` reports overflow exactly when the exact sum is not a value of the type; otherwise it stores the exact sum.
For unsigned types the stored value is the sum modulo `2^N` in every case; for signed types the destination is left alone on
overflow. -/
theorem C35_add_overflow (t : ITy) (hN : 1 ≤ t.N) (a b old : ℤ) (ha : t.Has a) (hb : t.Has b) :
    ((addOverflow t a b old).1 = true ↔ ¬ t.Has (a + b)) ∧
    (t.Has (a + b) → (addOverflow t a b old).2 = a + b) ∧
    (¬ t.Has (a + b) → (addOverflow t a b old).2 = if t.signed then old else a + b - 2 ^ t.N) := by
  have h2 := ITy.two_pow_N hN
  have h2n := ITy.two_pow_N_nat hN
  have hp : (0 : ℤ) < 2 ^ (t.N - 1) := by positivity
  have ra := ITy.repr_of hN ha
  have rb := ITy.repr_of hN hb
  have la := t.repr_lt a
  have lb := t.repr_lt b
  unfold addOverflow
  set ua := t.repr a
  set ub := t.repr b
  have hM : ((2 ^ (t.N - 1) : ℕ) : ℤ) = 2 ^ (t.N - 1) := by push_cast; rfl
  have hmod : (ua + ub) % 2 ^ t.N = if ua + ub < 2 ^ t.N then ua + ub else ua + ub - 2 ^ t.N := by
    split
    · exact Nat.mod_eq_of_lt ‹_›
    · rw [Nat.mod_eq_sub_mod (by omega), Nat.mod_eq_of_lt (by omega)]
  have lu : (ua + ub) % 2 ^ t.N < 2 ^ t.N := Nat.mod_lt _ (Nat.pow_pos (by decide))
  simp only
  set us := (ua + ub) % 2 ^ t.N with hus
  clear_value us ua ub
  by_cases hs : t.signed = true
  · simp only [hs, if_true]
    have hx : ua ^^^ ub < 2 ^ t.N := Nat.xor_lt_two_pow la lb
    have top : ∀ x : ℕ, x < 2 ^ t.N → x.testBit (t.N - 1) = decide (2 ^ (t.N - 1) ≤ x) := fun x hx =>
      testBit_top (by rwa [Nat.sub_add_cancel hN])
    have hov : ((2 ^ t.N - 1 - (ua ^^^ ub) &&& (ua ^^^ us)) &&& 2 ^ (t.N - 1) != 0) = true ↔ ¬ t.Has (a + b) := by
      rw [and_two_pow_ne_zero, Nat.testBit_and, compl_testBit hx, Nat.testBit_xor, Nat.testBit_xor, top _ la, top _ lb, top _ lu]
      rw [ITy.has_signed hs] at ha hb ⊢
      simp only [show t.N - 1 < t.N by omega, decide_true, Bool.true_and]
      simp only [Bool.and_eq_true, Bool.not_eq_true', bne_iff_ne, ne_eq, decide_eq_decide,
        bne_eq_false_iff_eq]
      split_ifs at ra rb hmod <;> omega
    have hc : t.Has (a + b) → t.conv us = a + b := by
      intro h
      apply ITy.conv_unique hN h
      rw [h2]
      have : ((us : ℤ) - (a + b)) = 0 ∨ ((us : ℤ) - (a + b)) = 2 * 2 ^ (t.N - 1) ∨ ((us : ℤ) - (a + b)) = - (2 * 2 ^ (t.N - 1)) := by
        rw [ITy.has_signed hs] at ha hb h
        split_ifs at ra rb hmod <;> omega
      rcases this with h | h | h <;> rw [h] <;> simp
    refine ⟨hov, fun h => ?_, fun h => ?_⟩
    · rw [if_neg (fun h' => hov.1 h' h)]; exact hc h
    · rw [if_pos (hov.2 h)]
  · have hs' := hs
    simp only [Bool.not_eq_true] at hs'
    rw [ITy.has_unsigned hs'] at ha hb
    simp only [hs', Bool.false_eq_true, if_false, decide_eq_true_eq, ITy.has_unsigned hs']
    rw [h2]
    split_ifs at ra rb hmod <;> omega

/-- C35: `sub_overflow` likewise -/
theorem C35_sub_overflow (t : ITy) (hN : 1 ≤ t.N) (a b old : ℤ) (ha : t.Has a) (hb : t.Has b) :
    ((subOverflow t a b old).1 = true ↔ ¬ t.Has (a - b)) ∧
    (t.Has (a - b) → (subOverflow t a b old).2 = a - b) ∧
    (¬ t.Has (a - b) → (subOverflow t a b old).2 = if t.signed then old else a - b + 2 ^ t.N) := by
  have h2 := ITy.two_pow_N hN
  have h2n := ITy.two_pow_N_nat hN
  have hp : (0 : ℤ) < 2 ^ (t.N - 1) := by positivity
  have ra := ITy.repr_of hN ha
  have rb := ITy.repr_of hN hb
  have la := t.repr_lt a
  have lb := t.repr_lt b
  unfold subOverflow
  set ua := t.repr a
  set ub := t.repr b
  have hM : ((2 ^ (t.N - 1) : ℕ) : ℤ) = 2 ^ (t.N - 1) := by push_cast; rfl
  have hmod : (ua + 2 ^ t.N - ub) % 2 ^ t.N = if ua < ub then ua + 2 ^ t.N - ub else ua - ub := by
    split
    · exact Nat.mod_eq_of_lt (by omega)
    · rw [Nat.mod_eq_sub_mod (by omega), Nat.mod_eq_of_lt (by omega)]; omega
  have lu : (ua + 2 ^ t.N - ub) % 2 ^ t.N < 2 ^ t.N := Nat.mod_lt _ (Nat.pow_pos (by decide))
  simp only
  set us := (ua + 2 ^ t.N - ub) % 2 ^ t.N with hus
  clear_value us ua ub
  by_cases hs : t.signed = true
  · simp only [hs, if_true]
    have top : ∀ x : ℕ, x < 2 ^ t.N → x.testBit (t.N - 1) = decide (2 ^ (t.N - 1) ≤ x) := fun x hx =>
      testBit_top (by rwa [Nat.sub_add_cancel hN])
    have hov : (((ua ^^^ ub) &&& (ua ^^^ us)) &&& 2 ^ (t.N - 1) != 0) = true ↔ ¬ t.Has (a - b) := by
      rw [and_two_pow_ne_zero, Nat.testBit_and, Nat.testBit_xor, Nat.testBit_xor, top _ la, top _ lb, top _ lu]
      rw [ITy.has_signed hs] at ha hb ⊢
      simp only [Bool.and_eq_true, bne_iff_ne, ne_eq, decide_eq_decide]
      split_ifs at ra rb hmod <;> omega
    have hc : t.Has (a - b) → t.conv us = a - b := by
      intro h
      apply ITy.conv_unique hN h
      rw [h2]
      have : ((us : ℤ) - (a - b)) = 0 ∨ ((us : ℤ) - (a - b)) = 2 * 2 ^ (t.N - 1) ∨ ((us : ℤ) - (a - b)) = - (2 * 2 ^ (t.N - 1)) := by
        rw [ITy.has_signed hs] at ha hb h
        split_ifs at ra rb hmod <;> omega
      rcases this with h | h | h <;> rw [h] <;> simp
    refine ⟨hov, fun h => ?_, fun h => ?_⟩
    · rw [if_neg (fun h' => hov.1 h' h)]; exact hc h
    · rw [if_pos (hov.2 h)]
  · have hs' := hs
    simp only [Bool.not_eq_true] at hs'
    rw [ITy.has_unsigned hs'] at ha hb
    simp only [hs', Bool.false_eq_true, if_false, decide_eq_true_eq, ITy.has_unsigned hs']
    rw [h2]
    split_ifs at ra rb hmod <;> omega

/-- C35: `a + b + carry_in = sum + 2^N * carry_out` for words `a`, `b` and a carry of 0 or 1 -/
theorem C35_add_with_carry (N a b c : ℕ) (hN : 1 ≤ N) (ha : a < 2 ^ N) (hb : b < 2 ^ N) (hc : c ≤ 1) :
    let r := addWithCarry N a b c
    a + b + c = r.1 + 2 ^ N * r.2 ∧ r.1 < 2 ^ N ∧ r.2 ≤ 1 := by
  have hr : ∀ x : ℕ, x < 2 ^ N → (ITy.mk N false).repr x = x := by
    intro x hx
    have := (ITy.mk N false).repr_cast x
    rw [Int.emod_eq_of_lt (by omega) (by exact_mod_cast hx)] at this
    exact_mod_cast this
  have hp : 0 < 2 ^ N := Nat.pow_pos (by decide)
  have hmod : ∀ x y : ℕ, x < 2 ^ N → y < 2 ^ N → (x + y) % 2 ^ N = if x + y < 2 ^ N then x + y else x + y - 2 ^ N := by
    intro x y hx hy
    split
    · exact Nat.mod_eq_of_lt ‹_›
    · rw [Nat.mod_eq_sub_mod (by omega), Nat.mod_eq_of_lt (by omega)]
  have hc2 : c < 2 ^ N := lt_of_le_of_lt hc (Nat.one_lt_two_pow (by omega))
  simp only [addWithCarry, addOverflow, Bool.false_eq_true, if_false, hr a ha, hr b hb, hr c hc2]
  have l1 : (a + b) % 2 ^ N < 2 ^ N := Nat.mod_lt _ hp
  rw [hr _ l1]
  have l2 : ((a + b) % 2 ^ N + c) % 2 ^ N < 2 ^ N := Nat.mod_lt _ hp
  rw [Int.toNat_natCast]
  have m1 := hmod a b ha hb
  have m2 := hmod _ c l1 hc2
  set u := (a + b) % 2 ^ N
  set w := (u + c) % 2 ^ N
  clear_value u w
  by_cases h1 : u < a <;> by_cases h2 : w < u <;> simp only [h1, h2, decide_true, decide_false, Bool.toNat_true, Bool.toNat_false] <;>
    (try norm_num) <;> split_ifs at m1 m2 <;> omega

/-- C35: `a - b - borrow_in = diff - 2^N * borrow_out` for words `a`, `b` and a borrow of 0 or 1 -/
theorem C35_sub_with_borrow (N a b c : ℕ) (hN : 1 ≤ N) (ha : a < 2 ^ N) (hb : b < 2 ^ N) (hc : c ≤ 1) :
    let r := subWithBorrow N a b c
    (a : ℤ) - b - c = (r.1 : ℤ) - 2 ^ N * r.2 ∧ r.1 < 2 ^ N ∧ r.2 ≤ 1 := by
  have hr : ∀ x : ℕ, x < 2 ^ N → (ITy.mk N false).repr x = x := by
    intro x hx
    have := (ITy.mk N false).repr_cast x
    rw [Int.emod_eq_of_lt (by omega) (by exact_mod_cast hx)] at this
    exact_mod_cast this
  have hp : 0 < 2 ^ N := Nat.pow_pos (by decide)
  have hmod : ∀ x y : ℕ, x < 2 ^ N → y < 2 ^ N → (x + 2 ^ N - y) % 2 ^ N = if x < y then x + 2 ^ N - y else x - y := by
    intro x y hx hy
    split
    · exact Nat.mod_eq_of_lt (by omega)
    · rw [Nat.mod_eq_sub_mod (by omega), Nat.mod_eq_of_lt (by omega)]; omega
  have hc2 : c < 2 ^ N := lt_of_le_of_lt hc (Nat.one_lt_two_pow (by omega))
  simp only [subWithBorrow, subOverflow, Bool.false_eq_true, if_false, hr a ha, hr b hb, hr c hc2]
  have l1 : (a + 2 ^ N - b) % 2 ^ N < 2 ^ N := Nat.mod_lt _ hp
  rw [hr _ l1]
  have l2 : ((a + 2 ^ N - b) % 2 ^ N + 2 ^ N - c) % 2 ^ N < 2 ^ N := Nat.mod_lt _ hp
  rw [Int.toNat_natCast]
  have m1 := hmod a b ha hb
  have m2 := hmod _ c l1 hc2
  set u := (a + 2 ^ N - b) % 2 ^ N
  set w := (u + 2 ^ N - c) % 2 ^ N
  clear_value u w
  have hz : ((2 ^ N : ℕ) : ℤ) = 2 ^ N := by push_cast; rfl
  rw [← hz]
  generalize 2 ^ N = P at *
  by_cases h1 : a < b <;> by_cases h2 : u < c <;> simp only [h1, h2, decide_true, decide_false, Bool.toNat_true, Bool.toNat_false] <;>
    (try norm_num) <;> split_ifs at m1 m2 <;> omega

example : addOverflow ⟨32, true⟩ 2147483647 1 7 = (true, 7) ∧ addOverflow ⟨32, false⟩ 4294967295 2 7 = (true, 1) ∧
    subOverflow ⟨32, true⟩ (-2147483648) 1 7 = (true, 7) ∧ subOverflow ⟨32, true⟩ 3 5 7 = (false, -2) ∧
    addWithCarry 64 (2 ^ 64 - 1) 0 1 = (0, 1) ∧ subWithBorrow 64 0 0 1 = (2 ^ 64 - 1, 1) := by decide +kernel

/-! ## C36 alignment -/

theorem has_mask {t : ITy} (hN : 1 ≤ t.N) {k : ℕ} (hk : t.Has (2 ^ k)) : t.Has (2 ^ k - 1) := by
  have hp : (0 : ℤ) < 2 ^ k := by positivity
  have hp' : (0 : ℤ) < 2 ^ (t.N - 1) := by positivity
  cases hs : t.signed
  · rw [ITy.has_unsigned hs] at *; omega
  · rw [ITy.has_signed hs] at *; omega

theorem dvd_room {P m M : ℤ} (hP : 0 < P) (hm : P ∣ m) (hM : P ∣ M) (h : m < M) : m + P ≤ M := by
  obtain ⟨a, rfl⟩ := hm
  obtain ⟨b, rfl⟩ := hM
  have : a < b := lt_of_mul_lt_mul_left h hP.le
  have : P * (a + 1) ≤ P * b := mul_le_mul_of_nonneg_left (by omega) hP.le
  linarith

/-- a multiple of the alignment leaves room for the next `2^k - 1` values -/
theorem has_room {t : ITy} (hN : 1 ≤ t.N) {k : ℕ} (hk : t.Has (2 ^ k)) {m : ℤ} (hd : (2 : ℤ) ^ k ∣ m) (hm : t.Has m) :
    t.Has (m + 2 ^ k - 1) := by
  have hkN := ITy.has_pow hN hk
  have hp : (0 : ℤ) < 2 ^ k := by positivity
  cases hs : t.signed
  · rw [ITy.has_unsigned hs] at *
    have := dvd_room hp hd (pow_dvd_pow 2 (by omega : k ≤ t.N)) hm.2
    omega
  · rw [ITy.has_signed hs] at *
    have := dvd_room hp hd (pow_dvd_pow 2 (by omega : k ≤ t.N - 1)) hm.2
    omega

theorem sub_mod_eq {P s m : ℤ} (hd : P ∣ m) (h1 : m ≤ s) (h2 : s < m + P) : s - s % P = m := by
  obtain ⟨q, rfl⟩ := hd
  have : s % P = s - P * q := by
    rw [show s = (s - P * q) + P * q by ring, Int.add_mul_emod_self_left]
    rw [Int.emod_eq_of_lt (by omega) (by omega)]; ring
  rw [this]; ring

/-- C36: `align_up` is the least multiple of the alignment that is at least the value, whenever that multiple is a value of the
type; every value, every alignment `2^k` representable in the type, every width, signed and unsigned -/
theorem C36_align_up (t : ITy) (hN : 1 ≤ t.N) (k : ℕ) (v m : ℤ) (hk : t.Has (2 ^ k)) (hv : t.Has v)
    (hm : t.Has m) (hd : (2 : ℤ) ^ k ∣ m) (hle : v ≤ m) (hleast : m < v + 2 ^ k) : alignUp t k v = some m := by
  have hp := ITy.promote_N hN
  have hkN := ITy.has_pow hN hk
  have hk0 : (0 : ℤ) < 2 ^ k := by positivity
  have hs : t.promote.Has (v + (2 ^ k - 1)) := by
    have h1 := has_room hp.1 (ITy.has_promote hk) hd (ITy.has_promote hm)
    have h2 := ITy.has_promote hv
    exact ⟨by have := h2.1; omega, by have := h1.2; omega⟩
  simp only [alignUp, ITy.conv_eq hN (has_mask hN hk), ITy.arith_eq hs, Option.bind_eq_bind, Option.bind_some,
    ITy.band_mask (show k ≤ t.promote.N by omega)]
  rw [sub_mod_eq hd (by omega) (by omega), ITy.conv_eq hp.1 (ITy.has_promote hm), ITy.conv_eq hN hm]
  rfl

/-- C36: when the least multiple is not a value of the type, an unsigned `align_up` silently returns 0 -/
theorem C36_align_up_wraps (t : ITy) (hN : 1 ≤ t.N) (hs : t.signed = false) (k : ℕ) (v : ℤ) (hk : t.Has (2 ^ k)) (hv : t.Has v)
    (hw : t.N ≠ 31) (hbig : 2 ^ t.N - 2 ^ k < v) : alignUp t k v = some 0 := by
  have hp := ITy.promote_N hN
  have hkN := ITy.has_pow hN hk
  have hk0 : (0 : ℤ) < 2 ^ k := by positivity
  have hv' := hv
  rw [ITy.has_unsigned hs] at hv'
  have h0 : t.Has 0 := by rw [ITy.has_unsigned hs]; constructor <;> positivity
  simp only [alignUp, ITy.conv_eq hN (has_mask hN hk)]
  by_cases h32 : t.N < 32
  · have hpr : t.promote = ⟨32, true⟩ := if_pos h32
    have hle : (2 : ℤ) ^ t.N ≤ 2 ^ 31 := pow_le_pow_right₀ (by norm_num) (by omega)
    have hkl : (2 : ℤ) ^ k ≤ 2 ^ 30 := pow_le_pow_right₀ (by norm_num) (by omega)
    have hle : (2 : ℤ) ^ t.N ≤ 2 ^ 30 := pow_le_pow_right₀ (by norm_num) (by omega)
    have hH : t.promote.Has (v + (2 ^ k - 1)) := by
      rw [hpr, ITy.has_signed rfl]
      change -2 ^ 31 ≤ _ ∧ _ < 2 ^ 31
      omega
    have hT : t.promote.Has (2 ^ t.N) := by
      rw [hpr, ITy.has_signed rfl]
      change -2 ^ 31 ≤ _ ∧ _ < 2 ^ 31
      omega
    rw [ITy.arith_eq hH]
    simp only [Option.bind_eq_bind, Option.bind_some, ITy.band_mask (show k ≤ t.promote.N by omega)]
    rw [sub_mod_eq (pow_dvd_pow 2 hkN.le) (by omega) (by omega), ITy.conv_eq hp.1 hT, ITy.conv_unique hN h0 (by simp)]
    rfl
  · have hpr : t.promote = t := if_neg h32
    rw [hpr]
    have : t.arith (v + (2 ^ k - 1)) = some (v + (2 ^ k - 1) - 2 ^ t.N) := by
      rw [ITy.arith, if_neg (by simp [hs])]
      rw [show v + (2 ^ k - 1) = (v + (2 ^ k - 1) - 2 ^ t.N) + 2 ^ t.N by ring, Int.add_emod_right,
        Int.emod_eq_of_lt (by omega) (by
          have : (2 : ℤ) ^ k ≤ 2 ^ t.N := pow_le_pow_right₀ (by norm_num) hkN.le
          omega)]
      congr 1; ring
    rw [this]
    simp only [Option.bind_eq_bind, Option.bind_some, ITy.band_mask hkN.le]
    rw [sub_mod_eq (dvd_zero _) (by omega) (by omega), ITy.conv_eq hN h0, ITy.conv_eq hN h0]
    rfl

/-- C36: ... and a signed one of at least the width of `int` is undefined -/
theorem C36_align_up_undefined (t : ITy) (hN : 32 ≤ t.N) (hs : t.signed = true) (k : ℕ) (v : ℤ) (hk : t.Has (2 ^ k))
    (hbig : 2 ^ (t.N - 1) - 2 ^ k < v) : alignUp t k v = none := by
  have hpr : t.promote = t := if_neg (by omega)
  simp only [alignUp, ITy.conv_eq (by omega) (has_mask (by omega) hk), hpr]
  have : t.arith (v + (2 ^ k - 1)) = none := by
    rw [ITy.arith, if_pos hs, if_neg]
    rw [ITy.has_signed hs]; omega
  rw [this]; rfl

example : alignUp ⟨32, true⟩ 4 (-17) = some (-16) ∧ alignUp ⟨64, false⟩ 3 41 = some 48 ∧ alignDown ⟨8, true⟩ 4 (-17) = -32 := by
  decide +kernel

/-- C36: `align_down` is the greatest multiple of the alignment that is at most the value (it is always a value of the type) -/
theorem C36_align_down (t : ITy) (hN : 1 ≤ t.N) (k : ℕ) (v : ℤ) (hk : t.Has (2 ^ k)) (hv : t.Has v) :
    t.Has (alignDown t k v) ∧ (2 : ℤ) ^ k ∣ alignDown t k v ∧ alignDown t k v ≤ v ∧ v < alignDown t k v + 2 ^ k := by
  have hp := ITy.promote_N hN
  have hkN := ITy.has_pow hN hk
  have hk0 : (0 : ℤ) < 2 ^ k := by positivity
  have h1 : v % 2 ^ k < 2 ^ k := Int.emod_lt_of_pos _ hk0
  have h2 : 0 ≤ v % 2 ^ k := Int.emod_nonneg _ hk0.ne'
  have hd : (2 : ℤ) ^ k ∣ v - v % 2 ^ k := Int.dvd_self_sub_emod
  have hH : t.Has (v - v % 2 ^ k) := by
    cases hs : t.signed
    · rw [ITy.has_unsigned hs] at *
      refine ⟨?_, by omega⟩
      by_contra h
      have := dvd_room hk0 hd (dvd_zero _) (not_le.1 h)
      omega
    · rw [ITy.has_signed hs] at *
      refine ⟨?_, by omega⟩
      by_contra h
      have hd2 : (2 : ℤ) ^ k ∣ -2 ^ (t.N - 1) := (Int.dvd_neg).2 (pow_dvd_pow 2 (by omega))
      have := dvd_room hk0 hd hd2 (not_le.1 h)
      omega
  have e : alignDown t k v = v - v % 2 ^ k := by
    simp only [alignDown, ITy.conv_eq hN (has_mask hN hk), ITy.band_mask (show k ≤ t.promote.N by omega)]
    rw [ITy.conv_eq hp.1 (ITy.has_promote hH), ITy.conv_eq hN hH]
  rw [e]
  exact ⟨hH, hd, by omega, by omega⟩

/-! ## C37 ceil_div -/

/-- C37 (partial: nonnegative dividend, and `a + b - 1` must be a value of the type the sum is computed in): `ceil_div(a, b)` is the
least integer `q` with `q * b ≥ a`.  The full claim is for every `a` and every `b > 0`; it fails, see `C37_ceil_div_wrong`. -/
theorem C37_ceil_div_partial (t : ITy) (hN : 1 ≤ t.N) (a b : ℤ) (ha : t.Has a) (h0 : 0 ≤ a) (hpos : 0 < b)
    (hs : t.promote.Has (a + b)) :
    ∃ q, ceilDiv t a b = some q ∧ a ≤ q * b ∧ (q - 1) * b < a := by
  have hp := ITy.promote_N hN
  have hs1 : t.promote.Has (a + b - 1) := by
    have h1 := ITy.has_promote ha
    exact ⟨by have := h1.1; omega, by have := hs.2; omega⟩
  have hq0 : 0 ≤ (a + b - 1) / b := Int.ediv_nonneg (by omega) hpos.le
  have e := Int.emod_add_mul_ediv (a + b - 1) b
  have m1 := Int.emod_nonneg (a + b - 1) hpos.ne'
  have m2 := Int.emod_lt_of_pos (a + b - 1) hpos
  set q := (a + b - 1) / b with hq
  have hle : a ≤ q * b := by nlinarith
  have hlt : (q - 1) * b < a := by nlinarith
  have hqa : q ≤ a := by
    by_contra h
    have : a * b ≤ (q - 1) * b := mul_le_mul_of_nonneg_right (by omega) hpos.le
    nlinarith
  have hH : t.Has q := by
    refine ⟨?_, by have := ha.2; omega⟩
    cases hsg : t.signed
    · simp only [ITy.min, hsg, Bool.false_eq_true, if_false]; exact hq0
    · simp only [ITy.min, hsg, if_true]
      have : (0 : ℤ) < 2 ^ (t.N - 1) := by positivity
      omega
  refine ⟨q, ?_, hle, hlt⟩
  simp only [ceilDiv, ITy.arith_eq hs, ITy.arith_eq hs1, Option.bind_eq_bind, Option.bind_some, if_neg hpos.ne',
    Int.tdiv_eq_ediv_of_nonneg (show 0 ≤ a + b - 1 by omega), ← hq, ITy.arith_eq (ITy.has_promote hH), ITy.conv_eq hN hH]
  rfl

/-- C37: on types narrower than `int` the hypothesis on the sum is always met: `ceil_div` is exact for every nonnegative dividend and
positive divisor -/
theorem C37_ceil_div_narrow (t : ITy) (hN : 1 ≤ t.N) (hn : t.N ≤ 16) (a b : ℤ) (ha : t.Has a) (hb : t.Has b) (h0 : 0 ≤ a)
    (hpos : 0 < b) : ∃ q, ceilDiv t a b = some q ∧ a ≤ q * b ∧ (q - 1) * b < a := by
  apply C37_ceil_div_partial t hN a b ha h0 hpos
  have hle : ∀ z, t.Has z → z < 2 ^ 16 := by
    intro z hz
    have h1 : (2 : ℤ) ^ t.N ≤ 2 ^ 16 := pow_le_pow_right₀ (by norm_num) hn
    have h2 : (2 : ℤ) ^ (t.N - 1) ≤ 2 ^ 16 := pow_le_pow_right₀ (by norm_num) (by omega)
    cases hs : t.signed
    · rw [ITy.has_unsigned hs] at hz; omega
    · rw [ITy.has_signed hs] at hz; omega
  have h1 := hle a ha
  have h2 := hle b hb
  rw [show t.promote = ⟨32, true⟩ from if_pos (by omega), ITy.has_signed rfl]
  change -2 ^ 31 ≤ _ ∧ _ < 2 ^ 31
  omega

/-- C37 (partial, as above): `safe::ceil_div` is defined for a zero divisor, where it returns 0, and otherwise is the ceiling -/
theorem C37_safe_partial (t : ITy) (hN : 1 ≤ t.N) (a b : ℤ) (ha : t.Has a) (h0 : 0 ≤ a) (hb : 0 ≤ b)
    (hs : t.promote.Has (a + b)) :
    ∃ q, safeCeilDiv t a b = some q ∧ (b = 0 → q = 0) ∧ (0 < b → a ≤ q * b ∧ (q - 1) * b < a) := by
  unfold safeCeilDiv
  by_cases h : b = 0
  · exact ⟨0, if_pos h, fun _ => rfl, fun h' => absurd h' (by omega)⟩
  · obtain ⟨q, e, h1, h2⟩ := C37_ceil_div_partial t hN a b ha h0 (by omega) hs
    exact ⟨q, by rw [if_neg h, e], fun h' => absurd h' h, fun _ => ⟨h1, h2⟩⟩

/-- C37 fails: `a + b - 1` wraps for `uint32_t` (also in `safe::ceil_div`) and overflows for `int32_t`, and the truncating division
gives the wrong rounding for negative dividends (the header says it is intended for nonnegative values) -/
theorem C37_ceil_div_wrong :
    ceilDiv ⟨32, false⟩ 4294967295 2 = some 0 ∧ safeCeilDiv ⟨32, false⟩ 4294967295 2 = some 0 ∧
    ceilDiv ⟨32, true⟩ 2147483647 2 = none ∧ safeCeilDiv ⟨32, true⟩ 2147483647 2 = none ∧
    ceilDiv ⟨32, true⟩ (-7) 3 = some (-1) := by decide +kernel

example : ceilDiv ⟨32, true⟩ 10 4 = some 3 ∧ ceilDiv ⟨8, false⟩ 255 2 = some 128 := by decide +kernel

/-! ## C38 is_power_of_two -/

/-- C38: unsigned types -/
theorem C38_unsigned (t : ITy) (hs : t.signed = false) (n : ℤ) (hn : t.Has n) :
    ∃ r, isPowerOfTwo t n = some r ∧ (r = true ↔ ∃ k : ℕ, n = 2 ^ k) := by
  rw [ITy.has_unsigned hs] at hn
  refine ⟨_, if_neg (by simp [hs]), ?_⟩
  rw [C34_has_single_bit]
  constructor
  · rintro ⟨k, hk⟩; exact ⟨k, by rw [← Int.toNat_of_nonneg hn.1, hk]; push_cast; rfl⟩
  · rintro ⟨k, hk⟩; exact ⟨k, by rw [hk]; exact_mod_cast Int.toNat_natCast (2 ^ k)⟩

/-- C38 (partial: the least value of a type at least as wide as `int` is excluded): signed types.
The full claim is for every value; see `C38_signed_undefined`. -/
theorem C38_signed_partial (t : ITy) (hN : 1 ≤ t.N) (hs : t.signed = true) (n : ℤ) (hn : t.Has n) (hmin : 32 ≤ t.N → n ≠ t.min) :
    ∃ r, isPowerOfTwo t n = some r ∧ (r = true ↔ ∃ k : ℕ, n = 2 ^ k) := by
  have hp := ITy.promote_N hN
  unfold isPowerOfTwo
  rw [if_pos hs]
  by_cases h0 : n = 0
  · rw [if_pos h0]
    refine ⟨false, rfl, ?_⟩
    simp only [Bool.false_eq_true, false_iff, not_exists]
    intro k hk
    rw [h0] at hk
    exact absurd hk (by positivity)
  rw [if_neg h0]
  have hnp := ITy.has_promote hn
  have hps : t.promote.signed = true := by
    unfold ITy.promote; split
    · rfl
    · exact hs
  have hm : t.promote.Has (n - 1) := by
    rw [ITy.has_signed hps] at hnp ⊢
    refine ⟨?_, by omega⟩
    by_cases h32 : t.N < 32
    · rw [show t.promote = ⟨32, true⟩ from if_pos h32] at *
      rw [ITy.has_signed hs] at hn
      have h2 : (2 : ℤ) ^ (t.N - 1) ≤ 2 ^ 30 := pow_le_pow_right₀ (by norm_num) (by omega)
      change -2 ^ 31 ≤ _
      omega
    · have hpe : t.promote = t := if_neg h32
      rw [hpe] at hnp ⊢
      have := hmin (by omega)
      simp only [ITy.min, hs, if_true] at this
      omega
  simp only [ITy.arith_eq hm, Option.bind_eq_bind, Option.bind_some]
  refine ⟨_, rfl, ?_⟩
  rw [beq_iff_eq, ITy.band]
  set p := t.promote with hpdef
  have rn := ITy.repr_of hp.1 hnp
  have rm := ITy.repr_of hp.1 hm
  have ln := p.repr_lt n
  have lm := p.repr_lt (n - 1)
  set x := p.repr n
  set y := p.repr (n - 1)
  have h2 := ITy.two_pow_N_nat hp.1
  have hM : ((2 ^ (p.N - 1) : ℕ) : ℤ) = 2 ^ (p.N - 1) := by push_cast; rfl
  clear_value x y
  by_cases hpos : 0 < n
  · rw [if_neg (by omega)] at rn rm
    have hy : y = x - 1 := by omega
    have hx : x ≠ 0 := by omega
    have hH : p.Has ((x &&& y : ℕ) : ℤ) := by
      have : x &&& y ≤ x := Nat.and_le_left
      rw [ITy.has_signed hps] at hnp ⊢
      constructor <;> omega
    rw [ITy.conv_eq hp.1 hH, hy, Int.natCast_eq_zero, and_pred_eq_zero_iff hx]
    constructor
    · rintro ⟨k, hk⟩; exact ⟨k, by rw [← rn, hk]; push_cast; rfl⟩
    · rintro ⟨k, hk⟩; exact ⟨k, by rw [hk] at rn; exact_mod_cast rn⟩
  · rw [if_pos (by omega)] at rn rm
    have : ¬ ∃ k : ℕ, n = 2 ^ k := by
      rintro ⟨k, hk⟩
      have : (0 : ℤ) < 2 ^ k := by positivity
      omega
    simp only [this, iff_false]
    intro hz
    have hd := ITy.conv_dvd p ((x &&& y : ℕ) : ℤ)
    rw [hz, zero_sub, Int.dvd_neg] at hd
    have hd' : 2 ^ p.N ∣ x &&& y := by exact_mod_cast hd
    have hlt : x &&& y < 2 ^ p.N := lt_of_le_of_lt Nat.and_le_left ln
    have h00 := Nat.eq_zero_of_dvd_of_lt hd' hlt
    have tb := Nat.testBit_and x y (p.N - 1)
    rw [h00, Nat.zero_testBit, testBit_top (x := x) (by rwa [Nat.sub_add_cancel hp.1]),
      testBit_top (x := y) (by rwa [Nat.sub_add_cancel hp.1])] at tb
    rw [ITy.has_signed hps] at hnp hm
    rw [decide_eq_true (by omega), decide_eq_true (by omega)] at tb
    simp at tb

/-- C38 fails at `INT_MIN`: `n - 1` overflows, the behaviour is undefined (the header warns about it) -/
theorem C38_signed_undefined (N : ℕ) (hN : 32 ≤ N) : isPowerOfTwo ⟨N, true⟩ (ITy.mk N true).min = none := by
  have hp : (0 : ℤ) < 2 ^ (N - 1) := by positivity
  simp only [isPowerOfTwo, if_true, ITy.min, show (ITy.mk N true).promote = ⟨N, true⟩ from if_neg (by simpa using hN)]
  rw [if_neg (by omega), ITy.arith, if_pos rfl, if_neg]
  · rfl
  · rw [ITy.has_signed rfl]; change ¬ (-2 ^ (N - 1) ≤ _ ∧ _); omega

example : isPowerOfTwo ⟨8, true⟩ (-128) = some false ∧ isPowerOfTwo ⟨32, true⟩ 4096 = some true ∧
    isPowerOfTwo ⟨32, true⟩ (-4) = some false := by decide +kernel

/-- C38: `safe::is_power_of_two` on every signed value -/
theorem C38_safe (t : ITy) (hN : 1 ≤ t.N) (n : ℤ) (hn : t.Has n) :
    safeIsPowerOfTwo t n = true ↔ ∃ k : ℕ, n = 2 ^ k := by
  unfold safeIsPowerOfTwo
  rw [Bool.and_eq_true, decide_eq_true_eq, C34_has_single_bit]
  have rn := ITy.repr_of hN hn
  constructor
  · rintro ⟨hpos, k, hk⟩
    rw [if_neg (by omega), hk] at rn
    exact ⟨k, by rw [← rn]; push_cast; rfl⟩
  · rintro ⟨k, hk⟩
    have hpos : (0 : ℤ) < 2 ^ k := by positivity
    refine ⟨by omega, k, ?_⟩
    rw [if_neg (by omega)] at rn
    have : ((t.repr n : ℕ) : ℤ) = ((2 ^ k : ℕ) : ℤ) := by rw [rn, hk]; push_cast; rfl
    exact_mod_cast this

/-! ## C39 abs_diff -/

/-- C39: the distance, whenever it is a value of the type (always for unsigned types) -/
theorem C39_abs_diff (t : ITy) (hN : 1 ≤ t.N) (a b : ℤ) (hd : t.Has |a - b|) :
    absDiff t a b = some |a - b| := by
  have hdp := ITy.has_promote hd
  unfold absDiff
  by_cases h : a > b
  · rw [if_pos h]
    rw [abs_of_nonneg (by omega)] at *
    simp only [ITy.arith_eq hdp, Option.bind_eq_bind, Option.bind_some, ITy.conv_eq hN hd]; rfl
  · rw [if_neg h]
    rw [abs_of_nonpos (by omega), neg_sub] at *
    simp only [ITy.arith_eq hdp, Option.bind_eq_bind, Option.bind_some, ITy.conv_eq hN hd]; rfl

/-- C39: unsigned arguments are always fine -/
theorem C39_abs_diff_unsigned (t : ITy) (hN : 1 ≤ t.N) (hs : t.signed = false) (a b : ℤ) (ha : t.Has a) (hb : t.Has b) :
    absDiff t a b = some |a - b| := by
  apply C39_abs_diff t hN a b
  rw [ITy.has_unsigned hs] at *
  refine ⟨abs_nonneg _, ?_⟩
  rw [abs_lt]; omega

/-- C39: for signed types at least as wide as `int` the behaviour is undefined exactly when the distance is not representable -/
theorem C39_abs_diff_undefined (t : ITy) (hN : 32 ≤ t.N) (hs : t.signed = true) (a b : ℤ) (hd : ¬ t.Has |a - b|) :
    absDiff t a b = none := by
  have hp : t.promote = t := if_neg (by omega)
  unfold absDiff
  rw [hp]
  by_cases h : a > b
  · rw [if_pos h]
    rw [abs_of_nonneg (by omega)] at hd
    rw [ITy.arith, if_pos hs, if_neg hd]; rfl
  · rw [if_neg h]
    rw [abs_of_nonpos (by omega), neg_sub] at hd
    rw [ITy.arith, if_pos hs, if_neg hd]; rfl

example : absDiff ⟨32, true⟩ (-5) 7 = some 12 ∧ absDiff ⟨32, true⟩ (-2147483648) 1 = none ∧
    absDiff ⟨8, true⟩ 127 (-128) = some (-1) := by decide +kernel

end Verif
